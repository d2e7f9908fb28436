import Verif.Lemmas.Region
import Verif.Spec.Reach
/-!
# The definitions of a document are registered

A reference to the document or to one of its definitions finds a generator, and that generator was compiled from the
definition.
-/

namespace Chaff
open Comp

variable {c : PEnv} {root : SchemaNode} {pid : String} {o : Opts}

/-- Something is registered for the path. -/
def Known (s : PSt) (doc path : String) : Prop := ∃ g, ((doc, path), g) ∈ s.refs

theorem Known.later {s s' : PSt} {doc path : String} (h : Known s doc path) (e : ∃ l, s'.refs = l ++ s.refs) :
    Known s' doc path := by
  obtain ⟨g, hg⟩ := h
  obtain ⟨l, hl⟩ := e
  exact ⟨g, by rw [hl]; exact List.mem_append_right _ hg⟩

theorem Ev.known {s s' : PSt} {doc path : String} (e : Ev c s s') (h : Known s doc path) : Known s' doc path := by
  obtain ⟨l, hl, _⟩ := e.refs
  exact h.later ⟨l, hl⟩

theorem Known.lookup {s : PSt} {doc path : String} (h : Known s doc path) : ∃ g, refEnv s doc path = some g := by
  obtain ⟨g, hg⟩ := h
  unfold refEnv
  generalize s.refs = l at hg
  induction l with
  | nil => cases hg
  | cons e t ih =>
    obtain ⟨k, x⟩ := e
    unfold lookupRef
    split
    · exact ⟨x, rfl⟩
    · rename_i hk
      rcases List.mem_cons.1 hg with h | h
      · exact (hk (congrArg Prod.fst h).symm).elim
      · exact ih h

theorem popSources_refs : ∀ (k : Nat) {s s' : PSt} {a : Unit}, popSources k s = .ok a s' → s'.refs = s.refs
  | 0, s, s', a, h => by rw [(pure_ok.1 h).2]
  | k + 1, s, s', a, h => by
    unfold popSources at h
    obtain ⟨_, s1, h1, h2⟩ := bind_ok.1 h
    rw [popSources_refs k h2]
    unfold popRes at h1
    cases hr : s.resolutions with
    | nil => rw [hr] at h1; cases h1
    | cons x t =>
      rw [hr] at h1
      cases h1
      rfl

/-- A parsed node is registered under its path. -/
theorem node_known {schema : SchemaNode → PR} (hk : ∀ n, Keeps c (schema n)) {n : SchemaNode} {s s' : PSt}
    {a : Gen × Option Err} (h : parseNodeStep c schema n s = .ok a s') (ha : a.2 = none) :
    Known s' s.parsingId s.path := by
  unfold parseNodeStep at h
  obtain ⟨_, s1, h1, h2⟩ := bind_ok.1 h
  rw [modS_apply] at h1
  injection h1 with _ h1
  obtain ⟨dd, s2, h3, h4⟩ := bind_ok.1 h2
  cases h3
  split at h4
  · obtain ⟨_, s3, h5, h6⟩ := bind_ok.1 h4
    obtain ⟨rfl, _⟩ := pure_ok.1 h6
    cases ha
  · obtain ⟨r', s3, h5, h6⟩ := bind_ok.1 h4
    obtain ⟨_, s4, h7, h8⟩ := bind_ok.1 h6
    obtain ⟨_, s5, h9, h10⟩ := bind_ok.1 h8
    obtain ⟨_, s6, h11, h12⟩ := bind_ok.1 h10
    have e3 := hk n _ _ _ h5
    have e4 := keeps_recordErr (c := c) r'.2 _ _ _ h7
    rw [modS_apply] at h11
    injection h11 with _ h11
    have e6 : Known s6 s.parsingId s.path := by
      unfold registerNode at h9
      obtain ⟨_, s7, h13, h14⟩ := bind_ok.1 h9
      have e7 : s7.parsingId = s4.parsingId ∧ s7.path = s4.path := by
        cases hi : n.id with
        | some i =>
          rw [hi] at h13
          simp only [addIdReference] at h13
          rw [modS_apply] at h13
          injection h13 with _ h13
          subst h13
          exact ⟨rfl, rfl⟩
        | none =>
          rw [hi] at h13
          obtain ⟨_, rfl⟩ := pure_ok.1 h13
          exact ⟨rfl, rfl⟩
      unfold addReference at h14
      rw [modS_apply] at h14
      injection h14 with _ h14
      refine ⟨nilToNull r'.1, ?_⟩
      rw [← h11, ← h14]
      have p1 : s.parsingId = s7.parsingId := by rw [e7.1, e4.parsing, e3.parsing, ← h1]
      have p2 : s.path = s7.path := by rw [e7.2, e4.path, e3.path, ← h1]
      rw [p1, p2]
      exact List.mem_cons_self
    cases hc : n.constraints with
    | some cc =>
      rw [hc] at h12
      obtain ⟨_, rfl⟩ := pure_ok.1 h12
      exact e6
    | none =>
      rw [hc] at h12
      obtain ⟨_, rfl⟩ := pure_ok.1 h12
      exact e6

theorem rec_known {k : Nat} {n : SchemaNode} {s s' : PSt} {a : Gen × Option Err}
    (h : (parseRec c k).node n s = .ok a s') (ha : a.2 = none) : Known s' s.parsingId s.path := by
  cases k with
  | zero => simp [parseRec] at h
  | succ k => exact node_known (schema := (parseRec c k).schema) (keeps_parseRec k).schema h ha

/-- A definition is registered under its path. -/
theorem scope_known {R : Places} {k b : Nat} {ts us : List String} {scope : String} {n : SchemaNode} {src : List SchemaNode}
    (hp : pointerText (ts ++ us) = pointerText ts ++ scope)
    (hsrc : Goes c root R pid b (ts ++ us) (pushSources c scope src) (fun _ => True))
    (hn : Goes c root R pid b (ts ++ us) ((parseRec c k).node n) (fun a => a.2 = none)) {s s' : PSt} {a : Gen × Option Err}
    (hg : Good c root R pid b ts s) (h : parseInScope c (parseRec c k) scope n src s = .ok a s') (he : s'.errors = []) :
    Known s' pid (pointerText (ts ++ us)) := by
  unfold parseInScope at h
  obtain ⟨_, s1, h1, h2⟩ := bind_ok.1 h
  obtain ⟨k', s2, h3, h4⟩ := bind_ok.1 h2
  obtain ⟨g, s3, h5, h6⟩ := bind_ok.1 h4
  obtain ⟨_, s4, h7, h8⟩ := bind_ok.1 h6
  obtain ⟨_, s5, h9, h10⟩ := bind_ok.1 h8
  obtain ⟨rfl, rfl⟩ := pure_ok.1 h10
  have hg1 : Good c root R pid b (ts ++ us) s1 := by
    unfold pushPath at h1
    rw [modS_apply] at h1
    injection h1 with _ h1
    subst h1
    exact ⟨hg.parsing, hg.resolving, hg.queue, by simp only; rw [hg.path, hp], hg.depth, hg.refs, hg.stack.append us,
      fun f => ⟨(hg.world f).1, (hg.world f).2, (hg.world f).3, (hg.world f).4, (hg.world f).5⟩, hg.texts⟩
  have e4 := keeps_free (popPath_errors scope) h9 he
  have e3 := keeps_free (popSources_errors k') h7 e4
  have e2 := ((keeps_parseRec k).node n s2 g s3 h5).noErrors e3
  obtain ⟨hg2, _⟩ := hsrc s1 k' s2 hg1 h3 e2
  obtain ⟨hg3, hq⟩ := hn s2 g s3 hg2 h5 e3
  have h0 := rec_known h5 hq
  rw [hg2.parsing, hg2.path] at h0
  have r1 : s4.refs = s3.refs := popSources_refs k' h7
  have r2 : s5.refs = s4.refs := by
    unfold popPath at h9
    split at h9
    · cases h9; rfl
    · cases h9
  exact h0.later ⟨[], by rw [r2, r1]; rfl⟩

theorem defs_known {k : Nat} (hsup : ∀ d ts m, Inside root d ts m → PlaceOk c o root d ts m) {kw : String}
    (hkw : PlainName kw) : ∀ l : List (String × SchemaNode),
    (∀ q ∈ l, Inside root 1 [kw, q.1] q.2 ∧ PlainName q.1) → ∀ s a s', Good c root (Visited c o root) pid 1 [] s →
    parseDefs c (parseRec c k) kw l s = .ok a s' → s'.errors = [] → ∀ q ∈ l, Known s' pid (pointerText [kw, q.1]) := by
  intro l
  induction l with
  | nil => intro _ _ _ _ _ _ _ _ h; cases h
  | cons q t ih =>
    intro hl s a s' hg h he q' hq'
    obtain ⟨name, m⟩ := q
    obtain ⟨hin, hnm⟩ := hl (name, m) (by simp)
    unfold parseDefs at h
    obtain ⟨x, s1, h1, h2⟩ := bind_ok.1 h
    have hev := keeps_parseDefs (keeps_parseRec (c := c) k) kw t _ _ _ h2
    have e1 := hev.noErrors he
    have hsrc := goes_sources (c := c) (root := root) (R := Visited c o root) (pid := pid) (b := 1) (us := [kw, name])
      (scope := "/" ++ kw ++ "/" ++ name) (List.prefix_refl _) (plainTokens_two hkw hnm)
    have hrec := goes_parseRec (c := c) (pid := pid) hsup k 1 [kw, name] m (.inl hin) (plainTokens_two hkw hnm)
    have hg1 : Good c root (Visited c o root) pid 1 [] s1 :=
      (goes_inScope (keeps_parseRec k) [kw, name] (pointerText_two [] kw name) hsrc hrec s x s1 hg h1 e1).1
    rcases List.mem_cons.1 hq' with rfl | hq'
    · refine hev.known ?_
      exact scope_known (ts := []) (us := [kw, name]) (pointerText_two [] kw name) hsrc (hrec.imp fun _ h => h.1) hg h1 e1
    · exact ih (fun q hq => hl q (by simp [hq])) s1 a s' hg1 h2 he q' hq'

/-- The tokens of the document itself and of its definitions. -/
inductive DefinedAt (root : SchemaNode) : List String → SchemaNode → Prop
  | root : DefinedAt root [] root
  | named {kw name : String} {t : SchemaNode} : kw ∈ ["$defs", "definitions"] → HasNamed root name t kw →
      DefinedAt root [kw, name] t

/-- After the document is parsed all of them are registered. -/
theorem root_known {k : Nat} (hsup : ∀ d ts m, Inside root d ts m → PlaceOk c o root d ts m) {s s' : PSt}
    {a : Gen × Option Err} (hg : Good c root (Visited c o root) pid 0 [] s)
    (h : parseRoot c (parseRec c k) root s = .ok a s') (he : s'.errors = []) {ts : List String} {t : SchemaNode}
    (hd : DefinedAt root ts t) : Known s' pid (pointerText ts) := by
  have hs := hsup 0 [] root .root
  have good : ∀ {s : PSt}, Good c root (Visited c o root) pid 0 [] s → Good c root (Visited c o root) pid 1 [] s :=
    fun hg => ⟨hg.parsing, hg.resolving, hg.queue, hg.path, by have := hg.depth; push_cast at this ⊢; omega, hg.refs, hg.stack, hg.world, hg.texts⟩
  have back : ∀ {s s' : PSt}, s'.depth = s.depth → Good c root (Visited c o root) pid 0 [] s →
      Good c root (Visited c o root) pid 1 [] s' → Good c root (Visited c o root) pid 0 [] s' :=
    fun e hg hg2 => ⟨hg2.parsing, hg2.resolving, hg2.queue, hg2.path, by rw [e]; exact hg.depth, hg2.refs, hg2.stack, hg2.world, hg2.texts⟩
  have w1 : PlainName "$defs" := by unfold PlainName; decide
  have w2 : PlainName "definitions" := by unfold PlainName; decide
  have p1 : ∀ q ∈ getZeroIfNil root.defs [], Inside root 1 ["$defs", q.1] q.2 ∧ PlainName q.1 := by
    rintro ⟨name, m⟩ hq
    cases hp : root.defs with
    | none => rw [hp] at hq; simp [getZeroIfNil] at hq
    | some p =>
      rw [hp] at hq
      obtain ⟨hnd, hnm⟩ := hs.defs p hp
      exact ⟨.named .root (.defs p hp (lookupKV_of_mem hnd hq)), hnm name (mem_keysKV.2 ⟨m, hq⟩)⟩
  have p2 : ∀ q ∈ getZeroIfNil root.definitions [], Inside root 1 ["definitions", q.1] q.2 ∧ PlainName q.1 := by
    rintro ⟨name, m⟩ hq
    cases hp : root.definitions with
    | none => rw [hp] at hq; simp [getZeroIfNil] at hq
    | some p =>
      rw [hp] at hq
      obtain ⟨hnd, hnm⟩ := hs.definitions p hp
      exact ⟨.named .root (.definitions p hp (lookupKV_of_mem hnd hq)), hnm name (mem_keysKV.2 ⟨m, hq⟩)⟩
  unfold parseRoot at h
  obtain ⟨_, s1, h1, h2⟩ := bind_ok.1 h
  obtain ⟨_, s2, h3, h4⟩ := bind_ok.1 h2
  have v3 := (keeps_parseRec (c := c) k).node root _ _ _ h4
  have v2 := keeps_parseDefs (keeps_parseRec (c := c) k) _ _ _ _ _ h3
  have v1 := keeps_parseDefs (keeps_parseRec (c := c) k) _ _ _ _ _ h1
  have e2 := v3.noErrors he
  have e1 := v2.noErrors e2
  have g1 := back v1.depth hg (goes_defs hsup w1 _ p1 _ _ _ (good hg) h1 e1).1
  have g2 := back v2.depth g1 (goes_defs hsup w2 _ p2 _ _ _ (good g1) h3 e2).1
  cases hd with
  | root =>
    have := rec_known h4 (goes_parseRec hsup k 0 [] root (.inl .root) (fun t ht => by cases ht) _ _ _ g2 h4 he).2.1
    rwa [g2.parsing, g2.path] at this
  | named hkw hn =>
    cases hn with
    | properties => simp at hkw
    | patternProperties => simp at hkw
    | definitions m hm hl =>
      refine v3.known (defs_known hsup w2 _ p2 _ _ _ (good g1) h3 e2 (_, t) ?_)
      rw [hm]; exact lookupKV_mem hl
    | defs m hm hl =>
      refine v3.known (v2.known (defs_known hsup w1 _ p1 _ _ _ (good hg) h1 e1 (_, t) ?_))
      rw [hm]; exact lookupKV_mem hl

theorem hasNamed_unique {n x y : SchemaNode} {name kw kw' : String} (h : HasNamed n name x kw) (h' : HasNamed n name y kw')
    (e : kw = kw') : x = y := by
  cases h <;> cases h' <;> first | (simp at e; done) | skip
  all_goals
    rename_i m hm hl m' hm' hl'
    rw [hm] at hm'
    cases hm'
    rw [hl] at hl'
    cases hl'
    rfl

/-- The tokens determine the schema. -/
theorem DefinedAt.unique {ts : List String} {t n : SchemaNode} {d : Nat} (h : DefinedAt root ts t) (h' : Inside root d ts n) :
    n = t := by
  have nil : ∀ {d ts n}, Inside root d ts n → ts = [] → n = root := by
    intro d ts n hi hts
    cases hi with
    | root => rfl
    | _ => simp at hts
  cases h with
  | root => exact nil h' rfl
  | @named kw name _ hkw hn =>
    generalize hts : [kw, name] = ts at h'
    have two : ∀ {us : List String} {a b : String}, [kw, name] = us ++ [a, b] → us = [] ∧ kw = a ∧ name = b := by
      intro us a b h
      have hl := congrArg List.length h
      simp only [List.length_append, List.length_cons, List.length_nil] at hl
      have : us = [] := List.eq_nil_of_length_eq_zero (by omega)
      subst this
      simpa using h
    have one : ∀ {us : List String} {a : String} {d n}, [kw, name] = us ++ [a] → Inside root d us n → False := by
      intro us a d n h hi
      have hus : us = [kw] := by
        have := congrArg List.dropLast h
        simpa using this.symm
      have := hi.steps
      rw [hus] at this
      cases this with
      | single hk _ =>
        rw [List.mem_cons, List.mem_singleton] at hkw
        rcases hkw with rfl | rfl <;> revert hk <;> decide
    cases h' with
    | root => simp at hts
    | named hi hn' =>
      obtain ⟨rfl, rfl, rfl⟩ := two hts
      have := nil hi rfl
      subst this
      exact hasNamed_unique hn' hn rfl
    | sub hi hn' => exact (one hts hi).elim
    | items hi => exact (one hts hi).elim
    | prefixItems hi =>
      obtain ⟨_, rfl, _⟩ := two hts
      simp at hkw

theorem DefinedAt.inside {ts : List String} {t : SchemaNode} (h : DefinedAt root ts t) : ∃ d, Inside root d ts t := by
  cases h with
  | root => exact ⟨0, .root⟩
  | named _ hn => exact ⟨1, .named .root hn⟩

/-- Only the definition itself is ever visited under its path. -/
theorem DefinedAt.visited {ts : List String} {t n : SchemaNode} {d : Nat} (h : DefinedAt root ts t)
    (hv : Visited c o root d ts n) : n = t := by
  rcases hv with hv | ⟨hoff | ⟨e, hv⟩, _⟩ | ⟨hoff, _⟩
  · exact h.unique hv
  rotate_left
  · exact h.unique hv
  all_goals
    obtain ⟨d, hd⟩ := h.inside
    exact (hoff.not_inside hd).elim

theorem pointerText_definition (kw name : String) : pointerText [kw, name] = "#/" ++ kw ++ "/" ++ name := by
  have := pointerText_two [] kw name
  rw [List.nil_append] at this
  rw [this]
  have e : pointerText [] = "#" := rfl
  rw [e, ← String.append_assoc, ← String.append_assoc, ← String.append_assoc]
  rfl

/-- A parse that reports no error compiles the whole document and registers the document and its definitions. -/
theorem parse_defined {fuel : Nat} {schema : JVal} {g : Gen} {s : PSt} (hroot : decodeNode schema = some root)
    (hsup : ∀ d ts m, Inside root d ts m → PlaceOk c o root d ts m)
    (h : parseSchema c fuel schema = .done (.ok (g, none) s)) (he : s.errors = []) :
    ∃ pid, CompiledK c root (Visited c o root) pid fuel root g ∧ ∀ r t, Defined root r t →
      ∃ k d ts g', refEnv s pid r = some g' ∧ Visited c o root d ts t ∧ CompiledK c root (Visited c o root) pid k t g' := by
  obtain ⟨pid, h1, h2, s0, hg, h3⟩ := parse_compiled_run hroot hsup h he
  refine ⟨pid, h1, ?_⟩
  intro r t hd
  have key : ∀ us, DefinedAt root us t → PlainTokens us →
      ∃ k d ts g', refEnv s pid (pointerText us) = some g' ∧ Visited c o root d ts t ∧
        CompiledK c root (Visited c o root) pid k t g' := by
    intro us hu hp
    obtain ⟨g', e⟩ := (root_known hsup hg h3 he hu).lookup
    obtain ⟨k, d, ts, n, p1, p2, p3, p4⟩ := h2 _ _ e
    have := pointerText_inj hp p1 p2
    subst this
    have := hu.visited p3
    subst this
    exact ⟨k, d, us, g', e, p3, p4⟩
  cases hd with
  | root => exact key [] .root (by intro t ht; cases ht)
  | @definition kw name _ hkw hn =>
    rw [← pointerText_definition]
    refine key _ (.named hkw hn) ?_
    have hs := hsup 0 [] root .root
    have hname : PlainName name := by
      rw [List.mem_cons, List.mem_singleton] at hkw
      cases hn with
      | defs p hp hl => exact (hs.defs p hp).2 _ (mem_keysKV.2 ⟨_, lookupKV_mem hl⟩)
      | definitions p hp hl => exact (hs.definitions p hp).2 _ (mem_keysKV.2 ⟨_, lookupKV_mem hl⟩)
      | _ => simp at hkw
    have hk : PlainName kw := by
      rw [List.mem_cons, List.mem_singleton] at hkw
      rcases hkw with rfl | rfl <;> unfold PlainName <;> decide
    intro x hx
    rw [List.mem_cons, List.mem_singleton] at hx
    rcases hx with rfl | rfl
    · exact hk
    · exact hname

end Chaff
