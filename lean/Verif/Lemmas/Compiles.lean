import Verif.Lemmas.PTop
import Verif.Lemmas.Compiled
import Verif.Lemmas.PKeeps
import Verif.Spec.Combine
/-!
# The parser compiles supported schemas

Every part of the parser that a supported schema reaches, when it ends without a recorded error, keeps `Good` and
returns a compiled generator.
-/

namespace Chaff
open Comp

/-! ## Compilation is monotone in the recursion depth -/

section mono
variable {c : PEnv} {root : SchemaNode} {R : Places} {pid : String} {C C' : SchemaNode → Gen → Prop}

theorem OptC.mono (h : ∀ n g, C n g → C' n g) {a b} (x : OptC C a b) : OptC C' a b := by
  cases x with
  | none => exact .none
  | some x => exact .some (h _ _ x)

theorem CType.mono (h : ∀ n g, C n g → C' n g) {n : SchemaNode} {t : String} {g : Gen} (x : CType c C n t g) :
    CType c C' n t g := by
  cases x with
  | object q p a h1 h0 h2 h3 =>
    exact .object q p a h1 (List.Forall₂.imp (fun _ _ q => ⟨q.1, h _ _ q.2.1, q.2.2⟩) h0) (h2.imp fun _ _ q => ⟨q.1, h _ _ q.2⟩) (h3.mono h)
  | array i k tu h1 h2 h3 h4 => exact .array i k tu h1 (h2.mono h) (h3.mono h) (h4.imp h)
  | number r h1 => exact .number r h1
  | integer r h1 => exact .integer r h1
  | string rx h1 h2 => exact .string rx h1 h2
  | boolean => exact .boolean
  | null => exact .null

theorem CStep.mono (h : ∀ n g, C n g → C' n g) {n : SchemaNode} {g : Gen} (x : CStep c pid C n g) :
    CStep c pid C' n g := by
  cases x with
  | ref r h1 => exact .ref r h1
  | enumOne l x f h1 h2 h3 => exact .enumOne l x f h1 h2 h3
  | enum l f h1 h2 => exact .enum l f h1 h2
  | const x h1 h2 => exact .const x h1 h2
  | typed t g h1 h2 h3 h4 h5 => exact .typed t g h1 h2 h3 h4 (h5.mono h)
  | types ts gs h1 h2 h3 h4 h5 =>
    exact .types ts gs h1 h2 h3 h4 (h5.imp fun _ _ hc => hc.mono h)

theorem CNode.mono (h : ∀ n g, C n g → C' n g) {n : SchemaNode} {g : Gen} (x : CNode c root R pid C n g) :
    CNode c root R pid C' n g := by
  cases x with
  | plain g h1 h3 => exact .plain g h1 (h3.mono h)
  | allOf d ts m g h0 h1 h2 h3 h4 => exact .allOf d ts m g h0 h1 h2 (h _ _ h3) h4
  | alternatives l gs h0 h1 =>
    exact .alternatives l gs h0 (h1.imp fun x g ⟨d, ts, m, h2, h3, h4, h5⟩ => ⟨d, ts, m, h2, h3, h _ _ h4, h5⟩)
  | alternative d ts m g h0 h1 h2 h3 => exact .alternative d ts m g h0 h1 h2 (h _ _ h3)
  | oneOf l gs fs h0 h1 h2 =>
    exact .oneOf l gs fs h0 (h1.imp fun x g ⟨d, ts, m, h3, h4, h5, h6⟩ => ⟨d, ts, m, h3, h4, h _ _ h5, h6⟩) h2
  | conditional x g ic h0 h1 h2 h3 h4 h5 h6 =>
    have key : ∀ y t, BranchC c root R C (withoutIf n) y t → BranchC c root R C' (withoutIf n) y t := by
      rintro y t ⟨d, ts, m, h7, h8, h9⟩
      exact ⟨d, ts, m, h7, h8, h _ _ h9⟩
    exact .conditional x g ic h0 (h1.mono h) h2
      (fun y hy => (h3 y hy).imp fun t ht => ⟨ht.1, key y t ht.2⟩)
      (fun y hy => (h4 y hy).imp fun t ht => ⟨ht.1, key y t ht.2⟩) h5 h6
  | excluded d ts m g fs h0 h1 h2 h3 h4 => exact .excluded d ts m g fs h0 h1 h2 (h _ _ h3) h4

theorem CompiledK.succ : ∀ (k : Nat) (n : SchemaNode) (g : Gen), CompiledK c root R pid k n g → CompiledK c root R pid (k + 1) n g
  | 0, _, _, h => h.elim
  | k + 1, _, _, h => CNode.mono (fun n g => CompiledK.succ k n g) h

theorem CStep.not_nil {n : SchemaNode} {g : Gen} (h : CStep c pid C n g) : g ≠ .nilGen := by
  rintro rfl
  cases h with
  | typed t g h1 h2 h3 h4 h5 =>
    generalize hg : Gen.nilGen = g at h5
    cases h5 with
    | number r _ => cases r <;> cases hg
    | integer r _ => cases r <;> cases hg
    | _ => cases hg

theorem CompiledK.not_nil : ∀ {k : Nat} {n : SchemaNode} {g : Gen}, CompiledK c root R pid k n g → g ≠ .nilGen
  | 0, _, _, h => h.elim
  | k + 1, n, g, h => by
    have h : CNode c root R pid (CompiledK c root R pid k) n g := h
    cases h with
    | plain g _ h3 => exact h3.not_nil
    | allOf d ts m g _ _ _ _ _ => nofun
    | alternatives l gs _ _ => nofun
    | alternative d ts m g _ _ _ h3 => exact CompiledK.not_nil h3
    | oneOf l gs fs _ _ _ => nofun
    | conditional x g ic _ _ _ _ _ _ _ => nofun
    | excluded d ts m g fs _ _ _ _ _ => nofun

end mono

/-! ## Text of pointers -/

theorem pointerText_eq (ts : List String) : pointerText ts = ts.foldl (fun acc x => acc ++ "/" ++ x) "#" := by
  cases ts <;> rfl

theorem pointerText_hash (ts : List String) : ∃ t, pointerText ts = "#" ++ t := by
  rw [pointerText_eq]
  have key : ∀ (l : List String) (a : String), ∃ t, l.foldl (fun acc x => acc ++ "/" ++ x) ("#" ++ a) = "#" ++ t := by
    intro l
    induction l with
    | nil => exact fun a => ⟨a, rfl⟩
    | cons x l ih =>
      intro a
      rw [List.foldl_cons, String.append_assoc, String.append_assoc]
      exact ih _
  exact key ts ""

theorem pointerText_one (ts : List String) (a : String) : pointerText (ts ++ [a]) = pointerText ts ++ ("/" ++ a) := by
  rw [pointerText_eq, pointerText_eq, List.foldl_append]
  simp [String.append_assoc]

theorem pointerText_two (ts : List String) (a b : String) :
    pointerText (ts ++ [a, b]) = pointerText ts ++ ("/" ++ a ++ "/" ++ b) := by
  rw [pointerText_eq, pointerText_eq, List.foldl_append]
  simp [String.append_assoc]

theorem plainTokens_append {ts us : List String} (h : PlainTokens ts) (h' : PlainTokens us) : PlainTokens (ts ++ us) := by
  intro t ht
  rcases List.mem_append.1 ht with ht | ht
  · exact h t ht
  · exact h' t ht

theorem plain_toString (i : Nat) : PlainName (toString i) := by
  have hd : ∀ ch ∈ (toString i).toList, ch.isDigit = true := by
    intro ch hch
    exact Nat.isDigit_of_mem_toDigits (b := 10) (by decide) (by decide) (by simpa [toString, Nat.repr] using hch)
  refine ⟨?_, fun h => ?_, fun h => ?_⟩
  · intro h
    have := congrArg String.toList h
    simp [toString, Nat.repr] at this
  · exact absurd (hd _ h) (by decide)
  · exact absurd (hd _ h) (by decide)

/-! ## States -/

/-- Tokens below the combinator of a place. -/
inductive Off (root : SchemaNode) : List String → Prop
  | intro {d : Nat} {ts : List String} {n : SchemaNode} (kw : String) (us : List String) : Inside root d ts n →
      kw ∈ ["allOf", "anyOf", "oneOf", "then", "else"] → Off root (ts ++ kw :: us)

theorem Off.append {root : SchemaNode} {ts : List String} (h : Off root ts) (us : List String) : Off root (ts ++ us) := by
  obtain ⟨kw, vs, hin, hk⟩ := h
  rw [List.append_assoc]
  exact .intro kw (vs ++ us) hin hk

/-- The references being resolved at the place `ts` are those of the definitions around it. -/
def Stack (root : SchemaNode) (pid : String) (ts : List String) (resolutions : List String) : Prop :=
  Off root ts ∨ ∀ key ∈ resolutions, ∃ us, us <+: ts ∧ PlainTokens us ∧ key = resKey pid (pointerText us)

theorem Stack.append {root : SchemaNode} {pid : String} {ts rs : List String} (h : Stack root pid ts rs) (us : List String) :
    Stack root pid (ts ++ us) rs := by
  rcases h with h | h
  · exact .inl (h.append us)
  · refine .inr fun key hk => ?_
    obtain ⟨vs, h1, h2⟩ := h key hk
    exact ⟨vs, h1.trans (List.prefix_append _ _), h2⟩

/-- The only document is the one being parsed. -/
structure SoleDoc (c : PEnv) (root : SchemaNode) (pid : String) (s : PSt) : Prop where
  key : pid = c.relativeTo
  docs : s.docs = [(pid, root)]
  aliases : s.aliases = []
  http : s.httpFetcher = none
  file : s.fileFetcher = none

/-- A text handed to the validation library: of the document, of a schema that lists values, of an alternative or of a
condition. -/
def Handed (root : SchemaNode) (pid : String) (e : String × JVal) : Prop :=
  e.1 = pid ∨
  (∃ p f, e.1 = resourceKey pid p f ∧ f ∈ ["enum", "const"]) ∨
  ∃ ts f x, Asked root ts f x ∧ e.1 = resourceKey pid (pointerText ts) f ∧ e.2 = replaceRefs pid (encodeNode x)

/-- A parser state at the place `ts` of the document. -/
structure Good (c : PEnv) (root : SchemaNode) (R : Places) (pid : String) (b : Nat) (ts : List String) (s : PSt) : Prop where
  parsing : s.parsingId = pid
  resolving : s.resolvingId = "" ∨ s.resolvingId = pid
  queue : s.queue = []
  path : s.path = pointerText ts
  depth : s.depth ≤ b
  /-- what is registered (an older entry under the same path does not count) -/
  refs : ∀ path g, lookupRef s.refs pid path = some g → ∃ k d us n, PlainTokens us ∧ path = pointerText us ∧ R d us n ∧
    CompiledK c root R pid k n g
  stack : Stack root pid ts s.resolutions
  world : Followable c root → SoleDoc c root pid s
  /-- what was handed to the validation library -/
  texts : ∀ e ∈ s.resources, Handed root pid e

theorem Good.scope {c : PEnv} {root : SchemaNode} {R : Places} {pid : String} {b : Nat} {ts : List String} {s : PSt}
    (h : Good c root R pid b ts s) : (if s.resolvingId ≠ "" then s.resolvingId else s.parsingId) = pid := by
  rcases h.resolving with e | e
  · rw [if_neg (by rw [e]; simp), h.parsing]
  · rw [e]
    split
    · rfl
    · exact h.parsing

section goes
variable {c : PEnv} {root : SchemaNode} {R : Places} {pid : String}

/-- Ending without errors, `m` keeps `Good` and returns something with `Q`. -/
def Goes (c : PEnv) (root : SchemaNode) (R : Places) (pid : String) (b : Nat) (ts : List String) {α : Type} (m : P α)
    (Q : α → Prop) : Prop :=
  ∀ s a s', Good c root R pid b ts s → m s = .ok a s' → s'.errors = [] → Good c root R pid b ts s' ∧ Q a

theorem Ev.noErrors {s s' : PSt} (h : Ev c s s') (he : s'.errors = []) : s.errors = [] := by
  obtain ⟨l, hl, _⟩ := h.errors
  rw [he] at hl
  exact (List.append_eq_nil_iff.1 hl.symm).2

variable {b : Nat} {ts : List String}

theorem Goes.pure {α : Type} {a : α} {Q : α → Prop} (h : Q a) : Goes c root R pid b ts (Pure.pure a : P α) Q := by
  intro s a' s' hg hm _
  obtain ⟨rfl, rfl⟩ := pure_ok.1 hm
  exact ⟨hg, h⟩

theorem Goes.bind {α β : Type} {m : P α} {f : α → P β} {Q : α → Prop} {S : β → Prop} (hk : ∀ a, Keeps c (f a))
    (hm : Goes c root R pid b ts m Q) (hf : ∀ a, Q a → Goes c root R pid b ts (f a) S) :
    Goes c root R pid b ts (m >>= f) S := by
  intro s x s' hg h he
  obtain ⟨a, s1, h1, h2⟩ := bind_ok.1 h
  have he1 := ((hk a) s1 x s' h2).noErrors he
  obtain ⟨hg1, hq⟩ := hm s a s1 hg h1 he1
  exact hf a hq s1 x s' hg1 h2 he

theorem Goes.imp {α : Type} {m : P α} {Q S : α → Prop} (hm : Goes c root R pid b ts m Q) (h : ∀ a, Q a → S a) :
    Goes c root R pid b ts m S := fun s a s' hg hs he => ⟨(hm s a s' hg hs he).1, h a (hm s a s' hg hs he).2⟩

/-- What a finished sub-schema gives. -/
def Done (C : SchemaNode → Gen → Prop) (n : SchemaNode) (r : Gen × Option Err) : Prop := r.2 = none ∧ C n r.1

theorem goes_popSources (k : Nat) : Goes c root R pid b ts (popSources k) (fun _ => True) := by
  induction k with
  | zero => exact Goes.pure trivial
  | succ k ih =>
    intro s a s' hg h he
    unfold popSources at h
    obtain ⟨_, s1, h1, h2⟩ := bind_ok.1 h
    refine ih s1 a s' ?_ h2 he
    unfold popRes at h1
    cases hr : s.resolutions with
    | nil => rw [hr] at h1; cases h1
    | cons x t =>
      rw [hr] at h1
      cases h1
      refine ⟨hg.parsing, hg.resolving, hg.queue, hg.path, hg.depth, hg.refs, ?_, fun f => ?_, hg.texts⟩
      · rcases hg.stack with h | h
        · exact .inl h
        · exact .inr fun key hk => h key (by rw [hr]; exact List.mem_cons_of_mem _ hk)
      · obtain ⟨w1, w2, w3, w4, w5⟩ := hg.world f
        exact ⟨w1, w2, w3, w4, w5⟩

theorem keeps_free {m : P Unit} (h : ∀ s a s', m s = .ok a s' → s'.errors = s.errors) {s s' : PSt} {a : Unit}
    (hm : m s = .ok a s') (he : s'.errors = []) : s.errors = [] := by rw [← h s a s' hm]; exact he

theorem popSources_errors (k : Nat) : ∀ s a s', popSources k s = .ok a s' → s'.errors = s.errors := by
  induction k with
  | zero => intro s a s' h; obtain ⟨_, rfl⟩ := pure_ok.1 h; rfl
  | succ k ih =>
    intro s a s' h
    unfold popSources at h
    obtain ⟨_, s1, h1, h2⟩ := bind_ok.1 h
    rw [ih s1 a s' h2]
    unfold popRes at h1
    cases hr : s.resolutions with
    | nil => rw [hr] at h1; cases h1
    | cons x t => rw [hr] at h1; cases h1; rfl

theorem popPath_errors (part : String) : ∀ s a s', popPath part s = .ok a s' → s'.errors = s.errors := by
  intro s a s' h
  unfold popPath at h
  split at h
  · cases h; rfl
  · cases h

/-- A sub-schema in its scope. -/
theorem goes_inScope {r : PRec} (hr : KeepsRec c r) {scope : String} {n : SchemaNode} {src : List SchemaNode}
    (us : List String) {Q : Gen × Option Err → Prop} (hp : pointerText (ts ++ us) = pointerText ts ++ scope)
    (hsrc : Goes c root R pid b (ts ++ us) (pushSources c scope src) (fun _ => True))
    (hn : Goes c root R pid b (ts ++ us) (r.node n) Q) : Goes c root R pid b ts (parseInScope c r scope n src) Q := by
  intro s a s' hg h he
  have hev := keeps_parseInScope hr scope n src s a s' h
  unfold parseInScope at h
  obtain ⟨_, s1, h1, h2⟩ := bind_ok.1 h
  obtain ⟨k, s2, h3, h4⟩ := bind_ok.1 h2
  obtain ⟨g, s3, h5, h6⟩ := bind_ok.1 h4
  obtain ⟨_, s4, h7, h8⟩ := bind_ok.1 h6
  obtain ⟨_, s5, h9, h10⟩ := bind_ok.1 h8
  obtain ⟨rfl, rfl⟩ := pure_ok.1 h10
  have hg1 : Good c root R pid b (ts ++ us) s1 := by
    unfold pushPath at h1
    rw [modS_apply] at h1
    injection h1 with _ h1
    subst h1
    exact ⟨hg.parsing, hg.resolving, hg.queue, by simp only; rw [hg.path, hp], hg.depth, hg.refs, hg.stack.append us,
      fun f => ⟨(hg.world f).1, (hg.world f).2, (hg.world f).3, (hg.world f).4, (hg.world f).5⟩, hg.texts⟩
  have e4 := keeps_free (popPath_errors scope) h9 he
  have e3 := keeps_free (popSources_errors k) h7 e4
  have e2 := (hr.node n s2 g s3 h5).noErrors e3
  obtain ⟨hg2, _⟩ := hsrc s1 k s2 hg1 h3 e2
  obtain ⟨hg3, hq⟩ := hn s2 g s3 hg2 h5 e3
  obtain ⟨hg4, _⟩ := goes_popSources k s3 _ s4 hg3 h7 e4
  refine ⟨?_, hq⟩
  have hfields : s5.resolvingId = s4.resolvingId ∧ s5.queue = s4.queue ∧ s5.refs = s4.refs ∧ s5.resources = s4.resources ∧
      (SoleDoc c root pid s4 → SoleDoc c root pid s5) := by
    unfold popPath at h9
    split at h9
    · cases h9; exact ⟨rfl, rfl, rfl, rfl, fun w => ⟨w.1, w.2, w.3, w.4, w.5⟩⟩
    · cases h9
  exact ⟨hev.parsing.trans hg.parsing, by rw [hfields.1]; exact hg4.resolving, hfields.2.1.trans hg4.queue,
    hev.path.trans hg.path, by rw [hev.depth]; exact hg.depth, by rw [hfields.2.2.1]; exact hg4.refs,
    by rw [hev.res]; exact hg.stack, fun f => hfields.2.2.2.2 (hg4.world f), by rw [hfields.2.2.2.1]; exact hg4.texts⟩

theorem goes_noSources {scope : String} : Goes c root R pid b ts (pushSources c scope []) (fun _ => True) :=
  Goes.pure trivial

/-- The text of a local reference. -/
theorem splitHash_local (t : List Char) : splitHash ('#' :: t) = ([], '#' :: t) := by
  unfold splitHash; rw [if_pos rfl]

theorem matchDocument_local {t : String} {s s' : PSt} {m : String × String}
    (h : matchDocumentRegex ("#" ++ t) s = .ok m s') : m = ("", "#" ++ t) ∧ s' = s := by
  unfold matchDocumentRegex at h
  have hsp : splitHash ("#" ++ t).toList = ([], ("#" ++ t).toList) := by
    rw [String.toList_append]; exact splitHash_local _
  simp only [hsp] at h
  split at h
  · simp at h
  · obtain ⟨h1, h2⟩ := pure_ok.1 h
    refine ⟨?_, h2.symm⟩
    rw [← h1, String.ofList_toList]

/-- Pushing a local reference. -/
theorem push_local {scope r t : String} {l : List SchemaNode} {s s' : PSt} {a : Nat} {x : SchemaNode} (hx : x.ref = some r)
    (hr : r = "#" ++ t) (h : pushSources c scope (x :: l) s = .ok a s') (hg : Good c root R pid b ts s) :
    ∃ k, pushSources c scope l { s with resolutions := resKey pid r :: s.resolutions } = .ok k s' := by
  unfold pushSources at h
  rw [hx, hr] at h
  simp only at h
  obtain ⟨r, s1, h1, h2⟩ := bind_ok.1 h
  unfold resolveIdAndPath at h1
  obtain ⟨m, s2, h3, h4⟩ := bind_ok.1 h1
  obtain ⟨rfl, rfl⟩ := matchDocument_local h3
  simp only [if_true] at h4
  obtain ⟨sc, s3, h5, h6⟩ := bind_ok.1 h4
  cases h5
  obtain ⟨rfl, rfl⟩ := pure_ok.1 h6
  simp only at h2
  obtain ⟨_, s4, h7, h8⟩ := bind_ok.1 h2
  unfold pushRes at h7
  rw [modS_apply] at h7
  injection h7 with _ h7
  obtain ⟨k, s5, h9, h10⟩ := bind_ok.1 h8
  obtain ⟨_, rfl⟩ := pure_ok.1 h10
  subst h7
  have hne : ("#" ++ t) ≠ "" := by
    intro h
    have := congrArg String.toList h
    rw [String.toList_append] at this
    simp at this
  have e1 : orRoot ("#" ++ t) = "#" ++ t := if_neg hne
  rw [hg.scope, e1] at h9
  rw [hr]
  exact ⟨k, h9⟩

theorem goes_sources {scope : String} {us : List String} (hu : us <+: ts) (hp : PlainTokens us) :
    Goes c root R pid b ts (pushSources c scope [{ emptyNode with ref := some (pointerText us) }]) (fun _ => True) := by
  intro s a s' hg h he
  obtain ⟨t, ht⟩ := pointerText_hash us
  obtain ⟨k, h1⟩ := push_local rfl ht h hg
  obtain ⟨_, rfl⟩ := pure_ok.1 h1
  refine ⟨⟨hg.parsing, hg.resolving, hg.queue, hg.path, hg.depth, hg.refs, ?_,
    fun f => ⟨(hg.world f).1, (hg.world f).2, (hg.world f).3, (hg.world f).4, (hg.world f).5⟩, hg.texts⟩, trivial⟩
  rcases hg.stack with h | h
  · exact .inl h
  · refine .inr fun key hk => ?_
    rcases List.mem_cons.1 hk with rfl | hk
    · exact ⟨us, hu, hp, rfl⟩
    · exact h key hk

/-- Below a combinator local references are pushed freely. -/
theorem goes_offSources {scope : String} (hoff : Off root ts) : ∀ l : List SchemaNode,
    (∀ x ∈ l, x.ref = none ∨ ∃ us, x.ref = some (pointerText us)) → Goes c root R pid b ts (pushSources c scope l) (fun _ => True)
  | [], _ => Goes.pure trivial
  | x :: l, h => by
    intro s a s' hg hm he
    have ih := goes_offSources (scope := scope) hoff l fun y hy => h y (by simp [hy])
    rcases h x (by simp) with hx | ⟨us, hx⟩
    · unfold pushSources at hm
      rw [hx] at hm
      exact ih s a s' hg hm he
    · obtain ⟨t, ht⟩ := pointerText_hash us
      obtain ⟨k, h1⟩ := push_local hx ht hm hg
      obtain ⟨g, _⟩ := ih { s with resolutions := resKey pid (pointerText us) :: s.resolutions } k s' ⟨hg.parsing, hg.resolving, hg.queue, hg.path, hg.depth, hg.refs, .inl hoff,
        fun f => ⟨(hg.world f).1, (hg.world f).2, (hg.world f).3, (hg.world f).4, (hg.world f).5⟩, hg.texts⟩ h1 he
      exact ⟨g, trivial⟩

/-! ## The parts of the parser -/

section parts
variable {C : SchemaNode → Gen → Prop} {r : PRec} {o : Opts} {d : Nat} {n : SchemaNode}

/-- What is known about the recursive calls. -/
def NodeGoes (c : PEnv) (root : SchemaNode) (R : Places) (pid : String) (C : SchemaNode → Gen → Prop) (r : PRec) : Prop :=
  ∀ d ts n, R d ts n → PlainTokens ts → Goes c root R pid d ts (r.node n) (Done C n)

theorem plainTokens_one {a : String} (h : PlainName a) : PlainTokens [a] := by
  intro t ht
  rw [List.mem_singleton.1 ht]
  exact h

theorem plainTokens_two {a a' : String} (h : PlainName a) (h' : PlainName a') : PlainTokens [a, a'] := by
  intro t ht
  rcases List.mem_cons.1 ht with rfl | ht
  · exact h
  · rw [List.mem_singleton.1 ht]; exact h'

theorem goes_props (hr : KeepsRec c r) (hnode : NodeGoes c root R pid C r) (hts : PlainTokens ts) :
    ∀ l : List (String × SchemaNode),
      (∀ q ∈ l, R (d + 1) (ts ++ ["properties", q.1]) q.2 ∧ PlainName q.1) →
      Goes c root R pid (d + 1) ts (parseProps c r l) (fun out => List.Forall₂ (fun p q => p.1 = q.1 ∧ C p.2 q.2) l out) := by
  intro l
  induction l with
  | nil => intro _; unfold parseProps; exact Goes.pure .nil
  | cons q t ih =>
    intro hl
    obtain ⟨k, m⟩ := q
    obtain ⟨hin, hk⟩ := hl (k, m) (by simp)
    unfold parseProps
    refine Goes.bind (Q := Done C m) (fun _ => Keeps.bind (keeps_parseProps hr t) fun _ => Keeps.pure _) ?_ ?_
    · refine goes_inScope hr ["properties", k] ?_ goes_noSources
        (hnode _ _ m hin (plainTokens_append hts (plainTokens_two (by unfold PlainName; decide) hk)))
      rw [pointerText_two]
      rfl
    · intro g hg
      refine Goes.bind (fun _ => Keeps.pure _) (ih fun q hq => hl q (by simp [hq])) ?_
      intro rest hrest
      refine Goes.pure (.cons ⟨rfl, ?_⟩ hrest)
      obtain ⟨g1, g2⟩ := g
      obtain ⟨h1, h2⟩ := hg
      simp only at h1
      subst h1
      exact h2

/-- A recorded error contradicts the assumption that nothing is recorded. -/
theorem goes_patternRegex {k : String} : Goes c root R pid b ts (patternRegex c k)
    (fun x => ∃ g, newRegexGenerator c.rxParse c.rxPattern k.toList = .ok g ∧ x = some g) := by
  unfold patternRegex buildRegex
  cases hg : newRegexGenerator c.rxParse c.rxPattern k.toList with
  | ok g =>
    simp only
    refine Goes.bind (Q := fun x => x = .ok g) ?_ (Goes.pure rfl) ?_
    · intro a; cases a <;> keeps
    rintro _ rfl
    exact Goes.pure ⟨g, rfl, rfl⟩
  | err e =>
    simp only
    refine Goes.bind (Q := fun x => x = .error e) ?_ (Goes.pure rfl) ?_
    · intro a; cases a <;> keeps
    rintro _ rfl
    intro s a s' _ h he
    obtain ⟨_, s1, h1, h2⟩ := bind_ok.1 h
    obtain ⟨_, rfl⟩ := pure_ok.1 h2
    unfold addErrorSub at h1
    simp at h1
    rw [← h1] at he
    simp at he
  | panic e =>
    intro s a s' _ h _
    simp only at h
    obtain ⟨_, _, h1, _⟩ := bind_ok.1 h
    simp at h1

theorem goes_patProps (hr : KeepsRec c r) (hnode : NodeGoes c root R pid C r) (hts : PlainTokens ts) :
    ∀ l : List (String × SchemaNode),
      (∀ q ∈ l, R (d + 1) (ts ++ ["patternProperties", q.1]) q.2 ∧ PlainName q.1) →
      Goes c root R pid (d + 1) ts (parsePatProps c r l) (fun out => PatsC c C l out) := by
  intro l
  induction l with
  | nil => intro _; unfold parsePatProps; exact Goes.pure .nil
  | cons q t ih =>
    intro hl
    obtain ⟨k, m⟩ := q
    obtain ⟨hin, hk⟩ := hl (k, m) (by simp)
    unfold parsePatProps
    refine Goes.bind (Q := Done C m) (fun _ => Keeps.bind (keeps_patternRegex _) fun _ =>
      Keeps.bind (keeps_parsePatProps hr t) fun _ => Keeps.pure _) ?_ ?_
    · refine goes_inScope hr ["patternProperties", k] ?_ goes_noSources
        (hnode _ _ m hin (plainTokens_append hts (plainTokens_two (by unfold PlainName; decide) hk)))
      rw [pointerText_two]
      rfl
    · intro g hg
      refine Goes.bind (fun _ => Keeps.bind (keeps_parsePatProps hr t) fun _ => Keeps.pure _) goes_patternRegex ?_
      intro rx hrx
      refine Goes.bind (fun _ => Keeps.pure _) (ih fun q hq => hl q (by simp [hq])) ?_
      intro rest hrest
      refine Goes.pure (.cons ⟨rfl, ?_, hrx⟩ hrest)
      obtain ⟨g1, g2⟩ := g
      obtain ⟨h1, h2⟩ := hg
      simp only at h1
      subst h1
      exact h2

theorem goes_asSub {m : PR} {x : SchemaNode} (hm : Goes c root R pid b ts m (Done C x)) :
    Goes c root R pid b ts (asSub m) (fun res => ∃ g, res = .ok (some g) ∧ C x g) := by
  unfold asSub
  refine Goes.bind ?_ hm ?_
  · intro a; keeps
  · rintro ⟨g, e⟩ ⟨h1, h2⟩
    simp only at h1
    subst h1
    exact Goes.pure ⟨g, rfl, h2⟩

theorem goes_addProps (hr : KeepsRec c r) (hnode : NodeGoes c root R pid C r) (hts : PlainTokens ts)
    (hparts : ReachedParts R d ts n) (hs : Supported c o root n) : Goes c root R pid (d + 1) ts (parseAddProps c r n.additionalProperties)
      (fun out => OptC C (additionalNode n) out) := by
  unfold parseAddProps additionalNode
  cases hd : n.additionalProperties with
  | none => exact Goes.pure .none
  | some x =>
    simp only
    cases hf : x.isFalse with
    | true => simp only [if_true]; exact Goes.pure .none
    | false =>
      simp only [Bool.false_eq_true, if_false]
      cases hsn : x.schema with
      | none => exact Goes.pure .none
      | some m =>
        simp only
        refine Goes.bind (Q := Done C m) (fun _ => Keeps.pure _) ?_ ?_
        · refine goes_inScope hr ["additionalProperties"] ?_ goes_noSources
            (hnode _ _ m (hparts.additionalProperties hd hf hsn)
              (plainTokens_append hts (plainTokens_one (by unfold PlainName; decide))))
          rw [pointerText_one]
          rfl
        · rintro ⟨g, e⟩ ⟨h1, h2⟩
          simp only at h1
          subst h1
          exact Goes.pure (.some h2)

theorem goes_items (hr : KeepsRec c r) (hnode : NodeGoes c root R pid C r) (hts : PlainTokens ts)
    (hparts : ReachedParts R d ts n) (hs : Supported c o root n) : Goes c root R pid (d + 1) ts (parseItems c r n.items)
      (fun res => ∃ x, res = .ok x ∧ OptC C (itemsNode n) x) := by
  unfold parseItems itemsNode
  cases hd : n.items with
  | none => exact Goes.pure ⟨_, rfl, .none⟩
  | some x =>
    simp only
    cases hf : x.disallow with
    | true => simp only [if_true]; exact Goes.pure ⟨_, rfl, .none⟩
    | false =>
      simp only [Bool.false_eq_true, if_false]
      cases hsn : x.node with
      | none => exact Goes.pure ⟨_, rfl, .none⟩
      | some m =>
        simp only
        refine (goes_asSub (x := m) (goes_inScope hr ["items"] ?_ goes_noSources
          (hnode _ _ m (hparts.items hd hf hsn) (plainTokens_append hts (plainTokens_one (by unfold PlainName; decide)))))).imp ?_
        · rw [pointerText_one]
          rfl
        · rintro _ ⟨g, rfl, hg⟩
          exact ⟨_, rfl, .some hg⟩

theorem goes_contains (hr : KeepsRec c r) (hnode : NodeGoes c root R pid C r) (hts : PlainTokens ts)
    (hparts : ReachedParts R d ts n) (hs : Supported c o root n) : Goes c root R pid (d + 1) ts (parseContains c r n)
      (fun res => ∃ x, res = .ok x ∧ OptC C n.contains x) := by
  unfold parseContains
  cases hc : n.contains with
  | none => exact Goes.pure ⟨_, rfl, .none⟩
  | some m =>
    have hi := hs.array.containsAlone (by rw [hc]; simp)
    simp only [hi, mergedContains]
    refine Goes.bind (Q := fun x => x = m) (fun _ => keeps_asSub (keeps_parseInScope hr _ _ _)) (Goes.pure rfl) ?_
    rintro _ rfl
    refine (goes_asSub (goes_inScope hr ["contains"] ?_ goes_noSources
      (hnode _ _ _ (hparts.contains hc) (plainTokens_append hts (plainTokens_one (by unfold PlainName; decide)))))).imp ?_
    · rw [pointerText_one]
      rfl
    · rintro _ ⟨g, rfl, hg⟩
      exact ⟨_, rfl, .some hg⟩

theorem goes_tuple (hr : KeepsRec c r) (hnode : NodeGoes c root R pid C r) (hts : PlainTokens ts)
    {p : List SchemaNode} (hparts : ReachedParts R d ts n) (hs : Supported c o root n) (hp : n.prefixItems = some p) :
    ∀ (l pre : List SchemaNode), p = pre ++ l →
      Goes c root R pid (d + 1) ts (parseTuple c r pre.length l) (fun res => ∃ gs, res = .ok gs ∧ List.Forall₂ C l gs) := by
  intro l
  induction l with
  | nil => intro pre _; unfold parseTuple; exact Goes.pure ⟨_, rfl, .nil⟩
  | cons m t ih =>
    intro pre hpre
    unfold parseTuple
    refine Goes.bind (Q := Done C m) ?_ ?_ ?_
    · intro a
      split
      · exact Keeps.pure _
      · refine Keeps.bind (keeps_parseTuple hr t _) fun _ => ?_
        keeps
    · refine goes_inScope hr ["prefixItems", toString pre.length] ?_ goes_noSources
        (hnode _ _ m (hparts.prefixItems hp (by rw [hpre]; simp)) (plainTokens_append hts
          (plainTokens_two (by unfold PlainName; decide) (plain_toString _))))
      rw [pointerText_two]
      rfl
    · rintro ⟨g, e⟩ ⟨h1, h2⟩
      simp only at h1
      subst h1
      simp only
      have := ih (pre ++ [m]) (by rw [hpre]; simp)
      rw [List.length_append, List.length_singleton] at this
      refine Goes.bind ?_ this ?_
      · intro a; keeps
      · rintro _ ⟨gs, rfl, hgs⟩
        exact Goes.pure ⟨_, rfl, .cons h2 hgs⟩

/-- What a type gives: a compiled generator unless an error is returned, and no error for unbounded schemas. -/
def TypeDone (c : PEnv) (C : SchemaNode → Gen → Prop) (n : SchemaNode) (t : String) (p : Gen × Option Err) : Prop :=
  (p.2 = none → CType c C n t p.1) ∧ (Unbounded n → p.2 = none)

theorem goes_nullErr {e : Err} {t : String} (h : ¬ Unbounded n) :
    Goes c root R pid b ts (nullErr e) (TypeDone c C n t) :=
  Goes.pure ⟨fun h => (by cases h), fun hu => (h hu).elim⟩

theorem unbounded_checkObject (h : Unbounded n) : checkObject n = none := by
  unfold checkObject
  simp [h.minProperties, h.maxProperties, getZeroIfNil, goLen]

theorem unbounded_checkArray (h : Unbounded n) : checkArray n = none := by
  unfold checkArray effMinContains
  simp [h.minItems, h.maxItems, h.contains, h.minContains, getZeroIfNil, assertLowerUpper, getPtr]

theorem unbounded_checkString (h : Unbounded n) : checkString n = none := by
  unfold checkString
  simp [h.minLength, h.maxLength, h.pattern, h.format, getZeroIfNil]

theorem unbounded_number (hs : Supported c o root n) (h : Unbounded n) (isInt : Bool) :
    ∃ x, parseNumber c.fp c.plat (numKeywords n) isInt = .ok x := by
  have hk : numKeywords n = {} := by
    unfold numKeywords
    rw [h.minimum, h.maximum, h.exclusiveMinimum, h.exclusiveMaximum, h.multipleOf]
  rw [hk]
  have hres : ∃ p, resolveMinMaxForNode c.fp c.plat {} isInt = .ok p := by
    have hl : ∀ P : Platform, resolveMinMaxForNode c.fp P {} isInt = resolveMinMaxForNode c.fp Platform.amd64 {} isInt :=
      fun P => rfl
    rw [hl]
    have key : ∀ F : FP, F = FP.exact ∨ F = FP.binary64 →
        (match resolveMinMaxForNode F Platform.amd64 {} isInt with | .ok _ => true | .error _ => false) = true := by
      rintro F (rfl | rfl) <;> cases isInt <;> decide +kernel
    have := key c.fp hs.number.arithmetic
    cases hq : resolveMinMaxForNode c.fp Platform.amd64 {} isInt with
    | ok p => exact ⟨p, rfl⟩
    | error e => rw [hq] at this; cases this
  obtain ⟨p, hp⟩ := hres
  unfold parseNumber
  rw [hp]
  simp only
  split
  · exact ⟨_, rfl⟩
  · exact ⟨_, rfl⟩

theorem goes_object (hr : KeepsRec c r) (hnode : NodeGoes c root R pid C r) (hts : PlainTokens ts)
    (hparts : ReachedParts R d ts n) (hs : Supported c o root n) :
    Goes c root R pid (d + 1) ts (parseObject c r n) (TypeDone c C n "object") := by
  unfold parseObject
  cases hk : checkObject n with
  | some e => exact goes_nullErr fun hu => by rw [unbounded_checkObject hu] at hk; cases hk
  | none =>
    simp only
    refine Goes.bind (fun _ => Keeps.bind (keeps_parseProps hr _) fun _ =>
      Keeps.bind (keeps_parseAddProps hr _) fun _ => keeps_okGen _) (goes_patProps hr hnode hts _ ?_) ?_
    · rintro ⟨k, m⟩ hq
      cases hp : n.patternProperties with
      | none => rw [hp] at hq; simp [getZeroIfNil] at hq
      | some p =>
        rw [hp] at hq
        obtain ⟨hnd, hnm⟩ := (hs.object.patterns p hp).names
        exact ⟨hparts.patternProperties hp (lookupKV_of_mem hnd hq),
          (hnm k (mem_keysKV.2 ⟨m, hq⟩)).1⟩
    intro pats hpats
    refine Goes.bind (fun _ => Keeps.bind (keeps_parseAddProps hr _) fun _ => keeps_okGen _)
      (goes_props hr hnode hts _ ?_) ?_
    · rintro ⟨k, m⟩ hq
      cases hp : n.properties with
      | none => rw [hp] at hq; simp [getZeroIfNil] at hq
      | some p =>
        rw [hp] at hq
        obtain ⟨hnd, hnm⟩ := hs.object.names p hp
        exact ⟨hparts.properties hp (lookupKV_of_mem hnd hq), (hnm k (mem_keysKV.2 ⟨m, hq⟩)).1⟩
    intro props hprops
    refine Goes.bind (fun _ => keeps_okGen _) (goes_addProps hr hnode hts hparts hs) ?_
    intro add hadd
    exact Goes.pure ⟨fun _ => .object pats props add hk hpats hprops hadd, fun _ => rfl⟩

theorem goes_array (hr : KeepsRec c r) (hnode : NodeGoes c root R pid C r) (hts : PlainTokens ts)
    (hparts : ReachedParts R d ts n) (hs : Supported c o root n) :
    Goes c root R pid (d + 1) ts (parseArray c r n) (TypeDone c C n "array") := by
  have hcov := hs.covered
  unfold parseArray
  cases hk : checkArray n with
  | some e => exact goes_nullErr fun hu => by rw [unbounded_checkArray hu] at hk; cases hk
  | none =>
    have k5 : ∀ x y z w, Keeps c (do
        let unevaluated ← parseOrFalse c r "/unevaluatedItems" (unevaluatedSchema n)
        match unevaluated with
        | .error e => nullErr e
        | .ok unevaluated => okGen (.arr (buildArray n x y z unevaluated w))) := by
      intro x y z w
      refine Keeps.bind (keeps_parseOrFalse hr _ _) fun _ => ?_
      split <;> exact Keeps.pure _
    have k4 : ∀ x y z, Keeps c (do
        let tuple ← parseTuple c r 0 (tupleNodes n)
        match tuple with
        | .error e => nullErr e
        | .ok tuple => do
          let unevaluated ← parseOrFalse c r "/unevaluatedItems" (unevaluatedSchema n)
          match unevaluated with
          | .error e => nullErr e
          | .ok unevaluated => okGen (.arr (buildArray n x y z unevaluated tuple))) := by
      intro x y z
      refine Keeps.bind (keeps_parseTuple hr _ _) fun _ => ?_
      split
      · exact Keeps.pure _
      · exact k5 _ _ _ _
    have k3 : ∀ x y, Keeps c (do
        let contains ← parseContains c r n
        match contains with
        | .error e => nullErr e
        | .ok contains => do
          let tuple ← parseTuple c r 0 (tupleNodes n)
          match tuple with
          | .error e => nullErr e
          | .ok tuple => do
            let unevaluated ← parseOrFalse c r "/unevaluatedItems" (unevaluatedSchema n)
            match unevaluated with
            | .error e => nullErr e
            | .ok unevaluated => okGen (.arr (buildArray n x y contains unevaluated tuple))) := by
      intro x y
      refine Keeps.bind (keeps_parseContains hr _) fun _ => ?_
      split
      · exact Keeps.pure _
      · exact k4 _ _ _
    refine Goes.bind ?_ (goes_items hr hnode hts hparts hs) ?_
    · intro a
      split
      · exact Keeps.pure _
      · refine Keeps.bind (keeps_parseOrFalse hr _ _) fun _ => ?_
        split
        · exact Keeps.pure _
        · exact k3 _ _
    rintro _ ⟨item, rfl, hitem⟩
    simp only
    rw [hcov.additionalItems]
    refine Goes.bind (Q := fun x => x = .ok none) ?_ (Goes.pure rfl) ?_
    · intro a
      split
      · exact Keeps.pure _
      · exact k3 _ _
    rintro _ rfl
    simp only
    refine Goes.bind ?_ (goes_contains hr hnode hts hparts hs) ?_
    · intro a
      split
      · exact Keeps.pure _
      · exact k4 _ _ _
    rintro _ ⟨contains, rfl, hcontains⟩
    simp only
    refine Goes.bind (Q := fun res => ∃ gs, res = .ok gs ∧ List.Forall₂ C (getZeroIfNil n.prefixItems []) gs) ?_ ?_ ?_
    · intro a
      split
      · exact Keeps.pure _
      · exact k5 _ _ _ _
    · have htn : tupleNodes n = getZeroIfNil n.prefixItems [] := by
        have hnl : (match n.items with | some d => d.nodes.getD [] | none => []) = [] := by
          cases hi : n.items with
          | none => rfl
          | some x => exact hcov.itemsList x hi
        unfold tupleNodes
        rcases hp : n.prefixItems with _ | _ | ⟨x, l⟩
        · exact hnl
        · exact hnl
        · rfl
      rw [htn]
      cases hp : n.prefixItems with
      | none => exact Goes.pure ⟨_, rfl, .nil⟩
      | some p => exact goes_tuple hr hnode hts hparts hs hp p [] rfl
    rintro _ ⟨tuple, rfl, htuple⟩
    simp only
    have hun : unevaluatedSchema n = none := by unfold unevaluatedSchema; rw [hcov.unevaluatedItems]
    rw [hun]
    refine Goes.bind (Q := fun x => x = .ok none) ?_ (Goes.pure rfl) ?_
    · intro a
      split <;> exact Keeps.pure _
    rintro _ rfl
    exact Goes.pure ⟨fun _ => .array item contains tuple hk hitem hcontains htuple, fun _ => rfl⟩

theorem goes_number (hs : Supported c o root n) (isInt : Bool) :
    Goes c root R pid b ts (parseNumberNode c n isInt) (fun p =>
      (p.2 = none → ∃ x, parseNumber c.fp c.plat (numKeywords n) isInt = .ok x ∧ p.1 = x.toGen) ∧
      (Unbounded n → p.2 = none)) := by
  have heq : parseNumberNode c n isInt = match parseNumber c.fp c.plat (numKeywords n) isInt with
    | .error e => pure (.nilGen, some e)
    | .ok r => okGen r.toGen := rfl
  rw [heq]
  cases hp : parseNumber c.fp c.plat (numKeywords n) isInt with
  | error e =>
    refine Goes.pure ⟨fun h => (by cases h), fun hu => ?_⟩
    obtain ⟨x, hx⟩ := unbounded_number hs hu isInt
    rw [hx] at hp
    cases hp
  | ok x => exact Goes.pure ⟨fun _ => ⟨x, rfl, rfl⟩, fun _ => rfl⟩

theorem goes_string : Goes c root R pid b ts (parseString c n) (TypeDone c C n "string") := by
  unfold parseString
  cases hk : checkString n with
  | some e => exact goes_nullErr fun hu => by rw [unbounded_checkString hu] at hk; cases hk
  | none =>
    simp only
    cases hp : n.pattern with
    | none =>
      refine Goes.pure ⟨fun _ => ?_, fun _ => rfl⟩
      have := CType.string (c := c) (C := C) (n := n) none hk (by rw [hp]; intro _ h; cases h)
      simpa [buildString, hp] using this
    | some p =>
      simp only
      have hnu : ¬ Unbounded n := fun hu => by rw [hu.pattern] at hp; cases hp
      unfold buildRegex
      cases hg : newRegexGenerator c.rxParse c.rxString p.toList with
      | ok g =>
        simp only
        refine Goes.bind (Q := fun x => x = .ok g) ?_ (Goes.pure rfl) ?_
        · intro a; split <;> exact Keeps.pure _
        rintro _ rfl
        refine Goes.pure ⟨fun _ => ?_, fun hu => (hnu hu).elim⟩
        have := CType.string (c := c) (C := C) (n := n) (some g) hk (by
          intro p' hp'
          rw [hp] at hp'
          cases hp'
          exact ⟨g, hg, rfl⟩)
        simpa [buildString, hp] using this
      | err e =>
        simp only
        refine Goes.bind (Q := fun x => x = .error e) ?_ (Goes.pure rfl) ?_
        · intro a; split <;> exact Keeps.pure _
        rintro _ rfl
        exact goes_nullErr hnu
      | panic e =>
        intro s a s' _ h _
        simp only at h
        obtain ⟨_, _, h1, _⟩ := bind_ok.1 h
        simp at h1

theorem goes_type (hr : KeepsRec c r) (hnode : NodeGoes c root R pid C r) (hts : PlainTokens ts)
    (hparts : ReachedParts R d ts n) (hs : Supported c o root n) {t : String} (ht : t ∈ jsonTypes) :
    Goes c root R pid (d + 1) ts (parseType c r t n) (TypeDone c C n t) := by
  unfold jsonTypes at ht
  simp only [List.mem_cons, List.mem_nil_iff, or_false] at ht
  unfold parseType
  rcases ht with rfl | rfl | rfl | rfl | rfl | rfl | rfl
  · simp only [reduceIte, String.reduceEq]
    exact Goes.pure ⟨fun _ => .null, fun _ => rfl⟩
  · simp only [reduceIte, String.reduceEq]
    exact Goes.pure ⟨fun _ => .boolean, fun _ => rfl⟩
  · simp only [reduceIte, String.reduceEq]
    exact goes_string
  · simp only [reduceIte, String.reduceEq]
    refine (goes_number hs false).imp ?_
    rintro ⟨g, e⟩ ⟨h1, h2⟩
    refine ⟨fun h => ?_, h2⟩
    obtain ⟨x, hx, hg⟩ := h1 h
    simp only at hg
    rw [hg]
    exact .number x hx
  · simp only [reduceIte, String.reduceEq]
    refine (goes_number hs true).imp ?_
    rintro ⟨g, e⟩ ⟨h1, h2⟩
    refine ⟨fun h => ?_, h2⟩
    obtain ⟨x, hx, hg⟩ := h1 h
    simp only at hg
    rw [hg]
    exact .integer x hx
  · simp only [reduceIte, String.reduceEq]
    exact goes_array hr hnode hts hparts hs
  · simp only [reduceIte]
    exact goes_object hr hnode hts hparts hs

theorem goes_types (hr : KeepsRec c r) (hnode : NodeGoes c root R pid C r) (hts : PlainTokens ts)
    (hparts : ReachedParts R d ts n) (hs : Supported c o root n) (hu : Unbounded n) : ∀ l : List String,
    (∀ t ∈ l, t ∈ jsonTypes) →
    Goes c root R pid (d + 1) ts (parseTypes c r n l) (fun gs => List.Forall₂ (CType c C n) l gs) := by
  intro l
  induction l with
  | nil => intro _; unfold parseTypes; exact Goes.pure (by simp)
  | cons t l ih =>
    intro hl
    unfold parseTypes
    refine Goes.bind (fun _ => Keeps.bind (keeps_parseTypes hr n l) fun _ => Keeps.pure _)
      (goes_type hr hnode hts hparts hs (hl t (by simp))) ?_
    rintro ⟨g, e⟩ ⟨h1, h2⟩
    have he := h2 hu
    simp only at he
    subst he
    refine Goes.bind (fun _ => Keeps.pure _) (ih fun t ht => hl t (by simp [ht])) ?_
    intro rest hrest
    exact Goes.pure (.cons (h1 rfl) hrest)

theorem unknown_unbounded (h : inferType n = "unknown") : Unbounded n := by
  unfold inferType at h
  split at h
  · simp at h
  split at h
  · simp at h
  split at h
  · simp at h
  split at h
  · simp at h
  rename_i h1 h2 h3 h4
  simp only [not_or, Bool.not_eq_true, Option.isSome_eq_false_iff, Option.isNone_iff_eq_none] at h1 h2 h3 h4
  exact
    { minLength := h2.2.2.1, maxLength := h2.2.2.2, pattern := h2.1, format := h2.2.1
      minimum := h3.1, maximum := h3.2.1, exclusiveMinimum := h3.2.2.1, exclusiveMaximum := h3.2.2.2.1
      multipleOf := h3.2.2.2.2
      minItems := h4.2.1, maxItems := h4.2.2.1, contains := h4.2.2.2.1, minContains := h4.2.2.2.2.1
      minProperties := h1.2.2.1, maxProperties := h1.2.2.2.1 }

theorem infer_known (h : inferType n ≠ "unknown") : inferType n ∈ jsonTypes := by
  unfold inferType at h ⊢
  split
  · decide
  split
  · decide
  split
  · decide
  split
  · decide
  · rename_i h1 h2 h3 h4
    rw [if_neg h1, if_neg h2, if_neg h3, if_neg h4] at h
    exact (h rfl).elim

theorem parseTypes_type (c : PEnv) (r : PRec) (n : SchemaNode) (x : Option MultipleType) : ∀ l : List String,
    parseTypes c r { n with type := x } l = parseTypes c r n l := by
  intro l
  induction l with
  | nil => rfl
  | cons t l ih =>
    unfold parseTypes
    rw [ih]
    rfl

theorem goes_byType (hr : KeepsRec c r) (hnode : NodeGoes c root R pid C r) (hts : PlainTokens ts)
    (hparts : ReachedParts R d ts n) (hs : Supported c o root n) (h1 : n.ref = none) (h2 : n.enum = none)
    (h3 : n.const = none) : Goes c root R pid (d + 1) ts (parseByType c r n)
      (fun p => p.2 = none → CStep c pid C n p.1) := by
  cases hty : n.type with
  | none =>
    have heq : parseByType c r n = if inferType n = "unknown" then
        parseMultipleType c r { n with type := some { multiple := some typeAll } } typeAll
        else parseType c r (inferType n) n := by
      unfold parseByType
      rw [hty]
      rfl
    rw [heq]
    by_cases hi : inferType n = "unknown"
    · rw [if_pos hi]
      have hu := unknown_unbounded hi
      unfold parseMultipleType
      rw [parseTypes_type]
      refine Goes.bind (fun _ => keeps_okGen _) (goes_types hr hnode hts hparts hs hu typeAll (by decide)) ?_
      intro gs hgs
      exact Goes.pure fun _ => .types typeAll gs h1 h2 h3 (by rw [hty]; intro _ h; cases h) hgs
    · rw [if_neg hi]
      refine (goes_type hr hnode hts hparts hs (infer_known hi)).imp ?_
      intro p hp he
      exact .typed _ _ h1 h2 h3 (by rw [hty]; intro _ h; cases h) (hp.1 he)
  | some ty =>
    cases hm : ty.multiple with
    | some l =>
      have heq : parseByType c r n = parseMultipleType c r n l := by
        unfold parseByType
        rw [hty]
        simp only [Option.bind_some, hm]
      rw [heq]
      obtain ⟨_, hl, hu⟩ := hs.types.several ty l hty hm
      unfold parseMultipleType
      refine Goes.bind (fun _ => keeps_okGen _) (goes_types hr hnode hts hparts hs hu l hl) ?_
      intro gs hgs
      refine Goes.pure fun _ => .types l gs h1 h2 h3 ?_ hgs
      intro ty' hty'
      rw [hty] at hty'
      cases hty'
      exact hm
    | none =>
      have ht := hs.types.one ty hty hm
      have heq : parseByType c r n = parseType c r ty.single n := by
        unfold parseByType
        rw [hty]
        simp only [Option.bind_some, hm]
        exact if_pos (fun h : ty.single = "" => absurd (h ▸ ht) (by decide))
      rw [heq]
      refine (goes_type hr hnode hts hparts hs ht).imp ?_
      intro p hp he
      refine .typed _ _ h1 h2 h3 ?_ (hp.1 he)
      intro ty' hty'
      rw [hty] at hty'
      cases hty'
      exact ⟨hm, rfl⟩

theorem handed_insert {s : PSt} {n : SchemaNode} {f : String} (hg : Good c root R pid b ts s)
    (h : Handed root pid (resourceKey pid (pointerText ts) f, replaceRefs pid (encodeNode n))) :
    ∀ e ∈ (match lookupKV s.resources (resourceKey pid (pointerText ts) f) with
      | some _ => s.resources
      | none => s.resources ++ [(resourceKey pid (pointerText ts) f, replaceRefs pid (encodeNode n))]), Handed root pid e := by
  intro e he
  split at he
  · exact hg.texts e he
  · rcases List.mem_append.1 he with he | he
    · exact hg.texts e he
    · rw [List.mem_singleton.1 he]; exact h

theorem validatorFor_eq {n : SchemaNode} {f : String} {s : PSt} (hg : Good c root R pid b ts s) :
    validatorFor c n f s = .ok (c.compile (match lookupKV s.resources (resourceKey pid (pointerText ts) f) with
      | some _ => s.resources
      | none => s.resources ++ [(resourceKey pid (pointerText ts) f, replaceRefs pid (encodeNode n))])
      (resourceKey pid (pointerText ts) f))
      { s with resources := match lookupKV s.resources (resourceKey pid (pointerText ts) f) with
        | some _ => s.resources
        | none => s.resources ++ [(resourceKey pid (pointerText ts) f, replaceRefs pid (encodeNode n))] } := by
  unfold validatorFor
  have h := hg.scope
  dsimp only
  rw [h, hg.path]
  rfl

theorem good_validatorFor {n : SchemaNode} {f : String} {s s' : PSt} {a : Option (JVal → Bool)} (hg : Good c root R pid b ts s)
    (hh : Handed root pid (resourceKey pid (pointerText ts) f, replaceRefs pid (encodeNode n)))
    (h : validatorFor c n f s = .ok a s') : Good c root R pid b ts s' := by
  have ht := handed_insert hg hh
  rw [validatorFor_eq hg] at h
  cases h
  exact ⟨hg.parsing, hg.resolving, hg.queue, hg.path, hg.depth, hg.refs, hg.stack,
    fun f => ⟨(hg.world f).1, (hg.world f).2, (hg.world f).3, (hg.world f).4, (hg.world f).5⟩, ht⟩

theorem goes_validatorFor (n : SchemaNode) (f : String) (hf : f ∈ ["enum", "const"]) :
    Goes c root R pid b ts (validatorFor c n f) (fun a => ∀ p, a = some p → Checker c p) := by
  intro s a s' hg h _
  refine ⟨good_validatorFor hg (.inr (.inl ⟨_, f, rfl, hf⟩)) h, ?_⟩
  rw [validatorFor_eq hg] at h
  cases h
  exact fun _ hp => ⟨_, _, hp⟩

theorem getLast_normalise {s t : List Char} (h : t ≠ []) :
    (((s ++ t).map fun ch => if isSanitised ch then '_' else ch).getLast?) =
      (t.getLast?).map fun ch => if isSanitised ch then '_' else ch := by
  rw [List.getLast?_map, List.getLast?_append_of_ne_nil _ h]

/-- The last character of a name. -/
theorem resourceKey_last {scope p f : String} (h : f.toList ≠ []) :
    (resourceKey scope p f).toList.getLast? = (f.toList.getLast?).map fun ch => if isSanitised ch then '_' else ch := by
  unfold resourceKey normalisePath
  rw [String.toList_append, String.toList_ofList, String.toList_append, List.getLast?_append_of_ne_nil _ (by simp),
    getLast_normalise h]

theorem asked_last {ts : List String} {f : String} {x : SchemaNode} (h : Asked root ts f x) :
    ∃ p, ∃ i : Nat, f = p ++ toString i := by
  cases h with
  | alternative _ _ _ => exact ⟨"oneOf/", _, rfl⟩
  | condition _ _ =>
    refine ⟨pointerText ts ++ "//if/", 0, ?_⟩
    apply String.toList_inj.1
    simp [ToString.toString, String.toList_append]

theorem toString_last (i : Nat) : ∃ ch, (toString i).toList.getLast? = some ch ∧ ch.isDigit = true := by
  have hne : (toString i).toList ≠ [] := by simp [toString, Nat.repr]
  refine ⟨_, List.getLast?_eq_getLast_of_ne_nil hne, ?_⟩
  have hd : ∀ ch ∈ (toString i).toList, ch.isDigit = true := by
    intro ch hch
    exact Nat.isDigit_of_mem_toDigits (b := 10) (by decide) (by decide) (by simpa [toString, Nat.repr] using hch)
  exact hd _ (List.getLast_mem hne)

/-- A name of an alternative or of a condition is not one of a schema that lists values. -/
theorem asked_apart {scope p q f f' : String} {x : SchemaNode} (h : Asked root ts f x) (hf : f' ∈ ["enum", "const"]) :
    resourceKey scope p f ≠ resourceKey scope q f' := by
  intro he
  obtain ⟨w, i, rfl⟩ := asked_last h
  obtain ⟨ch, h1, h2⟩ := toString_last i
  have hne : (toString i).toList ≠ [] := by intro h; rw [h] at h1; cases h1
  have := congrArg (fun k : String => k.toList.getLast?) he
  rw [resourceKey_last (by rw [String.toList_append]; simp [hne]), String.toList_append, List.getLast?_append_of_ne_nil _ hne,
    h1] at this
  simp only [Option.map_some] at this
  rcases List.mem_cons.1 hf with rfl | hf
  · rw [resourceKey_last (by decide)] at this
    have h3 : (if isSanitised ch then '_' else ch) = 'm' := by simpa [show isSanitised 'm' = false by decide] using this
    split at h3
    · cases h3
    · subst h3; cases h2
  · cases List.mem_singleton.1 hf
    rw [resourceKey_last (by decide)] at this
    have h3 : (if isSanitised ch then '_' else ch) = 't' := by simpa [show isSanitised 't' = false by decide] using this
    split at h3
    · cases h3
    · subst h3; cases h2

/-- The validator of an alternative or of a condition decides validity. -/
theorem goes_asked {x : SchemaNode} {f : String} (ha : Asked root ts f x) (hn : NamesApart root) (hj : Judged c root x) :
    Goes c root R pid b ts (validatorFor c x f) (fun a => ∀ p, a = some p → Decides c root x p) := by
  intro s a s' hg h _
  refine ⟨good_validatorFor hg (.inr (.inr ⟨ts, f, x, ha, rfl, rfl⟩)) h, ?_⟩
  rw [validatorFor_eq hg] at h
  cases h
  intro p hp
  refine hj _ _ pid p ?_ hp
  cases hl : lookupKV s.resources (resourceKey pid (pointerText ts) f) with
  | none =>
    simp only
    rw [lookupKV_append_new hl]
  | some t =>
    simp only
    rw [hl]
    congr 1
    rcases hg.texts _ (lookupKV_mem hl) with he | ⟨q, f', he, hf⟩ | ⟨ts', f', x', ha', he, ht⟩
    · have := congrArg String.toList he
      unfold resourceKey normalisePath at this
      rw [String.toList_append, String.toList_ofList, String.toList_append] at this
      simp at this
    · exact (asked_apart ha hf he).elim
    · simp only at he ht
      have := hn ts f x ts' f' x' ha ha' (by
        unfold resourceKey at he
        apply String.toList_inj.1
        have := congrArg String.toList he
        rw [String.toList_append, String.toList_append] at this
        exact List.append_cancel_left this)
      rw [this, ht]

theorem goes_schema (hr : KeepsRec c r) (hnode : NodeGoes c root R pid C r) (hts : PlainTokens ts)
    (hparts : ReachedParts R d ts n) (hs : Supported c o root n) :
    Goes c root R pid (d + 1) ts (parseSchemaStep c r n) (fun p => p.2 = none → CStep c pid C n p.1) := by
  have hcov := hs.covered
  cases href : n.ref with
  | some ref =>
    unfold parseSchemaStep
    cases checkUnsupported n with
    | some e => exact Goes.pure fun h => by cases h
    | none =>
      simp only [href]
      unfold parseReference
      split
      · exact Goes.pure fun h => by cases h
      · obtain ⟨_, _, _, us, _, rfl, _⟩ := hs.ref ref href
        obtain ⟨t, ht⟩ := pointerText_hash us
        rw [ht] at href ⊢
        refine Goes.bind (Q := fun x => x = .ok (pid, "#" ++ t)) ?_ ?_ ?_
        · intro a; split <;> exact Keeps.pure _
        · intro s a s' hg h _
          unfold handleDeferred at h
          obtain ⟨m, s2, h3, h4⟩ := bind_ok.1 h
          obtain ⟨rfl, rfl⟩ := matchDocument_local h3
          simp only [if_true] at h4
          obtain ⟨sc, s3, h5, h6⟩ := bind_ok.1 h4
          cases h5
          obtain ⟨rfl, rfl⟩ := pure_ok.1 h6
          refine ⟨hg, ?_⟩
          have hne : ("#" ++ t) ≠ "" := by
            intro h
            have := congrArg String.toList h
            rw [String.toList_append] at this
            simp at this
          have e1 : orRoot ("#" ++ t) = "#" ++ t := if_neg hne
          have e2 : ∀ x : PSt, Good c root R pid (d + 1) ts x →
              (if x.resolvingId ≠ "" then x.resolvingId else x.parsingId) = pid := by
            intro x hx
            exact hx.scope
          show Except.ok (_, orRoot ("#" ++ t)) = _
          rw [e1]
          exact congrArg (fun x => Except.ok (x, "#" ++ t)) (e2 _ hg)
        · rintro _ rfl
          exact Goes.pure fun _ => .ref _ href
  | none =>
    rw [plain_step ⟨href, hs.allOf, hcov.oneOf, hs.anyOf, hcov.not, hcov.mergedNot, hcov.ifN, hcov.mergedIf⟩]
    cases checkUnsupported n with
    | some e => exact Goes.pure fun h => by cases h
    | none =>
      simp only
      cases hen : n.enum with
      | some l =>
        cases l with
        | nil => exact ((hs.enum [] hen).1 rfl).elim
        | cons v l =>
          simp only
          unfold parseEnum
          refine Goes.bind ?_ (goes_validatorFor n "enum" (by decide)) ?_
          · intro a
            split
            · exact Keeps.pure _
            · split <;> exact Keeps.pure _
          intro a hf
          cases a with
          | none => exact Goes.pure fun h => by cases h
          | some f =>
            simp only
            split
            · exact Goes.pure fun h => by cases h
            · rename_i x hx
              exact Goes.pure fun _ => .enumOne _ x f hen (hf f rfl) hx
            · exact Goes.pure fun _ => .enum _ f hen (hf f rfl)
      | none =>
        simp only
        cases hc : n.const with
        | some v =>
          simp only
          unfold parseConst
          refine Goes.bind ?_ (goes_validatorFor n "const" (by decide)) ?_
          · intro a
            split
            · exact Keeps.pure _
            · split <;> exact Keeps.pure _
          intro a _
          cases a with
          | none => exact Goes.pure fun h => by cases h
          | some f =>
            simp only
            split
            · exact Goes.pure fun _ => .const v hen hc
            · exact Goes.pure fun h => by cases h
        | none => exact goes_byType hr hnode hts hparts hs href hen hc

/-- The registered generators without those under the path `p`. -/
def hide (p : String) (s : PSt) : PSt := { s with refs := s.refs.filter fun e => e.1.2 ≠ p }

theorem lookupRef_hide {α : Type} (l : List ((String × String) × α)) (doc p path : String) :
    lookupRef (l.filter fun e => e.1.2 ≠ p) doc path = if path = p then none else lookupRef l doc path := by
  induction l with
  | nil => simp [lookupRef]
  | cons e t ih =>
    obtain ⟨⟨a, q⟩, x⟩ := e
    by_cases hq : q = p
    · rw [List.filter_cons_of_neg (by simpa using hq), ih]
      split
      · rfl
      · rename_i hp
        conv_rhs => unfold lookupRef
        rw [if_neg (by rintro ⟨⟩; exact hp hq)]
    · rw [List.filter_cons_of_pos (by simpa using hq)]
      unfold lookupRef
      by_cases hk : (a, q) = (doc, path)
      · cases hk
        simp [hq]
      · rw [if_neg hk, if_neg hk, ih]

theorem Good.hide (hg : Good c root R pid b ts s) (p : String) : Good c root R pid b ts (hide p s) :=
  ⟨hg.parsing, hg.resolving, hg.queue, hg.path, hg.depth, fun path g h => by
    unfold Chaff.hide at h
    simp only at h
    rw [lookupRef_hide] at h
    split at h
    · cases h
    · exact hg.refs path g h, hg.stack, fun f => ⟨(hg.world f).1, (hg.world f).2, (hg.world f).3, (hg.world f).4, (hg.world f).5⟩, hg.texts⟩

/-- Like `Goes`, but what is registered for the place itself may be anything. -/
def GoesBut (c : PEnv) (root : SchemaNode) (R : Places) (pid : String) (b : Nat) (ts : List String) {α : Type} (m : P α)
    (Q : α → Prop) : Prop :=
  ∀ s a s', Good c root R pid b ts s → m s = .ok a s' → s'.errors = [] → Good c root R pid b ts (hide (pointerText ts) s') ∧ Q a

theorem Goes.but {α : Type} {m : P α} {Q : α → Prop} (h : Goes c root R pid b ts m Q) : GoesBut c root R pid b ts m Q :=
  fun s a s' hg hm he => ⟨(h s a s' hg hm he).1.hide _, (h s a s' hg hm he).2⟩

theorem GoesBut.imp {α : Type} {m : P α} {Q S : α → Prop} (hm : GoesBut c root R pid b ts m Q) (h : ∀ a, Q a → S a) :
    GoesBut c root R pid b ts m S := fun s a s' hg hs he => ⟨(hm s a s' hg hs he).1, h a (hm s a s' hg hs he).2⟩

theorem Goes.bindBut {α β : Type} {m : P α} {f : α → P β} {Q : α → Prop} {S : β → Prop} (hk : ∀ a, Keeps c (f a))
    (hm : Goes c root R pid b ts m Q) (hf : ∀ a, Q a → GoesBut c root R pid b ts (f a) S) :
    GoesBut c root R pid b ts (m >>= f) S := by
  intro s x s' hg h he
  obtain ⟨a, s1, h1, h2⟩ := bind_ok.1 h
  have he1 := ((hk a) s1 x s' h2).noErrors he
  obtain ⟨hg1, hq⟩ := hm s a s1 hg h1 he1
  exact hf a hq s1 x s' hg1 h2 he

theorem GoesBut.map {α β : Type} {m : P α} {f : α → β} {Q : α → Prop} {S : β → Prop}
    (hm : GoesBut c root R pid b ts m Q) (hf : ∀ a, Q a → S (f a)) :
    GoesBut c root R pid b ts (m >>= fun a => Pure.pure (f a)) S := by
  intro s x s' hg h he
  obtain ⟨a, s1, h1, h2⟩ := bind_ok.1 h
  obtain ⟨rfl, rfl⟩ := pure_ok.1 h2
  exact ⟨(hm s a s1 hg h1 he).1, hf a (hm s a s1 hg h1 he).2⟩

/-- Parsing a node, up to its registration. -/
theorem nodeStep_run {schema : SchemaNode → PR} (hk : ∀ n, Keeps c (schema n)) {k : Nat}
    (hcov : n.constraints = none ∧ n.id = none) (hd : (d : Int) < c.maxParseDepth)
    (hsch : GoesBut c root R pid (d + 1) ts (schema n) (fun p => p.2 = none → CompiledK c root R pid k n p.1))
    {s s' : PSt} {a : Gen × Option Err} (hg : Good c root R pid d ts s) (h : parseNodeStep c schema n s = .ok a s')
    (he : s'.errors = []) : Done (CompiledK c root R pid k) n a ∧ ∃ refs, s'.refs = ((pid, pointerText ts), a.1) :: refs ∧
      Good c root R pid d ts (hide (pointerText ts) { s' with refs := refs }) := by
  have hev := keeps_parseNodeStep hk n s a s' h
  unfold parseNodeStep at h
  obtain ⟨_, s1, h1, h2⟩ := bind_ok.1 h
  rw [modS_apply] at h1
  injection h1 with _ h1
  obtain ⟨dd, s2, h3, h4⟩ := bind_ok.1 h2
  cases h3
  have hdep := hg.depth
  rw [if_neg (by rw [← h1]; simp only; omega)] at h4
  obtain ⟨r', s3, h5, h6⟩ := bind_ok.1 h4
  obtain ⟨_, s4, h7, h8⟩ := bind_ok.1 h6
  obtain ⟨_, s5, h9, h10⟩ := bind_ok.1 h8
  obtain ⟨_, s6, h11, h12⟩ := bind_ok.1 h10
  rw [hcov.1] at h12
  obtain ⟨rfl, rfl⟩ := pure_ok.1 h12
  rw [modS_apply] at h11
  injection h11 with _ h11
  have e5 : s5.errors = [] := by rw [← h11] at he; exact he
  have e4 := (keeps_registerNode (c := c) n _ s4 _ s5 h9).noErrors e5
  have hnone : r'.2 = none ∧ s4 = s3 := by
    cases hr2 : r'.2 with
    | none =>
      rw [hr2] at h7
      exact ⟨rfl, (pure_ok.1 h7).2.symm⟩
    | some e =>
      rw [hr2] at h7
      unfold recordErr addError addErrorSub at h7
      simp only at h7
      rw [modS_apply] at h7
      injection h7 with _ h7
      rw [← h7] at e4
      cases e4
  obtain ⟨hnone, rfl⟩ := hnone
  have hg1 : Good c root R pid (d + 1) ts s1 := by
    rw [← h1]
    exact ⟨hg.parsing, hg.resolving, hg.queue, hg.path, by simp only; push_cast; omega, hg.refs, hg.stack,
      fun f => ⟨(hg.world f).1, (hg.world f).2, (hg.world f).3, (hg.world f).4, (hg.world f).5⟩, hg.texts⟩
  obtain ⟨hg3, hcomp⟩ := hsch s1 r' s4 hg1 h5 e4
  have hc := hcomp hnone
  have hnil : nilToNull r'.1 = r'.1 := by
    have := CompiledK.not_nil hc
    cases hr1 : r'.1 <;> first | rfl | exact (this hr1).elim
  have hpar : s4.parsingId = pid := hg3.parsing
  have hpath : s4.path = pointerText ts := hg3.path
  unfold registerNode at h9
  rw [hcov.2] at h9
  obtain ⟨_, s7, h13, h14⟩ := bind_ok.1 h9
  obtain ⟨_, rfl⟩ := pure_ok.1 h13
  unfold addReference at h14
  rw [modS_apply] at h14
  injection h14 with _ h14
  refine ⟨⟨hnone, by simp only; rw [hnil]; exact hc⟩, s4.refs, ?_, ?_⟩
  · rw [← h11, ← h14]
    simp only [hpar, hpath]
  refine ⟨hev.parsing.trans hg.parsing, ?_, ?_, hev.path.trans hg.path, by unfold hide; simp only; rw [hev.depth]; exact hg.depth, ?_,
    by unfold hide; simp only; rw [hev.res]; exact hg.stack, fun f => ?_, by rw [← h11, ← h14]; exact hg3.texts⟩
  rotate_left 3
  · rw [← h11, ← h14]
    exact ⟨(hg3.world f).1, (hg3.world f).2, (hg3.world f).3, (hg3.world f).4, (hg3.world f).5⟩
  · rw [← h11, ← h14]; exact hg3.resolving
  · rw [← h11, ← h14]; exact hg3.queue
  · exact hg3.refs

/-- A whole node at a place. -/
theorem goes_nodeStep {schema : SchemaNode → PR} (hk : ∀ n, Keeps c (schema n)) {k : Nat} (hts : PlainTokens ts)
    (hin : R d ts n) (hcov : n.constraints = none ∧ n.id = none) (hd : (d : Int) < c.maxParseDepth)
    (hsch : GoesBut c root R pid (d + 1) ts (schema n) (fun p => p.2 = none → CompiledK c root R pid k n p.1)) :
    Goes c root R pid d ts (parseNodeStep c schema n) (Done (CompiledK c root R pid k) n) := by
  intro s a s' hg h he
  obtain ⟨hdone, refs, hrefs, hg'⟩ := nodeStep_run hk hcov hd hsch hg h he
  refine ⟨⟨hg'.parsing, hg'.resolving, hg'.queue, hg'.path, hg'.depth, ?_, hg'.stack,
    fun f => ⟨(hg'.world f).1, (hg'.world f).2, (hg'.world f).3, (hg'.world f).4, (hg'.world f).5⟩, hg'.texts⟩, hdone⟩
  intro path g hl
  rw [hrefs] at hl
  unfold lookupRef at hl
  by_cases hp : path = pointerText ts
  · subst hp
    rw [if_pos rfl] at hl
    cases hl
    exact ⟨k, d, ts, n, hts, rfl, hin, hdone.2⟩
  · rw [if_neg (by rintro ⟨⟩; exact hp rfl)] at hl
    refine hg'.refs path g ?_
    unfold hide
    simp only
    rw [lookupRef_hide, if_neg hp]
    exact hl

/-- A whole node that is parsed at a place without being the schema there. -/
theorem goes_nodeBut {schema : SchemaNode → PR} (hk : ∀ n, Keeps c (schema n)) {k : Nat}
    (hcov : n.constraints = none ∧ n.id = none) (hd : (d : Int) < c.maxParseDepth)
    (hsch : GoesBut c root R pid (d + 1) ts (schema n) (fun p => p.2 = none → CompiledK c root R pid k n p.1)) :
    GoesBut c root R pid d ts (parseNodeStep c schema n) (Done (CompiledK c root R pid k) n) := by
  intro s a s' hg h he
  obtain ⟨hdone, refs, hrefs, hg'⟩ := nodeStep_run hk hcov hd hsch hg h he
  refine ⟨?_, hdone⟩
  have : hide (pointerText ts) s' = hide (pointerText ts) { s' with refs := refs } := by
    unfold hide
    rw [hrefs, List.filter_cons_of_neg (by simp)]
  rw [this]
  exact hg'

end parts

end goes

end Chaff
