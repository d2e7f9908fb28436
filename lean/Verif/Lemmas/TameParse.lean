import Verif.Lemmas.TameNot
import Verif.Props.NoPanic
/-!
# Parsing tame schemas builds well-shaped generators
-/

namespace Chaff
open Comp

/-- The shape of the generators that the parser builds: no empty choice, no missing generator, patterns built from safe
expressions, sizes that are not negative; the number generators satisfy `N`. -/
inductive GenShape (N : NumGen → Prop) : Gen → Prop
  | null : GenShape N .null
  | const (v) : GenShape N (.const v)
  | bool : GenShape N .bool
  | enum (vs) : vs ≠ [] → GenShape N (.enum vs)
  | num (g : NumGen) : N g → GenShape N (.num g)
  | str (g : StrGen) : (g.pattern ≠ "" → ∃ p, g.patternGen = some p ∧ RxBuilt p) → 0 ≤ g.maxLength → GenShape N (.str g)
  | arr (g : ArrGen Gen) : (∀ t ∈ g.tuple, GenShape N t) → (∀ k ∈ g.item, GenShape N k) →
      (∀ k ∈ g.additional, GenShape N k) → (∀ k ∈ g.contains, GenShape N k) → (∀ k ∈ g.unevaluated, GenShape N k) →
      GenShape N (.arr g)
  | obj (g : ObjGen Gen) : (∀ p ∈ g.props, GenShape N p.2) → (∀ p ∈ g.patProps, GenShape N p.2.1) →
      (∀ p ∈ g.patProps, ∀ r ∈ p.2.2, RxBuilt r) → (∀ k ∈ g.additional, GenShape N k) → 0 ≤ g.maxProps →
      GenShape N (.obj g)
  | multi (gs) : gs ≠ [] → (∀ g ∈ gs, GenShape N g) → GenShape N (.multi gs)
  | comb (gs) : gs ≠ [] → (∀ g ∈ gs, GenShape N g) → GenShape N (.comb gs)
  | constrained (g cs) : GenShape N g → (∀ k ∈ cs, ∀ g' ∈ constrChildren k, GenShape N g') →
      GenShape N (.constrained g cs)
  | ref (d p) : GenShape N (.ref d p)
  | allOf (g) : GenShape N g → GenShape N (.allOf g)

/-- A generator inside another one. -/
inductive Occurs (x : Gen) : Gen → Prop
  | here : Occurs x x
  | inside {g k : Gen} : k ∈ children g → Occurs x k → Occurs x g

theorem GenShape.safe {N : NumGen → Prop} {F : FP} {P : Platform} {g : Gen} (h : GenShape N g)
    (hN : ∀ ng, Occurs (.num ng) g → N ng → ng.multipleOf ≠ 0 → 0 ≤ countMultiplesInRange F P ng.min ng.max ng.multipleOf) :
    GenSafe F P g := by
  induction h with
  | null => exact .null
  | const v => exact .const v
  | bool => exact .bool
  | enum vs h => exact .enum vs h
  | num g h => exact .num g (hN g .here h)
  | str g h1 h2 => exact .str g h1 h2
  | arr g _ _ _ _ _ h1 h2 h3 h4 h5 =>
    have sub : ∀ k, k ∈ children (.arr g) → ∀ ng, Occurs (.num ng) k → N ng → ng.multipleOf ≠ 0 →
      0 ≤ countMultiplesInRange F P ng.min ng.max ng.multipleOf := fun k hk ng ho => hN ng (.inside hk ho)
    refine .arr g (fun t ht => h1 t ht (sub t ?_)) (fun t ht => h2 t ht (sub t ?_)) (fun t ht => h3 t ht (sub t ?_))
      (fun t ht => h4 t ht (sub t ?_)) (fun t ht => h5 t ht (sub t ?_))
    · simp [children, ht]
    · simp only [Option.mem_def] at ht; simp [children, ht]
    · simp only [Option.mem_def] at ht; simp [children, ht]
    · simp only [Option.mem_def] at ht; simp [children, ht]
    · simp only [Option.mem_def] at ht; simp [children, ht]
  | obj g _ _ h3 _ h5 h1 h2 h4 =>
    have sub : ∀ k, k ∈ children (.obj g) → ∀ ng, Occurs (.num ng) k → N ng → ng.multipleOf ≠ 0 →
      0 ≤ countMultiplesInRange F P ng.min ng.max ng.multipleOf := fun k hk ng ho => hN ng (.inside hk ho)
    refine .obj g (fun t ht => h1 t ht (sub _ ?_)) (fun t ht => h2 t ht (sub _ ?_)) h3 (fun t ht => h4 t ht (sub _ ?_)) h5
    · simp only [children, List.mem_append, List.mem_map]
      exact .inl (.inl (.inl ⟨t, ht, rfl⟩))
    · simp only [children, List.mem_append, List.mem_map]
      exact .inl (.inl (.inr ⟨t, ht, rfl⟩))
    · simp only [Option.mem_def] at ht
      simp [children, ht]
  | multi gs h1 _ h2 => exact .multi gs h1 fun g hg => h2 g hg fun ng ho => hN ng (.inside hg ho)
  | comb gs h1 _ h2 => exact .comb gs h1 fun g hg => h2 g hg fun ng ho => hN ng (.inside hg ho)
  | constrained g cs _ _ h1 h2 =>
    refine .constrained g cs (h1 fun ng ho => hN ng (.inside (List.mem_cons_self ..) ho)) fun k hk g' hg' =>
      h2 k hk g' hg' fun ng ho => hN ng (.inside (List.mem_cons_of_mem _ (List.mem_flatMap.2 ⟨k, hk, hg'⟩)) ho)
  | ref d p => exact .ref d p
  | allOf g _ h1 => exact .allOf g (h1 fun ng ho => hN ng (.inside (List.mem_singleton.2 rfl) ho))

/-- Where the number generators come from. -/
def NumMade (c : PEnv) (K : Care) (g : NumGen) : Prop :=
  (∃ spec isInt, parseNumber c.fp c.plat spec isInt = .ok (.gen g)) ∧ (K.noMultiples → g.multipleOf = 0)

/-- The generators built from tame schemas. -/
abbrev Shape (c : PEnv) (K : Care) : Gen → Prop := GenShape (NumMade c K)

/-- The result of parsing a node. -/
def NodeOk (c : PEnv) (K : Care) (r : Gen × Option Err) : Prop := Shape c K r.1

/-- The result of parsing the keywords of a node: with an error the generator may be missing. -/
def SchemaOk (c : PEnv) (K : Care) (r : Gen × Option Err) : Prop :=
  (r.2 = none → Shape c K r.1) ∧ (Shape c K r.1 ∨ r.1 = .nilGen)

/-- Running from a good state, where the registered generators are well shaped. -/
abbrev GRuns (c : PEnv) (K : Care) {α : Type} (m : P α) (Q : α → Prop) : Prop := Runs c K (Shape c K) m Q

/-- The recursive calls run well on tame schemas. -/
structure RecRuns (c : PEnv) (K : Care) (r : PRec) : Prop where
  keeps : KeepsRec c r
  node : ∀ n, Every c K n → GRuns c K (r.node n) (NodeOk c K)
  schema : ∀ n, Every c K n → GRuns c K (r.schema n) (SchemaOk c K)

section
variable {c : PEnv} {K : Care}

theorem schemaOk_of {r : Gen × Option Err} (h : NodeOk c K r) : SchemaOk c K r := ⟨fun _ => h, .inl h⟩

theorem runs_okGen {g : Gen} (h : Shape c K g) : GRuns c K (okGen g) (NodeOk c K) := Runs.pure h
theorem runs_nullErr (e : Err) : GRuns c K (nullErr e) (NodeOk c K) := Runs.pure .null

/-! ## Scopes -/

theorem runs_pushSources {S : Gen → Prop} (hw : WorldOk c K) {scope : String} : ∀ (l : List SchemaNode),
    (K.calm → ∀ x ∈ l, ∀ ref, x.ref = some ref → '\n' ∉ fragmentOf ref) → Runs c K S (pushSources c scope l) (fun _ => True) := by
  intro l
  induction l with
  | nil => intro _; unfold pushSources; exact Runs.pure trivial
  | cons x t ih =>
    intro h
    have ht : K.calm → ∀ x ∈ t, ∀ ref, x.ref = some ref → '\n' ∉ fragmentOf ref := fun hc y hy => h hc y (List.mem_cons_of_mem _ hy)
    unfold pushSources
    split
    · exact ih ht
    · rename_i ref href
      refine Runs.bind (runs_resolveIdAndPath hw (R := fun _ => True) (fun hc => h hc x (List.mem_cons_self ..) ref href) fun _ => trivial)
        fun r hr => ?_
      split
      · exact Runs.bind (runs_addErrorSub _ _) fun _ _ => ih ht
      · rename_i p
        have hp := hr p rfl
        exact Runs.bind (runs_pushRes fun hc => (hp hc).1) fun _ _ => Runs.bind (ih ht) fun _ _ => Runs.pure trivial

theorem popSources_run : ∀ (k : Nat) (keys rest : List String) {s : PSt}, keys.length = k →
    s.resolutions = keys ++ rest → popSources k s = .ok () { s with resolutions := rest } := by
  intro k
  induction k with
  | zero =>
    intro keys rest s hk hs
    have : keys = [] := List.length_eq_zero_iff.1 hk
    subst this
    rw [List.nil_append] at hs
    unfold popSources
    rw [← hs]
    rfl
  | succ k ih =>
    intro keys rest s hk hs
    cases keys with
    | nil => simp at hk
    | cons x t =>
      unfold popSources
      have h1 : popRes s = .ok () { s with resolutions := t ++ rest } := by
        unfold popRes
        rw [hs]
        rfl
      rw [bind_apply, h1]
      dsimp only
      rw [ih t rest (by simpa using hk) rfl]

theorem runs_withSources {S : Gen → Prop} {α β : Type} (hw : WorldOk c K) {scope : String} {l : List SchemaNode}
    (hl : K.calm → ∀ x ∈ l, ∀ ref, x.ref = some ref → '\n' ∉ fragmentOf ref) {m : P α} {R : α → Prop} (hk : Keeps c m)
    (hm : Runs c K S m R) {f : α → P β} {Q : β → Prop} (hf : ∀ a, R a → Runs c K S (f a) Q) :
    Runs c K S (do
      let n ← pushSources c scope l
      let g ← m
      popSources n
      f g) Q := by
  intro s hs
  obtain ⟨p1, p2⟩ := runs_pushSources (S := S) hw (scope := scope) l hl s hs
  have pop : ∀ n s1 a s2, pushSources c scope l s = .ok n s1 → m s1 = .ok a s2 →
      popSources n s2 = .ok () { s2 with resolutions := s.resolutions } ∧ R a ∧ St c K S { s2 with resolutions := s.resolutions } := by
    intro n s1 a s2 e1 e2
    obtain ⟨keys, hkeys, hres, _⟩ := pushSources_ev l e1
    have hs1 := (p2 n s1 e1).2
    obtain ⟨ha, hs2⟩ := (hm s1 hs1).2 a s2 e2
    refine ⟨popSources_run n keys _ hkeys (by rw [(hk _ _ _ e2).res, hres]), ha, ?_⟩
    exact ⟨hs2.refs, hs2.docs, hs2.aliases, hs2.queue, hs2.parsing, hs2.resolving, hs.res⟩
  constructor
  · intro hc e he
    rcases bind_panic.1 he with he | ⟨n, s1, e1, he⟩
    · exact p1 hc e he
    rcases bind_panic.1 he with he | ⟨a, s2, e2, he⟩
    · exact (hm s1 (p2 n s1 e1).2).1 hc e he
    obtain ⟨hp, ha, hs2⟩ := pop n s1 a s2 e1 e2
    rcases bind_panic.1 he with he | ⟨u, s3, e3, he⟩
    · rw [hp] at he; cases he
    rw [hp] at e3
    injection e3 with _ e3
    subst e3
    exact (hf a ha _ hs2).1 hc e he
  · intro b s' hb
    obtain ⟨n, s1, e1, hb⟩ := bind_ok.1 hb
    obtain ⟨a, s2, e2, hb⟩ := bind_ok.1 hb
    obtain ⟨u, s3, e3, hb⟩ := bind_ok.1 hb
    obtain ⟨hp, ha, hs2⟩ := pop n s1 a s2 e1 e2
    rw [hp] at e3
    injection e3 with _ e3
    subst e3
    exact (hf a ha _ hs2).2 b s' hb

theorem runs_parseInScope (hw : WorldOk c K) {r : PRec} (h : RecRuns c K r) (scope : String) {n : SchemaNode} {src : List SchemaNode}
    (hn : Every c K n) (hl : K.calm → ∀ x ∈ src, ∀ ref, x.ref = some ref → '\n' ∉ fragmentOf ref) :
    GRuns c K (parseInScope c r scope n src) (NodeOk c K) := by
  have : parseInScope c r scope n src = (do
      pushPath scope
      let g ← (do
        let n' ← pushSources c scope src
        let g ← r.node n
        popSources n'
        pure g)
      popPath scope
      pure g) := by
    unfold parseInScope
    funext s
    simp only [Comp.bind_apply]
    cases pushPath scope s with
    | ok u s1 =>
      dsimp only
      cases pushSources c scope src s1 with
      | ok k s2 =>
        dsimp only
        cases r.node n s2 with
        | ok g s3 =>
          dsimp only
          cases popSources k s3 with
          | ok u s4 => rfl
          | panic e => rfl
          | oom => rfl
        | panic e => rfl
        | oom => rfl
      | panic e => rfl
      | oom => rfl
    | panic e => rfl
    | oom => rfl
  rw [this]
  exact runs_scopeThen (keeps_withSources (h.keeps.node n))
    (runs_withSources hw hl (h.keeps.node n) (h.node n hn) fun _ ha => Runs.pure ha) fun _ ha => Runs.pure ha

theorem every_sources {l : List SchemaNode} (hl : ∀ x ∈ l, Every c K x) :
    K.calm → ∀ x ∈ l, ∀ ref, x.ref = some ref → '\n' ∉ fragmentOf ref := fun hc x hx ref e => ((hl x hx).tame.ref hc ref e).1

theorem no_sources : K.calm → ∀ x ∈ ([] : List SchemaNode), ∀ ref, x.ref = some ref → '\n' ∉ fragmentOf ref := by
  intro _ x hx
  simp at hx

/-! ## Leaf types -/

theorem runs_buildRegex {S : Gen → Prop} {a : RxArgs} {p : String} (hp : PatternOk c a p) (hi : K.calm → ∃ a', a.initialize = .ok a') :
    Runs c K S (buildRegex c a p) (ExOk RxBuilt) := by
  unfold buildRegex
  cases hb : newRegexGenerator c.rxParse a p.toList with
  | ok g =>
    refine Runs.pure (exOk_ok ?_)
    unfold newRegexGenerator at hb
    dsimp only at hb
    cases h1 : a.initialize with
    | error e => rw [h1] at hb; cases hb
    | ok a' =>
      rw [h1] at hb
      dsimp only at hb
      cases h2 : c.rxParse (if a.suppressRandomBytes then suppressDots p.toList else p.toList) with
      | none => rw [h2] at hb; cases hb
      | some r =>
        rw [h2] at hb
        exact ⟨a', r, hp a' r h1 h2, hb⟩
  | err e => exact Runs.pure (exOk_error _)
  | panic e =>
    refine Runs.fail fun hc => ?_
    obtain ⟨a', ha'⟩ := hi hc
    unfold newRegexGenerator at hb
    dsimp only at hb
    rw [ha'] at hb
    dsimp only at hb
    cases h2 : c.rxParse (if a.suppressRandomBytes then suppressDots p.toList else p.toList) with
    | none => rw [h2] at hb; cases hb
    | some r =>
      rw [h2] at hb
      exact C26_build_no_panic a' r (hp a' r ha' h2) e hb

theorem checkString_max {n : SchemaNode} (h : checkString n = none) : 0 ≤ getZeroIfNil n.maxLength 0 := by
  unfold checkString at h
  dsimp only at h
  split at h
  · cases h
  · split at h
    · cases h
    · rename_i h1
      push Not at h1
      exact h1.1

theorem runs_parseString (hw : WorldOk c K) {n : SchemaNode} (hn : Every c K n) : GRuns c K (parseString c n) (NodeOk c K) := by
  unfold parseString
  split
  · exact runs_nullErr _
  · rename_i hck
    have hm := checkString_max hck
    dsimp only
    split
    · rename_i hp
      refine runs_okGen (.str _ (fun h => ?_) hm)
      rw [hp] at h
      exact absurd rfl h
    · rename_i p hp
      refine Runs.bind (runs_buildRegex (hn.tame.pattern p hp) fun hc => (hw.calm hc).rxString) fun r hr => ?_
      split
      · exact runs_nullErr _
      · rename_i rx
        exact runs_okGen (.str _ (fun _ => ⟨rx, rfl, hr rx rfl⟩) hm)

theorem runs_parseNumberNode {n : SchemaNode} (hn : Every c K n) (b : Bool) : GRuns c K (parseNumberNode c n b) (SchemaOk c K) := by
  unfold parseNumberNode
  split
  · exact Runs.pure ⟨fun h => (by cases h), .inr rfl⟩
  · rename_i r hr
    refine Runs.pure (schemaOk_of ?_)
    cases r with
    | const q => exact .const _
    | gen g =>
      refine .num g ⟨⟨_, b, hr⟩, fun hm => ?_⟩
      unfold parseNumber at hr
      split at hr
      · cases hr
      · split at hr
        · cases hr
        · injection hr with hr
          injection hr with hr
          rw [← hr]
          show getZeroIfNil n.multipleOf 0 = 0
          rw [hn.tame.multiple hm]
          rfl

/-! ## Arrays -/

theorem runs_asSub {m : PR} (h : GRuns c K m (NodeOk c K)) : GRuns c K (asSub m) (ExOk fun o => ∀ g ∈ o, Shape c K g) := by
  unfold asSub
  refine Runs.bind h fun r hr => ?_
  split
  · exact Runs.pure (exOk_error _)
  · refine Runs.pure (exOk_ok fun g hg => ?_)
    cases hg
    exact hr

theorem sub_none : ExOk (fun o : Option Gen => ∀ g ∈ o, Shape c K g) (.ok none) := exOk_ok fun g hg => by cases hg

theorem runs_parseItems (hw : WorldOk c K) {r : PRec} (h : RecRuns c K r) {x : Option (ItemsData SchemaNode)} (hx : ItemsAll (Every c K) x) :
    GRuns c K (parseItems c r x) (ExOk fun o => ∀ g ∈ o, Shape c K g) := by
  unfold parseItems
  split
  · exact Runs.pure sub_none
  · rename_i d
    refine Runs.ite (fun _ => Runs.pure sub_none) fun _ => ?_
    split
    · exact Runs.pure sub_none
    · rename_i y hy
      exact runs_asSub (runs_parseInScope hw h _ ((hx d rfl).1 y hy) no_sources)

theorem runs_parseOrFalse (hw : WorldOk c K) {r : PRec} (h : RecRuns c K r) (scope : String) {x : Option (NodeOrFalse SchemaNode)}
    (hx : OrFalseAll (Every c K) x) : GRuns c K (parseOrFalse c r scope x) (ExOk fun o => ∀ g ∈ o, Shape c K g) := by
  unfold parseOrFalse
  split
  · exact Runs.pure sub_none
  · rename_i d
    split
    · exact Runs.pure sub_none
    · rename_i y hy
      exact runs_asSub (runs_parseInScope hw h _ (hx d rfl y hy) no_sources)

theorem every_noContains {n : SchemaNode} (hn : Every c K n) : Every c K { n with contains := none } := by
  have k := hn.kids
  exact .of hn.tame ⟨k.1, k.2, k.3, k.4, k.5, optAll_none, k.7, k.8, k.9, k.10, k.11, k.12, k.13, k.14, k.15, k.16, k.17, k.18, k.19, k.20⟩

theorem runs_mergedContains {S : Gen → Prop} (hw : WorldOk c K) (k : Nat) {x : Option (ItemsData SchemaNode)} {n : SchemaNode}
    (hx : ItemsAll (Every c K) x) (hn : Every c K n) : Runs c K S (mergedContains c k x n) (Every c K) := by
  unfold mergedContains
  split
  · exact Runs.pure hn
  · rename_i d
    split
    · exact Runs.pure hn
    · rename_i y hy
      exact Runs.bind (runs_mergeNodes hw k _ (bothEvery ((hx d rfl).1 y hy) hn)) fun m hm => Runs.pure (every_noContains hm)

theorem runs_parseContains (hw : WorldOk c K) {r : PRec} (h : RecRuns c K r) {n : SchemaNode} (hn : Every c K n) :
    GRuns c K (parseContains c r n) (ExOk fun o => ∀ g ∈ o, Shape c K g) := by
  unfold parseContains
  split
  · exact Runs.pure sub_none
  · rename_i x hx
    exact Runs.bind (runs_mergedContains hw _ hn.kids.items (hn.kids.contains x hx)) fun m hm =>
      runs_asSub (runs_parseInScope hw h _ hm no_sources)

theorem runs_parseTuple (hw : WorldOk c K) {r : PRec} (h : RecRuns c K r) : ∀ (l : List SchemaNode) (i : Nat), (∀ x ∈ l, Every c K x) →
    GRuns c K (parseTuple c r i l) (ExOk fun o => ∀ g ∈ o, Shape c K g) := by
  intro l
  induction l with
  | nil => intro i _; unfold parseTuple; exact Runs.pure (exOk_ok (by simp))
  | cons x t ih =>
    intro i hl
    unfold parseTuple
    refine Runs.bind (runs_parseInScope hw h _ (hl x (List.mem_cons_self ..)) no_sources) fun g hg => ?_
    split
    · exact Runs.pure (exOk_error _)
    · refine Runs.bind (ih (i + 1) fun y hy => hl y (List.mem_cons_of_mem _ hy)) fun rest hrest => ?_
      split
      · exact Runs.pure (exOk_error _)
      · refine Runs.pure (exOk_ok fun y hy => ?_)
        rcases List.mem_cons.1 hy with rfl | hy
        · exact hg
        · exact hrest _ rfl y hy

theorem tupleNodes_every {n : SchemaNode} (hn : Every c K n) : ∀ x ∈ tupleNodes n, Every c K x := by
  unfold tupleNodes
  split
  · rename_i hp
    exact hn.kids.prefixItems _ hp
  · split
    · rename_i d hd
      have := (hn.kids.items d hd).2
      cases hl : d.nodes with
      | none => simp
      | some l => exact this l hl
    · simp

theorem unevaluated_every {n : SchemaNode} (hn : Every c K n) : OrFalseAll (Every c K) (unevaluatedSchema n) := by
  unfold unevaluatedSchema
  split
  · rename_i d hd
    split
    · exact orFalseAll_none
    · exact orFalseAll_some (hn.kids.unevaluatedItems d hd)
  · exact orFalseAll_none

theorem runs_parseArray (hw : WorldOk c K) {r : PRec} (h : RecRuns c K r) {n : SchemaNode} (hn : Every c K n) :
    GRuns c K (parseArray c r n) (NodeOk c K) := by
  unfold parseArray
  split
  · exact runs_nullErr _
  refine Runs.bind (runs_parseItems hw h hn.kids.items) fun a ha => ?_
  split
  · exact runs_nullErr _
  refine Runs.bind (runs_parseOrFalse hw h _ hn.kids.additionalItems) fun b hb => ?_
  split
  · exact runs_nullErr _
  refine Runs.bind (runs_parseContains hw h hn) fun d hd => ?_
  split
  · exact runs_nullErr _
  refine Runs.bind (runs_parseTuple hw h _ _ (tupleNodes_every hn)) fun e he => ?_
  split
  · exact runs_nullErr _
  refine Runs.bind (runs_parseOrFalse hw h _ (unevaluated_every hn)) fun f hf => ?_
  split
  · exact runs_nullErr _
  exact runs_okGen (.arr _ (he _ rfl) (ha _ rfl) (hb _ rfl) (hd _ rfl) (hf _ rfl))

/-! ## Objects -/

theorem orNull_shape {r : Gen × Option Err} (h : SchemaOk c K r) : Shape c K (orNull r) := by
  unfold orNull
  split
  · exact .null
  · rename_i e
    exact h.1 e

theorem runs_parseProps (hw : WorldOk c K) {r : PRec} (h : RecRuns c K r) : ∀ l : List (String × SchemaNode), (∀ p ∈ l, Every c K p.2) →
    GRuns c K (parseProps c r l) (fun o => ∀ p ∈ o, Shape c K p.2) := by
  intro l
  induction l with
  | nil => intro _; unfold parseProps; exact Runs.pure (by simp)
  | cons x t ih =>
    obtain ⟨k, n⟩ := x
    intro hl
    unfold parseProps
    refine Runs.bind (runs_parseInScope hw h _ (hl _ (List.mem_cons_self ..)) no_sources) fun g hg => ?_
    refine Runs.bind (ih fun p hp => hl p (List.mem_cons_of_mem _ hp)) fun rest hrest => Runs.pure fun p hp => ?_
    rcases List.mem_cons.1 hp with rfl | hp
    · exact orNull_shape (schemaOk_of hg)
    · exact hrest p hp

theorem runs_patternRegex {S : Gen → Prop} (hw : WorldOk c K) {k : String} (hk : PatternOk c c.rxPattern k) :
    Runs c K S (patternRegex c k) (fun o => ∀ g ∈ o, RxBuilt g) := by
  unfold patternRegex
  refine Runs.bind (runs_buildRegex hk fun hc => (hw.calm hc).rxPattern) fun r hr => ?_
  split
  · refine Runs.pure fun g hg => ?_
    cases hg
    exact hr _ rfl
  · exact Runs.bind (runs_addErrorSub _ _) fun _ _ => Runs.pure fun g hg => by cases hg

theorem runs_parsePatProps (hw : WorldOk c K) {r : PRec} (h : RecRuns c K r) : ∀ l : List (String × SchemaNode),
    (∀ p ∈ l, PatternOk c c.rxPattern p.1 ∧ Every c K p.2) →
    GRuns c K (parsePatProps c r l) (fun o => ∀ p ∈ o, Shape c K p.2.1 ∧ ∀ g ∈ p.2.2, RxBuilt g) := by
  intro l
  induction l with
  | nil => intro _; unfold parsePatProps; exact Runs.pure (by simp)
  | cons x t ih =>
    obtain ⟨k, n⟩ := x
    intro hl
    have hx := hl _ (List.mem_cons_self ..)
    unfold parsePatProps
    refine Runs.bind (runs_parseInScope hw h _ hx.2 no_sources) fun g hg => ?_
    refine Runs.bind (runs_patternRegex hw hx.1) fun rx hrx => ?_
    refine Runs.bind (ih fun p hp => hl p (List.mem_cons_of_mem _ hp)) fun rest hrest => Runs.pure fun p hp => ?_
    rcases List.mem_cons.1 hp with rfl | hp
    · exact ⟨orNull_shape (schemaOk_of hg), hrx⟩
    · exact hrest p hp

theorem runs_parseAddProps (hw : WorldOk c K) {r : PRec} (h : RecRuns c K r) {x : Option (NodeOrFalse SchemaNode)}
    (hx : OrFalseAll (Every c K) x) : GRuns c K (parseAddProps c r x) (fun o => ∀ g ∈ o, Shape c K g) := by
  have hnone : ∀ g ∈ (none : Option Gen), Shape c K g := fun g hg => by cases hg
  unfold parseAddProps
  split
  · exact Runs.pure hnone
  · rename_i d
    refine Runs.ite (fun _ => Runs.pure hnone) fun _ => ?_
    split
    · exact Runs.pure hnone
    · rename_i y hy
      refine Runs.bind (runs_parseInScope hw h _ (hx d rfl y hy) no_sources) fun g hg => Runs.pure fun x hx => ?_
      cases hx
      exact orNull_shape (schemaOk_of hg)

theorem checkObject_max {n : SchemaNode} (h : checkObject n = none) : 0 ≤ getZeroIfNil n.maxProperties 0 := by
  unfold checkObject at h
  dsimp only at h
  split at h
  · cases h
  · split at h
    · cases h
    · rename_i h1
      push Not at h1
      exact h1

theorem runs_parseObject (hw : WorldOk c K) {r : PRec} (h : RecRuns c K r) {n : SchemaNode} (hn : Every c K n) :
    GRuns c K (parseObject c r n) (NodeOk c K) := by
  unfold parseObject
  split
  · exact runs_nullErr _
  · rename_i hck
    have hpat : ∀ p ∈ getZeroIfNil n.patternProperties [], PatternOk c c.rxPattern p.1 ∧ Every c K p.2 := by
      have := hn.kids.patternProperties
      cases hp : n.patternProperties with
      | none => simp [getZeroIfNil]
      | some l => exact this l hp
    refine Runs.bind (runs_parsePatProps hw h _ hpat) fun pats hpats => ?_
    refine Runs.bind (runs_parseProps hw h _ (map_zero hn.kids.properties)) fun props hprops => ?_
    refine Runs.bind (runs_parseAddProps hw h hn.kids.additionalProperties) fun add hadd => ?_
    exact runs_okGen (.obj _ hprops (fun p hp => (hpats p hp).1) (fun p hp => (hpats p hp).2) hadd (checkObject_max hck))

/-! ## Types -/

theorem runs_parseType (hw : WorldOk c K) {r : PRec} (h : RecRuns c K r) (t : String) {n : SchemaNode} (hn : Every c K n) :
    GRuns c K (parseType c r t n) (SchemaOk c K) := by
  unfold parseType
  have up : ∀ {m : PR}, GRuns c K m (NodeOk c K) → GRuns c K m (SchemaOk c K) := fun h => h.mono fun _ => schemaOk_of
  exact Runs.ite (fun _ => up (runs_parseObject hw h hn)) fun _ => Runs.ite (fun _ => up (runs_parseArray hw h hn)) fun _ =>
    Runs.ite (fun _ => runs_parseNumberNode hn _) fun _ => Runs.ite (fun _ => runs_parseNumberNode hn _) fun _ =>
    Runs.ite (fun _ => up (runs_parseString hw hn)) fun _ => Runs.ite (fun _ => up (runs_okGen .bool)) fun _ => up (runs_okGen .null)

theorem runs_parseTypes (hw : WorldOk c K) {r : PRec} (h : RecRuns c K r) {n : SchemaNode} (hn : Every c K n) : ∀ l : List String,
    GRuns c K (parseTypes c r n l) (fun o => o.length = l.length ∧ ∀ g ∈ o, Shape c K g) := by
  intro l
  induction l with
  | nil => unfold parseTypes; exact Runs.pure ⟨rfl, by simp⟩
  | cons t ts ih =>
    unfold parseTypes
    refine Runs.bind (runs_parseType hw h t hn) fun g hg => Runs.bind ih fun rest hrest => Runs.pure ⟨?_, fun x hx => ?_⟩
    · simp [hrest.1]
    · rcases List.mem_cons.1 hx with rfl | hx
      · exact orNull_shape hg
      · exact hrest.2 x hx

theorem ne_nil_of_len {α β : Type} {a : List α} {b : List β} (h : a.length = b.length) (hb : b ≠ []) : a ≠ [] := by
  intro e
  rw [e] at h
  exact hb (List.length_eq_zero_iff.1 h.symm)

theorem runs_parseMultipleType (hw : WorldOk c K) {r : PRec} (h : RecRuns c K r) {n : SchemaNode} (hn : Every c K n) {l : List String}
    (hl : l ≠ []) : GRuns c K (parseMultipleType c r n l) (NodeOk c K) := by
  unfold parseMultipleType
  exact Runs.bind (runs_parseTypes hw h hn l) fun gs hgs => runs_okGen (.multi _ (ne_nil_of_len hgs.1 hl) hgs.2)

theorem runs_parseByType (hw : WorldOk c K) {r : PRec} (h : RecRuns c K r) {n : SchemaNode} (hn : Every c K n) :
    GRuns c K (parseByType c r n) (SchemaOk c K) := by
  unfold parseByType
  split
  · rename_i types ht
    exact (runs_parseMultipleType hw h hn fun e => hn.tame.types (by rw [ht, e])).mono fun _ => schemaOk_of
  · refine Runs.ite (fun _ => runs_parseType hw h _ hn) fun _ => Runs.ite (fun _ => ?_) fun _ => runs_parseType hw h _ hn
    refine (runs_parseMultipleType hw h (every_type hn ?_) (by decide)).mono fun _ => schemaOk_of
    show some typeAll ≠ some []
    decide

/-! ## References, combinations, conditionals, values -/

theorem runs_parseReference (hw : WorldOk c K) {ref : String} (hr : K.calm → RefOk ref) :
    GRuns c K (parseReference c ref) (SchemaOk c K) := by
  unfold parseReference
  refine Runs.ite (fun _ => Runs.pure ⟨fun h => (by cases h), .inr rfl⟩) fun _ => ?_
  refine Runs.bind (runs_handleDeferred hw hr) fun r _ => ?_
  split
  · exact Runs.pure ⟨fun h => (by cases h), .inr rfl⟩
  · exact Runs.pure (schemaOk_of (.ref _ _))

theorem runs_parseAllOf (hw : WorldOk c K) {r : PRec} (h : RecRuns c K r) {n : SchemaNode} {l : List SchemaNode} (hn : Every c K n)
    (hl : ∀ x ∈ l, Every c K x) : GRuns c K (parseAllOf c r n l) (NodeOk c K) := by
  unfold parseAllOf
  dsimp only
  have hs := every_snoc hl (every_noAllOf hn)
  refine Runs.bind (runs_mergeNodes hw _ _ hs) fun m hm => ?_
  refine Runs.bind (runs_parseInScope hw h _ hm (every_sources hs)) fun g hg => ?_
  split
  · exact runs_nullErr _
  · exact runs_okGen (.allOf _ hg)

theorem every_one {x : SchemaNode} (hx : Every c K x) : ∀ y ∈ [x], Every c K y := by
  intro y hy
  cases List.mem_singleton.1 hy
  exact hx

theorem runs_parseBranch (hw : WorldOk c K) {r : PRec} (h : RecRuns c K r) {n : SchemaNode} (hn : Every c K n) (b : Bool) (i : Nat)
    {sub : SchemaNode} (hs : Every c K sub) : GRuns c K (parseBranch c r n b i sub) (Shape c K) := by
  unfold parseBranch
  refine Runs.bind (runs_mergeNodes hw _ _ (every_one hn)) fun base hb => ?_
  have hb' : Every c K (if b then { base with oneOf := none } else { base with anyOf := none }) := by
    have k := hb.kids
    split
    · exact .of hb.tame ⟨k.1, k.2, k.3, k.4, k.5, k.6, k.7, k.8, k.9, k.10, k.11, k.12, k.13, listAll_none, k.15, k.16, k.17, k.18, k.19, k.20⟩
    · exact .of hb.tame ⟨k.1, k.2, k.3, k.4, k.5, k.6, k.7, k.8, k.9, k.10, k.11, k.12, listAll_none, k.14, k.15, k.16, k.17, k.18, k.19, k.20⟩
  dsimp only
  refine Runs.bind (runs_mergeNodes hw _ _ (bothEvery hb' hs)) fun m hm => ?_
  refine Runs.bind (runs_parseInScope hw h _ hm (every_sources (every_one hs))) fun g hg => ?_
  split
  · exact Runs.bind (runs_addErrorSub _ _) fun _ _ => Runs.pure .null
  · exact Runs.pure hg

theorem runs_parseBranches (hw : WorldOk c K) {r : PRec} (h : RecRuns c K r) {n : SchemaNode} (hn : Every c K n) (b : Bool) :
    ∀ (l : List SchemaNode) (i : Nat), (∀ x ∈ l, Every c K x) →
    GRuns c K (parseBranches c r n b i l) (fun o => o.length = l.length ∧ ∀ g ∈ o, Shape c K g) := by
  intro l
  induction l with
  | nil => intro i _; unfold parseBranches; exact Runs.pure ⟨rfl, by simp⟩
  | cons x t ih =>
    intro i hl
    unfold parseBranches
    refine Runs.bind (runs_parseBranch hw h hn b i (hl x (List.mem_cons_self ..))) fun g hg => ?_
    refine Runs.bind (ih _ fun y hy => hl y (List.mem_cons_of_mem _ hy)) fun rest hrest => Runs.pure ⟨by simp [hrest.1], fun y hy => ?_⟩
    rcases List.mem_cons.1 hy with rfl | hy
    · exact hg
    · exact hrest.2 y hy

theorem runs_flattenAll {S : Gen → Prop} (hw : WorldOk c K) (k : Nat) : ∀ l : List SchemaNode, (∀ x ∈ l, Every c K x) →
    Runs c K S (flattenAll c k l) (fun _ => True) := by
  intro l
  induction l with
  | nil => intro _; unfold flattenAll; exact Runs.pure trivial
  | cons x t ih =>
    intro hl
    unfold flattenAll
    exact Runs.bind (runs_mergeNodes hw k _ (every_one (hl x (List.mem_cons_self ..)))) fun _ _ =>
      Runs.bind (ih fun y hy => hl y (List.mem_cons_of_mem _ hy)) fun _ _ => Runs.pure trivial

theorem runs_validatorFor {S : Gen → Prop} (n : SchemaNode) (f : String) : Runs c K S (validatorFor c n f) (fun _ => True) := by
  intro s hs
  refine ⟨fun _ e h => by simp [validatorFor] at h, fun a s' h => ?_⟩
  unfold validatorFor at h
  dsimp only at h
  injection h with _ h
  subst h
  exact ⟨trivial, hs⟩

theorem runs_oneOfValidators {S : Gen → Prop} : ∀ (l : List SchemaNode) (i : Nat), Runs c K S (oneOfValidators c i l) (fun _ => True) := by
  intro l
  induction l with
  | nil => intro i; unfold oneOfValidators; exact Runs.pure trivial
  | cons x t ih =>
    intro i
    unfold oneOfValidators
    refine Runs.bind (runs_validatorFor _ _) fun _ _ => ?_
    split
    · exact Runs.bind (runs_addErrorSub _ _) fun _ _ => ih _
    · exact Runs.bind (ih _) fun _ _ => Runs.pure trivial

theorem runs_parseCombination (hw : WorldOk c K) {r : PRec} (h : RecRuns c K r) {n : SchemaNode} (hn : Every c K n) :
    GRuns c K (parseCombination c r n) (NodeOk c K) := by
  unfold parseCombination
  dsimp only
  have h1 := list_zero hn.kids.oneOf
  have h2 := list_zero hn.kids.anyOf
  refine Runs.bind (runs_parseBranches hw h hn _ _ 0 (by split <;> assumption)) fun gs hgs => ?_
  refine Runs.ite (fun hl => ?_) fun hl => ?_
  · refine Runs.bind (runs_flattenAll hw _ _ h1) fun _ _ => Runs.bind (runs_oneOfValidators _ _) fun vs _ => ?_
    refine runs_okGen (.constrained _ _ (.comb _ ?_ hgs.2) ?_)
    · have hpos : 0 < (getZeroIfNil n.oneOf []).length := by omega
      have := hgs.1
      rw [if_pos (by simpa using hpos)] at this
      intro e
      rw [e] at this
      simp at this
      omega
    · intro k hk g hg
      cases List.mem_singleton.1 hk
      simp [constrChildren] at hg
  · split
    · exact runs_okGen (hgs.2 _ (List.mem_cons_self ..))
    · exact runs_nullErr _
    · rename_i hne
      exact runs_okGen (.comb _ (fun e => hne e) hgs.2)

theorem compileColl_shape {cc : ConstraintColl} : ∀ k ∈ [compileColl c cc], ∀ g ∈ constrChildren k, Shape c K g := by
  intro k hk g hg
  cases List.mem_singleton.1 hk
  simp [compileColl, constrChildren] at hg

theorem runs_parseNot (hw : WorldOk c K) {r : PRec} (h : RecRuns c K r) {n : SchemaNode} (hn : Every c K n) :
    GRuns c K (parseNot c r n) (SchemaOk c K) := by
  unfold parseNot
  refine Runs.bind (runs_partitionNots hw _ _ _ (collectNots_all hn)) fun parts hparts => ?_
  have hb : Every c K { n with not := none, mergedNot := [] } := every_nots hn (fun _ e => by cases e) (by simp)
  dsimp only
  refine Runs.bind (R := Every c K) (Runs.ite (fun _ => runs_mergeNodes hw _ _ ?_) fun _ => Runs.pure hb) fun base hbase => ?_
  · intro x hx
    rcases List.mem_cons.1 hx with rfl | hx
    · exact hb
    · exact hparts.2 x hx
  · refine Runs.ite (fun _ => h.schema _ hbase) fun _ => ?_
    refine Runs.bind (runs_mergeNodes hw _ _ (every_one hbase)) fun flat hflat => ?_
    refine Runs.bind (runs_applyNots _ _ _ _ hflat hparts.1) fun res hres => ?_
    refine Runs.bind (h.node _ hres) fun g hg => ?_
    split
    · exact (runs_nullErr _).mono fun _ => schemaOk_of
    · exact (runs_okGen (.constrained _ _ hg compileColl_shape)).mono fun _ => schemaOk_of

theorem runs_parseIfBody (hw : WorldOk c K) {r : PRec} (h : RecRuns c K r) (scope : String) {n : SchemaNode} (hn : Every c K n)
    {b : Option SchemaNode} (hb : OptAll (Every c K) b) : GRuns c K (parseIfBody c r scope n b) (fun o => ∀ g ∈ o, Shape c K g) := by
  have hnone : ∀ g ∈ (none : Option Gen), Shape c K g := fun g hg => by cases hg
  unfold parseIfBody
  split
  · exact Runs.pure hnone
  · rename_i x
    have hx := hb x rfl
    refine Runs.bind (runs_mergeNodes hw _ _ (bothEvery hn hx)) fun m hm => ?_
    refine Runs.bind (runs_parseInScope hw h _ hm (every_sources (every_one hx))) fun g hg => ?_
    split
    · exact Runs.bind (runs_warnField _ _) fun _ _ => Runs.pure hnone
    · refine Runs.pure fun y hy => ?_
      cases hy
      exact hg

/-- The bodies of a compiled conditional. -/
def IfOk (c : PEnv) (K : Care) (x : IfC Gen) : Prop := (∀ g ∈ x.thenGen, Shape c K g) ∧ ∀ g ∈ x.elseGen, Shape c K g

theorem runs_compileIf (hw : WorldOk c K) {r : PRec} (h : RecRuns c K r) {n : SchemaNode} (hn : Every c K n) (i : Nat)
    {st : IfStmt SchemaNode} (hst : IfAll (Every c K) st) : GRuns c K (compileIf c r n i st) (ExOk (IfOk c K)) := by
  unfold compileIf
  split
  · exact Runs.pure (exOk_error _)
  · refine Runs.ite (fun _ => Runs.pure (exOk_error _)) fun _ => ?_
    refine Runs.bind (Runs.gets (Q := fun _ => True) fun _ _ => trivial) fun _ _ => Runs.bind (runs_validatorFor _ _) fun _ _ => ?_
    split
    · exact Runs.pure (exOk_error _)
    · refine Runs.bind (runs_parseIfBody hw h _ hn hst.2.1) fun t ht => ?_
      refine Runs.bind (runs_parseIfBody hw h _ hn hst.2.2) fun e he => ?_
      exact Runs.pure (exOk_ok ⟨ht, he⟩)

theorem runs_compileIfs (hw : WorldOk c K) {r : PRec} (h : RecRuns c K r) {n : SchemaNode} (hn : Every c K n) :
    ∀ (l : List (IfStmt SchemaNode)) (i : Nat), (∀ st ∈ l, IfAll (Every c K) st) →
    GRuns c K (compileIfs c r n i l) (fun o => ∀ x ∈ o, IfOk c K x) := by
  intro l
  induction l with
  | nil => intro i _; unfold compileIfs; exact Runs.pure (by simp)
  | cons x t ih =>
    intro i hl
    have ht : ∀ st ∈ t, IfAll (Every c K) st := fun y hy => hl y (List.mem_cons_of_mem _ hy)
    unfold compileIfs
    refine Runs.bind (runs_compileIf hw h hn i (hl x (List.mem_cons_self ..))) fun y hy => ?_
    split
    · exact Runs.bind (runs_addErrorSub _ _) fun _ _ => ih _ ht
    · refine Runs.bind (ih _ ht) fun rest hrest => Runs.pure fun z hz => ?_
      rcases List.mem_cons.1 hz with rfl | hz
      · exact hy _ rfl
      · exact hrest z hz

theorem runs_parseIf (hw : WorldOk c K) {r : PRec} (h : RecRuns c K r) {n : SchemaNode} (hn : Every c K n) :
    GRuns c K (parseIf c r n) (NodeOk c K) := by
  unfold parseIf
  refine Runs.bind (Runs.gets (Q := fun _ => True) fun _ _ => trivial) fun path _ => ?_
  dsimp only
  have k := hn.kids
  have hst : ∀ st ∈ (if n.ifN.isSome then n.mergedIf ++ [newIfStatement n path] else n.mergedIf), IfAll (Every c K) st := by
    intro st hst
    split at hst
    · rcases List.mem_append.1 hst with hst | hst
      · exact k.mergedIf st hst
      · cases List.mem_singleton.1 hst
        exact ⟨k.ifN, k.thenN, k.elseN⟩
    · exact k.mergedIf st hst
  have hn' : Every c K { n with ifN := none, thenN := none, elseN := none, mergedIf := [] } :=
    .of hn.tame ⟨k.1, k.2, k.3, k.4, k.5, k.6, k.7, optAll_none, optAll_none, optAll_none, k.11, k.12, k.13, k.14, k.15, k.16, k.17, k.18,
      k.19, by simp⟩
  refine Runs.bind (h.schema _ hn') fun g hg => ?_
  split
  · exact runs_nullErr _
  · rename_i he
    have hg1 := hg.1 he
    refine Runs.ite (fun _ => runs_okGen hg1) fun _ => ?_
    refine Runs.bind (runs_compileIfs hw h hn' _ _ hst) fun cs hcs => Runs.ite (fun _ => ?_) fun _ => ?_
    · exact Runs.bind (runs_addErrorSub _ _) fun _ _ => runs_okGen hg1
    · refine runs_okGen (.constrained _ _ hg1 fun q hq x hx => ?_)
      cases List.mem_singleton.1 hq
      simp only [constrChildren, List.mem_flatMap, List.mem_append, Option.mem_toList] at hx
      obtain ⟨ic, hic, hx | hx⟩ := hx
      · exact (hcs ic hic).1 x hx
      · exact (hcs ic hic).2 x hx

theorem runs_parseEnum (n : SchemaNode) (l : List JVal) : GRuns c K (parseEnum c n l) (NodeOk c K) := by
  unfold parseEnum
  refine Runs.bind (runs_validatorFor _ _) fun _ _ => ?_
  split
  · exact runs_nullErr _
  · split
    · exact runs_nullErr _
    · exact runs_okGen (.const _)
    · rename_i hne _
      exact runs_okGen (.enum _ fun e => hne e)

theorem runs_parseConst (n : SchemaNode) (v : JVal) : GRuns c K (parseConst c n v) (NodeOk c K) := by
  unfold parseConst
  refine Runs.bind (runs_validatorFor _ _) fun _ _ => ?_
  split
  · exact runs_nullErr _
  · exact Runs.ite (fun _ => runs_okGen (.const _)) fun _ => runs_nullErr _

theorem runs_parseSchemaStep (hw : WorldOk c K) {r : PRec} (h : RecRuns c K r) {n : SchemaNode} (hn : Every c K n) :
    GRuns c K (parseSchemaStep c r n) (SchemaOk c K) := by
  have up : ∀ {m : PR}, GRuns c K m (NodeOk c K) → GRuns c K m (SchemaOk c K) := fun h => h.mono fun _ => schemaOk_of
  unfold parseSchemaStep
  split
  · exact up (runs_nullErr _)
  · split
    · rename_i ref href
      exact runs_parseReference hw fun hc => hn.tame.ref hc ref href
    · split
      · rename_i l hl
        exact up (runs_parseAllOf hw h hn (hn.kids.allOf l hl))
      · refine Runs.ite (fun _ => up (runs_parseCombination hw h hn)) fun _ => Runs.ite (fun _ => runs_parseNot hw h hn) fun _ =>
          Runs.ite (fun _ => up (runs_parseIf hw h hn)) fun _ => ?_
        split
        · exact up (runs_parseEnum _ _)
        · split
          · exact up (runs_parseConst _ _)
          · exact runs_parseByType hw h hn

theorem nilToNull_shape {g : Gen} (h : Shape c K g ∨ g = .nilGen) : Shape c K (nilToNull g) := by
  rcases h with h | rfl
  · unfold nilToNull
    split
    · exact .null
    · exact h
  · exact .null

theorem runs_register {n : SchemaNode} {g : Gen} (hg : Shape c K g) : GRuns c K (registerNode n g) (fun _ => True) := by
  have one : ∀ {refs : List ((String × String) × Gen)} {k : String × String}, (∀ p ∈ refs, Shape c K p.2) →
      ∀ p ∈ (k, g) :: refs, Shape c K p.2 := by
    intro refs k h p hp
    rcases List.mem_cons.1 hp with rfl | hp
    · exact hg
    · exact h p hp
  unfold registerNode
  refine Runs.bind (R := fun _ => True) ?_ fun _ _ => Runs.mod fun s hs =>
    ⟨one hs.refs, hs.docs, hs.aliases, hs.queue, hs.parsing, hs.resolving, hs.res⟩
  split
  · exact Runs.mod fun s hs => ⟨one hs.refs, hs.docs, hs.aliases, hs.queue, hs.parsing, hs.resolving, hs.res⟩
  · exact Runs.pure trivial

theorem runs_parseNodeStep {schema : SchemaNode → PR} (h : ∀ n, Every c K n → GRuns c K (schema n) (SchemaOk c K)) {n : SchemaNode}
    (hn : Every c K n) : GRuns c K (parseNodeStep c schema n) (NodeOk c K) := by
  unfold parseNodeStep
  refine Runs.bind (Runs.mod fun s hs => hs) fun _ _ => ?_
  refine Runs.bind (Runs.gets (Q := fun _ => True) fun _ _ => trivial) fun d _ => Runs.ite (fun _ => ?_) fun _ => ?_
  · exact Runs.bind (Runs.mod fun s hs => hs) fun _ _ => runs_nullErr _
  · refine Runs.bind (h n hn) fun r hr => ?_
    have hg := nilToNull_shape hr.2
    refine Runs.bind (R := fun _ => True) ?_ fun _ _ => ?_
    · unfold recordErr
      split
      · exact runs_addError _
      · exact Runs.pure trivial
    · dsimp only
      refine Runs.bind (runs_register hg) fun _ _ => Runs.bind (Runs.mod fun s hs => hs) fun _ _ => ?_
      split
      · exact runs_okGen (.constrained _ _ hg compileColl_shape)
      · exact Runs.pure hg

theorem runs_parseRec (hw : WorldOk c K) : ∀ k, RecRuns c K (parseRec c k) := by
  intro k
  induction k with
  | zero => exact ⟨keeps_parseRec 0, fun _ _ => Runs.oom, fun _ _ => Runs.oom⟩
  | succ k ih =>
    exact ⟨keeps_parseRec (k + 1), fun n hn => runs_parseNodeStep ih.schema hn, fun n hn => runs_parseSchemaStep hw ih hn⟩

/-! ## Documents -/

theorem fragment_def {kw k : String} (h1 : '\n' ∉ kw.toList) (h2 : '\n' ∉ k.toList) : '\n' ∉ fragmentOf ("#/" ++ kw ++ "/" ++ k) := by
  unfold fragmentOf
  intro h
  have h := List.dropWhile_sublist _ |>.subset h
  simp only [String.toList_append, List.mem_append] at h
  rcases h with ((h | h) | h) | h
  · revert h; decide +kernel
  · exact h1 h
  · revert h; decide +kernel
  · exact h2 h

theorem runs_parseDefs (hw : WorldOk c K) {r : PRec} (h : RecRuns c K r) {kw : String} (hkw : '\n' ∉ kw.toList) :
    ∀ l : List (String × SchemaNode), (∀ p ∈ l, DefName K p.1 ∧ Every c K p.2) → GRuns c K (parseDefs c r kw l) (fun _ => True) := by
  intro l
  induction l with
  | nil => intro _; unfold parseDefs; exact Runs.pure trivial
  | cons x t ih =>
    obtain ⟨k, n⟩ := x
    intro hl
    have hx := hl _ (List.mem_cons_self ..)
    unfold parseDefs
    refine Runs.bind (runs_parseInScope hw h _ hx.2 ?_) fun _ _ => ih fun p hp => hl p (List.mem_cons_of_mem _ hp)
    intro hc y hy ref href
    cases List.mem_singleton.1 hy
    cases href
    exact fragment_def hkw (hx.1 hc)

theorem map_pairs {A : String → Prop} {P : SchemaNode → Prop} {a : Option (List (String × SchemaNode))} (ha : MapAll A P a) :
    ∀ q ∈ getZeroIfNil a [], A q.1 ∧ P q.2 := by
  cases a with
  | none => simp [getZeroIfNil]
  | some l => exact ha l rfl

theorem runs_parseRoot (hw : WorldOk c K) {r : PRec} (h : RecRuns c K r) {n : SchemaNode} (hn : Every c K n) :
    GRuns c K (parseRoot c r n) (NodeOk c K) := by
  unfold parseRoot
  refine Runs.bind (runs_parseDefs hw h (by decide +kernel) _ (map_pairs hn.kids.defs)) fun _ _ => ?_
  exact Runs.bind (runs_parseDefs hw h (by decide +kernel) _ (map_pairs hn.kids.definitions)) fun _ _ => h.node n hn

theorem runs_parseDocument (hw : WorldOk c K) {r : PRec} (h : RecRuns c K r) {doc : String} (hd : K.calm → HashFree doc) :
    GRuns c K (parseDocument c r doc) (fun _ => True) := by
  unfold parseDocument
  refine Runs.bind (Runs.mod fun s hs => ⟨hs.refs, hs.docs, hs.aliases, hs.queue, hd, hd, hs.res⟩) fun _ _ => ?_
  refine Runs.bind (runs_resolveDocument hw hd) fun d hdoc => ?_
  split
  · exact Runs.pure trivial
  · rename_i n
    refine Runs.bind (Runs.mod fun s hs => hs) fun _ _ => ?_
    exact Runs.bind (runs_parseRoot hw h (hdoc n rfl)) fun _ _ => Runs.pure trivial

theorem runs_parseQueue (hw : WorldOk c K) {r : PRec} (h : RecRuns c K r) : ∀ k, GRuns c K (parseQueue c r k) (fun _ => True) := by
  intro k
  induction k with
  | zero => exact Runs.oom
  | succ k ih =>
    unfold parseQueue
    refine Runs.bind (Runs.gets (Q := fun q => K.calm → ∀ d ∈ q, HashFree d) fun s hs => hs.queue) fun q hq => ?_
    split
    · exact Runs.pure trivial
    · rename_i doc t
      have ht : K.calm → ∀ d ∈ t, HashFree d := fun hc d hd => hq hc d (List.mem_cons_of_mem _ hd)
      refine Runs.bind (Runs.mod fun s hs => ⟨hs.refs, hs.docs, hs.aliases, ht, hs.parsing, hs.resolving, hs.res⟩) fun _ _ => ?_
      refine Runs.bind (runs_parseDocument hw h fun hc => hq hc doc (List.mem_cons_self ..)) fun e _ => ?_
      refine Runs.bind (R := fun _ => True) ?_ fun _ _ => ih
      split
      · exact runs_addErrorSub _ _
      · exact Runs.pure trivial

theorem runs_parseBody (hw : WorldOk c K) (fuel : Nat) {n : SchemaNode} (hn : Every c K n) :
    GRuns c K (parseBody c fuel n) (NodeOk c K) := by
  unfold parseBody
  refine Runs.bind (runs_parseRoot hw (runs_parseRec hw fuel) hn) fun g hg => ?_
  exact Runs.bind (runs_parseQueue hw (runs_parseRec hw fuel) fuel) fun _ _ => Runs.pure hg

/-- The initial state of a parse of a tame schema. -/
theorem initState_st {S : Gen → Prop} {n : SchemaNode} (hn : Every c K n) {s : PSt} (h : initState c n = .ok s)
    (hw : WorldOk c K) (r : List (String × JVal)) : St c K S { s with resources := r } := by
  have hid : K.calm → HashFree (rootIds c).1 := by
    intro hc
    unfold rootIds
    split
    · dsimp only
      split
      · show '#' ∉ "file://./".toList
        decide +kernel
      · rename_i p hp
        show '#' ∉ ("file://" ++ pathText p ++ "/").toList
        simp only [String.toList_append, List.mem_append, not_or]
        exact ⟨⟨by decide +kernel, (hw.calm hc).cwd p hp⟩, by decide +kernel⟩
    · exact (hw.calm hc).relativeTo
  unfold initState at h
  split at h
  · cases h
  · injection h with h
    subst h
    refine ⟨by simp, ?_, ?_, by simp, hid, ?_, by simp⟩
    · intro p hp
      cases List.mem_singleton.1 hp
      exact hn
    · intro hc
      show addAliases [] (collectSubSchemaIds c.url (baseURIOf c.url (rootIds c).2 n) (rootIds c).2 n) = []
      rw [collect_clean ((encode_tame hn).2 hc)]
      rfl
    · intro _
      show '#' ∉ "".toList
      decide +kernel

end

end Chaff
