import Verif.Lemmas.TameMerge
/-!
# Negating tame schemas
-/

namespace Chaff
open Comp

section
variable {c : PEnv} {K : Care} {S : Gen → Prop}

/-- The recursive negation runs well on tame schemas. -/
structure NotRuns (c : PEnv) (K : Care) (S : Gen → Prop) (rec : NotRec) : Prop where
  keeps : ∀ a b, Keeps c (rec a b)
  runs : ∀ a b, Every c K a → Every c K b → Runs c K S (rec a b) (fun r => Every c K r.1)

theorem runs_boundsInt (f : String) (a b x y : Option Int) : Runs c K S (boundsInt f a b x y) (fun _ => True) := by
  unfold boundsInt
  dsimp only
  exact Runs.ite (fun _ => Runs.bind (runs_warnField _ _) fun _ _ => Runs.pure trivial) fun _ => Runs.pure trivial

theorem runs_notApplyString {a b n : SchemaNode} {cc : ConstraintColl} (ha : Every c K a) (hn : Every c K n) :
    Runs c K S (notApplyString c a b n cc) (fun r => Every c K r.1) := by
  unfold notApplyString
  refine Runs.bind (runs_boundsInt _ _ _ _ _) fun bd _ => ?_
  have t := hn.tame
  have h : Every c K { n with minLength := bd.1, maxLength := bd.2, pattern := a.pattern, format := a.format } :=
    .of ⟨t.1, t.2, ha.tame.3, t.4, t.5, t.6, t.7, t.8⟩ hn.kids
  dsimp only
  split
  · refine Runs.ite (fun _ => Runs.bind (runs_warnField _ _) fun _ _ => Runs.pure h) fun _ => Runs.ite (fun _ => Runs.pure h) fun _ => ?_
    split
    · exact Runs.bind (runs_warnField _ _) fun _ _ => Runs.pure h
    · exact Runs.pure h
  · split
    · exact Runs.pure h
    · refine Runs.ite (fun _ => Runs.bind (runs_warnField _ _) fun _ _ => Runs.pure h) fun _ => Runs.ite (fun _ => Runs.pure h) fun _ => ?_
      split
      · exact Runs.bind (runs_warnField _ _) fun _ _ => Runs.pure h
      · exact Runs.pure h

theorem clean_num (q : Rat) : Clean (.num q) := .atom (fun _ h => by cases h) fun _ h => by cases h

theorem every_enum {n : SchemaNode} (hn : Every c K n) {e : Option (List JVal)} (he : K.calm → ∀ l, e = some l → ∀ v ∈ l, Clean v) :
    Every c K { n with enum := e } := every_values hn he hn.tame.const

theorem every_noMultiple {n : SchemaNode} (hn : Every c K n) :
    Every c K { n with multipleOf := none, maximum := none, minimum := none } :=
  .of ⟨fun _ => rfl, hn.tame.2, hn.tame.3, hn.tame.4, hn.tame.5, hn.tame.6, hn.tame.7, hn.tame.8⟩ hn.kids

theorem runs_setMultiples {l : List Rat} {n : SchemaNode} (hn : Every c K n) : Runs c K S (setMultiples l n) (Every c K) := by
  have h := every_noMultiple hn
  unfold setMultiples
  dsimp only
  split
  · rename_i v t hv
    have h2 : Every c K { n with multipleOf := none, maximum := none, minimum := none, enum := some (filterEnum l (v :: t)) } :=
      every_enum h fun hc l' e w hw => by
        cases e
        exact hn.tame.enum hc _ hv w (List.mem_filter.1 hw).1
    exact Runs.ite (fun _ => Runs.bind (runs_warnField _ _) fun _ _ => Runs.pure h2) fun _ => Runs.pure h2
  · refine Runs.pure (every_enum h fun hc l' e w hw => ?_)
    cases e
    obtain ⟨q, _, rfl⟩ := List.mem_map.1 hw
    exact clean_num q

theorem runs_applyMultiples {F : FP} {b : FloatBounds} {x y : Rat} {a n : SchemaNode} (ha : Every c K a) (hn : Every c K n) :
    Runs c K S (applyMultiples F b x y a n) (Every c K) := by
  have w : ∀ e : Err, Runs c K S (do warnField "not/multipleOf" e; pure n) (Every c K) := fun e =>
    Runs.bind (runs_warnField _ _) fun _ _ => Runs.pure hn
  unfold applyMultiples
  refine Runs.ite (fun _ => Runs.pure hn) fun _ => Runs.ite (fun _ => w _) fun _ => Runs.ite (fun _ => w _) fun _ =>
    Runs.ite (fun _ => w _) fun _ => Runs.ite (fun _ => ?_) fun _ => Runs.pure ?_
  · split
    · exact w _
    · exact runs_setMultiples hn
  · exact .of ⟨ha.tame.1, hn.tame.2, hn.tame.3, hn.tame.4, hn.tame.5, hn.tame.6, hn.tame.7, hn.tame.8⟩ hn.kids

theorem runs_notApplyNumber {F : FP} {a b n : SchemaNode} (ha : Every c K a) (hn : Every c K n) :
    Runs c K S (notApplyNumber F a b n) (Every c K) := by
  unfold notApplyNumber
  dsimp only
  have h : ∀ x y : Option Rat, Every c K { n with minimum := x, maximum := y } := fun _ _ => .of hn.tame hn.kids
  split
  · exact Runs.bind (runs_warnField _ _) fun _ _ => runs_applyMultiples ha (h _ _)
  · exact runs_applyMultiples ha (h _ _)

theorem runs_notEnumRest {a b n : SchemaNode} (ha : Every c K a) (hn : Every c K n) :
    Runs c K S (notEnumRest a b n) (Every c K) := by
  unfold notEnumRest
  dsimp only
  refine Runs.ite (fun _ => Runs.bind (runs_warnField _ _) fun _ _ => Runs.pure hn) fun _ => Runs.pure ?_
  refine every_enum hn fun hc l e v hv => ?_
  cases e
  have hv := (List.mem_filter.1 hv).1
  cases he : a.enum with
  | none => rw [he] at hv; simp [getZeroIfNil] at hv
  | some l => rw [he] at hv; exact ha.tame.enum hc l he v hv

theorem runs_notApplyEnum {a b n : SchemaNode} {cc : ConstraintColl} (ha : Every c K a) (hn : Every c K n) :
    Runs c K S (notApplyEnum a b n cc) (fun r => Every c K r.1) := by
  have hr : Runs c K S (do let n ← notEnumRest a b n; pure (n, cc)) (fun r => Every c K r.1) :=
    Runs.bind (runs_notEnumRest ha hn) fun x hx => Runs.pure hx
  unfold notApplyEnum
  dsimp only
  refine Runs.ite (fun _ => Runs.pure hn) fun _ => Runs.ite (fun _ => ?_) fun _ => hr
  split
  · exact Runs.pure hn
  · exact Runs.ite (fun _ => Runs.bind (runs_warnField _ _) fun _ _ => Runs.pure hn) fun _ => hr

theorem runs_notApplyConst {a b n : SchemaNode} {cc : ConstraintColl} (ha : Every c K a) (hn : Every c K n) :
    Runs c K S (notApplyConst a b n cc) (fun r => Every c K r.1) := by
  have h : Every c K { n with const := a.const } := every_values hn hn.tame.enum ha.tame.const
  unfold notApplyConst
  dsimp only
  split
  · exact Runs.pure h
  · exact Runs.ite (fun _ => Runs.bind (runs_warnField _ _) fun _ _ => Runs.pure h) fun _ =>
      Runs.ite (fun _ => Runs.bind (runs_warnField _ _) fun _ _ => Runs.pure h) fun _ => Runs.pure h

theorem every_default {o : Option SchemaNode} (h : OptAll (Every c K) o) : Every c K (getZeroIfNil o {}) := by
  cases o with
  | none => exact every_empty
  | some x => exact h x rfl

theorem runs_notSubNode {rec : NotRec} (h : NotRuns c K S rec) (scope : String) {a b : SchemaNode} (ha : Every c K a)
    (hb : Every c K b) : Runs c K S (notSubNode rec scope a b) (Every c K) := by
  unfold notSubNode
  exact runs_scopeThen (h.keeps _ _) (h.runs _ _ ha hb) fun r hr => Runs.pure (Every.of hr.tame hr.kids)

theorem runs_notSubPtr {rec : NotRec} (h : NotRuns c K S rec) (scope : String) {a b : Option SchemaNode} (ha : OptAll (Every c K) a)
    (hb : OptAll (Every c K) b) : Runs c K S (notSubPtr rec scope a b) (OptAll (Every c K)) := by
  unfold notSubPtr
  refine Runs.ite (fun _ => Runs.pure optAll_none) fun _ => ?_
  exact Runs.bind (runs_notSubNode h _ (every_default ha) (every_default hb)) fun r hr => Runs.pure (optAll_some hr)

theorem runs_notItems {rec : NotRec} (h : NotRuns c K S rec) {a b : Option (ItemsData SchemaNode)}
    (ha : ItemsAll (Every c K) a) (hb : ItemsAll (Every c K) b) : Runs c K S (notItems rec a b) (ItemsAll (Every c K)) := by
  have hz := itemsAll_zero ha
  unfold notItems
  split
  · exact Runs.pure ha
  · rename_i nn
    have hr : Runs c K S (if (getZeroIfNil a {}).node.isNone ∧ nn.node.isNone then pure none
        else do
          let r ← notSubNode rec "/not/items" (getZeroIfNil (getZeroIfNil a {}).node {}) (getZeroIfNil nn.node {})
          pure (some { node := some r, nodes := none, disallow := false })) (ItemsAll (Every c K)) := by
      refine Runs.ite (fun _ => Runs.pure itemsAll_none) fun _ => ?_
      exact Runs.bind (runs_notSubNode h _ (every_default hz.1) (every_default (hb nn rfl).1)) fun r hr =>
        Runs.pure (itemsAll_some (optAll_some hr) listAll_none)
    dsimp only
    refine Runs.ite (fun _ => Runs.bind (runs_warnField _ _) fun _ _ => Runs.pure (itemsAll_some hz.1 hz.2)) fun _ => ?_
    refine Runs.ite (fun _ => Runs.pure (itemsAll_some hz.1 hz.2)) fun _ => ?_
    exact Runs.ite (fun _ => Runs.bind (runs_warnField _ _) fun _ _ => hr) fun _ => hr

theorem orFalse_zero {P : SchemaNode → Prop} {a : Option (NodeOrFalse SchemaNode)} (ha : OrFalseAll P a) :
    OptAll P (getZeroIfNil a {}).schema := by
  cases a with
  | none => intro x e; cases e
  | some d => exact ha d rfl

theorem runs_notOrFalse {rec : NotRec} (h : NotRuns c K S rec) (scope : String) {a b : Option (NodeOrFalse SchemaNode)}
    (ha : OrFalseAll (Every c K) a) (hb : OrFalseAll (Every c K) b) :
    Runs c K S (notOrFalse rec scope a b) (OrFalseAll (Every c K)) := by
  have hz := orFalse_zero ha
  unfold notOrFalse
  dsimp only
  refine Runs.ite (fun _ => Runs.pure orFalseAll_none) fun _ => ?_
  refine Runs.ite (fun _ => Runs.bind (runs_warnField _ _) fun _ _ => Runs.pure (orFalseAll_some hz)) fun _ => ?_
  refine Runs.ite (fun _ => Runs.pure (orFalseAll_some hz)) fun _ => ?_
  exact Runs.bind (runs_notSubNode h _ (every_default hz) (every_default (orFalse_zero hb))) fun r hr =>
    Runs.pure (orFalseAll_some (optAll_some hr))

theorem every_index {l : List SchemaNode} {d : SchemaNode} (hl : ∀ x ∈ l, Every c K x) (hd : Every c K d) (i : Nat) :
    Every c K (getIndexOrDefault l i d) := by
  unfold getIndexOrDefault
  split
  · exact hd
  · cases hx : l[(i : Int).toNat]? with
    | none => exact hd
    | some x => exact hl x (List.mem_of_getElem? hx)

theorem runs_notPrefixLoop {rec : NotRec} (h : NotRuns c K S rec) {l nl : List SchemaNode} {e : SchemaNode}
    (hl : ∀ x ∈ l, Every c K x) (hnl : ∀ x ∈ nl, Every c K x) (he : Every c K e) :
    ∀ k i, Runs c K S (notPrefixLoop rec l nl e k i) (fun r => ∀ x ∈ r, Every c K x) := by
  intro k
  induction k with
  | zero => intro i; unfold notPrefixLoop; exact Runs.pure (by simp)
  | succ k ih =>
    intro i
    unfold notPrefixLoop
    refine Runs.bind (runs_notSubNode h _ (every_index hl he i) (every_index hnl every_empty i)) fun r hr => ?_
    refine Runs.bind (ih (i + 1)) fun t ht => Runs.pure fun x hx => ?_
    rcases List.mem_cons.1 hx with rfl | hx
    · exact hr
    · exact ht x hx

theorem list_zero {P : SchemaNode → Prop} {a : Option (List SchemaNode)} (ha : ListAll P a) : ∀ x ∈ getZeroIfNil a [], P x := by
  cases a with
  | none => simp [getZeroIfNil]
  | some l => exact ha l rfl

theorem runs_notPrefix {rec : NotRec} (h : NotRuns c K S rec) {a b : Option (List SchemaNode)} {i : Option (ItemsData SchemaNode)}
    (ha : ListAll (Every c K) a) (hb : ListAll (Every c K) b) (hi : ItemsAll (Every c K) i) :
    Runs c K S (notPrefix rec a b i) (ListAll (Every c K)) := by
  unfold notPrefix
  dsimp only
  refine Runs.ite (fun _ => Runs.pure listAll_none) fun _ => ?_
  exact Runs.bind (runs_notPrefixLoop h (list_zero ha) (list_zero hb) (every_default (itemsAll_zero hi).1) _ _) fun r hr =>
    Runs.pure (listAll_some hr)

theorem runs_resolveBool (hN : NotAllowed K) {a b : SchemaNode} (ha : Every c K a) (hb : Every c K b) :
    Runs c K S (resolveBool a.uniqueItems b.uniqueItems) (fun r => K.calm → ¬ K.noNegations → r = none) := by
  by_cases hc : K.calm
  · have hn : ¬ K.noNegations := fun h => hN ⟨hc, h⟩
    rw [ha.tame.unique hc hn, hb.tame.unique hc hn]
    exact Runs.pure fun _ _ => rfl
  · have p : ∀ r : Option Bool, Runs c K S (pure r) (fun r => K.calm → ¬ K.noNegations → r = none) := fun r =>
      Runs.pure fun h => absurd h hc
    unfold resolveBool
    split
    · exact p _
    · exact Runs.ite (fun _ => Runs.fail hc) fun _ => p _
    · exact p _
    · exact p _

theorem runs_limitContains {n : SchemaNode} (hn : Every c K n) : Runs c K S (limitContains n) (Every c K) := by
  unfold limitContains
  split
  · exact Runs.ite (fun _ => Runs.bind (runs_warnField _ _) fun _ _ => Runs.pure (Every.of hn.tame hn.kids)) fun _ => Runs.pure hn
  · exact Runs.pure hn

theorem runs_notApplyArray (hN : NotAllowed K) {rec : NotRec} (h : NotRuns c K S rec) {a b n : SchemaNode} (ha : Every c K a)
    (hb : Every c K b) (hn : Every c K n) : Runs c K S (notApplyArray rec a b n) (Every c K) := by
  unfold notApplyArray
  refine Runs.bind (runs_boundsInt _ _ _ _ _) fun b1 _ => ?_
  refine Runs.bind (runs_boundsInt _ _ _ _ _) fun b2 _ => ?_
  refine Runs.bind (runs_limitContains (Every.of hn.tame hn.kids)) fun n1 h1 => ?_
  refine Runs.bind (runs_notItems h ha.kids.items hb.kids.items) fun items hi => ?_
  have tail : Runs c K S (do
      let uniqueItems ← resolveBool a.uniqueItems b.uniqueItems
      let prefixItems ← notPrefix rec a.prefixItems b.prefixItems items
      let unevaluatedItems ← notOrFalse rec "/not/unevaluatedItems" a.unevaluatedItems b.unevaluatedItems
      let contains ← notSubPtr rec "/not/contains" a.contains b.contains
      pure { n1 with
        items := items
        uniqueItems := uniqueItems
        prefixItems := prefixItems
        unevaluatedItems := unevaluatedItems
        contains := contains }) (Every c K) := by
    refine Runs.bind (runs_resolveBool hN ha hb) fun u hu => ?_
    refine Runs.bind (runs_notPrefix h ha.kids.prefixItems hb.kids.prefixItems hi) fun p hp => ?_
    refine Runs.bind (runs_notOrFalse h _ ha.kids.unevaluatedItems hb.kids.unevaluatedItems) fun v hv => ?_
    refine Runs.bind (runs_notSubPtr h _ ha.kids.contains hb.kids.contains) fun w hw => Runs.pure ?_
    have t := h1.tame
    have k := h1.kids
    exact .of ⟨t.1, t.2, t.3, t.4, t.5, t.6, t.7, hu⟩ ⟨k.1, k.2, k.3, k.4, k.5, hw, k.7, k.8, k.9, k.10, hp, k.12, k.13, k.14, k.15,
      k.16, hv, hi, k.19, k.20⟩
  exact Runs.ite (fun _ => Runs.bind (runs_warnField _ _) fun _ _ => tail) fun _ => tail

theorem runs_notPropsLoop {rec : NotRec} (h : NotRuns c K S rec) {p np : List (String × SchemaNode)}
    (hp : ∀ q ∈ p, Every c K q.2) (hnp : ∀ q ∈ np, Every c K q.2) : ∀ (ks : List String) (acc : List (String × SchemaNode)),
    (∀ q ∈ acc, Every c K q.2) → Runs c K S (notPropsLoop rec p np ks acc) (fun r => ∀ q ∈ r, Every c K q.2) := by
  have ins : ∀ {acc : List (String × SchemaNode)} {k : String} {v : SchemaNode}, (∀ q ∈ acc, Every c K q.2) → Every c K v →
      ∀ q ∈ insertKV acc k v, Every c K q.2 := by
    intro acc k v h1 h2 q hq
    rcases mem_insertKV hq with rfl | hq
    · exact h2
    · exact h1 q hq
  intro ks
  induction ks with
  | nil => intro acc ha; unfold notPropsLoop; exact Runs.pure ha
  | cons k t ih =>
    intro acc ha
    unfold notPropsLoop
    split
    · split
      · rename_i v hv
        exact ih _ (ins ha (hp _ (lookupKV_mem hv)))
      · exact ih _ ha
    · rename_i v hv
      refine Runs.bind (runs_notSubNode h _ (every_default fun x hx => hp _ (lookupKV_mem hx)) (hnp _ (lookupKV_mem hv))) fun r hr => ?_
      exact ih _ (ins ha hr)

theorem runs_warnUnsupported (f : String) (b : Bool) : Runs c K S (warnUnsupported f b) (fun _ => True) := by
  unfold warnUnsupported
  exact Runs.ite (fun _ => runs_warnField _ _) fun _ => Runs.pure trivial

theorem map_zero {A : String → Prop} {P : SchemaNode → Prop} {a : Option (List (String × SchemaNode))} (ha : MapAll A P a) :
    ∀ q ∈ getZeroIfNil a [], P q.2 := by
  cases a with
  | none => simp [getZeroIfNil]
  | some l => exact fun q hq => (ha l rfl q hq).2

theorem mem_deleteAll : ∀ (ks : List String) (m : List (String × SchemaNode)) (q : String × SchemaNode),
    q ∈ ks.foldl deleteKV m → q ∈ m := by
  intro ks
  induction ks with
  | nil => intro m q h; exact h
  | cons k t ih =>
    intro m q h
    exact (List.mem_filter.1 (ih _ _ h)).1

theorem runs_notApplyObject {rec : NotRec} (h : NotRuns c K S rec) {a b n : SchemaNode} {cc : ConstraintColl} (ha : Every c K a)
    (hb : Every c K b) (hn : Every c K n) : Runs c K S (notApplyObject rec a b n cc) (fun r => Every c K r.1) := by
  unfold notApplyObject
  refine Runs.bind (runs_boundsInt _ _ _ _ _) fun b1 _ => ?_
  refine Runs.bind (runs_notPropsLoop h (map_zero ha.kids.properties) (map_zero hb.kids.properties) _ _ (by simp)) fun m hm => ?_
  refine Runs.bind (runs_warnUnsupported _ _) fun _ _ => ?_
  refine Runs.bind (runs_notOrFalse h _ ha.kids.additionalProperties hb.kids.additionalProperties) fun ap hap => Runs.pure ?_
  have k := hn.kids
  refine .of hn.tame ⟨?_, ha.kids.patternProperties, k.3, k.4, k.5, k.6, k.7, k.8, k.9, k.10, k.11, k.12, k.13, k.14, hap, k.16, k.17,
    k.18, k.19, k.20⟩
  dsimp only
  split
  · rintro l ⟨⟩ q hq
    exact ⟨trivial, hm q (mem_deleteAll _ _ _ hq)⟩
  · exact k.1

theorem runs_notUnsupported (n : SchemaNode) : Runs c K S (notUnsupported n) (fun _ => True) := by
  unfold notUnsupported
  have h := fun f b => runs_warnUnsupported (c := c) (K := K) (S := S) f b
  exact Runs.bind (h _ _) fun _ _ => Runs.bind (h _ _) fun _ _ => Runs.bind (h _ _) fun _ _ => Runs.bind (h _ _) fun _ _ =>
    Runs.bind (h _ _) fun _ _ => Runs.bind (h _ _) fun _ _ => Runs.bind (h _ _) fun _ _ => h _ _

theorem every_notCopy {a n : SchemaNode} (ha : Every c K a) (hn : Every c K n) : Every c K (notCopy a n) := by
  have t := hn.tame
  have k := hn.kids
  have l := ha.kids
  refine .of ⟨t.1, t.2, t.3, ha.tame.ref, ha.tame.id, t.6, t.7, t.8⟩ ⟨k.1, k.2, l.3, l.4, l.5, k.6, ?_, l.8, l.9, l.10, k.11, k.12, l.13,
    l.14, k.15, k.16, k.17, k.18, ?_, l.20⟩
  · rintro x ⟨⟩
  · intro x hx
    rcases List.mem_append.1 hx with hx | hx
    · rcases List.mem_append.1 hx with hx | hx
      · exact k.mergedNot x hx
      · exact l.mergedNot x hx
    · exact l.not x (Option.mem_toList.1 hx)

theorem newMultiple_ne {l : List String} (h : l.length ≠ 0) : (some (newMultipleTypeFromSlice l)).bind (·.multiple) ≠ some [] := by
  unfold newMultipleTypeFromSlice
  match l, h with
  | [x], _ => simp
  | x :: y :: t, _ => simp

theorem runs_notMerge (hN : NotAllowed K) : ∀ k : Nat, NotRuns c K S (notMerge c k) := by
  intro k
  refine ⟨keeps_notMerge k, ?_⟩
  induction k with
  | zero => intro a b _ _; exact Runs.oom
  | succ k ih =>
    have h : NotRuns c K S (notMerge c k) := ⟨keeps_notMerge k, ih⟩
    intro a b ha hb
    unfold notMerge notStep
    split
    · exact Runs.bind (runs_addError _) fun _ _ => Runs.pure every_empty
    · rename_i t ht
      have h0 : Every c K { emptyNode with type := some t } := by
        refine every_type every_empty ?_
        unfold resolveType at ht
        dsimp only at ht
        split at ht
        · cases ht
        · rename_i hl
          injection ht with ht
          subst ht
          exact newMultiple_ne hl
      refine Runs.bind (runs_notApplyString ha h0) fun r1 h1 => ?_
      refine Runs.bind (runs_notApplyNumber ha h1) fun n2 h2 => ?_
      refine Runs.bind (runs_notApplyEnum ha h2) fun r3 h3 => ?_
      refine Runs.bind (runs_notApplyConst ha h3) fun r4 h4 => ?_
      refine Runs.bind (runs_notApplyArray hN h ha hb h4) fun n5 h5 => ?_
      refine Runs.bind (runs_notApplyObject h ha hb h5) fun r6 h6 => ?_
      exact Runs.bind (runs_notUnsupported _) fun _ _ => Runs.pure (every_notCopy ha h6)

theorem runs_applyNots (k : Nat) : ∀ (l : List SchemaNode) (n : SchemaNode) (cc : ConstraintColl), Every c K n →
    (∀ x ∈ l, NotAllowed K ∧ Every c K x) → Runs c K S (applyNots c k n cc l) (fun r => Every c K r.1) := by
  intro l
  induction l with
  | nil => intro n cc hn _; unfold applyNots; exact Runs.pure hn
  | cons x t ih =>
    intro n cc hn hl
    have hx := hl x (List.mem_cons_self ..)
    unfold applyNots
    exact Runs.bind ((runs_notMerge hx.1 k).runs _ _ hn hx.2) fun r hr => ih _ _ hr fun y hy => hl y (List.mem_cons_of_mem _ hy)

theorem every_pair {x : SchemaNode} (hx : Every c K x) : ∀ y ∈ [emptyNode, x], Every c K y := bothEvery every_empty hx

theorem runs_partitionNots (hw : WorldOk c K) (k : Nat) : ∀ (l : List SchemaNode) (i : Nat), (∀ x ∈ l, NotAllowed K ∧ Every c K x) →
    Runs c K S (partitionNots c k i l) (fun r => (∀ x ∈ r.1, NotAllowed K ∧ Every c K x) ∧ ∀ x ∈ r.2, Every c K x) := by
  intro l
  induction l with
  | nil => intro i _; unfold partitionNots; exact Runs.pure ⟨by simp, by simp⟩
  | cons x t ih =>
    intro i hl
    have hx := hl x (List.mem_cons_self ..)
    have ht : ∀ y ∈ t, NotAllowed K ∧ Every c K y := fun y hy => hl y (List.mem_cons_of_mem _ hy)
    unfold partitionNots
    refine runs_scopeThen (keeps_mergeNodes _ _) (runs_mergeNodes hw k _ (every_pair hx.2)) fun flat hflat => ?_
    split
    · rename_i inner hi
      refine runs_scopeThen (keeps_mergeNodes _ _) (runs_mergeNodes hw k _ (every_pair (hflat.kids.not inner hi).2)) fun fi hfi => ?_
      refine Runs.bind (ih _ ht) fun r hr => Runs.pure ⟨hr.1, fun y hy => ?_⟩
      rcases List.mem_cons.1 hy with rfl | hy
      · exact hfi
      · exact hr.2 y hy
    · refine Runs.bind (ih _ ht) fun r hr => Runs.pure ⟨fun y hy => ?_, hr.2⟩
      rcases List.mem_cons.1 hy with rfl | hy
      · exact ⟨hx.1, hflat⟩
      · exact hr.1 y hy

theorem collectNots_all {n : SchemaNode} (hn : Every c K n) : ∀ x ∈ collectNots n, NotAllowed K ∧ Every c K x := by
  intro x hx
  unfold collectNots at hx
  rcases List.mem_append.1 hx with hx | hx
  · exact hn.kids.not x (Option.mem_toList.1 hx)
  · exact hn.kids.mergedNot x hx

end

end Chaff
