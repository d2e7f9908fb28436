import Verif.Lemmas.TameRun
import Verif.Lemmas.MergeSat
/-!
# Merging tame schemas
-/

namespace Chaff
open Comp

section
variable {c : PEnv} {K : Care} {S : Gen → Prop}

/-- The recursive merge runs well on tame schemas. -/
def MergeRuns (c : PEnv) (K : Care) (S : Gen → Prop) (rec : MergeRec) : Prop :=
  ∀ l, (∀ x ∈ l, Every c K x) → Runs c K S (rec l) (Every c K)

theorem bothEvery {P : SchemaNode → Prop} {a b : SchemaNode} (ha : P a) (hb : P b) : ∀ x ∈ [a, b], P x := by
  intro x hx
  simp at hx
  rcases hx with rfl | rfl <;> assumption

theorem mapAll_insert {A : String → Prop} {P : SchemaNode → Prop} {l : List (String × SchemaNode)} (h : ∀ p ∈ l, A p.1 ∧ P p.2)
    {k : String} {v : SchemaNode} (hk : A k) (hv : P v) : ∀ p ∈ insertKV l k v, A p.1 ∧ P p.2 := by
  intro p hp
  rcases mem_insertKV hp with rfl | hp
  · exact ⟨hk, hv⟩
  · exact h p hp

theorem runs_mergeMapLoop {rec : MergeRec} (h : MergeRuns c K S rec) {A : String → Prop} :
    ∀ (t merged : List (String × SchemaNode)), (∀ p ∈ t, A p.1 ∧ Every c K p.2) → (∀ p ∈ merged, A p.1 ∧ Every c K p.2) →
    Runs c K S (mergeMapLoop rec merged t) (fun r => ∀ p ∈ r, A p.1 ∧ Every c K p.2) := by
  intro t
  induction t with
  | nil => intro m _ hm; unfold mergeMapLoop; exact Runs.pure hm
  | cons x t ih =>
    obtain ⟨k, v⟩ := x
    intro m ht hm
    have hv := ht (k, v) (List.mem_cons_self ..)
    have ht' : ∀ p ∈ t, A p.1 ∧ Every c K p.2 := fun p hp => ht p (List.mem_cons_of_mem _ hp)
    unfold mergeMapLoop
    split
    · rename_i e he
      exact Runs.bind (h _ (bothEvery (hm _ (lookupKV_mem he)).2 hv.2)) fun x hx => ih _ ht' (mapAll_insert hm hv.1 hx)
    · exact ih _ ht' (mapAll_insert hm hv.1 hv.2)

theorem runs_mergeMap {rec : MergeRec} (h : MergeRuns c K S rec) {A : String → Prop} {a b : Option (List (String × SchemaNode))}
    (ha : MapAll A (Every c K) a) (hb : MapAll A (Every c K) b) : Runs c K S (mergeMap rec a b) (MapAll A (Every c K)) := by
  unfold mergeMap
  split
  · exact Runs.pure ha
  · rename_i l
    refine Runs.bind (runs_mergeMapLoop h (A := A) l _ (hb l rfl) ?_) fun r hr => Runs.pure ?_
    · cases a with
      | none => simp [getZeroIfNil]
      | some m => exact ha m rfl
    · rintro l' ⟨⟩
      exact hr

theorem runs_mergeZip {rec : MergeRec} (h : MergeRuns c K S rec) : ∀ (a b : List SchemaNode), (∀ x ∈ a, Every c K x) →
    (∀ x ∈ b, Every c K x) → Runs c K S (mergeZip rec a b) (fun r => ∀ x ∈ r, Every c K x) := by
  intro a
  induction a with
  | nil => intro b _ hb; unfold mergeZip; exact Runs.pure hb
  | cons x t ih =>
    intro b ha hb
    cases b with
    | nil => unfold mergeZip; exact Runs.pure ha
    | cons y u =>
      unfold mergeZip
      refine Runs.bind (h _ (bothEvery (ha x (List.mem_cons_self ..)) (hb y (List.mem_cons_self ..)))) fun z hz => ?_
      refine Runs.bind (ih u (fun q hq => ha q (List.mem_cons_of_mem _ hq)) fun q hq => hb q (List.mem_cons_of_mem _ hq)) fun r hr => ?_
      refine Runs.pure fun q hq => ?_
      rcases List.mem_cons.1 hq with rfl | hq
      · exact hz
      · exact hr q hq

theorem runs_mergePrefixItems {rec : MergeRec} (h : MergeRuns c K S rec) {a b : Option (List SchemaNode)}
    (ha : ListAll (Every c K) a) (hb : ListAll (Every c K) b) : Runs c K S (mergePrefixItems rec a b) (ListAll (Every c K)) := by
  unfold mergePrefixItems
  split
  · exact Runs.pure ha
  · rename_i l
    refine Runs.bind (runs_mergeZip h _ l ?_ (hb l rfl)) fun r hr => Runs.pure ?_
    · cases a with
      | none => simp [getZeroIfNil]
      | some m => exact ha m rfl
    · rintro l' ⟨⟩
      exact hr

theorem itemsAll_zero {P : SchemaNode → Prop} {a : Option (ItemsData SchemaNode)} (ha : ItemsAll P a) :
    OptAll P (getZeroIfNil a {}).node ∧ ListAll P (getZeroIfNil a {}).nodes := by
  cases a with
  | none => exact ⟨fun x e => (by cases e), fun x e => (by cases e)⟩
  | some d => exact ha d rfl

theorem optAll_some {P : SchemaNode → Prop} {x : SchemaNode} (h : P x) : OptAll P (some x) := by
  rintro y ⟨⟩; exact h
theorem optAll_none {P : SchemaNode → Prop} : OptAll P none := by rintro y ⟨⟩
theorem listAll_none {P : SchemaNode → Prop} : ListAll P none := by rintro y ⟨⟩
theorem listAll_some {P : SchemaNode → Prop} {l : List SchemaNode} (h : ∀ x ∈ l, P x) : ListAll P (some l) := by
  rintro y ⟨⟩; exact h
theorem itemsAll_some {P : SchemaNode → Prop} {d : ItemsData SchemaNode} (h : OptAll P d.node) (h2 : ListAll P d.nodes) :
    ItemsAll P (some d) := by
  rintro y ⟨⟩; exact ⟨h, h2⟩
theorem itemsAll_none {P : SchemaNode → Prop} : ItemsAll P none := by rintro y ⟨⟩
theorem orFalseAll_some {P : SchemaNode → Prop} {d : NodeOrFalse SchemaNode} (h : OptAll P d.schema) : OrFalseAll P (some d) := by
  rintro y ⟨⟩; exact h
theorem orFalseAll_none {P : SchemaNode → Prop} : OrFalseAll P none := by rintro y ⟨⟩

theorem runs_mergeItems {rec : MergeRec} (h : MergeRuns c K S rec) {a b : Option (ItemsData SchemaNode)}
    (ha : ItemsAll (Every c K) a) (hb : ItemsAll (Every c K) b) : Runs c K S (mergeItems rec a b) (ItemsAll (Every c K)) := by
  unfold mergeItems
  split
  · exact Runs.pure ha
  · rename_i d
    cases hd : d.node with
    | none => exact Runs.pure ha
    | some x =>
      have hx := (hb d rfl).1 x hd
      have hz := itemsAll_zero ha
      dsimp only
      refine Runs.ite (fun _ => Runs.pure (itemsAll_some optAll_none listAll_none)) fun _ => ?_
      split
      · rename_i y hy
        exact Runs.bind (h _ (bothEvery (hz.1 y hy) hx)) fun r hr => Runs.pure (itemsAll_some (optAll_some hr) hz.2)
      · exact Runs.pure (itemsAll_some (optAll_some hx) hz.2)

theorem runs_mergeNodeOrFalse {rec : MergeRec} (h : MergeRuns c K S rec) {a b : Option (NodeOrFalse SchemaNode)}
    (ha : OrFalseAll (Every c K) a) (hb : OrFalseAll (Every c K) b) :
    Runs c K S (mergeNodeOrFalse rec a b) (OrFalseAll (Every c K)) := by
  unfold mergeNodeOrFalse
  split
  · exact Runs.pure ha
  · exact Runs.pure hb
  · rename_i n m
    refine Runs.ite (fun _ => Runs.pure ha) fun _ => Runs.ite (fun _ => Runs.pure hb) fun _ => ?_
    split
    · exact Runs.pure hb
    · exact Runs.pure ha
    · rename_i x y hx hy
      exact Runs.bind (h _ (bothEvery (ha m rfl x hx) (hb n rfl y hy))) fun r hr => Runs.pure (orFalseAll_some (optAll_some hr))

theorem runs_mergePtrs {rec : MergeRec} (h : MergeRuns c K S rec) {a b : Option SchemaNode}
    (ha : OptAll (Every c K) a) (hb : OptAll (Every c K) b) : Runs c K S (mergePtrs rec a b) (OptAll (Every c K)) := by
  unfold mergePtrs
  split
  · exact Runs.pure optAll_none
  · exact Runs.pure ha
  · exact Runs.pure hb
  · exact Runs.bind (h _ (bothEvery (ha _ rfl) (hb _ rfl))) fun r hr => Runs.pure (optAll_some hr)

theorem runs_warnIfDifferent {α : Type} [DecidableEq α] (f : String) (a b : Option α) :
    Runs c K S (warnIfDifferent f a b) (fun _ => True) := by
  unfold warnIfDifferent
  split
  · exact Runs.ite (fun _ => runs_warnMerge _ _) fun _ => Runs.pure trivial
  · exact Runs.pure trivial

theorem runs_warnSimple (m n : SchemaNode) : Runs c K S (warnSimple m n) (fun _ => True) := by
  unfold warnSimple
  exact Runs.bind (runs_warnIfDifferent _ _ _) fun _ _ => Runs.bind (runs_warnIfDifferent _ _ _) fun _ _ =>
    Runs.bind (runs_warnIfDifferent _ _ _) fun _ _ => runs_warnIfDifferent _ _ _

/-! ## References -/

theorem runs_resolveRefLoop (hw : WorldOk c K) : ∀ (k : Nat) (l : List String) (n : SchemaNode), Every c K n →
    Runs c K S (resolveRefLoop c k l n) (ExOk (Every c K)) := by
  intro k
  induction k with
  | zero => intro l n _; exact Runs.oom
  | succ k ih =>
    intro l n hn
    unfold resolveRefLoop
    split
    · exact Runs.pure (exOk_ok hn)
    · rename_i ref href
      refine Runs.bind (runs_resolvePath hw fun hc => hn.tame.ref hc ref href) fun r hr => ?_
      split
      · exact Runs.bind (runs_addErrorSub _ _) fun _ _ => Runs.pure (exOk_error _)
      · rename_i nx sub
        refine Runs.ite (fun _ => Runs.bind (runs_addErrorSub _ _) fun _ _ => Runs.pure (exOk_error _)) fun _ => ?_
        exact ih _ _ (hr _ rfl)

theorem runs_mergeResolveReference (hw : WorldOk c K) (k : Nat) {n : SchemaNode} (hn : Every c K n) :
    Runs c K S (mergeResolveReference c k n) (ExOk (Every c K)) := by
  unfold mergeResolveReference
  refine Runs.bind (R := ExOk (Every c K)) ?_ fun r hr => ?_
  · unfold resolveRefBody
    refine Runs.bind (runs_resolveRefLoop hw k _ n hn) fun r hr => ?_
    split
    · exact Runs.pure (exOk_error _)
    · refine Runs.bind (runs_rewriteReferences hw (hr _ rfl)) fun r' hr' => ?_
      split
      · exact Runs.bind (runs_addErrorSub _ _) fun _ _ => Runs.pure (exOk_error _)
      · exact Runs.pure (exOk_ok (hr' _ rfl))
  · refine Runs.bind (Runs.gets (Q := fun d => K.calm → HashFree d) fun s hs hc => hs.parsing hc) fun d hd => ?_
    exact Runs.bind (runs_setResolving hd) fun _ _ => Runs.pure hr

theorem every_ref {n : SchemaNode} (hn : Every c K n) {r : Option String} (h : K.calm → ∀ t, r = some t → RefOk t) :
    Every c K { n with ref := r } :=
  .of ⟨hn.tame.1, hn.tame.2, hn.tame.3, h, hn.tame.5, hn.tame.6, hn.tame.7, hn.tame.8⟩ hn.kids

theorem runs_mergeResolveNodeRef (hw : WorldOk c K) (k : Nat) {n : SchemaNode} (hn : Every c K n) :
    Runs c K S (mergeResolveNodeRef c k n) (fun p => Every c K p.1) := by
  have hnone : Every c K { n with ref := none } := every_ref hn fun _ _ h => by cases h
  unfold mergeResolveNodeRef
  split
  · exact Runs.pure hn
  · rename_i ref href
    have hok : K.calm → RefOk ref := fun hc => hn.tame.ref hc ref href
    refine Runs.bind (runs_resolveIdAndPath hw (R := PathSafe) (fun hc => (hok hc).1) fun hc => pathSafe_orRoot (hok hc))
      fun r hr => ?_
    split
    · exact Runs.bind (runs_warnMerge _ _) fun _ _ => Runs.pure hnone
    · rename_i doc path
      have hp : IdPath K PathSafe (doc, path) := hr _ rfl
      refine Runs.bind (runs_hasRes _ _) fun seen _ => Runs.ite (fun _ => Runs.pure hn) fun _ => ?_
      refine Runs.bind (runs_mergeResolveReference hw k (every_ref hn fun hc t e => ?_)) fun r' hr' => ?_
      · cases e
        exact refOk_append (hp hc).1 (hp hc).2
      · split
        · exact Runs.bind (runs_warnMerge _ _) fun _ _ => Runs.pure hnone
        · exact Runs.bind (runs_pushRes fun hc => (hp hc).1) fun _ _ => Runs.pure (hr' _ rfl)

/-! ## mergeSchemaNodes -/

theorem getPtr_all {α : Type} {P : α → Prop} {a b : Option α} (ha : ∀ x, a = some x → P x) (hb : ∀ x, b = some x → P x) :
    ∀ x, getPtr [a, b] = some x → P x := by
  cases a with
  | some y => exact ha
  | none =>
    cases b with
    | some y => exact hb
    | none => intro x h; cases h

theorem listAll_slices {P : SchemaNode → Prop} {a b : Option (List SchemaNode)} (ha : ListAll P a) (hb : ListAll P b) :
    ListAll P (mergeSlicePtrs [a, b]) := mergeSlicePtrs_all.2 ⟨ha, hb⟩

theorem every_type {n : SchemaNode} (hn : Every c K n) {t : Option MultipleType} (h : t.bind (·.multiple) ≠ some []) :
    Every c K { n with type := t } :=
  .of ⟨hn.tame.1, h, hn.tame.3, hn.tame.4, hn.tame.5, hn.tame.6, hn.tame.7, hn.tame.8⟩ hn.kids

theorem mergeTypes_ne {a b : Option MultipleType} (ha : a.bind (·.multiple) ≠ some []) :
    (mergeTypes a b).bind (·.multiple) ≠ some [] := by
  unfold mergeTypes
  split
  · exact ha
  · dsimp only
    split
    · simp
    · split
      · rename_i t _ h
        intro e
        simp at e
        rw [e] at h
        simp at h
      · cases a with
        | none => simp [getZeroIfNil]
        | some m => simpa [getZeroIfNil] using ha

theorem every_values {n : SchemaNode} (hn : Every c K n) {e : Option (List JVal)} {v : Option JVal}
    (he : K.calm → ∀ l, e = some l → ∀ v ∈ l, Clean v) (hv : K.calm → ∀ x, v = some x → Clean x) :
    Every c K { n with enum := e, const := v } :=
  .of ⟨hn.tame.1, hn.tame.2, hn.tame.3, hn.tame.4, hn.tame.5, he, hv, hn.tame.8⟩ hn.kids

theorem every_setAllowed {n : SchemaNode} (hn : Every c K n) {l : List JVal} (hl : K.calm → ∀ v ∈ l, Clean v) :
    Every c K (setAllowed n l) := by
  unfold setAllowed
  split
  · refine every_values hn (fun _ _ e => by cases e) fun hc x e => ?_
    cases e
    exact hl hc _ (List.mem_cons_self ..)
  · refine every_values hn (fun hc x e => ?_) fun _ _ e => by cases e
    cases e
    exact hl hc

theorem collect_cleanValues {n : SchemaNode} (hn : Every c K n) {l : List JVal} (h : collectEnumValues n = some l) :
    K.calm → ∀ v ∈ l, Clean v := by
  intro hc
  unfold collectEnumValues at h
  split at h
  · rename_i e he
    cases h
    exact hn.tame.enum hc _ he
  · split at h
    · rename_i v hv
      cases h
      intro w hw
      cases List.mem_singleton.1 hw
      exact hn.tame.const hc _ hv
    · cases h

theorem runs_mergeEnumAndConst {m n : SchemaNode} (hm : Every c K m) (hn : Every c K n) :
    Runs c K S (mergeEnumAndConst m n) (Every c K) := by
  unfold mergeEnumAndConst
  split
  · exact Runs.pure hm
  · rename_i h; exact Runs.pure (every_setAllowed hm (collect_cleanValues hn h))
  · rename_i h _; exact Runs.pure (every_setAllowed hm (collect_cleanValues hm h))
  · rename_i l r h1 h2
    refine Runs.ite (fun _ => ?_) fun _ => ?_
    · exact Runs.bind (runs_warnMerge _ _) fun _ _ =>
        Runs.pure (every_values hm (fun _ _ e => by cases e) fun _ _ e => by cases e)
    · refine Runs.pure (every_setAllowed hm fun hc v hv => ?_)
      exact collect_cleanValues hm h1 hc v (List.mem_filter.1 hv).1

theorem runs_mergeSubs {rec : MergeRec} (h : MergeRuns c K S rec) {m n : SchemaNode} (hm : Every c K m) (hn : Every c K n) :
    Runs c K S (mergeSubs rec m n) (Every c K) := by
  have km := hm.kids
  have kn := hn.kids
  unfold mergeSubs
  refine Runs.bind (runs_mergeMap h km.properties kn.properties) fun a1 h1 => ?_
  refine Runs.bind (runs_mergeNodeOrFalse h km.additionalProperties kn.additionalProperties) fun a2 h2 => ?_
  refine Runs.bind (runs_mergeMap h km.patternProperties kn.patternProperties) fun a3 h3 => ?_
  refine Runs.bind (runs_mergePrefixItems h km.prefixItems kn.prefixItems) fun a4 h4 => ?_
  refine Runs.bind (runs_mergeItems h km.items kn.items) fun a5 h5 => ?_
  refine Runs.bind (runs_mergeNodeOrFalse h km.additionalItems kn.additionalItems) fun a6 h6 => ?_
  refine Runs.bind (runs_mergeNodeOrFalse h km.unevaluatedItems kn.unevaluatedItems) fun a7 h7 => ?_
  refine Runs.bind (runs_mergePtrs h km.contains kn.contains) fun a8 h8 => ?_
  refine Runs.pure (Every.of hm.tame ⟨h1, h3, km.3, km.4, km.5, h8, km.7, km.8, km.9, km.10, h4,
    listAll_slices km.allOf kn.allOf, listAll_slices km.anyOf kn.anyOf, listAll_slices km.oneOf kn.oneOf, h2, h6, h7, h5,
    km.19, km.20⟩)

theorem every_nots {m : SchemaNode} (hm : Every c K m) {o : Option SchemaNode} {l : List SchemaNode}
    (ho : OptAll (fun x => NotAllowed K ∧ Every c K x) o) (hl : ∀ x ∈ l, NotAllowed K ∧ Every c K x) :
    Every c K { m with not := o, mergedNot := l } := by
  have k := hm.kids
  exact .of hm.tame ⟨k.1, k.2, k.3, k.4, k.5, k.6, ho, k.8, k.9, k.10, k.11, k.12, k.13, k.14, k.15, k.16, k.17, k.18, hl, k.20⟩

theorem every_mergeNot {m n : SchemaNode} (hm : Every c K m) (hn : Every c K n) : Every c K (mergeNot m n) := by
  have own : Every c K (mergeNotOwn m n) := by
    unfold mergeNotOwn
    split
    · exact hm
    · rename_i x hx
      have hx' := hn.kids.not x hx
      split
      · rename_i y hy
        have hy' := hm.kids.not y hy
        refine every_nots hm (fun _ e => by cases e) fun z hz => ?_
        rcases List.mem_append.1 hz with hz | hz
        · rcases List.mem_append.1 hz with hz | hz
          · exact hm.kids.mergedNot z hz
          · cases List.mem_singleton.1 hz; exact hy'
        · cases List.mem_singleton.1 hz; exact hx'
      · split
        · refine every_nots hm hm.kids.not fun z hz => ?_
          rcases List.mem_append.1 hz with hz | hz
          · exact hm.kids.mergedNot z hz
          · cases List.mem_singleton.1 hz; exact hx'
        · exact every_nots hm (fun _ e => by cases e; exact hx') hm.kids.mergedNot
  unfold mergeNot mergeNotCollected
  split
  · split
    · rename_i y hy
      refine every_nots own (fun _ e => by cases e) fun z hz => ?_
      rcases List.mem_append.1 hz with hz | hz
      · rcases List.mem_append.1 hz with hz | hz
        · exact own.kids.mergedNot z hz
        · cases List.mem_singleton.1 hz; exact own.kids.not y hy
      · exact hn.kids.mergedNot z hz
    · refine every_nots own own.kids.not fun z hz => ?_
      rcases List.mem_append.1 hz with hz | hz
      · exact own.kids.mergedNot z hz
      · exact hn.kids.mergedNot z hz
  · exact own

theorem every_mergeIf {m n : SchemaNode} (path : String) (hm : Every c K m) (hn : Every c K n) : Every c K (mergeIf path m n) := by
  have k := hm.kids
  have h0 : ∀ st ∈ (if 0 < n.mergedIf.length then m.mergedIf ++ n.mergedIf else m.mergedIf), IfAll (Every c K) st := by
    intro st hst
    split at hst
    · rcases List.mem_append.1 hst with hst | hst
      · exact k.mergedIf st hst
      · exact hn.kids.mergedIf st hst
    · exact k.mergedIf st hst
  unfold mergeIf
  refine .of hm.tame ⟨k.1, k.2, k.3, k.4, k.5, k.6, k.7, k.8, k.9, k.10, k.11, k.12, k.13, k.14, k.15, k.16, k.17, k.18, k.19, ?_⟩
  intro st hst
  dsimp only at hst
  by_cases hi : n.ifN.isSome = true
  · rw [if_pos hi] at hst
    rcases List.mem_append.1 hst with hst | hst
    · exact h0 st hst
    · cases List.mem_singleton.1 hst
      exact ⟨hn.kids.ifN, hn.kids.thenN, hn.kids.elseN⟩
  · rw [if_neg hi] at hst
    exact h0 st hst

theorem findHcf_none {F : FP} {a b : Option Rat} (ha : a = none) (hb : b = none) : findHcf F a b = none := by
  subst ha hb; rfl

theorem every_mergeSimple {F : FP} {m n : SchemaNode} (hm : Every c K m) (hn : Every c K n) : Every c K (mergeSimple F m n) := by
  have tm := hm.tame
  have tn := hn.tame
  refine .of ⟨fun h => findHcf_none (tn.multiple h) (tm.multiple h), tm.2, getPtr_all tn.pattern tm.pattern, tm.4, tm.5, tm.6, tm.7,
    fun h1 h2 => ?_⟩ hm.kids
  show getPtr [n.uniqueItems, m.uniqueItems] = none
  rw [tn.unique h1 h2, tm.unique h1 h2]
  rfl

theorem runs_mergeFields {F : FP} {rec : MergeRec} (h : MergeRuns c K S rec) {m n : SchemaNode} (hm : Every c K m) (hn : Every c K n) :
    Runs c K S (mergeFields F rec m n) (Every c K) := by
  unfold mergeFields
  refine Runs.bind (runs_mergeEnumAndConst (every_type hm (mergeTypes_ne hm.tame.types)) hn) fun m1 h1 => ?_
  refine Runs.bind (runs_mergeSubs h h1 hn) fun m2 h2 => ?_
  refine Runs.bind (Runs.gets (Q := fun _ => True) fun _ _ => trivial) fun path _ => ?_
  have h3 := every_mergeIf path (every_mergeNot h2 hn) hn
  dsimp only
  refine Runs.bind (runs_warnSimple _ _) fun _ _ => Runs.pure ?_
  have h4 := every_mergeSimple (F := F) h3 hn
  have h5 : Every c K { mergeSimple F (mergeIf path (mergeNot m2 n) n) n with
      constraints := mergeConstraints (mergeSimple F (mergeIf path (mergeNot m2 n) n) n).constraints n.constraints } :=
    .of h4.tame h4.kids
  split
  · exact every_ref h5 fun hc t e => hn.tame.ref hc t e
  · exact h5

theorem every_noAllOf {n : SchemaNode} (hn : Every c K n) : Every c K { n with allOf := none } := by
  have k := hn.kids
  exact .of hn.tame ⟨k.1, k.2, k.3, k.4, k.5, k.6, k.7, k.8, k.9, k.10, k.11, listAll_none, k.13, k.14, k.15, k.16, k.17, k.18, k.19, k.20⟩

theorem every_snoc {l : List SchemaNode} {n : SchemaNode} (hl : ∀ x ∈ l, Every c K x) (hn : Every c K n) :
    ∀ x ∈ l ++ [n], Every c K x := by
  intro x hx
  rcases List.mem_append.1 hx with hx | hx
  · exact hl x hx
  · cases List.mem_singleton.1 hx; exact hn

theorem runs_flattenResolved {rec : MergeRec} (h : MergeRuns c K S rec) {n : SchemaNode} (hn : Every c K n) (b : Bool) :
    Runs c K S (flattenResolved rec n b) (Every c K) := by
  unfold flattenResolved
  split
  · rename_i l hl
    exact Runs.ite (fun _ => h _ (every_snoc (hn.kids.allOf l hl) (every_noAllOf hn))) fun _ => Runs.pure hn
  · exact Runs.pure hn

theorem runs_leaveRest : Runs c K S (do
    let r ← gets (fun s => s.resolutions)
    setResolving (currentResolution r).1) (fun _ => True) := by
  refine Runs.bind (Runs.gets (Q := fun r => K.calm → ∀ x ∈ r, '#' ∉ (splitBar x.toList).1) fun s hs hc => hs.res hc) fun r hr => ?_
  refine runs_setResolving fun hc => ?_
  unfold currentResolution HashFree
  split
  · decide +kernel
  · rw [String.toList_ofList]
    exact hr hc _ (List.mem_cons_self ..)

theorem runs_mergeOne (hw : WorldOk c K) {k : Nat} {rec : MergeRec} (h : MergeRuns c K S rec) (hk : ∀ l, Keeps c (rec l))
    {m n : SchemaNode} (hm : Every c K m) (hn : Every c K n) : Runs c K S (mergeOne c k rec m n) (Every c K) := by
  intro s hs
  obtain ⟨a1, a2⟩ := runs_mergeResolveNodeRef (S := S) hw k hn s hs
  have inner : ∀ p s1, mergeResolveNodeRef c k n s = .ok p s1 → Runs c K S (do
      let n ← flattenResolved rec p.1 p.2
      mergeFields c.fp rec m n) (Every c K) := fun p s1 e =>
    Runs.bind (runs_flattenResolved h (a2 p s1 e).1 _) fun x hx => runs_mergeFields h hm hx
  -- leaving the reference
  have leave : ∀ p s1 x s2 y s3, mergeResolveNodeRef c k n s = .ok p s1 → flattenResolved rec p.1 p.2 s1 = .ok x s2 →
      mergeFields c.fp rec m x s2 = .ok y s3 → (Every c K y ∧ St c K S s3) ∧
        ((∀ e, leaveRef p.2 s3 ≠ .panic e) ∧ ∀ u s4, leaveRef p.2 s3 = .ok u s4 → St c K S s4) := by
    intro p s1 x s2 y s3 e1 e2 e3
    have hs3 := (inner p s1 e1 s1 (a2 p s1 e1).2).2 y s3 (bind_ok.2 ⟨x, s2, e2, e3⟩)
    have E23 := (keeps_flattenResolved hk _ _ _ _ _ e2).trans (keeps_mergeFields hk _ _ _ _ _ e3)
    refine ⟨hs3, ?_⟩
    rcases mergeResolveNodeRef_ev e1 with ⟨hb, _⟩ | ⟨hb, key, hr, E1⟩
    · rw [hb]
      unfold leaveRef
      simp only [Bool.false_eq_true, if_false]
      refine ⟨fun e he => by simp at he, fun u s4 he => ?_⟩
      obtain ⟨_, rfl⟩ := pure_ok.1 he
      exact hs3.2
    · obtain ⟨hr', E⟩ := Ev.popAfter hr E1 E23
      rw [hb]
      unfold leaveRef
      simp only [if_true]
      have hpop : popRes s3 = .ok () { s3 with resolutions := s.resolutions } := by
        unfold popRes
        rw [hr']
      have hs4 : St c K S { s3 with resolutions := s.resolutions } :=
        ⟨hs3.2.refs, hs3.2.docs, hs3.2.aliases, hs3.2.queue, hs3.2.parsing, hs3.2.resolving, hs.res⟩
      have hrest := runs_leaveRest (c := c) (K := K) (S := S) _ hs4
      constructor
      · intro e he
        rcases bind_panic.1 he with he | ⟨u, s5, e5, he⟩
        · rw [hpop] at he; cases he
        · rw [hpop] at e5
          injection e5 with _ e5
          subst e5
          by_cases hc : K.calm
          · exact hrest.1 hc e he
          · simp [gets, setResolving, bind_apply] at he
      · intro u s5 he
        obtain ⟨u, s6, e6, he⟩ := bind_ok.1 he
        rw [hpop] at e6
        injection e6 with _ e6
        subst e6
        exact (hrest.2 _ _ he).2
  unfold mergeOne
  constructor
  · intro hc e he
    rcases bind_panic.1 he with he | ⟨p, s1, e1, he⟩
    · exact a1 hc e he
    rcases bind_panic.1 he with he | ⟨x, s2, e2, he⟩
    · exact (inner p s1 e1 s1 (a2 p s1 e1).2).1 hc e (bind_panic.2 (.inl he))
    rcases bind_panic.1 he with he | ⟨y, s3, e3, he⟩
    · exact (inner p s1 e1 s1 (a2 p s1 e1).2).1 hc e (bind_panic.2 (.inr ⟨x, s2, e2, he⟩))
    rcases bind_panic.1 he with he | ⟨u, s4, e4, he⟩
    · exact (leave p s1 x s2 y s3 e1 e2 e3).2.1 e he
    · simp at he
  · intro r s' he
    obtain ⟨p, s1, e1, he⟩ := bind_ok.1 he
    obtain ⟨x, s2, e2, he⟩ := bind_ok.1 he
    obtain ⟨y, s3, e3, he⟩ := bind_ok.1 he
    obtain ⟨u, s4, e4, he⟩ := bind_ok.1 he
    obtain ⟨rfl, rfl⟩ := pure_ok.1 he
    have := leave p s1 x s2 y s3 e1 e2 e3
    exact ⟨this.1.1, this.2.2 u s4 e4⟩

theorem runs_mergeLoop (hw : WorldOk c K) {k : Nat} {rec : MergeRec} (h : MergeRuns c K S rec) (hk : ∀ l, Keeps c (rec l)) :
    ∀ (l : List SchemaNode) (m : SchemaNode), (∀ x ∈ l, Every c K x) → Every c K m →
    Runs c K S (mergeLoop c k rec m l) (Every c K) := by
  intro l
  induction l with
  | nil => intro m _ hm; unfold mergeLoop; exact Runs.pure hm
  | cons x t ih =>
    intro m hl hm
    unfold mergeLoop
    exact Runs.bind (runs_mergeOne hw h hk hm (hl x (List.mem_cons_self ..))) fun y hy =>
      ih y (fun q hq => hl q (List.mem_cons_of_mem _ hq)) hy

theorem runs_flattenResidual {rec : MergeRec} (h : MergeRuns c K S rec) : ∀ (k : Nat) (m : SchemaNode), Every c K m →
    Runs c K S (flattenResidual c rec k m) (Every c K) := by
  intro k
  induction k with
  | zero => intro m _; exact Runs.oom
  | succ k ih =>
    intro m hm
    unfold flattenResidual
    split
    · exact Runs.pure hm
    · rename_i l hl
      refine Runs.ite (fun _ => Runs.pure hm) fun _ => ?_
      refine Runs.bind (Runs.gets (Q := fun _ => True) fun _ _ => trivial) fun d _ => Runs.ite (fun _ => Runs.pure hm) fun _ => ?_
      refine Runs.bind (Runs.mod fun s hs => hs) fun _ _ => ?_
      refine Runs.bind (h _ (every_snoc (hm.kids.allOf l hl) (every_noAllOf hm))) fun x hx => ?_
      exact Runs.bind (Runs.mod fun s hs => hs) fun _ _ => ih x hx

theorem runs_mergeNodes (hw : WorldOk c K) : ∀ k : Nat, MergeRuns c K S (mergeNodes c k) := by
  intro k
  induction k with
  | zero => intro l _; exact Runs.oom
  | succ k ih =>
    intro l hl
    unfold mergeNodes mergeStep
    exact Runs.bind (runs_mergeLoop hw ih (keeps_mergeNodes k) l _ hl every_empty) fun x hx => runs_flattenResidual ih _ _ hx

end

end Chaff
