import Verif.Lemmas.MergeSat
import Verif.Lemmas.Json
import Verif.Lemmas.DemoEnv
import Verif.Props.Not
/-!
# Properties of merging (C33 to C37, C63, C64)

`mergeNodes c k nodes s = .ok r s'` says that `mergeSchemaNodes` called on `nodes` in the parser state `s` returned the
schema `r`.  The result may still have an `allOf` when the depth limit of the parser was reached, so what the result
demands is what all its parts demand (`EveryPart`); `C33_flat` covers the usual case.
-/

namespace Chaff
open Comp
variable {c : PEnv} {k : Nat} {nodes : List SchemaNode} {r : SchemaNode} {s s' : PSt}

/-! ## C33: bounds -/

theorem maxPtr_all {α : Type} [LinearOrder α] {a b : Option α} {R : α → Prop} (hR : ∀ x y, x ≤ y → R y → R x) :
    (∀ x, maxPtr [a, b] = some x → R x) ↔ (∀ x, b = some x → R x) ∧ (∀ x, a = some x → R x) := by
  unfold maxPtr
  cases a with
  | none => cases b <;> simp [maxPtrStep]
  | some a =>
    cases b with
    | none => simp [maxPtrStep]
    | some b =>
      simp only [List.foldl_cons, List.foldl_nil, maxPtrStep]
      split
      · rename_i h; simp only [Option.some.injEq, forall_eq']; exact ⟨fun x => ⟨x, hR _ _ h.le x⟩, fun x => x.1⟩
      · rename_i h; simp only [Option.some.injEq, forall_eq']; exact ⟨fun x => ⟨hR _ _ (not_lt.1 h) x, x⟩, fun x => x.2⟩

theorem minPtr_all {α : Type} [LinearOrder α] {a b : Option α} {R : α → Prop} (hR : ∀ x y, x ≤ y → R x → R y) :
    (∀ x, minPtr [a, b] = some x → R x) ↔ (∀ x, b = some x → R x) ∧ (∀ x, a = some x → R x) := by
  unfold minPtr
  cases a with
  | none => cases b <;> simp [minPtrStep]
  | some a =>
    cases b with
    | none => simp [minPtrStep]
    | some b =>
      simp only [List.foldl_cons, List.foldl_nil, minPtrStep]
      split
      · rename_i h; simp only [Option.some.injEq, forall_eq']; exact ⟨fun x => ⟨x, hR _ _ h.le x⟩, fun x => x.1⟩
      · rename_i h; simp only [Option.some.injEq, forall_eq']; exact ⟨fun x => ⟨hR _ _ (not_lt.1 h) x, x⟩, fun x => x.2⟩

theorem inRange_merge {lo hi lo' hi' : Option Int} {v : Int} :
    InRange (maxPtr [lo', lo]) (minPtr [hi', hi]) v ↔ InRange lo hi v ∧ InRange lo' hi' v := by
  unfold InRange
  rw [maxPtr_all (fun x y h1 h2 => h1.trans h2), minPtr_all (fun x y h1 h2 => h2.trans h1)]
  tauto

theorem inBounds_iff {a b x y : Option Rat} {q : Rat} : InBounds a b x y q ↔ (∀ v, a = some v → v ≤ q) ∧
    (∀ v, b = some v → q ≤ v) ∧ (∀ v, x = some v → v < q) ∧ (∀ v, y = some v → q < v) :=
  ⟨fun h => ⟨h.1, h.2, h.3, h.4⟩, fun h => ⟨h.1, h.2.1, h.2.2.1, h.2.2.2⟩⟩

theorem inBounds_merge {a b x y a' b' x' y' : Option Rat} {q : Rat} :
    InBounds (maxPtr [a', a]) (minPtr [b', b]) (maxPtr [x', x]) (minPtr [y', y]) q ↔
      InBounds a b x y q ∧ InBounds a' b' x' y' q := by
  simp only [inBounds_iff]
  rw [maxPtr_all (fun x y h1 h2 => h1.trans h2), minPtr_all (fun x y h1 h2 => h2.trans h1),
    maxPtr_all (fun x y h1 h2 => lt_of_le_of_lt h1 h2), minPtr_all (fun x y h1 h2 => lt_of_lt_of_le h2 h1)]
  tauto

/-- A predicate that merging conjoins whatever the other fields are. -/
theorem Conj.simple {A : SchemaNode → Prop} (he : A emptyNode) (ha : ∀ m : SchemaNode, A { m with allOf := none } ↔ A m)
    (hs : ∀ (rec : MergeRec) (m n r : SchemaNode), MergedFields c.fp rec m n r → (A r ↔ A m ∧ A n)) :
    Conj c False True (fun _ => True) (fun n => n.ref = none) A where
  emptyAcc := trivial
  noRef _ h := h
  emptyPre := rfl
  empty _ := he
  preAllOf _ h := h
  allOf := ha
  step rec m n r s s' _ hm hn hk h _ := by
    obtain ⟨f, -⟩ := mergeFields_inv (c := c) h
    have := hs rec m n r f
    exact ⟨trivial, (f.ref hn).trans hm, this.1, fun _ a b => this.2 ⟨a, b⟩⟩

theorem Conj.iff {A : SchemaNode → Prop} (H : Conj c False True (fun _ => True) (fun n => n.ref = none) A)
    (hr : ∀ n ∈ nodes, RefFree n) (h : mergeNodes c k nodes s = .ok r s') :
    EveryPart A r ↔ ∀ n ∈ nodes, EveryPart A n :=
  let x := H.merge k nodes r s s' hr h False.elim
  ⟨x.2.2.1, x.2.2.2 trivial⟩

/-- **C33 (string lengths).** A length satisfies the merged `minLength` and `maxLength` exactly when it satisfies those of
every merged schema; the right-hand side does not depend on the order of the schemas. -/
theorem C33_length_bounds (hr : ∀ n ∈ nodes, RefFree n) (h : mergeNodes c k nodes s = .ok r s') (v : Int) :
    EveryPart (fun x => InRange x.minLength x.maxLength v) r ↔
      ∀ n ∈ nodes, EveryPart (fun x => InRange x.minLength x.maxLength v) n :=
  Conj.iff (Conj.simple ⟨by simp [emptyNode], by simp [emptyNode]⟩ (fun _ => Iff.rfl)
    (fun _ _ _ _ f => by rw [f.minLength, f.maxLength]; exact inRange_merge)) hr h

/-- **C33 (item counts).** -/
theorem C33_item_bounds (hr : ∀ n ∈ nodes, RefFree n) (h : mergeNodes c k nodes s = .ok r s') (v : Int) :
    EveryPart (fun x => InRange x.minItems x.maxItems v) r ↔
      ∀ n ∈ nodes, EveryPart (fun x => InRange x.minItems x.maxItems v) n :=
  Conj.iff (Conj.simple ⟨by simp [emptyNode], by simp [emptyNode]⟩ (fun _ => Iff.rfl)
    (fun _ _ _ _ f => by rw [f.minItems, f.maxItems]; exact inRange_merge)) hr h

/-- **C33 (numbers of matching items).** -/
theorem C33_contains_bounds (hr : ∀ n ∈ nodes, RefFree n) (h : mergeNodes c k nodes s = .ok r s') (v : Int) :
    EveryPart (fun x => InRange x.minContains x.maxContains v) r ↔
      ∀ n ∈ nodes, EveryPart (fun x => InRange x.minContains x.maxContains v) n :=
  Conj.iff (Conj.simple ⟨by simp [emptyNode], by simp [emptyNode]⟩ (fun _ => Iff.rfl)
    (fun _ _ _ _ f => by rw [f.minContains, f.maxContains]; exact inRange_merge)) hr h

/-- **C33 (numbers of properties).** -/
theorem C33_property_bounds (hr : ∀ n ∈ nodes, RefFree n) (h : mergeNodes c k nodes s = .ok r s') (v : Int) :
    EveryPart (fun x => InRange x.minProperties x.maxProperties v) r ↔
      ∀ n ∈ nodes, EveryPart (fun x => InRange x.minProperties x.maxProperties v) n :=
  Conj.iff (Conj.simple ⟨by simp [emptyNode], by simp [emptyNode]⟩ (fun _ => Iff.rfl)
    (fun _ _ _ _ f => by rw [f.minProperties, f.maxProperties]; exact inRange_merge)) hr h

/-- **C33 (numbers).** A number satisfies the merged `minimum`, `maximum`, `exclusiveMinimum` and `exclusiveMaximum` exactly
when it satisfies those of every merged schema. -/
theorem C33_number_bounds (hr : ∀ n ∈ nodes, RefFree n) (h : mergeNodes c k nodes s = .ok r s') (q : Rat) :
    EveryPart (fun x => InBounds x.minimum x.maximum x.exclusiveMinimum x.exclusiveMaximum q) r ↔
      ∀ n ∈ nodes, EveryPart (fun x => InBounds x.minimum x.maximum x.exclusiveMinimum x.exclusiveMaximum q) n :=
  Conj.iff (Conj.simple ⟨by simp [emptyNode], by simp [emptyNode], by simp [emptyNode], by simp [emptyNode]⟩
    (fun _ => Iff.rfl) (fun _ _ _ _ f => by
      rw [f.minimum, f.maximum, f.exclusiveMinimum, f.exclusiveMaximum]; exact inBounds_merge)) hr h

/-- The result of a merge whose `allOf` was flattened completely is its own only part, so C33 to C36 speak about its own
keywords. -/
theorem C33_flat (hf : r.allOf = none) (A : SchemaNode → Prop) : EveryPart A r ↔ A r := everyPart_flat hf

/-- `[{minLength: 2, allOf: [{maxLength: 9}]}, {minLength: 4, maxLength: 20}]` gives 4..9 and no `allOf`. -/
example : ∃ r s', mergeNodes demoEnv 5
      [{ minLength := some 2, allOf := some [{ maxLength := some 9 }] }, { minLength := some 4, maxLength := some 20 }]
      emptyPSt = .ok r s' ∧ (r.allOf.isNone && decide (r.minLength = some 4) && decide (r.maxLength = some 9)) = true :=
  Res.witness (by decide +kernel)

/-! ## C34: required names and properties -/

theorem not_everyPart {A : SchemaNode → Prop} {n : SchemaNode} :
    ¬ EveryPart (fun x => ¬ A x) n ↔ ∃ x, Part n x ∧ A x := by
  unfold EveryPart; push Not; rfl

theorem Conj.exists {A : SchemaNode → Prop} (H : Conj c False True (fun _ => True) (fun n => n.ref = none) (fun x => ¬ A x))
    (hr : ∀ n ∈ nodes, RefFree n) (h : mergeNodes c k nodes s = .ok r s') :
    (∃ x, Part r x ∧ A x) ↔ ∃ n ∈ nodes, ∃ x, Part n x ∧ A x := by
  rw [← not_everyPart, H.iff hr h]
  push Not
  exact exists_congr fun n => and_congr_right fun _ => by rw [← not_everyPart]

theorem requires_merge {F : FP} {rec : MergeRec} {m n r : SchemaNode} (f : MergedFields F rec m n r) (name : String) :
    Requires r name ↔ Requires m name ∨ Requires n name := by
  unfold Requires
  rw [f.required]
  cases h : mergeSlicePtrs [m.required, n.required] with
  | none => simpa using mergeSlicePtrs_none h name
  | some l => simpa using mem_mergeSlicePtrs h name

/-- **C34 (required).** The merged schema requires exactly the names required by some merged schema. -/
theorem C34_required_names (hr : ∀ n ∈ nodes, RefFree n) (h : mergeNodes c k nodes s = .ok r s') (name : String) :
    (∃ x, Part r x ∧ Requires x name) ↔ ∃ n ∈ nodes, ∃ x, Part n x ∧ Requires x name :=
  Conj.exists (Conj.simple (by simp [Requires, emptyNode]) (fun _ => Iff.rfl)
    (fun _ _ _ _ f => by rw [requires_merge f]; tauto)) hr h

theorem mergeMapLoop_keys {rec : MergeRec} : ∀ (l m r : List (String × SchemaNode)) (s s' : PSt),
    mergeMapLoop rec m l s = .ok r s' → ∀ k, k ∈ keysKV r ↔ k ∈ keysKV m ∨ k ∈ keysKV l := by
  intro l
  induction l with
  | nil => intro m r s s' h k; obtain ⟨rfl, -⟩ := pure_ok.1 h; simp [keysKV]
  | cons p t ih =>
    obtain ⟨q, v⟩ := p
    intro m r s s' h k
    unfold mergeMapLoop at h
    cases hl : lookupKV m q with
    | none =>
      rw [hl] at h; dsimp only at h
      rw [ih _ _ _ _ h k, keys_insertKV]
      simp only [keysKV, List.map_cons, List.mem_cons]; tauto
    | some e =>
      rw [hl] at h; dsimp only at h
      obtain ⟨x, s1, h1, w1⟩ := bind_ok.1 h
      rw [ih _ _ _ _ w1 k, keys_insertKV]
      simp only [keysKV, List.map_cons, List.mem_cons]; tauto

theorem mergeMap_keys {rec : MergeRec} {a b r : Option (List (String × SchemaNode))} {s s' : PSt}
    (h : mergeMap rec a b s = .ok r s') (name : String) :
    (∃ l x, r = some l ∧ (name, x) ∈ l) ↔ (∃ l x, a = some l ∧ (name, x) ∈ l) ∨ (∃ l x, b = some l ∧ (name, x) ∈ l) := by
  unfold mergeMap at h
  cases b with
  | none =>
    dsimp only at h
    obtain ⟨rfl, -⟩ := pure_ok.1 h; simp
  | some l =>
    dsimp only at h
    obtain ⟨x, s1, h1, w1⟩ := bind_ok.1 h
    obtain ⟨rfl, -⟩ := pure_ok.1 w1
    have := mergeMapLoop_keys _ _ _ _ _ h1 name
    simp only [mem_keysKV] at this
    cases a with
    | none => simpa [getZeroIfNil] using this
    | some a => simpa [getZeroIfNil] using this

/-- **C34 (properties).** The merged schema declares exactly the property names declared by some merged schema. -/
theorem C34_declared_names (hr : ∀ n ∈ nodes, RefFree n) (h : mergeNodes c k nodes s = .ok r s') (name : String) :
    (∃ x, Part r x ∧ Declares x name) ↔ ∃ n ∈ nodes, ∃ x, Part n x ∧ Declares x name :=
  Conj.exists (Conj.simple (by simp [Declares, emptyNode]) (fun _ => Iff.rfl)
    (fun _ m n r f => by
      obtain ⟨t, t', e⟩ := f.properties
      have := mergeMap_keys e name
      unfold Declares
      rw [this, not_or])) hr h

/-- Three schemas with overlapping names. -/
example : ∃ r s', mergeNodes demoEnv 5
      [{ required := some ["a"], properties := some [("a", {}), ("b", {})] },
       { required := some ["c", "a"], allOf := some [{ properties := some [("d", {}), ("a", {})] }] }]
      emptyPSt = .ok r s' ∧ (decide (s'.errors = []) && decide (r.required = some ["a", "c", "a"]) &&
        (["a", "b", "d"].all fun k => (keysKV (getZeroIfNil r.properties [])).contains k) &&
        decide ((getZeroIfNil r.properties []).length = 3)) = true :=
  Res.witness (by decide +kernel)

/-! ## C35: enum and const -/

/-- A schema that has not both `enum` and `const`, and whose values are JSON. -/
def PlainValues (n : SchemaNode) : Prop :=
  (n.enum = none ∨ n.const = none) ∧ (∀ l, n.enum = some l → ∀ w ∈ l, w.WF) ∧ (∀ w, n.const = some w → w.WF)

theorem valueAllowed_collect {n : SchemaNode} (h : PlainValues n) (v : JVal) :
    ValueAllowed v n ↔ ∀ l, collectEnumValues n = some l → ∃ w ∈ l, SameJson v w := by
  unfold ValueAllowed collectEnumValues
  cases he : n.enum with
  | some l =>
    have : n.const = none := by rcases h.1 with h | h; · rw [he] at h; cases h
                                · exact h
    simp [this]
  | none => cases hc : n.const with
    | none => simp
    | some w => simp

theorem collect_wf {n : SchemaNode} (h : PlainValues n) {l : List JVal} (hl : collectEnumValues n = some l) :
    ∀ w ∈ l, w.WF := by
  unfold collectEnumValues at hl
  cases he : n.enum with
  | some l' => rw [he] at hl; cases hl; exact h.2.1 l he
  | none =>
    rw [he] at hl; dsimp only at hl
    cases hc : n.const with
    | none => rw [hc] at hl; cases hl
    | some w => rw [hc] at hl; cases hl; intro x hx; rw [List.mem_singleton] at hx; rw [hx]; exact h.2.2 w hc

theorem setAllowed_collect (m : SchemaNode) (l : List JVal) : collectEnumValues (setAllowed m l) = some l := by
  unfold setAllowed; split <;> rfl

theorem setAllowed_plain (m : SchemaNode) {l : List JVal} (h : ∀ w ∈ l, w.WF) : PlainValues (setAllowed m l) := by
  unfold setAllowed
  split
  · refine ⟨.inl rfl, by simp, ?_⟩
    intro w hw; cases hw; exact h _ (by simp)
  · refine ⟨.inr rfl, ?_, by simp⟩
    intro l hl; cases hl; exact h

theorem valueAllowed_of {v : JVal} {a b : SchemaNode} (h1 : a.enum = b.enum) (h2 : a.const = b.const) :
    ValueAllowed v a ↔ ValueAllowed v b := by unfold ValueAllowed; rw [h1, h2]

theorem plainValues_of {a b : SchemaNode} (h1 : a.enum = b.enum) (h2 : a.const = b.const) :
    PlainValues a ↔ PlainValues b := by unfold PlainValues; rw [h1, h2]

theorem mergeEnumAndConst_inv {m n r : SchemaNode} {s s' : PSt} (h : mergeEnumAndConst m n s = .ok r s')
    (hq : s'.errors.length = s.errors.length) (hm : PlainValues m) (hn : PlainValues n) :
    PlainValues r ∧ ∀ v : JVal, v.WF → (ValueAllowed v r ↔ ValueAllowed v m ∧ ValueAllowed v n) := by
  unfold mergeEnumAndConst at h
  cases ha : collectEnumValues m with
  | none =>
    cases hb : collectEnumValues n with
    | none =>
      rw [ha, hb] at h; dsimp only at h
      obtain ⟨rfl, -⟩ := pure_ok.1 h
      refine ⟨hm, fun v hv => ?_⟩
      rw [valueAllowed_collect hm, valueAllowed_collect hn, ha, hb]; simp
    | some q =>
      rw [ha, hb] at h; dsimp only at h
      obtain ⟨rfl, -⟩ := pure_ok.1 h
      have hp := setAllowed_plain m (collect_wf hn hb)
      refine ⟨hp, fun v hv => ?_⟩
      rw [valueAllowed_collect hp, valueAllowed_collect hm, valueAllowed_collect hn, ha, hb, setAllowed_collect]; simp
  | some p =>
    cases hb : collectEnumValues n with
    | none =>
      rw [ha, hb] at h; dsimp only at h
      obtain ⟨rfl, -⟩ := pure_ok.1 h
      have hp := setAllowed_plain m (collect_wf hm ha)
      refine ⟨hp, fun v hv => ?_⟩
      rw [valueAllowed_collect hp, valueAllowed_collect hm, valueAllowed_collect hn, ha, hb, setAllowed_collect]; simp
    | some q =>
      rw [ha, hb] at h; dsimp only at h
      split at h
      · obtain ⟨u, s1, h1, h2⟩ := bind_ok.1 h
        obtain ⟨-, rfl⟩ := pure_ok.1 h2
        have := warnMerge_grow h1; omega
      · obtain ⟨rfl, -⟩ := pure_ok.1 h
        have w1 := collect_wf hm ha
        have w2 := collect_wf hn hb
        have hmem : ∀ w, w ∈ intersectEnum p q ↔ w ∈ p ∧ ∃ u ∈ q, JVal.jeq w u = true := by
          intro w; unfold intersectEnum; simp [List.mem_filter]
        have hp := setAllowed_plain m (l := intersectEnum p q) (fun w hw => w1 w ((hmem w).1 hw).1)
        refine ⟨hp, fun v hv => ?_⟩
        rw [valueAllowed_collect hp, valueAllowed_collect hm, valueAllowed_collect hn, ha, hb, setAllowed_collect]
        simp only [Option.some.injEq, forall_eq']
        constructor
        · rintro ⟨w, hw, e⟩
          obtain ⟨h1, u, hu, e'⟩ := (hmem w).1 hw
          exact ⟨⟨w, h1, e⟩, u, hu, e.trans ((jeq_iff_sameJson (w1 w h1) (w2 u hu)).1 e')⟩
        · rintro ⟨⟨w, hw, e⟩, u, hu, e'⟩
          exact ⟨w, (hmem w).2 ⟨hw, u, hu, (jeq_iff_sameJson (w1 w hw) (w2 u hu)).2 (e.symm.trans e')⟩, e⟩

/-- **C35.** When the merge records no error, a value is allowed by the merged `enum` or `const` exactly when it is allowed
by those of every merged schema, for schemas that have not both keywords (see `C35_enum_and_const_violation`). -/
theorem C35_allowed_values (hr : ∀ n ∈ nodes, EveryPart (fun x => x.ref = none ∧ PlainValues x) n)
    (h : mergeNodes c k nodes s = .ok r s') (hq : s'.errors = s.errors) (v : JVal) (hv : v.WF) :
    EveryPart (ValueAllowed v) r ↔ ∀ n ∈ nodes, EveryPart (ValueAllowed v) n := by
  have H : Conj c True True (fun _ => True) (fun x => x.ref = none ∧ PlainValues x) (ValueAllowed v) :=
    { emptyAcc := trivial
      noRef := fun _ h => h.1
      emptyPre := ⟨rfl, .inl rfl, by simp [emptyNode], by simp [emptyNode]⟩
      empty := fun _ => ⟨by simp [emptyNode], by simp [emptyNode]⟩
      preAllOf := fun _ h => h
      allOf := fun _ => Iff.rfl
      step := by
        intro rec m n r s s' _ hm hn hk h hq
        obtain ⟨f, m1, s1, h1, e1, e2, g⟩ := mergeFields_inv (c := c) h
        have g1 := (keeps_mergeEnumAndConst (c := c) _ n).grow h1
        have g2 := g hk
        have hq := hq trivial
        obtain ⟨p, hp⟩ := mergeEnumAndConst_inv h1 (by omega) (by exact hm.2) hn.2
        have hp : ValueAllowed v m1 ↔ ValueAllowed v m ∧ ValueAllowed v n := hp v hv
        refine ⟨trivial, ⟨(f.ref hn.1).trans hm.1, (plainValues_of e1 e2).2 p⟩, ?_, fun _ a b => ?_⟩
        · intro a; exact hp.1 ((valueAllowed_of e1 e2).1 a)
        · exact (valueAllowed_of e1 e2).2 (hp.2 ⟨a, b⟩) }
  have x := H.merge k nodes r s s' hr h (fun _ => by rw [hq])
  exact ⟨x.2.2.1, x.2.2.2 trivial⟩

theorem collect_ne {n : SchemaNode} {l : List JVal} (hn : n.enum ≠ some []) (h : collectEnumValues n = some l) : l ≠ [] := by
  unfold collectEnumValues at h
  cases he : n.enum with
  | some l' => rw [he] at h hn; cases h; intro e; rw [e] at hn; exact hn rfl
  | none =>
    rw [he] at h; dsimp only at h
    cases hc : n.const with
    | none => rw [hc] at h; cases h
    | some w => rw [hc] at h; cases h; simp

theorem setAllowed_ne {m : SchemaNode} {l : List JVal} (h : l ≠ []) : (setAllowed m l).enum ≠ some [] := by
  unfold setAllowed
  split
  · simp
  · simpa using h

theorem mergeEnumAndConst_ne {m n r : SchemaNode} {s s' : PSt} (h : mergeEnumAndConst m n s = .ok r s')
    (hm : m.enum ≠ some []) (hn : n.enum ≠ some []) : r.enum ≠ some [] := by
  unfold mergeEnumAndConst at h
  cases ha : collectEnumValues m with
  | none =>
    cases hb : collectEnumValues n with
    | none => rw [ha, hb] at h; dsimp only at h; obtain ⟨rfl, -⟩ := pure_ok.1 h; exact hm
    | some q =>
      rw [ha, hb] at h; dsimp only at h
      obtain ⟨rfl, -⟩ := pure_ok.1 h; exact setAllowed_ne (collect_ne hn hb)
  | some p =>
    cases hb : collectEnumValues n with
    | none =>
      rw [ha, hb] at h; dsimp only at h
      obtain ⟨rfl, -⟩ := pure_ok.1 h; exact setAllowed_ne (collect_ne hm ha)
    | some q =>
      rw [ha, hb] at h; dsimp only at h
      split at h
      · obtain ⟨u, s1, h1, h2⟩ := bind_ok.1 h
        obtain ⟨rfl, -⟩ := pure_ok.1 h2
        simp
      · rename_i hne
        obtain ⟨rfl, -⟩ := pure_ok.1 h
        exact setAllowed_ne (fun e => hne (by rw [e]; rfl))

/-- **C35 (no common value).** If no value is allowed by all the merged schemas the merge records an error, unless one of
them has an empty `enum` already or the depth limit left an `allOf`. -/
theorem C35_disjoint_reported
    (hr : ∀ n ∈ nodes, EveryPart (fun x => x.ref = none ∧ PlainValues x ∧ x.enum ≠ some []) n)
    (h : mergeNodes c k nodes s = .ok r s') (hf : r.allOf = none)
    (hd : ∀ v : JVal, v.WF → ∃ n ∈ nodes, ∃ x, Part n x ∧ ¬ ValueAllowed v x) : s'.errors ≠ s.errors := by
  intro hq
  have H : Conj c True True (fun _ => True) (fun x => x.ref = none ∧ PlainValues x ∧ x.enum ≠ some []) (fun _ => True) :=
    { emptyAcc := trivial
      noRef := fun _ h => h.1
      emptyPre := ⟨rfl, ⟨.inl rfl, by simp [emptyNode], by simp [emptyNode]⟩, by simp [emptyNode]⟩
      empty := fun _ => trivial
      preAllOf := fun _ h => h
      allOf := fun _ => Iff.rfl
      step := by
        intro rec m n r s s' _ hm hn hk h hq
        obtain ⟨f, m1, s1, h1, e1, e2, g⟩ := mergeFields_inv (c := c) h
        have g1 := (keeps_mergeEnumAndConst (c := c) _ n).grow h1
        have g2 := g hk
        have hq := hq trivial
        obtain ⟨p, -⟩ := mergeEnumAndConst_inv h1 (by omega) (by exact hm.2.1) hn.2.1
        have q := mergeEnumAndConst_ne h1 (by exact hm.2.2) hn.2.2
        rw [← e1] at q
        exact ⟨trivial, ⟨(f.ref hn.1).trans hm.1, (plainValues_of e1 e2).2 p, q⟩, fun _ => ⟨trivial, trivial⟩, fun _ _ _ => trivial⟩ }
  obtain ⟨-, x, -⟩ := H.merge k nodes r s s' hr h (fun _ => by rw [hq])
  obtain ⟨-, x2, x3⟩ := x r (.self r)
  have key := fun v hv => (C35_allowed_values (fun n hn y hy => ⟨(hr n hn y hy).1, (hr n hn y hy).2.1⟩) h hq v hv)
  have none : ∀ v : JVal, v.WF → ¬ ValueAllowed v r := by
    intro v hv ha
    obtain ⟨n, hn, y, hy, hny⟩ := hd v hv
    exact hny ((key v hv).1 ((everyPart_flat hf).2 ha) n hn y hy)
  cases he : r.enum with
  | some l =>
    cases l with
    | nil => exact x3 he
    | cons w t =>
      have hc : r.const = .none := by rcases x2.1 with h | h; · rw [he] at h; cases h
                                      · exact h
      refine none w (x2.2.1 _ he w (by simp)) ⟨fun l hl => ?_, fun u hu => ?_⟩
      · rw [he] at hl; cases hl; exact ⟨w, by simp, .refl w⟩
      · rw [hc] at hu; cases hu
  | none =>
    cases hc : r.const with
    | some w =>
      refine none w (x2.2.2 _ hc) ⟨fun l hl => ?_, fun u hu => ?_⟩
      · rw [he] at hl; cases hl
      · rw [hc] at hu; cases hu; exact .refl w
    | none =>
      refine none .null .null ⟨fun l hl => ?_, fun u hu => ?_⟩
      · rw [he] at hl; cases hl
      · rw [hc] at hu; cases hu

/-- `[{"const": 1}, {"enum": [2, 3]}]` records an error. -/
example : ∃ r s', mergeNodes demoEnv 5 [{ const := some (.num 1) }, { enum := some [.num 2, .num 3] }] emptyPSt = .ok r s' ∧
    (decide (s'.errors.length = 1) && r.allOf.isNone) = true :=
  Res.witness (by decide +kernel)

/-- `{"enum": [1, 2], "const": 1}` allows only 1, but merging it keeps the enum and loses the const, without an error. -/
theorem C35_enum_and_const_violation : ∃ r s', mergeNodes demoEnv 5
      [{ enum := some [.num 1, .num 2], const := some (.num 1) }, { enum := some [.num 2, .num 3, .num 1] }] emptyPSt = .ok r s' ∧
      (decide (s'.errors = []) && r.const.isNone && (getZeroIfNil r.enum []).any (fun v => JVal.jeq v (.num 2))) = true :=
  Res.witness (by decide +kernel)

/-- `[{"enum": [1, "a", {"x": 1, "y": 2}]}, {"allOf": [{"enum": [{"y": 2, "x": 1}, 1]}]}, {"enum": [2, {"x": 1, "y": 2}]}]`
leaves the object. -/
example : ∃ r s', mergeNodes demoEnv 5
      [{ enum := some [.num 1, .str "a", .obj [("x", .num 1), ("y", .num 2)]] },
       { allOf := some [{ enum := some [.obj [("y", .num 2), ("x", .num 1)], .num 1] }] },
       { enum := some [.num 2, .obj [("x", .num 1), ("y", .num 2)]] }] emptyPSt = .ok r s' ∧
      (decide (s'.errors = []) && r.enum.isNone &&
        r.const.any (fun v => JVal.jeq v (.obj [("x", .num 1), ("y", .num 2)]))) = true :=
  Res.witness (by decide +kernel)

/-! ## C36: false sub-schemas -/

/-- The keyword is present and is `false`. -/
def IsFalse (x : Option (NodeOrFalse SchemaNode)) : Prop := ∃ d, x = some d ∧ d.isFalse = true

theorem mergeNodeOrFalse_isFalse {rec : MergeRec} {a b r : Option (NodeOrFalse SchemaNode)} {s s' : PSt}
    (h : mergeNodeOrFalse rec a b s = .ok r s') : IsFalse r ↔ IsFalse a ∨ IsFalse b := by
  unfold mergeNodeOrFalse at h
  cases b with
  | none => dsimp only at h; obtain ⟨rfl, -⟩ := pure_ok.1 h; simp [IsFalse]
  | some y =>
    cases a with
    | none => dsimp only at h; obtain ⟨rfl, -⟩ := pure_ok.1 h; simp [IsFalse]
    | some x =>
      dsimp only at h
      split at h
      · obtain ⟨rfl, -⟩ := pure_ok.1 h; simp_all [IsFalse]
      · split at h
        · obtain ⟨rfl, -⟩ := pure_ok.1 h; simp_all [IsFalse]
        · cases hx : x.schema with
          | none => rw [hx] at h; dsimp only at h; obtain ⟨rfl, -⟩ := pure_ok.1 h; simp_all [IsFalse]
          | some u =>
            cases hy : y.schema with
            | none => rw [hx, hy] at h; dsimp only at h; obtain ⟨rfl, -⟩ := pure_ok.1 h; simp_all [IsFalse]
            | some w =>
              rw [hx, hy] at h; dsimp only at h
              obtain ⟨z, s1, h1, w1⟩ := bind_ok.1 h
              obtain ⟨rfl, -⟩ := pure_ok.1 w1; simp_all [IsFalse]

/-- **C36 (additionalProperties).** The merged schema forbids additional properties exactly when some merged schema
does. -/
theorem C36_additional_properties_false (hr : ∀ n ∈ nodes, RefFree n) (h : mergeNodes c k nodes s = .ok r s') :
    (∃ x, Part r x ∧ IsFalse x.additionalProperties) ↔ ∃ n ∈ nodes, ∃ x, Part n x ∧ IsFalse x.additionalProperties :=
  Conj.exists (Conj.simple (by simp [IsFalse, emptyNode]) (fun _ => Iff.rfl)
    (fun _ m n r f => by
      obtain ⟨t, t', e⟩ := f.additionalProperties
      rw [mergeNodeOrFalse_isFalse e]; tauto)) hr h

/-- **C36 (additionalItems).** -/
theorem C36_additional_items_false (hr : ∀ n ∈ nodes, RefFree n) (h : mergeNodes c k nodes s = .ok r s') :
    (∃ x, Part r x ∧ IsFalse x.additionalItems) ↔ ∃ n ∈ nodes, ∃ x, Part n x ∧ IsFalse x.additionalItems :=
  Conj.exists (Conj.simple (by simp [IsFalse, emptyNode]) (fun _ => Iff.rfl)
    (fun _ m n r f => by
      obtain ⟨t, t', e⟩ := f.additionalItems
      rw [mergeNodeOrFalse_isFalse e]; tauto)) hr h

/-- **C36 (unevaluatedItems).** -/
theorem C36_unevaluated_items_false (hr : ∀ n ∈ nodes, RefFree n) (h : mergeNodes c k nodes s = .ok r s') :
    (∃ x, Part r x ∧ IsFalse x.unevaluatedItems) ↔ ∃ n ∈ nodes, ∃ x, Part n x ∧ IsFalse x.unevaluatedItems :=
  Conj.exists (Conj.simple (by simp [IsFalse, emptyNode]) (fun _ => Iff.rfl)
    (fun _ m n r f => by
      obtain ⟨t, t', e⟩ := f.unevaluatedItems
      rw [mergeNodeOrFalse_isFalse e]; tauto)) hr h

/-- `items: false` is lost: merging `{"items": false, "minItems": 1}` with anything leaves no `items`. -/
theorem C36_items_false_violation : ∃ r s', mergeNodes demoEnv 5
      [{ items := some { disallow := true }, minItems := some 1 }, { maxItems := some 3 }] emptyPSt = .ok r s' ∧
      (decide (s'.errors = []) && r.items.isNone && decide (r.minItems = some 1)) = true :=
  Res.witness (by decide +kernel)

/-- `additionalProperties: false` wins over a schema on either side. -/
example : ∃ r s', mergeNodes demoEnv 5
      [{ additionalProperties := some { schema := some {} } }, { additionalProperties := some { isFalse := true } },
       { additionalProperties := some { schema := some { minimum := some 1 } } }] emptyPSt = .ok r s' ∧
      (decide (s'.errors = []) && r.additionalProperties.any (fun d => d.isFalse)) = true :=
  Res.witness (by decide +kernel)

/-! ## C37: multipleOf -/

theorem fracDigits_spec : ∀ (j : Nat) (k : Int), fracDigits j k ≤ j ∧ (10 : Int) ^ (j - fracDigits j k) ∣ k := by
  intro j
  induction j with
  | zero => intro k; simp [fracDigits]
  | succ j ih =>
    intro k
    unfold fracDigits
    split
    · rename_i h
      obtain ⟨h1, h2⟩ := ih (k / 10)
      refine ⟨by omega, ?_⟩
      have : j + 1 - fracDigits j (k / 10) = (j - fracDigits j (k / 10)) + 1 := by omega
      rw [this, pow_succ]
      have hk : k = k / 10 * 10 := by omega
      rw [hk]
      have : k / 10 * 10 / 10 = k / 10 := by omega
      rw [this]
      exact mul_dvd_mul_right h2 10
    · simp

theorem roundHalfEven_int (k : Int) : roundHalfEven (k : Rat) = k := by
  unfold roundHalfEven fFloor; simp

/-- The scale chosen by `findHcf` makes a number with six decimals an integer. -/
theorem scaled_int {a : Rat} (h : SixDecimals a) : countDecimalPlaces a ≤ 6 ∧
    ∀ d, countDecimalPlaces a ≤ d → ∃ A : Int, a * 10 ^ d = A := by
  obtain ⟨k, rfl⟩ := h
  have e : countDecimalPlaces ((k : Rat) / 1000000) = fracDigits 6 k := by
    unfold countDecimalPlaces
    rw [div_mul_cancel₀ _ (by norm_num), roundHalfEven_int]
  obtain ⟨h1, h2⟩ := fracDigits_spec 6 k
  rw [e]
  refine ⟨h1, fun d hd => ?_⟩
  obtain ⟨j, hj⟩ := h2
  refine ⟨j * 10 ^ (d - fracDigits 6 k), ?_⟩
  have h6 : (1000000 : Rat) = 10 ^ (6 - fracDigits 6 k) * 10 ^ fracDigits 6 k := by
    rw [← pow_add, Nat.sub_add_cancel h1]; norm_num
  have hd' : (10 : Rat) ^ d = 10 ^ (d - fracDigits 6 k) * 10 ^ fracDigits 6 k := by
    rw [← pow_add, Nat.sub_add_cancel hd]
  generalize fracDigits 6 k = f at *
  have : (k : Rat) = 10 ^ (6 - f) * j := by rw [hj]; push_cast; ring
  rw [this, h6, hd']
  have p1 : (10 : Rat) ^ f ≠ 0 := by positivity
  have p2 : (10 : Rat) ^ (6 - f) ≠ 0 := by positivity
  push_cast
  field_simp

theorem fmod_multiple {a b : Rat} (h : fmod a b = 0) : IsMultiple a b := by
  unfold fmod at h
  exact ⟨fTrunc (a / b), by linarith⟩

theorem IsMultiple.trans {a b x : Rat} (h1 : IsMultiple a b) (h2 : IsMultiple b x) : IsMultiple a x := by
  obtain ⟨i, rfl⟩ := h1
  obtain ⟨j, rfl⟩ := h2
  exact ⟨i * j, by push_cast; ring⟩

/-- Two positive numbers with at most six decimals. -/
theorem findHcf_exact {a b : Option Rat} {r : Option Rat} (ha : ∀ x, a = some x → 0 < x ∧ SixDecimals x)
    (hb : ∀ x, b = some x → 0 < x ∧ SixDecimals x) (h : findHcf FP.exact a b = r) :
    (∀ x, r = some x → 0 < x ∧ SixDecimals x) ∧
    ∀ q, (∀ x, r = some x → IsMultiple q x) → (∀ x, a = some x → IsMultiple q x) ∧ (∀ x, b = some x → IsMultiple q x) := by
  unfold findHcf at h
  cases a with
  | none => dsimp only at h; subst h; exact ⟨hb, fun q hq => ⟨by simp, hq⟩⟩
  | some a =>
    obtain ⟨a0, a6⟩ := ha a rfl
    dsimp only at h
    rw [if_neg a0.ne'] at h
    cases b with
    | none => dsimp only at h; subst h; exact ⟨ha, fun q hq => ⟨hq, by simp⟩⟩
    | some b =>
      obtain ⟨b0, b6⟩ := hb b rfl
      dsimp only at h
      rw [if_neg b0.ne'] at h
      by_cases m1 : fmod a b = 0
      · rw [if_pos m1] at h; subst h
        refine ⟨ha, fun q hq => ⟨hq, fun x hx => ?_⟩⟩
        cases hx; exact (hq a rfl).trans (fmod_multiple m1)
      · rw [if_neg m1] at h
        by_cases m2 : fmod b a = 0
        · rw [if_pos m2] at h; subst h
          refine ⟨hb, fun q hq => ⟨fun x hx => ?_, hq⟩⟩
          cases hx; exact (hq b rfl).trans (fmod_multiple m2)
        · rw [if_neg m2] at h
          subst h
          obtain ⟨c1, s1⟩ := scaled_int a6
          obtain ⟨c2, s2⟩ := scaled_int b6
          generalize hd : max (countDecimalPlaces a) (countDecimalPlaces b) = d
          obtain ⟨A, hA⟩ := s1 d (by omega)
          obtain ⟨B, hB⟩ := s2 d (by omega)
          have hs : (0 : Rat) < 10 ^ d := by positivity
          have e : FP.exact.div (FP.exact.mul (FP.exact.mul a (10 ^ d)) (FP.exact.mul b (10 ^ d))) (10 ^ d) =
              a * 10 ^ d * (b * 10 ^ d) / 10 ^ d := rfl
          have ea : a * 10 ^ d * (b * 10 ^ d) / 10 ^ d = B * a := by rw [← hB]; field_simp
          have eb : a * 10 ^ d * (b * 10 ^ d) / 10 ^ d = A * b := by rw [← hA]; field_simp
          refine ⟨fun x hx => ?_, fun q hq => ?_⟩
          · simp only [Option.some.injEq] at hx
            rw [← hx, e]
            refine ⟨by positivity, ?_⟩
            rw [ea]
            obtain ⟨K, hK⟩ := a6
            exact ⟨B * K, by rw [hK]; push_cast; ring⟩
          · have hq := hq _ rfl
            rw [e] at hq
            refine ⟨fun x hx => ?_, fun x hx => ?_⟩
            · cases hx; rw [ea] at hq; exact hq.trans ⟨B, rfl⟩
            · cases hx; rw [eb] at hq; exact hq.trans ⟨A, rfl⟩

/-- **C37.** Every multiple of the merged `multipleOf` is a multiple of every merged `multipleOf`, for positive numbers with
at most six decimals, in exact arithmetic. -/
theorem C37_common_multiple (hc : c.fp = FP.exact)
    (hr : ∀ n ∈ nodes, EveryPart (fun x => x.ref = none ∧ ∀ m, x.multipleOf = some m → 0 < m ∧ SixDecimals m) n)
    (h : mergeNodes c k nodes s = .ok r s') (q : Rat)
    (hq : EveryPart (fun x => ∀ m, x.multipleOf = some m → IsMultiple q m) r) :
    ∀ n ∈ nodes, EveryPart (fun x => ∀ m, x.multipleOf = some m → IsMultiple q m) n := by
  have H : Conj c False False (fun _ => True)
      (fun x => x.ref = none ∧ ∀ m, x.multipleOf = some m → 0 < m ∧ SixDecimals m)
      (fun x => ∀ m, x.multipleOf = some m → IsMultiple q m) :=
    { emptyAcc := trivial
      noRef := fun _ h => h.1
      emptyPre := ⟨rfl, by simp [emptyNode]⟩
      empty := False.elim
      preAllOf := fun _ h => h
      allOf := fun _ => Iff.rfl
      step := by
        intro rec m n r s s' _ hm hn hk h _
        obtain ⟨f, -⟩ := mergeFields_inv (c := c) h
        have e := f.multipleOf
        rw [hc] at e
        obtain ⟨h1, h2⟩ := findHcf_exact hn.2 hm.2 e.symm
        exact ⟨trivial, ⟨(f.ref hn.1).trans hm.1, h1⟩, fun hq => (h2 q hq).symm, False.elim⟩ }
  exact (H.merge k nodes r s s' hr h False.elim).2.2.1 hq

/-- **C37 (floating point, integers).** In any lawful floating point format the result for two positive integers whose
product is at most 2^53 is a multiple of both. -/
theorem C37_integers {F : FP} (hF : F.Lawful) {a b : Int} (ha : 0 < a) (hb : 0 < b) (hab : a * b ≤ 2 ^ 53) :
    ∃ x, findHcf F (some a) (some b) = some x ∧ IsMultiple x a ∧ IsMultiple x b := by
  have a0 : (a : Rat) ≠ 0 := by exact_mod_cast ha.ne'
  have b0 : (b : Rat) ≠ 0 := by exact_mod_cast hb.ne'
  have one : ∀ a : Int, countDecimalPlaces (a : Rat) = 0 := by
    intro a
    unfold countDecimalPlaces
    have : (a : Rat) * 1000000 = ((a * 1000000 : Int) : Rat) := by push_cast; ring
    rw [this, roundHalfEven_int]
    simp only [fracDigits]
    split_ifs <;> omega
  have self : ∀ a : Rat, IsMultiple a a := fun a => ⟨1, by simp⟩
  unfold findHcf
  dsimp only
  rw [if_neg a0, if_neg b0]
  split_ifs with m1 m2
  · exact ⟨_, rfl, self _, fmod_multiple m1⟩
  · exact ⟨_, rfl, fmod_multiple m2, self _⟩
  · refine ⟨_, rfl, ?_⟩
    rw [one a, one b]
    have la : a ≤ a * b := by nlinarith
    have lb : b ≤ a * b := by nlinarith
    have e1 : F.mul (a : Rat) (10 ^ max 0 0) = a := by
      unfold FP.mul; simp only [max_self, pow_zero, mul_one]
      exact hF.int a (by rw [abs_of_pos ha]; omega)
    have e2 : F.mul (b : Rat) (10 ^ max 0 0) = b := by
      unfold FP.mul; simp only [max_self, pow_zero, mul_one]
      exact hF.int b (by rw [abs_of_pos hb]; omega)
    rw [e1, e2]
    have e3 : F.mul (a : Rat) b = ((a * b : Int) : Rat) := by
      unfold FP.mul
      have : (a : Rat) * b = ((a * b : Int) : Rat) := by push_cast; ring
      rw [this]
      exact hF.int _ (by rw [abs_of_pos (by positivity)]; exact hab)
    rw [e3]
    have e4 : F.div ((a * b : Int) : Rat) (10 ^ max 0 0) = ((a * b : Int) : Rat) := by
      unfold FP.div; simp only [max_self, pow_zero, div_one]
      exact hF.int _ (by rw [abs_of_pos (by positivity)]; exact hab)
    rw [e4]
    exact ⟨⟨b, by push_cast; ring⟩, ⟨a, by push_cast; ring⟩⟩

/-- With seven decimals the claim is false even in exact arithmetic: merging 0.0000002 and 0.0000003 gives 6·10⁻¹⁴, which is
a multiple of neither. -/
theorem C37_seven_decimals_violation :
    findHcf FP.exact (some (2 / 10000000)) (some (3 / 10000000)) = some (6 / 100000000000000) ∧
    ¬ IsMultiple (6 / 100000000000000) (2 / 10000000) := by
  constructor
  · decide +kernel
  · rintro ⟨k, hk⟩
    have : (3 : Rat) = k * 10000000 := by linarith
    have : (3 : Int) = k * 10000000 := by exact_mod_cast this
    omega

/-- `[{"multipleOf": 0.4}, {"multipleOf": 1.5}, {"multipleOf": 3}]` gives 6 in exact arithmetic. -/
example : ∃ r s', mergeNodes { demoEnv with fp := FP.exact } 5
      [{ multipleOf := some (4 / 10) }, { multipleOf := some (15 / 10) }, { multipleOf := some 3 }] emptyPSt = .ok r s' ∧
      (decide (s'.errors = []) && decide (r.multipleOf = some 6)) = true :=
  Res.witness (by decide +kernel)

/-! ## C63: negations, conditionals and alternatives -/

/-- The schema forbids what `x` accepts: `x` is its `not`, or one of the `not`s of the schemas merged into it. -/
def Negates (n x : SchemaNode) : Prop := n.not = some x ∨ x ∈ n.mergedNot

theorem negates_mergeNot (m n x : SchemaNode) :
    Negates (mergeNot m n) x ↔ Negates m x ∨ Negates n x := by
  have own : Negates (mergeNotOwn m n) x ↔ Negates m x ∨ n.not = some x := by
    unfold mergeNotOwn
    cases hn : n.not with
    | none => simp
    | some y =>
      cases hm : m.not with
      | some z => simp only [Negates, hm, List.mem_append, List.mem_singleton, Option.some.injEq, reduceCtorEq]; aesop
      | none =>
        dsimp only
        by_cases hl : 0 < m.mergedNot.length
        · rw [if_pos hl]
          simp only [Negates, hm, List.mem_append, List.mem_singleton, Option.some.injEq, reduceCtorEq]; aesop
        · rw [if_neg hl]
          have : m.mergedNot = [] := by cases h : m.mergedNot with
            | nil => rfl
            | cons a t => rw [h] at hl; simp at hl
          simp only [Negates, hm, this, Option.some.injEq, reduceCtorEq]; aesop
  unfold mergeNot mergeNotCollected
  by_cases hl : 0 < n.mergedNot.length
  · rw [if_pos hl]
    have e : Negates n x ↔ n.not = some x ∨ x ∈ n.mergedNot := Iff.rfl
    rw [e, ← or_assoc, ← own]
    cases hm : (mergeNotOwn m n).not with
    | some y =>
      simp only [Negates, hm, List.mem_append, List.mem_singleton, Option.some.injEq, reduceCtorEq, false_or]
      constructor
      · rintro ((h | h) | h)
        · exact .inl (.inr h)
        · exact .inl (.inl h.symm)
        · exact .inr h
      · rintro ((h | h) | h)
        · exact .inl (.inr h.symm)
        · exact .inl (.inl h)
        · exact .inr h
    | none => simp only [Negates, hm, List.mem_append, reduceCtorEq, false_or]
  · rw [if_neg hl]
    have : n.mergedNot = [] := by cases h : n.mergedNot with
      | nil => rfl
      | cons a t => rw [h] at hl; simp at hl
    have e : Negates n x ↔ n.not = some x ∨ x ∈ n.mergedNot := Iff.rfl
    rw [e, this, own]; simp

/-- **C63 (not).** The merged schema forbids exactly what some merged schema forbids by `not`: no negation is lost or
invented, however many are collected. -/
theorem C63_negations_kept (hr : ∀ n ∈ nodes, RefFree n) (h : mergeNodes c k nodes s = .ok r s') (y : SchemaNode) :
    (∃ x, Part r x ∧ Negates x y) ↔ ∃ n ∈ nodes, ∃ x, Part n x ∧ Negates x y :=
  Conj.exists (Conj.simple (by simp [Negates, emptyNode]) (fun _ => Iff.rfl)
    (fun _ m n r f => by
      have : Negates r y ↔ Negates (mergeNot m n) y := by unfold Negates; rw [f.nots.1, f.nots.2]
      rw [this, negates_mergeNot, not_or])) hr h

/-- The schema has the conditional `if i then t else e`, itself or from the schemas merged into it. -/
def HasConditional (n i : SchemaNode) (t e : Option SchemaNode) : Prop :=
  (n.ifN = some i ∧ n.thenN = t ∧ n.elseN = e) ∨ ∃ st ∈ n.mergedIf, st.ifN = some i ∧ st.thenN = t ∧ st.elseN = e

theorem hasConditional_mergeIf {p : String} {m n i : SchemaNode} {t e : Option SchemaNode} (hm : m.ifN = none) :
    (∃ st ∈ (mergeIf p m n).mergedIf, st.ifN = some i ∧ st.thenN = t ∧ st.elseN = e) ↔
      HasConditional m i t e ∨ HasConditional n i t e := by
  have app : (if 0 < n.mergedIf.length then m.mergedIf ++ n.mergedIf else m.mergedIf) = m.mergedIf ++ n.mergedIf := by
    cases n.mergedIf <;> simp
  unfold mergeIf HasConditional
  dsimp only
  rw [app]
  cases hn : n.ifN with
  | none => simp [hm, or_and_right, exists_or]
  | some j =>
    simp only [Option.isSome_some, if_true, newIfStatement, hm, hn]
    simp only [List.mem_append, List.mem_singleton, or_and_right, exists_or, exists_eq_left, reduceCtorEq, false_and,
      false_or]
    exact or_assoc.trans (or_congr_right or_comm)

/-- **C63 (if/then/else).** The merged schema has exactly the conditionals of the merged schemas. -/
theorem C63_conditionals_kept (hr : ∀ n ∈ nodes, RefFree n) (h : mergeNodes c k nodes s = .ok r s') (i : SchemaNode)
    (t e : Option SchemaNode) :
    (∃ x, Part r x ∧ HasConditional x i t e) ↔ ∃ n ∈ nodes, ∃ x, Part n x ∧ HasConditional x i t e := by
  have H : Conj c False True (fun x => x.ifN = none) (fun x => x.ref = none) (fun x => ¬ HasConditional x i t e) :=
    { emptyAcc := rfl
      noRef := fun _ h => h
      emptyPre := rfl
      empty := fun _ => by simp [HasConditional, emptyNode]
      preAllOf := fun _ h => h
      allOf := fun _ => Iff.rfl
      step := by
        intro rec m n r s s' ha hm hn hk h _
        obtain ⟨f, -⟩ := mergeFields_inv (c := c) h
        have hi : r.ifN = none := f.ifN.trans ha
        have : HasConditional r i t e ↔ HasConditional m i t e ∨ HasConditional n i t e := by
          obtain ⟨p, hp⟩ := f.mergedIf
          rw [← hasConditional_mergeIf (p := p) ha, ← hp]
          unfold HasConditional
          simp [hi]
        rw [this, not_or]
        exact ⟨hi, (f.ref hn).trans hm, id, fun _ a b => ⟨a, b⟩⟩ }
  rw [← not_everyPart]
  have x := H.merge k nodes r s s' hr h False.elim
  have : EveryPart (fun x => ¬ HasConditional x i t e) r ↔ ∀ n ∈ nodes, EveryPart (fun x => ¬ HasConditional x i t e) n :=
    ⟨x.2.2.1, x.2.2.2 trivial⟩
  rw [this]
  push Not
  exact exists_congr fun n => and_congr_right fun _ => by rw [← not_everyPart]

/-- **C63 (anyOf).** The branches of the merged `anyOf` are those of the merged schemas. -/
theorem C63_anyOf_branches_kept (hr : ∀ n ∈ nodes, RefFree n) (h : mergeNodes c k nodes s = .ok r s') (y : SchemaNode) :
    (∃ x, Part r x ∧ ∃ l, x.anyOf = some l ∧ y ∈ l) ↔ ∃ n ∈ nodes, ∃ x, Part n x ∧ ∃ l, x.anyOf = some l ∧ y ∈ l :=
  Conj.exists (A := fun x => ∃ l, x.anyOf = some l ∧ y ∈ l) (Conj.simple (by simp [emptyNode]) (fun _ => Iff.rfl)
    (fun _ m n r f => by
      rw [f.anyOf, ← not_or, not_iff_not]
      cases h : mergeSlicePtrs [m.anyOf, n.anyOf] with
      | none => simpa using mergeSlicePtrs_none h y
      | some l => simpa using mem_mergeSlicePtrs h y)) hr h

/-- **C63 (oneOf).** The branches of the merged `oneOf` are those of the merged schemas. -/
theorem C63_oneOf_branches_kept (hr : ∀ n ∈ nodes, RefFree n) (h : mergeNodes c k nodes s = .ok r s') (y : SchemaNode) :
    (∃ x, Part r x ∧ ∃ l, x.oneOf = some l ∧ y ∈ l) ↔ ∃ n ∈ nodes, ∃ x, Part n x ∧ ∃ l, x.oneOf = some l ∧ y ∈ l :=
  Conj.exists (A := fun x => ∃ l, x.oneOf = some l ∧ y ∈ l) (Conj.simple (by simp [emptyNode]) (fun _ => Iff.rfl)
    (fun _ m n r f => by
      rw [f.oneOf, ← not_or, not_iff_not]
      cases h : mergeSlicePtrs [m.oneOf, n.oneOf] with
      | none => simpa using mergeSlicePtrs_none h y
      | some l => simpa using mem_mergeSlicePtrs h y)) hr h

/-- The `anyOf`s of different schemas are put into one list: of `[{"anyOf": [A]}, {"anyOf": [B]}]` the merge keeps
`{"anyOf": [A, B]}`, which is satisfied by values that satisfy only one of the two schemas; no error is recorded. -/
theorem C63_anyOf_concatenated_violation : ∃ r s', mergeNodes demoEnv 5
      [{ anyOf := some [{ minimum := some 5 }] }, { anyOf := some [{ maximum := some 3 }] }] emptyPSt = .ok r s' ∧
      (decide (s'.errors = []) && r.allOf.isNone && decide ((getZeroIfNil r.anyOf []).map (fun x => x.minimum) = [some 5, none]) &&
        decide ((getZeroIfNil r.anyOf []).map (fun x => x.maximum) = [none, some 3])) = true :=
  Res.witness (by decide +kernel)

/-- Three `not`s are collected. -/
example : ∃ r s', mergeNodes demoEnv 5
      [{ not := some { minimum := some 5 } }, { allOf := some [{ not := some { maximum := some 3 } }] },
       { not := some { minLength := some 3 }, ifN := some {}, thenN := some { maxLength := some 1 } }]
      emptyPSt = .ok r s' ∧ (decide (s'.errors = []) && r.allOf.isNone && decide (r.mergedNot.length = 3) && r.not.isNone &&
        decide (r.mergedIf.length = 1)) = true :=
  Res.witness (by decide +kernel)

/-! ## C64: what a merge loses -/

/-- **C64 (violation).** Every merge loses `dependentRequired` and `dependentSchemas`: the result has neither, whatever the
merged schemas demand. -/
theorem C64_dependent_keywords_dropped_violation (hr : ∀ n ∈ nodes, RefFree n) (h : mergeNodes c k nodes s = .ok r s') :
    r.dependentRequired = [] ∧ r.dependentSchemas = [] := by
  have H : Conj c False True (fun x => x.dependentRequired = [] ∧ x.dependentSchemas = []) (fun x => x.ref = none)
      (fun _ => True) :=
    { emptyAcc := ⟨rfl, rfl⟩
      noRef := fun _ h => h
      emptyPre := rfl
      empty := fun _ => trivial
      preAllOf := fun _ h => h
      allOf := fun _ => Iff.rfl
      step := by
        intro rec m n r s s' ha hm hn hk h _
        obtain ⟨f, -⟩ := mergeFields_inv (c := c) h
        exact ⟨⟨f.dependentRequired.trans ha.1, f.dependentSchemas.trans ha.2⟩, (f.ref hn).trans hm,
          fun _ => ⟨trivial, trivial⟩, fun _ _ _ => trivial⟩ }
  exact (H.merge k nodes r s s' hr h False.elim).1

/-- `[{"dependentRequired": {"a": ["b"]}}]` merges into the empty schema without an error. -/
example : ∃ r s', mergeNodes demoEnv 5 [{ dependentRequired := [("a", ["b"])] }] emptyPSt = .ok r s' ∧
    (decide (s'.errors = []) && r.dependentRequired.isEmpty) = true :=
  Res.witness (by decide +kernel)

/-! ## C65: types -/

/-- **C65 (partial).** If every merged schema that has a `type` has the same one, so has the merge, or none has.  Missing:
schemas with different types, for which the claim is false (`C65_type_violation`). -/
theorem C65_same_type_kept_partial {t : MultipleType} (ht : t.single ≠ "" ∧ t.multiple = none)
    (hr : ∀ n ∈ nodes, EveryPart (fun x => x.ref = none ∧ (x.type = none ∨ x.type = some t)) n)
    (h : mergeNodes c k nodes s = .ok r s') :
    (∃ x, Part r x ∧ x.type = some t) ↔ ∃ n ∈ nodes, ∃ x, Part n x ∧ x.type = some t := by
  have H : Conj c False True (fun _ => True) (fun x => x.ref = none ∧ (x.type = none ∨ x.type = some t))
      (fun x => ¬ x.type = some t) :=
    { emptyAcc := trivial
      noRef := fun _ h => h.1
      emptyPre := ⟨rfl, .inl rfl⟩
      empty := fun _ => by simp [emptyNode]
      preAllOf := fun _ h => h
      allOf := fun _ => Iff.rfl
      step := by
        intro rec m n r s s' ha hm hn hk h _
        obtain ⟨f, -⟩ := mergeFields_inv (c := c) h
        have e := f.type
        have : (r.type = none ∨ r.type = some t) ∧ (r.type = some t ↔ m.type = some t ∨ n.type = some t) := by
          rw [e]
          rcases hn.2 with h | h
          · rw [h]; exact ⟨hm.2, by simp [mergeTypes]⟩
          · rw [h]
            have : mergeTypes m.type (some t) = some t := by
              unfold mergeTypes
              dsimp only
              rw [if_pos ht.1]
              cases t; simp_all
            rw [this]; exact ⟨.inr rfl, by simp⟩
        refine ⟨trivial, ⟨(f.ref hn.1).trans hm.1, this.1⟩, ?_⟩
        rw [this.2, not_or]
        exact ⟨id, fun _ a b => ⟨a, b⟩⟩ }
  rw [← not_everyPart]
  have x := H.merge k nodes r s s' hr h False.elim
  have : EveryPart (fun x => ¬ x.type = some t) r ↔ ∀ n ∈ nodes, EveryPart (fun x => ¬ x.type = some t) n :=
    ⟨x.2.2.1, x.2.2.2 trivial⟩
  rw [this]
  push Not
  exact exists_congr fun n => and_congr_right fun _ => by rw [← not_everyPart]

/-- The last type wins: `[{"type": ["string", "null"]}, {"type": ["integer", "string"]}]` gives `["integer", "string"]`, so
integers are allowed although the first schema rejects them, and no error is recorded. -/
theorem C65_type_violation : ∃ r s', mergeNodes demoEnv 5
      [{ type := some { multiple := some ["string", "null"] } }, { type := some { multiple := some ["integer", "string"] } }]
      emptyPSt = .ok r s' ∧
      (decide (s'.errors = []) && decide (declaredTypes r = some ["integer", "string"])) = true :=
  Res.witness (by decide +kernel)

end Chaff
