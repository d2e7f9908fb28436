import Verif.Lemmas.NotInv
import Verif.Lemmas.DemoEnv
import Verif.Lemmas.Binary64
import Verif.Spec.Not
import Verif.Lemmas.Json
import Verif.Spec.Rounding
import Verif.Model.Binary64
import Mathlib.Tactic.Linarith
import Mathlib.Tactic.SplitIfs
/-!
# C38 - C42: negated bounds, types, multiples and values
-/

set_option linter.unusedVariables false

namespace Chaff
open Comp

/-! ## C38: negated integer ranges -/

theorem bound_within {x : Int} (h : |x| < 2 ^ 31 - 20) : -2147483628 < x ∧ x < 2147483628 := by
  have := abs_lt.1 h
  constructor <;> linarith [this.1, this.2]

theorem minToNil_spec {e v : Int} (h : ∀ x, minToNil e = some x → x ≤ v) : e ≤ -2147483637 ∨ e ≤ v := by
  unfold minToNil notMinInt at h
  by_cases hc : e ≤ -2 ^ 31 + 1 + 10
  · left; omega
  · right; rw [if_neg hc] at h; exact h _ rfl

theorem maxToNil_spec {e v : Int} (h : ∀ x, maxToNil e = some x → v ≤ x) : 2147483636 ≤ e ∨ v ≤ e := by
  unfold maxToNil notMaxInt at h
  by_cases hc : e ≥ 2 ^ 31 - 1 - 1 - 10
  · left; omega
  · right; rw [if_neg hc] at h; exact h _ rfl

theorem resolveBoundsInt_core (x1 x2 y1 y2 : Int) (m : Option Int × Option Int) (a b : Option Int)
    (h : (if y2 < x1 ∨ y1 > x2 then ((minToNil x1, maxToNil x2), false)
      else if y1 ≤ x1 ∧ y2 ≥ x2 then (m, true)
      else if y1 ≤ x1 ∧ y2 < x2 then ((minToNil (y2 + 1), maxToNil x2), false)
      else if y1 > x1 ∧ y2 ≥ x2 then ((minToNil x1, maxToNil (y1 - 1)), false)
      else ((minToNil x1, maxToNil (y1 - 1)), false)) = ((a, b), false)) :
    ∃ p q, a = minToNil p ∧ b = maxToNil q ∧
      (((y2 < x1 ∨ y1 > x2) ∧ p = x1 ∧ q = x2) ∨ (y1 ≤ x1 ∧ x1 ≤ y2 ∧ y2 < x2 ∧ p = y2 + 1 ∧ q = x2) ∨
        (x1 < y1 ∧ y1 ≤ x2 ∧ p = x1 ∧ q = y1 - 1)) := by
  split at h
  · simp only [Prod.mk.injEq, and_true] at h
    exact ⟨x1, x2, h.1.symm, h.2.symm, by omega⟩
  · split at h
    · simp at h
    · split at h
      · simp only [Prod.mk.injEq, and_true] at h
        exact ⟨y2 + 1, x2, h.1.symm, h.2.symm, by omega⟩
      · split at h <;>
        · simp only [Prod.mk.injEq, and_true] at h
          exact ⟨x1, y1 - 1, h.1.symm, h.2.symm, by omega⟩

/-- **C38.** When no conflict is reported, every value in the resulting range is in the base range and outside
the negated range. -/
theorem C38_range_excluded (min max notMin notMax : Option Int) (a b : Option Int)
    (h1 : Ordinary min) (h2 : Ordinary max) (h3 : Ordinary notMin) (h4 : Ordinary notMax)
    (hset : notMin.isSome ∨ notMax.isSome)
    (h : resolveBoundsInt min max notMin notMax = ((a, b), false)) (v : Int) (hv : InRange a b v) :
    InRange min max v ∧ ¬ InRange notMin notMax v := by
  obtain ⟨ha, hb⟩ := hv
  rcases min with _ | x1 <;> rcases max with _ | x2 <;> rcases notMin with _ | y1 <;> rcases notMax with _ | y2 <;>
    simp only [Ordinary, Option.some.injEq, forall_eq', reduceCtorEq, false_implies, implies_true] at h1 h2 h3 h4 <;>
    try replace h1 := bound_within h1
  all_goals try replace h2 := bound_within h2
  all_goals try replace h3 := bound_within h3
  all_goals try replace h4 := bound_within h4
  all_goals simp only [resolveBoundsInt, getZeroIfNil, addIfNotNilInt, notMinInt, notMaxInt, Option.map,
    InRange, Option.some.injEq, forall_eq', reduceCtorEq, false_implies, implies_true, Option.isSome, Bool.false_eq_true, or_self, false_or, or_false, true_and, and_true] at h hset ⊢
  all_goals first
    | exact hset.elim
    | skip
  all_goals first
    | obtain ⟨p, q, rfl, rfl, h⟩ := resolveBoundsInt_core _ _ _ _ _ _ _ h
    | obtain ⟨⟨rfl, rfl⟩, -⟩ : (_ ∧ _) ∧ _ := by simpa only [Prod.mk.injEq] using h
  all_goals first
    | replace ha := minToNil_spec ha
    | clear ha
  all_goals first
    | replace hb := maxToNil_spec hb
    | clear hb
  all_goals omega

/-- Without a negated bound the range is left as it is. -/
theorem C38_range_unchanged (min max : Option Int) : resolveBoundsInt min max none none = ((min, max), false) := by
  cases min <;> cases max <;> rfl

/-- **C38** for the whole negation: when applying `not` records no error, the string lengths, array lengths,
numbers of contained items and numbers of properties allowed by the result are allowed by the schema and not by
the negated schema. -/
theorem C38_not_applied {c : PEnv} {k : Nat} {node notNode n : SchemaNode} {cc : ConstraintColl} {s s' : PSt}
    (h : notMerge c k node notNode s = .ok (n, cc) s') (hq : s'.errors = s.errors) (v : Int) :
    (Ordinary node.minLength → Ordinary node.maxLength → Ordinary notNode.minLength → Ordinary notNode.maxLength →
      (notNode.minLength.isSome ∨ notNode.maxLength.isSome) → InRange n.minLength n.maxLength v →
      InRange node.minLength node.maxLength v ∧ ¬ InRange notNode.minLength notNode.maxLength v) ∧
    (Ordinary node.minItems → Ordinary node.maxItems → Ordinary notNode.minItems → Ordinary notNode.maxItems →
      (notNode.minItems.isSome ∨ notNode.maxItems.isSome) → InRange n.minItems n.maxItems v →
      InRange node.minItems node.maxItems v ∧ ¬ InRange notNode.minItems notNode.maxItems v) ∧
    (Ordinary node.minContains → Ordinary node.maxContains → Ordinary notNode.minContains →
      Ordinary notNode.maxContains → (notNode.minContains.isSome ∨ notNode.maxContains.isSome) →
      InRange n.minContains n.maxContains v →
      InRange node.minContains node.maxContains v ∧ ¬ InRange notNode.minContains notNode.maxContains v) ∧
    (Ordinary node.minProperties → Ordinary node.maxProperties → Ordinary notNode.minProperties →
      Ordinary notNode.maxProperties → (notNode.minProperties.isSome ∨ notNode.maxProperties.isSome) →
      InRange n.minProperties n.maxProperties v →
      InRange node.minProperties node.maxProperties v ∧ ¬ InRange notNode.minProperties notNode.maxProperties v) := by
  have R := notMerge_inv h (by rw [hq])
  exact ⟨fun a b d e f g => C38_range_excluded _ _ _ _ _ _ a b d e f R.lengths v g,
    fun a b d e f g => C38_range_excluded _ _ _ _ _ _ a b d e f R.items v g,
    fun a b d e f g => C38_range_excluded _ _ _ _ _ _ a b d e f R.contains v g,
    fun a b d e f g => C38_range_excluded _ _ _ _ _ _ a b d e f R.properties v g⟩

/-- The hypothesis on sizes is needed: a `maxLength` near 2^31 is dropped, so that a longer string is allowed. -/
theorem C38_large_bound_violation :
    resolveBoundsInt (some 0) (some 2147483640) none (some 3) = ((some 5, none), false) ∧
    InRange (some 5) none 2147483650 ∧ ¬ InRange (some 0) (some 2147483640) 2147483650 := by
  refine ⟨by decide, ⟨by simp, by simp⟩, fun h => ?_⟩
  have := h.2 _ rfl
  omega

/-- A conflict is also reported when a valid value exists: between 0 and 5 but not at most 4, the value 5 remains. -/
theorem C38_spurious_conflict : (resolveBoundsInt (some 0) (some 5) none (some 4)).2 = true ∧
    InRange (some 0) (some 5) 5 ∧ ¬ InRange none (some 4) 5 := by
  refine ⟨by decide, ⟨by simp, by simp⟩, fun h => ?_⟩
  have := h.2 _ rfl
  omega

/-- `{"minLength": 2, "maxLength": 10}` without lengths 4 to 6 gives lengths 2 and 3. -/
example : resolveBoundsInt (some 2) (some 10) (some 4) (some 6) = ((some 2, some 3), false) := by decide
example : Ordinary (some 2) ∧ Ordinary none := ⟨by intro x h; cases h; norm_num, by intro x h; cases h⟩

/-! ## C39: negated numeric ranges -/

theorem lowerOf_cases {F : FP} {off : Rat} {a b : Option Rat}
    (hb : ∀ e, b = some e → F.rnd (e + off) = e + off) :
    (lowerOf F off a b = none ∧ a = none ∧ b = none) ∨ ∃ x, lowerOf F off a b = some x ∧
      (∀ m, a = some m → m ≤ x) ∧ (∀ e, b = some e → e + off ≤ x) ∧ (a = some x ∨ ∃ e, b = some e ∧ x = e + off) := by
  unfold lowerOf
  rcases a with _ | a <;> rcases b with _ | b
  · left; simp [maxPtr, maxPtrStep, addIfNotNil]
  · right
    refine ⟨b + off, ?_, by simp, by simp, Or.inr ⟨b, rfl, rfl⟩⟩
    simp [maxPtr, maxPtrStep, addIfNotNil, FP.add, hb b rfl]
  · right
    exact ⟨a, by simp [maxPtr, maxPtrStep, addIfNotNil], by simp, by simp, Or.inl rfl⟩
  · right
    have e := hb b rfl
    by_cases h : a < b + off
    · refine ⟨b + off, ?_, ?_, by simp, Or.inr ⟨b, rfl, rfl⟩⟩
      · simp [maxPtr, maxPtrStep, addIfNotNil, FP.add, e, h]
      · simp; exact le_of_lt h
    · refine ⟨a, ?_, by simp, ?_, Or.inl rfl⟩
      · simp [maxPtr, maxPtrStep, addIfNotNil, FP.add, e, h]
      · simp; exact not_lt.1 h

theorem upperOf_cases {F : FP} {off : Rat} {a b : Option Rat}
    (hb : ∀ e, b = some e → F.rnd (e - off) = e - off) :
    (upperOf F off a b = none ∧ a = none ∧ b = none) ∨ ∃ x, upperOf F off a b = some x ∧
      (∀ m, a = some m → x ≤ m) ∧ (∀ e, b = some e → x ≤ e - off) ∧ (a = some x ∨ ∃ e, b = some e ∧ x = e - off) := by
  unfold upperOf
  rcases a with _ | a <;> rcases b with _ | b
  · left; simp [minPtr, minPtrStep, addIfNotNil]
  · right
    refine ⟨b - off, ?_, by simp, by simp, Or.inr ⟨b, rfl, rfl⟩⟩
    have e := hb b rfl
    rw [sub_eq_add_neg] at e
    simp [minPtr, minPtrStep, addIfNotNil, FP.add, e, sub_eq_add_neg]
  · right
    exact ⟨a, by simp [minPtr, minPtrStep, addIfNotNil], by simp, by simp, Or.inl rfl⟩
  · right
    have e := hb b rfl
    rw [sub_eq_add_neg] at e
    by_cases h : b - off < a
    · refine ⟨b - off, ?_, ?_, by simp, Or.inr ⟨b, rfl, rfl⟩⟩
      · rw [sub_eq_add_neg] at h
        simp [minPtr, minPtrStep, addIfNotNil, FP.add, e, h, sub_eq_add_neg]
      · simp; linarith
    · refine ⟨a, ?_, by simp, ?_, Or.inl rfl⟩
      · rw [sub_eq_add_neg] at h
        simp [minPtr, minPtrStep, addIfNotNil, FP.add, e, h]
      · simp; linarith

theorem upperBound_ge {F : FP} (hF : F.Lawful) : 2 ^ 53 ≤ upperBound F := by
  have h1 : F.rnd ((2 ^ 53 : Int) : Rat) = ((2 ^ 53 : Int) : Rat) := hF.int _ (by norm_num)
  have h2 : F.rnd ((2 ^ 53 : Int) : Rat) ≤ F.rnd (maxFloat64 / 1000) := hF.mono _ _ (by
    unfold maxFloat64
    have e : (2 : Rat) ^ 971 = 2 ^ 11 * 2 ^ 960 := by rw [← pow_add]
    have o : (1 : Rat) ≤ 2 ^ 960 := one_le_pow₀ (by norm_num)
    rw [e]
    generalize (2 : Rat) ^ 960 = z at o ⊢
    push_cast
    linarith)
  unfold upperBound
  rw [h1] at h2
  push_cast at h2
  linarith

theorem thresholds {F : FP} (hF : F.Lawful) {off : Rat} (h0 : 0 ≤ off) (h1 : off ≤ 1) :
    F.add (lowerBound F) (F.mul off 10) ≤ -2 ^ 53 + 10 ∧ 2 ^ 53 - 10 ≤ F.sub (upperBound F) (F.mul off 10) := by
  have hm : F.mul off 10 ≤ 10 := by
    have := hF.mono (off * 10) ((10 : Int) : Rat) (by push_cast; linarith)
    rw [hF.int 10 (by norm_num)] at this
    unfold FP.mul; push_cast at this; exact this
  have hu := upperBound_ge hF
  have e1 : F.rnd (((-2 ^ 53 + 10 : Int)) : Rat) = ((-2 ^ 53 + 10 : Int) : Rat) := hF.int _ (by norm_num)
  have e2 : F.rnd (((2 ^ 53 - 10 : Int)) : Rat) = ((2 ^ 53 - 10 : Int) : Rat) := hF.int _ (by norm_num)
  constructor
  · have := hF.mono (lowerBound F + F.mul off 10) ((-2 ^ 53 + 10 : Int) : Rat) (by
      unfold lowerBound; push_cast; linarith)
    rw [e1] at this; unfold FP.add; push_cast at this; linarith
  · have := hF.mono ((2 ^ 53 - 10 : Int) : Rat) (upperBound F - F.mul off 10) (by push_cast; linarith)
    rw [e2] at this; unfold FP.sub; push_cast at this; linarith

theorem minToNilF_spec {F : FP} (hF : F.Lawful) {off : Rat} (h0 : 0 ≤ off) (h1 : off ≤ 1) {e q : Rat}
    (h : ∀ x, minToNilF F e off = some x → x ≤ q) : e ≤ -2 ^ 53 + 10 ∨ e ≤ q := by
  unfold minToNilF at h
  by_cases hc : e ≤ F.add (lowerBound F) (F.mul off 10)
  · left; exact le_trans hc (thresholds hF h0 h1).1
  · right; rw [if_neg hc] at h; exact h _ rfl

theorem maxToNilF_spec {F : FP} (hF : F.Lawful) {off : Rat} (h0 : 0 ≤ off) (h1 : off ≤ 1) {e q : Rat}
    (h : ∀ x, maxToNilF F e off = some x → q ≤ x) : 2 ^ 53 - 10 ≤ e ∨ q ≤ e := by
  unfold maxToNilF at h
  by_cases hc : e ≥ F.sub (upperBound F) (F.mul off 10)
  · left; exact le_trans (thresholds hF h0 h1).2 hc
  · right; rw [if_neg hc] at h; exact h _ rfl

/-- A bound that is present is between -2^52 and 2^52. -/
def Small (b : Option Rat) : Prop := ∀ x, b = some x → |x| ≤ 2 ^ 52

theorem Small.le {b : Option Rat} (h : Small b) {x : Rat} (e : b = some x) : -2 ^ 52 ≤ x ∧ x ≤ 2 ^ 52 :=
  abs_le.1 (h x e)

/-- Values of the resulting range, or of the alternative range, for combined bounds. -/
theorem resolveBoundsF_sound {F : FP} (hF : F.Lawful) {off : Rat} (h0 : 0 < off) (h1 : off ≤ 1)
    {x1 x2 y1 y2 : Option Rat} (s1 : Small x1) (s2 : Small x2) (s3 : Small y1) (s4 : Small y2)
    (hs : ∀ y, y1 = some y → F.rnd (y - off) = y - off) (ha : ∀ y, y2 = some y → F.rnd (y + off) = y + off)
    (hset : y1.isSome ∨ y2.isSome)
    (hn : (resolveBoundsF F off x1 x2 y1 y2).noRange = false) (q : Rat)
    (hq : InBounds (resolveBoundsF F off x1 x2 y1 y2).min (resolveBoundsF F off x1 x2 y1 y2).max none none q ∨
      (((resolveBoundsF F off x1 x2 y1 y2).altMin.isSome ∨ (resolveBoundsF F off x1 x2 y1 y2).altMax.isSome) ∧
        InBounds (resolveBoundsF F off x1 x2 y1 y2).altMin (resolveBoundsF F off x1 x2 y1 y2).altMax none none q)) :
    InBounds x1 x2 none none q ∧ ((∃ y, y1 = some y ∧ q < y) ∨ (∃ y, y2 = some y ∧ y < q)) := by
  have core : ∀ (X1 X2 Y1 Y2 : Rat) (R : FloatBounds),
      (x1 = some X1 ∨ (x1 = none ∧ X1 = lowerBound F)) → (x2 = some X2 ∨ (x2 = none ∧ X2 = upperBound F)) →
      (y1 = some Y1 ∨ (y1 = none ∧ Y1 = lowerBound F)) → (y2 = some Y2 ∨ (y2 = none ∧ Y2 = upperBound F)) →
      R = (if Y2 < X1 ∨ Y1 > X2 then { min := minToNilF F X1 off, max := maxToNilF F X2 off }
      else if Y1 ≤ X1 ∧ Y2 ≥ X2 then { min := minToNilF F X1 off, max := maxToNilF F X2 off, noRange := true }
      else if Y1 ≤ X1 ∧ Y2 < X2 then { min := minToNilF F (F.add Y2 off) off, max := maxToNilF F X2 off }
      else if Y1 > X1 ∧ Y2 ≥ X2 then { min := minToNilF F X1 off, max := maxToNilF F (F.sub Y1 off) off }
      else
        { min := minToNilF F X1 off, max := maxToNilF F (F.sub Y1 off) off
          altMin := minToNilF F (F.add Y2 off) off, altMax := maxToNilF F X2 off } : FloatBounds) →
      R.noRange = false →
      (InBounds R.min R.max none none q ∨
        ((R.altMin.isSome ∨ R.altMax.isSome) ∧ InBounds R.altMin R.altMax none none q)) →
      InBounds x1 x2 none none q ∧ ((∃ y, y1 = some y ∧ q < y) ∨ (∃ y, y2 = some y ∧ y < q)) := by
    intro X1 X2 Y1 Y2 R e1 e2 e3 e4 hR hn hq
    have hu := upperBound_ge hF
    have hl : lowerBound F ≤ -2 ^ 53 := by unfold lowerBound; linarith
    -- what is known of the four numbers
    have b1 : (x1 = some X1 ∧ -2 ^ 52 ≤ X1 ∧ X1 ≤ 2 ^ 52) ∨ (x1 = none ∧ X1 ≤ -2 ^ 53) := by
      rcases e1 with e | ⟨e, rfl⟩
      · exact Or.inl ⟨e, s1.le e⟩
      · exact Or.inr ⟨e, hl⟩
    have b2 : (x2 = some X2 ∧ -2 ^ 52 ≤ X2 ∧ X2 ≤ 2 ^ 52) ∨ (x2 = none ∧ 2 ^ 53 ≤ X2) := by
      rcases e2 with e | ⟨e, rfl⟩
      · exact Or.inl ⟨e, s2.le e⟩
      · exact Or.inr ⟨e, hu⟩
    have b3 : (y1 = some Y1 ∧ -2 ^ 52 ≤ Y1 ∧ Y1 ≤ 2 ^ 52 ∧ F.sub Y1 off = Y1 - off) ∨
        (y1 = none ∧ Y1 = lowerBound F ∧ Y1 ≤ -2 ^ 53) := by
      rcases e3 with e | ⟨e, rfl⟩
      · exact Or.inl ⟨e, (s3.le e).1, (s3.le e).2, hs _ e⟩
      · exact Or.inr ⟨e, rfl, hl⟩
    have b4 : (y2 = some Y2 ∧ -2 ^ 52 ≤ Y2 ∧ Y2 ≤ 2 ^ 52 ∧ F.add Y2 off = Y2 + off) ∨
        (y2 = none ∧ Y2 = upperBound F ∧ 2 ^ 53 ≤ Y2) := by
      rcases e4 with e | ⟨e, rfl⟩
      · exact Or.inl ⟨e, (s4.le e).1, (s4.le e).2, ha _ e⟩
      · exact Or.inr ⟨e, rfl, hu⟩
    -- base bounds
    have inB : (X1 ≤ q ∨ X1 ≤ -2 ^ 53 + 10) → (q ≤ X2 ∨ 2 ^ 53 - 10 ≤ X2) → InBounds x1 x2 none none q := by
      intro h h'
      refine ⟨fun x hx => ?_, fun x hx => ?_, by simp, by simp⟩
      · rcases b1 with ⟨e, b, -⟩ | ⟨e, -⟩
        · rw [hx] at e; cases e
          rcases h with h | h <;> linarith
        · rw [hx] at e; cases e
      · rcases b2 with ⟨e, -, b⟩ | ⟨e, -⟩
        · rw [hx] at e; cases e
          rcases h' with h | h <;> linarith
        · rw [hx] at e; cases e
    have mn := fun {e : Rat} => minToNilF_spec hF (le_of_lt h0) h1 (e := e) (q := q)
    have mx := fun {e : Rat} => maxToNilF_spec hF (le_of_lt h0) h1 (e := e) (q := q)
    by_cases c1 : Y2 < X1 ∨ Y1 > X2
    · rw [if_pos c1] at hR
      subst hR
      rcases hq with hq | ⟨hq, -⟩
      · have g1 := mn hq.minimum
        have g2 := mx hq.maximum
        refine ⟨inB g1.symm g2.symm, ?_⟩
        rcases c1 with c1 | c1
        · right
          rcases b4 with ⟨e, _, _, _⟩ | ⟨e, _, _⟩
          · refine ⟨Y2, e, ?_⟩
            rcases b1 with ⟨_, _, _⟩ | ⟨_, _⟩
            · rcases g1 with g | g <;> linarith
            · linarith
          · rcases b1 with ⟨_, _, _⟩ | ⟨_, _⟩ <;> linarith
        · left
          rcases b3 with ⟨e, _, _, _⟩ | ⟨e, _, _⟩
          · refine ⟨Y1, e, ?_⟩
            rcases b2 with ⟨_, _, _⟩ | ⟨_, _⟩
            · rcases g2 with g | g <;> linarith
            · linarith
          · rcases b2 with ⟨_, _, _⟩ | ⟨_, _⟩ <;> linarith
      · simp at hq
    · rw [if_neg c1] at hR
      push Not at c1
      by_cases c2 : Y1 ≤ X1 ∧ Y2 ≥ X2
      · rw [if_pos c2] at hR; subst hR; simp at hn
      · rw [if_neg c2] at hR
        by_cases c3 : Y1 ≤ X1 ∧ Y2 < X2
        · rw [if_pos c3] at hR
          subst hR
          rcases hq with hq | ⟨hq, -⟩
          · have g1 := mn hq.minimum
            have g2 := mx hq.maximum
            rcases b4 with ⟨e, _, _, e'⟩ | ⟨e, e', _⟩
            · rw [e'] at g1
              have : Y2 + off ≤ q := by rcases g1 with g | g <;> linarith
              exact ⟨inB (Or.inl (by linarith [c1.1])) g2.symm, Or.inr ⟨Y2, e, by linarith⟩⟩
            · rcases b2 with ⟨_, _, _⟩ | ⟨e2', h2'⟩
              · linarith [c3.2]
              · rcases e2 with e2 | ⟨_, rfl⟩
                · rw [e2] at e2'; cases e2'
                · subst e'; linarith [c3.2]
          · simp at hq
        · rw [if_neg c3] at hR
          have c5 : X1 < Y1 := by
            by_contra hh
            rcases lt_or_ge Y2 X2 with h | h
            · exact c3 ⟨not_lt.1 hh, h⟩
            · exact c2 ⟨not_lt.1 hh, h⟩
          have lower : ∀ (lo hi : Option Rat), lo = minToNilF F X1 off → hi = maxToNilF F (F.sub Y1 off) off →
              InBounds lo hi none none q →
              InBounds x1 x2 none none q ∧ ((∃ y, y1 = some y ∧ q < y) ∨ (∃ y, y2 = some y ∧ y < q)) := by
            intro lo hi elo ehi hq
            subst elo ehi
            have g1 := mn hq.minimum
            have g2 := mx hq.maximum
            rcases b3 with ⟨e, _, _, e'⟩ | ⟨e, e', _⟩
            · rw [e'] at g2
              have : q ≤ Y1 - off := by rcases g2 with g | g <;> linarith
              exact ⟨inB g1.symm (Or.inl (by linarith [c1.2])), Or.inl ⟨Y1, e, by linarith⟩⟩
            · rcases b1 with ⟨_, _, _⟩ | ⟨e2', h2'⟩
              · linarith
              · rcases e1 with e1 | ⟨_, rfl⟩
                · rw [e1] at e2'; cases e2'
                · subst e'; linarith
          by_cases c4 : Y1 > X1 ∧ Y2 ≥ X2
          · rw [if_pos c4] at hR
            subst hR
            rcases hq with hq | ⟨hq, -⟩
            · exact lower _ _ rfl rfl hq
            · simp at hq
          · rw [if_neg c4] at hR
            have c6 : Y2 < X2 := by
              by_contra hh; exact c4 ⟨c5, not_lt.1 hh⟩
            subst hR
            rcases hq with hq | ⟨-, hq⟩
            · exact lower _ _ rfl rfl hq
            · have g1 := mn hq.minimum
              have g2 := mx hq.maximum
              rcases b4 with ⟨e, _, _, e'⟩ | ⟨e, e', _⟩
              · rw [e'] at g1
                have : Y2 + off ≤ q := by rcases g1 with g | g <;> linarith
                exact ⟨inB (Or.inl (by linarith [c1.1])) g2.symm, Or.inr ⟨Y2, e, by linarith⟩⟩
              · rcases b2 with ⟨_, _, _⟩ | ⟨e2', h2'⟩
                · linarith
                · rcases e2 with e2 | ⟨_, rfl⟩
                  · rw [e2] at e2'; cases e2'
                  · subst e'; linarith
  have noBase : x1 = none → x2 = none →
      InBounds x1 x2 none none q ∧ ((∃ y, y1 = some y ∧ q < y) ∨ (∃ y, y2 = some y ∧ y < q)) := by
    rintro rfl rfl
    refine ⟨⟨by simp, by simp, by simp, by simp⟩, ?_⟩
    rcases y1 with _ | y1
    · rcases y2 with _ | y2
      · simp at hset
      · right
        rcases hq with hq | ⟨hq, -⟩
        · have := hq.minimum (F.add y2 off) rfl
          unfold FP.add at this
          rw [ha y2 rfl] at this
          exact ⟨y2, rfl, by linarith⟩
        · simp [resolveBoundsF] at hq
    · left
      rcases hq with hq | ⟨hq, -⟩
      · have := hq.maximum (F.sub y1 off) rfl
        unfold FP.sub at this
        rw [hs y1 rfl] at this
        exact ⟨y1, rfl, by linarith⟩
      · simp [resolveBoundsF] at hq
  rcases x1 with _ | X1 <;> rcases x2 with _ | X2
  · exact noBase rfl rfl
  all_goals
    rcases y1 with _ | Y1 <;> rcases y2 with _ | Y2 <;>
    first
      | (simp at hset; done)
      | exact core _ _ _ _ _ (by first | exact Or.inl rfl | exact Or.inr ⟨rfl, rfl⟩)
          (by first | exact Or.inl rfl | exact Or.inr ⟨rfl, rfl⟩) (by first | exact Or.inl rfl | exact Or.inr ⟨rfl, rfl⟩)
          (by first | exact Or.inl rfl | exact Or.inr ⟨rfl, rfl⟩) rfl hn hq

/-- Adding or subtracting the step once or twice to a bound is exact in the floating point format. -/
def ExactNear (F : FP) (off : Rat) (b : Option Rat) : Prop :=
  ∀ x, b = some x → ∀ k : Int, |k| ≤ 2 → F.rnd (x + k * off) = x + k * off

/-- The range that results from eight optional bounds (`resolveBoundsFloat64`). -/
def negatedRange (F : FP) (off : Rat) (min max exMin exMax nMin nMax nExMin nExMax : Option Rat) : FloatBounds :=
  resolveBoundsF F off (lowerOf F off min exMin) (upperOf F off max exMax)
    (lowerOf F off nMin nExMin) (upperOf F off nMax nExMax)

/-- `q` lies in the computed range or in the computed alternative range. -/
def FloatBounds.Has (b : FloatBounds) (q : Rat) : Prop :=
  InBounds b.min b.max none none q ∨ ((b.altMin.isSome ∨ b.altMax.isSome) ∧ InBounds b.altMin b.altMax none none q)

/-- A bound that is present has magnitude at most 2^51. -/
def Small51 (b : Option Rat) : Prop := ∀ x, b = some x → |x| ≤ 2 ^ 51

theorem negatedRange_sound {F : FP} (hF : F.Lawful) {off : Rat} (h0 : 0 < off) (h1 : off ≤ 1)
    {min max exMin exMax nMin nMax nExMin nExMax : Option Rat}
    (hsmall : ∀ b ∈ [min, max, exMin, exMax, nMin, nMax, nExMin, nExMax], Small51 b ∧ ExactNear F off b)
    (hset : nMin.isSome ∨ nMax.isSome ∨ nExMin.isSome ∨ nExMax.isSome)
    (q : Rat)
    (hn : (negatedRange F off min max exMin exMax nMin nMax nExMin nExMax).noRange = false)
    (hq : (negatedRange F off min max exMin exMax nMin nMax nExMin nExMax).Has q) :
    InBounds min max exMin exMax q ∧ ((∃ y, lowerOf F off nMin nExMin = some y ∧ q < y) ∨
      (∃ y, upperOf F off nMax nExMax = some y ∧ y < q)) := by
  simp only [List.mem_cons, List.not_mem_nil, or_false, forall_eq_or_imp, forall_eq] at hsmall
  obtain ⟨⟨a1, x1⟩, ⟨a2, x2⟩, ⟨a3, x3⟩, ⟨a4, x4⟩, ⟨a5, x5⟩, ⟨a6, x6⟩, ⟨a7, x7⟩, ⟨a8, x8⟩⟩ := hsmall
  have plus : ∀ {b : Option Rat}, ExactNear F off b → ∀ e, b = some e → F.rnd (e + off) = e + off := by
    intro b h e he; have := h e he 1 (by norm_num); simpa using this
  have minus : ∀ {b : Option Rat}, ExactNear F off b → ∀ e, b = some e → F.rnd (e - off) = e - off := by
    intro b h e he; have := h e he (-1) (by norm_num); simpa [sub_eq_add_neg] using this
  have same : ∀ {b : Option Rat}, ExactNear F off b → ∀ e, b = some e → F.rnd e = e := by
    intro b h e he; have := h e he 0 (by norm_num); simpa using this
  have bd : ∀ {b : Option Rat}, Small51 b → ∀ e, b = some e → -2 ^ 51 ≤ e ∧ e ≤ 2 ^ 51 :=
    fun h e he => abs_le.1 (h e he)
  have lowS : ∀ {a b : Option Rat}, Small51 a → Small51 b → ExactNear F off b → Small (lowerOf F off a b) := by
    intro a b sa sb xb x hx
    rcases lowerOf_cases (a := a) (plus xb) with ⟨e, -⟩ | ⟨y, e, -, -, h⟩
    · rw [e] at hx; cases hx
    · rw [e] at hx; cases hx
      rw [abs_le]
      rcases h with h | ⟨e', h, rfl⟩
      · have := bd sa _ h; constructor <;> linarith
      · have := bd sb _ h; constructor <;> linarith
  have upS : ∀ {a b : Option Rat}, Small51 a → Small51 b → ExactNear F off b → Small (upperOf F off a b) := by
    intro a b sa sb xb x hx
    rcases upperOf_cases (a := a) (minus xb) with ⟨e, -⟩ | ⟨y, e, -, -, h⟩
    · rw [e] at hx; cases hx
    · rw [e] at hx; cases hx
      rw [abs_le]
      rcases h with h | ⟨e', h, rfl⟩
      · have := bd sa _ h; constructor <;> linarith
      · have := bd sb _ h; constructor <;> linarith
  have sub1 : ∀ y, lowerOf F off nMin nExMin = some y → F.rnd (y - off) = y - off := by
    intro y hy
    rcases lowerOf_cases (a := nMin) (plus x7) with ⟨e, -⟩ | ⟨y', e, -, -, h⟩
    · rw [e] at hy; cases hy
    · rw [e] at hy; cases hy
      rcases h with h | ⟨e', h, rfl⟩
      · exact minus x5 _ h
      · have := same x7 _ h; simpa using this
  have add1 : ∀ y, upperOf F off nMax nExMax = some y → F.rnd (y + off) = y + off := by
    intro y hy
    rcases upperOf_cases (a := nMax) (minus x8) with ⟨e, -⟩ | ⟨y', e, -, -, h⟩
    · rw [e] at hy; cases hy
    · rw [e] at hy; cases hy
      rcases h with h | ⟨e', h, rfl⟩
      · exact plus x6 _ h
      · have := same x8 _ h; simpa using this
  have set1 : (lowerOf F off nMin nExMin).isSome ∨ (upperOf F off nMax nExMax).isSome := by
    rcases lowerOf_cases (a := nMin) (plus x7) with ⟨e, e1, e2⟩ | ⟨y', e, -⟩
    · rcases upperOf_cases (a := nMax) (minus x8) with ⟨e', e3, e4⟩ | ⟨y', e', -⟩
      · subst e1 e2 e3 e4; simp at hset
      · right; rw [e']; rfl
    · left; rw [e]; rfl
  obtain ⟨B, N⟩ := resolveBoundsF_sound hF h0 h1 (lowS a1 a3 x3) (upS a2 a4 x4) (lowS a5 a7 x7) (upS a6 a8 x8)
    sub1 add1 set1 hn q hq
  constructor
  · refine ⟨fun x hx => ?_, fun x hx => ?_, fun x hx => ?_, fun x hx => ?_⟩
    · rcases lowerOf_cases (a := min) (plus x3) with ⟨e, e1, e2⟩ | ⟨y, e, g, -, -⟩
      · rw [e1] at hx; cases hx
      · exact le_trans (g x hx) (B.minimum y e)
    · rcases upperOf_cases (a := max) (minus x4) with ⟨e, e1, e2⟩ | ⟨y, e, g, -, -⟩
      · rw [e1] at hx; cases hx
      · exact le_trans (B.maximum y e) (g x hx)
    · rcases lowerOf_cases (a := min) (plus x3) with ⟨e, e1, e2⟩ | ⟨y, e, -, g, -⟩
      · rw [e2] at hx; cases hx
      · have := B.minimum y e; have := g x hx; linarith
    · rcases upperOf_cases (a := max) (minus x4) with ⟨e, e1, e2⟩ | ⟨y, e, -, g, -⟩
      · rw [e2] at hx; cases hx
      · have := B.maximum y e; have := g x hx; linarith
  · exact N

/-- **C39**, for every floating point format in which the step arithmetic at the given bounds is exact, and for
values that are not strictly between a negated exclusive bound and one step inside it. -/
theorem C39_range_excluded_partial {F : FP} (hF : F.Lawful) {off : Rat} (h0 : 0 < off) (h1 : off ≤ 1)
    {min max exMin exMax nMin nMax nExMin nExMax : Option Rat}
    (hsmall : ∀ b ∈ [min, max, exMin, exMax, nMin, nMax, nExMin, nExMax], Small51 b ∧ ExactNear F off b)
    (hset : nMin.isSome ∨ nMax.isSome ∨ nExMin.isSome ∨ nExMax.isSome)
    (q : Rat)
    (hgapMin : ∀ e, nExMin = some e → ¬ (e < q ∧ q < e + off))
    (hgapMax : ∀ e, nExMax = some e → ¬ (e - off < q ∧ q < e))
    (hn : (negatedRange F off min max exMin exMax nMin nMax nExMin nExMax).noRange = false)
    (hq : (negatedRange F off min max exMin exMax nMin nMax nExMin nExMax).Has q) :
    InBounds min max exMin exMax q ∧ ¬ InBounds nMin nMax nExMin nExMax q := by
  obtain ⟨B, N⟩ := negatedRange_sound hF h0 h1 hsmall hset q hn hq
  simp only [List.mem_cons, List.not_mem_nil, or_false, forall_eq_or_imp, forall_eq] at hsmall
  obtain ⟨-, -, -, -, -, -, ⟨-, x7⟩, ⟨-, x8⟩⟩ := hsmall
  have plus : ∀ {b : Option Rat}, ExactNear F off b → ∀ e, b = some e → F.rnd (e + off) = e + off := by
    intro b h e he; have := h e he 1 (by norm_num); simpa using this
  have minus : ∀ {b : Option Rat}, ExactNear F off b → ∀ e, b = some e → F.rnd (e - off) = e - off := by
    intro b h e he; have := h e he (-1) (by norm_num); simpa [sub_eq_add_neg] using this
  refine ⟨B, ?_⟩
  · intro I
    rcases N with ⟨y, hy, hlt⟩ | ⟨y, hy, hlt⟩
    · rcases lowerOf_cases (a := nMin) (plus x7) with ⟨e, -⟩ | ⟨y', e, -, -, h⟩
      · rw [e] at hy; cases hy
      · rw [e] at hy; cases hy
        rcases h with h | ⟨e', h, rfl⟩
        · have := I.minimum _ h; linarith
        · exact hgapMin e' h ⟨I.exclusiveMinimum _ h, hlt⟩
    · rcases upperOf_cases (a := nMax) (minus x8) with ⟨e, -⟩ | ⟨y', e, -, -, h⟩
      · rw [e] at hy; cases hy
      · rw [e] at hy; cases hy
        rcases h with h | ⟨e', h, rfl⟩
        · have := I.maximum _ h; linarith
        · exact hgapMax e' h ⟨hlt, I.exclusiveMaximum _ h⟩

/-- A bound that is present is an integer of magnitude at most 2^51. -/
def IntBound (b : Option Rat) : Prop := ∀ x, b = some x → ∃ n : Int, x = n ∧ |n| ≤ 2 ^ 51

theorem IntBound.small {b : Option Rat} (h : IntBound b) : Small51 b := by
  intro x hx
  obtain ⟨n, rfl, hn⟩ := h x hx
  exact_mod_cast hn

theorem IntBound.exact {F : FP} (hF : F.Lawful) {b : Option Rat} (h : IntBound b) : ExactNear F 1 b := by
  intro x hx k hk
  obtain ⟨n, rfl, hn⟩ := h x hx
  have := hF.int (n + k) (by
    have := abs_add_le n k
    have h2 : (2 : Int) ^ 51 + 2 ≤ 2 ^ 53 := by norm_num
    linarith)
  push_cast at this
  rw [mul_one]; exact this

/-- **C39** for integers, in every floating point format (binary64 in particular): with integer bounds, when no
conflict is reported, every integer in the resulting range satisfies the base bounds and violates the negated
ones. -/
theorem C39_integers_excluded {F : FP} (hF : F.Lawful) {min max exMin exMax nMin nMax nExMin nExMax : Option Rat}
    (hint : ∀ b ∈ [min, max, exMin, exMax, nMin, nMax, nExMin, nExMax], IntBound b)
    (hset : nMin.isSome ∨ nMax.isSome ∨ nExMin.isSome ∨ nExMax.isSome) (q : Int)
    (hn : (negatedRange F 1 min max exMin exMax nMin nMax nExMin nExMax).noRange = false)
    (hq : (negatedRange F 1 min max exMin exMax nMin nMax nExMin nExMax).Has q) :
    InBounds min max exMin exMax q ∧ ¬ InBounds nMin nMax nExMin nExMax q := by
  refine C39_range_excluded_partial hF (by norm_num) (le_refl _)
    (fun b hb => ⟨(hint b hb).small, (hint b hb).exact hF⟩) hset q ?_ ?_ hn hq
  · intro e he
    obtain ⟨n, rfl, -⟩ := hint nExMin (by simp) e he
    rintro ⟨h, h'⟩
    have h : n < q := by exact_mod_cast h
    have h' : q < n + 1 := by exact_mod_cast h'
    omega
  · intro e he
    obtain ⟨n, rfl, -⟩ := hint nExMax (by simp) e he
    rintro ⟨h, h'⟩
    have h : n - 1 < q := by exact_mod_cast h
    have h' : q < n := by exact_mod_cast h'
    omega

/-- **C39** for numbers in exact arithmetic, except values within 1e-14 of a negated exclusive bound. -/
theorem C39_numbers_excluded_partial {min max exMin exMax nMin nMax nExMin nExMax : Option Rat}
    (hsmall : ∀ b ∈ [min, max, exMin, exMax, nMin, nMax, nExMin, nExMax], Small51 b)
    (hset : nMin.isSome ∨ nMax.isSome ∨ nExMin.isSome ∨ nExMax.isSome) (q : Rat)
    (hgapMin : ∀ e, nExMin = some e → ¬ (e < q ∧ q < e + 1 / 10 ^ 14))
    (hgapMax : ∀ e, nExMax = some e → ¬ (e - 1 / 10 ^ 14 < q ∧ q < e))
    (hn : (negatedRange FP.exact (1 / 10 ^ 14) min max exMin exMax nMin nMax nExMin nExMax).noRange = false)
    (hq : (negatedRange FP.exact (1 / 10 ^ 14) min max exMin exMax nMin nMax nExMin nExMax).Has q) :
    InBounds min max exMin exMax q ∧ ¬ InBounds nMin nMax nExMin nExMax q :=
  C39_range_excluded_partial FP.exact_lawful (by norm_num) (by norm_num)
    (fun b hb => ⟨hsmall b hb, fun _ _ _ _ => rfl⟩) hset q hgapMin hgapMax hn hq

/-- In binary64 the full claim fails: `{"minimum": 0, "maximum": 1000, "not": {"minimum": 500}}` becomes
`maximum: 500`, because 500 - 1e-14 rounds to 500, so the excluded value 500 is still allowed. -/
theorem C39_absorbed_step_violation :
    let b := negatedRange FP.binary64 (infinitesimal FP.binary64) (some 0) (some 1000) none none (some 500) none none none
    b.noRange = false ∧ b.Has 500 ∧ InBounds (some 500) none none none 500 := by
  refine ⟨by decide +kernel, Or.inl ⟨?_, ?_, by simp, by simp⟩, by simp, by simp, by simp, by simp⟩
  · intro x hx
    have : (negatedRange FP.binary64 (infinitesimal FP.binary64) (some 0) (some 1000) none none (some 500) none none none).min =
      some 0 := by decide +kernel
    rw [this] at hx; cases hx; norm_num
  · intro x hx
    have : (negatedRange FP.binary64 (infinitesimal FP.binary64) (some 0) (some 1000) none none (some 500) none none none).max =
      some 500 := by decide +kernel
    rw [this] at hx; cases hx; norm_num

/-- In exact arithmetic it fails next to a negated exclusive bound: for values from 5 - 5e-15 upwards that must not be
below 5, the lower bound is left unchanged. -/
theorem C39_exclusive_gap_violation :
    let b := negatedRange FP.exact (1 / 10 ^ 14) (some (5 - 5 / 10 ^ 15)) none none none none none none (some 5)
    b.noRange = false ∧ b.Has (5 - 5 / 10 ^ 15) ∧ InBounds none none none (some 5) (5 - 5 / 10 ^ 15) := by
  refine ⟨by decide +kernel, Or.inl ⟨?_, ?_, by simp, by simp⟩, by simp, by simp, by simp, ?_⟩
  · intro x hx
    have : (negatedRange FP.exact (1 / 10 ^ 14) (some (5 - 5 / 10 ^ 15)) none none none none none none (some 5)).min =
      some (5 - 5 / 10 ^ 15) := by decide +kernel
    rw [this] at hx; cases hx; norm_num
  · intro x hx
    have : (negatedRange FP.exact (1 / 10 ^ 14) (some (5 - 5 / 10 ^ 15)) none none none none none none (some 5)).max =
      none := by decide +kernel
    rw [this] at hx; cases hx
  · intro x hx; cases hx; norm_num

theorem notApplyNumber_plain {F : FP} {node notNode n0 n1 : SchemaNode} {s s' : PSt}
    (h : notApplyNumber F node notNode n0 s = .ok n1 s') (hq : s'.errors.length = s.errors.length)
    (hm : effNotMultipleOf notNode = 0) :
    let b := resolveBoundsNodes F (notOffset F n0) node notNode
    b.noRange = false ∧ n1.minimum = b.min ∧ n1.maximum = b.max := by
  intro b
  unfold notApplyNumber at h
  have key : ∀ s1, applyMultiples F b (effMultipleOf node notNode n0) (effNotMultipleOf notNode) node
      { n0 with minimum := b.min, maximum := b.max } s1 = .ok n1 s' →
      s1 = s' ∧ n1.minimum = b.min ∧ n1.maximum = b.max := by
    intro s1 h
    rw [hm] at h
    unfold applyMultiples at h
    simp only [ne_eq, not_true_eq_false, false_and, and_false, if_false] at h
    split at h <;>
    · obtain ⟨rfl, rfl⟩ := pure_ok.1 h
      exact ⟨rfl, rfl, rfl⟩
  dsimp only at h
  split at h
  · obtain ⟨u, s1, h1, h2⟩ := bind_ok.1 h
    have := warnField_grow h1
    obtain ⟨rfl, -⟩ := key _ h2
    omega
  · rename_i hf
    exact ⟨by simpa using hf, (key _ h).2⟩

/-- **C39** for the whole negation of an integer schema: when applying a `not` without `multipleOf` and without
the type `integer` records no error, every integer within the resulting bounds satisfies the bounds of the schema and
violates those of the negated schema. -/
theorem C39_not_applied {c : PEnv} (hF : c.fp.Lawful) {k : Nat} {node notNode n : SchemaNode} {cc : ConstraintColl}
    {s s' : PSt} (h : notMerge c k node notNode s = .ok (n, cc) s') (hq : s'.errors = s.errors)
    (hty : nodeTypeContains n.type "integer" = true)
    (hm : notNode.multipleOf = none) (hnt : nodeTypeContains notNode.type "integer" = false)
    (hint : ∀ b ∈ [node.minimum, node.maximum, node.exclusiveMinimum, node.exclusiveMaximum,
      notNode.minimum, notNode.maximum, notNode.exclusiveMinimum, notNode.exclusiveMaximum], IntBound b)
    (hset : notNode.minimum.isSome ∨ notNode.maximum.isSome ∨ notNode.exclusiveMinimum.isSome ∨
      notNode.exclusiveMaximum.isSome)
    (q : Int) (hb : InBounds n.minimum n.maximum n.exclusiveMinimum n.exclusiveMaximum q) :
    InBounds node.minimum node.maximum node.exclusiveMinimum node.exclusiveMaximum q ∧
    ¬ InBounds notNode.minimum notNode.maximum notNode.exclusiveMinimum notNode.exclusiveMaximum q := by
  have R := notMerge_inv h (by rw [hq])
  obtain ⟨n0, n1, n2, cc0, cc1, s0, s1, s2, s3, r3, et, -, -, h1, hq1, emin, emax, -⟩ := R.number
  obtain ⟨hn, e1, e2⟩ := notApplyNumber_plain h1 hq1 (by
    unfold effNotMultipleOf; rw [hm, hnt]; rfl)
  have eo : notOffset c.fp n0 = 1 := by unfold notOffset; rw [et, hty]; rfl
  rw [eo] at hn e1 e2
  refine C39_integers_excluded hF hint hset q hn (Or.inl ⟨?_, ?_, by simp, by simp⟩)
  · intro x hx; exact hb.minimum x (by rw [emin, e1]; exact hx)
  · intro x hx; exact hb.maximum x (by rw [emax, e2]; exact hx)

/-- Integers from 0 to 10 but not from 3 (exclusive) to 7: the range 0..3 and the alternative 8..10. -/
example : let b := negatedRange FP.binary64 1 (some 0) (some 10) none none none (some 7) (some 3) none
    b.min = some 0 ∧ b.max = some 3 ∧ b.altMin = some 8 ∧ b.altMax = some 10 ∧ b.noRange = false := by decide +kernel

/-! ## C40: negated types -/

theorem getNodeTypes_false (n : SchemaNode) : getNodeTypes n false = (declaredTypes n).getD typeAll := by
  unfold getNodeTypes declaredTypes
  cases n.type with
  | none => rfl
  | some t =>
    dsimp only
    split
    · rfl
    · rcases t.multiple with _ | ⟨_ | ⟨x, l⟩⟩ <;> simp

theorem getNodeTypes_true (n : SchemaNode) : getNodeTypes n true = (declaredTypes n).getD [] := by
  unfold getNodeTypes declaredTypes
  cases n.type with
  | none => rfl
  | some t =>
    dsimp only
    split
    · rfl
    · rcases t.multiple with _ | ⟨_ | ⟨x, l⟩⟩ <;> simp

theorem mem_expandNotTypes {l : List String} {x : String} :
    x ∈ expandNotTypes l ↔ x ∈ l ∨ ("number" ∈ l ∧ x = "integer") := by
  unfold expandNotTypes
  split
  · rename_i h
    simp only [List.mem_append, List.mem_singleton]
    constructor
    · rintro (h' | h')
      · exact Or.inl h'
      · exact Or.inr ⟨h.1, h'⟩
    · rintro (h' | h')
      · exact Or.inl h'
      · exact Or.inr h'.2
  · rename_i h
    constructor
    · exact Or.inl
    · rintro (h' | ⟨h1, rfl⟩)
      · exact h'
      · by_contra h2; exact h ⟨h1, h2⟩

theorem declaredTypes_slice {l : List String} (hl : l ≠ []) (hne : "" ∉ l) {n : SchemaNode}
    (h : n.type = some (newMultipleTypeFromSlice l)) : declaredTypes n = some l := by
  unfold declaredTypes
  rw [h]
  rcases l with _ | ⟨x, _ | ⟨y, t⟩⟩
  · exact absurd rfl hl
  · have : x ≠ "" := by rintro rfl; simp at hne
    simp [newMultipleTypeFromSlice, this]
  · simp [newMultipleTypeFromSlice]

/-- The types a schema allows: those it lists, or all seven. -/
def AllowsType (n : SchemaNode) (x : String) : Prop :=
  match declaredTypes n with
  | some l => x ∈ l
  | none => x ∈ ["object", "array", "number", "integer", "string", "boolean", "null"]

/-- The types a negated schema that only lists types rules out: those it lists, and integer with number. -/
def NegatesType (n : SchemaNode) (x : String) : Prop :=
  ∃ l, declaredTypes n = some l ∧ (x ∈ l ∨ ("number" ∈ l ∧ x = "integer"))

theorem allowsType_iff (n : SchemaNode) (x : String) : AllowsType n x ↔ x ∈ getNodeTypes n false := by
  unfold AllowsType
  rw [getNodeTypes_false]
  cases declaredTypes n <;> rfl

theorem negatesType_iff (n : SchemaNode) (x : String) : NegatesType n x ↔ x ∈ expandNotTypes (getNodeTypes n true) := by
  unfold NegatesType
  rw [getNodeTypes_true, mem_expandNotTypes]
  cases declaredTypes n <;> simp

/-- **C40.** When applying a `not` records no error, the resulting types are exactly the allowed types that are not
negated, if the negated schema has no other keyword of the kinds the code looks at; otherwise the allowed types stay. -/
theorem C40_negated_types_removed {c : PEnv} {k : Nat} {node notNode n : SchemaNode} {cc : ConstraintColl} {s s' : PSt}
    (h : notMerge c k node notNode s = .ok (n, cc) s') (hq : s'.errors = s.errors)
    (hne : ¬ AllowsType node "") (x : String) :
    (notNodeHasValueConstraints notNode = false → (AllowsType n x ↔ AllowsType node x ∧ ¬ NegatesType notNode x)) ∧
    (notNodeHasValueConstraints notNode = true → (AllowsType n x ↔ AllowsType node x)) := by
  have R := notMerge_inv h (by rw [hq])
  obtain ⟨t, ht, hnt⟩ := R.type
  unfold resolveType at ht
  dsimp only at ht
  set cand := (getNodeTypes node false).filter
    (fun t => ! (decide (t ∈ expandNotTypes (getNodeTypes notNode true)) && ! notNodeHasValueConstraints notNode)) with hc
  split at ht
  · cases ht
  · rename_i hl
    have et : newMultipleTypeFromSlice cand = t := by injection ht
    have hcand : ∀ y, y ∈ cand ↔ AllowsType node y ∧
        ¬ (NegatesType notNode y ∧ notNodeHasValueConstraints notNode = false) := by
      intro y
      rw [hc, List.mem_filter, allowsType_iff, negatesType_iff]
      cases notNodeHasValueConstraints notNode <;> simp
    have : AllowsType n x ↔ x ∈ cand := by
      unfold AllowsType
      rw [declaredTypes_slice (l := cand) (fun e => hl (by rw [e]; rfl))
        (fun e => hne ((hcand "").1 e).1) (by rw [hnt, et])]
    rw [this, hcand]
    constructor <;> intro hv <;> simp [hv]

/-- When every allowed type is negated an error is recorded. -/
theorem C40_nothing_left_reported {c : PEnv} {k : Nat} {node notNode n : SchemaNode} {cc : ConstraintColl} {s s' : PSt}
    (h : notMerge c k node notNode s = .ok (n, cc) s') (hv : notNodeHasValueConstraints notNode = false)
    (hall : ∀ x, AllowsType node x → NegatesType notNode x) : s'.errors ≠ s.errors := by
  intro hq
  have R := notMerge_inv h (by rw [hq])
  obtain ⟨t, ht, -⟩ := R.type
  unfold resolveType at ht
  dsimp only at ht
  split at ht
  · cases ht
  · rename_i hl
    apply hl
    rw [List.length_eq_zero_iff, List.filter_eq_nil_iff]
    intro x hx
    have := (negatesType_iff notNode x).1 (hall x ((allowsType_iff node x).2 hx))
    simp [this, hv]

/-- The state of a parser before anything was parsed. -/
def emptyPSt : PSt := {}

/-- `{"type": ["number", "string", "integer"], "not": {"type": "number"}}` leaves `string`. -/
example : ∃ n cc s', notMerge demoEnv 3 { type := some { multiple := some ["number", "string", "integer"] } }
      { type := some { single := "number" } } emptyPSt = .ok (n, cc) s' ∧ s'.errors = emptyPSt.errors ∧
      n.type = some { single := "string" } :=
  ⟨_, _, _, rfl, rfl, rfl⟩

/-! ## C41: negated multipleOf -/

theorem fTrunc_int (k : Int) : fTrunc (k : Rat) = k := by
  unfold fTrunc; split <;> simp

theorem fmod_eq_zero {q m : Rat} (hm : m ≠ 0) : fmod q m = 0 ↔ IsMultiple q m := by
  unfold fmod IsMultiple
  constructor
  · intro h
    exact ⟨fTrunc (q / m), by linarith [mul_comm m (fTrunc (q / m) : Rat)]⟩
  · rintro ⟨k, rfl⟩
    rw [mul_div_assoc, div_self hm, mul_one, fTrunc_int]
    ring

theorem multiplesLoop_spec {F : FP} {max m nm : Rat} (k : Nat) : ∀ (room : Nat) (v : Rat),
    (multiplesLoop F max m nm k room v).length ≤ room ∧
    ∀ x ∈ multiplesLoop F max m nm k room v, x ≤ max ∧ fmod x nm ≠ 0 := by
  induction k with
  | zero => intro room v; simp [multiplesLoop]
  | succ k ih =>
    intro room v
    cases room with
    | zero => simp [multiplesLoop]
    | succ room =>
      simp only [multiplesLoop]
      split
      · rename_i hv
        split
        · rename_i hf
          obtain ⟨i1, i2⟩ := ih room (F.add v m)
          refine ⟨by simp; exact i1, fun x hx => ?_⟩
          rcases List.mem_cons.1 hx with rfl | hx
          · exact ⟨hv, hf⟩
          · exact i2 x hx
        · exact ih (room + 1) (F.add v m)
      · simp

theorem multiplesLoop_exact {max m nm : Rat} (hm : 0 < m) (k : Nat) : ∀ (room : Nat) (v : Rat),
    ∀ x ∈ multiplesLoop FP.exact max m nm k room v, v ≤ x ∧ ∃ j : Nat, x = v + j * m := by
  induction k with
  | zero => intro room v; simp [multiplesLoop]
  | succ k ih =>
    intro room v
    cases room with
    | zero => simp [multiplesLoop]
    | succ room =>
      have next : ∀ r, ∀ x ∈ multiplesLoop FP.exact max m nm k r (FP.exact.add v m),
          v ≤ x ∧ ∃ j : Nat, x = v + j * m := by
        intro r x hx
        obtain ⟨h1, j, h2⟩ := ih r (FP.exact.add v m) x hx
        have e : FP.exact.add v m = v + m := rfl
        rw [e] at h1 h2
        exact ⟨by linarith, j + 1, by push_cast; rw [h2]; ring⟩
      simp only [multiplesLoop]
      split
      · split
        · intro x hx
          rcases List.mem_cons.1 hx with rfl | hx
          · exact ⟨le_refl _, 0, by simp⟩
          · exact next room x hx
        · exact next (room + 1)
      · simp

theorem computeMultiples_some {F : FP} {min max m nm : Rat} {l : List Rat} (h : computeMultiples F min max m nm = some l) :
    l = multiplesLoop F max m nm 10000 200 (multiplesStart F min m) ∧ l ≠ [] := by
  unfold computeMultiples at h
  split at h
  · cases h
  · rename_i hl
    injection h with h
    subst h
    exact ⟨rfl, fun e => hl e⟩

/-- **C41**, in any floating point format: at least one and at most 200 values are listed, none exceeds the upper
bound and none is a multiple of the negated factor. -/
theorem C41_enumeration_sound {F : FP} {min max m nm : Rat} (hnm : nm ≠ 0) {l : List Rat}
    (h : computeMultiples F min max m nm = some l) :
    l ≠ [] ∧ l.length ≤ 200 ∧ ∀ x ∈ l, x ≤ max ∧ ¬ IsMultiple x nm := by
  obtain ⟨rfl, hl⟩ := computeMultiples_some h
  obtain ⟨h1, h2⟩ := multiplesLoop_spec (F := F) (max := max) (m := m) (nm := nm) 10000 200 (multiplesStart F min m)
  exact ⟨hl, h1, fun x hx => ⟨(h2 x hx).1, fun e => (h2 x hx).2 ((fmod_eq_zero hnm).2 e)⟩⟩

/-- **C41** in exact arithmetic: moreover every value is at least the lower bound and, for a factor above the step,
a multiple of the factor. -/
theorem C41_enumeration_in_range {min max m nm : Rat} (hm : 0 < m) {l : List Rat}
    (h : computeMultiples FP.exact min max m nm = some l) :
    ∀ x ∈ l, min ≤ x ∧ (1 / 10 ^ 14 < m → IsMultiple x m) := by
  obtain ⟨rfl, -⟩ := computeMultiples_some h
  intro x hx
  obtain ⟨h1, j, h2⟩ := multiplesLoop_exact hm 10000 200 _ x hx
  unfold multiplesStart at h1 h2
  have ei : infinitesimal FP.exact = 1 / 10 ^ 14 := rfl
  rw [ei] at h1 h2
  by_cases hb : m > 1 / 10 ^ 14
  · rw [if_pos hb] at h1 h2
    have e : FP.exact.mul (fCeil (FP.exact.div min m) : Rat) m = (⌈min / m⌉ : Rat) * m := rfl
    rw [e] at h1 h2
    have := Int.le_ceil (min / m)
    rw [div_le_iff₀ hm] at this
    exact ⟨by linarith, fun _ => ⟨⌈min / m⌉ + j, by push_cast; rw [h2]; ring⟩⟩
  · rw [if_neg hb] at h1
    exact ⟨h1, fun h => absurd h hb⟩

/-- When nothing is listed, none of the first 10000 candidates below the upper bound qualifies. -/
theorem C41_enumeration_empty {min max m nm : Rat} (h : computeMultiples FP.exact min max m nm = none)
    (hnm : nm ≠ 0) : ∀ j : Nat, j < 10000 → (∀ i ≤ j, multiplesStart FP.exact min m + i * m ≤ max) →
      IsMultiple (multiplesStart FP.exact min m + j * m) nm := by
  have key : ∀ (k room : Nat) (v : Rat), multiplesLoop FP.exact max m nm k (room + 1) v = [] →
      ∀ j : Nat, j < k → (∀ i ≤ j, v + (i : Rat) * m ≤ max) → IsMultiple (v + j * m) nm := by
    intro k
    induction k with
    | zero => intro room v _ j hj; omega
    | succ k ih =>
      intro room v h j hj hle
      simp only [multiplesLoop] at h
      have h0 : v ≤ max := by have := hle 0 (Nat.zero_le _); simpa using this
      rw [if_pos h0] at h
      split at h
      · cases h
      · rename_i hf
        simp only [ne_eq, not_not] at hf
        rcases j with _ | j
        · have := (fmod_eq_zero hnm).1 hf
          simpa using this
        · have e : FP.exact.add v m = v + m := rfl
          rw [e] at h
          have := ih room (v + m) h j (by omega) (fun i hi => by
            have := hle (i + 1) (by omega)
            push_cast at this; linarith)
          have e2 : v + ((j + 1 : Nat) : Rat) * m = v + m + j * m := by push_cast; ring
          rw [e2]; exact this
  unfold computeMultiples at h
  split at h
  · rename_i hl
    exact key 10000 199 _ hl
  · cases h

/-- Multiples of 2 between 1 and 13 that are not multiples of 3. -/
example : computeMultiples FP.exact 1 13 2 3 = some [2, 4, 8, 10] := by decide +kernel

theorem chooseMultiples_some {F : FP} {b : FloatBounds} {m nm : Rat} {l : List Rat}
    (h : chooseMultiples F b m nm = some l) (hl : l ≠ []) :
    computeMultiples F (getZeroIfNil b.min (lowerBound F)) (getZeroIfNil b.max (upperBound F)) m nm = some l ∨
    ((b.altMin.isSome ∨ b.altMax.isSome) ∧
      computeMultiples F (getZeroIfNil b.altMin (lowerBound F)) (getZeroIfNil b.altMax (upperBound F)) m nm = some l) := by
  unfold chooseMultiples at h
  dsimp only at h
  split at h
  · rename_i hc
    right
    refine ⟨?_, h⟩
    rcases hc with hc | hc
    · exact Or.inl hc.2
    · exact Or.inr hc
  · left
    injection h with h
    cases hf : computeMultiples F (getZeroIfNil b.min (lowerBound F)) (getZeroIfNil b.max (upperBound F)) m nm with
    | none => rw [hf] at h; exact absurd h.symm hl
    | some l' => rw [hf] at h; rw [← h]; rfl

/-- A negation with an effective factor, applied without an error to a schema without an enum. -/
theorem not_multiples_choice {c : PEnv} {k : Nat} {node notNode n : SchemaNode} {cc : ConstraintColl} {s s' : PSt}
    (h : notMerge c k node notNode s = .ok (n, cc) s') (hq : s'.errors = s.errors)
    (nm : Rat) (eff : effNotMultipleOf notNode = nm) (hnm : nm ≠ 0) (he : node.enum = none) :
    ∃ (l : List Rat) (n0 : SchemaNode), n0.type = n.type ∧ n.enum = some (l.map .num) ∧
      (resolveBoundsNodes c.fp (notOffset c.fp n0) node notNode).noRange = false ∧
      chooseMultiples c.fp (resolveBoundsNodes c.fp (notOffset c.fp n0) node notNode)
        (if effMultipleOf node notNode n0 = 0 then infinitesimal c.fp else effMultipleOf node notNode n0) nm = some l := by
  have R := notMerge_inv h (by rw [hq])
  obtain ⟨n0, n1, n2, cc0, cc1, s0, s1, s2, s3, r3, et, en, -, h1, hq1, -, -, -, h2, hq2, ee, -⟩ := R.number
  have hn1 : ∃ l : List Rat, n1.enum = some (l.map .num) ∧
      (resolveBoundsNodes c.fp (notOffset c.fp n0) node notNode).noRange = false ∧
      chooseMultiples c.fp (resolveBoundsNodes c.fp (notOffset c.fp n0) node notNode)
        (if effMultipleOf node notNode n0 = 0 then infinitesimal c.fp else effMultipleOf node notNode n0) nm = some l := by
    unfold notApplyNumber at h1
    dsimp only at h1
    rw [eff] at h1
    set b := resolveBoundsNodes c.fp (notOffset c.fp n0) node notNode with hb
    have tail : ∀ s9, s0.errors.length ≤ s9.errors.length →
        applyMultiples c.fp b (effMultipleOf node notNode n0) nm node
          { n0 with minimum := b.min, maximum := b.max } s9 = .ok n1 s1 →
        ∃ l : List Rat, n1.enum = some (l.map .num) ∧ chooseMultiples c.fp b
          (if effMultipleOf node notNode n0 = 0 then infinitesimal c.fp else effMultipleOf node notNode n0) nm = some l := by
      intro s9 g h
      have bad : ∀ {e f : String} {x : SchemaNode}, (do warnField e f; pure x : P SchemaNode) s9 = .ok n1 s1 → False := by
        intro e f x hx
        obtain ⟨u, t2, w1, w2⟩ := bind_ok.1 hx
        obtain ⟨-, e2⟩ := pure_ok.1 w2
        rw [e2] at w1
        have := warnField_grow w1; omega
      unfold applyMultiples at h
      rw [if_neg (by rintro ⟨-, e⟩; exact hnm e)] at h
      split at h
      · exact (bad h).elim
      · split at h
        · exact (bad h).elim
        · split at h
          · exact (bad h).elim
          · try rw [if_pos hnm] at h
            cases hc : chooseMultiples c.fp b (if effMultipleOf node notNode n0 = 0 then infinitesimal c.fp
                else effMultipleOf node notNode n0) nm with
            | none => rw [hc] at h; exact (bad h).elim
            | some l =>
              rw [hc] at h
              dsimp only at h
              unfold setMultiples at h
              dsimp only at h
              rw [en] at h
              obtain ⟨rfl, -⟩ := pure_ok.1 h
              exact ⟨l, rfl, rfl⟩
    have quiet : ∀ s9 : PSt, applyMultiples c.fp b (effMultipleOf node notNode n0) nm node
          { n0 with minimum := b.min, maximum := b.max } s9 = .ok n1 s1 → s9.errors.length ≤ s1.errors.length :=
      fun s9 h => (keeps_applyMultiples (c := c) _ _ _ _ _).grow h
    split at h1
    · obtain ⟨u, s9, h9, h1⟩ := bind_ok.1 h1
      have := warnField_grow h9
      have := quiet _ h1
      omega
    · rename_i hnr
      obtain ⟨l, e1, e2⟩ := tail _ (le_refl _) h1
      exact ⟨l, e1, by simpa using hnr, e2⟩
  have : n2.enum = n1.enum := by
    unfold notApplyEnum at h2
    dsimp only at h2
    split at h2
    · obtain ⟨e, -⟩ := pure_ok.1 h2
      rw [← (Prod.mk.inj e).1]
    · rename_i hx
      have hnn : notNode.enum ≠ none := by
        intro e; exact hx (by rw [he, e]; exact ⟨rfl, rfl⟩)
      rw [he] at h2
      by_cases hne : (getZeroIfNil notNode.enum []).length ≠ 0
      · rw [if_pos ⟨rfl, hne⟩] at h2
        cases hc : node.const with
        | none =>
          rw [hc] at h2
          obtain ⟨e, -⟩ := pure_ok.1 h2
          rw [← (Prod.mk.inj e).1]
        | some v =>
          rw [hc] at h2; dsimp only at h2
          split at h2
          · obtain ⟨u, s9, h9, h2⟩ := bind_ok.1 h2
            obtain ⟨-, rfl⟩ := pure_ok.1 h2
            have := warnField_grow h9; omega
          · obtain ⟨u, s9, h9, h2⟩ := bind_ok.1 h2
            obtain ⟨-, rfl⟩ := pure_ok.1 h2
            have := (notEnumRest_inv h9 hq2).2
            rw [he] at this
            exact absurd rfl this
      · rw [if_neg (by rintro ⟨-, e⟩; exact hne e)] at h2
        obtain ⟨u, s9, h9, h2⟩ := bind_ok.1 h2
        obtain ⟨-, rfl⟩ := pure_ok.1 h2
        have := (notEnumRest_inv h9 hq2).2
        rw [he] at this
        exact absurd rfl this
  obtain ⟨l, e1, e2, e3⟩ := hn1
  exact ⟨l, n0, et, by rw [ee, this]; exact e1, e2, e3⟩

theorem not_multiples {c : PEnv} {k : Nat} {node notNode n : SchemaNode} {cc : ConstraintColl} {s s' : PSt}
    (h : notMerge c k node notNode s = .ok (n, cc) s') (hq : s'.errors = s.errors)
    (nm : Rat) (eff : effNotMultipleOf notNode = nm) (hnm : nm ≠ 0) (he : node.enum = none) :
    ∃ l : List Rat, n.enum = some (l.map .num) ∧ l.length ≤ 200 ∧ ∀ x ∈ l, ¬ IsMultiple x nm := by
  obtain ⟨l, n0, -, e1, -, hc⟩ := not_multiples_choice h hq nm eff hnm he
  refine ⟨l, e1, ?_⟩
  rcases eq_or_ne l [] with rfl | hl
  · simp
  · rcases chooseMultiples_some hc hl with hc | ⟨-, hc⟩
    · obtain ⟨-, a, b⟩ := C41_enumeration_sound hnm hc
      exact ⟨a, fun x hx => (b x hx).2⟩
    · obtain ⟨-, a, b⟩ := C41_enumeration_sound hnm hc
      exact ⟨a, fun x hx => (b x hx).2⟩

theorem Res.witness {σ α : Type} {r : Res σ α} {p : α → σ → Bool}
    (h : (match r with | .ok a s => p a s | _ => false) = true) : ∃ a s, r = .ok a s ∧ p a s = true := by
  cases r with
  | ok a s => exact ⟨a, s, rfl, h⟩
  | panic e => cases h
  | oom => cases h

/-- **C41** for the whole negation: when a `not` with a `multipleOf` is applied without an error to a schema without
an enum, the result lists numbers only, at most 200, and none of them is a multiple of the negated factor. -/
theorem C41_not_applied {c : PEnv} {k : Nat} {node notNode n : SchemaNode} {cc : ConstraintColl} {s s' : PSt}
    (h : notMerge c k node notNode s = .ok (n, cc) s') (hq : s'.errors = s.errors)
    (nm : Rat) (hm : notNode.multipleOf = some nm) (hnm : nm ≠ 0) (he : node.enum = none) :
    ∃ l : List Rat, n.enum = some (l.map .num) ∧ l.length ≤ 200 ∧ ∀ x ∈ l, ¬ IsMultiple x nm :=
  not_multiples h hq nm (by unfold effNotMultipleOf; rw [hm]; simp [getZeroIfNil, hnm]) hnm he

/-- **C41** for `not: {"type": "integer"}`: applied without an error to a schema without an enum, it leaves a list of at
most 200 numbers, none of which is a whole number. -/
theorem C41_not_integer {c : PEnv} {k : Nat} {node notNode n : SchemaNode} {cc : ConstraintColl} {s s' : PSt}
    (h : notMerge c k node notNode s = .ok (n, cc) s') (hq : s'.errors = s.errors)
    (ht : notNode.type = some { single := "integer" }) (hm : notNode.multipleOf = none) (he : node.enum = none) :
    ∃ l : List Rat, n.enum = some (l.map .num) ∧ l.length ≤ 200 ∧ ∀ x ∈ l, ∀ z : Int, x ≠ z := by
  obtain ⟨l, h1, h2, h3⟩ := not_multiples h hq 1 (by unfold effNotMultipleOf; rw [hm, ht]; rfl) (by norm_num) he
  exact ⟨l, h1, h2, fun x hx z hz => h3 x hx ⟨z, by rw [hz]; ring⟩⟩

/-- `{"type": "number", "minimum": 0, "maximum": 2, "multipleOf": 0.5, "not": {"type": "integer"}}` leaves 0.5 and 1.5. -/
example : ∃ r s', notMerge demoEnv 3
      { type := some { single := "number" }, minimum := some 0, maximum := some 2, multipleOf := some (1 / 2) }
      { type := some { single := "integer" } } emptyPSt = .ok r s' ∧
      (decide (s'.errors = []) && JVal.jeq (.arr (getZeroIfNil r.1.enum [])) (.arr [.num (1 / 2), .num (3 / 2)])) = true :=
  Res.witness (by decide +kernel)


/-- With an enum the negated `multipleOf` is lost: `{"type": "number", "enum": [6, 7], "not": {"multipleOf": 3}}` keeps
6 although no error is recorded. -/
theorem C41_enum_violation : ∃ r s', notMerge demoEnv 3
      { type := some { single := "number" }, enum := some [.num 6, .num 7], minimum := some 0, maximum := some 100 }
      { multipleOf := some 3 } emptyPSt = .ok r s' ∧
      (decide (s'.errors = []) && (getZeroIfNil r.1.enum []).any (fun v => JVal.jeq v (.num 6)) &&
        r.1.multipleOf.isNone && r.2.notValues.isEmpty) = true :=
  Res.witness (by decide +kernel)

/-! ## C42: negated enum and const -/

theorem addValues_mem_old {old new : List JVal} {w : JVal} (h : w ∈ old) : w ∈ addValues old new := by
  unfold addValues
  induction new generalizing old with
  | nil => exact h
  | cons v t ih =>
    simp only [List.foldl_cons]
    split
    · exact ih h
    · exact ih (List.mem_append_left _ h)

theorem addValues_mem_new {old new : List JVal} {v : JVal} (hv : v ∈ new) (hw : JVal.WF v) :
    ∃ w ∈ addValues old new, JVal.jeq v w = true := by
  unfold addValues
  induction new generalizing old with
  | nil => cases hv
  | cons u t ih =>
    simp only [List.foldl_cons]
    rcases List.mem_cons.1 hv with rfl | hv
    · split
      · rename_i ha
        obtain ⟨w, hw, he⟩ := List.any_eq_true.1 ha
        exact ⟨w, addValues_mem_old hw, he⟩
      · exact ⟨v, addValues_mem_old (by simp), JVal.jeq_refl v hw⟩
    · split
      · exact ih hv
      · exact ih hv

/-- **C42.** When a `not` is applied without an error to a schema with an enum, the enum that is left has the original
values that are not equal to a negated enum value, in the original order, and there is at least one. -/
theorem C42_enum_left {c : PEnv} {k : Nat} {node notNode n : SchemaNode} {cc : ConstraintColl} {s s' : PSt}
    (h : notMerge c k node notNode s = .ok (n, cc) s') (hq : s'.errors = s.errors)
    (l : List JVal) (he : node.enum = some l) (hl : l ≠ []) :
    ∃ d, n.enum = some d ∧ d ≠ [] ∧ d.Sublist l ∧
      ∀ x, x ∈ d ↔ x ∈ l ∧ ∀ e, notNode.enum = some e → ∀ w ∈ e, JVal.jeq x w = false := by
  have R := notMerge_inv h (by rw [hq])
  obtain ⟨n0, n1, n2, cc0, cc1, s0, s1, s2, s3, r3, et, en, -, h1, hq1, -, -, -, h2, hq2, ee, -⟩ := R.number
  unfold notApplyEnum at h2
  dsimp only at h2
  rw [if_neg (by rw [he]; simp)] at h2
  rw [if_neg (by
    rintro ⟨e, -⟩
    rw [he] at e
    exact hl (List.length_eq_zero_iff.1 e))] at h2
  obtain ⟨m, s9, h9, h2⟩ := bind_ok.1 h2
  obtain ⟨e2, rfl⟩ := pure_ok.1 h2
  obtain ⟨i1, i2⟩ := notEnumRest_inv h9 hq2
  rw [he] at i1 i2
  refine ⟨diffValues l (getZeroIfNil notNode.enum []), ?_, i2, List.filter_sublist, fun x => ?_⟩
  · rw [ee, ← (Prod.mk.inj e2).1]; exact i1
  · unfold diffValues
    rw [List.mem_filter]
    cases hnn : notNode.enum with
    | none => simp [getZeroIfNil]
    | some e => simp [getZeroIfNil]

/-- **C42**, the rest: when a `not` is applied without an error, a negated constant is always among the values the
generated value is checked against afterwards, and so is every negated enum value if the schema itself has neither an
enum nor a const. -/
theorem C42_negated_values_checked {c : PEnv} {k : Nat} {node notNode n : SchemaNode} {cc : ConstraintColl} {s s' : PSt}
    (h : notMerge c k node notNode s = .ok (n, cc) s') (hq : s'.errors = s.errors) :
    (∀ v, notNode.const = some v → JVal.WF v → ∃ w ∈ cc.notValues, JVal.jeq v w = true) ∧
    (node.enum = none → node.const = none → ∀ e, notNode.enum = some e → ∀ v ∈ e, JVal.WF v →
      ∃ w ∈ cc.notValues, JVal.jeq v w = true) := by
  have R := notMerge_inv h (by rw [hq])
  obtain ⟨n0, n1, n2, cc0, cc1, s0, s1, s2, s3, r3, et, en, -, h1, hq1, -, -, -, h2, hq2, ee, h3, hq3, ev⟩ := R.number
  have mono : ∀ w ∈ cc1.notValues, w ∈ r3.2.notValues := by
    intro w hw
    unfold notApplyConst at h3
    dsimp only at h3
    cases hc : notNode.const with
    | none => rw [hc] at h3; obtain ⟨rfl, -⟩ := pure_ok.1 h3; exact hw
    | some v =>
      rw [hc] at h3
      dsimp only at h3
      split at h3
      · obtain ⟨u, s9, h9, h3⟩ := bind_ok.1 h3
        obtain ⟨rfl, -⟩ := pure_ok.1 h3; exact hw
      · split at h3
        · obtain ⟨u, s9, h9, h3⟩ := bind_ok.1 h3
          obtain ⟨rfl, -⟩ := pure_ok.1 h3; exact hw
        · obtain ⟨rfl, -⟩ := pure_ok.1 h3
          exact addValues_mem_old hw
  constructor
  · intro v hv hw
    rw [ev]
    unfold notApplyConst at h3
    dsimp only at h3
    rw [hv] at h3
    dsimp only at h3
    split at h3
    · obtain ⟨u, s9, h9, h3⟩ := bind_ok.1 h3
      obtain ⟨-, rfl⟩ := pure_ok.1 h3
      have := warnField_grow h9; omega
    · split at h3
      · obtain ⟨u, s9, h9, h3⟩ := bind_ok.1 h3
        obtain ⟨-, rfl⟩ := pure_ok.1 h3
        have := warnField_grow h9; omega
      · obtain ⟨rfl, -⟩ := pure_ok.1 h3
        exact addValues_mem_new (by simp) hw
  · intro he hc e hne v hv hw
    rw [ev]
    unfold notApplyEnum at h2
    dsimp only at h2
    rw [if_neg (by rw [hne]; simp), he, hne] at h2
    rw [if_pos ⟨rfl, by intro e0; rw [List.length_eq_zero_iff] at e0; simp [getZeroIfNil] at e0; rw [e0] at hv; cases hv⟩, hc] at h2
    obtain ⟨e2, -⟩ := pure_ok.1 h2
    obtain ⟨w, hw1, hw2⟩ := addValues_mem_new (old := cc0.notValues) hv hw
    refine ⟨w, mono w ?_, hw2⟩
    rw [← (Prod.mk.inj e2).2]
    exact hw1

/-- `{"enum": [1, "a", 2], "not": {"enum": [2, 1]}}` keeps `"a"`. -/
example : ∃ r s', notMerge demoEnv 3 { enum := some [.num 1, .str "a", .num 2] } { enum := some [.num 2, .num 1] } emptyPSt =
    .ok r s' ∧ (decide (s'.errors = []) && decide ((getZeroIfNil r.1.enum []).length = 1) &&
      (getZeroIfNil r.1.enum []).any (fun v => JVal.jeq v (.str "a"))) = true :=
  Res.witness (by decide +kernel)

/-- `{"not": {"const": 3}}` has 3 checked afterwards. -/
example : ∃ r s', notMerge demoEnv 3 {} { const := some (.num 3) } emptyPSt =
    .ok r s' ∧ (decide (s'.errors = []) && r.2.notValues.any (fun v => JVal.jeq v (.num 3))) = true :=
  Res.witness (by decide +kernel)

/-! ## C62: negated required names, patterns and formats -/

theorem mem_nonConflicting {a b : List String} {k : String} : k ∈ nonConflicting a b ↔ k ∈ b ∧ k ∉ a := by
  unfold nonConflicting; simp

/-- **C62.** When a `not` is applied without an error: every name it requires, unless the schema requires it too, is
declared by no property of the result and is among the names checked on the generated object; a negated pattern, or else
a negated format, is among those checked on the generated string. -/
theorem C62_negated_names_and_patterns_enforced {c : PEnv} {k : Nat} {node notNode n : SchemaNode} {cc : ConstraintColl}
    {s s' : PSt} (h : notMerge c k node notNode s = .ok (n, cc) s') (hq : s'.errors = s.errors) :
    (∀ names, notNode.required = some names → ∀ x ∈ names, (∀ r, node.required = some r → x ∉ r) →
      x ∈ cc.mustNotHave ∧ ∀ ps, n.properties = some ps → lookupKV ps x = none) ∧
    (∀ p, notNode.pattern = some p → p ∈ cc.notRegex) ∧
    (∀ f, notNode.pattern = none → notNode.format = some f → f ∈ cc.notFormats) ∧
    n.required = node.required := by
  have R := notMerge_inv h (by rw [hq])
  refine ⟨fun names hn x hx hr => ?_, R.regex, fun f a b => R.formats a f b, R.required⟩
  have hm : x ∈ cc.mustNotHave := by
    rw [R.mustNotHave, mem_nonConflicting]
    refine ⟨by rw [hn]; exact hx, ?_⟩
    cases h : node.required with
    | none => simp [getZeroIfNil]
    | some r => exact hr r h
  refine ⟨hm, fun ps hps => ?_⟩
  have := R.forbidden x hm
  rw [hps] at this
  exact this

/-- A name that is required and negated at once is a contradiction that is not reported: the result still requires it and
nothing is checked. -/
theorem C62_contradiction_silent_violation : ∃ r s', notMerge demoEnv 3 { required := some ["a"] } { required := some ["a"] }
    emptyPSt = .ok r s' ∧ (decide (s'.errors = []) && decide (r.1.required = some ["a"]) && r.2.mustNotHave.isEmpty) = true :=
  Res.witness (by decide +kernel)

/-- `{"properties": {"a": {}, "b": {}}, "not": {"required": ["a"]}}`: `a` is removed and checked. -/
example : ∃ r s', notMerge demoEnv 3 { properties := some [("a", {}), ("b", {})] } { required := some ["a"] }
    emptyPSt = .ok r s' ∧ (decide (s'.errors = []) && decide (keysKV (getZeroIfNil r.1.properties []) = ["b"]) &&
      decide (r.2.mustNotHave = ["a"])) = true :=
  Res.witness (by decide +kernel)

end Chaff
