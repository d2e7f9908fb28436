import Verif.Spec.Number
import Verif.Spec.Rounding
import Verif.Lemmas.RandPost
import Verif.Model.Gen
import Verif.Lemmas.Binary64
import Verif.Props.Object
import Mathlib.Tactic.Linarith
import Mathlib.Tactic.Ring
import Mathlib.Tactic.FieldSimp
import Mathlib.Tactic.NormNum
import Mathlib.Algebra.Order.Field.Basic
/-!
# C20 - C22: numbers
-/

set_option linter.unusedVariables false

namespace Chaff
open Comp

section
variable {F : FP} {P : Platform} {n : NumSpec}

/-! ## The effective bounds -/

theorem le_maxPtr2 {a b : Option Rat} {lo x : Rat} (h : maxPtr [a, b] = some lo) (hx : a = some x ∨ b = some x) : x ≤ lo := by
  cases a with
  | none =>
    cases b with
    | none => simp at hx
    | some b =>
      simp [maxPtr, maxPtrStep] at h
      simp at hx
      subst h; subst hx; exact le_refl _
  | some a =>
    cases b with
    | none =>
      simp [maxPtr, maxPtrStep] at h
      simp at hx
      subst h; subst hx; exact le_refl _
    | some b =>
      simp only [maxPtr, List.foldl, maxPtrStep] at h
      simp at hx
      split at h
      · cases h
        rcases hx with rfl | rfl <;> linarith
      · cases h
        rcases hx with rfl | rfl <;> linarith

theorem minPtr2_le {a b : Option Rat} {hi x : Rat} (h : minPtr [a, b] = some hi) (hx : a = some x ∨ b = some x) : hi ≤ x := by
  cases a with
  | none =>
    cases b with
    | none => simp at hx
    | some b =>
      simp [minPtr, minPtrStep] at h
      simp at hx
      subst h; subst hx; exact le_refl _
  | some a =>
    cases b with
    | none =>
      simp [minPtr, minPtrStep] at h
      simp at hx
      subst h; subst hx; exact le_refl _
    | some b =>
      simp only [minPtr, List.foldl, minPtrStep] at h
      simp at hx
      split at h
      · cases h
        rcases hx with rfl | rfl <;> linarith
      · cases h
        rcases hx with rfl | rfl <;> linarith

theorem maxPtr2_mem {a b : Option Rat} {lo : Rat} (h : maxPtr [a, b] = some lo) : a = some lo ∨ b = some lo := by
  cases a with
  | none => cases b <;> simp_all [maxPtr, maxPtrStep]
  | some a =>
    cases b with
    | none => simp_all [maxPtr, maxPtrStep]
    | some b =>
      simp only [maxPtr, List.foldl, maxPtrStep] at h
      split at h <;> simp_all

theorem minPtr2_mem {a b : Option Rat} {lo : Rat} (h : minPtr [a, b] = some lo) : a = some lo ∨ b = some lo := by
  cases a with
  | none => cases b <;> simp_all [minPtr, minPtrStep]
  | some a =>
    cases b with
    | none => simp_all [minPtr, minPtrStep]
    | some b =>
      simp only [minPtr, List.foldl, minPtrStep] at h
      split at h <;> simp_all

theorem maxPtr2_none {a b : Option Rat} (h : maxPtr [a, b] = none) : a = none ∧ b = none := by
  cases a <;> cases b <;> simp_all [maxPtr, maxPtrStep]
  split at h <;> simp at h

theorem minPtr2_none {a b : Option Rat} (h : minPtr [a, b] = none) : a = none ∧ b = none := by
  cases a <;> cases b <;> simp_all [minPtr, minPtrStep]
  split at h <;> simp at h

/-- The offset added to or subtracted from exclusive bounds. -/
def exclOffset (F : FP) (mustBeInt : Bool) : Rat := if mustBeInt then 1 else infinitesimal F

/-- The effective bounds imply the given ones. -/
theorem effectiveBounds_spec (mustBeInt : Bool) :
    (∀ x, n.minimum = some x → x ≤ (effectiveBounds F n mustBeInt).1) ∧
    (∀ x, n.maximum = some x → (effectiveBounds F n mustBeInt).2 ≤ x) ∧
    (∀ x, n.exclusiveMinimum = some x → F.add x (exclOffset F mustBeInt) ≤ (effectiveBounds F n mustBeInt).1) ∧
    (∀ x, n.exclusiveMaximum = some x → (effectiveBounds F n mustBeInt).2 ≤ F.add x (-exclOffset F mustBeInt)) := by
  have hadd : ∀ (o : Option Rat) (off x : Rat), o = some x → addIfNotNil F o off = some (F.add x off) := by
    intro o off x h; subst h; rfl
  unfold effectiveBounds
  simp only
  rw [show (if mustBeInt = true then (1 : Rat) else infinitesimal F) = exclOffset F mustBeInt from rfl]
  cases hlo : maxPtr [n.minimum, addIfNotNil F n.exclusiveMinimum (exclOffset F mustBeInt)] with
  | none =>
    obtain ⟨h1, h2⟩ := maxPtr2_none hlo
    have h2' : n.exclusiveMinimum = none := by
      cases h : n.exclusiveMinimum with
      | none => rfl
      | some x => rw [h] at h2; cases h2
    cases hhi : minPtr [n.maximum, addIfNotNil F n.exclusiveMaximum (-exclOffset F mustBeInt)] with
    | none =>
      obtain ⟨h3, h4⟩ := minPtr2_none hhi
      have h4' : n.exclusiveMaximum = none := by
        cases h : n.exclusiveMaximum with
        | none => rfl
        | some x => rw [h] at h4; cases h4
      refine ⟨?_, ?_, ?_, ?_⟩ <;> intro x hx
      · rw [h1] at hx; cases hx
      · rw [h3] at hx; cases hx
      · rw [h2'] at hx; cases hx
      · rw [h4'] at hx; cases hx
    | some hi =>
      refine ⟨?_, ?_, ?_, ?_⟩ <;> intro x hx
      · rw [h1] at hx; cases hx
      · exact minPtr2_le hhi (Or.inl hx)
      · rw [h2'] at hx; cases hx
      · exact minPtr2_le hhi (Or.inr (hadd _ _ _ hx))
  | some lo =>
    cases hhi : minPtr [n.maximum, addIfNotNil F n.exclusiveMaximum (-exclOffset F mustBeInt)] with
    | none =>
      obtain ⟨h3, h4⟩ := minPtr2_none hhi
      have h4' : n.exclusiveMaximum = none := by
        cases h : n.exclusiveMaximum with
        | none => rfl
        | some x => rw [h] at h4; cases h4
      refine ⟨?_, ?_, ?_, ?_⟩ <;> intro x hx
      · exact le_maxPtr2 hlo (Or.inl hx)
      · rw [h3] at hx; cases hx
      · exact le_maxPtr2 hlo (Or.inr (hadd _ _ _ hx))
      · rw [h4'] at hx; cases hx
    | some hi =>
      refine ⟨?_, ?_, ?_, ?_⟩ <;> intro x hx
      · exact le_maxPtr2 hlo (Or.inl hx)
      · exact minPtr2_le hhi (Or.inl hx)
      · exact le_maxPtr2 hlo (Or.inr (hadd _ _ _ hx))
      · exact minPtr2_le hhi (Or.inr (hadd _ _ _ hx))

/-- Clamping only narrows. -/
theorem clamp_le (b : Rat × Rat) : b.1 ≤ (clampBounds F b).1 ∧ (clampBounds F b).2 ≤ b.2 := by
  unfold clampBounds
  constructor
  · simp only; split <;> linarith
  · simp only; split <;> linarith

/-! ## What acceptance means -/

theorem resolve_ok {mustBeInt : Bool} {mn mx : Rat} (h : resolveMinMaxForNode F P n mustBeInt = .ok (mn, mx)) :
    mn ≤ mx ∧ checkMultipleOf F P mustBeInt mn mx n.multipleOf = none ∧
    mn = (if mustBeInt then (fCeil (clampBounds F (effectiveBounds F n mustBeInt)).1 : Rat) else (clampBounds F (effectiveBounds F n mustBeInt)).1) ∧
    mx = (if mustBeInt then (fFloor (clampBounds F (effectiveBounds F n mustBeInt)).2 : Rat) else (clampBounds F (effectiveBounds F n mustBeInt)).2) := by
  unfold resolveMinMaxForNode at h
  simp only at h
  by_cases h0 : mustBeInt = true ∧
      fFloor (clampBounds F (effectiveBounds F n mustBeInt)).1 = fFloor (clampBounds F (effectiveBounds F n mustBeInt)).2
  · rw [if_pos h0] at h; cases h
  rw [if_neg h0] at h
  generalize hmn : (if mustBeInt = true then (fCeil (clampBounds F (effectiveBounds F n mustBeInt)).1 : Rat)
    else (clampBounds F (effectiveBounds F n mustBeInt)).1) = a at h ⊢
  generalize hmx : (if mustBeInt = true then (fFloor (clampBounds F (effectiveBounds F n mustBeInt)).2 : Rat)
    else (clampBounds F (effectiveBounds F n mustBeInt)).2) = b at h ⊢
  by_cases h1 : a > b
  · rw [if_pos h1] at h; cases h
  rw [if_neg h1] at h
  cases hchk : checkMultipleOf F P mustBeInt a b n.multipleOf with
  | some e => rw [hchk] at h; cases h
  | none =>
    rw [hchk] at h
    injection h with h
    injection h with h2 h3
    subst h2; subst h3
    exact ⟨not_lt.1 h1, hchk, rfl, rfl⟩

/-! ## Random numbers -/

theorem float64_post (w : World) (s : GSt) : Post (float64 w) s (fun u _ => 0 ≤ u ∧ u < 1) := by
  intro u s' h
  unfold float64 at h
  obtain ⟨x, s1, _, h⟩ := bind_ok.1 h
  rw [pure_ok] at h
  obtain ⟨rfl, _⟩ := h
  have hx : x % 2 ^ 53 < 2 ^ 53 := Nat.mod_lt _ (by norm_num)
  have hx' : ((x % 2 ^ 53 : Nat) : Rat) < 2 ^ 53 := by exact_mod_cast hx
  constructor
  · positivity
  · rw [div_lt_one (by norm_num)]; exact hx'

theorem FP.Lawful.zero (hF : F.Lawful) : F.rnd 0 = 0 := by
  have := hF.int 0 (by norm_num); simpa using this

/-- A random float between two integers of moderate size stays between them. -/
theorem randomFloat_int_post (w : World) (hF : w.fp.Lawful) (a b : Int) (hab : a ≤ b)
    (ha : |a| ≤ 2 ^ 52) (hb : |b| ≤ 2 ^ 52) (s : GSt) :
    Post (randomFloat w a b) s (fun f _ => (a : Rat) ≤ f ∧ f ≤ b) := by
  intro f s' h
  unfold randomFloat at h
  obtain ⟨u, s1, h1, h⟩ := bind_ok.1 h
  rw [pure_ok] at h
  obtain ⟨rfl, _⟩ := h
  obtain ⟨hu0, hu1⟩ := float64_post w s u s1 h1
  have ha' := abs_le.1 ha
  have hb' := abs_le.1 hb
  have hba : |b - a| ≤ 2 ^ 53 := by rw [abs_le]; constructor <;> linarith
  have hsub : w.fp.sub (b : Rat) a = ((b - a : Int) : Rat) := by
    unfold FP.sub
    have := hF.int (b - a) hba
    rw [← this]; push_cast; rfl
  have h0 : (0 : Rat) ≤ ((b - a : Int) : Rat) := by exact_mod_cast (by omega : (0 : Int) ≤ b - a)
  have hm0 : 0 ≤ w.fp.mul u (w.fp.sub (b : Rat) a) := by
    rw [hsub]; unfold FP.mul
    have := hF.mono 0 _ (mul_nonneg hu0 h0)
    rwa [hF.zero] at this
  have hm1 : w.fp.mul u (w.fp.sub (b : Rat) a) ≤ ((b - a : Int) : Rat) := by
    rw [hsub]; unfold FP.mul
    have := hF.mono (u * ((b - a : Int) : Rat)) ((b - a : Int) : Rat) (by nlinarith)
    rwa [hF.int _ hba] at this
  unfold FP.add
  have hai := hF.int a (by rw [abs_le]; constructor <;> linarith)
  have hbi := hF.int b (by rw [abs_le]; constructor <;> linarith)
  constructor
  · rw [← hai]; exact hF.mono _ _ (by rw [hai]; linarith)
  · rw [← hbi]; refine hF.mono _ _ ?_
    push_cast at hm1; rw [hbi]; linarith

theorem fRound_between {q : Rat} {a b : Int} (ha : (a : Rat) ≤ q) (hb : q ≤ b) : a ≤ fRound q ∧ fRound q ≤ b := by
  unfold fRound
  split
  · rename_i h
    constructor
    · rw [Int.le_floor]; linarith
    · have : ⌊q + 1 / 2⌋ < b + 1 := by rw [Int.floor_lt]; push_cast; linarith
      omega
  · rename_i h
    constructor
    · have : ⌊-q + 1 / 2⌋ < -a + 1 := by rw [Int.floor_lt]; push_cast; linarith
      omega
    · have : -b ≤ ⌊-q + 1 / 2⌋ := by rw [Int.le_floor]; push_cast; linarith
      omega

theorem toInt64_int (P : Platform) (i : Int) (h : |i| ≤ 2 ^ 62) : toInt64 P (i : Rat) = i := by
  have h' := abs_le.1 h
  unfold toInt64 fTrunc
  have : (if (0 : Rat) ≤ (i : Rat) then ⌊(i : Rat)⌋ else ⌈(i : Rat)⌉) = i := by split <;> simp
  simp only [this]
  rw [if_neg (by omega), if_neg (by omega)]

theorem wrap64_small (i : Int) (h : |i| ≤ 2 ^ 62) : wrap64 i = i := by
  have h' := abs_le.1 h
  unfold wrap64
  rw [Int.emod_eq_of_lt (by omega) (by omega)]; omega

/-! ## Counting multiples -/

/-- Whenever the quotients' floors are exact and of moderate size, the count is the number of multiples
above `min` up to `max`. -/
theorem countMultiples_eq {mn mx m : Rat} (hm : m ≠ 0) (h1 : ⌊F.rnd (mn / m)⌋ = ⌊mn / m⌋) (h2 : ⌊F.rnd (mx / m)⌋ = ⌊mx / m⌋)
    (hmn : |⌊mn / m⌋| ≤ 2 ^ 61) (hmx : |⌊mx / m⌋| ≤ 2 ^ 61) :
    countMultiplesInRange F P mn mx m = ⌊mx / m⌋ - ⌊mn / m⌋ := by
  unfold countMultiplesInRange fdiv0
  simp only [if_neg hm, floorToInt, FP.div, fFloor, h1, h2]
  rw [toInt64_int _ _ (hmn.trans (by norm_num)), toInt64_int _ _ (hmx.trans (by norm_num))]
  split
  · rename_i h0; subst h0; simp
  · refine wrap64_small _ ?_
    have := abs_le.1 hmn
    have := abs_le.1 hmx
    rw [abs_le]; constructor <;> omega

/-! ## Integers -/

theorem abs_rnd_le (hF : F.Lawful) {x : Rat} {k : Int} (hk : |k| ≤ 2 ^ 53) (hx : |x| ≤ k) : |F.rnd x| ≤ k := by
  obtain ⟨h1, h2⟩ := abs_le.1 hx
  have hk' : |-k| ≤ 2 ^ 53 := by rwa [abs_neg]
  rw [abs_le]
  constructor
  · have := hF.mono (-k : Int) x (by push_cast; exact h1)
    rw [hF.int _ hk'] at this; push_cast at this; exact this
  · have := hF.mono x k h2
    rwa [hF.int _ hk] at this

theorem offset_range (hF : F.Lawful) (hw : ∀ x, n.multipleOf = some x → 0 < x ∧ x ≤ 2 ^ 42) :
    |getFloat [F.mul (getZeroIfNil n.multipleOf 0) 100, (defaultOffset : Rat)]| ≤ 2 ^ 49 := by
  have hm : 0 ≤ getZeroIfNil n.multipleOf 0 ∧ getZeroIfNil n.multipleOf 0 ≤ 2 ^ 42 := by
    cases h : n.multipleOf with
    | none => simp [getZeroIfNil]
    | some x => have := hw x h; simp only [getZeroIfNil]; exact ⟨this.1.le, this.2⟩
  unfold getFloat getFloat getFloat
  have := abs_rnd_le hF (x := getZeroIfNil n.multipleOf 0 * 100) (k := 2 ^ 49) (by norm_num)
    (by rw [abs_le]; push_cast; constructor <;> linarith [hm.1, hm.2])
  push_cast at this
  split
  · exact this
  · split
    · norm_num [defaultOffset]
    · norm_num

/-- Integer bounds stay within 2^51 when the keywords are within 2^50. -/
theorem effectiveBounds_int_range (hF : F.Lawful) (hw : n.Within (2 ^ 50) (2 ^ 42)) :
    |(effectiveBounds F n true).1| ≤ 2 ^ 51 ∧ |(effectiveBounds F n true).2| ≤ 2 ^ 51 := by
  have hoff := offset_range hF hw.multipleOf
  have hlo : ∀ lo, maxPtr [n.minimum, addIfNotNil F n.exclusiveMinimum 1] = some lo → |lo| ≤ 2 ^ 50 + 1 := by
    intro lo h
    rcases maxPtr2_mem h with h | h
    · have := hw.minimum _ h; linarith
    · cases he : n.exclusiveMinimum with
      | none => rw [he] at h; cases h
      | some x =>
        rw [he] at h
        cases h
        have hx := abs_le.1 (hw.exclusiveMinimum _ he)
        have := abs_rnd_le hF (x := x + 1) (k := 2 ^ 50 + 1) (by norm_num)
          (by rw [abs_le]; push_cast; constructor <;> linarith [hx.1, hx.2])
        unfold FP.add; norm_num at this ⊢; exact this
  have hhi : ∀ hi, minPtr [n.maximum, addIfNotNil F n.exclusiveMaximum (-1)] = some hi → |hi| ≤ 2 ^ 50 + 1 := by
    intro lo h
    rcases minPtr2_mem h with h | h
    · have := hw.maximum _ h; linarith
    · cases he : n.exclusiveMaximum with
      | none => rw [he] at h; cases h
      | some x =>
        rw [he] at h
        cases h
        have hx := abs_le.1 (hw.exclusiveMaximum _ he)
        have := abs_rnd_le hF (x := x + -1) (k := 2 ^ 50 + 1) (by norm_num)
          (by rw [abs_le]; push_cast; constructor <;> linarith [hx.1, hx.2])
        unfold FP.add; norm_num at this ⊢; exact this
  have hcomb : ∀ a b : Rat, |a| ≤ 2 ^ 50 + 1 → |b| ≤ 2 ^ 49 → |F.rnd (a + b)| ≤ 2 ^ 51 := by
    intro a b ha hb
    have ha := abs_le.1 ha
    have hb := abs_le.1 hb
    have := abs_rnd_le hF (x := a + b) (k := 2 ^ 51) (by norm_num)
      (by rw [abs_le]; push_cast; constructor <;> linarith [ha.1, ha.2, hb.1, hb.2])
    push_cast at this; exact this
  unfold effectiveBounds
  simp only [if_pos trivial]
  cases h1 : maxPtr [n.minimum, addIfNotNil F n.exclusiveMinimum 1] with
  | none =>
    cases h2 : minPtr [n.maximum, addIfNotNil F n.exclusiveMaximum (-1)] with
    | none => simp only; constructor
              · norm_num
              · linarith
    | some hi =>
      have := hhi hi h2
      simp only
      refine ⟨?_, by linarith⟩
      unfold FP.sub
      rw [sub_eq_add_neg]
      exact hcomb _ _ this (by rw [abs_neg]; exact hoff)
  | some lo =>
    have hl := hlo lo h1
    cases h2 : minPtr [n.maximum, addIfNotNil F n.exclusiveMaximum (-1)] with
    | none => simp only; exact ⟨by linarith, hcomb _ _ hl hoff⟩
    | some hi =>
      have := hhi hi h2
      simp only; exact ⟨by linarith, by linarith⟩

/-- Acceptance of an integer schema: integer bounds that imply the keywords. -/
theorem resolve_int (hF : F.Lawful) (hw : n.Within (2 ^ 50) (2 ^ 42)) {mn mx : Rat}
    (h : resolveMinMaxForNode F P n true = .ok (mn, mx)) :
    ∃ a b : Int, mn = a ∧ mx = b ∧ a ≤ b ∧ |a| ≤ 2 ^ 51 ∧ |b| ≤ 2 ^ 51 ∧
      (∀ q : Int, a ≤ q → q ≤ b → (∀ m, n.multipleOf = some m → ∃ k : Int, (q : Rat) = k * m) → n.Accepts q) := by
  obtain ⟨hle, _, hmn, hmx⟩ := resolve_ok h
  rw [if_pos rfl] at hmn hmx
  obtain ⟨hb1, hb2⟩ := effectiveBounds_int_range (F := F) hF hw
  obtain ⟨s1, s2, s3, s4⟩ := effectiveBounds_spec (F := F) (n := n) true
  obtain ⟨c1, c2⟩ := clamp_le (F := F) (effectiveBounds F n true)
  set eb := effectiveBounds F n true
  have hb1 := abs_le.1 hb1
  have hb2 := abs_le.1 hb2
  have hc : (clampBounds F eb).1 ≤ (fCeil (clampBounds F eb).1 : Rat) := Int.le_ceil _
  have hf : (fFloor (clampBounds F eb).2 : Rat) ≤ (clampBounds F eb).2 := Int.floor_le _
  refine ⟨fCeil (clampBounds F eb).1, fFloor (clampBounds F eb).2, hmn, hmx, ?_, ?_, ?_, ?_⟩
  · rw [hmn, hmx] at hle; exact_mod_cast hle
  · rw [hmn, hmx] at hle
    have : |(fCeil (clampBounds F eb).1 : Rat)| ≤ 2 ^ 51 := by rw [abs_le]; constructor <;> linarith [hb1.1, hb2.2]
    exact_mod_cast this
  · rw [hmn, hmx] at hle
    have : |(fFloor (clampBounds F eb).2 : Rat)| ≤ 2 ^ 51 := by rw [abs_le]; constructor <;> linarith [hb1.1, hb2.2]
    exact_mod_cast this
  · intro q hq1 hq2 hmul
    have hq1' : (fCeil (clampBounds F eb).1 : Rat) ≤ q := by exact_mod_cast hq1
    have hq2' : (q : Rat) ≤ (fFloor (clampBounds F eb).2 : Rat) := by exact_mod_cast hq2
    refine ⟨fun x hx => ?_, fun x hx => ?_, fun x hx => ?_, fun x hx => ?_, hmul⟩
    · have := s1 x hx; linarith
    · have := s2 x hx; linarith
    · have h3 := s3 x hx
      have hx' := abs_le.1 (hw.exclusiveMinimum x hx)
      have hfl : |⌊x⌋ + 1| ≤ 2 ^ 53 := by
        have h1 : (-(2 ^ 50) : Int) ≤ ⌊x⌋ := Int.le_floor.2 (by push_cast; exact hx'.1)
        have h2 : ⌊x⌋ ≤ 2 ^ 50 := by
          have : (⌊x⌋ : Rat) ≤ 2 ^ 50 := (Int.floor_le x).trans hx'.2
          exact_mod_cast this
        rw [abs_le]; constructor <;> omega
      have hm := hF.mono ((⌊x⌋ + 1 : Int) : Rat) (x + 1) (by push_cast; linarith [Int.floor_le x])
      rw [hF.int _ hfl] at hm
      have hlt := Int.lt_floor_add_one x
      have he : F.add x (exclOffset F true) = F.rnd (x + 1) := rfl
      rw [he] at h3
      push_cast at hm
      linarith
    · have h4 := s4 x hx
      have hx' := abs_le.1 (hw.exclusiveMaximum x hx)
      have hfl : |⌈x⌉ - 1| ≤ 2 ^ 53 := by
        have h1 : ⌈x⌉ ≤ (2 ^ 50 : Int) := Int.ceil_le.2 (by push_cast; exact hx'.2)
        have h2 : -(2 ^ 50) ≤ ⌈x⌉ := by
          have : (-(2 ^ 50) : Rat) ≤ ⌈x⌉ := hx'.1.trans (Int.le_ceil x)
          exact_mod_cast this
        rw [abs_le]; constructor <;> omega
      have hm := hF.mono (x + -1) ((⌈x⌉ - 1 : Int) : Rat) (by push_cast; linarith [Int.le_ceil x])
      rw [hF.int _ hfl] at hm
      have hlt := Int.ceil_lt_add_one x
      have he : F.add x (-exclOffset F true) = F.rnd (x + -1) := rfl
      rw [he] at h4
      push_cast at hm
      linarith

/-- Drawing a multiple of an integer. -/
theorem generateMultipleOf_int_post (w : World) (hF : w.fp.Lawful) {a b m : Int} (hm : 0 < m) (hm' : m ≤ 2 ^ 42)
    (hab : a ≤ b) (ha : |a| ≤ 2 ^ 51) (hb : |b| ≤ 2 ^ 51)
    (hn : countMultiplesInRange w.fp w.plat (a : Rat) b m ≠ 0) (s : GSt) :
    Post (generateMultipleOf w a b m) s (fun q _ => ∃ k : Int, q = ((k * m : Int) : Rat) ∧ a ≤ k * m ∧ k * m ≤ b) ∧
    NoPanic (generateMultipleOf w a b m) := by
  have ha' := abs_le.1 ha
  have hb' := abs_le.1 hb
  have hmq : (0 : Rat) < m := by exact_mod_cast hm
  have hda := hF.floorDiv a m (ha.trans (by norm_num)) hm (hm'.trans (by norm_num))
  have hdb := hF.floorDiv b m (hb.trans (by norm_num)) hm (hm'.trans (by norm_num))
  set fa := ⌊(a : Rat) / m⌋ with hfa
  set fb := ⌊(b : Rat) / m⌋ with hfb
  have fa1 : fa * m ≤ a := by
    have := Int.floor_le ((a : Rat) / m)
    rw [← hfa, le_div_iff₀ hmq] at this; exact_mod_cast this
  have fa2 : a < (fa + 1) * m := by
    have := Int.lt_floor_add_one ((a : Rat) / m)
    rw [← hfa, div_lt_iff₀ hmq] at this; exact_mod_cast this
  have fb1 : fb * m ≤ b := by
    have := Int.floor_le ((b : Rat) / m)
    rw [← hfb, le_div_iff₀ hmq] at this; exact_mod_cast this
  have fab : fa ≤ fb := by
    apply Int.floor_le_floor
    exact div_le_div_of_nonneg_right (by exact_mod_cast hab) hmq.le
  have hfam : |fa| ≤ 2 ^ 52 := by
    rw [abs_le]; constructor <;> nlinarith
  have hfbm : |fb| ≤ 2 ^ 52 := by
    rw [abs_le]; constructor <;> nlinarith
  have hfam' := abs_le.1 hfam
  have hfbm' := abs_le.1 hfbm
  have hcount := countMultiples_eq (F := w.fp) (P := w.plat) hmq.ne' hda hdb
    (hfam.trans (by norm_num)) (hfbm.trans (by norm_num))
  rw [← hfa, ← hfb] at hcount
  rw [hcount] at hn
  unfold generateMultipleOf
  simp only [hcount, if_neg hn]
  constructor
  · refine Post.bind (fun k s' hk => Post.pure ?_)
    have hkr := randomInt_post _ _ _ _ k s' hk
    have hk1 : 1 ≤ k ∧ k ≤ fb - fa := by omega
    refine ⟨fa + k, ?_, ?_, ?_⟩
    · have e1 : w.fp.mul (fFloor (w.fp.div (a : Rat) m) : Rat) m = ((fa * m : Int) : Rat) := by
        unfold FP.mul FP.div fFloor
        rw [hda]
        have := hF.int (fa * m) (by rw [abs_le]; constructor <;> nlinarith)
        push_cast at this; push_cast; exact this
      have e2 : w.fp.rnd ((k : Int) : Rat) = k := hF.int k (by rw [abs_le]; constructor <;> linarith)
      have e3 : w.fp.mul (k : Rat) m = ((k * m : Int) : Rat) := by
        unfold FP.mul
        have := hF.int (k * m) (by
          have : k * m ≤ (fb - fa) * m := by nlinarith
          rw [abs_le]; constructor <;> nlinarith)
        push_cast at this; push_cast; exact this
      rw [e1, e2, e3]
      unfold FP.add
      have := hF.int (fa * m + k * m) (by
          have : k * m ≤ (fb - fa) * m := by nlinarith
          rw [abs_le]; constructor <;> nlinarith)
      push_cast at this ⊢
      rw [this]; ring
    · nlinarith
    · have : k * m ≤ (fb - fa) * m := by nlinarith
      nlinarith
  · exact NoPanic.bind (randomInt_noPanic w (by omega)) (fun _ => NoPanic.pure)

theorem checkMultipleOf_none {mustBeInt : Bool} {mn mx m : Rat} (h : checkMultipleOf F P mustBeInt mn mx (some m) = none) :
    0 ≤ m ∧ (m ≠ 0 → infinitesimal F ≤ m) ∧ (mustBeInt = true → (fTrunc m : Rat) = m) ∧ countMultiplesInRange F P mn mx m ≠ 0 := by
  simp only [checkMultipleOf] at h
  split at h
  · cases h
  · rename_i h1
    split at h
    · cases h
    · rename_i h2
      split at h
      · cases h
      · rename_i h3
        split at h
        · cases h
        · rename_i h4
          refine ⟨not_lt.1 h1, fun hm => ?_, fun hi => ?_, h4⟩
          · by_contra hc; exact h2 ⟨hm, not_le.1 hc⟩
          · by_contra hc; exact h3 ⟨hi, hc⟩

theorem checkMultipleOf_some {mustBeInt : Bool} {mn mx m : Rat} {o : Option Rat} (ho : o = some m)
    (h : checkMultipleOf F P mustBeInt mn mx o = none) :
    0 ≤ m ∧ (m ≠ 0 → infinitesimal F ≤ m) ∧ (mustBeInt = true → (fTrunc m : Rat) = m) ∧ countMultiplesInRange F P mn mx m ≠ 0 := by
  subst ho; exact checkMultipleOf_none h

end

/-- **C20.**  With rounding laws that binary64 satisfies and keywords of magnitude at most 2^50 (`multipleOf`
at most 2^42): if a schema with type `integer` is accepted, then the generator never panics and every
generated value is an integer that satisfies `minimum`, `maximum`, `exclusiveMinimum`, `exclusiveMaximum`
and `multipleOf`. -/
theorem C20_integers (c : Ctx) (hF : c.w.fp.Lawful) (n : NumSpec) (hw : n.Within (2 ^ 50) (2 ^ 42)) (r : NumResult)
    (h : parseNumber c.w.fp c.w.plat n true = .ok r) (fuel : Nat) :
    (∀ s v s', generate c (fuel + 1) r.toGen s = .ok v s' → ∃ i : Int, v = .num i ∧ n.Accepts i) ∧
    NoPanic (generate c (fuel + 1) r.toGen) := by
  unfold parseNumber at h
  cases hr : resolveMinMaxForNode c.w.fp c.w.plat n true with
  | error e => rw [hr] at h; cases h
  | ok p =>
    obtain ⟨mn, mx⟩ := p
    rw [hr] at h
    simp only at h
    obtain ⟨a, b, rfl, rfl, hab, ha, hb, hacc⟩ := resolve_int hF hw hr
    obtain ⟨_, hchk, _, _⟩ := resolve_ok hr
    -- what `multipleOf` contributes
    have hmul : ∀ m, n.multipleOf = some m → ∃ M : Int, m = M ∧ 0 < M ∧ M ≤ 2 ^ 42 ∧
        countMultiplesInRange c.w.fp c.w.plat (a : Rat) b M ≠ 0 := by
      intro m hm
      obtain ⟨hm0, hm1⟩ := hw.multipleOf m hm
      obtain ⟨_, _, h3, h4⟩ := checkMultipleOf_some hm hchk
      refine ⟨fTrunc m, (h3 rfl).symm, ?_, ?_, by rw [h3 rfl]; exact h4⟩
      · have : (0 : Rat) < (fTrunc m : Rat) := by rw [h3 rfl]; exact hm0
        exact_mod_cast this
      · have : (fTrunc m : Rat) ≤ 2 ^ 42 := by rw [h3 rfl]; exact hm1
        exact_mod_cast this
    split at h
    · -- a constant
      rename_i heq
      cases h
      have heq' : a = b := by exact_mod_cast heq
      subst heq'
      refine ⟨fun s v s' hg => ?_, NoPanic.pure⟩
      simp only [generate, NumResult.toGen, genStep, pure_ok] at hg
      refine ⟨a, hg.1.symm, hacc a (le_refl _) (le_refl _) ?_⟩
      intro m hm
      obtain ⟨M, rfl, hM, hM', hc⟩ := hmul m hm
      exfalso
      apply hc
      have hMq : (0 : Rat) < M := by exact_mod_cast hM
      unfold countMultiplesInRange
      split
      · rename_i h0
        rw [h0]
        have : (0 : Int) = a := by exact_mod_cast h0.symm
        unfold fdiv0
        rw [if_neg hMq.ne']
        simp [floorToInt, FP.div, FP.Lawful.zero hF, toInt64, fTrunc, fFloor]
      · simp [wrap64]
    · cases h
      simp only [generate, NumResult.toGen, genStep]
      have hfin : ∀ q : Int, |q| ≤ 2 ^ 62 → (if (q : Rat) = 0 then (pure (.num 0) : M JVal) else
          pure (.num (toInt64 c.w.plat (q : Rat) : Rat))) = pure (.num q) := by
        intro q hq
        rw [toInt64_int _ _ hq]
        split
        · rename_i h0; rw [h0]
        · rfl
      have ha' := abs_le.1 ha
      have hb' := abs_le.1 hb
      cases hm : n.multipleOf with
      | none =>
        have hraw : ∀ s, Post (numberRaw c.w { isInt := true, min := a, max := b, multipleOf := getZeroIfNil none 0 }) s
            (fun q _ => ∃ i : Int, q = i ∧ a ≤ i ∧ i ≤ b) := by
          intro s
          unfold numberRaw
          simp only [getZeroIfNil, if_true, ne_eq, not_true, if_false]
          refine Post.bind (fun f s1 hf => Post.pure ?_)
          obtain ⟨h1, h2⟩ := randomFloat_int_post c.w hF a b hab (ha.trans (by norm_num)) (hb.trans (by norm_num)) _ f s1 hf
          exact ⟨fRound f, rfl, (fRound_between h1 h2).1, (fRound_between h1 h2).2⟩
        constructor
        · intro s v s' hg
          obtain ⟨_, s1, _, hg⟩ := bind_ok.1 hg
          unfold numberGenerate at hg
          obtain ⟨q, s2, hq, hg⟩ := bind_ok.1 hg
          obtain ⟨i, rfl, h1, h2⟩ := hraw _ q s2 hq
          have := hfin i (by rw [abs_le]; constructor <;> linarith)
          simp only [if_true] at hg
          rw [this, pure_ok] at hg
          exact ⟨i, hg.1.symm, hacc i h1 h2 (by intro m hm'; rw [hm] at hm'; cases hm')⟩
        · refine NoPanic.bind (by intro s e; simp [tick]) (fun _ => ?_)
          unfold numberGenerate numberRaw
          simp only [getZeroIfNil, if_true, ne_eq, not_true, if_false]
          refine NoPanic.bind (NoPanic.bind ?_ (fun _ => NoPanic.pure)) (fun x => ?_)
          · unfold randomFloat float64
            exact NoPanic.bind (NoPanic.bind (drawSeeded_draws _) (fun _ => NoPanic.pure)) (fun _ => NoPanic.pure)
          · split <;> exact NoPanic.pure
      | some m =>
        obtain ⟨M, rfl, hM, hM', hc⟩ := hmul m hm
        have hM0 : (M : Rat) ≠ 0 := by exact_mod_cast hM.ne'
        have hraw := generateMultipleOf_int_post c.w hF hM hM' hab ha hb hc
        constructor
        · intro s v s' hg
          obtain ⟨_, s1, _, hg⟩ := bind_ok.1 hg
          unfold numberGenerate numberRaw at hg
          obtain ⟨q, s2, hq, hg⟩ := bind_ok.1 hg
          simp only [getZeroIfNil, if_true, ne_eq, hM0, not_false_iff] at hq
          obtain ⟨k, rfl, h1, h2⟩ := (hraw s1).1 q s2 hq
          have := hfin (k * M) (by rw [abs_le]; constructor <;> linarith)
          simp only [if_true] at hg
          rw [this, pure_ok] at hg
          refine ⟨k * M, hg.1.symm, hacc _ h1 h2 ?_⟩
          intro m' hm'
          rw [hm] at hm'; cases hm'
          exact ⟨k, by push_cast; rfl⟩
        · refine NoPanic.bind (by intro s e; simp [tick]) (fun _ => ?_)
          unfold numberGenerate numberRaw
          simp only [getZeroIfNil, if_true, ne_eq, hM0, not_false_iff]
          refine NoPanic.bind (hraw {}).2 (fun x => ?_)
          split <;> exact NoPanic.pure

/-- A context computing with binary64 numbers. -/
def doubleCtx : Ctx := { demoCtx with w := { demoWorld with fp := .binary64 } }

/-- Integer keywords used in the examples: `{"type":"integer","minimum":-7,"exclusiveMaximum":40,"multipleOf":6}`. -/
def demoInt : NumSpec := { minimum := some (-7), exclusiveMaximum := some 40, multipleOf := some 6 }

-- The hypotheses of `C20_integers` are met by a concrete schema in binary64 arithmetic, and it generates.
example : doubleCtx.w.fp.Lawful := FP.binary64_lawful
example : demoInt.Within (2 ^ 50) (2 ^ 42) := by
  constructor <;> intro x h <;> simp [demoInt] at h <;> subst h <;> norm_num
example : ∃ r, parseNumber doubleCtx.w.fp doubleCtx.w.plat demoInt true = .ok r := by
  have h : (match parseNumber doubleCtx.w.fp doubleCtx.w.plat demoInt true with | .ok _ => true | .error _ => false) = true := by
    decide +kernel
  cases hp : parseNumber doubleCtx.w.fp doubleCtx.w.plat demoInt true with
  | ok r => exact ⟨r, rfl⟩
  | error e => rw [hp] at h; cases h

/-! ## Numbers -/

section
variable {n : NumSpec} {P : Platform}

theorem fRound_int (k : Int) : fRound (k : Rat) = k := by
  have := fRound_between (q := (k : Rat)) (a := k) (b := k) (le_refl _) (le_refl _)
  omega

theorem infinitesimal_exact : infinitesimal FP.exact = 1 / 10 ^ 14 := rfl

/-- Acceptance of a number schema in exact arithmetic: bounds that imply the keywords. -/
theorem resolve_exact {mn mx : Rat} (h : resolveMinMaxForNode FP.exact P n false = .ok (mn, mx)) :
    mn ≤ mx ∧ (∀ q, mn ≤ q → q ≤ mx → (∀ m, n.multipleOf = some m → ∃ k : Int, q = k * m) → n.Accepts q) := by
  obtain ⟨hle, _, hmn, hmx⟩ := resolve_ok h
  rw [if_neg (by simp)] at hmn hmx
  obtain ⟨s1, s2, s3, s4⟩ := effectiveBounds_spec (F := FP.exact) (n := n) false
  obtain ⟨c1, c2⟩ := clamp_le (F := FP.exact) (effectiveBounds FP.exact n false)
  rw [← hmn] at c1
  rw [← hmx] at c2
  refine ⟨hle, fun q hq1 hq2 hmul => ⟨fun x hx => ?_, fun x hx => ?_, fun x hx => ?_, fun x hx => ?_, hmul⟩⟩
  · have := s1 x hx; linarith
  · have := s2 x hx; linarith
  · have := s3 x hx
    have he : FP.exact.add x (exclOffset FP.exact false) = x + 1 / 10 ^ 14 := rfl
    rw [he] at this
    have : (0 : Rat) < 1 / 10 ^ 14 := by norm_num
    linarith
  · have := s4 x hx
    have he : FP.exact.add x (-exclOffset FP.exact false) = x + -(1 / 10 ^ 14) := rfl
    rw [he] at this
    have : (0 : Rat) < 1 / 10 ^ 14 := by norm_num
    linarith

theorem randomFloat_exact_post (w : World) (hw : w.fp = FP.exact) {a b : Rat} (hab : a ≤ b) (s : GSt) :
    Post (randomFloat w a b) s (fun f _ => a ≤ f ∧ f ≤ b) := by
  unfold randomFloat
  refine Post.bind (fun u s' hu => Post.pure ?_)
  obtain ⟨h0, h1⟩ := float64_post w s u s' hu
  rw [hw]
  show a ≤ u * (b - a) + a ∧ u * (b - a) + a ≤ b
  constructor <;> nlinarith

theorem randomFloat_noPanic (w : World) (a b : Rat) : NoPanic (randomFloat w a b) := by
  unfold randomFloat float64
  exact NoPanic.bind (NoPanic.bind (drawSeeded_draws _) (fun _ => NoPanic.pure)) (fun _ => NoPanic.pure)

/-- Effective bounds in exact arithmetic, relative to the multiple. -/
theorem effectiveBounds_exact_range {m : Rat} (hm : n.multipleOf = some m) (hm14 : 1 / 10 ^ 14 ≤ m)
    (hw : n.Within (2 ^ 50 * m) m) :
    |(effectiveBounds FP.exact n false).1| ≤ 2 ^ 51 * m ∧ |(effectiveBounds FP.exact n false).2| ≤ 2 ^ 51 * m := by
  have hm0 : 0 < m := lt_of_lt_of_le (by norm_num) hm14
  have hinf : exclOffset FP.exact false = 1 / 10 ^ 14 := rfl
  have hoff : getFloat [FP.exact.mul (getZeroIfNil n.multipleOf 0) 100, (defaultOffset : Rat)] = m * 100 := by
    rw [hm]
    show getFloat [m * 100, _] = _
    unfold getFloat
    rw [if_pos (by positivity)]
  have hlo : ∀ lo, maxPtr [n.minimum, addIfNotNil FP.exact n.exclusiveMinimum (exclOffset FP.exact false)] = some lo →
      |lo| ≤ 2 ^ 50 * m + m := by
    intro lo h
    rcases maxPtr2_mem h with h | h
    · have := hw.minimum _ h; linarith
    · cases he : n.exclusiveMinimum with
      | none => rw [he] at h; cases h
      | some x =>
        rw [he] at h
        cases h
        have hx := abs_le.1 (hw.exclusiveMinimum _ he)
        show |x + 1 / 10 ^ 14| ≤ _
        rw [abs_le]; constructor <;> linarith [hx.1, hx.2]
  have hhi : ∀ hi, minPtr [n.maximum, addIfNotNil FP.exact n.exclusiveMaximum (-exclOffset FP.exact false)] = some hi →
      |hi| ≤ 2 ^ 50 * m + m := by
    intro lo h
    rcases minPtr2_mem h with h | h
    · have := hw.maximum _ h; linarith
    · cases he : n.exclusiveMaximum with
      | none => rw [he] at h; cases h
      | some x =>
        rw [he] at h
        cases h
        have hx := abs_le.1 (hw.exclusiveMaximum _ he)
        show |x + -(1 / 10 ^ 14)| ≤ _
        rw [abs_le]; constructor <;> linarith [hx.1, hx.2]
  unfold effectiveBounds
  simp only
  rw [show (if false = true then (1 : Rat) else infinitesimal FP.exact) = exclOffset FP.exact false from rfl, hoff]
  cases h1 : maxPtr [n.minimum, addIfNotNil FP.exact n.exclusiveMinimum (exclOffset FP.exact false)] with
  | none =>
    cases h2 : minPtr [n.maximum, addIfNotNil FP.exact n.exclusiveMaximum (-exclOffset FP.exact false)] with
    | none =>
      simp only
      constructor
      · rw [abs_zero]; positivity
      · rw [abs_of_pos (by positivity)]; linarith
    | some hi =>
      have := abs_le.1 (hhi hi h2)
      simp only
      constructor
      · show |hi - m * 100| ≤ _
        rw [abs_le]; constructor <;> linarith [this.1, this.2]
      · rw [abs_le]; constructor <;> linarith [this.1, this.2]
  | some lo =>
    have hl := abs_le.1 (hlo lo h1)
    cases h2 : minPtr [n.maximum, addIfNotNil FP.exact n.exclusiveMaximum (-exclOffset FP.exact false)] with
    | none =>
      simp only
      constructor
      · rw [abs_le]; constructor <;> linarith [hl.1, hl.2]
      · show |lo + m * 100| ≤ _
        rw [abs_le]; constructor <;> linarith [hl.1, hl.2]
    | some hi =>
      have := abs_le.1 (hhi hi h2)
      simp only
      constructor <;> rw [abs_le] <;> constructor <;> linarith [this.1, this.2, hl.1, hl.2]

/-- Drawing a multiple in exact arithmetic. -/
theorem generateMultipleOf_exact_post (w : World) (hw : w.fp = FP.exact) {a b m : Rat} (hm : 0 < m)
    (hab : a ≤ b) (ha : |a| ≤ 2 ^ 51 * m) (hb : |b| ≤ 2 ^ 51 * m)
    (hn : countMultiplesInRange w.fp w.plat a b m ≠ 0) (s : GSt) :
    Post (generateMultipleOf w a b m) s (fun q _ => ∃ k : Int, q = k * m ∧ a ≤ q ∧ q ≤ b) ∧
    NoPanic (generateMultipleOf w a b m) := by
  have ha' := abs_le.1 ha
  have hb' := abs_le.1 hb
  set fa := ⌊a / m⌋ with hfa
  set fb := ⌊b / m⌋ with hfb
  have fa1 : (fa : Rat) * m ≤ a := by
    have := Int.floor_le (a / m)
    rwa [← hfa, le_div_iff₀ hm] at this
  have fa2 : a < (fa + 1) * m := by
    have := Int.lt_floor_add_one (a / m)
    rwa [← hfa, div_lt_iff₀ hm] at this
  have fb1 : (fb : Rat) * m ≤ b := by
    have := Int.floor_le (b / m)
    rwa [← hfb, le_div_iff₀ hm] at this
  have fab : fa ≤ fb := Int.floor_le_floor (div_le_div_of_nonneg_right hab hm.le)
  have habs : ∀ x : Rat, |x| ≤ 2 ^ 51 * m → |⌊x / m⌋| ≤ 2 ^ 61 := by
    intro x hx
    have h1 := abs_le.1 hx
    have h2 : -(2 ^ 51) ≤ x / m := by rw [le_div_iff₀ hm]; linarith
    have h3 : x / m ≤ 2 ^ 51 := by rw [div_le_iff₀ hm]; linarith
    have h4 : (-(2 ^ 51) : Int) ≤ ⌊x / m⌋ := Int.le_floor.2 (by push_cast; exact h2)
    have h5 : ⌊x / m⌋ ≤ 2 ^ 51 := by
      have : (⌊x / m⌋ : Rat) ≤ 2 ^ 51 := (Int.floor_le _).trans h3
      exact_mod_cast this
    rw [abs_le]; constructor <;> omega
  have hcount := countMultiples_eq (F := w.fp) (P := w.plat) (mn := a) (mx := b) hm.ne'
    (by rw [hw]; rfl) (by rw [hw]; rfl) (habs a ha) (habs b hb)
  rw [← hfa, ← hfb] at hcount
  rw [hcount] at hn
  unfold generateMultipleOf
  simp only [hcount, if_neg hn]
  constructor
  · refine Post.bind (fun k s' hk => Post.pure ?_)
    have hkr := randomInt_post _ _ _ _ k s' hk
    have hk1 : 1 ≤ k ∧ k ≤ fb - fa := by omega
    have hk1' : (1 : Rat) ≤ k := by exact_mod_cast hk1.1
    have hk2' : (k : Rat) ≤ fb - fa := by exact_mod_cast hk1.2
    refine ⟨fa + k, ?_, ?_, ?_⟩ <;> rw [hw]
    · show (fa : Rat) * m + k * m = _
      push_cast; ring
    · show a ≤ (fa : Rat) * m + k * m
      nlinarith
    · show (fa : Rat) * m + k * m ≤ b
      nlinarith
  · exact NoPanic.bind (randomInt_noPanic w (by omega)) (fun _ => NoPanic.pure)

theorem decimalPrecision_go (k : Nat) (v : Rat) (h : ∃ z : Int, v * 10 ^ k = z) :
    ∃ z : Int, v * 10 ^ decimalPrecision.go FP.exact k v = z := by
  induction k generalizing v with
  | zero => simpa [decimalPrecision.go] using h
  | succ k ih =>
    unfold decimalPrecision.go
    split
    · rename_i hv; exact ⟨fFloor v, by rw [pow_zero, mul_one]; exact hv⟩
    · obtain ⟨z, hz⟩ := h
      obtain ⟨z', hz'⟩ := ih (FP.exact.mul v 10) ⟨z, by
        show v * 10 * 10 ^ k = z
        rw [← hz]; ring⟩
      refine ⟨z', ?_⟩
      rw [← hz']
      show v * 10 ^ (1 + _) = v * 10 * 10 ^ _
      rw [pow_add]; ring

theorem utilRound_exact {m : Rat} (hm : 0 < m) (h14 : ∃ z : Int, m * 10 ^ 14 = z) (k : Int) :
    utilRound FP.exact (k * m) m = k * m := by
  obtain ⟨z, hz⟩ := h14
  unfold utilRound
  rw [if_pos hm.ne']
  have e1 : FP.exact.mul (fRound (FP.exact.div (k * m) m) : Rat) m = k * m := by
    show (fRound (k * m / m) : Rat) * m = k * m
    rw [mul_div_assoc, div_self hm.ne', mul_one, fRound_int]
  simp only [e1]
  obtain ⟨z', hz'⟩ := decimalPrecision_go 15 m ⟨z * 10, by push_cast; rw [← hz]; ring⟩
  have hp : decimalPrecision FP.exact m = decimalPrecision.go FP.exact 15 m := by
    unfold decimalPrecision; rw [if_neg (not_lt.2 hm.le)]
  rw [hp]
  set pw : Rat := 10 ^ decimalPrecision.go FP.exact 15 m
  have hpw : pw ≠ 0 := by positivity
  show (fRound (k * m * pw) : Rat) / pw = k * m
  have : (k : Rat) * m * pw = ((k * z' : Int) : Rat) := by push_cast; rw [← hz']; ring
  rw [this, fRound_int, ← this]
  field_simp

theorem roundToInfinitesimal_exact {m : Rat} (h14 : ∃ z : Int, m * 10 ^ 14 = z) (k : Int) :
    roundToInfinitesimal FP.exact (k * m) = k * m := by
  obtain ⟨z, hz⟩ := h14
  unfold roundToInfinitesimal
  rw [infinitesimal_exact]
  have : (fRound (FP.exact.div (k * m) (1 / 10 ^ 14)) : Rat) * (1 / 10 ^ 14) = k * m := by
    show (fRound (k * m / (1 / 10 ^ 14)) : Rat) * (1 / 10 ^ 14) = k * m
    have e : (k : Rat) * m / (1 / 10 ^ 14) = ((k * z : Int) : Rat) := by push_cast; rw [← hz]; ring
    rw [e, fRound_int, ← e]; ring
  split_ifs <;> first | rfl | exact this

end

/-- **C21.**  In exact arithmetic: if a schema with type `number` is accepted, generation never panics and
every generated value satisfies `minimum`, `maximum`, `exclusiveMinimum`, `exclusiveMaximum` and
`multipleOf`.  The multiple must have at most 14 decimals (the resolution the code rounds to) and the bounds
must not exceed 2^50 multiples; without `multipleOf` there is no size limit. -/
theorem C21_numbers_exact (c : Ctx) (hF : c.w.fp = FP.exact) (n : NumSpec)
    (hm : ∀ m, n.multipleOf = some m → (∃ z : Int, m * 10 ^ 14 = z) ∧ n.Within (2 ^ 50 * m) m) (r : NumResult)
    (h : parseNumber c.w.fp c.w.plat n false = .ok r) (fuel : Nat) :
    (∀ s v s', generate c (fuel + 1) r.toGen s = .ok v s' → ∃ q : Rat, v = .num q ∧ n.Accepts q) ∧
    NoPanic (generate c (fuel + 1) r.toGen) := by
  unfold parseNumber at h
  cases hr : resolveMinMaxForNode c.w.fp c.w.plat n false with
  | error e => rw [hr] at h; cases h
  | ok p =>
    obtain ⟨mn, mx⟩ := p
    rw [hr] at h
    simp only at h
    have hr' := hr
    rw [hF] at hr'
    obtain ⟨hle, hacc⟩ := resolve_exact hr'
    obtain ⟨_, hchk, hmn, hmx⟩ := resolve_ok hr'
    rw [if_neg (by simp)] at hmn hmx
    split at h
    · rename_i heq
      cases h
      subst heq
      refine ⟨fun s v s' hg => ?_, NoPanic.pure⟩
      simp only [generate, NumResult.toGen, genStep, pure_ok] at hg
      refine ⟨mn, hg.1.symm, hacc mn (le_refl _) (le_refl _) ?_⟩
      intro m hm'
      obtain ⟨_, _, _, hc⟩ := checkMultipleOf_some hm' hchk
      obtain ⟨_, hw⟩ := hm m hm'
      have hm0 := (hw.multipleOf m hm').1
      exfalso
      apply hc
      unfold countMultiplesInRange
      split
      · rename_i h0
        rw [h0]
        unfold fdiv0
        rw [if_neg hm0.ne']
        simp [floorToInt, FP.div, FP.exact, toInt64, fTrunc, fFloor]
      · simp [wrap64]
    · cases h
      simp only [generate, NumResult.toGen, genStep]
      cases hm' : n.multipleOf with
      | none =>
        constructor
        · intro s v s' hg
          obtain ⟨_, s1, _, hg⟩ := bind_ok.1 hg
          unfold numberGenerate numberRaw at hg
          obtain ⟨q, s2, hq, hg⟩ := bind_ok.1 hg
          simp [getZeroIfNil] at hq
          obtain ⟨h1, h2⟩ := randomFloat_exact_post c.w hF hle _ q s2 hq
          refine ⟨q, ?_, hacc q h1 h2 (by intro m hm''; rw [hm'] at hm''; cases hm'')⟩
          simp only [getZeroIfNil, ne_eq, not_true, if_false] at hg
          split at hg
          · rename_i h0; rw [pure_ok] at hg; rw [h0]; exact hg.1.symm
          · simp at hg; exact hg.1.symm
        · refine NoPanic.bind (by intro s e; simp [tick]) (fun _ => ?_)
          unfold numberGenerate numberRaw
          simp [getZeroIfNil]
          refine NoPanic.bind (randomFloat_noPanic _ _ _) (fun x => ?_)
          split <;> exact NoPanic.pure
      | some m =>
        obtain ⟨h14, hw⟩ := hm m hm'
        obtain ⟨_, h2, _, hc⟩ := checkMultipleOf_some hm' hchk
        have hm0 := (hw.multipleOf m hm').1
        obtain ⟨r1, r2⟩ := effectiveBounds_exact_range hm' (h2 hm0.ne') hw
        obtain ⟨c1, c2⟩ := clamp_le (F := FP.exact) (effectiveBounds FP.exact n false)
        rw [← hmn] at c1
        rw [← hmx] at c2
        have r1 := abs_le.1 r1
        have r2 := abs_le.1 r2
        have hraw := fun s => generateMultipleOf_exact_post c.w hF (a := mn) (b := mx) hm0 hle
          (by rw [abs_le]; constructor <;> linarith [r1.1, r2.2]) (by rw [abs_le]; constructor <;> linarith [r1.1, r2.2])
          (by rw [hF]; exact hc) s
        constructor
        · intro s v s' hg
          obtain ⟨_, s1, _, hg⟩ := bind_ok.1 hg
          unfold numberGenerate numberRaw at hg
          obtain ⟨q, s2, hq, hg⟩ := bind_ok.1 hg
          simp only [getZeroIfNil, ne_eq, hm0.ne', not_false_iff, if_true, Bool.false_eq_true, if_false] at hq
          obtain ⟨x, s3, hx, hq⟩ := bind_ok.1 hq
          obtain ⟨k, rfl, h3, h4⟩ := (hraw s1).1 x s3 hx
          rw [hF, utilRound_exact hm0 h14, pure_ok] at hq
          obtain ⟨rfl, rfl⟩ := hq
          refine ⟨k * m, ?_, hacc _ h3 h4 (by intro m' hm''; rw [hm'] at hm''; cases hm''; exact ⟨k, rfl⟩)⟩
          split at hg
          · rename_i h0; rw [pure_ok] at hg; rw [h0]; exact hg.1.symm
          · simp only [getZeroIfNil, ne_eq, hm0.ne', not_false_iff, if_true, Bool.false_eq_true, if_false] at hg
            rw [hF, roundToInfinitesimal_exact h14, pure_ok] at hg
            exact hg.1.symm
        · refine NoPanic.bind (by intro s e; simp [tick]) (fun _ => ?_)
          unfold numberGenerate numberRaw
          simp only [getZeroIfNil, ne_eq, hm0.ne', not_false_iff, if_true, Bool.false_eq_true, if_false]
          refine NoPanic.bind (NoPanic.bind (hraw {}).2 (fun _ => NoPanic.pure)) (fun x => ?_)
          split <;> exact NoPanic.pure

/-- `{"type":"number","minimum":0.3,"exclusiveMaximum":2.5,"multipleOf":0.1}`. -/
def demoNum : NumSpec := { minimum := some (3 / 10), exclusiveMaximum := some (5 / 2), multipleOf := some (1 / 10) }

/-- A context computing exactly. -/
def exactCtx : Ctx := { demoCtx with w := { demoWorld with fp := .exact } }

-- The hypotheses of `C21_numbers_exact` are met by a concrete schema.
example : ∀ m, demoNum.multipleOf = some m → (∃ z : Int, m * 10 ^ 14 = z) ∧ demoNum.Within (2 ^ 50 * m) m := by
  intro m h
  simp [demoNum] at h
  subst h
  refine ⟨⟨10 ^ 13, by norm_num⟩, ?_⟩
  constructor <;> intro x hx <;> simp [demoNum] at hx <;> subst hx <;> norm_num [abs_le]
example : ∃ r, parseNumber exactCtx.w.fp exactCtx.w.plat demoNum false = .ok r := by
  have h : (match parseNumber exactCtx.w.fp exactCtx.w.plat demoNum false with | .ok _ => true | .error _ => false) = true := by
    decide +kernel
  cases hp : parseNumber exactCtx.w.fp exactCtx.w.plat demoNum false with
  | ok r => exact ⟨r, rfl⟩
  | error e => rw [hp] at h; cases h

theorem NoOom_bind {α β : Type} {m : M α} {f : α → M β} (hm : ∀ s, m s ≠ .oom) (hf : ∀ a s, f a s ≠ .oom) :
    ∀ s, (m >>= f) s ≠ .oom := by
  intro s h
  rcases bind_oom.1 h with h | ⟨a, s', _, h⟩
  · exact hm _ h
  · exact hf _ _ h

/-- Number generation needs no fuel. -/
theorem numberGenerate_not_oom (c : Ctx) (g : NumGen) (s : GSt) : generate c 1 (.num g) s ≠ .oom := by
  have hp : ∀ {α : Type} (a : α) (s : GSt), (pure a : M α) s ≠ .oom := by intro α a s; simp
  have hrf : ∀ a b s, randomFloat c.w a b s ≠ .oom := by
    intro a b
    unfold randomFloat float64
    refine NoOom_bind (NoOom_bind (by intro s; simp [drawSeeded]) (fun _ => hp _)) (fun _ => hp _)
  have hri : ∀ a b s, randomInt c.w a b s ≠ .oom := by
    intro a b
    unfold randomInt
    split
    · exact hp _
    · refine NoOom_bind ?_ (fun _ => hp _)
      unfold intn intnWith
      split
      · intro s; simp
      · exact NoOom_bind (by intro s; simp [drawSeeded]) (fun _ => hp _)
  have hmo : ∀ a b m s, generateMultipleOf c.w a b m s ≠ .oom := by
    intro a b m
    unfold generateMultipleOf
    simp only
    split
    · exact hp _
    · exact NoOom_bind (hri _ _) (fun _ => hp _)
  have : ∀ s, numberGenerate c.w g s ≠ .oom := by
    unfold numberGenerate
    refine NoOom_bind ?_ (fun q => ?_)
    · unfold numberRaw
      split
      · split
        · exact hmo _ _ _
        · exact NoOom_bind (hrf _ _) (fun _ => hp _)
      · split
        · exact NoOom_bind (hmo _ _ _) (fun _ => hp _)
        · exact hrf _ _
    · split
      · exact hp _
      · split
        · exact hp _
        · split <;> exact hp _
  exact NoOom_bind (by intro s; simp [tick]) (fun _ => this) s

/-! ## Numbers in binary64 -/

/-- Every binary64 number is a multiple of the smallest positive one. -/
theorem rnd64_multiple (q : Rat) : ∃ z : Int, binary64Rnd q = z * pow2 (-1074) := by
  by_cases hq : q = 0
  · exact ⟨0, by simp [hq, rnd64_zero]⟩
  · obtain ⟨j, hj⟩ := pow2_grid (a := -1074) (b := ulpExp q) (by unfold ulpExp; omega)
    refine ⟨roundEven (q / pow2 (ulpExp q)) * j, ?_⟩
    unfold binary64Rnd
    rw [if_neg hq]
    push_cast
    rw [mul_assoc, ← hj]

/-- Below the midpoint above a grid point, rounding does not exceed the grid point. -/
theorem rnd64_below_mid {x : Rat} {j e : Int} (he : -1074 ≤ e) (hj1 : 2 ^ 52 ≤ j) (hj2 : j < 2 ^ 53)
    (hx : x < (j + 1 / 2) * pow2 e) : binary64Rnd x ≤ j * pow2 e := by
  have hp := pow2_pos e
  by_cases hc : x ≤ j * pow2 e
  · have := rnd64_mono hc
    rwa [rnd64_exact j e he (by rw [abs_le]; constructor <;> omega)] at this
  have hc := not_le.1 hc
  have hj1q : (2 ^ 52 : Rat) ≤ j := by exact_mod_cast hj1
  have hj2q : (j : Rat) + 1 ≤ 2 ^ 53 := by exact_mod_cast (by omega : j + 1 ≤ 2 ^ 53)
  have hx0 : 0 < x := lt_of_lt_of_le (by positivity) (le_of_lt (lt_of_le_of_lt (by nlinarith : (2 ^ 52 : Rat) * pow2 e ≤ j * pow2 e) hc))
  obtain ⟨l1, l2⟩ := ilog2_spec hx0.ne'
  rw [abs_of_pos hx0] at l1 l2
  have p52 : pow2 (52 + e) = 2 ^ 52 * pow2 e := by rw [pow2_add, pow2_eq 52]; norm_num
  have p53 : pow2 (53 + e) = 2 ^ 53 * pow2 e := by rw [pow2_add, pow2_53]
  have h1 : 52 + e < ilog2 x + 1 := lt_of_pow2_lt (lt_of_le_of_lt (by rw [p52]; nlinarith) l2)
  have h2 : ilog2 x < 53 + e := lt_of_pow2_lt (lt_of_le_of_lt l1 (by rw [p53]; nlinarith))
  have hu : ulpExp x = e := by unfold ulpExp; omega
  unfold binary64Rnd
  rw [if_neg hx0.ne', hu]
  have hr : roundEven (x / pow2 e) ≤ j := by
    have hlo : (j : Rat) < x / pow2 e := by rw [lt_div_iff₀ hp]; exact hc
    have hhi : x / pow2 e < j + 1 / 2 := by rw [div_lt_iff₀ hp]; exact hx
    have hfl : ⌊x / pow2 e⌋ = j := by rw [Int.floor_eq_iff]; constructor <;> linarith
    unfold roundEven
    simp only [hfl]
    rw [if_pos (by linarith)]
  have hr' : (roundEven (x / pow2 e) : Rat) ≤ j := by exact_mod_cast hr
  exact mul_le_mul_of_nonneg_right hr' hp.le

/-- The product of a uniform draw and the rounded width never exceeds the exact width. -/
theorem rnd64_scaled_le {d u : Rat} (hd : 0 ≤ d) (hz : ∃ z : Int, d = z * pow2 (-1074)) (hu0 : 0 ≤ u)
    (hu1 : u ≤ 1 - 1 / 2 ^ 53) : binary64Rnd (u * binary64Rnd d) ≤ d := by
  by_cases hd0 : d = 0
  · subst hd0; rw [rnd64_zero, mul_zero, rnd64_zero]
  have hdp : 0 < d := lt_of_le_of_ne hd (Ne.symm hd0)
  by_cases hle : binary64Rnd d ≤ d
  · -- rounding down: even the full width is fine
    have h1 : u * binary64Rnd d ≤ binary64Rnd d := by nlinarith [rnd64_nonneg hd]
    have := rnd64_mono h1
    rw [rnd64_idem] at this
    linarith
  -- rounding up, from d to k * ulp with ulp the spacing at d
  have hlt : d < binary64Rnd d := not_le.1 hle
  set e := ulpExp d with he
  have hp := pow2_pos e
  set k := roundEven (d / pow2 e) with hk
  have hD : binary64Rnd d = k * pow2 e := by unfold binary64Rnd; rw [if_neg hd0]
  have hbelow : ((k - 1 : Int) : Rat) * pow2 e ≤ d := by
    by_contra hc
    have hc := not_lt.1 (fun h => hc (le_of_lt h))
    have := rnd64_le_grid (q := d) (k := k - 1) hd0 hc
    rw [hD] at this
    push_cast at this
    nlinarith
  have hk53 : k ≤ 2 ^ 53 := by
    have := abs_lt_pow2_53 hd0
    rw [abs_of_pos hdp, pow2_add, pow2_53] at this
    refine roundEven_le ?_
    push_cast
    rw [div_le_iff₀ hp]; exact this.le
  have he1074 : -1074 ≤ e := by rw [he]; unfold ulpExp; omega
  -- the width is not subnormal, since it would then not have been rounded
  have hnorm : e = ilog2 d - 52 := by
    by_contra hc
    have hs : ulpExp d = -1074 := by rw [← he]; rw [he] at hc ⊢; unfold ulpExp at hc ⊢; omega
    obtain ⟨z, hz⟩ := hz
    have := rnd64_grid (q := d) z (by rw [hs]; exact hz)
    linarith
  have hk52 : 2 ^ 52 < k := by
    have h1 := (ilog2_spec hd0).1
    rw [abs_of_pos hdp, show ilog2 d = 52 + e by omega, pow2_add, show pow2 52 = 2 ^ 52 by rw [pow2_eq]; norm_num] at h1
    rw [hD] at hlt
    have : (2 ^ 52 : Rat) < k := by
      by_contra hc
      have := mul_le_mul_of_nonneg_right (not_lt.1 hc) hp.le
      linarith
    exact_mod_cast this
  have hkq : (2 ^ 52 : Rat) < k := by exact_mod_cast hk52
  refine le_trans (rnd64_below_mid (j := k - 1) he1074 (by omega) (by omega) ?_) hbelow
  rw [hD]
  have h1 : u * (k * pow2 e) ≤ (1 - 1 / 2 ^ 53) * (k * pow2 e) :=
    mul_le_mul_of_nonneg_right hu1 (mul_nonneg (by linarith) hp.le)
  refine lt_of_le_of_lt h1 ?_
  rw [← mul_assoc]
  refine mul_lt_mul_of_pos_right ?_ hp
  push_cast
  linarith

/-- `RandomFloat` stays within representable bounds of any size. -/
theorem randomFloat_double_post (w : World) (hw : w.fp = FP.binary64) {a b : Rat} (hab : a ≤ b)
    (ha : binary64Rnd a = a) (hb : binary64Rnd b = b) (s : GSt) :
    Post (randomFloat w a b) s (fun f _ => a ≤ f ∧ f ≤ b) := by
  unfold randomFloat
  refine Post.bind (fun u s' hu => Post.pure ?_)
  obtain ⟨h0, _⟩ := float64_post w s u s' hu
  have h1 : u ≤ 1 - 1 / 2 ^ 53 := by
    unfold float64 at hu
    obtain ⟨x, s1, _, hu⟩ := bind_ok.1 hu
    rw [pure_ok] at hu
    obtain ⟨rfl, _⟩ := hu
    have hx : x % 2 ^ 53 + 1 ≤ 2 ^ 53 := Nat.mod_lt _ (by norm_num)
    have hx' : ((x % 2 ^ 53 : Nat) : Rat) + 1 ≤ 2 ^ 53 := by exact_mod_cast hx
    rw [div_le_iff₀ (by norm_num), show (1 - 1 / 2 ^ 53 : Rat) * 2 ^ 53 = 2 ^ 53 - 1 by norm_num]
    exact le_sub_iff_add_le.2 hx'
  rw [hw]
  show a ≤ binary64Rnd (binary64Rnd (u * binary64Rnd (b - a)) + a) ∧ binary64Rnd (binary64Rnd (u * binary64Rnd (b - a)) + a) ≤ b
  have hd : 0 ≤ b - a := by linarith
  have hz : ∃ z : Int, b - a = z * pow2 (-1074) := by
    obtain ⟨x, hx⟩ := rnd64_multiple a
    obtain ⟨y, hy⟩ := rnd64_multiple b
    rw [ha] at hx
    rw [hb] at hy
    exact ⟨y - x, by rw [hx, hy]; push_cast; ring⟩
  have hle := rnd64_scaled_le hd hz h0 h1
  have hge : 0 ≤ binary64Rnd (u * binary64Rnd (b - a)) := rnd64_nonneg (mul_nonneg h0 (rnd64_nonneg hd))
  constructor
  · conv_lhs => rw [← ha]
    exact rnd64_mono (by linarith)
  · conv_rhs => rw [← hb]
    exact rnd64_mono (by linarith)

theorem infinitesimal_double : 9 / 10 ^ 15 ≤ infinitesimal .binary64 ∧ infinitesimal .binary64 ≤ 1 := by
  have : decide (9 / 10 ^ 15 ≤ infinitesimal .binary64 ∧ infinitesimal .binary64 ≤ 1) = true := by decide +kernel
  exact of_decide_eq_true this

theorem infinitesimal_double_lt : infinitesimal .binary64 < 1 / 2 ^ 46 := by
  have : decide (infinitesimal .binary64 < 1 / 2 ^ 46) = true := by decide +kernel
  exact of_decide_eq_true this

/-- The offset for exclusive bounds survives next to numbers from -128 up to 128. -/
theorem rnd64_infinitesimal {x : Rat} (hx : -128 ≤ x ∧ x < 128) : x < binary64Rnd (x + infinitesimal .binary64) := by
  obtain ⟨h1, h2⟩ := infinitesimal_double
  set y := x + infinitesimal .binary64 with hy
  by_cases hy0 : y = 0
  · rw [hy0, rnd64_zero]
    have : (0 : Rat) < 9 / 10 ^ 15 := by norm_num
    linarith
  by_cases hbig : 128 ≤ y
  · have h3 : binary64Rnd ((128 : Int) : Rat) = (128 : Int) := rnd64_int 128 (by norm_num)
    have h4 := rnd64_mono (a := ((128 : Int) : Rat)) (by exact_mod_cast hbig)
    rw [h3] at h4
    push_cast at h4
    linarith [hx.2]
  have herr := (abs_le.1 (rnd64_error hy0)).1
  have hlog : ilog2 y < 7 := by
    refine lt_of_pow2_lt (lt_of_le_of_lt (ilog2_spec hy0).1 ?_)
    rw [pow2_eq]
    norm_num
    have : (0 : Rat) < 9 / 10 ^ 15 := by norm_num
    rw [abs_lt]; constructor <;> linarith [hx.1, hx.2]
  have hu : pow2 (ulpExp y) ≤ pow2 (-46) := pow2_le (by unfold ulpExp; omega)
  have h46 : pow2 (-46) / 2 < 9 / 10 ^ 15 := by rw [pow2_eq]; norm_num
  linarith

theorem rnd64_infinitesimal' {x : Rat} (hx : -128 < x ∧ x ≤ 128) : binary64Rnd (x + -infinitesimal .binary64) < x := by
  have := rnd64_infinitesimal (x := -x) ⟨by linarith [hx.2], by linarith [hx.1]⟩
  have h2 : -x + infinitesimal .binary64 = -(x + -infinitesimal .binary64) := by ring
  rw [h2, rnd64_neg] at this
  linarith

/-- A number is rounded to the point of its grid that is nearest. -/
theorem rnd64_nearest {x y : Rat} (hy : y ≠ 0) (k : Int) (hx : x = k * pow2 (ulpExp y)) (h : |y - x| < pow2 (ulpExp y) / 2) :
    binary64Rnd y = x := by
  have hp := pow2_pos (ulpExp y)
  have herr := rnd64_error hy
  have hdef : binary64Rnd y = roundEven (y / pow2 (ulpExp y)) * pow2 (ulpExp y) := by
    unfold binary64Rnd; rw [if_neg hy]
  rw [hdef] at herr ⊢
  generalize roundEven (y / pow2 (ulpExp y)) = r at *
  have h1 : |((r - k : Int) : Rat) * pow2 (ulpExp y)| < pow2 (ulpExp y) := by
    have e : ((r - k : Int) : Rat) * pow2 (ulpExp y) = (r * pow2 (ulpExp y) - y) + (y - x) := by rw [hx]; push_cast; ring
    rw [e]
    exact lt_of_le_of_lt (abs_add_le _ _) (by linarith)
  rw [abs_mul, abs_of_pos hp] at h1
  have h2 : |((r - k : Int) : Rat)| < 1 := by
    by_contra hc
    have := mul_le_mul_of_nonneg_right (not_lt.1 hc) hp.le
    linarith
  have h3 : |r - k| < 1 := by exact_mod_cast h2
  have h4 : r = k := by have := Int.abs_lt_one_iff.1 h3; omega
  rw [h4, hx]

theorem ulpExp_big {y : Rat} (hy : 128 ≤ |y|) : -45 ≤ ulpExp y := by
  have hy0 : y ≠ 0 := by rintro rfl; norm_num at hy
  have : (6 : Int) < ilog2 y := by
    have h := (ilog2_spec hy0).2
    have h7 : pow2 7 = 128 := by rw [pow2_eq]; norm_num
    have : pow2 7 < pow2 (ilog2 y + 1) := by rw [h7]; linarith
    have := lt_of_pow2_lt this
    omega
  unfold ulpExp; omega

/-- The offset is lost next to all other numbers. -/
theorem rnd64_infinitesimal_lost {x : Rat} (hd : binary64Rnd x = x) (hx : x < -128 ∨ 128 ≤ x) :
    binary64Rnd (x + infinitesimal .binary64) = x := by
  obtain ⟨h1, -⟩ := infinitesimal_double
  have hlt := infinitesimal_double_lt
  have hpos : 0 < infinitesimal .binary64 := lt_of_lt_of_le (by norm_num) h1
  have h46 : pow2 (-45) / 2 = 1 / 2 ^ 46 := by rw [pow2_eq]; norm_num
  have hx0 : x ≠ 0 := by rintro rfl; norm_num at hx
  have hgrid : x = roundEven (x / pow2 (ulpExp x)) * pow2 (ulpExp x) := by
    conv_lhs => rw [← hd]
    unfold binary64Rnd
    rw [if_neg hx0]
  have hpx := pow2_pos (ulpExp x)
  have habs : 128 ≤ |x| := by
    rcases hx with hx | hx
    · rw [abs_of_neg (by linarith)]; linarith
    · rw [abs_of_pos (by linarith)]; exact hx
  have hux := pow2_le (ulpExp_big habs)
  set y := x + infinitesimal .binary64 with hy
  have hdist : |y - x| = infinitesimal .binary64 := by rw [hy, add_sub_cancel_left, abs_of_pos hpos]
  generalize roundEven (x / pow2 (ulpExp x)) = k at hgrid
  rcases hx with hx | hx
  · -- below -128 the sum is smaller in magnitude
    have hk : x + pow2 (-45) ≤ -128 := by
      obtain ⟨j, hj⟩ := pow2_grid (ulpExp_big habs)
      obtain ⟨i, hi⟩ := pow2_grid (a := -45) (b := 7) (by norm_num)
      have h7 : pow2 7 = 128 := by rw [pow2_eq]; norm_num
      rw [h7] at hi
      have hp := pow2_pos (-45)
      have hxe : x = ((k * j : Int) : Rat) * pow2 (-45) := by rw [hgrid, hj]; push_cast; ring
      have hlt' : ((k * j : Int) : Rat) < ((-i : Int) : Rat) := by
        by_contra hc
        have := mul_le_mul_of_nonneg_right (not_lt.1 hc) hp.le
        rw [← hxe] at this
        push_cast at this
        linarith
      have hle : k * j + 1 ≤ -i := by exact_mod_cast hlt'
      have hle' : ((k * j + 1 : Int) : Rat) ≤ ((-i : Int) : Rat) := by exact_mod_cast hle
      have := mul_le_mul_of_nonneg_right hle' hp.le
      rw [hxe, hi.trans (by ring : _ = (i : Rat) * pow2 (-45))] 
      push_cast at this ⊢
      linarith
    have hy128 : y ≤ -128 := by linarith [pow2_pos (-45)]
    have hyabs : 128 ≤ |y| := by rw [abs_of_neg (by linarith)]; linarith
    have hy0 : y ≠ 0 := by rintro h; rw [h] at hyabs; norm_num at hyabs
    have hle : ulpExp y ≤ ulpExp x := by
      have := ilog2_mono hy0 (b := x) (by rw [abs_of_neg (by linarith), abs_of_neg (by linarith)]; linarith)
      unfold ulpExp; omega
    obtain ⟨j, hj⟩ := pow2_grid hle
    refine rnd64_nearest hy0 (k * j) ?_ ?_
    · conv_lhs => rw [hgrid, hj]
      push_cast; ring
    · have := pow2_le (ulpExp_big hyabs)
      rw [hdist]; linarith
  · -- from 128 on the sum stays below the next power of two
    have hy0 : y ≠ 0 := by intro h; linarith
    have hyx : |x| ≤ |y| := by rw [abs_of_pos (by linarith), abs_of_pos (by linarith)]; linarith
    have hu : ulpExp x = ilog2 x - 52 := by have := ulpExp_big habs; unfold ulpExp at this ⊢; omega
    have hlog : ilog2 y = ilog2 x := by
      refine le_antisymm ?_ (ilog2_mono hx0 hyx)
      have hb := abs_lt_pow2_53 hx0
      rw [pow2_add, pow2_53, abs_of_pos (by linarith)] at hb
      have hk1 : (k : Rat) < 2 ^ 53 := by
        by_contra hc
        have := mul_le_mul_of_nonneg_right (not_lt.1 hc) hpx.le
        linarith
      have hk2 : k + 1 ≤ 2 ^ 53 := by
        have : (k : Rat) < ((2 ^ 53 : Int) : Rat) := by push_cast; exact hk1
        have : k < 2 ^ 53 := by exact_mod_cast this
        omega
      have hk3 : ((k : Rat) + 1) * pow2 (ulpExp x) ≤ 2 ^ 53 * pow2 (ulpExp x) :=
        mul_le_mul_of_nonneg_right (by exact_mod_cast hk2) hpx.le
      have hylt : |y| < pow2 (ilog2 x + 1) := by
        have e : pow2 (ilog2 x + 1) = 2 ^ 53 * pow2 (ulpExp x) := by
          rw [← pow2_53, ← pow2_add, hu]; congr 1; omega
        rw [e, abs_of_pos (by linarith)]
        have e2 : ((k : Rat) + 1) * pow2 (ulpExp x) = x + pow2 (ulpExp x) := by rw [add_mul, one_mul, ← hgrid]
        rw [e2] at hk3
        linarith
      have := lt_of_pow2_lt (lt_of_le_of_lt (ilog2_spec hy0).1 hylt)
      omega
    have hue : ulpExp y = ulpExp x := by unfold ulpExp; rw [hlog]
    refine rnd64_nearest hy0 k (by rw [hue]; exact hgrid) ?_
    rw [hdist, hue]
    linarith

/-- Effective bounds are binary64 numbers when the keywords are. -/
theorem effectiveBounds_double {n : NumSpec} (mustBeInt : Bool) (h1 : ∀ x, n.minimum = some x → binary64Rnd x = x)
    (h2 : ∀ x, n.maximum = some x → binary64Rnd x = x) :
    binary64Rnd (effectiveBounds .binary64 n mustBeInt).1 = (effectiveBounds .binary64 n mustBeInt).1 ∧
    binary64Rnd (effectiveBounds .binary64 n mustBeInt).2 = (effectiveBounds .binary64 n mustBeInt).2 := by
  have hlo : ∀ o lo, maxPtr [n.minimum, addIfNotNil .binary64 n.exclusiveMinimum o] = some lo → binary64Rnd lo = lo := by
    intro o lo h
    rcases maxPtr2_mem h with h | h
    · exact h1 _ h
    · cases he : n.exclusiveMinimum with
      | none => rw [he] at h; cases h
      | some x => rw [he] at h; cases h; exact rnd64_idem _
  have hhi : ∀ o lo, minPtr [n.maximum, addIfNotNil .binary64 n.exclusiveMaximum o] = some lo → binary64Rnd lo = lo := by
    intro o lo h
    rcases minPtr2_mem h with h | h
    · exact h2 _ h
    · cases he : n.exclusiveMaximum with
      | none => rw [he] at h; cases h
      | some x => rw [he] at h; cases h; exact rnd64_idem _
  have hoff : binary64Rnd (getFloat [FP.binary64.mul (getZeroIfNil n.multipleOf 0) 100, (defaultOffset : Rat)]) =
      getFloat [FP.binary64.mul (getZeroIfNil n.multipleOf 0) 100, (defaultOffset : Rat)] := by
    unfold getFloat getFloat getFloat
    split_ifs
    · exact rnd64_idem _
    · exact rnd64_int 10 (by norm_num)
    · exact rnd64_zero
  unfold effectiveBounds
  simp only
  generalize (if mustBeInt = true then (1 : Rat) else infinitesimal FP.binary64) = o
  cases e1 : maxPtr [n.minimum, addIfNotNil .binary64 n.exclusiveMinimum o] with
  | none =>
    cases e2 : minPtr [n.maximum, addIfNotNil .binary64 n.exclusiveMaximum (-o)] with
    | none => exact ⟨rnd64_zero, hoff⟩
    | some hi => exact ⟨rnd64_idem _, hhi _ _ e2⟩
  | some lo =>
    cases e2 : minPtr [n.maximum, addIfNotNil .binary64 n.exclusiveMaximum (-o)] with
    | none => exact ⟨hlo _ _ e1, rnd64_idem _⟩
    | some hi => exact ⟨hlo _ _ e1, hhi _ _ e2⟩

/-- **C21, binary64.**  For schemas of type `number` without `multipleOf`, with the arithmetic Go actually uses:
`minimum` and `maximum` are respected whatever their size, `exclusiveMinimum` and `exclusiveMaximum` when
their magnitude is at most 128 (128 itself as a maximum, -128 as a minimum).  Missing: `multipleOf` (see
`C21_numbers_exact`) and larger exclusive bounds, for which the claim is false (`C21_exclusive_minimum_iff`,
`C21_exclusive_violation`). -/
theorem C21_numbers_double_partial (c : Ctx) (hF : c.w.fp = FP.binary64) (n : NumSpec) (hm : n.multipleOf = none)
    (h1 : ∀ x, n.minimum = some x → binary64Rnd x = x) (h2 : ∀ x, n.maximum = some x → binary64Rnd x = x)
    (h3 : ∀ x, n.exclusiveMinimum = some x → -128 ≤ x ∧ x < 128) (h4 : ∀ x, n.exclusiveMaximum = some x → -128 < x ∧ x ≤ 128)
    (r : NumResult) (h : parseNumber c.w.fp c.w.plat n false = .ok r) (fuel : Nat) :
    (∀ s v s', generate c (fuel + 1) r.toGen s = .ok v s' → ∃ q : Rat, v = .num q ∧ n.Accepts q) ∧
    NoPanic (generate c (fuel + 1) r.toGen) := by
  unfold parseNumber at h
  cases hr : resolveMinMaxForNode c.w.fp c.w.plat n false with
  | error e => rw [hr] at h; cases h
  | ok p =>
    obtain ⟨mn, mx⟩ := p
    rw [hr] at h
    simp only at h
    rw [hF] at hr
    obtain ⟨hle, _, hmn, hmx⟩ := resolve_ok hr
    rw [if_neg (by simp)] at hmn hmx
    obtain ⟨s1, s2, s3, s4⟩ := effectiveBounds_spec (F := .binary64) (n := n) false
    obtain ⟨c1, c2⟩ := clamp_le (F := .binary64) (effectiveBounds .binary64 n false)
    obtain ⟨e1, e2⟩ := effectiveBounds_double false h1 h2
    have hu : binary64Rnd (upperBound .binary64) = upperBound .binary64 := rnd64_idem _
    have hrmn : binary64Rnd mn = mn := by
      rw [hmn]; unfold clampBounds; simp only
      split
      · unfold lowerBound; rw [rnd64_neg, hu]
      · exact e1
    have hrmx : binary64Rnd mx = mx := by
      rw [hmx]; unfold clampBounds; simp only
      split
      · exact hu
      · exact e2
    rw [← hmn] at c1
    rw [← hmx] at c2
    have hacc : ∀ q, mn ≤ q → q ≤ mx → n.Accepts q := by
      intro q hq1 hq2
      refine ⟨fun x hx => ?_, fun x hx => ?_, fun x hx => ?_, fun x hx => ?_, fun m hm' => ?_⟩
      · have := s1 x hx; linarith
      · have := s2 x hx; linarith
      · have h5 := s3 x hx
        have h6 := rnd64_infinitesimal (h3 x hx)
        have he : FP.binary64.add x (exclOffset .binary64 false) = binary64Rnd (x + infinitesimal .binary64) := rfl
        rw [he] at h5; linarith
      · have h5 := s4 x hx
        have h6 := rnd64_infinitesimal' (h4 x hx)
        have he : FP.binary64.add x (-exclOffset .binary64 false) = binary64Rnd (x + -infinitesimal .binary64) := rfl
        rw [he] at h5; linarith
      · rw [hm] at hm'; cases hm'
    split at h
    · rename_i heq
      cases h
      subst heq
      refine ⟨fun s v s' hg => ?_, NoPanic.pure⟩
      simp only [generate, NumResult.toGen, genStep, pure_ok] at hg
      exact ⟨mn, hg.1.symm, hacc mn (le_refl _) (le_refl _)⟩
    · cases h
      simp only [generate, NumResult.toGen, genStep, hm]
      constructor
      · intro s v s' hg
        obtain ⟨_, s1, _, hg⟩ := bind_ok.1 hg
        unfold numberGenerate numberRaw at hg
        obtain ⟨q, s2, hq, hg⟩ := bind_ok.1 hg
        simp [getZeroIfNil] at hq
        obtain ⟨h1, h2⟩ := randomFloat_double_post c.w hF hle hrmn hrmx _ q s2 hq
        refine ⟨q, ?_, hacc q h1 h2⟩
        simp only [getZeroIfNil, ne_eq, not_true, if_false] at hg
        split at hg
        · rename_i h0; rw [pure_ok] at hg; rw [h0]; exact hg.1.symm
        · simp at hg; exact hg.1.symm
      · refine NoPanic.bind (by intro s e; simp [tick]) (fun _ => ?_)
        unfold numberGenerate numberRaw
        simp [getZeroIfNil]
        refine NoPanic.bind (randomFloat_noPanic _ _ _) (fun x => ?_)
        split <;> exact NoPanic.pure

/-- The number in a JSON value. -/
def numOf : JVal → Option Rat
  | .num q => some q
  | _ => none

/-- The number generated by a run. -/
def runNum : Res GSt JVal → Option Rat
  | .ok v _ => numOf v
  | _ => none

theorem exists_of_runNum {r : Res GSt JVal} {q : Rat} (h : runNum r = some q) : ∃ s', r = .ok (.num q) s' := by
  cases r with
  | ok v s =>
    cases v <;> simp [runNum, numOf] at h
    subst h; exact ⟨s, rfl⟩
  | panic e => cases h
  | oom => cases h

/-- Parse a numeric schema and generate one value. -/
def runNumSchema (c : Ctx) (n : NumSpec) (isInt : Bool) : Option Rat :=
  match parseNumber c.w.fp c.w.plat n isInt with
  | .ok r => runNum (generate c 1 r.toGen {})
  | .error _ => none

theorem exists_of_runNumSchema {c : Ctx} {n : NumSpec} {isInt : Bool} {q : Rat} (h : runNumSchema c n isInt = some q) :
    ∃ r s', parseNumber c.w.fp c.w.plat n isInt = .ok r ∧ generate c 1 r.toGen {} = .ok (.num q) s' := by
  unfold runNumSchema at h
  cases hp : parseNumber c.w.fp c.w.plat n isInt with
  | error e => rw [hp] at h; cases h
  | ok r =>
    rw [hp] at h
    obtain ⟨s', hs⟩ := exists_of_runNum h
    exact ⟨r, s', rfl, hs⟩

/-- A binary64 context whose seeded source always draws the largest float below one. -/
def topCtx : Ctx := { demoCtx with w := { demoWorld with fp := .binary64, seeded := fun _ => 2 ^ 53 - 1 } }

/-- **C21 is false of the code for large exclusive bounds.**  `{"type":"number","minimum":999,"exclusiveMaximum":1000}`
can generate exactly 1000: the offset 1e-14 is lost next to 1000, and 999 plus a number just below 1 rounds to
1000. -/
theorem C21_exclusive_violation :
    ∃ (n : NumSpec) (r : NumResult) (s' : GSt), n.exclusiveMaximum = some 1000 ∧
      parseNumber topCtx.w.fp topCtx.w.plat n false = .ok r ∧ generate topCtx 1 r.toGen {} = .ok (.num 1000) s' := by
  have h : runNumSchema topCtx { minimum := some 999, exclusiveMaximum := some 1000 } false = some 1000 := by
    decide +kernel
  obtain ⟨r, s', h1, h2⟩ := exists_of_runNumSchema h
  exact ⟨_, r, s', rfl, h1, h2⟩

/-- **C21 is false of the code for exclusive bounds with `multipleOf`, whatever the draw.**
`{"type":"number","minimum":995,"exclusiveMaximum":1000,"multipleOf":10}` admits no value; the code accepts it
and generates 1000. -/
theorem C21_exclusive_multiple_violation :
    ∃ (n : NumSpec) (r : NumResult) (s' : GSt), (¬ ∃ q, n.Accepts q) ∧
      parseNumber doubleCtx.w.fp doubleCtx.w.plat n false = .ok r ∧ generate doubleCtx 1 r.toGen {} = .ok (.num 1000) s' := by
  have h : runNumSchema doubleCtx { minimum := some 995, exclusiveMaximum := some 1000, multipleOf := some 10 } false = some 1000 := by
    decide +kernel
  obtain ⟨r, s', h1, h2⟩ := exists_of_runNumSchema h
  refine ⟨_, r, s', ?_, h1, h2⟩
  rintro ⟨q, ⟨a, _, _, b, d⟩⟩
  obtain ⟨k, hk⟩ := d 10 rfl
  have a := a 995 rfl
  have b := b 1000 rfl
  rw [hk] at a b
  have h1 : (995 : Int) ≤ k * 10 := by exact_mod_cast a
  have h2 : k * 10 < (1000 : Int) := by exact_mod_cast b
  omega

/-! ## Rejection -/

/-- **C22, numbers.**  In exact arithmetic an accepted `number` schema has a solution, so keywords that
contradict each other are rejected. -/
theorem C22_contradictory_number_rejected (P : Platform) (n : NumSpec)
    (hm : ∀ m, n.multipleOf = some m → (∃ z : Int, m * 10 ^ 14 = z) ∧ n.Within (2 ^ 50 * m) m)
    (hno : ¬ ∃ q, n.Accepts q) : ∃ e, parseNumber FP.exact P n false = .error e := by
  cases hp : parseNumber FP.exact P n false with
  | error e => exact ⟨e, rfl⟩
  | ok r =>
    exfalso
    have hg := C21_numbers_exact { demoCtx with w := { demoWorld with fp := .exact, plat := P } } rfl n hm r hp 0
    cases hr : generate { demoCtx with w := { demoWorld with fp := .exact, plat := P } } 1 r.toGen {} with
    | ok v s' =>
      obtain ⟨q, _, hq⟩ := hg.1 _ _ _ hr
      exact hno ⟨q, hq⟩
    | panic e => exact hg.2 _ _ hr
    | oom =>
      cases r with
      | const q => simp [generate, NumResult.toGen, genStep] at hr
      | gen g => exact numberGenerate_not_oom _ _ _ hr

/-- **C22, integers.**  With lawful rounding (binary64 or exact) an accepted `integer` schema has an integer
solution, so keywords that no integer satisfies are rejected. -/
theorem C22_contradictory_integer_rejected (F : FP) (hF : F.Lawful) (P : Platform) (n : NumSpec)
    (hw : n.Within (2 ^ 50) (2 ^ 42)) (hno : ¬ ∃ i : Int, n.Accepts i) : ∃ e, parseNumber F P n true = .error e := by
  cases hp : parseNumber F P n true with
  | error e => exact ⟨e, rfl⟩
  | ok r =>
    exfalso
    have hg := C20_integers { demoCtx with w := { demoWorld with fp := F, plat := P } } hF n hw r hp 0
    cases hr : generate { demoCtx with w := { demoWorld with fp := F, plat := P } } 1 r.toGen {} with
    | ok v s' =>
      obtain ⟨q, _, hq⟩ := hg.1 _ _ _ hr
      exact hno ⟨q, hq⟩
    | panic e => exact hg.2 _ _ hr
    | oom =>
      cases r with
      | const q => simp [generate, NumResult.toGen, genStep] at hr
      | gen g => exact numberGenerate_not_oom _ _ _ hr

-- Contradictory keywords that meet the hypotheses of the two theorems above.
example : ¬ ∃ q, NumSpec.Accepts { minimum := some 3, exclusiveMaximum := some 3 } q := by
  rintro ⟨q, h⟩
  have h1 := h.minimum 3 rfl
  have h2 := h.exclusiveMaximum 3 rfl
  linarith
example : ¬ ∃ i : Int, NumSpec.Accepts { exclusiveMinimum := some 6, maximum := some 11, multipleOf := some 6 } (i : Rat) := by
  rintro ⟨i, h⟩
  have h1 := h.exclusiveMinimum 6 rfl
  have h2 := h.maximum 11 rfl
  obtain ⟨k, hk⟩ := h.multipleOf 6 rfl
  have h1' : (6 : Int) < i := by exact_mod_cast h1
  have h2' : i ≤ 11 := by exact_mod_cast h2
  have hk' : i = k * 6 := by exact_mod_cast hk
  omega
-- A schema meeting the hypotheses of `C21_numbers_double_partial`.
example : runNumSchema doubleCtx { minimum := some (-3), exclusiveMaximum := some (1 / 4) } false ≠ none := by decide +kernel

/-- **The converse of C22 is false of the code.**  `{"type":"integer","minimum":5,"maximum":5}` has the solution
5 and is rejected, and so is `{"type":"number","minimum":10,"maximum":10,"multipleOf":5}`. -/
theorem C22_satisfiable_rejected_violation :
    (∃ n : NumSpec, n.Accepts 5 ∧ ∃ e, parseNumber .exact .amd64 n true = .error e) ∧
    (∃ n : NumSpec, n.Accepts 10 ∧ ∃ e, parseNumber .exact .amd64 n false = .error e) := by
  have ferr : ∀ x : Except String NumResult, (match x with | .ok _ => false | .error _ => true) = true → ∃ e, x = .error e := by
    intro x hx; cases x with
    | error e => exact ⟨e, rfl⟩
    | ok r => cases hx
  constructor
  · refine ⟨{ minimum := some 5, maximum := some 5 }, ?_, ferr _ (by decide +kernel)⟩
    constructor <;> intro x hx <;> cases hx <;> norm_num
  · refine ⟨{ minimum := some 10, maximum := some 10, multipleOf := some 5 }, ?_, ferr _ (by decide +kernel)⟩
    constructor <;> intro x hx <;> cases hx
    · norm_num
    · norm_num
    · exact ⟨2, by norm_num⟩

end Chaff
