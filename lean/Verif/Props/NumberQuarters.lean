import Verif.Props.NumberMultiples
/-!
# C21: halves and quarters in 64-bit arithmetic

`multipleOf` 0.5 and 0.25 are fractions that binary floating point holds exactly.
-/

namespace Chaff
open Comp

theorem rnd64_quarter (z : Int) (h : |z| ≤ 2 ^ 53) : binary64Rnd ((z : Rat) / 4) = (z : Rat) / 4 := by
  have := rnd64_exact z (-2) (by norm_num) h
  rw [show pow2 (-2) = 1 / 4 by rw [pow2_eq]; norm_num] at this
  rw [mul_one_div] at this
  exact this

theorem quarter_div {a m : Rat} : a / 4 / (m / 4) = a / m := by
  rw [div_div_div_cancel_right₀ (by norm_num)]

/-- Counting quarters is counting integers. -/
theorem countMultiples_quarter (F : FP) (P : Platform) (a b m : Rat) :
    countMultiplesInRange F P (a / 4) (b / 4) (m / 4) = countMultiplesInRange F P a b m := by
  have h0 : m / 4 = 0 ↔ m = 0 := by constructor <;> intro h <;> linarith
  have hpos : ∀ x : Rat, x / 4 > 0 ↔ x > 0 := fun x => by constructor <;> intro h <;> linarith
  have hneg : ∀ x : Rat, x / 4 < 0 ↔ x < 0 := fun x => by constructor <;> intro h <;> linarith
  have hd : ∀ x : Rat, fdiv0 F (x / 4) (m / 4) = fdiv0 F x m := by
    intro x
    unfold fdiv0 FP.div
    rw [quarter_div]
    simp only [h0, hpos, hneg]
  have ha : a / 4 = 0 ↔ a = 0 := by constructor <;> intro h <;> linarith
  unfold countMultiplesInRange
  simp only [hd, ha]

/-- Drawing quarters is drawing integers. -/
theorem generateMultipleOf_quarter_post (w : World) (hF : w.fp = FP.binary64) {a b m : Int} (hm : 0 < m) (hm' : m ≤ 2 ^ 42)
    (hab : a ≤ b) (ha : |a| ≤ 2 ^ 50) (hb : |b| ≤ 2 ^ 50)
    (hn : countMultiplesInRange w.fp w.plat (a : Rat) b m ≠ 0) (s : GSt) :
    Post (generateMultipleOf w ((a : Rat) / 4) ((b : Rat) / 4) ((m : Rat) / 4)) s
      (fun q _ => ∃ k : Int, q = ((k * m : Int) : Rat) / 4 ∧ a ≤ k * m ∧ k * m ≤ b) ∧
    NoPanic (generateMultipleOf w ((a : Rat) / 4) ((b : Rat) / 4) ((m : Rat) / 4)) := by
  have hlaw : w.fp.Lawful := by rw [hF]; exact FP.binary64_lawful
  have ha' := abs_le.1 ha
  have hb' := abs_le.1 hb
  have hmq : (0 : Rat) < m := by exact_mod_cast hm
  have hda := hlaw.floorDiv a m (ha.trans (by norm_num)) hm (hm'.trans (by norm_num))
  have hdb := hlaw.floorDiv b m (hb.trans (by norm_num)) hm (hm'.trans (by norm_num))
  set fa := ⌊(a : Rat) / m⌋ with hfa
  set fb := ⌊(b : Rat) / m⌋ with hfb
  have fa1 : fa * m ≤ a := by
    have := Int.floor_le ((a : Rat) / m)
    rw [← hfa, le_div_iff₀ hmq] at this; exact_mod_cast this
  have fa2 : a < (fa + 1) * m := by
    have := Int.lt_floor_add_one ((a : Rat) / m)
    rw [← hfa, div_lt_iff₀ hmq] at this; exact_mod_cast this
  have fb1 : fb * m ≤ b := by
    have := Int.floor_le ((b : Rat) / m)
    rw [← hfb, le_div_iff₀ hmq] at this; exact_mod_cast this
  have fab : fa ≤ fb := by
    apply Int.floor_le_floor
    exact div_le_div_of_nonneg_right (by exact_mod_cast hab) hmq.le
  have hfam : |fa| ≤ 2 ^ 52 := by
    rw [abs_le]; constructor <;> nlinarith
  have hfbm : |fb| ≤ 2 ^ 52 := by
    rw [abs_le]; constructor <;> nlinarith
  have hfam' := abs_le.1 hfam
  have hfbm' := abs_le.1 hfbm
  have hcount := countMultiples_eq (F := w.fp) (P := w.plat) hmq.ne' hda hdb
    (hfam.trans (by norm_num)) (hfbm.trans (by norm_num))
  rw [← hfa, ← hfb] at hcount
  rw [hcount] at hn
  unfold generateMultipleOf
  simp only [countMultiples_quarter, hcount, if_neg hn]
  constructor
  · refine Post.bind (fun k s' hk => Post.pure ?_)
    have hkr := randomInt_post _ _ _ _ k s' hk
    have hk1 : 1 ≤ k ∧ k ≤ fb - fa := by omega
    refine ⟨fa + k, ?_, ?_, ?_⟩
    · have e1 : w.fp.mul (fFloor (w.fp.div ((a : Rat) / 4) ((m : Rat) / 4)) : Rat) ((m : Rat) / 4) = ((fa * m : Int) : Rat) / 4 := by
        unfold FP.mul FP.div fFloor
        rw [quarter_div, hda, hF]
        show binary64Rnd _ = _
        rw [show (fa : Rat) * ((m : Rat) / 4) = ((fa * m : Int) : Rat) / 4 by push_cast; ring]
        exact rnd64_quarter _ (by rw [abs_le]; constructor <;> nlinarith)
      have e2 : w.fp.rnd ((k : Int) : Rat) = k := hlaw.int k (by rw [abs_le]; constructor <;> linarith)
      have e3 : w.fp.mul (k : Rat) ((m : Rat) / 4) = ((k * m : Int) : Rat) / 4 := by
        unfold FP.mul
        rw [hF]
        show binary64Rnd _ = _
        rw [show (k : Rat) * ((m : Rat) / 4) = ((k * m : Int) : Rat) / 4 by push_cast; ring]
        exact rnd64_quarter _ (by
          have : k * m ≤ (fb - fa) * m := by nlinarith
          rw [abs_le]; constructor <;> nlinarith)
      rw [e1, e2, e3]
      unfold FP.add
      rw [hF]
      show binary64Rnd _ = _
      rw [show ((fa * m : Int) : Rat) / 4 + ((k * m : Int) : Rat) / 4 = (((fa + k) * m : Int) : Rat) / 4 by push_cast; ring]
      exact rnd64_quarter _ (by
          have : k * m ≤ (fb - fa) * m := by nlinarith
          rw [abs_le]; constructor <;> nlinarith)
    · nlinarith
    · have : k * m ≤ (fb - fa) * m := by nlinarith
      nlinarith
  · exact NoPanic.bind (randomInt_noPanic w (by omega)) (fun _ => NoPanic.pure)

/-- The number of decimals of quarters: at most two, and enough. -/
theorem decimals_quarter {M : Int} (hM : 0 < M) (hM' : M ≤ 4000) :
    ∃ p : Nat, decimalPrecision .binary64 ((M : Rat) / 4) = p ∧ p ≤ 2 ∧ ∃ d : Int, (M : Rat) / 4 * 10 ^ p = d := by
  have hMq : (0 : Rat) < M := by exact_mod_cast hM
  have step : ∀ x : Rat, ∀ z : Int, x = (z : Rat) / 4 → |z| ≤ 2 ^ 40 → FP.binary64.mul x 10 = ((z * 10 : Int) : Rat) / 4 := by
    intro x z hx hz
    have hz := abs_le.1 hz
    show binary64Rnd _ = _
    rw [hx, show (z : Rat) / 4 * 10 = ((z * 10 : Int) : Rat) / 4 by push_cast; ring]
    exact rnd64_quarter _ (by rw [abs_le]; constructor <;> omega)
  have hfl : ∀ z : Int, 4 ∣ z → (z : Rat) / 4 = (fFloor ((z : Rat) / 4) : Rat) := by
    rintro z ⟨y, rfl⟩
    have : ((4 * y : Int) : Rat) / 4 = (y : Rat) := by push_cast; ring
    rw [this]
    unfold fFloor
    rw [Int.floor_intCast]
  unfold decimalPrecision
  rw [if_neg (by linarith [div_pos hMq (by norm_num : (0 : Rat) < 4)])]
  unfold decimalPrecision.go
  split
  · rename_i h
    exact ⟨0, rfl, by norm_num, fFloor ((M : Rat) / 4), by rw [pow_zero, mul_one]; exact h⟩
  · rw [step _ M rfl (by rw [abs_le]; constructor <;> omega)]
    unfold decimalPrecision.go
    split
    · rename_i h
      refine ⟨1, rfl, by norm_num, fFloor (((M * 10 : Int) : Rat) / 4), ?_⟩
      rw [← h]; push_cast; ring
    · rw [step _ (M * 10) rfl (by rw [abs_le]; constructor <;> omega)]
      have hd : (4 : Int) ∣ M * 10 * 10 := ⟨M * 25, by ring⟩
      unfold decimalPrecision.go
      rw [if_pos (hfl _ hd)]
      exact ⟨2, rfl, le_refl _, M * 25, by push_cast; ring⟩

/-- `util.Round` keeps the multiples of quarters. -/
theorem utilRound_quarter {k M : Int} (hM : 0 < M) (hM' : M ≤ 4000) (hk : |k * M| ≤ 2 ^ 40) :
    utilRound .binary64 (((k * M : Int) : Rat) / 4) ((M : Rat) / 4) = ((k * M : Int) : Rat) / 4 := by
  have hMq : (0 : Rat) < M := by exact_mod_cast hM
  have hM4 : (0 : Rat) < (M : Rat) / 4 := by positivity
  have hk' : |k| ≤ 2 ^ 53 := by
    refine le_trans ?_ (hk.trans (by norm_num))
    rw [abs_mul]
    exact le_mul_of_one_le_right (abs_nonneg _) (Int.one_le_abs hM.ne')
  have hdiv : FP.binary64.div (((k * M : Int) : Rat) / 4) ((M : Rat) / 4) = k := by
    show binary64Rnd _ = _
    rw [quarter_div, show ((k * M : Int) : Rat) / M = k by push_cast; field_simp]
    exact rnd64_int k hk'
  have hmul : FP.binary64.mul (k : Rat) ((M : Rat) / 4) = ((k * M : Int) : Rat) / 4 := by
    show binary64Rnd _ = _
    rw [show (k : Rat) * ((M : Rat) / 4) = ((k * M : Int) : Rat) / 4 by push_cast; ring]
    exact rnd64_quarter _ (hk.trans (by norm_num))
  obtain ⟨p, hp, hp2, d, hd⟩ := decimals_quarter hM hM'
  have hkd : ((k * M : Int) : Rat) / 4 * 10 ^ p = ((k * d : Int) : Rat) := by
    rw [show ((k * M : Int) : Rat) / 4 * 10 ^ p = k * ((M : Rat) / 4 * 10 ^ p) by push_cast; ring, hd]
    push_cast; rfl
  have hkdb : |k * d| ≤ 2 ^ 53 := by
    have h1 : |((k * d : Int) : Rat)| ≤ 2 ^ 53 := by
      rw [← hkd, abs_mul, abs_div]
      have h2 : |(10 : Rat) ^ p| ≤ 100 := by
        rw [abs_of_pos (by positivity)]
        calc (10 : Rat) ^ p ≤ 10 ^ 2 := pow_le_pow_right₀ (by norm_num) hp2
          _ = 100 := by norm_num
      have h3 : |((k * M : Int) : Rat)| ≤ 2 ^ 40 := by exact_mod_cast hk
      have h4 := abs_nonneg ((k * M : Int) : Rat)
      have h5 : |(4 : Rat)| = 4 := by norm_num
      rw [h5]
      have h6 := abs_nonneg ((10 : Rat) ^ p)
      nlinarith
    exact_mod_cast h1
  have hr : FP.binary64.mul (((k * M : Int) : Rat) / 4) (10 ^ p) = ((k * d : Int) : Rat) := by
    show binary64Rnd _ = _
    rw [hkd]
    exact rnd64_int _ hkdb
  unfold utilRound
  simp only [hdiv, fRound_int, hmul, hp, if_pos hM4.ne', ne_eq, hr]
  show binary64Rnd _ = _
  rw [← hkd, mul_div_assoc, div_self (by positivity), mul_one]
  exact rnd64_quarter _ (hk.trans (by norm_num))

/-- Snapping to multiples of 1e-14 keeps the quarters up to 1475739 of them. -/
theorem snap_quarter {z : Int} (hz : |z| ≤ 1475739) : roundToInfinitesimal .binary64 ((z : Rat) / 4) = (z : Rat) / 4 := by
  by_cases hsmall : |z| < 4
  · have hb := abs_lt.1 hsmall
    have hall : ∀ y ∈ [(-3 : Int), -2, -1, 0, 1, 2, 3], roundToInfinitesimal .binary64 ((y : Rat) / 4) = (y : Rat) / 4 := by
      decide +kernel
    refine hall z ?_
    have : z = -3 ∨ z = -2 ∨ z = -1 ∨ z = 0 ∨ z = 1 ∨ z = 2 ∨ z = 3 := by omega
    simp only [List.mem_cons, List.not_mem_nil, or_false]
    exact this
  have hz1 : 4 ≤ |z| := not_lt.1 hsmall
  have hzq1 : (4 : Rat) ≤ |(z : Rat)| := by exact_mod_cast hz1
  have hzq : |(z : Rat)| ≤ 1475739 := by exact_mod_cast hz
  have habs4 : |(z : Rat) / 4| = |(z : Rat)| / 4 := by rw [abs_div]; norm_num
  have hbig : (1475739 : Rat) ≤ FP.binary64.rnd (10 ^ 290) := by
    have : decide ((1475739 : Rat) ≤ FP.binary64.rnd (10 ^ 290)) = true := by decide +kernel
    exact of_decide_eq_true this
  have habs : (if (z : Rat) / 4 < 0 then -((z : Rat) / 4) else (z : Rat) / 4) = |(z : Rat) / 4| := by
    split
    · rename_i h; rw [abs_of_neg h]
    · rename_i h; rw [abs_of_nonneg (not_lt.1 h)]
  unfold roundToInfinitesimal
  rw [habs, habs4, if_neg (by linarith)]
  have hN : binary64Rnd ((z * 25 * 10 ^ 12 : Int) : Rat) = ((z * 25 * 10 ^ 12 : Int) : Rat) := by
    have := rnd64_exact (z * 5 ^ 14) 12 (by norm_num) (by rw [abs_mul]; norm_num; omega)
    have e : ((z * 5 ^ 14 : Int) : Rat) * pow2 12 = ((z * 25 * 10 ^ 12 : Int) : Rat) := by
      rw [show pow2 12 = 2 ^ 12 by rw [pow2_eq]; norm_num]
      push_cast
      ring
    rwa [e] at this
  have hquot : FP.binary64.div ((z : Rat) / 4) (infinitesimal .binary64) = ((z * 25 * 10 ^ 12 : Int) : Rat) := by
    refine rnd64_close hN ?_ ?_
    · push_cast
      rw [abs_mul, abs_mul]
      norm_num
      linarith
    · have e : (z : Rat) / 4 / infinitesimal .binary64 - ((z * 25 * 10 ^ 12 : Int) : Rat) =
          z / 4 * (1 / infinitesimal .binary64 - 10 ^ 14) := by
        push_cast; ring
      rw [e, abs_mul, habs4]
      push_cast
      rw [abs_mul, abs_mul]
      have h0 : 0 ≤ |(z : Rat)| := abs_nonneg _
      have := mul_le_mul_of_nonneg_left infinitesimal_inverse_close (by linarith : 0 ≤ |(z : Rat)| / 4)
      refine this.trans ?_
      norm_num
      linarith
  rw [hquot, fRound_int]
  show binary64Rnd _ = _
  refine rnd64_close (rnd64_quarter z (by omega)) (by rw [habs4]; linarith) ?_
  have e : ((z * 25 * 10 ^ 12 : Int) : Rat) * infinitesimal .binary64 - z / 4 = z / 4 * (infinitesimal .binary64 * 10 ^ 14 - 1) := by
    push_cast; ring
  rw [e, abs_mul, habs4]
  have h0 : 0 ≤ |(z : Rat)| := abs_nonneg _
  have := mul_le_mul_of_nonneg_left infinitesimal_close (by linarith : 0 ≤ |(z : Rat)| / 4)
  refine this.trans ?_
  norm_num
  linarith

/-- Without exclusive bounds and with quarters in the keywords the effective bounds are quarters. -/
theorem effectiveBounds_quarter {n : NumSpec} {M : Int} (hm : n.multipleOf = some ((M : Rat) / 4)) (hM : 0 < M) (hM' : M ≤ 4000)
    (h1 : ∀ x, n.minimum = some x → ∃ a : Int, x = (a : Rat) / 4 ∧ |a| ≤ 10 ^ 6)
    (h2 : ∀ x, n.maximum = some x → ∃ a : Int, x = (a : Rat) / 4 ∧ |a| ≤ 10 ^ 6)
    (h3 : n.exclusiveMinimum = none) (h4 : n.exclusiveMaximum = none) :
    ∃ a b : Int, effectiveBounds .binary64 n false = ((a : Rat) / 4, (b : Rat) / 4) ∧ |a| ≤ 1475739 ∧ |b| ≤ 1475739 := by
  have hMq : (0 : Rat) < M := by exact_mod_cast hM
  have hoff : getFloat [FP.binary64.mul (getZeroIfNil n.multipleOf 0) 100, (defaultOffset : Rat)] = ((M * 100 : Int) : Rat) / 4 := by
    have : FP.binary64.mul ((M : Rat) / 4) 100 = ((M * 100 : Int) : Rat) / 4 := by
      show binary64Rnd _ = _
      rw [show (M : Rat) / 4 * 100 = ((M * 100 : Int) : Rat) / 4 by push_cast; ring]
      exact rnd64_quarter (M * 100) (by rw [abs_le]; constructor <;> omega)
    rw [hm]
    simp only [getZeroIfNil, this]
    unfold getFloat
    rw [if_pos (by push_cast; positivity)]
  have hadd : ∀ a : Int, |a| ≤ 10 ^ 6 →
      FP.binary64.add ((a : Rat) / 4) (((M * 100 : Int) : Rat) / 4) = ((a + M * 100 : Int) : Rat) / 4 := by
    intro a ha
    have := abs_le.1 ha
    show binary64Rnd _ = _
    rw [show (a : Rat) / 4 + ((M * 100 : Int) : Rat) / 4 = ((a + M * 100 : Int) : Rat) / 4 by push_cast; ring]
    exact rnd64_quarter _ (by rw [abs_le]; constructor <;> omega)
  have hsub : ∀ a : Int, |a| ≤ 10 ^ 6 →
      FP.binary64.sub ((a : Rat) / 4) (((M * 100 : Int) : Rat) / 4) = ((a - M * 100 : Int) : Rat) / 4 := by
    intro a ha
    have := abs_le.1 ha
    show binary64Rnd _ = _
    rw [show (a : Rat) / 4 - ((M * 100 : Int) : Rat) / 4 = ((a - M * 100 : Int) : Rat) / 4 by push_cast; ring]
    exact rnd64_quarter _ (by rw [abs_le]; constructor <;> omega)
  unfold effectiveBounds
  simp only [h3, h4, addIfNotNil, hoff]
  cases e1 : n.minimum with
  | none =>
    cases e2 : n.maximum with
    | none =>
      refine ⟨0, M * 100, ?_, by norm_num, by rw [abs_le]; constructor <;> omega⟩
      simp [maxPtr, minPtr, maxPtrStep, minPtrStep]
    | some y =>
      obtain ⟨b, rfl, hb⟩ := h2 y e2
      have := abs_le.1 hb
      refine ⟨b - M * 100, b, ?_, by rw [abs_le]; constructor <;> omega, by omega⟩
      rw [← hsub b hb]
      simp [maxPtr, minPtr, maxPtrStep, minPtrStep]
  | some x =>
    obtain ⟨a, rfl, ha⟩ := h1 x e1
    have := abs_le.1 ha
    cases e2 : n.maximum with
    | none =>
      refine ⟨a, a + M * 100, ?_, by omega, by rw [abs_le]; constructor <;> omega⟩
      rw [← hadd a ha]
      simp [maxPtr, minPtr, maxPtrStep, minPtrStep]
    | some y =>
      obtain ⟨b, rfl, hb⟩ := h2 y e2
      refine ⟨a, b, ?_, by omega, by omega⟩
      simp [maxPtr, minPtr, maxPtrStep, minPtrStep]

/-- C21 with a fractional `multipleOf` in 64-bit arithmetic.  Let `multipleOf` be a positive multiple of a quarter up to
1000, such as 0.25, 0.5 or 7.5, and `minimum` and `maximum`, if present, multiples of a quarter up to 250000.  Every number
generated for the type `number` then satisfies the keywords, and generation does not panic.  Missing: exclusive bounds and
fractions that 64-bit numbers do not hold exactly, for which the claim is false (`C21_decimal_multiple_violation`). -/
theorem C21_quarters_double_partial (c : Ctx) (hF : c.w.fp = FP.binary64) (n : NumSpec) (M : Int)
    (hm : n.multipleOf = some ((M : Rat) / 4)) (hM : 0 < M) (hM' : M ≤ 4000)
    (h1 : ∀ x, n.minimum = some x → ∃ a : Int, x = (a : Rat) / 4 ∧ |a| ≤ 10 ^ 6)
    (h2 : ∀ x, n.maximum = some x → ∃ a : Int, x = (a : Rat) / 4 ∧ |a| ≤ 10 ^ 6)
    (h3 : n.exclusiveMinimum = none) (h4 : n.exclusiveMaximum = none)
    (r : NumResult) (h : parseNumber c.w.fp c.w.plat n false = .ok r) (fuel : Nat) :
    (∀ s v s', generate c (fuel + 1) r.toGen s = .ok v s' → ∃ q : Rat, v = .num q ∧ n.Accepts q) ∧
    NoPanic (generate c (fuel + 1) r.toGen) := by
  have hlaw : c.w.fp.Lawful := by rw [hF]; exact FP.binary64_lawful
  have hMq : (0 : Rat) < M := by exact_mod_cast hM
  have hM4 : (0 : Rat) < (M : Rat) / 4 := by positivity
  unfold parseNumber at h
  cases hr : resolveMinMaxForNode c.w.fp c.w.plat n false with
  | error e => rw [hr] at h; cases h
  | ok p =>
    obtain ⟨mn, mx⟩ := p
    rw [hr] at h
    simp only at h
    obtain ⟨a, b, heb, ha, hb⟩ := effectiveBounds_quarter hm hM hM' h1 h2 h3 h4
    obtain ⟨hle, hchk, hmn, hmx⟩ := resolve_ok hr
    obtain ⟨s1, s2, _, _⟩ := effectiveBounds_spec (F := .binary64) (n := n) false
    have ha' := abs_le.1 ha
    have hb' := abs_le.1 hb
    have hcl : clampBounds .binary64 ((a : Rat) / 4, (b : Rat) / 4) = ((a : Rat) / 4, (b : Rat) / 4) := by
      have e1 : (-1475739 : Rat) ≤ a := by exact_mod_cast ha'.1
      have e2 : (b : Rat) ≤ 1475739 := by exact_mod_cast hb'.2
      have hbig : (1475739 : Rat) ≤ upperBound .binary64 := by
        have : decide ((1475739 : Rat) ≤ upperBound .binary64) = true := by decide +kernel
        exact of_decide_eq_true this
      unfold clampBounds lowerBound
      simp only
      rw [if_neg (by linarith), if_neg (by linarith)]
    rw [if_neg (by simp), hF, heb, hcl] at hmn hmx
    rw [heb] at s1 s2
    replace hmn : mn = (a : Rat) / 4 := hmn
    replace hmx : mx = (b : Rat) / 4 := hmx
    subst hmn hmx
    have hab : a ≤ b := by
      have : (a : Rat) ≤ b := by linarith
      exact_mod_cast this
    obtain ⟨_, _, _, hcnt⟩ := checkMultipleOf_some hm hchk
    rw [countMultiples_quarter] at hcnt
    have hacc : ∀ k : Int, a ≤ k * M → k * M ≤ b → n.Accepts (((k * M : Int) : Rat) / 4) := by
      intro k hk1 hk2
      have hk1' : (a : Rat) ≤ ((k * M : Int) : Rat) := by exact_mod_cast hk1
      have hk2' : ((k * M : Int) : Rat) ≤ b := by exact_mod_cast hk2
      refine ⟨fun x hx => (s1 x hx).trans (by simp only; linarith), fun x hx => le_trans (by simp only; linarith) (s2 x hx),
        fun x hx => (by rw [h3] at hx; cases hx), fun x hx => (by rw [h4] at hx; cases hx), fun m hm' => ?_⟩
      rw [hm] at hm'
      cases hm'
      exact ⟨k, by push_cast; ring⟩
    split at h
    · -- a constant
      rename_i heq
      exfalso
      apply hcnt
      have heq' : a = b := by
        have : (a : Rat) = b := by linarith
        exact_mod_cast this
      subst heq'
      unfold countMultiplesInRange
      split
      · rename_i h0
        rw [h0]
        unfold fdiv0
        rw [if_neg hMq.ne']
        simp [floorToInt, FP.div, FP.Lawful.zero hlaw, toInt64, fTrunc, fFloor]
      · simp [wrap64]
    · cases h
      simp only [generate, NumResult.toGen, genStep, hm]
      have hraw := generateMultipleOf_quarter_post c.w hF hM (hM'.trans (by norm_num)) hab (ha.trans (by norm_num))
        (hb.trans (by norm_num)) hcnt
      constructor
      · intro s v s' hg
        obtain ⟨_, t1, _, hg⟩ := bind_ok.1 hg
        unfold numberGenerate numberRaw at hg
        obtain ⟨q, t2, hq, hg⟩ := bind_ok.1 hg
        simp only [getZeroIfNil, Bool.false_eq_true, if_false, ne_eq, hM4.ne', not_false_iff, if_true] at hq
        obtain ⟨q', t3, hq', hq⟩ := bind_ok.1 hq
        obtain ⟨k, rfl, hk1, hk2⟩ := (hraw t1).1 q' t3 hq'
        have hk : |k * M| ≤ 1475739 := by rw [abs_le]; constructor <;> omega
        rw [hF, utilRound_quarter hM hM' (hk.trans (by norm_num)), pure_ok] at hq
        obtain ⟨rfl, _⟩ := hq
        simp only [getZeroIfNil, Bool.false_eq_true, if_false, ne_eq, hM4.ne', not_false_iff, if_true] at hg
        rw [hF, snap_quarter hk] at hg
        refine ⟨((k * M : Int) : Rat) / 4, ?_, hacc k hk1 hk2⟩
        split at hg
        · rename_i h0; rw [pure_ok] at hg; rw [h0]; exact hg.1.symm
        · rw [pure_ok] at hg; exact hg.1.symm
      · refine NoPanic.bind (by intro s e; simp [tick]) (fun _ => ?_)
        unfold numberGenerate numberRaw
        simp only [getZeroIfNil, Bool.false_eq_true, if_false, ne_eq, hM4.ne', not_false_iff, if_true]
        refine NoPanic.bind (NoPanic.bind (hraw {}).2 (fun _ => NoPanic.pure)) (fun x => ?_)
        split <;> exact NoPanic.pure

/-- A schema meeting the hypotheses, and what is generated for it. -/
example : (∃ x : Int, (1 / 4 : Rat) = (x : Rat) / 4) ∧
    runNumSchema doubleCtx { minimum := some (3 / 2), maximum := some 10, multipleOf := some (1 / 4) } false = some (5 / 2) :=
  ⟨⟨1, by norm_num⟩, by decide +kernel⟩

end Chaff
