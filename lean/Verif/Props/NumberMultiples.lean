import Verif.Props.NumberExclusive
/-!
# C21: multiples in 64-bit arithmetic

The last step of generation snaps a multiple to the nearest multiple of 1e-14, by a division and a multiplication.  In
64-bit arithmetic this keeps the integers up to 1475739 and destroys others beyond.
-/

namespace Chaff
open Comp

/-- A number very close to a 64-bit number is rounded to it. -/
theorem rnd64_close_pos {x y : Rat} (hd : binary64Rnd x = x) (h1 : 1 ≤ x) (h : |y - x| ≤ x / 2 ^ 55) : binary64Rnd y = x := by
  have hx0 : x ≠ 0 := by intro h0; rw [h0] at h1; norm_num at h1
  have hgrid : x = roundEven (x / pow2 (ulpExp x)) * pow2 (ulpExp x) := by
    conv_lhs => rw [← hd]
    unfold binary64Rnd
    rw [if_neg hx0]
  have hpx := pow2_pos (ulpExp x)
  generalize roundEven (x / pow2 (ulpExp x)) = k at hgrid
  have hb := abs_lt_pow2_53 hx0
  rw [pow2_add, pow2_53, abs_of_pos (by linarith)] at hb
  have h' := abs_le.1 h
  have hs : x / 2 ^ 55 ≤ x / 2 := by
    rw [div_le_div_iff₀ (by norm_num) (by norm_num)]
    nlinarith
  have hy : 0 < y := by linarith [h'.1]
  by_cases hyx : y ≤ x
  · have hle : ulpExp y ≤ ulpExp x := by
      have := ilog2_mono hy.ne' (b := x) (by rw [abs_of_pos hy, abs_of_pos (by linarith)]; exact hyx)
      unfold ulpExp; omega
    obtain ⟨j, hj⟩ := pow2_grid hle
    refine rnd64_nearest hy.ne' (k * j) ?_ ?_
    · conv_lhs => rw [hgrid, hj]
      push_cast; ring
    · have hby := abs_lt_pow2_53 hy.ne'
      rw [pow2_add, pow2_53, abs_of_pos hy] at hby
      refine lt_of_le_of_lt h ?_
      have : x / 2 ^ 55 < 2 * (2 ^ 53 * pow2 (ulpExp y)) / 2 ^ 55 := by
        apply div_lt_div_of_pos_right _ (by norm_num)
        linarith [h'.1]
      have e : 2 * (2 ^ 53 * pow2 (ulpExp y)) / 2 ^ 55 = pow2 (ulpExp y) / 2 := by ring
      linarith
  · have hyx := not_le.1 hyx
    have hsm : x / 2 ^ 55 < pow2 (ulpExp x) / 4 := by
      have : x / 2 ^ 55 < 2 ^ 53 * pow2 (ulpExp x) / 2 ^ 55 := div_lt_div_of_pos_right hb (by norm_num)
      have e : 2 ^ 53 * pow2 (ulpExp x) / 2 ^ 55 = pow2 (ulpExp x) / 4 := by ring
      linarith
    have hu : ulpExp x = ilog2 x - 52 := by
      have : (-1 : Int) < ilog2 x := by
        have h := (ilog2_spec hx0).2
        rw [abs_of_pos (by linarith)] at h
        have : pow2 0 < pow2 (ilog2 x + 1) := by rw [pow2_zero]; linarith
        have := lt_of_pow2_lt this
        omega
      unfold ulpExp; omega
    have hlog : ilog2 y = ilog2 x := by
      refine le_antisymm ?_ (ilog2_mono hx0 (by rw [abs_of_pos (by linarith), abs_of_pos hy]; exact hyx.le))
      have hk1 : (k : Rat) < 2 ^ 53 := by
        by_contra hc
        have := mul_le_mul_of_nonneg_right (not_lt.1 hc) hpx.le
        linarith
      have hk2 : k + 1 ≤ 2 ^ 53 := by
        have : (k : Rat) < ((2 ^ 53 : Int) : Rat) := by push_cast; exact hk1
        have : k < 2 ^ 53 := by exact_mod_cast this
        omega
      have hk3 : ((k : Rat) + 1) * pow2 (ulpExp x) ≤ 2 ^ 53 * pow2 (ulpExp x) :=
        mul_le_mul_of_nonneg_right (by exact_mod_cast hk2) hpx.le
      have hylt : |y| < pow2 (ilog2 x + 1) := by
        have e : pow2 (ilog2 x + 1) = 2 ^ 53 * pow2 (ulpExp x) := by
          rw [← pow2_53, ← pow2_add, hu]; congr 1; omega
        rw [e, abs_of_pos hy]
        have e2 : ((k : Rat) + 1) * pow2 (ulpExp x) = x + pow2 (ulpExp x) := by rw [add_mul, one_mul, ← hgrid]
        rw [e2] at hk3
        linarith [h'.2]
      have := lt_of_pow2_lt (lt_of_le_of_lt (ilog2_spec hy.ne').1 hylt)
      omega
    have hue : ulpExp y = ulpExp x := by unfold ulpExp; rw [hlog]
    refine rnd64_nearest hy.ne' k (by rw [hue]; exact hgrid) ?_
    rw [hue]
    linarith

theorem rnd64_close {x y : Rat} (hd : binary64Rnd x = x) (h1 : 1 ≤ |x|) (h : |y - x| ≤ |x| / 2 ^ 55) : binary64Rnd y = x := by
  rcases le_total 0 x with hx | hx
  · rw [abs_of_nonneg hx] at h h1
    exact rnd64_close_pos hd h1 h
  · rw [abs_of_nonpos hx] at h h1
    have := rnd64_close_pos (x := -x) (y := -y) (by rw [rnd64_neg, hd]) h1
      (by rw [show -y - -x = -(y - x) by ring, abs_neg]; exact h)
    rw [rnd64_neg] at this
    linarith

theorem infinitesimal_close : |infinitesimal .binary64 * 10 ^ 14 - 1| ≤ 1 / 2 ^ 57 := by
  have : decide (|infinitesimal .binary64 * 10 ^ 14 - 1| ≤ 1 / 2 ^ 57) = true := by decide +kernel
  exact of_decide_eq_true this

theorem infinitesimal_inverse_close : |1 / infinitesimal .binary64 - 10 ^ 14| ≤ 10 ^ 14 / 2 ^ 57 := by
  have : decide (|1 / infinitesimal .binary64 - 10 ^ 14| ≤ 10 ^ 14 / 2 ^ 57) = true := by decide +kernel
  exact of_decide_eq_true this

/-- Snapping to multiples of 1e-14 keeps the integers up to 1475739. -/
theorem snap_int {z : Int} (hz : |z| ≤ 1475739) : roundToInfinitesimal .binary64 (z : Rat) = z := by
  by_cases h0 : z = 0
  · subst h0
    have : decide (roundToInfinitesimal .binary64 ((0 : Int) : Rat) = ((0 : Int) : Rat)) = true := by decide +kernel
    exact of_decide_eq_true this
  have hz1 : 1 ≤ |z| := Int.one_le_abs h0
  have hz1' : (1 : Rat) ≤ |(z : Rat)| := by exact_mod_cast hz1
  have hzq : |(z : Rat)| ≤ 1475739 := by exact_mod_cast hz
  have hbig : (1475739 : Rat) ≤ FP.binary64.rnd (10 ^ 290) := by
    have : decide ((1475739 : Rat) ≤ FP.binary64.rnd (10 ^ 290)) = true := by decide +kernel
    exact of_decide_eq_true this
  have habs : (if (z : Rat) < 0 then -(z : Rat) else z) = |(z : Rat)| := by
    split
    · rename_i h; rw [abs_of_neg h]
    · rename_i h; rw [abs_of_nonneg (not_lt.1 h)]
  unfold roundToInfinitesimal
  rw [habs, if_neg (by linarith)]
  have hN : binary64Rnd ((z * 10 ^ 14 : Int) : Rat) = ((z * 10 ^ 14 : Int) : Rat) := by
    have := rnd64_exact (z * 5 ^ 14) 14 (by norm_num) (by rw [abs_mul]; norm_num; omega)
    have e : ((z * 5 ^ 14 : Int) : Rat) * pow2 14 = ((z * 10 ^ 14 : Int) : Rat) := by
      rw [show pow2 14 = 2 ^ 14 by rw [pow2_eq]; norm_num]
      push_cast
      rw [mul_assoc]
      norm_num
    rwa [e] at this
  have hquot : FP.binary64.div (z : Rat) (infinitesimal .binary64) = ((z * 10 ^ 14 : Int) : Rat) := by
    refine rnd64_close hN ?_ ?_
    · push_cast
      rw [abs_mul]
      norm_num
      linarith
    · have e : (z : Rat) / infinitesimal .binary64 - ((z * 10 ^ 14 : Int) : Rat) = z * (1 / infinitesimal .binary64 - 10 ^ 14) := by
        push_cast; ring
      rw [e, abs_mul]
      push_cast
      rw [abs_mul]
      have := mul_le_mul_of_nonneg_left infinitesimal_inverse_close (abs_nonneg (z : Rat))
      refine this.trans ?_
      have : 0 ≤ |(z : Rat)| := abs_nonneg _
      norm_num
      linarith
  rw [hquot, fRound_int]
  show binary64Rnd _ = _
  refine rnd64_close (rnd64_int z (by omega)) hz1' ?_
  have e : ((z * 10 ^ 14 : Int) : Rat) * infinitesimal .binary64 - z = z * (infinitesimal .binary64 * 10 ^ 14 - 1) := by
    push_cast; ring
  rw [e, abs_mul]
  have := mul_le_mul_of_nonneg_left infinitesimal_close (abs_nonneg (z : Rat))
  refine this.trans ?_
  have : 0 ≤ |(z : Rat)| := abs_nonneg _
  norm_num
  linarith

/-- `util.Round` keeps the multiples of an integer. -/
theorem utilRound_int {k M : Int} (hM : 0 < M) (hk : |k * M| ≤ 2 ^ 53) :
    utilRound .binary64 ((k * M : Int) : Rat) M = ((k * M : Int) : Rat) := by
  have hMq : (0 : Rat) < M := by exact_mod_cast hM
  have hk' : |k| ≤ 2 ^ 53 := by
    refine le_trans ?_ hk
    rw [abs_mul]
    exact le_mul_of_one_le_right (abs_nonneg _) (Int.one_le_abs hM.ne')
  have hdiv : FP.binary64.div ((k * M : Int) : Rat) M = k := by
    show binary64Rnd _ = _
    rw [show ((k * M : Int) : Rat) / M = k by push_cast; field_simp]
    exact rnd64_int k hk'
  have hmul : FP.binary64.mul (k : Rat) M = ((k * M : Int) : Rat) := by
    show binary64Rnd _ = _
    rw [← Int.cast_mul]
    exact rnd64_int _ hk
  have hprec : decimalPrecision .binary64 (M : Rat) = 0 := by
    unfold decimalPrecision
    rw [if_neg (not_lt.2 hMq.le)]
    unfold decimalPrecision.go
    rw [if_pos (by unfold fFloor; simp)]
  unfold utilRound
  simp only [hdiv, fRound_int, hmul, hprec, pow_zero, if_pos hMq.ne', ne_eq]
  have h1 : FP.binary64.mul ((k * M : Int) : Rat) 1 = ((k * M : Int) : Rat) := by
    show binary64Rnd _ = _
    rw [mul_one]
    exact rnd64_int _ hk
  rw [h1, fRound_int]
  show binary64Rnd _ = _
  rw [div_one]
  exact rnd64_int _ hk

/-- Without exclusive bounds and with integers in the keywords the effective bounds are integers. -/
theorem effectiveBounds_multiple {n : NumSpec} {M : Int} (hm : n.multipleOf = some (M : Rat)) (hM : 0 < M) (hM' : M ≤ 4000)
    (h1 : ∀ x, n.minimum = some x → ∃ a : Int, x = a ∧ |a| ≤ 10 ^ 6)
    (h2 : ∀ x, n.maximum = some x → ∃ a : Int, x = a ∧ |a| ≤ 10 ^ 6)
    (h3 : n.exclusiveMinimum = none) (h4 : n.exclusiveMaximum = none) :
    ∃ a b : Int, effectiveBounds .binary64 n false = ((a : Rat), (b : Rat)) ∧ |a| ≤ 1475739 ∧ |b| ≤ 1475739 := by
  have hMq : (0 : Rat) < M := by exact_mod_cast hM
  have hoff : getFloat [FP.binary64.mul (getZeroIfNil n.multipleOf 0) 100, (defaultOffset : Rat)] = ((M * 100 : Int) : Rat) := by
    have : FP.binary64.mul (M : Rat) 100 = ((M * 100 : Int) : Rat) := by
      show binary64Rnd _ = _
      have := rnd64_int (M * 100) (by rw [abs_le]; constructor <;> omega)
      push_cast at this ⊢
      exact this
    rw [hm]
    simp only [getZeroIfNil, this]
    unfold getFloat
    rw [if_pos (by push_cast; positivity)]
  have hadd : ∀ a : Int, |a| ≤ 10 ^ 6 → FP.binary64.add (a : Rat) ((M * 100 : Int) : Rat) = ((a + M * 100 : Int) : Rat) := by
    intro a ha
    have := abs_le.1 ha
    show binary64Rnd _ = _
    rw [← Int.cast_add]
    exact rnd64_int _ (by rw [abs_le]; constructor <;> omega)
  have hsub : ∀ a : Int, |a| ≤ 10 ^ 6 → FP.binary64.sub (a : Rat) ((M * 100 : Int) : Rat) = ((a - M * 100 : Int) : Rat) := by
    intro a ha
    have := abs_le.1 ha
    show binary64Rnd _ = _
    rw [← Int.cast_sub]
    exact rnd64_int _ (by rw [abs_le]; constructor <;> omega)
  unfold effectiveBounds
  simp only [h3, h4, addIfNotNil, hoff]
  cases e1 : n.minimum with
  | none =>
    cases e2 : n.maximum with
    | none =>
      refine ⟨0, M * 100, ?_, by norm_num, by rw [abs_le]; constructor <;> omega⟩
      simp [maxPtr, minPtr, maxPtrStep, minPtrStep]
    | some y =>
      obtain ⟨b, rfl, hb⟩ := h2 y e2
      have := abs_le.1 hb
      refine ⟨b - M * 100, b, ?_, by rw [abs_le]; constructor <;> omega, by omega⟩
      rw [← hsub b hb]
      simp [maxPtr, minPtr, maxPtrStep, minPtrStep]
  | some x =>
    obtain ⟨a, rfl, ha⟩ := h1 x e1
    have := abs_le.1 ha
    cases e2 : n.maximum with
    | none =>
      refine ⟨a, a + M * 100, ?_, by omega, by rw [abs_le]; constructor <;> omega⟩
      rw [← hadd a ha]
      simp [maxPtr, minPtr, maxPtrStep, minPtrStep]
    | some y =>
      obtain ⟨b, rfl, hb⟩ := h2 y e2
      refine ⟨a, b, ?_, by omega, by omega⟩
      simp [maxPtr, minPtr, maxPtrStep, minPtrStep]

/-- C21 with `multipleOf` in 64-bit arithmetic.  Let `multipleOf` be a positive integer up to 4000, and `minimum` and
`maximum`, if present, integers up to a million.  Every number generated for the type `number` then satisfies the keywords,
and generation does not panic.  Missing: exclusive bounds, fractions, and larger numbers, for which the claim is false
(`C21_snapped_multiple_violation`). -/
theorem C21_multiples_double_partial (c : Ctx) (hF : c.w.fp = FP.binary64) (n : NumSpec) (M : Int)
    (hm : n.multipleOf = some (M : Rat)) (hM : 0 < M) (hM' : M ≤ 4000)
    (h1 : ∀ x, n.minimum = some x → ∃ a : Int, x = a ∧ |a| ≤ 10 ^ 6)
    (h2 : ∀ x, n.maximum = some x → ∃ a : Int, x = a ∧ |a| ≤ 10 ^ 6)
    (h3 : n.exclusiveMinimum = none) (h4 : n.exclusiveMaximum = none)
    (r : NumResult) (h : parseNumber c.w.fp c.w.plat n false = .ok r) (fuel : Nat) :
    (∀ s v s', generate c (fuel + 1) r.toGen s = .ok v s' → ∃ q : Rat, v = .num q ∧ n.Accepts q) ∧
    NoPanic (generate c (fuel + 1) r.toGen) := by
  have hlaw : c.w.fp.Lawful := by rw [hF]; exact FP.binary64_lawful
  have hMq : (0 : Rat) < M := by exact_mod_cast hM
  unfold parseNumber at h
  cases hr : resolveMinMaxForNode c.w.fp c.w.plat n false with
  | error e => rw [hr] at h; cases h
  | ok p =>
    obtain ⟨mn, mx⟩ := p
    rw [hr] at h
    simp only at h
    obtain ⟨a, b, heb, ha, hb⟩ := effectiveBounds_multiple hm hM hM' h1 h2 h3 h4
    obtain ⟨hle, hchk, hmn, hmx⟩ := resolve_ok hr
    obtain ⟨s1, s2, _, _⟩ := effectiveBounds_spec (F := .binary64) (n := n) false
    have ha' := abs_le.1 ha
    have hb' := abs_le.1 hb
    have hcl : clampBounds .binary64 ((a : Rat), (b : Rat)) = ((a : Rat), (b : Rat)) := by
      have e1 : (-1475739 : Rat) ≤ a := by exact_mod_cast ha'.1
      have e2 : (b : Rat) ≤ 1475739 := by exact_mod_cast hb'.2
      have hbig : (1475739 : Rat) ≤ upperBound .binary64 := by
        have : decide ((1475739 : Rat) ≤ upperBound .binary64) = true := by decide +kernel
        exact of_decide_eq_true this
      unfold clampBounds lowerBound
      simp only
      rw [if_neg (by linarith), if_neg (by linarith)]
    rw [if_neg (by simp), hF, heb, hcl] at hmn hmx
    rw [heb] at s1 s2
    replace hmn : mn = (a : Rat) := hmn
    replace hmx : mx = (b : Rat) := hmx
    subst hmn hmx
    have hab : a ≤ b := by exact_mod_cast hle
    obtain ⟨_, _, _, hcnt⟩ := checkMultipleOf_some hm hchk
    have hacc : ∀ k : Int, a ≤ k * M → k * M ≤ b → n.Accepts ((k * M : Int) : Rat) := by
      intro k hk1 hk2
      have hk1' : (a : Rat) ≤ ((k * M : Int) : Rat) := by exact_mod_cast hk1
      have hk2' : ((k * M : Int) : Rat) ≤ b := by exact_mod_cast hk2
      refine ⟨fun x hx => (s1 x hx).trans hk1', fun x hx => hk2'.trans (s2 x hx), fun x hx => (by rw [h3] at hx; cases hx),
        fun x hx => (by rw [h4] at hx; cases hx), fun m hm' => ?_⟩
      rw [hm] at hm'
      cases hm'
      exact ⟨k, by push_cast; rfl⟩
    split at h
    · -- a constant
      rename_i heq
      exfalso
      apply hcnt
      have heq' : a = b := by exact_mod_cast heq
      subst heq'
      unfold countMultiplesInRange
      split
      · rename_i h0
        rw [h0]
        unfold fdiv0
        rw [if_neg hMq.ne']
        simp [floorToInt, FP.div, FP.Lawful.zero hlaw, toInt64, fTrunc, fFloor]
      · simp [wrap64]
    · cases h
      simp only [generate, NumResult.toGen, genStep, hm]
      have hraw := generateMultipleOf_int_post c.w hlaw hM (hM'.trans (by norm_num)) hab (ha.trans (by norm_num))
        (hb.trans (by norm_num)) hcnt
      constructor
      · intro s v s' hg
        obtain ⟨_, t1, _, hg⟩ := bind_ok.1 hg
        unfold numberGenerate numberRaw at hg
        obtain ⟨q, t2, hq, hg⟩ := bind_ok.1 hg
        simp only [getZeroIfNil, Bool.false_eq_true, if_false, ne_eq, hMq.ne', not_false_iff, if_true] at hq
        obtain ⟨q', t3, hq', hq⟩ := bind_ok.1 hq
        obtain ⟨k, rfl, hk1, hk2⟩ := (hraw t1).1 q' t3 hq'
        have hk : |k * M| ≤ 1475739 := by rw [abs_le]; constructor <;> omega
        rw [hF, utilRound_int hM (hk.trans (by norm_num)), pure_ok] at hq
        obtain ⟨rfl, _⟩ := hq
        simp only [getZeroIfNil, Bool.false_eq_true, if_false, ne_eq, hMq.ne', not_false_iff, if_true] at hg
        rw [hF, snap_int hk] at hg
        refine ⟨((k * M : Int) : Rat), ?_, hacc k hk1 hk2⟩
        split at hg
        · rename_i h0; rw [pure_ok] at hg; rw [h0]; exact hg.1.symm
        · rw [pure_ok] at hg; exact hg.1.symm
      · refine NoPanic.bind (by intro s e; simp [tick]) (fun _ => ?_)
        unfold numberGenerate numberRaw
        simp only [getZeroIfNil, Bool.false_eq_true, if_false, ne_eq, hMq.ne', not_false_iff, if_true]
        refine NoPanic.bind (NoPanic.bind (hraw {}).2 (fun _ => NoPanic.pure)) (fun x => ?_)
        split <;> exact NoPanic.pure

/-- A schema meeting the hypotheses, and what is generated for it. -/
example : runNumSchema doubleCtx { minimum := some 10, multipleOf := some 5 } false = some 30 := by decide +kernel

/-- **C21 is false of the code for larger multiples.**  `{"type":"number","minimum":1475740,"maximum":1475741,"multipleOf":1}`
generates a number that is neither an integer nor at most 1475741. -/
theorem C21_snapped_multiple_violation :
    ∃ (r : NumResult) (s' : GSt) (q : Rat),
      parseNumber doubleCtx.w.fp doubleCtx.w.plat { minimum := some 1475740, maximum := some 1475741, multipleOf := some 1 } false = .ok r ∧
      generate doubleCtx 1 r.toGen {} = .ok (.num q) s' ∧ 1475741 < q ∧ q < 1475742 := by
  have h : runNumSchema doubleCtx { minimum := some 1475740, maximum := some 1475741, multipleOf := some 1 } false =
      some (1475741 + 1 / 2 ^ 32) := by
    decide +kernel
  obtain ⟨r, s', h1, h2⟩ := exists_of_runNumSchema h
  exact ⟨r, s', _, h1, h2, by norm_num, by norm_num⟩

/-- The 64-bit number nearest to a decimal fraction. -/
def nearDecimal (k : Int) (p : Nat) : Rat := binary64Rnd (k / 10 ^ p)

/-- **C21 is false of the code for decimal multiples.**  `{"type":"number","minimum":32.1,"maximum":32.2,"multipleOf":0.1}`
generates a number above 32.2 that is not the nearest 64-bit number to any multiple of 0.1; printed, it is
32.20000000000001.  The step that snaps to 1e-14 goes to the wrong neighbour. -/
theorem C21_decimal_multiple_violation :
    ∃ (r : NumResult) (s' : GSt) (q : Rat),
      parseNumber doubleCtx.w.fp doubleCtx.w.plat
        { minimum := some (nearDecimal 321 1), maximum := some (nearDecimal 322 1), multipleOf := some (nearDecimal 1 1) } false = .ok r ∧
      generate doubleCtx 1 r.toGen {} = .ok (.num q) s' ∧ nearDecimal 322 1 < q ∧ ∀ k : Int, q ≠ nearDecimal k 1 := by
  have h : runNumSchema doubleCtx
      { minimum := some (nearDecimal 321 1), maximum := some (nearDecimal 322 1), multipleOf := some (nearDecimal 1 1) } false =
      some (4531747125041563 / 140737488355328) := by
    decide +kernel
  have h3 : decide (nearDecimal 322 1 < (4531747125041563 / 140737488355328 : Rat) ∧
      (4531747125041563 / 140737488355328 : Rat) < nearDecimal 323 1) = true := by decide +kernel
  obtain ⟨h3, h4⟩ := of_decide_eq_true h3
  obtain ⟨r, s', h1, h2⟩ := exists_of_runNumSchema h
  refine ⟨r, s', _, h1, h2, h3, fun k hk => ?_⟩
  rcases le_or_gt k 322 with hle | hgt
  · have : nearDecimal k 1 ≤ nearDecimal 322 1 := by
      refine rnd64_mono (div_le_div_of_nonneg_right ?_ (by norm_num))
      exact_mod_cast hle
    linarith
  · have : nearDecimal 323 1 ≤ nearDecimal k 1 := by
      refine rnd64_mono (div_le_div_of_nonneg_right ?_ (by norm_num))
      have : (323 : Int) ≤ k := hgt
      exact_mod_cast this
    linarith

end Chaff
