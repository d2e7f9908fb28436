import Verif.Model.Binary64
import Verif.Spec.Rounding
import Mathlib.Tactic.Linarith
import Mathlib.Tactic.Ring
import Mathlib.Tactic.FieldSimp
import Mathlib.Tactic.NormNum
import Mathlib.Algebra.Order.Field.Basic
import Mathlib.Algebra.Order.Field.Power
import Mathlib.Data.Nat.Log
/-!
# binary64 satisfies the rounding laws
-/

set_option linter.unusedVariables false

namespace Chaff

theorem pow2_eq (e : Int) : pow2 e = (2 : Rat) ^ e := by
  cases e with
  | ofNat n => simp [pow2]
  | negSucc n => simp [pow2, zpow_negSucc]

theorem pow2_pos (e : Int) : 0 < pow2 e := by rw [pow2_eq]; positivity

theorem pow2_add (a b : Int) : pow2 (a + b) = pow2 a * pow2 b := by
  simp only [pow2_eq]; rw [zpow_add₀ (by norm_num)]

theorem pow2_le {a b : Int} (h : a ≤ b) : pow2 a ≤ pow2 b := by
  simp only [pow2_eq]; exact zpow_le_zpow_right₀ (by norm_num) h

theorem pow2_lt {a b : Int} (h : a < b) : pow2 a < pow2 b := by
  simp only [pow2_eq]; exact zpow_lt_zpow_right₀ (by norm_num) h

theorem lt_of_pow2_lt {a b : Int} (h : pow2 a < pow2 b) : a < b := by
  by_contra hc
  exact absurd h (not_lt.2 (pow2_le (not_lt.1 hc)))

theorem pow2_natCast (n : Nat) : pow2 (n : Int) = ((2 ^ n : Nat) : Rat) := rfl

/-- A power of two is an integer multiple of any smaller one. -/
theorem pow2_grid {a b : Int} (h : a ≤ b) : ∃ k : Int, pow2 b = k * pow2 a := by
  refine ⟨2 ^ (b - a).toNat, ?_⟩
  have hb : b = (b - a) + a := by omega
  conv_lhs => rw [hb, pow2_add]
  congr 1
  have : b - a = ((b - a).toNat : Int) := by omega
  conv_lhs => rw [this, pow2_natCast]
  push_cast; rfl

theorem ilog2_spec {q : Rat} (hq : q ≠ 0) : pow2 (ilog2 q) ≤ |q| ∧ |q| < pow2 (ilog2 q + 1) := by
  have hn : q.num.natAbs ≠ 0 := by simpa using hq
  have hd : q.den ≠ 0 := q.den_nz
  have hn1 := Nat.log2_self_le hn
  have hn2 : q.num.natAbs < 2 ^ (Nat.log2 q.num.natAbs + 1) := Nat.lt_log2_self
  have hd1 := Nat.log2_self_le hd
  have hd2 : q.den < 2 ^ (Nat.log2 q.den + 1) := Nat.lt_log2_self
  set ln := Nat.log2 q.num.natAbs with hln
  set ld := Nat.log2 q.den with hld
  have habs : |q| = (q.num.natAbs : Rat) / q.den := by
    conv_lhs => rw [← Rat.num_div_den q]
    rw [abs_div]
    congr 1
    · rw [Nat.cast_natAbs]; push_cast; rfl
    · simp
  have hdq : (0 : Rat) < q.den := by exact_mod_cast q.den_pos
  have hnq : (0 : Rat) < q.num.natAbs := by exact_mod_cast Nat.pos_of_ne_zero hn
  have e1 : pow2 ((ln : Int) - ld - 1) ≤ |q| := by
    rw [habs, le_div_iff₀ hdq]
    have h1 : pow2 ((ln : Int) - ld - 1) * pow2 ((ld + 1 : Nat) : Int) = pow2 (ln : Int) := by
      rw [← pow2_add]; congr 1; push_cast; ring
    have h2 : (q.den : Rat) ≤ pow2 ((ld + 1 : Nat) : Int) := by rw [pow2_natCast]; exact_mod_cast hd2.le
    have h3 : pow2 (ln : Int) ≤ (q.num.natAbs : Rat) := by rw [pow2_natCast]; exact_mod_cast hn1
    have := pow2_pos ((ln : Int) - ld - 1)
    nlinarith
  have e2 : |q| < pow2 ((ln : Int) - ld + 1) := by
    rw [habs, div_lt_iff₀ hdq]
    have h1 : pow2 ((ln : Int) - ld + 1) * pow2 (ld : Int) = pow2 ((ln + 1 : Nat) : Int) := by
      rw [← pow2_add]; congr 1; push_cast; ring
    have h2 : pow2 (ld : Int) ≤ (q.den : Rat) := by rw [pow2_natCast]; exact_mod_cast hd1
    have h3 : (q.num.natAbs : Rat) < pow2 ((ln + 1 : Nat) : Int) := by rw [pow2_natCast]; exact_mod_cast hn2
    have := pow2_pos ((ln : Int) - ld + 1)
    nlinarith
  unfold ilog2
  simp only [← hln, ← hld]
  split
  · rename_i h; exact ⟨h, e2⟩
  · rename_i h
    refine ⟨e1, ?_⟩
    rw [show (ln : Int) - ld - 1 + 1 = (ln : Int) - ld by ring]
    exact not_le.1 h

theorem ilog2_neg (q : Rat) : ilog2 (-q) = ilog2 q := by simp [ilog2]
theorem ulpExp_neg (q : Rat) : ulpExp (-q) = ulpExp q := by simp [ulpExp, ilog2_neg]

theorem ilog2_mono {a b : Rat} (ha : a ≠ 0) (hab : |a| ≤ |b|) : ilog2 a ≤ ilog2 b := by
  have hb : b ≠ 0 := by rintro rfl; simp at hab; exact ha hab
  have h1 := (ilog2_spec ha).1
  have h2 := (ilog2_spec hb).2
  have := lt_of_pow2_lt (lt_of_le_of_lt h1 (lt_of_le_of_lt hab h2))
  omega

/-! ## `roundEven` -/

theorem le_roundEven {q : Rat} {n : Int} (h : (n : Rat) ≤ q) : n ≤ roundEven q := by
  have hf : n ≤ ⌊q⌋ := Int.le_floor.2 h
  unfold roundEven
  simp only
  split
  · exact hf
  · split
    · omega
    · split <;> omega

theorem roundEven_le {q : Rat} {n : Int} (h : q ≤ n) : roundEven q ≤ n := by
  have h1 := Int.floor_le q
  have h2 := Int.lt_floor_add_one q
  have hf : ⌊q⌋ ≤ n := by
    have : (⌊q⌋ : Rat) ≤ n := h1.trans h
    exact_mod_cast this
  rcases Int.lt_or_eq_of_le hf with hlt | heq
  · unfold roundEven
    simp only
    split
    · omega
    · split
      · omega
      · split <;> omega
  · have : q = n := le_antisymm h (by rw [← heq]; exact h1)
    unfold roundEven
    simp only
    rw [if_pos (by rw [this]; simp)]
    omega

theorem roundEven_int (n : Int) : roundEven n = n :=
  le_antisymm (roundEven_le (le_refl _)) (le_roundEven (le_refl _))

theorem abs_roundEven_sub (q : Rat) : |(roundEven q : Rat) - q| ≤ 1 / 2 := by
  have h1 := Int.floor_le q
  have h2 := Int.lt_floor_add_one q
  unfold roundEven
  simp only
  split
  · rw [abs_le]; constructor <;> linarith
  · split
    · rw [abs_le]; push_cast; constructor <;> linarith
    · split
      · rw [abs_le]; constructor <;> linarith
      · rw [abs_le]; push_cast; constructor <;> linarith

theorem roundEven_mono {a b : Rat} (h : a ≤ b) : roundEven a ≤ roundEven b := by
  by_cases hf : ⌊a⌋ = ⌊b⌋
  · unfold roundEven
    simp only [hf]
    by_cases b1 : b - (⌊b⌋ : Rat) < 1 / 2
    · rw [if_pos b1, if_pos (by linarith)]
    · rw [if_neg b1]
      by_cases b2 : 1 / 2 < b - (⌊b⌋ : Rat)
      · rw [if_pos b2]
        split_ifs <;> omega
      · rw [if_neg b2, if_neg (show ¬ 1 / 2 < a - (⌊b⌋ : Rat) by linarith)]
        split_ifs <;> omega
  · have hlt : ⌊a⌋ < ⌊b⌋ := lt_of_le_of_ne (Int.floor_le_floor h) hf
    have h1 : roundEven a ≤ ⌊a⌋ + 1 := roundEven_le (by push_cast; exact (Int.lt_floor_add_one a).le)
    have h2 : ⌊b⌋ ≤ roundEven b := le_roundEven (Int.floor_le b)
    omega

theorem roundEven_neg (q : Rat) : roundEven (-q) = -roundEven q := by
  by_cases hi : (⌊q⌋ : Rat) = q
  · rw [← hi, ← Int.cast_neg, roundEven_int, roundEven_int]
  · have h1 : (⌊q⌋ : Rat) < q := lt_of_le_of_ne (Int.floor_le q) hi
    have h2 := Int.lt_floor_add_one q
    have hneg : ⌊-q⌋ = -⌊q⌋ - 1 := by
      rw [Int.floor_eq_iff]; push_cast; constructor <;> linarith
    unfold roundEven
    simp only [hneg]
    push_cast
    by_cases c1 : q - (⌊q⌋ : Rat) < 1 / 2
    · rw [if_pos c1, if_neg (by linarith), if_pos (by linarith)]; ring
    · by_cases c2 : 1 / 2 < q - (⌊q⌋ : Rat)
      · rw [if_neg c1, if_pos c2, if_pos (by linarith)]; ring
      · rw [if_neg c1, if_neg c2, if_neg (by linarith), if_neg (by linarith)]
        split <;> split <;> omega

/-! ## `binary64Rnd` -/

theorem rnd64_zero : binary64Rnd 0 = 0 := by simp [binary64Rnd]

theorem rnd64_neg (q : Rat) : binary64Rnd (-q) = -binary64Rnd q := by
  unfold binary64Rnd
  by_cases h : q = 0
  · simp [h]
  · rw [if_neg (by simpa using h), if_neg h, ulpExp_neg, neg_div, roundEven_neg]
    push_cast; ring

/-- Points of the grid of `q` bound the rounding of `q`. -/
theorem grid_le_rnd64 {q : Rat} {k : Int} (hq : q ≠ 0) (h : (k : Rat) * pow2 (ulpExp q) ≤ q) :
    (k : Rat) * pow2 (ulpExp q) ≤ binary64Rnd q := by
  unfold binary64Rnd
  rw [if_neg hq]
  have hp := pow2_pos (ulpExp q)
  have : k ≤ roundEven (q / pow2 (ulpExp q)) := le_roundEven (by rw [le_div_iff₀ hp]; exact h)
  have h' : (k : Rat) ≤ roundEven (q / pow2 (ulpExp q)) := by exact_mod_cast this
  exact mul_le_mul_of_nonneg_right h' hp.le

theorem rnd64_le_grid {q : Rat} {k : Int} (hq : q ≠ 0) (h : q ≤ (k : Rat) * pow2 (ulpExp q)) :
    binary64Rnd q ≤ (k : Rat) * pow2 (ulpExp q) := by
  unfold binary64Rnd
  rw [if_neg hq]
  have hp := pow2_pos (ulpExp q)
  have : roundEven (q / pow2 (ulpExp q)) ≤ k := roundEven_le (by rw [div_le_iff₀ hp]; exact h)
  have h' : (roundEven (q / pow2 (ulpExp q)) : Rat) ≤ k := by exact_mod_cast this
  exact mul_le_mul_of_nonneg_right h' hp.le

/-- Grid points are not changed. -/
theorem rnd64_grid {q : Rat} (k : Int) (h : q = (k : Rat) * pow2 (ulpExp q)) : binary64Rnd q = q := by
  by_cases hq : q = 0
  · rw [hq, rnd64_zero]
  · apply le_antisymm
    · conv_rhs => rw [h]
      exact rnd64_le_grid hq (by rw [← h])
    · conv_lhs => rw [h]
      exact grid_le_rnd64 hq (by rw [← h])

theorem rnd64_nonneg {q : Rat} (h : 0 ≤ q) : 0 ≤ binary64Rnd q := by
  by_cases hq : q = 0
  · rw [hq, rnd64_zero]
  · have := grid_le_rnd64 (k := 0) hq (by simpa using h)
    simpa using this

theorem rnd64_mono_pos {a b : Rat} (ha : 0 < a) (hab : a ≤ b) : binary64Rnd a ≤ binary64Rnd b := by
  have hb : 0 < b := lt_of_lt_of_le ha hab
  have hl := ilog2_mono (b := b) ha.ne' (by rw [abs_of_pos ha, abs_of_pos hb]; exact hab)
  by_cases he : ulpExp a = ulpExp b
  · unfold binary64Rnd
    rw [if_neg ha.ne', if_neg hb.ne', he]
    have hp := pow2_pos (ulpExp b)
    have := roundEven_mono (div_le_div_of_nonneg_right hab hp.le)
    have h' : (roundEven (a / pow2 (ulpExp b)) : Rat) ≤ roundEven (b / pow2 (ulpExp b)) := by exact_mod_cast this
    exact mul_le_mul_of_nonneg_right h' hp.le
  · have hlt : ulpExp a < ulpExp b := by
      have : ulpExp a ≤ ulpExp b := by unfold ulpExp; omega
      omega
    have hb1 : ulpExp b = ilog2 b - 52 := by unfold ulpExp at hlt ⊢; omega
    have ha1 : ilog2 a < ilog2 b := by unfold ulpExp at hlt; omega
    obtain ⟨k, hk⟩ := pow2_grid (a := ulpExp b) (b := ilog2 b) (by omega)
    obtain ⟨k', hk'⟩ := pow2_grid (a := ulpExp a) (b := ilog2 b) (by omega)
    have h1 : pow2 (ilog2 b) ≤ binary64Rnd b := by
      rw [hk]
      refine grid_le_rnd64 hb.ne' ?_
      rw [← hk, ← abs_of_pos hb]
      simpa [abs_of_pos hb] using (ilog2_spec hb.ne').1
    have h2 : binary64Rnd a ≤ pow2 (ilog2 b) := by
      rw [hk']
      refine rnd64_le_grid ha.ne' ?_
      rw [← hk']
      have := (ilog2_spec ha.ne').2
      rw [abs_of_pos ha] at this
      exact this.le.trans (pow2_le (by omega))
    exact h2.trans h1

theorem rnd64_mono {a b : Rat} (hab : a ≤ b) : binary64Rnd a ≤ binary64Rnd b := by
  rcases lt_trichotomy a 0 with ha | ha | ha
  · rcases lt_trichotomy b 0 with hb | hb | hb
    · have := rnd64_mono_pos (a := -b) (b := -a) (by linarith) (by linarith)
      rw [rnd64_neg, rnd64_neg] at this
      linarith
    · have := rnd64_nonneg (q := -a) (by linarith)
      rw [rnd64_neg] at this
      rw [hb, rnd64_zero]; linarith
    · have := rnd64_nonneg (q := -a) (by linarith)
      rw [rnd64_neg] at this
      have := rnd64_nonneg hb.le
      linarith
  · rw [ha, rnd64_zero]; exact rnd64_nonneg (by linarith)
  · exact rnd64_mono_pos ha hab

/-- The significand has at most 53 bits. -/
theorem abs_lt_pow2_53 {q : Rat} (hq : q ≠ 0) : |q| < pow2 (53 + ulpExp q) := by
  refine lt_of_lt_of_le (ilog2_spec hq).2 (pow2_le ?_)
  unfold ulpExp; omega

theorem pow2_53 : pow2 53 = 2 ^ 53 := by rw [pow2_eq]; norm_num

/-- A multiple of 2^e with at most 53 bits is not changed (for `e` at least the smallest exponent). -/
theorem rnd64_exact (k e : Int) (he : -1074 ≤ e) (hk : |k| ≤ 2 ^ 53) : binary64Rnd (k * pow2 e) = k * pow2 e := by
  by_cases h0 : k = 0
  · simp [h0, rnd64_zero]
  have hkq : (k : Rat) ≠ 0 := by exact_mod_cast h0
  have hp := pow2_pos e
  have hq : (k : Rat) * pow2 e ≠ 0 := mul_ne_zero hkq hp.ne'
  set q := (k : Rat) * pow2 e with hqd
  have habs : |q| = |(k : Rat)| * pow2 e := by rw [hqd, abs_mul, abs_of_pos hp]
  have hle : |q| ≤ pow2 (53 + e) := by
    rw [habs, pow2_add, pow2_53]
    have : |(k : Rat)| ≤ 2 ^ 53 := by exact_mod_cast hk
    exact mul_le_mul_of_nonneg_right this hp.le
  obtain ⟨l1, l2⟩ := ilog2_spec hq
  by_cases hc : ulpExp q ≤ e
  · obtain ⟨j, hj⟩ := pow2_grid hc
    refine rnd64_grid (k * j) ?_
    conv_lhs => rw [hqd, hj]
    push_cast; ring
  · -- then q is ± 2^(53+e)
    have hu : ulpExp q = ilog2 q - 52 := by unfold ulpExp at hc ⊢; omega
    have h53 : 53 + e ≤ ilog2 q := by omega
    have heq : |q| = pow2 (ilog2 q) := le_antisymm (hle.trans (pow2_le h53)) l1
    obtain ⟨j, hj⟩ := pow2_grid (a := ulpExp q) (b := ilog2 q) (by omega)
    rw [hj] at heq
    rcases abs_choice q with h | h
    · exact rnd64_grid j (by rw [← h]; rw [h]; rw [h] at heq; exact heq)
    · refine rnd64_grid (-j) ?_
      rw [h] at heq
      push_cast; linarith

theorem rnd64_idem (q : Rat) : binary64Rnd (binary64Rnd q) = binary64Rnd q := by
  by_cases hq : q = 0
  · rw [hq, rnd64_zero, rnd64_zero]
  have hdef : binary64Rnd q = roundEven (q / pow2 (ulpExp q)) * pow2 (ulpExp q) := by
    unfold binary64Rnd; rw [if_neg hq]
  rw [hdef]
  refine rnd64_exact _ _ (by unfold ulpExp; omega) ?_
  have hlt := abs_lt_pow2_53 hq
  rw [pow2_add, pow2_53] at hlt
  have hp := pow2_pos (ulpExp q)
  have h2 : |q / pow2 (ulpExp q)| < 2 ^ 53 := by
    rw [abs_div, abs_of_pos hp, div_lt_iff₀ hp]; exact hlt
  obtain ⟨h3, h4⟩ := abs_lt.1 h2
  rw [abs_le]
  constructor
  · exact le_roundEven (by push_cast; exact h3.le)
  · exact roundEven_le (by push_cast; exact h4.le)

theorem pow2_zero : pow2 0 = 1 := by rw [pow2_eq]; norm_num

theorem rnd64_int (n : Int) (h : |n| ≤ 2 ^ 53) : binary64Rnd n = n := by
  have := rnd64_exact n 0 (by norm_num) h
  rwa [pow2_zero, mul_one] at this

theorem rnd64_error {q : Rat} (hq : q ≠ 0) : |binary64Rnd q - q| ≤ pow2 (ulpExp q) / 2 := by
  have hdef : binary64Rnd q = roundEven (q / pow2 (ulpExp q)) * pow2 (ulpExp q) := by
    unfold binary64Rnd; rw [if_neg hq]
  have hp := pow2_pos (ulpExp q)
  have h1 := abs_roundEven_sub (q / pow2 (ulpExp q))
  have : binary64Rnd q - q = (roundEven (q / pow2 (ulpExp q)) - q / pow2 (ulpExp q)) * pow2 (ulpExp q) := by
    rw [hdef]; field_simp
  rw [this, abs_mul, abs_of_pos hp]
  nlinarith

theorem rnd64_floorDiv (a b : Int) (ha : |a| ≤ 2 ^ 53) (hb : 0 < b) (hb' : b ≤ 2 ^ 53) :
    ⌊binary64Rnd ((a : Rat) / b)⌋ = ⌊(a : Rat) / b⌋ := by
  by_cases ha0 : a = 0
  · simp [ha0, rnd64_zero]
  by_cases hb1 : b = 1
  · subst hb1
    simp only [Int.cast_one, div_one]
    rw [rnd64_int a ha]
  have hb2 : 2 ≤ b := by omega
  have hbq : (0 : Rat) < b := by exact_mod_cast hb
  have hb2q : (2 : Rat) ≤ b := by exact_mod_cast hb2
  have haq : |(a : Rat)| ≤ 2 ^ 53 := by exact_mod_cast ha
  set q := (a : Rat) / b with hqd
  have hq0 : q ≠ 0 := by
    rw [hqd]; exact div_ne_zero (by exact_mod_cast ha0) hbq.ne'
  have hqa : |q| = |(a : Rat)| / b := by rw [hqd, abs_div, abs_of_pos hbq]
  have hq52 : |q| ≤ 2 ^ 52 := by
    rw [hqa, div_le_iff₀ hbq]
    nlinarith
  obtain ⟨hq1, hq2⟩ := abs_le.1 hq52
  set f := ⌊q⌋ with hf
  have hf1 : (f : Rat) ≤ q := Int.floor_le q
  have hf2 : q < f + 1 := Int.lt_floor_add_one q
  have hfl : -(2 ^ 52) ≤ f := Int.le_floor.2 (by push_cast; exact hq1)
  have hfu : f ≤ 2 ^ 52 := by
    have : (f : Rat) ≤ 2 ^ 52 := hf1.trans hq2
    exact_mod_cast this
  rw [Int.floor_eq_iff]
  have hlow : (f : Rat) ≤ binary64Rnd q := by
    have := rnd64_mono hf1
    rwa [rnd64_int f (by rw [abs_le]; constructor <;> omega)] at this
  refine ⟨hlow, ?_⟩
  by_contra hc
  have hc := not_lt.1 hc
  have hup : binary64Rnd q ≤ f + 1 := by
    have := rnd64_mono hf2.le
    have h1 := rnd64_int (f + 1) (by rw [abs_le]; constructor <;> omega)
    push_cast at h1
    rwa [h1] at this
  have hrq : binary64Rnd q = f + 1 := le_antisymm hup hc
  -- the distance to the next integer is at least 1/b
  have hdist : 1 / (b : Rat) ≤ f + 1 - q := by
    have hq : q * b = a := by rw [hqd]; field_simp
    have hlt : (a : Rat) < (f + 1) * b := by rw [← hq]; nlinarith
    have hlt' : a < (f + 1) * b := by exact_mod_cast hlt
    have hge : a + 1 ≤ (f + 1) * b := hlt'
    have hge' : (a : Rat) + 1 ≤ (f + 1) * b := by exact_mod_cast hge
    rw [div_le_iff₀ hbq]
    nlinarith
  have herr := rnd64_error hq0
  rw [hrq, abs_of_pos (by linarith)] at herr
  obtain ⟨l1, l2⟩ := ilog2_spec hq0
  -- the quotient is not subnormal
  have hnorm : ulpExp q = ilog2 q - 52 := by
    have ha1 : (1 : Rat) ≤ |(a : Rat)| := by
      have : (1 : Int) ≤ |a| := Int.one_le_abs ha0
      exact_mod_cast this
    have hb'q : (b : Rat) ≤ 2 ^ 53 := by exact_mod_cast hb'
    have : pow2 (-53) ≤ |q| := by
      rw [hqa, le_div_iff₀ hbq, pow2_eq]
      have : (2 : Rat) ^ (-53 : Int) * 2 ^ 53 = 1 := by norm_num
      have hp : (0 : Rat) < (2 : Rat) ^ (-53 : Int) := by positivity
      nlinarith
    have := lt_of_pow2_lt (lt_of_le_of_lt this l2)
    unfold ulpExp; omega
  have hulp : pow2 (ulpExp q) / 2 = pow2 (ilog2 q) / 2 ^ 53 := by
    rw [hnorm, sub_eq_add_neg, pow2_add, pow2_eq (-52)]
    norm_num
    ring
  rw [hulp] at herr
  -- so |q| is exactly a power of two and |a| = 2^53
  have h1 : 1 / (b : Rat) ≤ pow2 (ilog2 q) / 2 ^ 53 := hdist.trans herr
  have h2 : pow2 (ilog2 q) / 2 ^ 53 ≤ |q| / 2 ^ 53 := div_le_div_of_nonneg_right l1 (by norm_num)
  have h3 : |q| / 2 ^ 53 ≤ 1 / (b : Rat) := by
    rw [hqa, div_div, div_le_div_iff₀ (by positivity) hbq]
    nlinarith
  have heq : |q| = pow2 (ilog2 q) := by
    have : |q| / 2 ^ 53 = pow2 (ilog2 q) / 2 ^ 53 := le_antisymm (h3.trans h1) h2
    field_simp at this
    exact this
  obtain ⟨j, hj⟩ := pow2_grid (a := ulpExp q) (b := ilog2 q) (by omega)
  have hfix : binary64Rnd q = q := by
    rcases abs_choice q with h | h
    · exact rnd64_grid j (by rw [← hj, ← heq, h])
    · refine rnd64_grid (-j) ?_
      push_cast
      rw [neg_mul, ← hj, ← heq, h, neg_neg]
  linarith

/-- binary64 has the laws assumed of floating point arithmetic. -/
theorem FP.binary64_lawful : FP.binary64.Lawful where
  mono _ _ h := rnd64_mono h
  idem := rnd64_idem
  int := rnd64_int
  neg := rnd64_neg
  floorDiv := rnd64_floorDiv

end Chaff
