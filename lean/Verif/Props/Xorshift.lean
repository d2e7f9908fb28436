import Verif.Model.Xorshift
import Mathlib.Data.Fin.Basic
import Mathlib.Data.Fintype.Pigeonhole
/-!
# C27: the random source of the regex generator
-/

namespace Chaff

/-- A right xor-shift by at least one bit is injective. -/
theorem xorShiftRight_inj (k : Nat) (hk : 0 < k) {x y : BitVec 64} (h : x ^^^ (x >>> k) = y ^^^ (y >>> k)) : x = y := by
  have key : ∀ d i, 64 ≤ i + d → x.getLsbD i = y.getLsbD i := by
    intro d
    induction d with
    | zero =>
      intro i hi
      rw [BitVec.getLsbD_of_ge _ _ (by omega), BitVec.getLsbD_of_ge _ _ (by omega)]
    | succ d ih =>
      intro i hi
      have h1 := congrArg (fun z => z.getLsbD i) h
      simp only [BitVec.getLsbD_xor, BitVec.getLsbD_ushiftRight] at h1
      rw [ih (k + i) (by omega)] at h1
      simpa using h1
  exact BitVec.eq_of_getLsbD_eq (fun i _ => key 64 i (by omega))

/-- A left xor-shift by at least one bit is injective. -/
theorem xorShiftLeft_inj (k : Nat) (hk : 0 < k) {x y : BitVec 64} (h : x ^^^ (x <<< k) = y ^^^ (y <<< k)) : x = y := by
  have key : ∀ i, x.getLsbD i = y.getLsbD i := by
    intro i
    induction i using Nat.strong_induction_on with
    | _ i ih =>
      have h1 := congrArg (fun z => z.getLsbD i) h
      simp only [BitVec.getLsbD_xor, BitVec.getLsbD_shiftLeft] at h1
      by_cases hi : i < k
      · simpa [hi] using h1
      · rw [ih (i - k) (by omega)] at h1
        simpa using h1
  exact BitVec.eq_of_getLsbD_eq (fun i _ => key i)

/-- The update loses no information. -/
theorem xsMix_inj {x y : BitVec 64} (h : xsMix x = xsMix y) : x = y := by
  unfold xsMix at h
  exact xorShiftRight_inj 12 (by omega) (xorShiftLeft_inj 25 (by omega) (xorShiftRight_inj 27 (by omega) h))

theorem xsMix_zero : xsMix 0 = 0 := by decide

theorem xsFix_ne (x : BitVec 64) : xsFix x ≠ 0 := by
  unfold xsFix; split
  · decide
  · assumption

/-- C27: for every seed, zero included, the state after any call is not zero. -/
theorem C27_state_nonzero (seed : BitVec 64) (n : Nat) : xsState seed (n + 1) ≠ 0 := by
  intro h
  have : xsMix (xsFix (xsState seed n)) = xsMix 0 := by rw [xsMix_zero]; exact h
  exact xsFix_ne _ (xsMix_inj this)

/-- C27: every value returned is a non-negative `int64`. -/
theorem C27_int63_range (seed : BitVec 64) (n : Nat) : 0 ≤ xsInt63 seed n ∧ xsInt63 seed n < 2 ^ 63 := by
  unfold xsInt63 xsOut
  have h : ((xsState seed (n + 1) * 2685821657736338717#64) >>> 1).toNat < 2 ^ 63 := by
    rw [BitVec.toNat_ushiftRight, Nat.shiftRight_eq_div_pow]
    have := (xsState seed (n + 1) * 2685821657736338717#64).isLt
    omega
  rw [BitVec.toInt_eq_toNat_of_lt (by omega)]
  omega

/-- C27: two sources in different non-zero states stay different for ever. -/
theorem C27_streams_distinct (a b : BitVec 64) (ha : a ≠ 0) (hb : b ≠ 0) (hab : a ≠ b) (n : Nat) :
    xsState a n ≠ xsState b n := by
  have nz : ∀ (s : BitVec 64), s ≠ 0 → ∀ n, xsFix (xsState s n) = xsState s n := by
    intro s hs n
    unfold xsFix
    rw [if_neg]
    cases n with
    | zero => exact hs
    | succ n => exact C27_state_nonzero s n
  induction n with
  | zero => exact hab
  | succ n ih =>
    intro h
    apply ih
    have := xsMix_inj (show xsMix (xsFix (xsState a n)) = xsMix (xsFix (xsState b n)) from h)
    rwa [nz a ha, nz b hb] at this

/-- C27: from a non-zero seed the sequence of states is a cycle through the seed, it never gets stuck in a
shorter loop that misses it. -/
theorem C27_returns_to_seed (seed : BitVec 64) (hs : seed ≠ 0) : ∃ n, 0 < n ∧ xsState seed n = seed := by
  have nz : ∀ n, xsFix (xsState seed n) = xsState seed n := by
    intro n
    unfold xsFix
    rw [if_neg]
    cases n with
    | zero => exact hs
    | succ n => exact C27_state_nonzero seed n
  have hback : ∀ i k, xsState seed i = xsState seed (i + k) → xsState seed k = seed := by
    intro i
    induction i with
    | zero => intro k h; rw [Nat.zero_add] at h; exact h.symm
    | succ i ih =>
      intro k h
      apply ih
      have e : i + 1 + k = (i + k) + 1 := by omega
      rw [e] at h
      have := xsMix_inj (show xsMix (xsFix (xsState seed i)) = xsMix (xsFix (xsState seed (i + k))) from h)
      rwa [nz, nz] at this
  let f : ℕ → Fin (2 ^ 64) := fun n => (xsState seed n).toFin
  obtain ⟨i, j, hne, hij⟩ := Finite.exists_ne_map_eq_of_infinite f
  have hij' : xsState seed i = xsState seed j := BitVec.eq_of_toNat_eq (congrArg Fin.val hij)
  rcases Nat.lt_or_gt_of_ne hne with h | h
  · exact ⟨j - i, by omega, hback i (j - i) (by rw [Nat.add_sub_cancel' (by omega)]; exact hij')⟩
  · exact ⟨i - j, by omega, hback j (i - j) (by rw [Nat.add_sub_cancel' (by omega)]; exact hij'.symm)⟩

/-- A zero seed is used as 1; the first values of that source. -/
example : xsState 0 1 = xsState 1 1 ∧ xsInt63 0 0 = 2590246147603197582 := by decide +kernel

end Chaff
