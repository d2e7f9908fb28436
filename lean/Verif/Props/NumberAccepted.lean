import Verif.Props.Number
/-!
# C88: numeric schemas with room for several values are accepted

C22 says that contradictory numeric keywords are rejected.  Its converse is false, but only for schemas that leave next
to no room.
-/

namespace Chaff
open Comp

variable {F : FP} {P : Platform} {n : NumSpec}

theorem upperBound_lawful (hF : F.Lawful) : 2 ^ 53 ≤ upperBound F := by
  have h := hF.mono ((2 ^ 53 : Int) : Rat) (maxFloat64 / 1000) (by
    have : decide ((((2 ^ 53 : Int) : Rat)) ≤ maxFloat64 / 1000) = true := by decide +kernel
    exact of_decide_eq_true this)
  rw [hF.int _ (by norm_num)] at h
  unfold upperBound
  push_cast at h
  exact h

/-- Clamping leaves moderate bounds alone. -/
theorem clamp_id {b : Rat × Rat} (h1 : lowerBound F ≤ b.1) (h2 : b.2 ≤ upperBound F) : clampBounds F b = b := by
  unfold clampBounds
  rw [if_neg (not_lt.2 h1), if_neg (not_lt.2 h2)]

/-- Parsing succeeds when the bounds do. -/
theorem parse_of_resolve {isInt : Bool} {b : Rat × Rat} (h : resolveMinMaxForNode F P n isInt = .ok b) :
    ∃ r, parseNumber F P n isInt = .ok r := by
  unfold parseNumber
  rw [h]
  obtain ⟨mn, mx⟩ := b
  simp only
  split
  · exact ⟨_, rfl⟩
  · exact ⟨_, rfl⟩

/-- A floor grows when the number grows by one. -/
theorem floor_lt_of_add_le {x y m : Rat} (hm : 0 < m) (h : x + m ≤ y) : ⌊x / m⌋ < ⌊y / m⌋ := by
  have h1 : x / m + 1 ≤ y / m := by
    rw [show x / m + 1 = (x + m) / m by field_simp]
    exact div_le_div_of_nonneg_right h hm.le
  have h2 : ⌊x / m⌋ + 1 ≤ ⌊y / m⌋ := Int.le_floor.2 (by push_cast; linarith [Int.floor_le (x / m)])
  omega

/-! ## Integers -/

/-- Two integers between the effective bounds, at least `multipleOf` apart, are enough. -/
theorem parse_int_room (hF : F.Lawful) (hw : n.Within (2 ^ 50) (2 ^ 42)) (hm : ∀ m, n.multipleOf = some m → ∃ M : Int, m = M)
    {u v : Int} (hu : (effectiveBounds F n true).1 ≤ u) (hv : (v : Rat) ≤ (effectiveBounds F n true).2) (huv : u < v)
    (hmv : ∀ m, n.multipleOf = some m → (u : Rat) + m ≤ v) : ∃ r, parseNumber F P n true = .ok r := by
  obtain ⟨hb1, hb2⟩ := effectiveBounds_int_range (F := F) hF hw
  have hup := upperBound_lawful hF
  have hb1 := abs_le.1 hb1
  have hb2 := abs_le.1 hb2
  have hcl : clampBounds F (effectiveBounds F n true) = effectiveBounds F n true :=
    clamp_id (by unfold lowerBound; linarith [hb1.1]) (by linarith [hb2.2])
  set eb := effectiveBounds F n true
  have hf : ⌊eb.1⌋ < ⌊eb.2⌋ := by
    have h1 : ⌊eb.1⌋ ≤ u := by
      have : (⌊eb.1⌋ : Rat) ≤ u := (Int.floor_le _).trans hu
      exact_mod_cast this
    have h2 : v ≤ ⌊eb.2⌋ := Int.le_floor.2 hv
    omega
  have hc : ⌈eb.1⌉ ≤ u := Int.ceil_le.2 hu
  have hv' : v ≤ ⌊eb.2⌋ := Int.le_floor.2 hv
  have hcl1 : -(2 ^ 51) ≤ ⌈eb.1⌉ := by
    have : (-(2 ^ 51) : Rat) ≤ ⌈eb.1⌉ := hb1.1.trans (Int.le_ceil _)
    exact_mod_cast this
  have hfl2 : ⌊eb.2⌋ ≤ 2 ^ 51 := by
    have : (⌊eb.2⌋ : Rat) ≤ 2 ^ 51 := (Int.floor_le _).trans hb2.2
    exact_mod_cast this
  have hchk : checkMultipleOf F P true (⌈eb.1⌉ : Rat) (⌊eb.2⌋ : Rat) n.multipleOf = none := by
    cases hmo : n.multipleOf with
    | none => rfl
    | some m =>
      obtain ⟨M, rfl⟩ := hm m hmo
      obtain ⟨hM0, hM1⟩ := hw.multipleOf _ hmo
      have hM0' : 0 < M := by exact_mod_cast hM0
      have hM1' : M ≤ 2 ^ 42 := by exact_mod_cast hM1
      have hinf : infinitesimal F ≤ M := by
        have h := hF.mono (1 / 10 ^ 14) ((1 : Int) : Rat) (by norm_num)
        rw [hF.int 1 (by norm_num)] at h
        have h1 : (1 : Rat) ≤ M := by exact_mod_cast hM0'
        unfold infinitesimal
        push_cast at h
        linarith
      have htr : (fTrunc (M : Rat) : Rat) = M := by
        unfold fTrunc
        rw [if_pos hM0.le, Int.floor_intCast]
      have habs : ∀ z : Int, -(2 ^ 51) ≤ z → z ≤ 2 ^ 51 → |⌊(z : Rat) / M⌋| ≤ 2 ^ 61 := by
        intro z h1 h2
        have h1' : (-(2 ^ 51) : Rat) ≤ z := by exact_mod_cast h1
        have h2' : (z : Rat) ≤ 2 ^ 51 := by exact_mod_cast h2
        have hM : (1 : Rat) ≤ M := by exact_mod_cast hM0'
        have h3 : (-(2 ^ 51) : Rat) ≤ z / M := by rw [le_div_iff₀ hM0]; nlinarith
        have h4 : (z : Rat) / M ≤ 2 ^ 51 := by rw [div_le_iff₀ hM0]; nlinarith
        have h5 : -(2 ^ 51) ≤ ⌊(z : Rat) / M⌋ := Int.le_floor.2 (by push_cast; exact h3)
        have h6 : ⌊(z : Rat) / M⌋ ≤ 2 ^ 51 := by
          have : (⌊(z : Rat) / M⌋ : Rat) ≤ 2 ^ 51 := (Int.floor_le _).trans h4
          exact_mod_cast this
        rw [abs_le]; constructor <;> omega
      have hcount := countMultiples_eq (F := F) (P := P) (mn := (⌈eb.1⌉ : Rat)) (mx := (⌊eb.2⌋ : Rat)) (m := M) hM0.ne'
        (hF.floorDiv _ _ (by rw [abs_le]; constructor <;> omega) hM0' (by omega))
        (hF.floorDiv _ _ (by rw [abs_le]; constructor <;> omega) hM0' (by omega))
        (habs _ hcl1 (by omega)) (habs _ (by omega) hfl2)
      have hlt : ⌊(⌈eb.1⌉ : Rat) / M⌋ < ⌊(⌊eb.2⌋ : Rat) / M⌋ := by
        refine floor_lt_of_add_le hM0 ?_
        have h1 := hmv _ hmo
        have h2 : (⌈eb.1⌉ : Rat) ≤ u := by exact_mod_cast hc
        have h3 : (v : Rat) ≤ ⌊eb.2⌋ := by exact_mod_cast hv'
        linarith
      unfold checkMultipleOf
      simp only
      rw [if_neg (not_lt.2 hM0.le), if_neg (fun h => absurd h.2 (not_lt.2 hinf)), if_neg (fun h => h.2 htr),
        if_neg (by rw [hcount]; omega)]
  refine parse_of_resolve (b := ((⌈eb.1⌉ : Rat), (⌊eb.2⌋ : Rat))) ?_
  unfold resolveMinMaxForNode
  simp only
  rw [hcl, if_neg (fun h => absurd h.2 (ne_of_lt hf))]
  simp only [if_true, fCeil, fFloor]
  rw [if_neg (not_lt.2 (by exact_mod_cast (by omega : ⌈eb.1⌉ ≤ ⌊eb.2⌋))), hchk]

/-- The distance between a given bound and the default for a missing one. -/
theorem offset_int (hF : F.Lawful) (hw : n.Within (2 ^ 50) (2 ^ 42)) (hm : ∀ m, n.multipleOf = some m → ∃ M : Int, m = M) :
    ∃ o : Int, getFloat [F.mul (getZeroIfNil n.multipleOf 0) 100, (defaultOffset : Rat)] = o ∧ 10 ≤ o ∧ o ≤ 2 ^ 49 ∧
      ∀ m, n.multipleOf = some m → m * 100 ≤ o := by
  cases hmo : n.multipleOf with
  | none =>
    refine ⟨10, ?_, by norm_num, by norm_num, fun m h => (by cases h)⟩
    simp [getZeroIfNil, getFloat, FP.mul, hF.zero, defaultOffset]
  | some m =>
    obtain ⟨M, rfl⟩ := hm m hmo
    obtain ⟨hM0, hM1⟩ := hw.multipleOf _ hmo
    have hM0' : 0 < M := by exact_mod_cast hM0
    have hM1' : M ≤ 2 ^ 42 := by exact_mod_cast hM1
    refine ⟨M * 100, ?_, by omega, by omega, ?_⟩
    · have h : F.mul (M : Rat) 100 = ((M * 100 : Int) : Rat) := by
        have := hF.int (M * 100) (by rw [abs_le]; constructor <;> omega)
        unfold FP.mul
        push_cast at this ⊢
        exact this
      simp only [getZeroIfNil, h, getFloat]
      rw [if_pos (by exact_mod_cast (by omega : M * 100 ≠ 0))]
    · rintro _ ⟨⟩
      push_cast
      exact le_refl _

/-- C88 for integers.  If two different integers satisfy the numeric keywords, the schema is accepted.  The bounds are up
to 2^50, `multipleOf` is a whole number up to 2^42 and exclusive bounds are whole numbers
(`C88_fractional_exclusive_violation` shows why); `F` is any arithmetic that is exact on whole numbers up to 2^53, such as
64-bit floating point. -/
theorem C88_two_integers_suffice (hF : F.Lawful) (hw : n.Within (2 ^ 50) (2 ^ 42))
    (hm : ∀ m, n.multipleOf = some m → ∃ M : Int, m = M)
    (he1 : ∀ x, n.exclusiveMinimum = some x → ∃ z : Int, x = z) (he2 : ∀ x, n.exclusiveMaximum = some x → ∃ z : Int, x = z)
    (i j : Int) (hij : i < j) (hi : n.Accepts i) (hj : n.Accepts j) : ∃ r, parseNumber F P n true = .ok r := by
  obtain ⟨o, ho, ho10, ho49, hom⟩ := offset_int hF hw hm
  have hmij : ∀ m, n.multipleOf = some m → (i : Rat) + m ≤ j := by
    intro m hmo
    have hm0 := (hw.multipleOf m hmo).1
    obtain ⟨k, hk⟩ := hi.multipleOf m hmo
    obtain ⟨l, hl⟩ := hj.multipleOf m hmo
    have hlt : (i : Rat) < j := by exact_mod_cast hij
    have hkl : k < l := by
      by_contra hc
      have : (l : Rat) ≤ k := by exact_mod_cast not_lt.1 hc
      rw [hk, hl] at hlt
      nlinarith
    have : (k : Rat) + 1 ≤ l := by exact_mod_cast hkl
    rw [hk, hl]
    nlinarith
  have hlo : ∀ lo, maxPtr [n.minimum, addIfNotNil F n.exclusiveMinimum 1] = some lo → lo ≤ i ∧ |lo| ≤ 2 ^ 50 + 1 := by
    intro lo h
    rcases maxPtr2_mem h with h | h
    · exact ⟨hi.minimum _ h, by linarith [hw.minimum _ h]⟩
    · cases he : n.exclusiveMinimum with
      | none => rw [he] at h; cases h
      | some x =>
        rw [he] at h
        cases h
        obtain ⟨z, rfl⟩ := he1 _ he
        have hz := hw.exclusiveMinimum _ he
        have hz' : |z| ≤ 2 ^ 50 := by exact_mod_cast hz
        have hz'' := abs_le.1 hz'
        have hr : F.add (z : Rat) 1 = ((z + 1 : Int) : Rat) := by
          have := hF.int (z + 1) (by rw [abs_le]; constructor <;> omega)
          unfold FP.add
          push_cast at this ⊢
          exact this
        have hzi : z < i := by exact_mod_cast hi.exclusiveMinimum _ he
        rw [hr]
        refine ⟨by exact_mod_cast hzi, ?_⟩
        have : |z + 1| ≤ 2 ^ 50 + 1 := by rw [abs_le]; constructor <;> omega
        exact_mod_cast this
  have hhi : ∀ hi, minPtr [n.maximum, addIfNotNil F n.exclusiveMaximum (-1)] = some hi → (j : Rat) ≤ hi ∧ |hi| ≤ 2 ^ 50 + 1 := by
    intro b h
    rcases minPtr2_mem h with h | h
    · exact ⟨hj.maximum _ h, by linarith [hw.maximum _ h]⟩
    · cases he : n.exclusiveMaximum with
      | none => rw [he] at h; cases h
      | some x =>
        rw [he] at h
        cases h
        obtain ⟨z, rfl⟩ := he2 _ he
        have hz := hw.exclusiveMaximum _ he
        have hz' : |z| ≤ 2 ^ 50 := by exact_mod_cast hz
        have hz'' := abs_le.1 hz'
        have hr : F.add (z : Rat) (-1) = ((z - 1 : Int) : Rat) := by
          have := hF.int (z - 1) (by rw [abs_le]; constructor <;> omega)
          unfold FP.add
          rw [← sub_eq_add_neg]
          push_cast at this ⊢
          exact this
        have hzi : j < z := by exact_mod_cast hj.exclusiveMaximum _ he
        rw [hr]
        refine ⟨by exact_mod_cast (by omega : j ≤ z - 1), ?_⟩
        have : |z - 1| ≤ 2 ^ 50 + 1 := by rw [abs_le]; constructor <;> omega
        exact_mod_cast this
  have key : ∃ u v : Int, (effectiveBounds F n true).1 ≤ u ∧ (v : Rat) ≤ (effectiveBounds F n true).2 ∧ u < v ∧
      ∀ m, n.multipleOf = some m → (u : Rat) + m ≤ v := by
    unfold effectiveBounds
    simp only [if_pos trivial]
    rw [ho]
    cases h1 : maxPtr [n.minimum, addIfNotNil F n.exclusiveMinimum 1] with
    | none =>
      cases h2 : minPtr [n.maximum, addIfNotNil F n.exclusiveMaximum (-1)] with
      | none =>
        refine ⟨0, o, by simp, le_refl _, by omega, fun m h => ?_⟩
        have := hom m h
        have := (hw.multipleOf m h).1
        push_cast
        linarith
      | some b =>
        obtain ⟨_, hb⟩ := hhi b h2
        have hb := abs_le.1 hb
        have hc1 : ⌈b⌉ ≤ 2 ^ 50 + 1 := Int.ceil_le.2 (by push_cast; linarith [hb.2])
        have hc2 : -(2 ^ 50 + 1) ≤ ⌈b⌉ := by
          have : (-(2 ^ 50 + 1) : Rat) ≤ ⌈b⌉ := hb.1.trans (Int.le_ceil _)
          exact_mod_cast this
        have hcf : ⌈b⌉ ≤ ⌊b⌋ + 1 := Int.ceil_le_floor_add_one b
        have hr := hF.mono (b - o) ((⌈b⌉ - o : Int) : Rat) (by push_cast; linarith [Int.le_ceil b])
        rw [hF.int _ (by rw [abs_le]; constructor <;> omega)] at hr
        refine ⟨⌈b⌉ - o, ⌊b⌋, hr, Int.floor_le _, by omega, fun m h => ?_⟩
        have h3 := hom m h
        have h4 : (⌈b⌉ : Rat) ≤ ⌊b⌋ + 1 := by exact_mod_cast hcf
        have h5 := (hw.multipleOf m h).1
        have h6 : (10 : Rat) ≤ o := by exact_mod_cast ho10
        push_cast
        linarith
    | some a =>
      obtain ⟨ha, ha'⟩ := hlo a h1
      cases h2 : minPtr [n.maximum, addIfNotNil F n.exclusiveMaximum (-1)] with
      | none =>
        have hb := abs_le.1 ha'
        have hc1 : ⌊a⌋ ≤ 2 ^ 50 + 1 := by
          have : (⌊a⌋ : Rat) ≤ 2 ^ 50 + 1 := (Int.floor_le _).trans hb.2
          exact_mod_cast this
        have hc2 : -(2 ^ 50 + 1) ≤ ⌊a⌋ := Int.le_floor.2 (by push_cast; linarith [hb.1])
        have hcf : ⌈a⌉ ≤ ⌊a⌋ + 1 := Int.ceil_le_floor_add_one a
        have hr := hF.mono ((⌊a⌋ + o : Int) : Rat) (a + o) (by push_cast; linarith [Int.floor_le a])
        rw [hF.int _ (by rw [abs_le]; constructor <;> omega)] at hr
        refine ⟨⌈a⌉, ⌊a⌋ + o, Int.le_ceil _, hr, by omega, fun m h => ?_⟩
        have h3 := hom m h
        have h4 : (⌈a⌉ : Rat) ≤ ⌊a⌋ + 1 := by exact_mod_cast hcf
        have h5 := (hw.multipleOf m h).1
        have h6 : (10 : Rat) ≤ o := by exact_mod_cast ho10
        push_cast
        linarith
      | some b => exact ⟨i, j, ha, (hhi b h2).1, hij, hmij⟩
  obtain ⟨u, v, h1, h2, h3, h4⟩ := key
  exact parse_int_room hF hw hm h1 h2 h3 h4

/-- Two multiples of 6, namely -6 and 36, lie between -7 and 40. -/
example : ∃ r, parseNumber .binary64 .amd64 demoInt true = .ok r := by
  refine C88_two_integers_suffice FP.binary64_lawful ?_ ?_ ?_ ?_ (-6) 36 (by norm_num) ?_ ?_
  · constructor <;> intro x hx <;> cases hx <;> norm_num
  · intro m h; cases h; exact ⟨6, by norm_num⟩
  · intro m h; cases h
  · intro m h; cases h; exact ⟨40, by norm_num⟩
  · constructor <;> intro x hx <;> cases hx
    · norm_num
    · norm_num
    · exact ⟨-1, by norm_num⟩
  · constructor <;> intro x hx <;> cases hx
    · norm_num
    · norm_num
    · exact ⟨6, by norm_num⟩

/-- Where C88 fails: between the exclusive bounds 1.5 and 3.5 lie the integers 2 and 3, but the schema is rejected, for the
code moves each bound inwards by one before it rounds. -/
theorem C88_fractional_exclusive_violation :
    ∃ n : NumSpec, n.Accepts 2 ∧ n.Accepts 3 ∧ ∃ e, parseNumber .binary64 .amd64 n true = .error e := by
  have ferr : ∀ x : Except String NumResult, (match x with | .ok _ => false | .error _ => true) = true → ∃ e, x = .error e := by
    intro x hx; cases x with
    | error e => exact ⟨e, rfl⟩
    | ok r => cases hx
  refine ⟨{ exclusiveMinimum := some (3 / 2), exclusiveMaximum := some (7 / 2) }, ?_, ?_, ferr _ (by decide +kernel)⟩
  · constructor <;> intro x hx <;> cases hx <;> norm_num
  · constructor <;> intro x hx <;> cases hx <;> norm_num

/-! ## Numbers -/

set_option exponentiation.threshold 2000

theorem upperBound_exact_big : 2 ^ 1000 ≤ upperBound .exact := by
  have : decide (2 ^ 1000 ≤ upperBound .exact) = true := by decide +kernel
  exact of_decide_eq_true this

/-- C88 for numbers in exact arithmetic.  If two numbers satisfy the bounds and lie `multipleOf` (if there is one) and
another 2e-14 apart, the schema is accepted.  Bounds are up to 2^950, `multipleOf` is from 1e-14 to 2^900, and no bound is
more than 2^50 times as large as `multipleOf`. -/
theorem C88_room_suffices (hw : n.Within (2 ^ 950) (2 ^ 900))
    (hm : ∀ m, n.multipleOf = some m → 1 / 10 ^ 14 ≤ m ∧ n.Within (2 ^ 50 * m) m)
    (a b : Rat) (ha : n.Accepts a) (hb : n.Accepts b) (hab : a + 2 / 10 ^ 14 ≤ b)
    (habm : ∀ m, n.multipleOf = some m → a + m + 2 / 10 ^ 14 ≤ b) : ∃ r, parseNumber .exact P n false = .ok r := by
  have hp900 : (1 : Rat) ≤ 2 ^ 900 := one_le_pow₀ (by norm_num)
  have hp950 : (2 : Rat) ^ 950 = 2 ^ 900 * 2 ^ 50 := by rw [← pow_add]
  have hp1000 : (2 : Rat) ^ 1000 = 2 ^ 950 * 2 ^ 50 := by rw [← pow_add]
  have hup := upperBound_exact_big
  have hoff : ∃ o : Rat, getFloat [FP.exact.mul (getZeroIfNil n.multipleOf 0) 100, (defaultOffset : Rat)] = o ∧
      0 < o ∧ o ≤ 2 ^ 950 ∧ ∀ m, n.multipleOf = some m → m ≤ o := by
    cases hmo : n.multipleOf with
    | none =>
      refine ⟨10, ?_, by norm_num, by rw [hp950]; linarith, fun m h => (by cases h)⟩
      simp [getZeroIfNil, getFloat, FP.mul, FP.exact, defaultOffset]
    | some m =>
      obtain ⟨h0, h1⟩ := hw.multipleOf m hmo
      refine ⟨m * 100, ?_, by linarith, by rw [hp950]; linarith, ?_⟩
      · show getFloat [m * 100, _] = _
        unfold getFloat
        rw [if_pos (by positivity)]
      · rintro _ ⟨⟩; linarith
  obtain ⟨o, ho, ho0, ho1, hom⟩ := hoff
  have hlo : ∀ lo, maxPtr [n.minimum, addIfNotNil .exact n.exclusiveMinimum (1 / 10 ^ 14)] = some lo →
      lo ≤ a + 1 / 10 ^ 14 ∧ |lo| ≤ 2 ^ 950 + 1 := by
    intro lo h
    rcases maxPtr2_mem h with h | h
    · exact ⟨by linarith [ha.minimum _ h], by linarith [hw.minimum _ h]⟩
    · cases he : n.exclusiveMinimum with
      | none => rw [he] at h; cases h
      | some x =>
        rw [he] at h
        cases h
        have hx := abs_le.1 (hw.exclusiveMinimum _ he)
        have := ha.exclusiveMinimum _ he
        show x + 1 / 10 ^ 14 ≤ _ ∧ |x + 1 / 10 ^ 14| ≤ _
        refine ⟨by linarith, ?_⟩
        rw [abs_le]; constructor <;> linarith [hx.1, hx.2]
  have hhi : ∀ hi, minPtr [n.maximum, addIfNotNil .exact n.exclusiveMaximum (-(1 / 10 ^ 14))] = some hi →
      b - 1 / 10 ^ 14 ≤ hi ∧ |hi| ≤ 2 ^ 950 + 1 := by
    intro hi h
    rcases minPtr2_mem h with h | h
    · exact ⟨by linarith [hb.maximum _ h], by linarith [hw.maximum _ h]⟩
    · cases he : n.exclusiveMaximum with
      | none => rw [he] at h; cases h
      | some x =>
        rw [he] at h
        cases h
        have hx := abs_le.1 (hw.exclusiveMaximum _ he)
        have := hb.exclusiveMaximum _ he
        show _ ≤ x + -(1 / 10 ^ 14) ∧ |x + -(1 / 10 ^ 14)| ≤ _
        refine ⟨by linarith, ?_⟩
        rw [abs_le]; constructor <;> linarith [hx.1, hx.2]
  have key : (effectiveBounds .exact n false).1 ≤ (effectiveBounds .exact n false).2 ∧
      (∀ m, n.multipleOf = some m → (effectiveBounds .exact n false).1 + m ≤ (effectiveBounds .exact n false).2) ∧
      -2 ^ 1000 ≤ (effectiveBounds .exact n false).1 ∧ (effectiveBounds .exact n false).2 ≤ 2 ^ 1000 := by
    unfold effectiveBounds
    simp only
    rw [ho, show (if false = true then (1 : Rat) else infinitesimal .exact) = 1 / 10 ^ 14 from rfl, hp1000]
    cases h1 : maxPtr [n.minimum, addIfNotNil .exact n.exclusiveMinimum (1 / 10 ^ 14)] with
    | none =>
      cases h2 : minPtr [n.maximum, addIfNotNil .exact n.exclusiveMaximum (-(1 / 10 ^ 14))] with
      | none =>
        simp only
        exact ⟨ho0.le, fun m h => by linarith [hom m h], by linarith, by linarith⟩
      | some y =>
        have hy := abs_le.1 (hhi y h2).2
        show y - o ≤ y ∧ (∀ m, n.multipleOf = some m → y - o + m ≤ y) ∧ _ ≤ y - o ∧ y ≤ _
        exact ⟨by linarith, fun m h => by linarith [hom m h], by linarith [hy.1], by linarith [hy.2]⟩
    | some x =>
      obtain ⟨hx1, hx⟩ := hlo x h1
      have hx := abs_le.1 hx
      cases h2 : minPtr [n.maximum, addIfNotNil .exact n.exclusiveMaximum (-(1 / 10 ^ 14))] with
      | none =>
        show x ≤ x + o ∧ (∀ m, n.multipleOf = some m → x + m ≤ x + o) ∧ _ ≤ x ∧ x + o ≤ _
        exact ⟨by linarith, fun m h => by linarith [hom m h], by linarith [hx.1], by linarith [hx.2]⟩
      | some y =>
        obtain ⟨hy1, hy⟩ := hhi y h2
        have hy := abs_le.1 hy
        simp only
        exact ⟨by linarith, fun m h => by linarith [habm m h], by linarith [hx.1], by linarith [hy.2]⟩
  obtain ⟨hle, hroom, hr1, hr2⟩ := key
  have hcl : clampBounds .exact (effectiveBounds .exact n false) = effectiveBounds .exact n false :=
    clamp_id (by unfold lowerBound; linarith) (by linarith)
  have hrange : ∀ m, n.multipleOf = some m → |(effectiveBounds .exact n false).1| ≤ 2 ^ 51 * m ∧ |(effectiveBounds .exact n false).2| ≤ 2 ^ 51 * m :=
    fun m h => effectiveBounds_exact_range h (hm m h).1 (hm m h).2
  set eb := effectiveBounds .exact n false
  have hchk : checkMultipleOf .exact P false eb.1 eb.2 n.multipleOf = none := by
    cases hmo : n.multipleOf with
    | none => rfl
    | some m =>
      have hm14 := (hm m hmo).1
      have hm0 := (hw.multipleOf m hmo).1
      have hfl : ∀ x : Rat, |x| ≤ 2 ^ 51 * m → |⌊x / m⌋| ≤ 2 ^ 61 := by
        intro x hx
        have hx := abs_le.1 hx
        have h3 : (-(2 ^ 51) : Rat) ≤ x / m := by rw [le_div_iff₀ hm0]; linarith [hx.1]
        have h4 : x / m ≤ 2 ^ 51 := by rw [div_le_iff₀ hm0]; linarith [hx.2]
        have h5 : -(2 ^ 51) ≤ ⌊x / m⌋ := Int.le_floor.2 (by push_cast; linarith)
        have h6 : ⌊x / m⌋ ≤ 2 ^ 51 := by
          have : (⌊x / m⌋ : Rat) ≤ 2 ^ 51 := (Int.floor_le _).trans h4
          exact_mod_cast this
        rw [abs_le]; constructor <;> omega
      have hcount := countMultiples_eq (F := .exact) (P := P) (mn := eb.1) (mx := eb.2) (m := m) hm0.ne' rfl rfl
        (hfl _ (hrange m hmo).1) (hfl _ (hrange m hmo).2)
      have hlt := floor_lt_of_add_le hm0 (hroom m hmo)
      unfold checkMultipleOf
      simp only
      rw [if_neg (not_lt.2 hm0.le), if_neg (fun h => absurd h.2 (not_lt.2 hm14)), if_neg (fun h => absurd h.1 (by decide)),
        if_neg (by rw [hcount]; omega)]
  refine parse_of_resolve (b := (eb.1, eb.2)) ?_
  unfold resolveMinMaxForNode
  simp only
  rw [hcl]
  simp only [Bool.false_eq_true, false_and, if_false]
  rw [if_neg (not_lt.2 hle), hchk]

/-- Multiples of 0.1 from 0.3 to below 2.5. -/
example : ∃ r, parseNumber .exact .amd64 demoNum false = .ok r := by
  refine C88_room_suffices ?_ ?_ (3 / 10) 2 ?_ ?_ (by norm_num) ?_
  · have h : (1 : Rat) ≤ 2 ^ 900 := one_le_pow₀ (by norm_num)
    have h2 : (2 : Rat) ^ 950 = 2 ^ 900 * 2 ^ 50 := by rw [← pow_add]
    constructor <;> intro x hx <;> cases hx
    · rw [h2, abs_of_pos (by norm_num)]; linarith
    · rw [h2, abs_of_pos (by norm_num)]; linarith
    · constructor
      · norm_num
      · linarith
  · intro m h
    cases h
    refine ⟨by norm_num, ?_⟩
    constructor <;> intro x hx <;> cases hx <;> norm_num
  · constructor <;> intro x hx <;> cases hx
    · norm_num
    · norm_num
    · exact ⟨3, by norm_num⟩
  · constructor <;> intro x hx <;> cases hx
    · norm_num
    · norm_num
    · exact ⟨20, by norm_num⟩
  · intro m h; cases h; norm_num

end Chaff
