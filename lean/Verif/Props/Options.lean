import Verif.Spec.Rounding
import Verif.Lemmas.Comp
import Mathlib.Tactic.Linarith
import Mathlib.Tactic.Positivity
import Mathlib.Tactic.NormNum
import Mathlib.Algebra.Order.Field.Basic
import Mathlib.Algebra.Order.Field.Rat
/-!
# C06, C07, C08: retry budget, option defaults, bounded draws
-/

namespace Chaff

/-! ## C06 -/

section
variable {F : FP} (hF : F.Lawful) (o : Opts)

theorem rnd_nonneg {F : FP} (hF : F.Lawful) {a : Rat} (h : 0 ≤ a) : 0 ≤ F.rnd a := by
  have := hF.mono 0 a h
  have h0 := hF.int 0 (by norm_num)
  simp at h0
  rwa [h0] at this

theorem rnd_nonpos {F : FP} (hF : F.Lawful) {a : Rat} (h : a ≤ 0) : F.rnd a ≤ 0 := by
  have := hF.mono a 0 h
  have h0 := hF.int 0 (by norm_num)
  simp at h0
  rwa [h0] at this

theorem rnd_le_one {F : FP} (hF : F.Lawful) {a : Rat} (h : a ≤ 1) : F.rnd a ≤ 1 := by
  have := hF.mono a 1 h
  have h0 := hF.int 1 (by norm_num)
  simp at h0
  rwa [h0] at this

theorem rnd_rnd_le {F : FP} (hF : F.Lawful) {a b : Rat} (h : a ≤ F.rnd b) : F.rnd a ≤ F.rnd b := by
  have := hF.mono a _ h
  rwa [hF.idem] at this

theorem fTrunc_mono {a b : Rat} (h : a ≤ b) : fTrunc a ≤ fTrunc b := by
  unfold fTrunc
  split <;> rename_i h1 <;> split <;> rename_i h2
  · exact Int.floor_le_floor h
  · linarith
  · have : (⌈a⌉ : Int) ≤ 0 := by
      rw [Int.ceil_le]; push_cast; linarith
    have : (0 : Int) ≤ ⌊b⌋ := Int.floor_nonneg.2 h2
    linarith
  · exact Int.ceil_le_ceil h

theorem fTrunc_int (n : Int) : fTrunc (n : Rat) = n := by
  unfold fTrunc; split <;> simp

/-- The scaled value before clamping to at least 1. -/
theorem scaled_le (hF : F.Lawful) {c c' base : Int} (hc : c ≤ c') (hb : 0 < base)
    (hw : 0 < F.rnd ((o.cutoffGenerationSteps - o.maximumGenerationSteps : Int) : Rat)) :
    fTrunc (F.mul (F.div (F.rnd ((o.cutoffGenerationSteps - c' : Int) : Rat))
        (F.rnd ((o.cutoffGenerationSteps - o.maximumGenerationSteps : Int) : Rat))) (F.rnd (base : Rat)))
      ≤ fTrunc (F.mul (F.div (F.rnd ((o.cutoffGenerationSteps - c : Int) : Rat))
        (F.rnd ((o.cutoffGenerationSteps - o.maximumGenerationSteps : Int) : Rat))) (F.rnd (base : Rat))) := by
  apply fTrunc_mono
  apply hF.mono
  have hb' : 0 ≤ F.rnd (base : Rat) := rnd_nonneg hF (by exact_mod_cast hb.le)
  apply mul_le_mul_of_nonneg_right _ hb'
  apply hF.mono
  apply div_le_div_of_nonneg_right _ hw.le
  apply hF.mono
  exact_mod_cast (by omega : o.cutoffGenerationSteps - c' ≤ o.cutoffGenerationSteps - c)

/-- **C06 (range).** The retry budget is at least 1 and at most `max 1 base`. -/
theorem C06_budget_range (hF : F.Lawful) (c base : Int) (hbig : base ≤ 2 ^ 53) :
    1 ≤ scaledRetryBudget F o c base ∧ scaledRetryBudget F o c base ≤ max 1 base := by
  unfold scaledRetryBudget
  split
  · simp
  · rename_i hb
    split
    · omega
    · rename_i hm
      split
      · omega
      · dsimp only
        split
        · omega
        · rename_i hw
          have hw : 0 < F.rnd ((o.cutoffGenerationSteps - o.maximumGenerationSteps : Int) : Rat) := lt_of_not_ge hw
          have hmin : o.maximumGenerationSteps < c := by
            simp only [shouldMinimize, Bool.not_eq_true', Bool.not_eq_false] at hm
            simp at hm
            exact hm.2
          split
          · omega
          · rename_i hs
            constructor
            · omega
            · refine le_trans ?_ (le_max_right _ _)
              have h1 := scaled_le o hF (c := o.maximumGenerationSteps) (c' := c) (base := base) hmin.le (by omega) hw
              refine le_trans h1 ?_
              have hd : F.div (F.rnd ((o.cutoffGenerationSteps - o.maximumGenerationSteps : Int) : Rat))
                  (F.rnd ((o.cutoffGenerationSteps - o.maximumGenerationSteps : Int) : Rat)) = 1 := by
                unfold FP.div
                rw [div_self (ne_of_gt hw)]
                have := hF.int 1 (by norm_num)
                simpa using this
              rw [hd]
              unfold FP.mul
              rw [one_mul, hF.idem, hF.int base (by rw [abs_of_nonneg (by omega)]; exact hbig), fTrunc_int]

/-- **C06 (full budget).** Until the complexity exceeds `MaximumGenerationSteps` the budget is the base. -/
theorem C06_budget_full (c base : Int) (hb : 0 < base) (hc : c ≤ o.maximumGenerationSteps) :
    scaledRetryBudget F o c base = base := by
  unfold scaledRetryBudget
  rw [if_neg (by omega), if_pos]
  simp only [shouldMinimize]
  simp
  exact Or.inr hc

/-- **C06 (cutoff).** From the cutoff on the budget is 1 (when the thresholds are set and ordered). -/
theorem C06_budget_cutoff (hF : F.Lawful) (c base : Int) (hm : 0 < o.maximumGenerationSteps)
    (hmc : o.maximumGenerationSteps < o.cutoffGenerationSteps) (hc : o.cutoffGenerationSteps ≤ c) :
    scaledRetryBudget F o c base = 1 := by
  unfold scaledRetryBudget
  split
  · rfl
  · rename_i hb
    rw [if_neg]
    · split
      · rfl
      · dsimp only
        split
        · rfl
        · rename_i hw
          have hw : 0 < F.rnd ((o.cutoffGenerationSteps - o.maximumGenerationSteps : Int) : Rat) := lt_of_not_ge hw
          rw [if_pos]
          have h1 := scaled_le o hF (c := o.cutoffGenerationSteps) (c' := c) (base := base) hc (by omega) hw
          refine lt_of_le_of_lt h1 ?_
          have h0 : F.rnd (0 : Rat) = 0 := by
            have := hF.int 0 (by norm_num); simpa using this
          simp [FP.div, FP.mul, h0, fTrunc]
    · simp only [shouldMinimize]
      simp
      constructor <;> omega

/-- **C06 (monotone).** The budget never increases as complexity grows. -/
theorem C06_budget_antitone (hF : F.Lawful) (c c' base : Int) (hbig : base ≤ 2 ^ 53) (hc : c ≤ c') :
    scaledRetryBudget F o c' base ≤ scaledRetryBudget F o c base := by
  by_cases hb : base ≤ 0
  · simp [scaledRetryBudget, hb]
  have hr := C06_budget_range o hF c base hbig
  have hr' := C06_budget_range o hF c' base hbig
  by_cases hm : shouldMinimize o c = true
  · have hmc : 0 < o.maximumGenerationSteps ∧ o.maximumGenerationSteps < c := by
      simpa [shouldMinimize] using hm
    have hm' : shouldMinimize o c' = true := by
      simp [shouldMinimize]; omega
    by_cases hk : shouldCutoff o c' = true
    · have : scaledRetryBudget F o c' base = 1 := by
        simp [scaledRetryBudget, hb, hm', hk]
      omega
    · have hk' : shouldCutoff o c = false := by
        simp [shouldCutoff] at hk ⊢
        intro h; have := hk h; omega
      simp only [scaledRetryBudget, hb, hm, hm', hk, hk']
      simp only [if_false, Bool.not_true, Bool.false_eq_true]
      split
      · omega
      · rename_i hw
        have h1 := scaled_le o hF (c := c) (c' := c') (base := base) hc (by omega) (lt_of_not_ge hw)
        split <;> split <;> omega
  · have : scaledRetryBudget F o c base = base := by
      simp [scaledRetryBudget, hb, hm]
    omega

/-- A case where the scaling really happens: halfway to the cutoff, half the attempts. -/
example : scaledRetryBudget FP.exact (withGeneratorOptionsDefaults {}) 1050 100 = 50 := by
  decide +kernel
example : FP.exact.Lawful := FP.exact_lawful
end

/-! ## C07 -/

/-- What "keep what is set, otherwise use the default" means for one numeric option. -/
def FilledFrom (given default result : Int) : Prop := (given ≠ 0 → result = given) ∧ (given = 0 → result = default)

theorem filled_getInt (a d : Int) : FilledFrom a d (getInt [a, d]) := by
  unfold FilledFrom getInt
  constructor
  · intro h; simp [h]
  · intro h; simp [h, getInt]
    omega

/-- **C07 (fill).** Every numeric option keeps a non-zero value and otherwise gets its documented default;
cyclic-check bypass is kept; fallback suppression is always on. -/
theorem C07_defaults (o : Opts) :
    let r := withGeneratorOptionsDefaults o
    FilledFrom o.defaultNumberMinimum 0 r.defaultNumberMinimum ∧
    FilledFrom o.defaultNumberMaximum 100 r.defaultNumberMaximum ∧
    FilledFrom o.defaultStringMinLength 0 r.defaultStringMinLength ∧
    FilledFrom o.defaultStringMaxLength 100 r.defaultStringMaxLength ∧
    FilledFrom o.defaultArrayMinItems 0 r.defaultArrayMinItems ∧
    FilledFrom o.defaultArrayMaxItems 10 r.defaultArrayMaxItems ∧
    FilledFrom o.defaultObjectMinProperties 0 r.defaultObjectMinProperties ∧
    FilledFrom o.defaultObjectMaxProperties 10 r.defaultObjectMaxProperties ∧
    FilledFrom o.maximumReferenceDepth 10 r.maximumReferenceDepth ∧
    FilledFrom o.maximumUniqueGeneratorAttempts 100 r.maximumUniqueGeneratorAttempts ∧
    FilledFrom o.maximumIfAttempts 100 r.maximumIfAttempts ∧
    FilledFrom o.maximumOneOfAttempts 100 r.maximumOneOfAttempts ∧
    FilledFrom o.maximumGenerationSteps 100 r.maximumGenerationSteps ∧
    FilledFrom o.cutoffGenerationSteps 2000 r.cutoffGenerationSteps ∧
    r.bypassCyclicReferenceCheck = o.bypassCyclicReferenceCheck ∧
    r.suppressFallbackValues = true := by
  refine ⟨filled_getInt _ _, filled_getInt _ _, filled_getInt _ _, filled_getInt _ _, filled_getInt _ _,
    filled_getInt _ _, filled_getInt _ _, filled_getInt _ _, filled_getInt _ _, filled_getInt _ _,
    filled_getInt _ _, filled_getInt _ _, filled_getInt _ _, filled_getInt _ _, ?_, ?_⟩
  · cases h : o.bypassCyclicReferenceCheck <;> simp [withGeneratorOptionsDefaults, getBool, h]
  · cases h : o.suppressFallbackValues <;> simp [withGeneratorOptionsDefaults, getBool, h]

theorem getInt_idem (a d : Int) : getInt [getInt [a, d], d] = getInt [a, d] := by
  simp [getInt]
  split <;> simp_all

/-- **C07 (idempotent).** Filling in the defaults twice changes nothing. -/
theorem C07_defaults_idempotent (o : Opts) :
    withGeneratorOptionsDefaults (withGeneratorOptionsDefaults o) = withGeneratorOptionsDefaults o := by
  have hb : ∀ a d : Bool, getBool (getBool a d) d = getBool a d := by decide
  simp only [withGeneratorOptionsDefaults, getInt_idem, hb]

/-- A record with one option set: it survives, another one is defaulted. -/
example : (withGeneratorOptionsDefaults { defaultArrayMaxItems := 3 }).defaultArrayMaxItems = 3 ∧
    (withGeneratorOptionsDefaults { defaultArrayMaxItems := 3 }).cutoffGenerationSteps = 2000 := by decide
/-- Asking for fallback values has no effect. -/
theorem C07_suppressFallback_stuck (o : Opts) :
    (withGeneratorOptionsDefaults { o with suppressFallbackValues := false }).suppressFallbackValues = true := by
  simp [withGeneratorOptionsDefaults, getBool]

/-! ## C08 -/

/-- **C08 (range).** A draw never fails for `min < max` and lies in `[min, max)`. -/
theorem C08_randomInt_range (w : World) (a b : Int) (h : a < b) (s : GSt) :
    ∃ v s', randomInt w a b s = .ok v s' ∧ a ≤ v ∧ v < b := by
  unfold randomInt intn intnWith
  rw [if_neg (by omega), if_neg (by omega)]
  refine ⟨_, _, rfl, ?_, ?_⟩
  · have := Int.emod_nonneg ((w.seeded s.spos : Nat) : Int) (b := b - a) (by omega)
    show a ≤ _ % _ + a
    omega
  · have := Int.emod_lt_of_pos ((w.seeded s.spos : Nat) : Int) (b := b - a) (by omega)
    show _ % _ + a < b
    omega

/-- **C08 (every value).** Every value of `[min, max)` is drawn in some world. -/
theorem C08_randomInt_onto (w : World) (a b v : Int) (h1 : a ≤ v) (h2 : v < b) (s : GSt) :
    ∃ stream : Nat → Nat, ∃ s', randomInt { w with seeded := stream } a b s = .ok v s' := by
  refine ⟨fun _ => (v - a).toNat, { s with spos := s.spos + 1 }, ?_⟩
  unfold randomInt intn intnWith
  rw [if_neg (by omega), if_neg (by omega)]
  show Res.ok (((((v - a).toNat : Nat) : Int) % (b - a)) + a) _ = _
  have : (((v - a).toNat : Nat) : Int) = v - a := by omega
  rw [this, Int.emod_eq_of_lt (by omega) (by omega)]
  congr 1
  omega

/-- **C08 (degenerate).** An empty range returns its only value and draws nothing. -/
theorem C08_randomInt_self (w : World) (a : Int) (s : GSt) : randomInt w a a s = .ok a s := by
  simp [randomInt]

/-- **C08 (panic).** The draw panics exactly when the bounds are reversed. -/
theorem C08_randomInt_panic (w : World) (a b : Int) (s : GSt) :
    (∃ e, randomInt w a b s = .panic e) ↔ b < a := by
  constructor
  · rintro ⟨e, he⟩
    by_contra hn
    rcases Int.lt_or_eq_of_le (Int.not_lt.1 hn) with h | h
    · obtain ⟨v, s', hv, _⟩ := C08_randomInt_range w a b h s
      rw [hv] at he; cases he
    · subst h; rw [C08_randomInt_self] at he; cases he
  · intro h
    refine ⟨"invalid argument to Intn", ?_⟩
    unfold randomInt intn intnWith
    rw [if_neg (by omega), if_pos (by omega)]
    rfl

end Chaff
