import Verif.Props.Number
/-!
# C21, C22: how large an exclusive bound may be

In 64-bit arithmetic the offset by which an exclusive bound is moved inwards vanishes next to large numbers.  The
theorems say exactly where.
-/

namespace Chaff
open Comp

set_option exponentiation.threshold 2000

theorem lowerBound_double : lowerBound .binary64 ≤ -2 ^ 1000 := by
  have : decide (lowerBound .binary64 ≤ -2 ^ 1000) = true := by decide +kernel
  exact of_decide_eq_true this

theorem upperBound_double : 2 ^ 1000 ≤ upperBound .binary64 := by
  have := lowerBound_double
  unfold lowerBound at this
  linarith

/-- A binary64 context whose seeded source always draws zero. -/
def bottomCtx : Ctx := { demoCtx with w := { demoWorld with fp := .binary64, seeded := fun _ => 0 } }

/-- C21 for `exclusiveMinimum` in 64-bit arithmetic.  Take any 64-bit number `x` up to 2^1000.  The schema
`{"type":"number","exclusiveMinimum":x}` generates nothing but numbers above `x` if and only if `x` is at least -128
and less than 128. -/
theorem C21_exclusive_minimum_iff (x : Rat) (hd : binary64Rnd x = x) (hx : |x| ≤ 2 ^ 1000) :
    (∀ (c : Ctx), c.w.fp = FP.binary64 → ∀ r, parseNumber c.w.fp c.w.plat { exclusiveMinimum := some x } false = .ok r →
      ∀ fuel s v s', generate c (fuel + 1) r.toGen s = .ok v s' → ∃ q : Rat, v = .num q ∧ x < q) ↔
    -128 ≤ x ∧ x < 128 := by
  constructor
  · intro h
    by_contra hc
    have hx' : x < -128 ∨ 128 ≤ x := by
      by_contra hn
      rw [not_or] at hn
      exact hc ⟨not_lt.1 hn.1, not_le.1 hn.2⟩
    have hlost := rnd64_infinitesimal_lost hd hx'
    have habs := abs_le.1 hx
    have hx0 : x ≠ 0 := by rintro rfl; norm_num at hx'
    have hle : x ≤ binary64Rnd (x + 10) := by
      conv_lhs => rw [← hd]
      exact rnd64_mono (by linarith)
    -- the bounds
    have hb : clampBounds .binary64 (effectiveBounds .binary64 { exclusiveMinimum := some x } false) =
        (x, if binary64Rnd (x + 10) > upperBound .binary64 then upperBound .binary64 else binary64Rnd (x + 10)) := by
      have e : effectiveBounds .binary64 { exclusiveMinimum := some x } false = (x, binary64Rnd (x + 10)) := by
        unfold effectiveBounds
        simp only [maxPtr, minPtr, addIfNotNil, FP.add, FP.binary64, Bool.false_eq_true, if_false, getZeroIfNil]
        rw [show binary64Rnd (x + infinitesimal ⟨binary64Rnd⟩) = x from hlost]
        simp [getFloat, FP.mul, defaultOffset, rnd64_zero, maxPtrStep, minPtrStep]
      rw [e]
      unfold clampBounds
      rw [if_neg (by have := lowerBound_double; simp only; linarith [habs.1])]
    have hmx : x ≤ (if binary64Rnd (x + 10) > upperBound .binary64 then upperBound .binary64 else binary64Rnd (x + 10)) := by
      split
      · have := upperBound_double; linarith [habs.2]
      · exact hle
    generalize (if binary64Rnd (x + 10) > upperBound .binary64 then upperBound .binary64 else binary64Rnd (x + 10)) = mx at hb hmx
    have hr : resolveMinMaxForNode .binary64 bottomCtx.w.plat { exclusiveMinimum := some x } false = .ok (x, mx) := by
      unfold resolveMinMaxForNode
      simp only [hb, Bool.false_eq_true, false_and, if_false, checkMultipleOf]
      rw [if_neg (not_lt.2 hmx)]
    have hp : ∃ r, parseNumber .binary64 bottomCtx.w.plat { exclusiveMinimum := some x } false = .ok r ∧
        ∃ s', generate bottomCtx 1 r.toGen {} = .ok (.num x) s' := by
      unfold parseNumber
      rw [hr]
      simp only
      split
      · exact ⟨_, rfl, _, rfl⟩
      · refine ⟨_, rfl, ?_⟩
        simp only [generate, NumResult.toGen, genStep, getZeroIfNil]
        have hdraw : ∀ t : GSt, ∃ t', randomFloat bottomCtx.w x mx t = .ok x t' := by
          intro t
          have hf : ∃ t', float64 bottomCtx.w t = .ok 0 t' := ⟨_, bind_ok.2 ⟨0, _, rfl, by rw [pure_ok]; exact ⟨by norm_num, rfl⟩⟩⟩
          obtain ⟨t', hf⟩ := hf
          refine ⟨t', bind_ok.2 ⟨0, t', hf, ?_⟩⟩
          rw [pure_ok]
          refine ⟨?_, rfl⟩
          show binary64Rnd (binary64Rnd (0 * _) + x) = x
          rw [zero_mul, rnd64_zero, zero_add, hd]
        have htick : ∃ t, tick ({} : GSt) = .ok () t := ⟨_, rfl⟩
        obtain ⟨t, htick⟩ := htick
        obtain ⟨t', hdraw⟩ := hdraw t
        refine ⟨t', bind_ok.2 ⟨(), t, htick, ?_⟩⟩
        unfold numberGenerate numberRaw
        simp only [Bool.false_eq_true, if_false, ne_eq, not_true]
        refine bind_ok.2 ⟨x, t', hdraw, ?_⟩
        rw [if_neg hx0]
        rfl
    obtain ⟨r, h1, s', h2⟩ := hp
    obtain ⟨q, hq, hlt⟩ := h bottomCtx rfl r h1 0 {} _ s' h2
    cases hq
    exact lt_irrefl _ hlt
  · intro hx c hc r hr fuel s v s' hg
    obtain ⟨q, hq, ha⟩ := (C21_numbers_double_partial c hc { exclusiveMinimum := some x } rfl (fun y hy => (by cases hy))
      (fun y hy => (by cases hy)) (by rintro y ⟨⟩; exact hx) (fun y hy => (by cases hy)) r hr fuel).1 s v s' hg
    exact ⟨q, hq, ha.exclusiveMinimum x rfl⟩

/-- C22 for an interval without numbers.  `{"type":"number","minimum":x,"exclusiveMaximum":x}` admits no number.  In 64-bit
arithmetic the schema is rejected if and only if `x` is more than -128 and at most 128; otherwise the parser makes the
constant `x` of it. -/
theorem C22_empty_interval_rejected_iff (P : Platform) (x : Rat) (hd : binary64Rnd x = x) (hx : |x| ≤ 2 ^ 1000) :
    ((∃ e, parseNumber .binary64 P { minimum := some x, exclusiveMaximum := some x } false = .error e) ↔ -128 < x ∧ x ≤ 128) ∧
    (¬ (-128 < x ∧ x ≤ 128) →
      parseNumber .binary64 P { minimum := some x, exclusiveMaximum := some x } false = .ok (.const x)) := by
  have habs := abs_le.1 hx
  have hlow := lowerBound_double
  have hup := upperBound_double
  have hb : clampBounds .binary64 (effectiveBounds .binary64 { minimum := some x, exclusiveMaximum := some x } false) =
      (x, if binary64Rnd (x + -infinitesimal .binary64) > upperBound .binary64 then upperBound .binary64
        else binary64Rnd (x + -infinitesimal .binary64)) := by
    have e : effectiveBounds .binary64 { minimum := some x, exclusiveMaximum := some x } false =
        (x, binary64Rnd (x + -infinitesimal .binary64)) := by
      unfold effectiveBounds
      simp [maxPtr, minPtr, maxPtrStep, minPtrStep, addIfNotNil, FP.add, FP.binary64]
    rw [e]
    unfold clampBounds
    rw [if_neg (by simp only; linarith [habs.1])]
  have hin : (-128 < x ∧ x ≤ 128) →
      ∃ e, parseNumber .binary64 P { minimum := some x, exclusiveMaximum := some x } false = .error e := by
    intro h
    have hlt := rnd64_infinitesimal' h
    rw [if_neg (by linarith [habs.2])] at hb
    refine ⟨"minimum cannot be greater than maximum", ?_⟩
    unfold parseNumber resolveMinMaxForNode
    simp only [hb, Bool.false_eq_true, false_and, if_false]
    rw [if_pos hlt]
  have hout : ¬ (-128 < x ∧ x ≤ 128) →
      parseNumber .binary64 P { minimum := some x, exclusiveMaximum := some x } false = .ok (.const x) := by
    intro h
    have hx' : -x < -128 ∨ 128 ≤ -x := by
      by_contra hn
      rw [not_or] at hn
      exact h ⟨by linarith [not_le.1 hn.2], by linarith [not_lt.1 hn.1]⟩
    have hl := rnd64_infinitesimal_lost (x := -x) (by rw [rnd64_neg, hd]) hx'
    have hl' : binary64Rnd (x + -infinitesimal .binary64) = x := by
      have e : -x + infinitesimal .binary64 = -(x + -infinitesimal .binary64) := by ring
      rw [e, rnd64_neg] at hl
      linarith
    rw [hl', if_neg (by linarith [habs.2])] at hb
    unfold parseNumber resolveMinMaxForNode
    simp only [hb, Bool.false_eq_true, false_and, if_false, checkMultipleOf, lt_irrefl, if_true]
  refine ⟨⟨fun ⟨e, he⟩ => ?_, hin⟩, hout⟩
  by_contra h
  rw [hout h] at he
  cases he

/-- 100 is kept as a bound, 1000 is not. -/
example : (-128 ≤ (100 : Rat) ∧ (100 : Rat) < 128) ∧ binary64Rnd 100 = 100 ∧ ¬ (-128 ≤ (1000 : Rat) ∧ (1000 : Rat) < 128) ∧
    binary64Rnd 1000 = 1000 := by
  refine ⟨by norm_num, by decide +kernel, by norm_num, by decide +kernel⟩

end Chaff
