import Verif.Model.Float
/-!
# What is assumed of floating point arithmetic

Theorems that hold for every reasonable floating point format are stated for an arbitrary rounding
function with these laws.  `Verif.Lemmas.Binary64` shows that IEEE 754 binary64 (round to nearest, ties to
even, without overflow) has them, and exact arithmetic has them trivially.
-/

namespace Chaff

/-- Laws of a rounding function. -/
structure FP.Lawful (F : FP) : Prop where
  /-- rounding is monotone -/
  mono : ∀ a b, a ≤ b → F.rnd a ≤ F.rnd b
  /-- rounded values are not changed by rounding again -/
  idem : ∀ a, F.rnd (F.rnd a) = F.rnd a
  /-- integers up to 2^53 are represented exactly -/
  int : ∀ n : Int, |n| ≤ 2 ^ 53 → F.rnd (n : Rat) = n
  /-- rounding commutes with negation -/
  neg : ∀ a, F.rnd (-a) = -F.rnd a
  /-- the quotient of two such integers never rounds up to the next integer -/
  floorDiv : ∀ a b : Int, |a| ≤ 2 ^ 53 → 0 < b → b ≤ 2 ^ 53 → ⌊F.rnd ((a : Rat) / b)⌋ = ⌊(a : Rat) / b⌋

theorem FP.exact_lawful : FP.exact.Lawful where
  mono _ _ h := h
  idem _ := rfl
  int _ _ := rfl
  neg _ := rfl
  floorDiv _ _ _ _ _ := rfl

end Chaff
