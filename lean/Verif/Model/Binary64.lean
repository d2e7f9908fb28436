import Verif.Model.Float
/-!
# IEEE 754 binary64 rounding

Round to nearest, ties to even, with gradual underflow.  Overflow to infinity is not modelled: values of
magnitude at least 2^1024 are rounded to 53 significant bits as well.  This is how Go evaluates float64
expressions (the Go specification and IEEE 754; no Go file).
-/

namespace Chaff

/-- `2 ^ e` for an integer exponent. -/
def pow2 : Int → Rat
  | .ofNat n => ((2 ^ n : Nat) : Rat)
  | .negSucc n => 1 / ((2 ^ (n + 1) : Nat) : Rat)

/-- `⌊log₂ |q|⌋` for `q ≠ 0`, from the bit lengths of numerator and denominator. -/
def ilog2 (q : Rat) : Int :=
  let e : Int := (Nat.log2 q.num.natAbs : Int) - Nat.log2 q.den
  if pow2 e ≤ |q| then e else e - 1

/-- Nearest integer, ties to even. -/
def roundEven (q : Rat) : Int :=
  let f := ⌊q⌋
  if q - f < 1 / 2 then f else if 1 / 2 < q - f then f + 1 else if f % 2 = 0 then f else f + 1

/-- Exponent of the unit in the last place. -/
def ulpExp (q : Rat) : Int := max (ilog2 q - 52) (-1074)

/-- Rounding to binary64. -/
def binary64Rnd (q : Rat) : Rat :=
  if q = 0 then 0 else roundEven (q / pow2 (ulpExp q)) * pow2 (ulpExp q)

/-- The float64 format. -/
def FP.binary64 : FP := ⟨binary64Rnd⟩

end Chaff
