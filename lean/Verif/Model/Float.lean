import Mathlib.Data.Rat.Floor
import Verif.Model.Util
/-!
# Floating point parameters

A `float64` is modelled by the rational number it denotes.  Each arithmetic operation of the code is
the exact operation followed by a rounding function.  `FP.exact` (no rounding) and the binary64
rounding of `Verif.Model.Binary64` are two instances.  Overflow to infinity is not modelled, except
for division by zero in the `multipleOf` arithmetic.
-/

namespace Chaff

/-- A floating point format, given by its rounding function. -/
structure FP where
  rnd : Rat → Rat

namespace FP
/-- Exact arithmetic. -/
def exact : FP := ⟨id⟩
/-- `a + b` in float64. -/
def add (F : FP) (a b : Rat) : Rat := F.rnd (a + b)
/-- `a - b` in float64. -/
def sub (F : FP) (a b : Rat) : Rat := F.rnd (a - b)
/-- `a * b` in float64. -/
def mul (F : FP) (a b : Rat) : Rat := F.rnd (a * b)
/-- `a / b` in float64, for `b ≠ 0`. -/
def div (F : FP) (a b : Rat) : Rat := F.rnd (a / b)
end FP

/-- `math.Floor` on finite values. -/
def fFloor (q : Rat) : Int := ⌊q⌋

/-- `math.Ceil` on finite values. -/
def fCeil (q : Rat) : Int := ⌈q⌉

/-- `math.Round`: nearest integer, halves away from zero. -/
def fRound (q : Rat) : Int := if 0 ≤ q then ⌊q + 1/2⌋ else -⌊-q + 1/2⌋

/-- `math.Trunc`. -/
def fTrunc (q : Rat) : Int := if 0 ≤ q then ⌊q⌋ else ⌈q⌉

/-- Platform-dependent results of converting a float outside the `int` range to `int`
(amd64 gives -2^63 for all; arm64 saturates, NaN gives 0). -/
structure Platform where
  ovfPos : Int
  ovfNeg : Int
  ovfNan : Int

/-- Go's behaviour on amd64. -/
def Platform.amd64 : Platform := ⟨-9223372036854775808, -9223372036854775808, -9223372036854775808⟩

/-- Wrap to a signed 64-bit `int`. -/
def wrap64 (n : Int) : Int := (n + 9223372036854775808) % 18446744073709551616 - 9223372036854775808

/-- `int(f)` for a finite float: truncation when it fits, otherwise platform-dependent. -/
def toInt64 (P : Platform) (q : Rat) : Int :=
  let t := fTrunc q
  if t ≥ 9223372036854775808 then P.ovfPos
  else if t < -9223372036854775808 then P.ovfNeg
  else t

end Chaff
