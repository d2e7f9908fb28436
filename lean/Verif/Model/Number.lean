import Verif.Model.Options
/-!
# Model of number.go
-/

namespace Chaff

/-- `infinitesimal = 0.1e-13` (number.go 25), as a float64. -/
def infinitesimal (F : FP) : Rat := F.rnd (1 / 10 ^ 14)

/-- `math.MaxFloat64`. -/
def maxFloat64 : Rat := (2 ^ 53 - 1) * 2 ^ 971

/-- `upperBound = math.MaxFloat64 / 1000` (number.go 29). -/
def upperBound (F : FP) : Rat := F.rnd (maxFloat64 / 1000)

/-- `lowerBound` (number.go 30). -/
def lowerBound (F : FP) : Rat := -upperBound F

/-- `defaultOffset = 10` (number.go 35). -/
def defaultOffset : Int := 10

/-- The numeric keywords of a schema node read by number.go. -/
structure NumSpec where
  minimum : Option Rat := none
  maximum : Option Rat := none
  exclusiveMinimum : Option Rat := none
  exclusiveMaximum : Option Rat := none
  multipleOf : Option Rat := none

/-- `numberGenerator` (number.go 14-19). -/
structure NumGen where
  isInt : Bool
  min : Rat
  max : Rat
  multipleOf : Rat

/-- A float64 quotient: finite, or the result of a division by zero. -/
inductive Quot0 where
  | fin (q : Rat) | posInf | negInf | nan

/-- `a / b` in float64 including division by zero (IEEE 754). -/
def fdiv0 (F : FP) (a b : Rat) : Quot0 :=
  if b = 0 then (if a > 0 then .posInf else if a < 0 then .negInf else .nan)
  else .fin (F.div a b)

/-- `int(math.Floor(q))`. -/
def floorToInt (P : Platform) : Quot0 → Int
  | .fin q => toInt64 P ((fFloor q : Int) : Rat)
  | .posInf => P.ovfPos
  | .negInf => P.ovfNeg
  | .nan => P.ovfNan

/-- `countMultiplesInRange` (number.go 147-153). -/
def countMultiplesInRange (F : FP) (P : Platform) (min max multiple : Rat) : Int :=
  if min = 0 then floorToInt P (fdiv0 F max multiple)
  else wrap64 (floorToInt P (fdiv0 F max multiple) - floorToInt P (fdiv0 F min multiple))

/-- `addIfNotNilFloat64` (not.go 1045-1052): add an offset to an optional bound. -/
def addIfNotNil (F : FP) (v : Option Rat) (off : Rat) : Option Rat :=
  match v with
  | none => none
  | some x => some (F.add x off)

/-- The part of `resolveMinMaxForNode` that combines the keywords (number.go 71-100): the effective bounds
before clamping.  A missing bound (an infinity in Go) is `none` until the defaults are applied. -/
def effectiveBounds (F : FP) (n : NumSpec) (mustBeInt : Bool) : Rat × Rat :=
  let exclusiveOffset : Rat := if mustBeInt then 1 else infinitesimal F
  let lo := maxPtr [n.minimum, addIfNotNil F n.exclusiveMinimum exclusiveOffset]
  let hi := minPtr [n.maximum, addIfNotNil F n.exclusiveMaximum (-exclusiveOffset)]
  let offset := getFloat [F.mul (getZeroIfNil n.multipleOf 0) 100, (defaultOffset : Rat)]
  match lo, hi with
  | none, none => (0, offset)
  | none, some hi => (F.sub hi offset, hi)
  | some lo, none => (lo, F.add lo offset)
  | some lo, some hi => (lo, hi)

/-- Clamping of the bounds (number.go 102-109). -/
def clampBounds (F : FP) (b : Rat × Rat) : Rat × Rat :=
  (if b.1 < lowerBound F then lowerBound F else b.1, if b.2 > upperBound F then upperBound F else b.2)

/-- Validation of `multipleOf` (number.go 127-143); `some msg` is an error. -/
def checkMultipleOf (F : FP) (P : Platform) (mustBeInt : Bool) (min max : Rat) : Option Rat → Option String
  | none => none
  | some m =>
    if m < 0 then some "multipleOf cannot be negative"
    else if m ≠ 0 ∧ m < infinitesimal F then some "multipleOf must be at least infinitesimal"
    else if mustBeInt = true ∧ (fTrunc m : Rat) ≠ m then some "integer type cannot have a non-integer multipleOf"
    else if countMultiplesInRange F P min max m = 0 then
      some "minimum and maximum do not allow for any multiples of multipleOf"
    else none

/-- `resolveMinMaxForNode` (number.go 67-145). -/
def resolveMinMaxForNode (F : FP) (P : Platform) (n : NumSpec) (mustBeInt : Bool) : Except String (Rat × Rat) :=
  let b := clampBounds F (effectiveBounds F n mustBeInt)
  if mustBeInt = true ∧ fFloor b.1 = fFloor b.2 then
    .error "minimum and maximum do not allow for any integers"
  else
    let min : Rat := if mustBeInt then (fCeil b.1 : Rat) else b.1
    let max : Rat := if mustBeInt then (fFloor b.2 : Rat) else b.2
    if min > max then .error "minimum cannot be greater than maximum"
    else match checkMultipleOf F P mustBeInt min max n.multipleOf with
      | some e => .error e
      | none => .ok (min, max)

/-- Result of `parseNumber` (number.go 47-65): a constant or a number generator. -/
inductive NumResult where
  | const (q : Rat)
  | gen (g : NumGen)

/-- `parseNumber` (number.go 47-65). -/
def parseNumber (F : FP) (P : Platform) (n : NumSpec) (isInt : Bool) : Except String NumResult :=
  match resolveMinMaxForNode F P n isInt with
  | .error e => .error e
  | .ok (min, max) =>
    if min = max then .ok (.const min)
    else .ok (.gen { isInt := isInt, min := min, max := max, multipleOf := getZeroIfNil n.multipleOf 0 })

/-- `decimalPrecision` (internal/util/util.go 111-119): multiply by ten until integral, at most 15 times. -/
def decimalPrecision (F : FP) (v : Rat) : Nat :=
  go 15 (if v < 0 then -v else v)
where
  go : Nat → Rat → Nat
  | 0, _ => 0
  | n + 1, v => if v = (fFloor v : Rat) then 0 else 1 + go n (F.mul v 10)

/-- `util.Round` (internal/util/util.go 97-107), for a non-zero unit. -/
def utilRound (F : FP) (x unit : Rat) : Rat :=
  let r := F.mul (fRound (F.div x unit) : Rat) unit
  if unit ≠ 0 then
    let pow : Rat := 10 ^ decimalPrecision F unit
    F.div (fRound (F.mul r pow) : Rat) pow
  else r

/-- `roundToInfinitesimal` (number.go 167-174); the infinity test never fires on finite values. -/
def roundToInfinitesimal (F : FP) (f : Rat) : Rat :=
  if (if f < 0 then -f else f) > F.rnd (10 ^ 290) then f
  else F.mul (fRound (F.div f (infinitesimal F)) : Rat) (infinitesimal F)

/-- `generateMultipleOf` (number.go 155-165), called only with a non-zero multiple. -/
def generateMultipleOf (w : World) (min max multiple : Rat) : M Rat := do
  let n := countMultiplesInRange w.fp w.plat min max multiple
  if n = 0 then pure 0
  else
    let lower := w.fp.mul (fFloor (w.fp.div min multiple) : Rat) multiple
    let k ← randomInt w 1 n
    pure (w.fp.add lower (w.fp.mul (w.fp.rnd (k : Rat)) multiple))

/-- The value drawn by `numberGenerator.Generate` before conversion (number.go 178-187). -/
def numberRaw (w : World) (g : NumGen) : M Rat := do
  if g.isInt then
    if g.multipleOf ≠ 0 then generateMultipleOf w g.min g.max g.multipleOf
    else
      let f ← randomFloat w g.min g.max
      pure (fRound f : Rat)
  else
    if g.multipleOf ≠ 0 then
      let x ← generateMultipleOf w g.min g.max g.multipleOf
      pure (utilRound w.fp x g.multipleOf)
    else randomFloat w g.min g.max

/-- `numberGenerator.Generate` (number.go 176-210) after the complexity increment. -/
def numberGenerate (w : World) (g : NumGen) : M JVal := do
  let result ← numberRaw w g
  if result = 0 then pure (.num 0)
  else if g.isInt then pure (.num (toInt64 w.plat result : Rat))
  else if g.multipleOf ≠ 0 then pure (.num (roundToInfinitesimal w.fp result))
  else pure (.num result)

end Chaff
