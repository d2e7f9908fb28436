import Verif.Model.Schema
import Verif.Model.Float
/-!
# Specification: ranges, numeric keywords and types of a schema

The meaning of the range keywords of JSON Schema, written without reference to how the code computes
with them.
-/

namespace Chaff

/-- `v` lies in the range with the optional inclusive bounds `lo` and `hi`. -/
def InRange (lo hi : Option Int) (v : Int) : Prop := (∀ x, lo = some x → x ≤ v) ∧ (∀ x, hi = some x → v ≤ x)

/-- A bound (if present) is far enough from the 32-bit limits, which the code uses for "unbounded". -/
def Ordinary (b : Option Int) : Prop := ∀ x, b = some x → |x| < 2 ^ 31 - 20

/-- `q` satisfies `minimum`, `maximum`, `exclusiveMinimum` and `exclusiveMaximum` (JSON Schema validation 6.2). -/
structure InBounds (min max exMin exMax : Option Rat) (q : Rat) : Prop where
  minimum : ∀ x, min = some x → x ≤ q
  maximum : ∀ x, max = some x → q ≤ x
  exclusiveMinimum : ∀ x, exMin = some x → x < q
  exclusiveMaximum : ∀ x, exMax = some x → q < x

/-- `q` is an integer multiple of `m`. -/
def IsMultiple (q m : Rat) : Prop := ∃ k : Int, q = k * m

/-- The types a schema's `type` keyword lists; `none` means that the schema does not restrict the type. -/
def declaredTypes (n : SchemaNode) : Option (List String) :=
  match n.type with
  | none => none
  | some t =>
    if t.single ≠ "" then some [t.single]
    else match t.multiple with
      | some (x :: l) => some (x :: l)
      | _ => none

end Chaff
