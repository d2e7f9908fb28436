import Verif.Spec.Not
import Verif.Spec.Json
/-!
# Specification: the parts of an `allOf` and what they demand

The meaning of `allOf` in JSON Schema: a value has to satisfy the schema itself and every member of its `allOf`,
and the members of theirs.
-/

namespace Chaff

/-- `x` is the schema `n` itself or one of the members of its `allOf`, or of theirs, and so on. -/
inductive Part : SchemaNode → SchemaNode → Prop
  | self (n : SchemaNode) : Part n n
  | member {n x y : SchemaNode} {l : List SchemaNode} : n.allOf = some l → x ∈ l → Part x y → Part n y

/-- The schema and all the members of its `allOf` satisfy `A`. -/
def EveryPart (A : SchemaNode → Prop) (n : SchemaNode) : Prop := ∀ x, Part n x → A x

/-- No part of the schema is a reference. -/
def RefFree (n : SchemaNode) : Prop := EveryPart (fun x => x.ref = none) n

/-- `v` is one of the values a schema's own `enum` and `const` keywords allow; values are compared as JSON values. -/
def ValueAllowed (v : JVal) (n : SchemaNode) : Prop :=
  (∀ l, n.enum = some l → ∃ w ∈ l, SameJson v w) ∧ (∀ w, n.const = some w → SameJson v w)

/-- A schema's own `required` keyword lists `name`. -/
def Requires (n : SchemaNode) (name : String) : Prop := ∃ l, n.required = some l ∧ name ∈ l

/-- The schema's own `properties` keyword declares `name`. -/
def Declares (n : SchemaNode) (name : String) : Prop := ∃ l x, n.properties = some l ∧ (name, x) ∈ l

/-- `q` is a decimal number with at most six digits after the point. -/
def SixDecimals (q : Rat) : Prop := ∃ k : Int, q = k / 1000000

end Chaff
