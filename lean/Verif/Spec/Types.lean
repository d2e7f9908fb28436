import Verif.Model.Schema
/-!
# What it means to have a JSON type, and schemas without combinators

Written without reference to the parser or the generators.
-/

namespace Chaff

/-- The value has the JSON Schema type of this name. -/
inductive HasType : String → JVal → Prop where
  | null : HasType "null" .null
  | boolean (b : Bool) : HasType "boolean" (.bool b)
  | string (s : String) : HasType "string" (.str s)
  | number (q : Rat) : HasType "number" (.num q)
  | integer (k : Int) : HasType "integer" (.num (k : Rat))
  | array (l : List JVal) : HasType "array" (.arr l)
  | object (m : List (String × JVal)) : HasType "object" (.obj m)

/-- The names of the JSON Schema types. -/
def jsonTypes : List String := ["null", "boolean", "string", "number", "integer", "array", "object"]

/-- The schema has no reference, combination, negation or conditional. -/
structure Plain (n : SchemaNode) : Prop where
  ref : n.ref = none
  allOf : n.allOf = none
  oneOf : n.oneOf = none
  anyOf : n.anyOf = none
  not : n.not = none
  mergedNot : n.mergedNot = []
  ifN : n.ifN = none
  mergedIf : n.mergedIf = []

end Chaff
