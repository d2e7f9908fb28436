import Verif.Model.Json
/-!
# Model of `schemaNode` (parse.go 96-176, json.go 9-25, if.go 22-27, constraint.go 35-47)

A Go pointer that may be nil is an `Option`; a Go map is an association list with distinct keys whose
list order stands for the order in which `range` visits it.  Pointers are copied when a node is copied,
so sharing between nodes is not represented.
-/

namespace Chaff

/-- `multipleType` (json.go 9-12).  `MultipleTypes` is a slice; nil and empty slices are told apart by the
code (`node.Type.MultipleTypes != nil`), hence the option. -/
structure MultipleType where
  single : String := ""
  multiple : Option (List String) := none
deriving Inhabited, DecidableEq, Repr

/-- `itemsData` (json.go 15-19). -/
structure ItemsData (α : Type) where
  node : Option α := none
  nodes : Option (List α) := none
  disallow : Bool := false
deriving Inhabited

/-- `schemaNodeOrFalse` (json.go 22-25). -/
structure NodeOrFalse (α : Type) where
  schema : Option α := none
  isFalse : Bool := false
deriving Inhabited

/-- `ifStatement` (if.go 22-27). -/
structure IfStmt (α : Type) where
  path : String
  ifN : Option α
  thenN : Option α
  elseN : Option α
deriving Inhabited

/-- `constraintCollection` (constraint.go 35-47).  The maps are kept as lists of keys: the compiled pattern
and the format checker are determined by the key.  A value constraint is keyed by JSON text in the code;
here it is the value itself, compared with `jeq` (see `JVal.jeq`). -/
structure ConstraintColl where
  notRegex : List String := []
  notFormats : List String := []
  notValues : List JVal := []
  mustNotHave : List String := []
deriving Inhabited

/-- The keywords of a `schemaNode` that hold no sub-schema (parse.go 97-176). -/
structure NodeBase where
  type : Option MultipleType := none
  length : Option Int := none
  minProperties : Option Int := none
  maxProperties : Option Int := none
  required : Option (List String) := none
  pattern : Option String := none
  format : Option String := none
  minLength : Option Int := none
  maxLength : Option Int := none
  minimum : Option Rat := none
  maximum : Option Rat := none
  exclusiveMinimum : Option Rat := none
  exclusiveMaximum : Option Rat := none
  multipleOf : Option Rat := none
  minItems : Option Int := none
  maxItems : Option Int := none
  minContains : Option Int := none
  maxContains : Option Int := none
  uniqueItems : Option Bool := none
  enum : Option (List JVal) := none
  const : Option JVal := none
  ref : Option String := none
  id : Option String := none
  dependentRequired : List (String × List String) := []
deriving Inhabited

/-- `schemaNode` (parse.go 96-176): the remaining keywords and the internal fields `mergedIf`, `mergedNot` and
`constraints`. -/
structure SchemaNode extends NodeBase where
  properties : Option (List (String × SchemaNode)) := none
  additionalProperties : Option (NodeOrFalse SchemaNode) := none
  patternProperties : Option (List (String × SchemaNode)) := none
  items : Option (ItemsData SchemaNode) := none
  contains : Option SchemaNode := none
  prefixItems : Option (List SchemaNode) := none
  additionalItems : Option (NodeOrFalse SchemaNode) := none
  unevaluatedItems : Option (NodeOrFalse SchemaNode) := none
  not : Option SchemaNode := none
  allOf : Option (List SchemaNode) := none
  anyOf : Option (List SchemaNode) := none
  oneOf : Option (List SchemaNode) := none
  defs : Option (List (String × SchemaNode)) := none
  definitions : Option (List (String × SchemaNode)) := none
  ifN : Option SchemaNode := none
  thenN : Option SchemaNode := none
  elseN : Option SchemaNode := none
  dependentSchemas : List (String × SchemaNode) := []
  mergedIf : List (IfStmt SchemaNode) := []
  mergedNot : List SchemaNode := []
  constraints : Option ConstraintColl := none
deriving Inhabited

/-- `newEmptySchemaNode` (merge.go 11-13). -/
def emptyNode : SchemaNode := {}

/-- `newMultipleTypeFromSlice` (json.go 28-37). -/
def newMultipleTypeFromSlice (types : List String) : MultipleType :=
  match types with
  | [] => {}
  | [t] => { single := t }
  | _ => { multiple := some types }

/-- `typeAll` (parse.go 191-195). -/
def typeAll : List String := ["object", "array", "number", "integer", "string", "boolean", "null"]

end Chaff
