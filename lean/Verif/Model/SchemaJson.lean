import Verif.Model.Schema
/-!
# Model of json.go: decoding and encoding schemas

`none` stands for an error of `json.Unmarshal`.  Simplifications: keys are matched exactly (encoding/json
also accepts other letter cases); a JSON number decodes into an `int` field when it is integral and fits 64
bits (encoding/json looks at the text, so it also refuses `1.0`); a JSON value is already a tree, and its
numbers are the `float64` values read from the text; the members of an encoded schema are listed in a fixed
order (encoding/json uses the order of the struct fields and sorts the keys of maps), which is irrelevant
because JSON objects are unordered.
-/

namespace Chaff

/-- Decoding into an `int` field: `null` leaves the pointer nil. -/
def decInt : JVal → Option (Option Int)
  | .null => some none
  | .num q => if q.den = 1 ∧ -(2 ^ 63) ≤ q.num ∧ q.num < 2 ^ 63 then some (some q.num) else none
  | _ => none

/-- Decoding into a `*float64` field. -/
def decRat : JVal → Option (Option Rat)
  | .null => some none
  | .num q => some (some q)
  | _ => none

/-- Decoding into a `*string` field. -/
def decString : JVal → Option (Option String)
  | .null => some none
  | .str s => some (some s)
  | _ => none

/-- Decoding into a `*bool` field. -/
def decBool : JVal → Option (Option Bool)
  | .null => some none
  | .bool b => some (some b)
  | _ => none

/-- Decoding an element of a `[]string`: `null` leaves the element empty. -/
def decStrElem : JVal → Option String
  | .null => some ""
  | .str s => some s
  | _ => none

/-- Decoding into a `[]string`. -/
def decStrList : List JVal → Option (List String)
  | [] => some []
  | v :: t => do
    let s ← decStrElem v
    let r ← decStrList t
    pure (s :: r)

/-- Decoding into a `*[]string` field. -/
def decStrings : JVal → Option (Option (List String))
  | .null => some none
  | .arr l => do
    let r ← decStrList l
    pure (some r)
  | _ => none

/-- Decoding into the `*[]interface{}` field `enum`. -/
def decValues : JVal → Option (Option (List JVal))
  | .null => some none
  | .arr l => some (some l)
  | _ => none

/-- `multipleType.UnmarshalJSON` (json.go 39-59), with `null` handled by encoding/json. -/
def decType : JVal → Option (Option MultipleType)
  | .null => some none
  | .str s => some (some { single := s })
  | .arr l => do
    let r ← decStrList l
    pure (some { multiple := some r })
  | _ => none

/-- Decoding into `map[string][]string` (parse.go 160): a `null` value is a nil slice. -/
def decStrMap : List (String × JVal) → Option (List (String × List String))
  | [] => some []
  | (k, v) :: t => do
    let l ← match v with
      | .null => some []
      | .arr l => decStrList l
      | _ => none
    let r ← decStrMap t
    pure ((k, l) :: r)

/-- `decStrMap` for the field value. -/
def decDependentRequired : JVal → Option (List (String × List String))
  | .null => some []
  | .obj m => decStrMap m
  | _ => none

/-- One member of a schema object whose value holds no sub-schema (parse.go 97-160).  Unknown keywords are
ignored. -/
def decBaseField (n : NodeBase) (k : String) (v : JVal) : Option NodeBase :=
  if k = "type" then do let x ← decType v; pure { n with type := x }
  else if k = "length" then do let x ← decInt v; pure { n with length := x }
  else if k = "minProperties" then do let x ← decInt v; pure { n with minProperties := x }
  else if k = "maxProperties" then do let x ← decInt v; pure { n with maxProperties := x }
  else if k = "required" then do let x ← decStrings v; pure { n with required := x }
  else if k = "pattern" then do let x ← decString v; pure { n with pattern := x }
  else if k = "format" then do let x ← decString v; pure { n with format := x }
  else if k = "minLength" then do let x ← decInt v; pure { n with minLength := x }
  else if k = "maxLength" then do let x ← decInt v; pure { n with maxLength := x }
  else if k = "minimum" then do let x ← decRat v; pure { n with minimum := x }
  else if k = "maximum" then do let x ← decRat v; pure { n with maximum := x }
  else if k = "exclusiveMinimum" then do let x ← decRat v; pure { n with exclusiveMinimum := x }
  else if k = "exclusiveMaximum" then do let x ← decRat v; pure { n with exclusiveMaximum := x }
  else if k = "multipleOf" then do let x ← decRat v; pure { n with multipleOf := x }
  else if k = "minItems" then do let x ← decInt v; pure { n with minItems := x }
  else if k = "maxItems" then do let x ← decInt v; pure { n with maxItems := x }
  else if k = "minContains" then do let x ← decInt v; pure { n with minContains := x }
  else if k = "maxContains" then do let x ← decInt v; pure { n with maxContains := x }
  else if k = "uniqueItems" then do let x ← decBool v; pure { n with uniqueItems := x }
  else if k = "enum" then do let x ← decValues v; pure { n with enum := x }
  else if k = "const" then some { n with const := some v }
  else if k = "$ref" then do let x ← decString v; pure { n with ref := x }
  else if k = "$id" then do let x ← decString v; pure { n with id := x }
  else if k = "dependentRequired" then do let x ← decDependentRequired v; pure { n with dependentRequired := x }
  else some n

/-- The keywords whose value holds sub-schemas, by shape. -/
inductive SubKey where
  | properties | patternProperties | defs | definitions | dependentSchemas
  | contains | not | ifK | thenK | elseK
  | prefixItems | allOf | anyOf | oneOf
  | additionalProperties | additionalItems | unevaluatedItems
  | items
deriving DecidableEq, Repr

/-- JSON names of those keywords (parse.go 97-163). -/
def SubKey.name : SubKey → String
  | .properties => "properties" | .patternProperties => "patternProperties" | .defs => "$defs"
  | .definitions => "definitions" | .dependentSchemas => "dependentSchemas"
  | .contains => "contains" | .not => "not" | .ifK => "if" | .thenK => "then" | .elseK => "else"
  | .prefixItems => "prefixItems" | .allOf => "allOf" | .anyOf => "anyOf" | .oneOf => "oneOf"
  | .additionalProperties => "additionalProperties" | .additionalItems => "additionalItems"
  | .unevaluatedItems => "unevaluatedItems" | .items => "items"

/-- All of them. -/
def SubKey.all : List SubKey :=
  [.properties, .patternProperties, .defs, .definitions, .dependentSchemas, .contains, .not, .ifK, .thenK,
   .elseK, .prefixItems, .allOf, .anyOf, .oneOf, .additionalProperties, .additionalItems, .unevaluatedItems,
   .items]

/-- The keyword with a given JSON name. -/
def SubKey.ofName (k : String) : Option SubKey := SubKey.all.find? (fun s => s.name == k)

/-- What decoding a sub-schema keyword yields; `none` inside is a nil pointer. -/
inductive SubVal where
  | map (m : Option (List (String × SchemaNode)))
  | node (n : Option SchemaNode)
  | nodes (l : Option (List SchemaNode))
  | orFalse (x : Option (NodeOrFalse SchemaNode))
  | items (x : Option (ItemsData SchemaNode))

/-- Storing a decoded value in its field. -/
def setSub (n : SchemaNode) (k : SubKey) (v : SubVal) : SchemaNode :=
  match k, v with
  | .properties, .map m => { n with properties := m }
  | .patternProperties, .map m => { n with patternProperties := m }
  | .defs, .map m => { n with defs := m }
  | .definitions, .map m => { n with definitions := m }
  | .dependentSchemas, .map m => { n with dependentSchemas := m.getD [] }
  | .contains, .node x => { n with contains := x }
  | .not, .node x => { n with not := x }
  | .ifK, .node x => { n with ifN := x }
  | .thenK, .node x => { n with thenN := x }
  | .elseK, .node x => { n with elseN := x }
  | .prefixItems, .nodes l => { n with prefixItems := l }
  | .allOf, .nodes l => { n with allOf := l }
  | .anyOf, .nodes l => { n with anyOf := l }
  | .oneOf, .nodes l => { n with oneOf := l }
  | .additionalProperties, .orFalse x => { n with additionalProperties := x }
  | .additionalItems, .orFalse x => { n with additionalItems := x }
  | .unevaluatedItems, .orFalse x => { n with unevaluatedItems := x }
  | .items, .items x => { n with items := x }
  | _, _ => n

/-- Shape of a sub-schema keyword. -/
inductive SubShape where
  | map | node | nodes | orFalse | items
deriving DecidableEq

/-- Shape of each keyword (the field types in parse.go 98-163). -/
def SubKey.shape : SubKey → SubShape
  | .properties | .patternProperties | .defs | .definitions | .dependentSchemas => .map
  | .contains | .not | .ifK | .thenK | .elseK => .node
  | .prefixItems | .allOf | .anyOf | .oneOf => .nodes
  | .additionalProperties | .additionalItems | .unevaluatedItems => .orFalse
  | .items => .items

mutual
/-- `schemaNode.UnmarshalJSON` (json.go 148-170) on a value that is not a nil pointer: `null` leaves the node
empty, anything but an object is an error. -/
def decodeNode : JVal → Option SchemaNode
  | .obj m => decodeFields m emptyNode
  | .null => some emptyNode
  | .bool _ => none
  | .num _ => none
  | .str _ => none
  | .arr _ => none
termination_by structural v => v
/-- The members of a schema object, in order. -/
def decodeFields : List (String × JVal) → SchemaNode → Option SchemaNode
  | [], n => some n
  | p :: t, n => (decodeField p n).bind (decodeFields t)
termination_by structural l => l
/-- One member of a schema object (parse.go 97-163, json.go). -/
def decodeField : String × JVal → SchemaNode → Option SchemaNode
  | (k, v), n =>
    match SubKey.ofName k with
    | some sk => (decodeSub sk.shape v).map (setSub n sk)
    | none => (decBaseField n.toNodeBase k v).map (fun b => { n with toNodeBase := b })
termination_by structural p => p
/-- Decoding the value of a sub-schema keyword: `itemsData.UnmarshalJSON` (json.go 71-92), in which the two
calls to `json.Unmarshal` allocate the pointer before they fail, `schemaNodeOrFalse.UnmarshalJSON`
(json.go 108-131), and encoding/json for the other shapes. -/
def decodeSub : SubShape → JVal → Option SubVal
  | .map, .obj m => (decodeMap m).map (fun x => .map (some x))
  | .map, .null => some (.map none)
  | .node, .null => some (.node none)
  | .node, .obj m => (decodeFields m emptyNode).map (fun x => .node (some x))
  | .nodes, .arr l => (decodeList l).map (fun x => .nodes (some x))
  | .nodes, .null => some (.nodes none)
  | .orFalse, .null => some (.orFalse none)
  | .orFalse, .bool false => some (.orFalse (some { isFalse := true }))
  | .orFalse, .bool true => some (.orFalse (some {}))
  | .orFalse, .obj m => (decodeFields m emptyNode).map (fun x => .orFalse (some { schema := some x }))
  | .items, .null => some (.items none)
  | .items, .bool false => some (.items (some { disallow := true }))
  | .items, .obj m => (decodeFields m emptyNode).map (fun x => .items (some { node := some x, nodes := some [] }))
  | .items, .arr l => (decodeList l).map (fun x => .items (some { node := some emptyNode, nodes := some x }))
  | _, _ => none
termination_by structural _ v => v
/-- Decoding into `map[string]schemaNode`. -/
def decodeMap : List (String × JVal) → Option (List (String × SchemaNode))
  | [] => some []
  | p :: t => (decodePair p).bind (fun x => (decodeMap t).map (fun r => x :: r))
termination_by structural l => l
/-- One entry of a map of schemas. -/
def decodePair : String × JVal → Option (String × SchemaNode)
  | (k, v) => (decodeNode v).map (fun n => (k, n))
termination_by structural p => p
/-- Decoding into `[]schemaNode`. -/
def decodeList : List JVal → Option (List SchemaNode)
  | [] => some []
  | v :: t => (decodeNode v).bind (fun x => (decodeList t).map (fun r => x :: r))
termination_by structural l => l
end

/-! ## Encoding -/

/-- An optional member (`omitempty`). -/
def member {α : Type} (k : String) (f : α → JVal) : Option α → List (String × JVal)
  | none => []
  | some a => [(k, f a)]

/-- A JSON integer. -/
def jInt (i : Int) : JVal := .num i

/-- A JSON list of strings. -/
def jStrs (l : List String) : JVal := .arr (l.map .str)

/-- `multipleType.MarshalJSON` (json.go 61-69). -/
def encType (t : MultipleType) : JVal :=
  if t.single ≠ "" then .str t.single
  else match t.multiple with
    | some (x :: xs) => jStrs (x :: xs)
    | _ => .null

/-- The members without sub-schemas. -/
def encBase (n : NodeBase) : List (String × JVal) :=
  member "type" encType n.type ++
  member "length" jInt n.length ++
  member "minProperties" jInt n.minProperties ++
  member "maxProperties" jInt n.maxProperties ++
  member "required" jStrs n.required ++
  member "pattern" JVal.str n.pattern ++
  member "format" JVal.str n.format ++
  member "minLength" jInt n.minLength ++
  member "maxLength" jInt n.maxLength ++
  member "minimum" JVal.num n.minimum ++
  member "maximum" JVal.num n.maximum ++
  member "exclusiveMinimum" JVal.num n.exclusiveMinimum ++
  member "exclusiveMaximum" JVal.num n.exclusiveMaximum ++
  member "multipleOf" JVal.num n.multipleOf ++
  member "minItems" jInt n.minItems ++
  member "maxItems" jInt n.maxItems ++
  member "minContains" jInt n.minContains ++
  member "maxContains" jInt n.maxContains ++
  member "uniqueItems" JVal.bool n.uniqueItems ++
  member "enum" JVal.arr n.enum ++
  member "const" id n.const ++
  member "$ref" JVal.str n.ref ++
  member "$id" JVal.str n.id ++
  (if n.dependentRequired.isEmpty then []
   else [("dependentRequired", JVal.obj (n.dependentRequired.map (fun p => (p.1, jStrs p.2))))])

mutual
/-- Encoding a `schemaNode` with `json.Marshal`; the internal fields are not exported and are dropped. -/
def encodeNode : SchemaNode → JVal
  | ⟨base, props, addP, patP, items, cont, pre, addI, unevI, notN, allO, anyO, oneO, defs, dfn, ifN, thenN,
      elseN, depS, _, _, _⟩ =>
    .obj (encBase base ++ encOptMap "properties" props ++ encOptOrFalse "additionalProperties" addP ++
      encOptMap "patternProperties" patP ++ encOptItems "items" items ++ encOptNode "contains" cont ++
      encOptList "prefixItems" pre ++ encOptOrFalse "additionalItems" addI ++
      encOptOrFalse "unevaluatedItems" unevI ++ encOptNode "not" notN ++ encOptList "allOf" allO ++
      encOptList "anyOf" anyO ++ encOptList "oneOf" oneO ++ encOptMap "$defs" defs ++
      encOptMap "definitions" dfn ++ encOptNode "if" ifN ++ encOptNode "then" thenN ++
      encOptNode "else" elseN ++
      (match encMap depS with | [] => [] | x :: t => [("dependentSchemas", .obj (x :: t))]))
/-- A field of type `*map[string]schemaNode`. -/
def encOptMap (k : String) : Option (List (String × SchemaNode)) → List (String × JVal)
  | none => []
  | some m => [(k, .obj (encMap m))]
/-- A `map[string]schemaNode`. -/
def encMap : List (String × SchemaNode) → List (String × JVal)
  | [] => []
  | p :: t => encPair p :: encMap t
/-- One entry of a map. -/
def encPair : String × SchemaNode → String × JVal
  | (k, n) => (k, encodeNode n)
/-- A field of type `*schemaNode`. -/
def encOptNode (k : String) : Option SchemaNode → List (String × JVal)
  | none => []
  | some n => [(k, encodeNode n)]
/-- A field of type `*[]schemaNode`. -/
def encOptList (k : String) : Option (List SchemaNode) → List (String × JVal)
  | none => []
  | some l => [(k, .arr (encList l))]
/-- A `[]schemaNode`. -/
def encList : List SchemaNode → List JVal
  | [] => []
  | n :: t => encodeNode n :: encList t
/-- A field of type `*schemaNodeOrFalse`. -/
def encOptOrFalse (k : String) : Option (NodeOrFalse SchemaNode) → List (String × JVal)
  | none => []
  | some x => [(k, encOrFalse x)]
/-- `schemaNodeOrFalse.MarshalJSON` (json.go 133-143). -/
def encOrFalse : NodeOrFalse SchemaNode → JVal
  | ⟨s, f⟩ => if f then .bool false else encNodeOrNull s
/-- A pointer to a node, `null` when nil. -/
def encNodeOrNull : Option SchemaNode → JVal
  | none => .null
  | some n => encodeNode n
/-- A field of type `*itemsData`. -/
def encOptItems (k : String) : Option (ItemsData SchemaNode) → List (String × JVal)
  | none => []
  | some x => [(k, encItems x)]
/-- `itemsData.MarshalJSON` (json.go 94-106): the single schema wins over the list. -/
def encItems : ItemsData SchemaNode → JVal
  | ⟨node, nodes, disallow⟩ =>
    if disallow then .bool false
    else if node.isSome then encNodeOrNull node
    else encNodesOrNull nodes
/-- A pointer to a list of nodes, `null` when nil. -/
def encNodesOrNull : Option (List SchemaNode) → JVal
  | none => .null
  | some l => .arr (encList l)
end

end Chaff
