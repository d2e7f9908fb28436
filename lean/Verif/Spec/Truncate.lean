import Verif.Props.Dispatch
/-!
# The part of a schema that the depth limit cuts off

A schema nested `MaxParseDepth` levels below the root is not parsed any more.
-/

namespace Chaff

/-- `n` is read as an object: by its type, or because of its keywords. -/
def ReadsObject (n : SchemaNode) : Prop :=
  ReadAs n .inferredObject ∨ (ReadAs n .typeName ∧ ∃ t, n.type = some t ∧ t.single = "object")

/-- `n` is read as an array. -/
def ReadsArray (n : SchemaNode) : Prop :=
  ReadAs n .inferredArray ∨ (ReadAs n .typeName ∧ ∃ t, n.type = some t ∧ t.single = "array")

/-- `m` is the schema of a member of the object `n`. -/
inductive MemberSchema (n m : SchemaNode) : Prop
  | property (ps : List (String × SchemaNode)) (k : String) (h : n.properties = some ps) (hm : (k, m) ∈ ps)
  | patternProperty (ps : List (String × SchemaNode)) (k : String) (h : n.patternProperties = some ps) (hm : (k, m) ∈ ps)
  | additional (d : NodeOrFalse SchemaNode) (h : n.additionalProperties = some d) (hf : d.isFalse = false)
      (hm : d.schema = some m)

/-- `m` is the schema of items of the array `n`. -/
inductive ItemSchema (n m : SchemaNode) : Prop
  | items (d : ItemsData SchemaNode) (h : n.items = some d) (hf : d.disallow = false) (hm : d.node = some m)
  | prefixItem (l : List SchemaNode) (h : n.prefixItems = some l) (hm : m ∈ l)
  | additional (d : NodeOrFalse SchemaNode) (h : n.additionalItems = some d) (hm : d.schema = some m)
  | unevaluated (d : NodeOrFalse SchemaNode) (h : n.unevaluatedItems = some d) (hf : d.isFalse = false)
      (hm : d.schema = some m)

/-- Exactly `k` levels below `n`, by way of members of objects and items of arrays, lies a schema of items, of `contains`,
or one that `allOf`, `anyOf`, `oneOf`, `then` or `else` is made of. -/
inductive PartBelow : Nat → SchemaNode → Prop
  | item {n m} (h : ReadsArray n) (hm : ItemSchema n m) : PartBelow 1 n
  | contains {n m} (h : ReadsArray n) (hm : n.contains = some m) : PartBelow 1 n
  | combined {n} (h : ReadAs n .allOf ∨ ReadAs n .alternatives ∨ ReadAs n .conditional) : PartBelow 1 n
  | member {k n m} (h : ReadsObject n) (hm : MemberSchema n m) (hk : PartBelow k m) : PartBelow (k + 1) n
  | itemStep {k n m} (h : ReadsArray n) (hm : ItemSchema n m) (hk : PartBelow k m) : PartBelow (k + 1) n

end Chaff
