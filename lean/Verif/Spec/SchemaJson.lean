import Verif.Lemmas.Schema
/-!
# Specification: schemas that have a faithful textual form

`Faithful n` describes, on the schema itself, which schemas json.go can write and read back: no empty type
list, `items` is a single schema or `false` (not a list), and the boolean-or-schema keywords hold `false` or a
schema.  The internal fields filled in by merging are not part of the text.
-/

namespace Chaff

/-- 64-bit integer. -/
def InInt64 (o : Option Int) : Prop := ∀ i, o = some i → -(2 ^ 63) ≤ i ∧ i < 2 ^ 63

/-- A `type` keyword that names at least one type, in exactly one way. -/
def GoodType (t : MultipleType) : Prop :=
  (t.single ≠ "" ∧ t.multiple = none) ∨ (t.single = "" ∧ ∃ x xs, t.multiple = some (x :: xs))

/-- The plain keywords. -/
structure FaithfulBase (b : NodeBase) : Prop where
  type : ∀ t, b.type = some t → GoodType t
  length : InInt64 b.length
  minProperties : InInt64 b.minProperties
  maxProperties : InInt64 b.maxProperties
  minLength : InInt64 b.minLength
  maxLength : InInt64 b.maxLength
  minItems : InInt64 b.minItems
  maxItems : InInt64 b.maxItems
  minContains : InInt64 b.minContains
  maxContains : InInt64 b.maxContains

/-- `false` or a schema. -/
def GoodOrFalse (o : Option (NodeOrFalse SchemaNode)) : Prop :=
  ∀ x, o = some x → (x.schema = none ∧ x.isFalse = true) ∨ ((∃ s, x.schema = some s) ∧ x.isFalse = false)

/-- `items` is `false` or one schema. -/
def GoodItems (o : Option (ItemsData SchemaNode)) : Prop :=
  ∀ x, o = some x → (x.node = none ∧ x.nodes = none ∧ x.disallow = true) ∨
    ((∃ s, x.node = some s) ∧ x.nodes = some [] ∧ x.disallow = false)

/-- Schemas with a faithful textual form, at every level. -/
inductive Faithful : SchemaNode → Prop
  | mk (n : SchemaNode) (base : FaithfulBase n.toNodeBase)
      (addP : GoodOrFalse n.additionalProperties) (addI : GoodOrFalse n.additionalItems)
      (unev : GoodOrFalse n.unevaluatedItems) (items : GoodItems n.items)
      (noIf : n.mergedIf = []) (noNot : n.mergedNot = []) (noCon : n.constraints = none)
      (sub : ∀ c ∈ n.children, Faithful c) : Faithful n

end Chaff
