import Verif.Spec.Valid
import Verif.Spec.Not
/-!
# What it means for a value to satisfy the value keywords of a schema

`Fits pat n v`: the value `v` satisfies all the keywords of `n` that talk about the value itself and about its parts, at
every depth: types, listed values, bounds, patterns, items, properties and the names excluded by a negation.  The
keywords that combine whole schemas (`$ref`, `allOf`, `anyOf`, `oneOf`, `not`, `if`) are left out: a negation is applied
to the rest of its schema after these have been dealt with, or hands them on unchanged.
-/

namespace Chaff

/-- The value satisfies the value keywords of the schema.  `found` are items accepted by `contains`. -/
inductive Fits (pat : String → String → Prop) : SchemaNode → JVal → Prop
  | intro (n : SchemaNode) (v : JVal) (found : List JVal)
      (localOk : LocalOk pat n v)
      (absent : ∀ m cc k x, v = .obj m → n.constraints = some cc → k ∈ cc.mustNotHave → (k, x) ∉ m)
      (properties : ∀ m p k x sub, v = .obj m → n.properties = some p → (k, x) ∈ m → lookupKV p k = some sub →
        Fits pat sub x)
      (patternProperties : ∀ m p k x rx sub, v = .obj m → n.patternProperties = some p → (k, x) ∈ m → (rx, sub) ∈ p →
        pat rx k → Fits pat sub x)
      (additional : ∀ m d k x sub, v = .obj m → n.additionalProperties = some d → d.schema = some sub → (k, x) ∈ m →
        Extra pat n k → Fits pat sub x)
      (prefixItems : ∀ l p (i : Nat) x sub, v = .arr l → n.prefixItems = some p → l[i]? = some x → p[i]? = some sub →
        Fits pat sub x)
      (items : ∀ l d (i : Nat) x sub, v = .arr l → n.items = some d → d.node = some sub → prefixLength n ≤ i →
        l[i]? = some x → Fits pat sub x)
      (containsSome : ∀ l c, v = .arr l → n.contains = some c → found.Sublist l ∧
        n.minContains.getD 1 ≤ (found.length : Int))
      (contains : ∀ l c x, v = .arr l → n.contains = some c → x ∈ found → Fits pat c x) :
      Fits pat n v

/-! ## The pairs of a schema and a negated schema for which the claim is made -/

/-- A bound that is present has magnitude at most 2^51, and adding or subtracting 1 or the smallest step of the code, once
or twice, is exact. -/
def SteppedExactly (F : FP) (b : Option Rat) : Prop :=
  ∀ x, b = some x → |x| ≤ 2 ^ 51 ∧
    ∀ k : Int, |k| ≤ 2 → F.rnd (x + k) = x + k ∧ F.rnd (x + k * infinitesimal F) = x + k * infinitesimal F

/-- The number keywords of the schema and of the negated schema.  When the negated schema has a factor (`multipleOf`, or
the type `integer`), the code writes a list of values over the keywords of the schema; the claim is then made for exact
arithmetic and schemas without `enum`. -/
structure NumbersClear (F : FP) (node notNode : SchemaNode) : Prop where
  bounds : ∀ b ∈ [node.minimum, node.maximum, node.exclusiveMinimum, node.exclusiveMaximum,
    notNode.minimum, notNode.maximum, notNode.exclusiveMinimum, notNode.exclusiveMaximum], SteppedExactly F b
  multipleOf : ∀ m, node.multipleOf = some m → 1 / 10 ^ 14 < m
  factor : (notNode.multipleOf.getD 0 = 0 ∧
      ∀ t, notNode.type = some t → t.single ≠ "integer" ∧ "integer" ∉ t.multiple.getD []) ∨
    (F = FP.exact ∧ node.enum = none)

/-- The type keyword is a name or a list of names. -/
def TypeWritten (n : SchemaNode) : Prop :=
  ∀ t, n.type = some t → match t.multiple with
    | some l => t.single = "" ∧ l ≠ []
    | none => t.single ≠ ""

/-- Conditions on a schema and a negated schema, at every depth at which they are applied to each other. -/
inductive Separable (F : FP) : SchemaNode → SchemaNode → Prop
  | intro (node notNode : SchemaNode)
      (type : TypeWritten node)
      (enum : node.enum ≠ some [])
      (counts : ∀ b ∈ [node.minLength, node.maxLength, notNode.minLength, notNode.maxLength, node.minItems, node.maxItems,
        notNode.minItems, notNode.maxItems, node.minProperties, node.maxProperties, notNode.minProperties,
        notNode.maxProperties, node.minContains, node.maxContains, notNode.minContains, notNode.maxContains], Ordinary b)
      (found : ∀ k, notNode.maxContains = some k → 0 ≤ k)
      (numbers : NumbersClear F node notNode)
      /- a name declared only in the negated schema would no longer be an additional one -/
      (names : node.additionalProperties ≠ none →
        ∀ k ∈ keysKV (getZeroIfNil notNode.properties []), k ∈ keysKV (getZeroIfNil node.properties []))
      /- a position of the tuple declared only in the negated schema would no longer be an additional one -/
      (positions : node.items ≠ none → prefixLength notNode ≤ prefixLength node)
      (properties : ∀ k sub other, lookupKV (getZeroIfNil node.properties []) k = some sub →
        lookupKV (getZeroIfNil notNode.properties []) k = some other → Separable F sub other)
      (additional : ∀ d sub, node.additionalProperties = some d → d.schema = some sub →
        Separable F sub (getZeroIfNil (getZeroIfNil notNode.additionalProperties {}).schema {}))
      (prefixItems : ∀ (i : Nat) sub, (getZeroIfNil node.prefixItems [])[i]? = some sub →
        Separable F sub (((getZeroIfNil notNode.prefixItems [])[i]?).getD {}))
      (items : ∀ d e sub, node.items = some d → d.node = some sub → notNode.items = some e →
        Separable F sub (getZeroIfNil e.node {}))
      (contains : ∀ sub, node.contains = some sub → Separable F sub (getZeroIfNil notNode.contains {})) :
      Separable F node notNode

end Chaff
