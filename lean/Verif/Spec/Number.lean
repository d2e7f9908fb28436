import Verif.Model.Number
/-!
# Specification: what the numeric keywords mean (JSON Schema validation, section 6.2)
-/

namespace Chaff

/-- `q` satisfies the numeric keywords of the schema. -/
structure NumSpec.Accepts (n : NumSpec) (q : Rat) : Prop where
  minimum : ∀ x, n.minimum = some x → x ≤ q
  maximum : ∀ x, n.maximum = some x → q ≤ x
  exclusiveMinimum : ∀ x, n.exclusiveMinimum = some x → x < q
  exclusiveMaximum : ∀ x, n.exclusiveMaximum = some x → q < x
  multipleOf : ∀ m, n.multipleOf = some m → ∃ k : Int, q = k * m

/-- All numbers in the schema have magnitude at most `b`, and `multipleOf` is positive and at most `m`. -/
structure NumSpec.Within (n : NumSpec) (b m : Rat) : Prop where
  minimum : ∀ x, n.minimum = some x → |x| ≤ b
  maximum : ∀ x, n.maximum = some x → |x| ≤ b
  exclusiveMinimum : ∀ x, n.exclusiveMinimum = some x → |x| ≤ b
  exclusiveMaximum : ∀ x, n.exclusiveMaximum = some x → |x| ≤ b
  multipleOf : ∀ x, n.multipleOf = some x → 0 < x ∧ x ≤ m

end Chaff
