import Verif.Spec.Merge
/-!
# Specification: what a schema forbids by `not`

A schema can carry several negations: its own `not` and those of the members of its `allOf`.  Each of them has to be
respected.
-/

namespace Chaff

/-- A part of the schema has `x` as its `not`. -/
def ForbidsBy (n x : SchemaNode) : Prop := ∃ y, Part n y ∧ y.not = some x

/-- Some part of the schema lists `name` in its `required`. -/
def Demands (n : SchemaNode) (name : String) : Prop := ∃ x, Part n x ∧ Requires x name

/-- The value keeps clear of the negated schema `x`: a string does not match its pattern, the value does not have its
format (which counts only without a pattern), it is not its constant, and an object has none of its required names
except those that `demanded` says the schema itself asks for.  `matches'` and `hasFormat` say what patterns and formats
mean. -/
structure KeepsClear (matches' : String → String → Prop) (hasFormat : String → JVal → Prop) (demanded : String → Prop)
    (x : SchemaNode) (v : JVal) : Prop where
  pattern : ∀ p t, x.pattern = some p → v = .str t → ¬ matches' p t
  format : ∀ f, x.pattern = none → x.format = some f → ¬ hasFormat f v
  const : ∀ w, x.const = some w → x.enum = none → w.WF → ¬ SameJson v w
  required : ∀ names name l w, x.required = some names → name ∈ names → ¬ demanded name → v = .obj l → (name, w) ∉ l

/-- The value is none of those the negated schema's `enum` lists. -/
def KeepsClearOfEnum (x : SchemaNode) (v : JVal) : Prop := ∀ l w, x.enum = some l → w ∈ l → w.WF → ¬ SameJson v w

/-- The exclusions that earlier negations have left on a schema allow the value. -/
def ExclusionsAllow (matches' : String → String → Prop) (hasFormat : String → JVal → Prop) (v : JVal) (n : SchemaNode) : Prop :=
  ∀ e, n.constraints = some e →
    (∀ p ∈ e.notRegex, ∀ t, v = .str t → ¬ matches' p t) ∧ (∀ f ∈ e.notFormats, ¬ hasFormat f v) ∧
    (∀ w ∈ e.notValues, JVal.jeq v w = false) ∧ (∀ name ∈ e.mustNotHave, ∀ l w, v = .obj l → (name, w) ∉ l)

end Chaff
