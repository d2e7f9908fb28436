import Verif.Spec.Types
import Verif.Model.Parse
/-!
# What the keywords of an object or array schema say about the generated value

The specification of the schema-level theorems of C09 - C18 and C72.  It speaks about the schema as written and the
values generated for its sub-schemas, not about the generators in between.
-/

namespace Chaff

/-- The schema stands for the type `t` alone: no reference, combination, negation, conditional, `enum` or `const`, and it
names the type or names none and its keywords imply it (parse.go 374-396). -/
structure OfType (n : SchemaNode) (t : String) : Prop where
  plain : Plain n
  enum : n.enum = none
  const : n.const = none
  type : n.type = some { single := t } ∨ (n.type = none ∧ inferType n = t)

/-- `g` is what the parser makes, without an error, of the sub-schema `x` found at `scope`. -/
def Made (c : PEnv) (scope : String) (x : SchemaNode) (g : Gen) : Prop :=
  ∃ k s s', parseInScope c (parseRec c k) scope x [] s = .ok (g, none) s'

/-- The parser refuses the sub-schema `x` found at `scope`. -/
def Refused (c : PEnv) (scope : String) (x : SchemaNode) : Prop :=
  ∃ k s s' g e, parseInScope c (parseRec c k) scope x [] s = .ok (g, some e) s'

/-- `v` is a value generated for the sub-schema `x` found at `scope`. -/
def ValueFor (c : PEnv) (ctx : Ctx) (scope : String) (x : SchemaNode) (v : JVal) : Prop :=
  ∃ g, Made c scope x g ∧ ∃ j st st', generate ctx j g st = .ok v st'

/-- The same for the sub-schemas of an object: null stands in for a refused one. -/
def FieldFor (c : PEnv) (ctx : Ctx) (scope : String) (x : SchemaNode) (v : JVal) : Prop :=
  ValueFor c ctx scope x v ∨ (v = .null ∧ Refused c scope x)

/-- The name `k` can be generated from the pattern `p`. -/
def NameFrom (c : PEnv) (ctx : Ctx) (p k : String) : Prop :=
  ∃ rg, newRegexGenerator c.rxParse c.rxPattern p.toList = .ok rg ∧
    ∃ cs st st', rxGenerate ctx.w rg st = .ok cs st' ∧ k = String.ofList cs

/-- `additionalProperties` is `false`. -/
def ClosedObject (n : SchemaNode) : Prop := ∃ d, n.additionalProperties = some d ∧ d.isFalse = true

/-- `additionalProperties` is the schema `x`. -/
def AdditionalSchema (n x : SchemaNode) : Prop :=
  ∃ d, n.additionalProperties = some d ∧ d.isFalse = false ∧ d.schema = some x

/-- The declared properties, the required names and the patterns. -/
def SchemaNode.declared (n : SchemaNode) : List (String × SchemaNode) := n.properties.getD []
/-- The required names of a schema. -/
def SchemaNode.requiredNames (n : SchemaNode) : List String := n.required.getD []
/-- The patterns of a schema, each with its schema. -/
def SchemaNode.patterns (n : SchemaNode) : List (String × SchemaNode) := n.patternProperties.getD []

/-- Why a generated object may hold the value `v` under the name `k`. -/
inductive Stored (c : PEnv) (ctx : Ctx) (n : SchemaNode) : String → JVal → Prop
  /-- the name is declared and the value is for its schema -/
  | declared {k v x} : lookupKV n.declared k = some x → FieldFor c ctx ("/properties/" ++ k) x v → Stored c ctx n k v
  /-- the name is required but not declared: a marker string -/
  | undeclared {k v} (i : Int) (pre : String) : k ∈ n.requiredNames → k ∉ n.declared.map Prod.fst →
      v = .str s!"{pre}_{k}_{i}" → Stored c ctx n k v
  /-- the name is generated from a pattern and the value is for the schema of that pattern -/
  | pattern {k v p x} : (p, x) ∈ n.patterns → NameFrom c ctx p k → FieldFor c ctx ("/patternProperties/" ++ p) x v →
      Stored c ctx n k v
  /-- a pattern that cannot be used: null under the empty name -/
  | badPattern {p x e} : (p, x) ∈ n.patterns → newRegexGenerator c.rxParse c.rxPattern p.toList = .err e →
      Stored c ctx n "" .null
  /-- a further property: no patterns, `additionalProperties` is a schema and the value is for it -/
  | additional {k v x} (i : Nat) : n.patterns = [] → AdditionalSchema n x → k = s!"additional_{i}" →
      FieldFor c ctx "/additionalProperties" x v → Stored c ctx n k v
  /-- a further property with the value null: no patterns, `additionalProperties` is absent or true -/
  | fallback {k v} (i : Nat) : n.patterns = [] → ¬ ClosedObject n → (∀ x, ¬ AdditionalSchema n x) →
      ctx.o.suppressFallbackValues = false → k = s!"fallback_{i}" → v = .null → Stored c ctx n k v
  /-- a filler to reach the minimum: there are patterns, or further properties are allowed -/
  | filler {k v} (i : Nat) : (n.patterns ≠ [] ∨ ¬ ClosedObject n) → k = s!"min_filler_{i}" →
      ((∃ x, AdditionalSchema n x ∧ FieldFor c ctx "/additionalProperties" x v) ∨
        (v = .null ∧ ∀ x, ¬ AdditionalSchema n x)) → Stored c ctx n k v

/-! ## Arrays -/

/-- The `items` keyword is the schema `x`. -/
def ItemsSchema (n x : SchemaNode) : Prop := ∃ d, n.items = some d ∧ d.disallow = false ∧ d.node = some x
/-- The `items` keyword is `false`. -/
def ItemsFalse (n : SchemaNode) : Prop := ∃ d, n.items = some d ∧ d.disallow = true
/-- The `additionalItems` keyword is `false`. -/
def AdditionalItemsFalse (n : SchemaNode) : Prop := ∃ d, n.additionalItems = some d ∧ d.isFalse = true
/-- The `additionalItems` keyword is the schema `x`. -/
def AdditionalItemsSchema (n x : SchemaNode) : Prop := ∃ d, n.additionalItems = some d ∧ d.schema = some x
/-- The `unevaluatedItems` keyword is the schema `x`. -/
def UnevaluatedSchema (n x : SchemaNode) : Prop :=
  ∃ d, n.unevaluatedItems = some d ∧ d.isFalse = false ∧ d.schema = some x

/-- The schemas of the first items: `prefixItems`, or `items` written as an array. -/
def SchemaNode.leading (n : SchemaNode) : List SchemaNode :=
  match n.prefixItems with
  | some (x :: l) => x :: l
  | _ => (n.items.bind (·.nodes)).getD []

/-- `m` is the schema of the items that `contains: x` asks for: `x`, merged with the `items` schema when there is one. -/
def ContainsSchema (c : PEnv) (n x m : SchemaNode) : Prop :=
  (n.items.bind (·.node) = none ∧ m = x) ∨
  ∃ it k s s' r, n.items.bind (·.node) = some it ∧ mergeNodes c k [it, x] s = .ok r s' ∧ m = { r with contains := none }

/-- Where an item after the leading ones and those of `contains` comes from: `items`, else `additionalItems`, else
`unevaluatedItems`, else a plain string when unique items are asked for and null otherwise. -/
inductive FurtherItem (c : PEnv) (ctx : Ctx) (n : SchemaNode) (v : JVal) : Prop
  | items {x} : ItemsSchema n x → ValueFor c ctx "/items" x v → FurtherItem c ctx n v
  | additional {x} : (∀ x, ¬ ItemsSchema n x) → AdditionalItemsSchema n x → ValueFor c ctx "/additionalItems" x v →
      FurtherItem c ctx n v
  | unevaluated {x} : (∀ x, ¬ ItemsSchema n x) → (∀ x, ¬ AdditionalItemsSchema n x) → UnevaluatedSchema n x →
      ValueFor c ctx "/unevaluatedItems" x v → FurtherItem c ctx n v
  | anyString {t} : (∀ x, ¬ ItemsSchema n x) → (∀ x, ¬ AdditionalItemsSchema n x) → (∀ x, ¬ UnevaluatedSchema n x) →
      n.uniqueItems = some true → v = .str t → FurtherItem c ctx n v
  | null : (∀ x, ¬ ItemsSchema n x) → (∀ x, ¬ AdditionalItemsSchema n x) → (∀ x, ¬ UnevaluatedSchema n x) →
      n.uniqueItems ≠ some true → v = .null → FurtherItem c ctx n v

/-- The warning put in place of an item when no unique one was found (array.go 321). -/
def notUnique (ctx : Ctx) : JVal := .str (uniqueWarning ctx.o.maximumUniqueGeneratorAttempts)

end Chaff
