import Verif.Spec.Valid
import Verif.Spec.Refs
import Verif.Spec.SchemaJson
import Verif.Model.Parse
/-!
# Combined schemas for which validity is claimed

The code merges the members of `allOf`, and each alternative of `anyOf` with the rest of its schema, into one schema.
Merging is not faithful in general (types are not intersected, closed objects and tuples lose their meaning); the
conditions below describe families of schemas for which it is.
-/

namespace Chaff

/-- A place below a combined schema, as it is seen in the value: `some k` goes to the property `k`, `none` to the items
of an array. -/
abbrev ValuePath := List (Option String)

/-- What the schemas of a place agree on: the type, and whether the values are listed with `enum` and `const`. -/
structure Kind where
  type : String
  listed : Bool := false

instance : Coe String Kind := ⟨fun t => { type := t }⟩

/-- The schema's own `enum` or `const` has the value `v`. -/
def Lists (n : SchemaNode) (v : JVal) : Prop := (∃ l, n.enum = some l ∧ v ∈ l) ∨ n.const = some v

/-- The schema has no keyword, apart from `type`, `enum`, `const` and `allOf`, that restricts the value. -/
structure ValuesOnly (n : SchemaNode) : Prop where
  minimum : n.minimum = none
  maximum : n.maximum = none
  exclusiveMinimum : n.exclusiveMinimum = none
  exclusiveMaximum : n.exclusiveMaximum = none
  minLength : n.minLength = none
  maxLength : n.maxLength = none
  pattern : n.pattern = none
  items : n.items = none
  minItems : n.minItems = none
  maxItems : n.maxItems = none
  uniqueItems : n.uniqueItems = none
  properties : n.properties = none
  required : n.required = none
  minProperties : n.minProperties = none
  maxProperties : n.maxProperties = none

/-- Conditions on a schema that is merged with others.  `t.type` is the type that the members may state. -/
structure Mergeable (c : PEnv) (o : Opts) (t : Kind) (n : SchemaNode) : Prop where
  covered : Covered n
  ref : n.ref = none
  anyOf : n.anyOf = none
  definitions : n.definitions = none
  defs : n.defs = none
  /-- values are listed at places meant for it only, and there the listed values have the type that was agreed on -/
  unlisted : t.listed = false → n.enum = none ∧ n.const = none
  listed : t.listed = true → ValuesOnly n
  listedValues : ∀ v, Lists n v → v.WF ∧ HasType t.type v
  someValue : ∀ l, n.enum = some l → l ≠ []
  oneList : n.enum = none ∨ n.const = none
  additionalProperties : n.additionalProperties = none
  patternProperties : n.patternProperties = none
  prefixItems : n.prefixItems = none
  contains : n.contains = none
  minContains : n.minContains = none
  multipleOf : n.multipleOf = none
  known : t.type ∈ jsonTypes
  /-- the members may leave the type open but not state different types -/
  type : ∀ x, n.type = some x → x = { single := t.type }
  /-- `items: false` does not survive merging -/
  items : ∀ x, n.items = some x → x.disallow = false
  names : ∀ p, n.properties = some p → (keysKV p).Nodup ∧ ∀ k ∈ keysKV p, PlainName k ∧ ¬ Invented k
  requiredNames : ∀ l, n.required = some l → ∀ k ∈ l, ¬ Invented k
  minProperties : ∀ k, n.minProperties = some k → 0 ≤ k
  maxProperties : ∀ k, n.maxProperties = some k → 0 < k ∧ (n.minProperties.getD 0 = 0 → o.defaultObjectMinProperties ≤ k)
  minItems : ∀ k, n.minItems = some k → 0 ≤ k
  maxItems : ∀ k, n.maxItems = some k → 0 < k ∧ (n.minItems.getD 0 = 0 → o.defaultArrayMinItems ≤ k)
  string : StringSupported c n
  arithmetic : c.fp = FP.exact ∨ c.fp = FP.binary64
  magnitude : (numKeywords n).Within (2 ^ 50) (2 ^ 42)
  doubles : c.fp = FP.binary64 → n.type = some { single := "integer" } ∨
    ((∀ x, n.minimum = some x → binary64Rnd x = x) ∧ (∀ x, n.maximum = some x → binary64Rnd x = x) ∧
    (∀ x, n.exclusiveMinimum = some x → -128 ≤ x ∧ x < 128) ∧ (∀ x, n.exclusiveMaximum = some x → -128 < x ∧ x ≤ 128))

/-- Schemas that speak about the same place of the value and agree on the types there: `ty` gives the type of each
place.  The number bounds how deep the schemas are nested; `allOf` may be nested freely. -/
inductive Concurs (c : PEnv) (o : Opts) (ty : ValuePath → Kind) : Nat → ValuePath → SchemaNode → Prop
  | intro {b : Nat} {path : ValuePath} {n : SchemaNode} (own : Mergeable c o (ty path) n)
      (someMember : ∀ l, n.allOf = some l → l ≠ [])
      (allOf : ∀ l x, n.allOf = some l → x ∈ l → Concurs c o ty (b + 1) path x)
      (properties : ∀ p k x, n.properties = some p → (k, x) ∈ p → Concurs c o ty b (path ++ [some k]) x)
      (items : ∀ d x, n.items = some d → d.node = some x → Concurs c o ty b (path ++ [none]) x) :
      Concurs c o ty (b + 1) path n

/-- A schema whose members of `allOf` agree with each other and with the rest of it, with alternatives in `anyOf` that
have the property `A`. -/
structure Combines (c : PEnv) (o : Opts) (ty : ValuePath → Kind) (A : SchemaNode → Prop) (b : Nat) (path : ValuePath)
    (n : SchemaNode) : Prop where
  own : Concurs c o ty b path { n with anyOf := none, defs := none, definitions := none }
  someAlternative : ∀ l, n.anyOf = some l → l ≠ []
  anyOf : ∀ l x, n.anyOf = some l → x ∈ l → A x

/-! ## References as members -/

/-- The circumstances under which references in combinations are followed: the parser was told where the document is
(otherwise the document is registered under a name that is never looked up, see C70), it may not fetch others, and no
schema of the document has an identifier. -/
structure Followable (c : PEnv) (root : SchemaNode) : Prop where
  base : c.relativeTo ≠ ""
  hash : '#' ∉ c.relativeTo.toList
  bar : '|' ∉ c.relativeTo.toList
  http : c.httpOpts.enabled = false
  file : c.fileOpts.enabled = false
  ids : idTexts (encodeNode root) = []

/-- A member of a combination at the place `ts`: a schema that agrees with the others, or a reference (with nothing
beside it) to such a schema of the document that is written without references and does not contain the place itself. -/
inductive Member (c : PEnv) (o : Opts) (root : SchemaNode) (ty : ValuePath → Kind) (b : Nat)
    (ts : List String) : SchemaNode → Prop
  | own {n : SchemaNode} (concurs : Concurs c o ty b [] n) : Member c o root ty b ts n
  | refer {d : Nat} (us : List String) (t : SchemaNode) (followable : Followable c root) (plain : PlainTokens us)
      (inside : Inside root d us t) (points : PointsTo root us t) (outside : ¬ us <+: ts) (text : Faithful t)
      (strings : refsAreStrings (encodeNode t) = true) (free : refTexts (encodeNode t) = []) (concurs : Concurs c o ty b [] t) :
      Member c o root ty b ts { emptyNode with ref := some (pointerText us) }

/-- A combination at the place `ts` of a document. -/
structure Combination (c : PEnv) (o : Opts) (root : SchemaNode) (ty : ValuePath → Kind) (b : Nat)
    (ts : List String) (n : SchemaNode) : Prop where
  own : Concurs c o ty b [] { n with allOf := none, anyOf := none, defs := none, definitions := none }
  someMember : ∀ l, n.allOf = some l → l ≠ []
  allOf : ∀ l x, n.allOf = some l → x ∈ l → Member c o root ty b ts x
  someAlternative : ∀ l, n.anyOf = some l → l ≠ []
  /-- alternatives may be references if there is no `allOf` beside them -/
  anyOf : ∀ l x, n.anyOf = some l → x ∈ l → Concurs c o ty b [] x ∨ (n.allOf = none ∧ Member c o root ty b ts x)

/-! ## Choices and conditions -/

/-- Merging the schema on its own, as the code does before it asks the validation library, leaves it as it is. -/
structure AsWritten (n : SchemaNode) : Prop where
  allOf : n.allOf = none
  thenN : n.thenN = none
  elseN : n.elseN = none
  enum : ∀ v, n.enum ≠ some [v]
  required : n.required ≠ some []
  items : ∀ d, n.items = some d → ∃ x, d = { node := some x }

/-- The validator that the validation library compiles from the text of the schema accepts what is valid and refuses
what is not. -/
def Judged (c : PEnv) (root x : SchemaNode) : Prop :=
  ∀ (resources : List (String × JVal)) (key scope : String) (accepts : JVal → Bool),
    lookupKV resources key = some (replaceRefs scope (encodeNode x)) → c.compile resources key = some accepts →
    ∀ v, (accepts v = true → Valid (patternMeaning c) root x v) ∧ (accepts v = false → Invalid (patternMeaning c) root x v)

/-- The schemas of a document that are handed to the validation library, with the place and the field they are named
after. -/
inductive Asked (root : SchemaNode) : List String → String → SchemaNode → Prop
  | alternative {d : Nat} {ts : List String} {n x : SchemaNode} {l : List SchemaNode} {i : Nat} : Inside root d ts n →
      n.oneOf = some l → l[i]? = some x → Asked root ts s!"oneOf/{i}" x
  | condition {d : Nat} {ts : List String} {n x : SchemaNode} : Inside root d ts n → n.ifN = some x →
      Asked root ts s!"{pointerText ts}//if/0" x

/-- The code derives the name of a schema from its place and replaces separators by underscores.  No two of the schemas
get the same name. -/
def NamesApart (root : SchemaNode) : Prop :=
  ∀ ts f x ts' f' x', Asked root ts f x → Asked root ts' f' x' →
    normalisePath (pointerText ts ++ "/" ++ f) = normalisePath (pointerText ts' ++ "/" ++ f') → x = x'

/-- A choice: schemas that agree with each other and with the rest. -/
structure Choice (c : PEnv) (o : Opts) (root : SchemaNode) (ty : ValuePath → Kind) (b : Nat) (n : SchemaNode) : Prop where
  has : n.oneOf ≠ none
  own : Concurs c o ty b [] { n with oneOf := none, defs := none, definitions := none }
  written : AsWritten n
  someAlternative : n.oneOf ≠ some []
  alternatives : ∀ l x, n.oneOf = some l → x ∈ l → Concurs c o ty b [] x ∧ AsWritten x ∧ Judged c root x
  names : NamesApart root

/-- The schema without `if`, `then` and `else`. -/
def withoutIf (n : SchemaNode) : SchemaNode := { n with ifN := none, thenN := none, elseN := none }

/-- A condition: the schemas under `then` and `else` agree with the rest. -/
structure Condition (c : PEnv) (o : Opts) (root : SchemaNode) (ty : ValuePath → Kind) (b : Nat) (n : SchemaNode) : Prop where
  has : n.ifN ≠ none
  own : Concurs c o ty b [] (withoutIf n)
  allOf : n.allOf = none
  condition : ∀ x, n.ifN = some x → Judged c root x
  thenN : ∀ y, n.thenN = some y → Concurs c o ty b [] y
  elseN : ∀ y, n.elseN = some y → Concurs c o ty b [] y
  names : NamesApart root

/-! ## Exclusions -/

/-- Negated schemas that the code turns into checks, for schemas of type `t` that require `req`.  Each has one keyword:
values, a pattern that the text is tested for, or required names. -/
inductive Negated (c : PEnv) (t : String) (req : List String) : SchemaNode → Prop
  | const (w : JVal) (wf : w.WF) : Negated c t req { emptyNode with const := some w }
  | enum (l : List JVal) (someValue : l ≠ []) (wf : ∀ w ∈ l, w.WF) : Negated c t req { emptyNode with enum := some l }
  | pattern (p : String) (f : String → Bool) (text : t = "string") (compiles : c.rxCompile p = some f)
      (meaning : ∀ u, patternMeaning c p u → f u = true) :
      Negated c t req { emptyNode with pattern := some p }
  | required (l : List String) (object : t = "object") (possible : ∃ k ∈ l, k ∉ req) :
      Negated c t req { emptyNode with required := some l }

/-- The declared properties without the forbidden ones. -/
def restProperties (p : Option (List (String × SchemaNode))) (l : List String) : Option (List (String × SchemaNode)) :=
  match (p.getD []).filter (fun q => decide (q.1 ∉ l)) with
  | [] => none
  | q :: t => some (q :: t)

/-- What is left of a schema beside its negation `x`: forbidden properties are not declared any more. -/
def withoutNot (n x : SchemaNode) : SchemaNode :=
  { n with
    not := none, defs := none, definitions := none
    properties := restProperties n.properties ((x.required.getD []).filter fun k => k ∉ n.required.getD []) }

/-- The value is none of the listed ones, does not match the pattern and has none of the names, except for those that are
demanded anyway. -/
structure Spared (c : PEnv) (req : List String) (x : SchemaNode) (v : JVal) : Prop where
  listed : ∀ w, Lists x w → ¬ SameJson v w
  pattern : ∀ p f u, x.pattern = some p → c.rxCompile p = some f → v = .str u → f u = false
  required : ∀ k m, k ∈ x.required.getD [] → k ∉ req → v = .obj m → k ∉ keysKV m

/-- A schema with `not` beside other keywords. -/
structure Exclusion (c : PEnv) (o : Opts) (ty : ValuePath → Kind) (b : Nat) (n : SchemaNode) : Prop where
  has : n.not ≠ none
  own : Concurs c o ty b [] { n with not := none, defs := none, definitions := none }
  written : AsWritten n
  type : n.type = some { single := (ty []).type }
  unlisted : n.enum = none ∧ n.const = none
  exclusive : n.exclusiveMinimum = none ∧ n.exclusiveMaximum = none
  negated : ∀ x, n.not = some x → Negated c (ty []).type (n.required.getD []) x

/-! ## Alternatives of any type -/

/-- The schema has no keyword but `anyOf`, apart from definitions. -/
def OnlyAnyOf (n : SchemaNode) : Prop := n = { emptyNode with anyOf := n.anyOf, defs := n.defs, definitions := n.definitions }

/-- The schema has no keyword but `oneOf`, apart from definitions. -/
def OnlyOneOf (n : SchemaNode) : Prop := n = { emptyNode with oneOf := n.oneOf, defs := n.defs, definitions := n.definitions }

/-- Merging the schema into an empty one leaves it as it is, up to the way in which `items` is written. -/
structure KeptByMerge (n : SchemaNode) : Prop where
  covered : Covered n
  ref : n.ref = none
  allOf : n.allOf = none
  anyOf : n.anyOf = none
  thenN : n.thenN = none
  elseN : n.elseN = none
  enum : ∀ v, n.enum ≠ some [v]
  someValue : n.enum ≠ some []
  oneList : n.enum = none ∨ n.const = none
  required : n.required ≠ some []
  /-- `items: false` does not survive merging -/
  items : ∀ d, n.items = some d → d.disallow = false ∧ d.node ≠ none
  multipleOf : n.multipleOf ≠ some 0
  type : ∀ t, n.type = some t → (t.multiple = none ∧ t.single ≠ "") ∨ (t.single = "" ∧ ∃ l, t.multiple = some l ∧ l ≠ [])

/-- What merging makes of such a schema: definitions are dropped, and so is the (empty) list of schemas that reading
`items` leaves behind. -/
def asMerged (n : SchemaNode) : SchemaNode :=
  { n with defs := none, definitions := none, items := n.items.map fun d => { node := d.node } }

/-- A supported schema, or a choice with `anyOf` and nothing beside it between such schemas, which may be of different
types and have supported schemas or such choices as parts.  The number is the level at which it is parsed. -/
inductive FreeOk (c : PEnv) (o : Opts) (root : SchemaNode) : Nat → SchemaNode → Prop
  | plain {d : Nat} {n : SchemaNode} (supported : Supported c o root n) (shallow : (d : Int) < c.maxParseDepth) :
      FreeOk c o root d n
  | alternatives {d : Nat} {n : SchemaNode} {l : List SchemaNode} (only : OnlyAnyOf n) (has : n.anyOf = some l)
      (someAlternative : l ≠ []) (shallow : (d : Int) < c.maxParseDepth) (kept : ∀ x ∈ l, KeptByMerge x)
      (parts : ∀ x ∈ l, ∀ e us m, Inside x e us m → FreeOk c o root (d + 1 + e) m) : FreeOk c o root d n

/-- What an alternative denotes: itself, or the schema of the document that it refers to, with nothing beside the
reference. -/
inductive Denotes (root : SchemaNode) : SchemaNode → SchemaNode → Prop
  | own {x : SchemaNode} : Denotes root x x
  | refer {us : List String} {t : SchemaNode} (plain : PlainTokens us) (points : PointsTo root us t) :
      Denotes root { emptyNode with ref := some (pointerText us) } t

/-- An alternative at the place `ts`: the schema itself, or a reference (with nothing beside it) to a schema of the
document that is written without references and does not contain the place itself. -/
inductive StandsFor (c : PEnv) (root : SchemaNode) (ts : List String) : SchemaNode → SchemaNode → Prop
  | own {x : SchemaNode} : StandsFor c root ts x x
  | refer {d : Nat} {us : List String} {t : SchemaNode} (followable : Followable c root) (plain : PlainTokens us)
      (inside : Inside root d us t) (points : PointsTo root us t) (outside : ¬ us <+: ts) (text : Faithful t)
      (strings : refsAreStrings (encodeNode t) = true) (free : refTexts (encodeNode t) = []) :
      StandsFor c root ts { emptyNode with ref := some (pointerText us) } t

/-- The levels of parsing that a combined schema takes. -/
def combinedDepth (b : Nat) (n : SchemaNode) : Nat :=
  2 * b + (if n.allOf.isSome then 1 else 0) + (if n.anyOf.isSome then 1 else 0)

/-- The schemas for which validity of what is generated is claimed, `d` levels below the document and at the place `ts`:
a supported schema, or a combination of agreeing schemas, a choice between them, a condition or an exclusion, or a choice
with `anyOf` between schemas of any type or references to such, or with `oneOf` between schemas of any type, that is not
nested too deeply. -/
inductive PlaceOk (c : PEnv) (o : Opts) (root : SchemaNode) (d : Nat) (ts : List String)
    (n : SchemaNode) : Prop
  | plain (supported : Supported c o root n) (shallow : (d : Int) < c.maxParseDepth)
  | combined (ty : ValuePath → Kind) (b : Nat) (combination : Combination c o root ty b ts n)
      (shallow : (d : Int) + combinedDepth b n ≤ c.maxParseDepth)
      (definitions : ∀ p, n.definitions = some p → (keysKV p).Nodup ∧ ∀ k ∈ keysKV p, PlainName k)
      (defs : ∀ p, n.defs = some p → (keysKV p).Nodup ∧ ∀ k ∈ keysKV p, PlainName k)
  | choice (ty : ValuePath → Kind) (b : Nat) (choice : Choice c o root ty b n)
      (shallow : (d : Int) + 2 * b + 1 ≤ c.maxParseDepth)
      (definitions : ∀ p, n.definitions = some p → (keysKV p).Nodup ∧ ∀ k ∈ keysKV p, PlainName k)
      (defs : ∀ p, n.defs = some p → (keysKV p).Nodup ∧ ∀ k ∈ keysKV p, PlainName k)
  | condition (ty : ValuePath → Kind) (b : Nat) (condition : Condition c o root ty b n)
      (shallow : (d : Int) + 2 * b + 1 ≤ c.maxParseDepth)
  | exclusion (ty : ValuePath → Kind) (b : Nat) (exclusion : Exclusion c o ty b n)
      (shallow : (d : Int) + 2 * b + 1 ≤ c.maxParseDepth)
      (definitions : ∀ p, n.definitions = some p → (keysKV p).Nodup ∧ ∀ k ∈ keysKV p, PlainName k)
      (defs : ∀ p, n.defs = some p → (keysKV p).Nodup ∧ ∀ k ∈ keysKV p, PlainName k)
  | union (l : List SchemaNode) (only : OnlyAnyOf n) (has : n.anyOf = some l) (someAlternative : l ≠ [])
      (shallow : (d : Int) < c.maxParseDepth)
      (alternatives : ∀ x ∈ l, ∃ t, StandsFor c root ts x t ∧ KeptByMerge t ∧
        ∀ e us m, Inside t e us m → FreeOk c o root (d + 1 + e) m)
      (definitions : ∀ p, n.definitions = some p → (keysKV p).Nodup ∧ ∀ k ∈ keysKV p, PlainName k)
      (defs : ∀ p, n.defs = some p → (keysKV p).Nodup ∧ ∀ k ∈ keysKV p, PlainName k)
  | variants (l : List SchemaNode) (only : OnlyOneOf n) (has : n.oneOf = some l) (someAlternative : l ≠ [])
      (shallow : (d : Int) < c.maxParseDepth) (names : NamesApart root)
      (alternatives : ∀ x ∈ l, KeptByMerge x ∧ x.defs = none ∧ x.definitions = none ∧ Judged c root x ∧
        ∀ e us m, Inside x e us m → FreeOk c o root (d + 1 + e) m)
      (definitions : ∀ p, n.definitions = some p → (keysKV p).Nodup ∧ ∀ k ∈ keysKV p, PlainName k)
      (defs : ∀ p, n.defs = some p → (keysKV p).Nodup ∧ ∀ k ∈ keysKV p, PlainName k)

/-! ## Schemas taken together -/

/-- Of the values that the schemas `ns` give a keyword, `x` is one that no other exceeds; there is none if none of the
schemas has the keyword. -/
def Strictest {α : Type} (le : α → α → Prop) (keyword : SchemaNode → Option α) (ns : List SchemaNode) (x : Option α) : Prop :=
  (∀ y, x = some y → ∃ n ∈ ns, keyword n = some y) ∧ ∀ n ∈ ns, ∀ y, keyword n = some y → ∃ z, x = some z ∧ le y z

/-- The value that the schemas `ns` agree to give a keyword. -/
def Shared {α : Type} (keyword : SchemaNode → Option α) (ns : List SchemaNode) (x : Option α) : Prop :=
  ∀ y, x = some y ↔ ∃ n ∈ ns, keyword n = some y

/-- The schemas that `ns` have for the member `k` of an object. -/
def memberSchemas (k : String) (ns : List SchemaNode) : List SchemaNode := ns.filterMap fun n => n.properties.bind (lookupKV · k)

/-- The schemas that `ns` have for the items of an array. -/
def itemSchemas (ns : List SchemaNode) : List SchemaNode := ns.filterMap fun n => n.items.bind (·.node)

/-- `m` is a schema that asks for what the schemas `ns` ask for together, and has no combination itself.  Nothing is said
about the members and items for which more than one of the schemas has a schema. -/
structure Gathers (ns : List SchemaNode) (m : SchemaNode) : Prop where
  ref : m.ref = none
  allOf : m.allOf = none
  anyOf : m.anyOf = none
  oneOf : m.oneOf = none
  ifN : m.ifN = none
  not : m.not = none
  type : Shared (·.type) ns m.type
  /-- values that all schemas with a list of values list -/
  listed : ∀ v, v.WF → (∃ n ∈ ns, Lists n v) → (∀ n ∈ ns, n.enum ≠ none ∨ n.const ≠ none → Lists n v) → Lists m v
  unlisted : (∀ n ∈ ns, n.enum = none ∧ n.const = none) → m.enum = none ∧ m.const = none
  oneList : m.enum = none ∨ m.const = none
  minimum : Strictest (· ≤ ·) (·.minimum) ns m.minimum
  maximum : Strictest (· ≥ ·) (·.maximum) ns m.maximum
  exclusiveMinimum : Strictest (· ≤ ·) (·.exclusiveMinimum) ns m.exclusiveMinimum
  exclusiveMaximum : Strictest (· ≥ ·) (·.exclusiveMaximum) ns m.exclusiveMaximum
  multipleOf : m.multipleOf = none
  minLength : Strictest (· ≤ ·) (·.minLength) ns m.minLength
  maxLength : Strictest (· ≥ ·) (·.maxLength) ns m.maxLength
  pattern : Shared (·.pattern) ns m.pattern
  format : Shared (·.format) ns m.format
  minItems : Strictest (· ≤ ·) (·.minItems) ns m.minItems
  maxItems : Strictest (· ≥ ·) (·.maxItems) ns m.maxItems
  uniqueItems : Shared (·.uniqueItems) ns m.uniqueItems
  prefixItems : m.prefixItems = none
  contains : m.contains = none
  minContains : m.minContains = none
  items : ∀ d, m.items = some d → d.disallow = false
  noItems : itemSchemas ns = [] → ∀ d, m.items = some d → d.node = none
  oneItems : ∀ x, itemSchemas ns = [x] → ∃ d, m.items = some d ∧ d.node = some x
  minProperties : Strictest (· ≤ ·) (·.minProperties) ns m.minProperties
  maxProperties : Strictest (· ≥ ·) (·.maxProperties) ns m.maxProperties
  required : m.required.getD [] = ns.flatMap fun n => n.required.getD []
  names : ∀ k, k ∈ keysKV (m.properties.getD []) ↔ memberSchemas k ns ≠ []
  oneMember : ∀ k x, memberSchemas k ns = [x] → ∃ p, m.properties = some p ∧ lookupKV p k = some x

end Chaff
