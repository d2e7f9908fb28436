import Verif.Spec.Types
import Verif.Spec.Pointer
import Verif.Spec.Json
import Verif.Spec.Number
import Verif.Spec.Regex
import Verif.Model.Doc
import Verif.Model.Binary64
/-!
# What it means for a JSON value to be valid against a schema

`Valid pat root n v`: the value `v` is valid against the schema `n`, which is part of the document `root`, where
`pat p t` says that the text `t` matches the pattern `p`.  The definition follows the validation vocabulary of JSON
Schema (draft 2020-12) keyword by keyword; `format` is an annotation.  It is the least relation closed under its one
rule, so a schema that refers to itself without consuming any part of the value has no valid values.  Schemas with
keywords outside the covered ones have no valid values, so that nothing can be concluded by forgetting a keyword.

`oneOf` and `if` ask for values that are *not* valid against some schema.  `Invalid pat root n v` says that there is a
reason for that: a keyword of `n` that `v` breaks.  Both are defined together; no value is valid and invalid
(`Valid.not_invalid` in `Verif.Lemmas.Invalid`).
-/

namespace Chaff

/-! ## Places in a document -/

/-- `Inside root d tokens n`: starting at `root` and descending `d` times, reading the reference tokens `tokens`, one
arrives at the schema `n`.  The schemas under `not`, `if`, `then` and `else` are not counted as places of their own. -/
inductive Inside (root : SchemaNode) : Nat → List String → SchemaNode → Prop
  | root : Inside root 0 [] root
  | named {d : Nat} {ts : List String} {n m : SchemaNode} {kw name : String} : Inside root d ts n →
      HasNamed n name m kw → Inside root (d + 1) (ts ++ [kw, name]) m
  | sub {d : Nat} {ts : List String} {n m : SchemaNode} {kw : String} : Inside root d ts n → HasSub n m kw →
      kw ∉ ["not", "if", "then", "else"] → Inside root (d + 1) (ts ++ [kw]) m
  | items {d : Nat} {ts : List String} {n m : SchemaNode} {x : ItemsData SchemaNode} : Inside root d ts n →
      n.items = some x → x.disallow = false → x.node = some m → Inside root (d + 1) (ts ++ ["items"]) m
  | prefixItems {d : Nat} {ts : List String} {n m : SchemaNode} {l : List SchemaNode} {i : Nat} : Inside root d ts n →
      n.prefixItems = some l → l[i]? = some m → Inside root (d + 1) (ts ++ ["prefixItems", toString i]) m

/-- The reference text `r` (a fragment) denotes the schema `t` of the document. -/
def Refers (root : SchemaNode) (r : String) (t : SchemaNode) : Prop :=
  ∃ d ts, PlainTokens ts ∧ r = pointerText ts ∧ Inside root d ts t

/-! ## Keywords that look at one value only -/

/-- The numeric keywords of a schema. -/
def numKeywords (n : SchemaNode) : NumSpec :=
  { minimum := n.minimum, maximum := n.maximum, exclusiveMinimum := n.exclusiveMinimum,
    exclusiveMaximum := n.exclusiveMaximum, multipleOf := n.multipleOf }

/-- The keyword `type`. -/
def TypeOk (n : SchemaNode) (v : JVal) : Prop :=
  ∀ t, n.type = some t → match t.multiple with
    | some l => ∃ x ∈ l, HasType x v
    | none => HasType t.single v

/-- The number of schemas in `prefixItems`. -/
def prefixLength (n : SchemaNode) : Nat := (n.prefixItems.getD []).length

/-- The name is neither declared in `properties` nor matched by `patternProperties`. -/
def Extra (pat : String → String → Prop) (n : SchemaNode) (k : String) : Prop :=
  (∀ p, n.properties = some p → k ∉ keysKV p) ∧
  (∀ p, n.patternProperties = some p → ∀ q ∈ p, ¬ pat q.1 k)

/-- Keywords that can be checked without validating parts of the value. -/
structure LocalOk (pat : String → String → Prop) (n : SchemaNode) (v : JVal) : Prop where
  type : TypeOk n v
  enum : ∀ l, n.enum = some l → ∃ x ∈ l, SameJson x v
  const : ∀ x, n.const = some x → SameJson x v
  number : ∀ q, v = .num q → (numKeywords n).Accepts q
  minLength : ∀ t m, v = .str t → n.minLength = some m → m ≤ (t.length : Int)
  maxLength : ∀ t m, v = .str t → n.maxLength = some m → (t.length : Int) ≤ m
  pattern : ∀ t p, v = .str t → n.pattern = some p → pat p t
  minItems : ∀ l m, v = .arr l → n.minItems = some m → m ≤ (l.length : Int)
  maxItems : ∀ l m, v = .arr l → n.maxItems = some m → (l.length : Int) ≤ m
  uniqueItems : ∀ l, v = .arr l → n.uniqueItems = some true → l.Pairwise (fun x y => ¬ SameJson x y)
  itemsFalse : ∀ l x, v = .arr l → n.items = some x → x.disallow = true → l.length ≤ prefixLength n
  minProperties : ∀ m k, v = .obj m → n.minProperties = some k → k ≤ (m.length : Int)
  maxProperties : ∀ m k, v = .obj m → n.maxProperties = some k → (m.length : Int) ≤ k
  required : ∀ m l k, v = .obj m → n.required = some l → k ∈ l → ∃ x, (k, x) ∈ m
  additionalFalse : ∀ m d k x, v = .obj m → n.additionalProperties = some d → d.isFalse = true → (k, x) ∈ m →
    ¬ Extra pat n k

/-- The schema uses no keyword whose meaning is left out of `Valid`, and none of the fields that only the parser
sets. -/
structure Covered (n : SchemaNode) : Prop where
  not : n.not = none
  oneOf : n.oneOf = none
  ifN : n.ifN = none
  dependentRequired : n.dependentRequired = []
  dependentSchemas : n.dependentSchemas = []
  additionalItems : n.additionalItems = none
  unevaluatedItems : n.unevaluatedItems = none
  maxContains : n.maxContains = none
  itemsList : ∀ x, n.items = some x → x.nodes.getD [] = []
  id : n.id = none
  mergedIf : n.mergedIf = []
  mergedNot : n.mergedNot = []
  constraints : n.constraints = none

/-! ## Validity -/

mutual

/-- Validity.  `target` is the schema that `$ref` denotes, `alternative` the member of `anyOf` that accepts the value,
`found` are items accepted by `contains`, `chosen` is the position of the only member of `oneOf` that accepts the value,
and `holds` tells whether the condition `if` does. -/
inductive Valid (pat : String → String → Prop) (root : SchemaNode) : SchemaNode → JVal → Prop
  | intro (n : SchemaNode) (v : JVal) (target alternative : SchemaNode) (found : List JVal)
      (covered : Covered { n with oneOf := none, ifN := none, not := none })
      (localOk : LocalOk pat n v)
      (refTarget : ∀ r, n.ref = some r → Refers root r target)
      (ref : ∀ r, n.ref = some r → Valid pat root target v)
      (allOf : ∀ l sub, n.allOf = some l → sub ∈ l → Valid pat root sub v)
      (anyOfMember : ∀ l, n.anyOf = some l → alternative ∈ l)
      (anyOf : ∀ l, n.anyOf = some l → Valid pat root alternative v)
      (properties : ∀ m p k x sub, v = .obj m → n.properties = some p → (k, x) ∈ m → lookupKV p k = some sub →
        Valid pat root sub x)
      (patternProperties : ∀ m p k x rx sub, v = .obj m → n.patternProperties = some p → (k, x) ∈ m → (rx, sub) ∈ p →
        pat rx k → Valid pat root sub x)
      (additional : ∀ m d k x sub, v = .obj m → n.additionalProperties = some d → d.schema = some sub → (k, x) ∈ m →
        Extra pat n k → Valid pat root sub x)
      (prefixItems : ∀ l p (i : Nat) x sub, v = .arr l → n.prefixItems = some p → l[i]? = some x → p[i]? = some sub →
        Valid pat root sub x)
      (items : ∀ l d (i : Nat) x sub, v = .arr l → n.items = some d → d.node = some sub → prefixLength n ≤ i → l[i]? = some x →
        Valid pat root sub x)
      (containsSome : ∀ l c, v = .arr l → n.contains = some c → found.Sublist l ∧
        n.minContains.getD 1 ≤ (found.length : Int))
      (contains : ∀ l c x, v = .arr l → n.contains = some c → x ∈ found → Valid pat root c x)
      (chosen : Nat)
      (oneOfChosen : ∀ l, n.oneOf = some l → chosen < l.length)
      (oneOf : ∀ l x, n.oneOf = some l → l[chosen]? = some x → Valid pat root x v)
      (oneOfOthers : ∀ l x (i : Nat), n.oneOf = some l → l[i]? = some x → i ≠ chosen → Invalid pat root x v)
      (holds : Bool)
      (ifHolds : ∀ x, n.ifN = some x → holds = true → Valid pat root x v)
      (ifFails : ∀ x, n.ifN = some x → holds = false → Invalid pat root x v)
      (thenOk : ∀ x y, n.ifN = some x → n.thenN = some y → holds = true → Valid pat root y v)
      (elseOk : ∀ x y, n.ifN = some x → n.elseN = some y → holds = false → Valid pat root y v)
      (negated : ∀ x, n.not = some x → Invalid pat root x v) :
      Valid pat root n v

/-- A keyword of the schema that the value breaks. -/
inductive Invalid (pat : String → String → Prop) (root : SchemaNode) : SchemaNode → JVal → Prop
  | alone {n : SchemaNode} {v : JVal} (broken : ¬ LocalOk pat n v) : Invalid pat root n v
  | ref {n t : SchemaNode} {v : JVal} (r : String) (has : n.ref = some r) (target : Refers root r t)
      (broken : ∀ t, Refers root r t → Invalid pat root t v) : Invalid pat root n v
  | allOf {n sub : SchemaNode} {v : JVal} (l : List SchemaNode) (has : n.allOf = some l) (member : sub ∈ l)
      (broken : Invalid pat root sub v) : Invalid pat root n v
  | anyOf {n : SchemaNode} {v : JVal} (l : List SchemaNode) (has : n.anyOf = some l)
      (broken : ∀ sub ∈ l, Invalid pat root sub v) : Invalid pat root n v
  | oneOfNone {n : SchemaNode} {v : JVal} (l : List SchemaNode) (has : n.oneOf = some l)
      (broken : ∀ sub ∈ l, Invalid pat root sub v) : Invalid pat root n v
  | oneOfTwo {n x y : SchemaNode} {v : JVal} (l : List SchemaNode) (i j : Nat) (has : n.oneOf = some l) (apart : i ≠ j)
      (first : l[i]? = some x) (second : l[j]? = some y) (firstOk : Valid pat root x v) (secondOk : Valid pat root y v) :
      Invalid pat root n v
  | thenBroken {n x y : SchemaNode} {v : JVal} (has : n.ifN = some x) (then_ : n.thenN = some y)
      (holds : Valid pat root x v) (broken : Invalid pat root y v) : Invalid pat root n v
  | elseBroken {n x y : SchemaNode} {v : JVal} (has : n.ifN = some x) (else_ : n.elseN = some y)
      (fails : Invalid pat root x v) (broken : Invalid pat root y v) : Invalid pat root n v
  | properties {n sub : SchemaNode} {m : List (String × JVal)} {p : List (String × SchemaNode)} {k : String} {x : JVal}
      (has : n.properties = some p) (member : (k, x) ∈ m) (schema : lookupKV p k = some sub)
      (broken : Invalid pat root sub x) : Invalid pat root n (JVal.obj m)
  | patternProperties {n sub : SchemaNode} {m : List (String × JVal)} {p : List (String × SchemaNode)} {k rx : String}
      {x : JVal} (has : n.patternProperties = some p) (member : (k, x) ∈ m) (schema : (rx, sub) ∈ p) (fits : pat rx k)
      (broken : Invalid pat root sub x) : Invalid pat root n (JVal.obj m)
  | additional {n sub : SchemaNode} {m : List (String × JVal)} {d : NodeOrFalse SchemaNode} {k : String} {x : JVal}
      (has : n.additionalProperties = some d) (schema : d.schema = some sub) (member : (k, x) ∈ m) (extra : Extra pat n k)
      (broken : Invalid pat root sub x) : Invalid pat root n (JVal.obj m)
  | prefixItems {n sub : SchemaNode} {l : List JVal} {p : List SchemaNode} {i : Nat} {x : JVal}
      (has : n.prefixItems = some p) (item : l[i]? = some x) (schema : p[i]? = some sub)
      (broken : Invalid pat root sub x) : Invalid pat root n (JVal.arr l)
  | items {n sub : SchemaNode} {l : List JVal} {d : ItemsData SchemaNode} {i : Nat} {x : JVal}
      (has : n.items = some d) (schema : d.node = some sub) (after : prefixLength n ≤ i) (item : l[i]? = some x)
      (broken : Invalid pat root sub x) : Invalid pat root n (JVal.arr l)
  | contains {n c : SchemaNode} {l rest others : List JVal} (has : n.contains = some c) (parts : l.Perm (rest ++ others))
      (few : (others.length : Int) < n.minContains.getD 1) (broken : ∀ x ∈ rest, Invalid pat root c x) :
      Invalid pat root n (JVal.arr l)
  | negation {n x : SchemaNode} {v : JVal} (has : n.not = some x) (holds : Valid pat root x v) : Invalid pat root n v

end

/-! ## The part of JSON Schema for which validity is claimed -/

/-- Names that a generated object may contain without the schema mentioning them. -/
def Invented (k : String) : Prop :=
  ∃ i : Nat, k = s!"min_filler_{i}" ∨ k = s!"additional_{i}" ∨ k = s!"fallback_{i}"

/-- A name that can be written as a reference token as it is. -/
def PlainName (k : String) : Prop := k ≠ "" ∧ '/' ∉ k.toList ∧ '\n' ∉ k.toList

/-- The meaning of a pattern: some part of the text is matched. -/
def patternMeaning (c : PEnv) (p t : String) : Prop :=
  ∃ r, c.rxParse p.toList = some r ∧ ∃ a m b, t.toList = a ++ m ++ b ∧ Matches a r m b

/-- Patterns for which generated strings are known to match; `a` are the options of the regular expression generator. -/
def PatternSupported (c : PEnv) (a : RxArgs) (p : String) : Prop :=
  p ≠ "" ∧ (a.suppressRandomBytes = false ∨ ('.' ∉ p.toList ∧ '~' ∉ p.toList)) ∧
  ∃ r, c.rxParse p.toList = some r ∧ Anchored r ∧ RunesOk r

/-- Conditions on `patternProperties`.  The code takes a value from one schema for each name, so no name may be covered
by two of the schemas, and the names that the code invents must not match. -/
structure PatternsSupported (c : PEnv) (o : Opts) (n : SchemaNode) (p : List (String × SchemaNode)) : Prop where
  names : (keysKV p).Nodup ∧ ∀ q ∈ keysKV p, PlainName q ∧ PatternSupported c c.rxPattern q
  apart : ∀ q ∈ keysKV p, ∀ q' ∈ keysKV p, ∀ t, patternMeaning c q t → patternMeaning c q' t → q = q'
  declared : ∀ q ∈ keysKV p, ∀ k ∈ keysKV (n.properties.getD []), ¬ patternMeaning c q k
  required : ∀ q ∈ keysKV p, ∀ k ∈ n.required.getD [], ¬ patternMeaning c q k
  invented : ∀ q ∈ keysKV p, ∀ k, Invented k → ¬ patternMeaning c q k
  /-- in closed objects the minimum is reached with invented names, which are not allowed there -/
  closed : ∀ d, n.additionalProperties = some d → d.isFalse = true →
    n.minProperties.getD 0 = 0 ∧ o.defaultObjectMinProperties = 0

/-- Conditions on the keywords for objects. -/
structure ObjectSupported (c : PEnv) (o : Opts) (n : SchemaNode) : Prop where
  patterns : ∀ p, n.patternProperties = some p → PatternsSupported c o n p
  names : ∀ p, n.properties = some p → (keysKV p).Nodup ∧ ∀ k ∈ keysKV p, PlainName k ∧ ¬ Invented k
  requiredNames : ∀ l, n.required = some l → ∀ k ∈ l, ¬ Invented k
  /-- names required but not declared get a made-up value -/
  requiredDeclared : ∀ d l, n.additionalProperties = some d → d.isFalse = true ∨ d.schema ≠ none →
    n.required = some l → ∀ k ∈ l, k ∈ keysKV (n.properties.getD [])
  /-- `maxProperties: 0` is ignored by the code, and a configured default minimum wins over `maxProperties` -/
  maximum : ∀ k, n.maxProperties = some k → 0 < k ∧ (n.minProperties.getD 0 = 0 → o.defaultObjectMinProperties ≤ k)
  /-- the minimum is not guaranteed for closed objects in general -/
  closedMinimum : ∀ d k, n.additionalProperties = some d → d.isFalse = true → n.minProperties = some k → 0 < k →
    n.required.getD [] = [] ∨ ((n.required.getD []).Nodup ∧ k ≤ ((n.required.getD []).length : Int))

/-- Conditions on the keywords for arrays. -/
structure ArraySupported (o : Opts) (n : SchemaNode) : Prop where
  /-- `maxItems: 0` is ignored by the code, and a configured default minimum wins over `maxItems` -/
  maximum : ∀ k, n.maxItems = some k → 0 < k ∧ (n.minItems.getD 0 = 0 → o.defaultArrayMinItems ≤ k)
  /-- a tuple closed by `items: false` is not filled up -/
  closedMinimum : ∀ x k, n.items = some x → x.disallow = true → n.minItems = some k → k ≤ (prefixLength n : Int)
  minimum : ∀ k, n.minItems = some k → 0 ≤ k
  /-- `contains` is only supported without `items` -/
  containsAlone : n.contains ≠ none → n.items = none
  minContains : ∀ k, n.minContains = some k → 0 ≤ k
  /-- items of a tuple are not compared with each other -/
  unique : n.uniqueItems = some true → n.prefixItems.getD [] = []

/-- Conditions on the keywords for strings: `maxLength: 0` is ignored by the code. -/
structure StringSupported (c : PEnv) (n : SchemaNode) : Prop where
  maximum : ∀ k, n.maxLength = some k → k ≠ 0
  pattern : ∀ p, n.pattern = some p → PatternSupported c c.rxString p

/-- The numeric keywords are integers of moderate size, a factor among them, and no bound is exclusive. -/
structure WholeMultiples (n : SchemaNode) : Prop where
  factor : ∃ m : Int, n.multipleOf = some (m : Rat) ∧ 0 < m ∧ m ≤ 4000
  minimum : ∀ x, n.minimum = some x → ∃ a : Int, x = a ∧ |a| ≤ 10 ^ 6
  maximum : ∀ x, n.maximum = some x → ∃ a : Int, x = a ∧ |a| ≤ 10 ^ 6
  exclusiveMinimum : n.exclusiveMinimum = none
  exclusiveMaximum : n.exclusiveMaximum = none

/-- Conditions on the keywords for numbers, with exact arithmetic or with doubles (see C20 and C21). -/
structure NumberSupported (F : FP) (n : SchemaNode) : Prop where
  arithmetic : F = FP.exact ∨ F = FP.binary64
  magnitude : (numKeywords n).Within (2 ^ 50) (2 ^ 42)
  exact : F = FP.exact → n.type ≠ some { single := "integer" } →
    ∀ m, n.multipleOf = some m → (∃ z : Int, m * 10 ^ 14 = z) ∧ (numKeywords n).Within (2 ^ 50 * m) m
  doubles : F = FP.binary64 → n.type ≠ some { single := "integer" } → (n.multipleOf = none ∧
    (∀ x, n.minimum = some x → binary64Rnd x = x) ∧ (∀ x, n.maximum = some x → binary64Rnd x = x) ∧
    (∀ x, n.exclusiveMinimum = some x → -128 ≤ x ∧ x < 128) ∧ (∀ x, n.exclusiveMaximum = some x → -128 < x ∧ x ≤ 128)) ∨
    WholeMultiples n

/-- A schema that admits several types has no keyword that could make one of the types impossible (an impossible type
is silently replaced by null). -/
structure Unbounded (n : SchemaNode) : Prop where
  minLength : n.minLength = none
  maxLength : n.maxLength = none
  pattern : n.pattern = none
  format : n.format = none
  minimum : n.minimum = none
  maximum : n.maximum = none
  exclusiveMinimum : n.exclusiveMinimum = none
  exclusiveMaximum : n.exclusiveMaximum = none
  multipleOf : n.multipleOf = none
  minItems : n.minItems = none
  maxItems : n.maxItems = none
  contains : n.contains = none
  minContains : n.minContains = none
  minProperties : n.minProperties = none
  maxProperties : n.maxProperties = none

/-- The types are known names; several types only without bounds. -/
structure TypesSupported (n : SchemaNode) : Prop where
  one : ∀ t, n.type = some t → t.multiple = none → t.single ∈ jsonTypes
  several : ∀ t l, n.type = some t → t.multiple = some l → l ≠ [] ∧ (∀ x ∈ l, x ∈ jsonTypes) ∧ Unbounded n

/-- The schemas for which validity of what is generated is claimed. -/
structure Supported (c : PEnv) (o : Opts) (root n : SchemaNode) : Prop where
  covered : Covered n
  allOf : n.allOf = none
  anyOf : n.anyOf = none
  /-- a reference denotes a place of the same document and has no keywords beside it -/
  ref : ∀ r, n.ref = some r → n = { emptyNode with ref := some r, defs := n.defs, definitions := n.definitions } ∧
    (∃ t, Refers root r t)
  definitions : ∀ p, n.definitions = some p → (keysKV p).Nodup ∧ ∀ k ∈ keysKV p, PlainName k
  defs : ∀ p, n.defs = some p → (keysKV p).Nodup ∧ ∀ k ∈ keysKV p, PlainName k
  /-- listed values fit the other keywords -/
  enum : ∀ l, n.enum = some l → l ≠ [] ∧ ∀ x ∈ l, x.WF ∧ Valid (patternMeaning c) root n x
  const : ∀ x, n.const = some x → n.enum = none → x.WF ∧ Valid (patternMeaning c) root n x
  types : TypesSupported n
  object : ObjectSupported c o n
  array : ArraySupported o n
  string : StringSupported c n
  number : NumberSupported c.fp n

end Chaff
