import Verif.Model.Doc
import Verif.Spec.Regex
/-!
# Schema texts that cannot make the parser or a generator panic

Conditions on the JSON text of a schema, read keyword by keyword; nothing here refers to the parser.  `Care` says which of
the conditions are imposed.
-/

namespace Chaff

/-- Which conditions are imposed on a schema text: no `multipleOf`; the conditions under which the parser cannot panic;
and, for these, whether negations are excluded (otherwise `uniqueItems` is). -/
structure Care where
  noMultiples : Prop
  calm : Prop
  noNegations : Prop

/-- Every generator expression made from this pattern is safe: the pattern is rejected, or its expression can be built and
run without a panic. -/
def PatternOk (c : PEnv) (a : RxArgs) (p : String) : Prop :=
  ∀ a' r, a.initialize = .ok a' → c.rxParse (if a.suppressRandomBytes then suppressDots p.toList else p.toList) = some r →
    RxSafe a' r

/-- The part of a reference from its first `#` on. -/
def fragmentOf (r : String) : List Char := r.toList.dropWhile (fun ch => ch ≠ '#')

/-- The components of a fragment, between slashes. -/
def componentsOf : List Char → List (List Char)
  | [] => [[]]
  | ch :: t =>
    if ch = '/' then [] :: componentsOf t
    else match componentsOf t with
      | [] => [[ch]]
      | x :: rest => (ch :: x) :: rest

/-- Keywords through which the resolver follows a pointer without checking that the keyword is there, or indexes a list
without checking its length. -/
def riskyNames : List (List Char) :=
  ["items", "additionalItems", "unevaluatedItems", "additionalProperties", "prefixItems", "allOf", "anyOf", "oneOf"].map
    String.toList

/-- A reference that is followed safely: its fragment has no newline and goes through none of the risky keywords. -/
def RefOk (r : String) : Prop := '\n' ∉ fragmentOf r ∧ ∀ x ∈ componentsOf (fragmentOf r), x ∉ riskyNames

/-- No object in the value has an identifier, and every reference in it is safe to follow. -/
inductive Clean : JVal → Prop
  | atom {v : JVal} : (∀ m, v ≠ .obj m) → (∀ l, v ≠ .arr l) → Clean v
  | arr {l : List JVal} : (∀ v ∈ l, Clean v) → Clean (.arr l)
  | obj {m : List (String × JVal)} : (∀ p ∈ m, p.1 = "$id" → ∀ t, p.2 ≠ .str t) →
      (∀ p ∈ m, p.1 = "$ref" → ∀ r, p.2 = .str r → RefOk r) → (∀ p ∈ m, Clean p.2) → Clean (.obj m)

/-- The schemas inside the value of a keyword. -/
def schemasIn (keyword : String) (v : JVal) : List JVal :=
  if keyword ∈ ["properties", "patternProperties", "$defs", "definitions", "dependentSchemas"] then
    match v with | .obj m => m.map Prod.snd | _ => []
  else if keyword ∈ ["contains", "not", "if", "then", "else", "additionalProperties", "additionalItems", "unevaluatedItems"] then
    [v]
  else if keyword ∈ ["prefixItems", "allOf", "anyOf", "oneOf"] then
    match v with | .arr l => l | _ => []
  else if keyword = "items" then
    match v with | .arr l => l | v => [v]
  else []

/-- Conditions on one member of a schema object that concern generation: no `multipleOf` (if asked for), no empty list of
types, and safe patterns. -/
structure MemberOk (c : PEnv) (K : Care) (keyword : String) (v : JVal) : Prop where
  multiple : K.noMultiples → keyword = "multipleOf" → ∀ q, v ≠ .num q
  types : keyword = "type" → v ≠ .arr []
  pattern : keyword = "pattern" → ∀ p, v = .str p → PatternOk c c.rxString p
  names : keyword = "patternProperties" → ∀ m, v = .obj m → ∀ p ∈ m, PatternOk c c.rxPattern p.1

/-- Conditions on one member of a schema object under which the parser cannot panic: references are safe to follow, there
are no identifiers, also inside listed values, names of definitions have no newline, and there are no negations or else no `uniqueItems`. -/
structure MemberCalm (K : Care) (keyword : String) (v : JVal) : Prop where
  ref : keyword = "$ref" → ∀ r, v = .str r → RefOk r
  id : keyword = "$id" → ∀ t, v ≠ .str t
  values : keyword = "enum" ∨ keyword = "const" → Clean v
  defs : keyword = "$defs" ∨ keyword = "definitions" → ∀ m, v = .obj m → ∀ p ∈ m, '\n' ∉ p.1.toList
  negations : K.noNegations → keyword = "not" → ∀ m, v ≠ .obj m
  unique : ¬ K.noNegations → keyword = "uniqueItems" → ∀ b, v ≠ .bool b

/-- The conditions hold of every schema in the text. -/
inductive TameText (c : PEnv) (K : Care) : JVal → Prop
  | other {v : JVal} : (∀ m, v ≠ .obj m) → TameText c K v
  | obj {m : List (String × JVal)} : (∀ p ∈ m, MemberOk c K p.1 p.2) → (∀ p ∈ m, K.calm → MemberCalm K p.1 p.2) →
      (∀ p ∈ m, ∀ v ∈ schemasIn p.1 p.2, TameText c K v) → TameText c K (.obj m)

/-- Every document that could be fetched meets the conditions. -/
def TameWorld (c : PEnv) (K : Care) : Prop :=
  (∀ u v, c.httpGet u = some v → TameText c K v) ∧ (∀ p v, c.fs.read p = some v → TameText c K v)

/-- Conditions on the options and the outside world under which the parser cannot panic: the repetition bounds of the regex
options are ordered, and names of documents have no `#`. -/
structure CalmWorld (c : PEnv) : Prop where
  rxString : ∃ a, c.rxString.initialize = .ok a
  rxPattern : ∃ a, c.rxPattern.initialize = .ok a
  relativeTo : '#' ∉ c.relativeTo.toList
  cwd : ∀ p, c.fs.cwd = some p → '#' ∉ (pathText p).toList
  paths : ∀ q p, c.fs.realPath q = some p → '#' ∉ (pathText p).toList
  urls : ∀ b r x y, c.url.parse b = some x → c.url.parse r = some y → '#' ∉ b.toList → '#' ∉ r.toList →
    '#' ∉ (c.url.str y).toList ∧ '#' ∉ (c.url.str (c.url.resolve x y)).toList

end Chaff
