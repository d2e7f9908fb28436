import Verif.Spec.Combine
import Verif.Spec.Drawn
import Verif.Spec.Library
/-!
# Values that the generator should be able to produce

`Attainable c root w o row fol k n v`: the value `v` is one that a user expects to come out sooner or later for the
schema `n` of the document `root`.  Where
the code is known to miss valid values, the rules ask for more than validity; each such place is marked.
-/

namespace Chaff

mutual
/-- The number of values in a value, itself included. -/
def JVal.steps : JVal → Nat
  | .arr l => 1 + stepsItems l
  | .obj m => 1 + stepsMembers m
  | _ => 1
/-- The number of values in a list of items. -/
def stepsItems : List JVal → Nat
  | [] => 0
  | v :: l => v.steps + stepsItems l
/-- The number of values in a list of members. -/
def stepsMembers : List (String × JVal) → Nat
  | [] => 0
  | (_, v) :: m => v.steps + stepsMembers m
end

/-- No validator that the validation library compiles rejects the value. -/
def Unrejected (c : PEnv) (v : JVal) : Prop := ∀ res key f, c.compile res key = some f → f v = true

/-- The schema has no reference and no combination. -/
structure Alone (n : SchemaNode) : Prop where
  ref : n.ref = none
  allOf : n.allOf = none
  anyOf : n.anyOf = none
  oneOf : n.oneOf = none
  ifN : n.ifN = none
  not : n.not = none

/-- The schema describes values by their type, and `t` is one of the types it names. -/
structure Allows (n : SchemaNode) (t : String) : Prop where
  alone : Alone n
  enum : n.enum = none
  const : n.const = none
  type : ∃ ty, n.type = some ty ∧ ((ty.multiple = none ∧ ty.single = t) ∨ ∃ l, ty.multiple = some l ∧ t ∈ l)

/-- The keyword if it is present and not zero, the configured default otherwise. -/
def orDefault (x : Option Int) (d : Int) : Int := if x.getD 0 = 0 then d else x.getD 0

/-- A length or number of properties in reach: not below the minimum, and below the maximum or the smallest that is
possible at all (the maximum itself is missed by the code, see `C75_max_items_violation`). -/
def InReach (lo hi smallest len : Int) : Prop := lo ≤ len ∧ smallest ≤ len ∧ (len = max lo smallest ∨ len < hi)

/-- A lower bound of the schema. -/
def NumSpec.Lower (n : NumSpec) (x : Rat) : Prop := n.minimum = some x ∨ n.exclusiveMinimum = some x

/-- An upper bound of the schema. -/
def NumSpec.Upper (n : NumSpec) (x : Rat) : Prop := n.maximum = some x ∨ n.exclusiveMaximum = some x

/-- Integer bounds for which every integer in the range is drawn.  Exclusive bounds that are not integers make the code
miss a value (`C75_exclusive_bound_violation`), and `multipleOf` makes it miss the ends (`C75_multiple_violation`). -/
structure IntReach (n : NumSpec) (z : Int) : Prop where
  accepts : n.Accepts z
  noMultiple : n.multipleOf = none
  magnitude : n.Within (2 ^ 48) 1
  exclusiveMinimum : ∀ x, n.exclusiveMinimum = some x → ∃ k : Int, x = k
  exclusiveMaximum : ∀ x, n.exclusiveMaximum = some x → ∃ k : Int, x = k
  /-- where there is no upper bound the code stays within 10 of the lower bound, or of zero -/
  above : (∀ x, ¬ n.Upper x) → (∃ x, n.Lower x ∧ (z : Rat) ≤ x + 10) ∨ ((∀ x, ¬ n.Lower x) ∧ z ≤ 10)
  /-- where there is no lower bound the code stays within 10 of the upper bound, or at zero and above -/
  below : (∀ x, ¬ n.Lower x) → (∃ x, n.Upper x ∧ x - 10 ≤ (z : Rat)) ∨ ((∀ x, ¬ n.Upper x) ∧ 0 ≤ z)

/-- The range from which numbers are drawn, given the minimum and the maximum: where there is only one of them, the code
stays within 10 of it (in the arithmetic `F`), and where there is none, between 0 and 10. -/
inductive NumRange (F : FP) : Option Rat → Option Rat → Rat → Rat → Prop
  | both (a b : Rat) : NumRange F (some a) (some b) a b
  | above (a : Rat) : NumRange F (some a) none a (F.rnd (a + 10))
  | below (b : Rat) : NumRange F none (some b) (F.rnd (b - 10)) b
  | free : NumRange F none none 0 10

/-- Numbers that are drawn: those a whole number of 2^53rds of the way from the lower end of the range to the upper one,
computed in the arithmetic `F`.  That this leaves no gap in the range is `C87_no_gap_between_bounds`. -/
structure NumReach (F : FP) (n : NumSpec) (q : Rat) : Prop where
  noMultiple : n.multipleOf = none
  exclusiveMinimum : n.exclusiveMinimum = none
  exclusiveMaximum : n.exclusiveMaximum = none
  drawn : ∃ (a b : Rat) (j : Nat), NumRange F n.minimum n.maximum a b ∧ a < b ∧ |a| ≤ 2 ^ 53 ∧ |b| ≤ 2 ^ 53 ∧ j < 2 ^ 53 ∧
    q = F.add (F.mul ((j : Rat) / 2 ^ 53) (F.sub b a)) a

/-- Bounds and a factor for which a multiple is drawn.  The code misses a multiple that is the minimum, and the largest
multiple unless it is the only one (`C75_multiple_violation`). -/
structure MultipleReach (n : NumSpec) (z : Int) : Prop where
  accepts : n.Accepts z
  exclusiveMinimum : n.exclusiveMinimum = none
  exclusiveMaximum : n.exclusiveMaximum = none
  bounds : ∃ a b m : Int, n.minimum = some (a : Rat) ∧ n.maximum = some (b : Rat) ∧ n.multipleOf = some (m : Rat) ∧ 0 < m ∧
    m ≤ 2 ^ 42 ∧ |a| ≤ 2 ^ 48 ∧ |b| ≤ 2 ^ 48 ∧ a < z ∧ (z + m ≤ b ∨ z - m ≤ a)

/-- The sentences one after the other. -/
def sentences (w : World) : List Nat → List Char
  | [] => []
  | i :: is => (w.sentence i).toList ++ sentences w is

/-- A reference by this text leads to the document or to one of its definitions, `t`. -/
inductive Defined (root : SchemaNode) : String → SchemaNode → Prop
  | root : Defined root "#" root
  | definition {kw name : String} {t : SchemaNode} : kw ∈ ["$defs", "definitions"] → HasNamed root name t kw →
      Defined root ("#/" ++ kw ++ "/" ++ name) t

/-- The values that generation should be able to produce for a schema of the document `root`.  `fol` are the references
that are being followed, `k` is how many references and choices of an alternative there were in a row, at most `row` in
all. -/
inductive Attainable (c : PEnv) (root : SchemaNode) (w : World) (o : Opts) (row : Nat) :
    List String → Nat → SchemaNode → JVal → Prop
  | listed {fol : List String} {k : Nat} (n : SchemaNode) (l : List JVal) (x : JVal) : Alone n → n.enum = some l → x ∈ l → Unrejected c x →
      Attainable c root w o row fol k n x
  | const {fol : List String} {k : Nat} (n : SchemaNode) (x : JVal) : Alone n → n.enum = none → n.const = some x → Attainable c root w o row fol k n x
  | null {fol : List String} {k : Nat} (n : SchemaNode) : Allows n "null" → Attainable c root w o row fol k n .null
  | boolean {fol : List String} {k : Nat} (n : SchemaNode) (b : Bool) : Allows n "boolean" → Attainable c root w o row fol k n (.bool b)
  | integer {fol : List String} {k : Nat} (n : SchemaNode) (z : Int) : Allows n "integer" → IntReach (numKeywords n) z → Attainable c root w o row fol k n (.num z)
  | number {fol : List String} {k : Nat} (n : SchemaNode) (q : Rat) : Allows n "number" → NumReach c.fp (numKeywords n) q → Attainable c root w o row fol k n (.num q)
  | multiple {fol : List String} {k : Nat} (n : SchemaNode) (z : Int) : Allows n "integer" → MultipleReach (numKeywords n) z → Attainable c root w o row fol k n (.num z)
  /-- the same for the type `number`; rounding destroys larger multiples (`C21_snapped_multiple_violation`) -/
  | wholeMultiple {fol : List String} {k : Nat} (n : SchemaNode) (z : Int) : Allows n "number" → MultipleReach (numKeywords n) z → |z| ≤ 1475739 →
      Attainable c root w o row fol k n (.num z)
  /-- any sentence that the text library produces -/
  | string {fol : List String} {k : Nat} (n : SchemaNode) (i : Nat) : Allows n "string" → n.format = none → n.pattern = none → n.minLength = none →
      n.maxLength = none → Attainable c root w o row fol k n (.str (w.sentence i))
  /-- as many sentences as the minimal length asks for, cut at the maximal length -/
  | sized {fol : List String} {k : Nat} (n : SchemaNode) (i : Nat) (is : List Nat) (text : List Char) : Allows n "string" → n.format = none →
      n.pattern = none → n.maxLength ≠ some 0 → (∀ j ∈ i :: is, w.sentence j ≠ "") →
      (∀ j, j < is.length → ((sentences w (i :: is.take j)).length : Int) < n.minLength.getD 0) →
      n.minLength.getD 0 ≤ (sentences w (i :: is)).length →
      (∀ x, n.maxLength = some x → text = (sentences w (i :: is)).take x.toNat) →
      (n.maxLength = none → text = sentences w (i :: is)) → Attainable c root w o row fol k n (.str (String.ofList text))
  /-- any text that the text library produces for a format it knows -/
  | faker {fol : List String} {k : Nat} (n : SchemaNode) (f : String) (i : Nat) : Allows n "string" → n.format = some f →
      f ∈ ["date-time", "date", "time", "email", "idn-email", "hostname", "idn-hostname", "ipv4", "ipv6", "uuid", "uri", "uri-reference", "iri", "iri-reference"] →
      Attainable c root w o row fol k n (.str (w.fakerFormat f i))
  | duration {fol : List String} {k : Nat} (n : SchemaNode) (days : Nat) : Allows n "string" → n.format = some "duration" →
      days < 90 → Attainable c root w o row fol k n (.str ("P" ++ toString days ++ "D"))
  /-- any text that matches the pattern within the repetition limits of the options; `Exhaustive` excludes the places
  at which the code misses characters -/
  | pattern {fol : List String} {k : Nat} (n : SchemaNode) (p : String) (r : Rx) (text : List Char) : Allows n "string" → n.format = none →
      n.pattern = some p → p ≠ "" → (c.rxString.suppressRandomBytes = false ∨ ('.' ∉ p.toList ∧ '~' ∉ p.toList)) →
      c.rxParse p.toList = some r → Exhaustive c.rxString r →
      Matches [] (limited (repetitionLimits (some c.rxString)).1 (repetitionLimits (some c.rxString)).2 r) text [] →
      Attainable c root w o row fol k n (.str (String.ofList text))
  | array {fol : List String} {k : Nat} (n : SchemaNode) (l : List JVal) : Allows n "array" → n.contains = none → n.minContains = none →
      (n.items.any (·.disallow) = false →
        InReach (orDefault n.minItems o.defaultArrayMinItems) (orDefault n.maxItems (n.minItems.getD 0 + 10)) (prefixLength n) l.length) →
      (n.items.any (·.disallow) = true → l.length = prefixLength n) →
      (∀ (i : Nat) x, prefixLength n ≤ i → l[i]? = some x → ∃ d sub, n.items = some d ∧ d.node = some sub) →
      (n.uniqueItems = some true → 0 < o.maximumUniqueGeneratorAttempts ∧ n.prefixItems.getD [] = [] ∧
        (∀ x ∈ l, x.WF) ∧ l.Pairwise (fun x y => ¬ SameJson x y)) →
      (∀ p (i : Nat) x sub, n.prefixItems = some p → p[i]? = some sub → l[i]? = some x → Attainable c root w o row fol 0 sub x) →
      (∀ d (i : Nat) x sub, n.items = some d → d.node = some sub → prefixLength n ≤ i → l[i]? = some x →
        Attainable c root w o row fol 0 sub x) →
      Attainable c root w o row fol k n (.arr l)
  /-- an object of members that the schema declares -/
  | object {fol : List String} {k : Nat} (n : SchemaNode) (m : List (String × JVal)) : Allows n "object" →
      0 ≤ o.defaultObjectMaxProperties →
      (keysKV m).Nodup → (n.required.getD []).Nodup →
      (∀ a ∈ n.required.getD [], a ∈ keysKV m) → (∀ a ∈ keysKV m, a ∈ keysKV (n.properties.getD [])) →
      InReach (orDefault n.minProperties o.defaultObjectMinProperties)
        (orDefault n.maxProperties o.defaultObjectMaxProperties) (n.required.getD []).length m.length →
      (∀ p a x sub, n.properties = some p → (a, x) ∈ m → lookupKV p a = some sub → Attainable c root w o row fol 0 sub x) →
      Attainable c root w o row fol k n (.obj m)
  /-- what is attainable for a definition is attainable by reference, up to the configured depth, and through the same
  reference again if the check for cycles is bypassed -/
  | ref {fol : List String} {k : Nat} (n : SchemaNode) (r : String) (t : SchemaNode) (v : JVal) : n.ref = some r →
      n.enum = none → n.const = none → n.allOf = none → n.anyOf = none → n.oneOf = none → n.ifN = none → n.not = none →
      Defined root r t → (fol.length : Int) ≤ o.maximumReferenceDepth → (r ∉ fol ∨ o.bypassCyclicReferenceCheck = true) →
      k < row → Attainable c root w o row (r :: fol) (k + 1) t v → Attainable c root w o row fol k n v
  /-- what is attainable for an alternative, or for the schema that it refers to, if the schema has nothing but alternatives -/
  | anyOf {fol : List String} {k : Nat} (n : SchemaNode) (l : List SchemaNode) (x t : SchemaNode) (v : JVal) : OnlyAnyOf n →
      n.anyOf = some l → x ∈ l → Denotes root x t → KeptByMerge t → k < row →
      Attainable c root w o row fol (k + 1) (asMerged t) v →
      Attainable c root w o row fol k n v
  /-- what is attainable for an alternative of `oneOf` and is, in whatever order the members of objects are written, valid
  for this alternative only; the choice counts three times, for the code takes steps to test the value -/
  | oneOf {fol : List String} {k : Nat} (n : SchemaNode) (l : List SchemaNode) (i : Nat) (x : SchemaNode) (v : JVal) : OnlyOneOf n →
      n.oneOf = some l → l[i]? = some x → KeptByMerge x → k + 3 ≤ row →
      (∀ v', SameJson v v' → Valid (patternMeaning c) root x v' ∧
        ∀ j y, l[j]? = some y → j ≠ i → Invalid (patternMeaning c) root y v') →
      Attainable c root w o row fol (k + 3) (asMerged x) v →
      Attainable c root w o row fol k n v
  /-- what is attainable for every schema that has the gathered keywords of the members and of the schema itself -/
  | allOf {fol : List String} {k : Nat} (n : SchemaNode) (l : List SchemaNode) (v : JVal) : n.allOf = some l →
      n.ref = none → n.anyOf = none → n.oneOf = none → n.ifN = none → n.not = none → (∀ x ∈ l, x.ref = none ∧ x.allOf = none) →
      (∀ m, Gathers (l ++ [{ n with allOf := none }]) m → Attainable c root w o row fol k m v) →
      Attainable c root w o row fol k n v
  /-- what is attainable for every schema that has the gathered keywords of the schema and of one alternative -/
  | alternative {fol : List String} {k : Nat} (n : SchemaNode) (l : List SchemaNode) (x : SchemaNode) (v : JVal) : n.anyOf = some l →
      x ∈ l → ¬ OnlyAnyOf n → KeptByMerge { n with anyOf := none } → x.ref = none → x.allOf = none → k < row →
      (∀ m, Gathers [asMerged { n with anyOf := none }, x] m → Attainable c root w o row fol (k + 1) m v) →
      Attainable c root w o row fol k n v
  /-- the same for `oneOf`; the value must be valid for no other alternative -/
  | choice {fol : List String} {k : Nat} (n : SchemaNode) (l : List SchemaNode) (i : Nat) (x : SchemaNode) (v : JVal) : n.oneOf = some l →
      l[i]? = some x → ¬ OnlyOneOf n → n.allOf = none → n.anyOf = none → n.ifN = none → n.not = none → x.allOf = none → k + 3 ≤ row →
      (∀ v', SameJson v v' → Valid (patternMeaning c) root x v' ∧
        ∀ j y, l[j]? = some y → j ≠ i → Invalid (patternMeaning c) root y v') →
      (∀ m, Gathers [{ n with oneOf := none, defs := none, definitions := none }, x] m →
        Attainable c root w o row fol (k + 3) m v) →
      Attainable c root w o row fol k n v
  /-- what is attainable for the rest of the schema and spared by the negation; the code takes a step to test the value -/
  | excluded {fol : List String} {k : Nat} (n x : SchemaNode) (v : JVal) : n.not = some x → n.allOf = none → n.anyOf = none →
      n.oneOf = none → n.ifN = none → v.WF → Spared c (n.required.getD []) x v → k < row →
      Attainable c root w o row fol (k + 1) (withoutNot n x) v →
      Attainable c root w o row fol k n v

end Chaff
