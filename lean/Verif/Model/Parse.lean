import Verif.Model.Not
/-!
# Model of parse.go and of the `parse*` functions of the other files, schema.go and root.go

A parse function returns a generator and possibly an error, as in Go; a nil generator is `Gen.nilGen`.
Functions that call back into `parseNode` or `parseSchemaNode` take these as a parameter (`PRec`); the knot is
tied by `parseRec` with fuel.
-/

namespace Chaff

/-- Result of a parse function: `(Generator, error)`. -/
abbrev PR := P (Gen × Option Err)

/-- The recursive calls `parseNode` and `parseSchemaNode`, and the fuel for merging. -/
structure PRec where
  node : SchemaNode → PR
  schema : SchemaNode → PR
  fuel : Nat

/-- `return g, nil`. -/
def okGen (g : Gen) : PR := pure (g, none)

/-- `return nullGenerator{}, err`. -/
def nullErr (e : Err) : PR := pure (.null, some e)

/-! ## schema.go -/

/-- Characters replaced by `pathSanitiseRegex` (schema.go 23). -/
def isSanitised (c : Char) : Bool :=
  c = '/' || c = '#' || c = '-' || c = '.' || c = ',' || c = ' ' || c = '\t' || c = '\n' || c = '\r' || c = '\x0c'

/-- `normalisePath` (schema.go 58-60). -/
def normalisePath (s : String) : String := String.ofList (s.toList.map (fun c => if isSanitised c then '_' else c))

/-- `strings.Contains(s, "://")`. -/
def hasSchemeSep : List Char → Bool
  | ':' :: '/' :: '/' :: _ => true
  | _ :: t => hasSchemeSep t
  | [] => false

mutual
/-- `replaceRefs` (schema.go 63-91). -/
def replaceRefs (scope : String) : JVal → JVal
  | .obj m => .obj (replaceRefsObj scope m)
  | .arr l => .arr (replaceRefsArr scope l)
  | .null => .null
  | .bool b => .bool b
  | .num q => .num q
  | .str s => .str s
termination_by structural v => v
/-- The members of an object: an external `$ref` is dropped, a local one is prefixed with the scope. -/
def replaceRefsObj (scope : String) : List (String × JVal) → List (String × JVal)
  | [] => []
  | p :: t => replaceRefsField scope p ++ replaceRefsObj scope t
termination_by structural l => l
/-- One member. -/
def replaceRefsField (scope : String) : String × JVal → List (String × JVal)
  | (k, v) => replaceRefsMember scope k v
termination_by structural p => p
/-- The value of the member with the given key. -/
def replaceRefsMember (scope : String) (k : String) : JVal → List (String × JVal)
  | .str s =>
    if k = "$ref" then if hasSchemeSep s.toList then [] else [(k, .str (scope ++ s))]
    else [(k, .str s)]
  | .obj m => [(k, .obj (replaceRefsObj scope m))]
  | .arr l => [(k, .arr (replaceRefsArr scope l))]
  | .null => [(k, .null)]
  | .bool b => [(k, .bool b)]
  | .num q => [(k, .num q)]
termination_by structural v => v
/-- The items of an array. -/
def replaceRefsArr (scope : String) : List JVal → List JVal
  | [] => []
  | v :: t => replaceRefs scope v :: replaceRefsArr scope t
termination_by structural l => l
end

/-- The name under which a sub-schema is given to the validator (schema.go 48, 52). -/
def resourceKey (scope path field : String) : String := scope ++ normalisePath (path ++ "/" ++ field)

/-- `schemaManager.ParseSchemaNode` (schema.go 47-54): the validator of a sub-schema; `none` is an error.  A name
that is already taken keeps its old schema, because `AddResource` then fails and its error is ignored. -/
def validatorFor (c : PEnv) (node : SchemaNode) (field : String) : P (Option (JVal → Bool)) := fun s =>
  let scope := if s.resolvingId ≠ "" then s.resolvingId else s.parsingId
  let key := resourceKey scope s.path field
  let res := match lookupKV s.resources key with
    | some _ => s.resources
    | none => s.resources ++ [(key, replaceRefs scope (encodeNode node))]
  .ok (c.compile res key) { s with resources := res }

/-! ## Scopes -/

/-- Pushing the references of the source schemas (reference_hander.go 56-70); returns how many were pushed. -/
def pushSources (c : PEnv) (scope : String) : List SchemaNode → P Nat
  | [] => pure 0
  | src :: t =>
    match src.ref with
    | none => pushSources c scope t
    | some ref => do
      let r ← resolveIdAndPath c ref
      match r with
      | .error e => do
        addErrorSub (scope ++ "/config_ref_resolution_error") e
        pushSources c scope t
      | .ok p => do
        pushRes p.1 p.2
        let n ← pushSources c scope t
        pure (n + 1)

/-- Popping them again (the deferred calls). -/
def popSources : Nat → P Unit
  | 0 => pure ()
  | n + 1 => do
    popRes
    popSources n

/-- `ParseNodeInScope` (reference_hander.go 50-75). -/
def parseInScope (c : PEnv) (r : PRec) (scope : String) (node : SchemaNode) (sources : List SchemaNode) : PR := do
  pushPath scope
  let n ← pushSources c scope sources
  let g ← r.node node
  popSources n
  popPath scope
  pure g

/-! ## Leaf types -/

/-- The error checks of `parseString` (string.go 70-89). -/
def checkString (n : SchemaNode) : Option Err :=
  let minLength := getZeroIfNil n.minLength 0
  let maxLength := getZeroIfNil n.maxLength 0
  if n.format.isSome ∧ n.pattern.isSome then some "cannot have both format and pattern on a string"
  else if maxLength < 0 ∨ minLength < 0 then some "min/max length cannot be negative"
  else if minLength > maxLength ∧ maxLength ≠ 0 then some "minLength cannot be greater than maxLength"
  else if (n.pattern.isSome ∨ n.format.isSome) ∧ (n.minLength.isSome ∨ n.maxLength.isSome) then
    some "cannot have both pattern/format based builder and min/max length"
  else none

/-- `newRegexGenerator` in the parser: a panic of the constructor is a panic of the parser. -/
def buildRegex (c : PEnv) (a : RxArgs) (pattern : String) : P (Except Err RxGen) :=
  match newRegexGenerator c.rxParse a pattern.toList with
  | .ok g => pure (.ok g)
  | .err e => pure (.error e)
  | .panic e => Comp.fail e

/-- `parseString` (string.go 69-108). -/
def parseString (c : PEnv) (n : SchemaNode) : PR :=
  match checkString n with
  | some e => nullErr e
  | none =>
    let g : StrGen :=
      { format := getZeroIfNil n.format ""
        pattern := getZeroIfNil n.pattern ""
        minLength := getZeroIfNil n.minLength 0
        maxLength := getZeroIfNil n.maxLength 0 }
    match n.pattern with
    | none => okGen (.str g)
    | some p => do
      let r ← buildRegex c c.rxString p
      match r with
      | .error _ => nullErr "invalid regex pattern"
      | .ok rx => okGen (.str { g with patternGen := some rx })

/-- `parseNumber` (number.go 47-65) with the keywords of a node; on an error the generator is nil. -/
def parseNumberNode (c : PEnv) (n : SchemaNode) (isInt : Bool) : PR :=
  match parseNumber c.fp c.plat
      { minimum := n.minimum, maximum := n.maximum, exclusiveMinimum := n.exclusiveMinimum
        exclusiveMaximum := n.exclusiveMaximum, multipleOf := n.multipleOf } isInt with
  | .error e => pure (.nilGen, some e)
  | .ok r => okGen r.toGen

/-! ## Arrays -/

/-- `assertLowerUpperBound` (assert.go 8-26). -/
def assertLowerUpper (lower upper : Int) : Option Err :=
  if lower = 0 ∨ upper = 0 then none
  else if lower < 0 then some "must be greater than or equal to 0"
  else if upper < 0 then some "must be greater than or equal to 0"
  else if lower > upper then some "lower bound must be less than or equal to upper bound"
  else none

/-- The `minContains` in force (array.go 43, 49-51). -/
def effMinContains (n : SchemaNode) : Int :=
  if getZeroIfNil n.minContains 0 = 0 ∧ n.contains.isSome then 1 else getZeroIfNil n.minContains 0

/-- The error checks of `parseArray` (array.go 53-74). -/
def checkArray (n : SchemaNode) : Option Err :=
  let minContains := effMinContains n
  let maxContains := getZeroIfNil n.maxContains 0
  let minItems := getZeroIfNil n.minItems 0
  let maxItems := getZeroIfNil n.maxItems 0
  let tupleLength := goLen (getZeroIfNil n.prefixItems [])
  getPtr [assertLowerUpper minItems maxItems, assertLowerUpper minContains maxContains,
    assertLowerUpper minContains minItems, assertLowerUpper (tupleLength + minContains) maxItems,
    if tupleLength > maxItems ∧ n.maxItems.isSome then some "tuple length must be less than or equal to maxItems"
    else none]

/-- Are further items disallowed (array.go 79)? -/
def disallowsMore (n : SchemaNode) : Bool :=
  (match n.items with | some d => d.disallow | none => false) ||
  (match n.additionalItems with | some d => d.isFalse | none => false)

/-- The number of items (array.go 76-86). -/
def arrayRange (n : SchemaNode) : Int × Int :=
  if disallowsMore n then (goLen (getZeroIfNil n.prefixItems []), goLen (getZeroIfNil n.prefixItems []))
  else
    let min := getInt [getZeroIfNil n.minItems 0, effMinContains n]
    (min, getInt [getZeroIfNil n.maxItems 0, min + defaultOffset])

/-- An optional sub-generator, or an error. -/
abbrev SubGen := P (Except Err (Option Gen))

/-- Turn the result of parsing a sub-schema into a sub-generator (the error tests of array.go 93-115). -/
def asSub (m : PR) : SubGen := do
  let r ← m
  match r.2 with
  | some e => pure (.error e)
  | none => pure (.ok (some r.1))

/-- `parseItemGenerator` (array.go 180-190). -/
def parseItems (c : PEnv) (r : PRec) (items : Option (ItemsData SchemaNode)) : SubGen :=
  match items with
  | none => pure (.ok none)
  | some d =>
    if d.disallow then pure (.ok none)
    else match d.node with
      | none => pure (.ok none)
      | some n => asSub (parseInScope c r "/items" n [])

/-- `parseAdditionalItems` (array.go 171-178) and the parsing of `unevaluatedItems` (array.go 109-115). -/
def parseOrFalse (c : PEnv) (r : PRec) (scope : String) (x : Option (NodeOrFalse SchemaNode)) : SubGen :=
  match x with
  | none => pure (.ok none)
  | some d => match d.schema with
    | none => pure (.ok none)
    | some n => asSub (parseInScope c r scope n [])

/-- The `contains` schema merged with `items` (array.go 198-206). -/
def mergedContains (c : PEnv) (fuel : Nat) (items : Option (ItemsData SchemaNode)) (contains : SchemaNode) :
    P SchemaNode :=
  match items with
  | none => pure contains
  | some d => match d.node with
    | none => pure contains
    | some n => do
      let m ← mergeNodes c fuel [n, contains]
      pure { m with contains := none }

/-- `parseContainsGeneratorInScope` (array.go 192-209). -/
def parseContains (c : PEnv) (r : PRec) (n : SchemaNode) : SubGen :=
  match n.contains with
  | none => pure (.ok none)
  | some x => do
    let m ← mergedContains c r.fuel n.items x
    asSub (parseInScope c r "/contains" m [])

/-- `parseTupleGenerator` (array.go 151-169), with the index. -/
def parseTuple (c : PEnv) (r : PRec) : Nat → List SchemaNode → P (Except Err (List Gen))
  | _, [] => pure (.ok [])
  | i, n :: t => do
    let g ← parseInScope c r s!"/prefixItems/{i}" n []
    match g.2 with
    | some e => pure (.error e)
    | none => do
      let rest ← parseTuple c r (i + 1) t
      match rest with
      | .error e => pure (.error e)
      | .ok l => pure (.ok (g.1 :: l))

/-- The schemas of the tuple (array.go 139-149). -/
def tupleNodes (n : SchemaNode) : List SchemaNode :=
  match n.prefixItems with
  | some (x :: l) => x :: l
  | _ => match n.items with
    | some d => d.nodes.getD []
    | none => []

/-- The array generator built from its parts (array.go 117-136). -/
def buildArray (n : SchemaNode) (item additional contains unevaluated : Option Gen) (tuple : List Gen) : ArrGen Gen :=
  { tuple := tuple
    item := item
    additional := additional
    contains := contains
    unevaluated := unevaluated
    disallowUnevaluated := match n.unevaluatedItems with | some d => d.isFalse | none => false
    unique := getZeroIfNil n.uniqueItems false
    minContains := effMinContains n
    minItems := (arrayRange n).1
    maxItems := (arrayRange n).2
    disallowAdditional := match n.items with | some d => d.disallow | none => false }

/-- `unevaluatedItems`, when it is a schema (array.go 109-115). -/
def unevaluatedSchema (n : SchemaNode) : Option (NodeOrFalse SchemaNode) :=
  match n.unevaluatedItems with
  | some d => if d.isFalse then none else some d
  | none => none

/-- `parseArray` (array.go 41-137). -/
def parseArray (c : PEnv) (r : PRec) (n : SchemaNode) : PR :=
  match checkArray n with
  | some e => nullErr e
  | none => do
    let item ← parseItems c r n.items
    match item with
    | .error e => nullErr e
    | .ok item => do
      let additional ← parseOrFalse c r "/additionalItems" n.additionalItems
      match additional with
      | .error e => nullErr e
      | .ok additional => do
        let contains ← parseContains c r n
        match contains with
        | .error e => nullErr e
        | .ok contains => do
          let tuple ← parseTuple c r 0 (tupleNodes n)
          match tuple with
          | .error e => nullErr e
          | .ok tuple => do
            let unevaluated ← parseOrFalse c r "/unevaluatedItems" (unevaluatedSchema n)
            match unevaluated with
            | .error e => nullErr e
            | .ok unevaluated => okGen (.arr (buildArray n item additional contains unevaluated tuple))

/-! ## Objects -/

/-- The error checks of `parseObject` (object.go 49-71). -/
def checkObject (n : SchemaNode) : Option Err :=
  let minProperties := getZeroIfNil n.minProperties 0
  let maxProperties := getZeroIfNil n.maxProperties 0
  if minProperties < 0 then some "minProperties must be greater than or equal to 0"
  else if maxProperties < 0 then some "maxProperties must be greater than or equal to 0"
  else if n.maxProperties.isSome ∧ minProperties > maxProperties then some "minProperties > maxProperties"
  else if n.maxProperties.isSome ∧ goLen (getZeroIfNil n.required []) > maxProperties then
    some "too many required properties"
  else if (getZeroIfNil n.additionalProperties {}).isFalse = true ∧ n.patternProperties.isNone ∧
      minProperties > goLen (getZeroIfNil n.properties []) then some "minProperties cannot be reached"
  else none

/-- A failed sub-schema becomes a null generator (object.go 102-104, 120-122, 141-143). -/
def orNull (r : Gen × Option Err) : Gen :=
  match r.2 with
  | some _ => .null
  | none => r.1

/-- `parseProperties` (object.go 92-110). -/
def parseProps (c : PEnv) (r : PRec) : List (String × SchemaNode) → P (List (String × Gen))
  | [] => pure []
  | (k, n) :: t => do
    let g ← parseInScope c r ("/properties/" ++ k) n []
    let rest ← parseProps c r t
    pure ((k, orNull g) :: rest)

/-- The regex generator of a pattern property; a failure is recorded (object.go 145-150). -/
def patternRegex (c : PEnv) (k : String) : P (Option RxGen) := do
  let rx ← buildRegex c c.rxPattern k
  match rx with
  | .ok g => pure (some g)
  | .error e => do
    addErrorSub ("/regex/" ++ k) e
    pure none

/-- `parsePatternProperties` (object.go 127-157). -/
def parsePatProps (c : PEnv) (r : PRec) : List (String × SchemaNode) → P (List (String × (Gen × Option RxGen)))
  | [] => pure []
  | (k, n) :: t => do
    let g ← parseInScope c r ("/patternProperties/" ++ k) n []
    let rx ← patternRegex c k
    let rest ← parsePatProps c r t
    pure ((k, (orNull g, rx)) :: rest)

/-- `parseAdditionalProperties` (object.go 112-125). -/
def parseAddProps (c : PEnv) (r : PRec) (x : Option (NodeOrFalse SchemaNode)) : P (Option Gen) :=
  match x with
  | none => pure none
  | some d =>
    if d.isFalse then pure none
    else match d.schema with
      | none => pure none
      | some n => do
        let g ← parseInScope c r "/additionalProperties" n []
        pure (some (orNull g))

/-- `parseObject` (object.go 42-90). -/
def parseObject (c : PEnv) (r : PRec) (n : SchemaNode) : PR :=
  match checkObject n with
  | some e => nullErr e
  | none => do
    let pats ← parsePatProps c r (getZeroIfNil n.patternProperties [])
    let props ← parseProps c r (getZeroIfNil n.properties [])
    let additional ← parseAddProps c r n.additionalProperties
    okGen (.obj {
      props := props
      patProps := pats
      disallowAdditional := (getZeroIfNil n.additionalProperties {}).isFalse
      additional := additional
      minProps := getZeroIfNil n.minProperties 0
      maxProps := getZeroIfNil n.maxProperties 0
      required := getZeroIfNil n.required [] })

/-! ## Types -/

/-- `parseType` (parse.go 399-419). -/
def parseType (c : PEnv) (r : PRec) (t : String) (n : SchemaNode) : PR :=
  if t = "object" then parseObject c r n
  else if t = "array" then parseArray c r n
  else if t = "number" then parseNumberNode c n false
  else if t = "integer" then parseNumberNode c n true
  else if t = "string" then parseString c n
  else if t = "boolean" then okGen .bool
  else okGen .null

/-- The loop of `parseMultipleType` (multiple_type.go 22-36). -/
def parseTypes (c : PEnv) (r : PRec) (n : SchemaNode) : List String → P (List Gen)
  | [] => pure []
  | t :: ts => do
    let g ← parseType c r t n
    let rest ← parseTypes c r n ts
    pure (orNull g :: rest)

/-- `parseMultipleType` (multiple_type.go 22-36). -/
def parseMultipleType (c : PEnv) (r : PRec) (n : SchemaNode) (types : List String) : PR := do
  let gs ← parseTypes c r n types
  okGen (.multi gs)

/-- `inferType` (parse.go 443-494). -/
def inferType (n : SchemaNode) : String :=
  if n.properties.isSome ∨ n.patternProperties.isSome ∨ n.minProperties.isSome ∨ n.maxProperties.isSome ∨
      n.required.isSome ∨ (n.additionalProperties.bind (·.schema)).isSome then "object"
  else if n.pattern.isSome ∨ n.format.isSome ∨ n.minLength.isSome ∨ n.maxLength.isSome then "string"
  else if n.minimum.isSome ∨ n.maximum.isSome ∨ n.exclusiveMinimum.isSome ∨ n.exclusiveMaximum.isSome ∨
      n.multipleOf.isSome then "number"
  else if (n.items.bind (·.node)).isSome ∨ n.minItems.isSome ∨ n.maxItems.isSome ∨ n.contains.isSome ∨
      n.minContains.isSome ∨ n.maxContains.isSome ∨ n.prefixItems.isSome ∨ n.additionalItems.isSome ∨
      n.unevaluatedItems.isSome then "array"
  else "unknown"

/-! ## References, combinations, conditionals, values -/

/-- `strings.Contains(s, "/allOf/")`. -/
def hasAllOfStep : List Char → Bool
  | [] => false
  | c :: t => "/allOf/".toList.isPrefixOf (c :: t) || hasAllOfStep t

/-- `parseReference` (reference.go 27-46). -/
def parseReference (c : PEnv) (ref : String) : PR :=
  if hasAllOfStep ref.toList then pure (.nilGen, some "references to things within allOf are not supported")
  else do
    let r ← handleDeferred c ref
    match r with
    | .error e => pure (.nilGen, some e)
    | .ok p => okGen (.ref p.1 p.2)

/-- `parseAllOf` (all_of.go 29-56). -/
def parseAllOf (c : PEnv) (r : PRec) (n : SchemaNode) (l : List SchemaNode) : PR := do
  let nodes := l ++ [{ n with allOf := none }]
  let m ← mergeNodes c r.fuel nodes
  let g ← parseInScope c r "/allOf" m nodes
  match g.2 with
  | some e => nullErr e
  | none => okGen (.allOf g.1)

/-- One alternative of a combination (combination.go 48-74). -/
def parseBranch (c : PEnv) (r : PRec) (n : SchemaNode) (isOneOf : Bool) (i : Nat) (sub : SchemaNode) : P Gen := do
  let base ← mergeNodes c r.fuel [n]
  let base := if isOneOf then { base with oneOf := none } else { base with anyOf := none }
  let m ← mergeNodes c r.fuel [base, sub]
  let scope := if isOneOf then s!"/oneOf/{i}" else s!"/anyOf/{i}"
  let g ← parseInScope c r scope m [sub]
  match g.2 with
  | some e => do
    addErrorSub scope e
    pure .null
  | none => pure g.1

/-- The alternatives (combination.go 48-74), with the index. -/
def parseBranches (c : PEnv) (r : PRec) (n : SchemaNode) (isOneOf : Bool) : Nat → List SchemaNode → P (List Gen)
  | _, [] => pure []
  | i, sub :: t => do
    let g ← parseBranch c r n isOneOf i sub
    let rest ← parseBranches c r n isOneOf (i + 1) t
    pure (g :: rest)

/-- The validators of the alternatives (combination.go 76-90, 133-155): first all are flattened, then all are
compiled. -/
def flattenAll (c : PEnv) (fuel : Nat) : List SchemaNode → P (List SchemaNode)
  | [] => pure []
  | n :: t => do
    let m ← mergeNodes c fuel [n]
    let rest ← flattenAll c fuel t
    pure (m :: rest)

/-- `newOneOfConstraint` (combination.go 133-155), with the index. -/
def oneOfValidators (c : PEnv) : Nat → List SchemaNode → P (List (JVal → Bool))
  | _, [] => pure []
  | i, n :: t => do
    let v ← validatorFor c n s!"oneOf/{i}"
    match v with
    | none => do
      addErrorSub s!"oneOf/{i}" "schema does not compile"
      oneOfValidators c (i + 1) t
    | some f => do
      let rest ← oneOfValidators c (i + 1) t
      pure (f :: rest)

/-- `parseCombination` (combination.go 33-114). -/
def parseCombination (c : PEnv) (r : PRec) (n : SchemaNode) : PR := do
  let oneOf := getZeroIfNil n.oneOf []
  let isOneOf := decide (0 < oneOf.length)
  let target := if isOneOf then oneOf else getZeroIfNil n.anyOf []
  let gs ← parseBranches c r n isOneOf 0 target
  if 1 < oneOf.length then do
    let resolved ← flattenAll c r.fuel oneOf
    let vs ← oneOfValidators c 0 resolved
    okGen (.constrained (.comb gs) [.oneOf vs])
  else match gs with
    | [g] => okGen g
    | [] => nullErr "no valid generators could be created"
    | gs => okGen (.comb gs)

/-- The function for a forbidden pattern (constraint.go 134-142). -/
def notRegexFn (f : String → Bool) : JVal → Bool
  | .str s => ! f s
  | _ => true

/-- The function for forbidden properties (constraint.go 158-173). -/
def mustNotHaveFn (props : List String) : JVal → Bool
  | .obj m => props.all (fun k => (lookupKV m k).isNone)
  | _ => true

/-- The function for forbidden values (constraint.go 150-156): JSON texts are compared. -/
def notValuesFn (values : List JVal) (v : JVal) : Bool := ! values.any (fun w => JVal.jeq v w)

/-- `constraintCollection.Compile` (constraint.go 131-176).  A collection holds only patterns that compile and
formats that exist. -/
def compileColl (c : PEnv) (cc : ConstraintColl) : Constr Gen :=
  .multi (
    cc.notRegex.filterMap (fun p => (c.rxCompile p).map notRegexFn) ++
    cc.notFormats.filterMap (fun p => (c.formats p).map (fun f v => ! f v)) ++
    (if 0 < cc.notValues.length then [notValuesFn cc.notValues] else []) ++
    (if 0 < cc.mustNotHave.length then [mustNotHaveFn cc.mustNotHave] else []))

/-- `parseNot` (not.go 54-97). -/
def parseNot (c : PEnv) (r : PRec) (n : SchemaNode) : PR := do
  let parts ← partitionNots c r.fuel 0 (collectNots n)
  let base := { n with not := none, mergedNot := [] }
  let base ← (if 0 < parts.2.length then mergeNodes c r.fuel (base :: parts.2) else pure base)
  if parts.1.length = 0 then r.schema base
  else do
    let flat ← mergeNodes c r.fuel [base]
    let res ← applyNots c r.fuel flat {} parts.1
    let g ← r.node res.1
    match g.2 with
    | some e => nullErr e
    | none => okGen (.constrained g.1 [compileColl c res.2])

/-- `parseIfBody` (if.go 85-107). -/
def parseIfBody (c : PEnv) (r : PRec) (scope : String) (parent : SchemaNode) (body : Option SchemaNode) :
    P (Option Gen) :=
  match body with
  | none => pure none
  | some b => do
    let m ← mergeNodes c r.fuel [parent, b]
    let g ← parseInScope c r scope m [b]
    match g.2 with
    | some e => do
      warnField scope e
      pure none
    | none => pure (some g.1)

/-- `ifStatement.Compile` (if.go 119-143). -/
def compileIf (c : PEnv) (r : PRec) (n : SchemaNode) (i : Nat) (st : IfStmt SchemaNode) : P (Except Err (IfC Gen)) :=
  match st.ifN with
  | none => pure (.error "if schema must have an if clause")
  | some cond =>
    if st.thenN.isNone ∧ st.elseN.isNone then pure (.error "if schema must have either then or else")
    else do
      let path ← gets (fun s => s.path)
      let v ← validatorFor c cond s!"{path}//if/{i}"
      match v with
      | none => pure (.error "failed to compile if sub schema")
      | some f => do
        let t ← parseIfBody c r "/then" n st.thenN
        let e ← parseIfBody c r "/else" n st.elseN
        pure (.ok { cond := f, thenGen := t, elseGen := e })

/-- The statements of a node (if.go 61-71), with the index. -/
def compileIfs (c : PEnv) (r : PRec) (n : SchemaNode) : Nat → List (IfStmt SchemaNode) → P (List (IfC Gen))
  | _, [] => pure []
  | i, st :: t => do
    let x ← compileIf c r n i st
    match x with
    | .error e => do
      addErrorSub s!"if/{i}/config_compile_error" e
      compileIfs c r n (i + 1) t
    | .ok x => do
      let rest ← compileIfs c r n (i + 1) t
      pure (x :: rest)

/-- `parseIf` (if.go 42-83); at least one statement is present whenever it is called. -/
def parseIf (c : PEnv) (r : PRec) (n : SchemaNode) : PR := do
  let path ← gets (fun s => s.path)
  let stmts := if n.ifN.isSome then n.mergedIf ++ [newIfStatement n path] else n.mergedIf
  let n := { n with ifN := none, thenN := none, elseN := none, mergedIf := [] }
  let g ← r.schema n
  match g.2 with
  | some e => nullErr e
  | none =>
    if stmts.length = 0 then okGen g.1
    else do
      let cs ← compileIfs c r n 0 stmts
      if cs.length = 0 then do
        addErrorSub "/if/config_compile_error" "no valid if statements could be compiled"
        okGen g.1
      else okGen (.constrained g.1 [.ifs cs])

/-- `parseEnum` (enum.go 22-51) of a non-empty list. -/
def parseEnum (c : PEnv) (n : SchemaNode) (values : List JVal) : PR := do
  let v ← validatorFor c n "enum"
  match v with
  | none => nullErr "failed to compile schema for enum item validation"
  | some f =>
    match values.filter f with
    | [] => nullErr "illogical schema, no enum values match"
    | [x] => okGen (.const x)
    | l => okGen (.enum l)

/-- `parseConst` (const.go 21-39). -/
def parseConst (c : PEnv) (n : SchemaNode) (value : JVal) : PR := do
  let v ← validatorFor c n "const"
  match v with
  | none => nullErr "failed to compile schema for const item validation"
  | some f =>
    if f value then okGen (.const value)
    else nullErr "illogical schema, const value does not match other schema constraints"

/-! ## parseSchemaNode, parseNode -/

/-- `assertNoUnsupported` (assert.go 28-36). -/
def checkUnsupported (n : SchemaNode) : Option Err :=
  if 0 < n.dependentRequired.length then some "'dependentRequired' is not supported"
  else if 0 < n.dependentSchemas.length then some "'dependentSchemas' is not supported"
  else none

/-- The type dispatch at the end of `parseSchemaNode` (parse.go 374-396).  `node.Type.MultipleTypes = typeAll`
writes through a pointer shared with the original node when the type is present but empty; that later effect is
not modelled. -/
def parseByType (c : PEnv) (r : PRec) (n : SchemaNode) : PR :=
  match n.type.bind (·.multiple) with
  | some types => parseMultipleType c r n types
  | none =>
    if (getZeroIfNil n.type {}).single ≠ "" then parseType c r (getZeroIfNil n.type {}).single n
    else if inferType n = "unknown" then
      parseMultipleType c r { n with type := some { getZeroIfNil n.type {} with multiple := some typeAll } } typeAll
    else parseType c r (inferType n) n

/-- `parseSchemaNode` (parse.go 335-397). -/
def parseSchemaStep (c : PEnv) (r : PRec) (n : SchemaNode) : PR :=
  match checkUnsupported n with
  | some e => nullErr e
  | none =>
    match n.ref with
    | some ref => parseReference c ref
    | none =>
      match n.allOf with
      | some l => parseAllOf c r n l
      | none =>
        if n.oneOf.isSome ∨ n.anyOf.isSome then parseCombination c r n
        else if n.not.isSome ∨ 0 < n.mergedNot.length then parseNot c r n
        else if n.ifN.isSome ∨ n.mergedIf.length ≠ 0 then parseIf c r n
        else match n.enum with
          | some (v :: l) => parseEnum c n (v :: l)
          | _ => match n.const with
            | some v => parseConst c n v
            | none => parseByType c r n

/-- A nil generator is replaced by a null generator (parse.go 310-312). -/
def nilToNull (g : Gen) : Gen :=
  match g with
  | .nilGen => .null
  | g => g

/-- Recording an error (parse.go 306-308). -/
def recordErr (e : Option Err) : P Unit :=
  match e with
  | some e => addError e
  | none => pure ()

/-- Registering the generator under its `$id` and under its path (parse.go 314-318). -/
def registerNode (n : SchemaNode) (g : Gen) : P Unit := do
  (match n.id with
    | some i => addIdReference i g
    | none => pure ())
  addReference g

/-- `parseNode` (parse.go 293-333). -/
def parseNodeStep (c : PEnv) (schema : SchemaNode → PR) (n : SchemaNode) : PR := do
  Comp.modS (fun s => { s with depth := s.depth + 1 })
  let d ← gets (fun s => s.depth)
  if d > c.maxParseDepth then do
    Comp.modS (fun s => { s with depth := s.depth - 1 })
    nullErr "maximum parse depth exceeded"
  else do
    let r ← schema n
    recordErr r.2
    let g := nilToNull r.1
    registerNode n g
    Comp.modS (fun s => { s with depth := s.depth - 1 })
    match n.constraints with
    | some cc => okGen (.constrained g [compileColl c cc])
    | none => pure (g, r.2)

/-- `parseNode` and `parseSchemaNode` with recursion bounded by fuel. -/
def parseRec (c : PEnv) : Nat → PRec
  | 0 => { node := fun _ => Comp.outOfFuel, schema := fun _ => Comp.outOfFuel, fuel := 0 }
  | n + 1 =>
    { node := parseNodeStep c (parseRec c n).schema
      schema := parseSchemaStep c (parseRec c n)
      fuel := n }

/-! ## Documents -/

/-- `parseDefinitions` (root.go 51-69); the generators are kept only for printing. -/
def parseDefs (c : PEnv) (r : PRec) (kw : String) : List (String × SchemaNode) → P Unit
  | [] => pure ()
  | (k, n) :: t => do
    let _ ← parseInScope c r ("/" ++ kw ++ "/" ++ k) n [{ emptyNode with ref := some ("#/" ++ kw ++ "/" ++ k) }]
    parseDefs c r kw t

/-- `parseRoot` (root.go 38-49). -/
def parseRoot (c : PEnv) (r : PRec) (n : SchemaNode) : PR := do
  parseDefs c r "$defs" (getZeroIfNil n.defs [])
  parseDefs c r "definitions" (getZeroIfNil n.definitions [])
  r.node n

/-- `ParseNextDocument` (document.go 427-451), for a document taken from the queue. -/
def parseDocument (c : PEnv) (r : PRec) (doc : String) : P (Option Err) := do
  Comp.modS (fun s => { s with parsingId := doc, resolvingId := doc })
  let d ← resolveDocument c doc
  match d with
  | .error e => pure (some e)
  | .ok n => do
    Comp.modS (fun s => { s with parsed := insertKV s.parsed doc true, parsedDocs := doc :: s.parsedDocs })
    let g ← parseRoot c r n
    pure g.2

/-- The loop of `ParseSchema` (parse.go 274-279).  The first argument bounds the number of documents. -/
def parseQueue (c : PEnv) (r : PRec) : Nat → P Unit
  | 0 => Comp.outOfFuel
  | k + 1 => do
    let q ← gets (fun s => s.queue)
    match q with
    | [] => pure ()
    | doc :: t => do
      Comp.modS (fun s => { s with queue := t })
      let e ← parseDocument c r doc
      (match e with
        | some e => addErrorSub "document_parse_error" e
        | none => pure ())
      parseQueue c r k

/-! ## ParseSchema -/

/-- Splitting at `/`. -/
def splitSlash : List Char → List (List Char)
  | [] => [[]]
  | c :: t =>
    if c = '/' then [] :: splitSlash t
    else match splitSlash t with
      | [] => [[c]]
      | h :: r => (c :: h) :: r

/-- One component in `filepath.Clean` on a relative path; the stack has the newest component first. -/
def cleanStep (stack : List (List Char)) (part : List Char) : List (List Char) :=
  if part = [] ∨ part = ['.'] then stack
  else if part = ['.', '.'] then
    match stack with
    | [] => [part]
    | top :: t => if top = ['.', '.'] then part :: stack else t
  else part :: stack

/-- `filepath.Clean` of a relative path (the result of the only call starts with `file:`). -/
def cleanRel (p : List Char) : List Char :=
  match ((splitSlash p).foldl cleanStep []).reverse with
  | [] => ['.']
  | h :: t => h ++ (t.map (fun x => '/' :: x)).flatten

/-- `filepath.Join(a, b)` of two non-empty texts, `a` relative. -/
def joinPath (a b : String) : String := String.ofList (cleanRel (a.toList ++ '/' :: b.toList))

/-- `rootDocumentId` (document.go 56). -/
def rootDocumentId : String := "8dabc98a-527b-4f08-baba-315beb368097.json"

/-- The base of relative references and the key of the root document (document.go 78-91).  The working directory
is never the root of the file system here when it is empty. -/
def rootIds (c : PEnv) : String × String :=
  if c.relativeTo = "" then
    let base := match c.fs.cwd with
      | none => "file://./"
      | some cwd => "file://" ++ pathText cwd ++ "/"
    (base, joinPath base rootDocumentId)
  else (c.relativeTo, c.relativeTo)

/-- `NewFileSystemDocumentFetcher` (fetchers.go 115-133): resolve the allowed paths. -/
def realPaths (fs : FileSys) : List String → Except Err (List (List String))
  | [] => .ok []
  | p :: t => match fs.realPath p with
    | none => .error "failed to resolve allowed path"
    | some r => match realPaths fs t with
      | .error e => .error e
      | .ok l => .ok (r :: l)

/-- The file fetcher (document.go 69-75). -/
def makeFileFetcher (c : PEnv) : Except Err (Option (List (List String) × Bool)) :=
  if c.fileOpts.enabled then
    match realPaths c.fs c.fileOpts.allowedPaths with
    | .error e => .error e
    | .ok l => .ok (some (l, c.fileOpts.allowOutsideCwd))
  else .ok none

/-- The initial state (document.go 58-119, reference_hander.go 35-42).  `NewHttpDocumentFetcher` (fetchers.go 34-56)
keeps the allowed hosts as they are: `url.Parse` never returns both a URL and an error. -/
def initState (c : PEnv) (root : SchemaNode) : Except Err PSt :=
  match makeFileFetcher c with
  | .error e => .error e
  | .ok ff =>
    let ids := rootIds c
    .ok {
      parsingId := ids.1
      docs := [(ids.2, root)]
      parsed := [(ids.2, true)]
      aliases := addAliases [] (collectSubSchemaIds c.url (baseURIOf c.url ids.2 root) ids.2 root)
      httpFetcher := if c.httpOpts.enabled then some c.httpOpts else none
      fileFetcher := ff }

/-- The body of `ParseSchema` after the initial state is built (parse.go 254-281). -/
def parseBody (c : PEnv) (fuel : Nat) (root : SchemaNode) : PR := do
  let g ← parseRoot c (parseRec c fuel) root
  parseQueue c (parseRec c fuel) fuel
  pure g

/-- Outcome of `ParseSchema`: an error before parsing starts, or the result of the body with the final state. -/
inductive ParseOutcome where
  | rejected (e : Err)
  | done (r : Res PSt (Gen × Option Err))

/-- `ParseSchema` (parse.go 238-282), on a decoded JSON tree. -/
def parseSchema (c : PEnv) (fuel : Nat) (schema : JVal) : ParseOutcome :=
  match decodeNode schema with
  | none => .rejected "schema does not decode"
  | some root =>
    match initState c root with
    | .error e => .rejected e
    | .ok s =>
      if c.rootResourceOk s.parsingId then
        .done (parseBody c fuel root { s with resources := [(s.parsingId, schema)] })
      else .rejected "cannot add root resource"

/-! ## Options -/

/-- `ParserOptions` (parse.go 15-31): the fields that `withDefaultParseOptions` touches. -/
structure ParserOpts where
  rxString : Option RxArgs := none
  rxPattern : Option RxArgs := none
  maxParseDepth : Int := 0

/-- The default regex options (parse.go 430-434). -/
def defaultRxArgs : RxArgs := { maxUnbounded := 10, suppressRandomBytes := true }

/-- `withDefaultParseOptions` (parse.go 421-440), result of. -/
def withParseDefaults (o : ParserOpts) : RxArgs × RxArgs × Int :=
  let rxString := (getPtr [o.rxString, some defaultRxArgs]).getD defaultRxArgs
  let rxPattern := (getPtr [some rxString, some defaultRxArgs]).getD defaultRxArgs
  (rxString, rxPattern, getInt [o.maxParseDepth, 100])

end Chaff
