import Verif.Model.Number
import Verif.Model.Regen
/-!
# Model of the generators: every `Generate` method

`Gen` is the tree of `Generator` values built by the parser.  Each `Generate` method is a function that
takes the recursive `Generate` as a parameter (`sub`), so that it can be reasoned about on its own; the
knot is tied by `generate`, which counts recursion depth with fuel.
-/

namespace Chaff

/-- `stringGenerator` (string.go 14-20). -/
structure StrGen where
  format : String := ""
  pattern : String := ""
  patternGen : Option RxGen := none
  minLength : Int := 0
  maxLength : Int := 0

/-- `arrayGenerator` (array.go 11-27), without the schema node kept for printing. -/
structure ArrGen (G : Type) where
  tuple : List G := []
  item : Option G := none
  additional : Option G := none
  contains : Option G := none
  unevaluated : Option G := none
  disallowUnevaluated : Bool := false
  unique : Bool := false
  minContains : Int := 0
  minItems : Int := 0
  maxItems : Int := 0
  disallowAdditional : Bool := false

/-- `objectGenerator` (object.go 12-27).  `Properties` is never nil when built by the parser and a nil map
behaves as an empty one.  `PatternProperties` and `PatternPropertiesRegex` have the same keys and are kept
in one list; a missing regex generator is `none`.  `FallbackGenerator` is always `nullGenerator{}`. -/
structure ObjGen (G : Type) where
  props : List (String × G) := []
  patProps : List (String × (G × Option RxGen)) := []
  disallowAdditional : Bool := false
  additional : Option G := none
  minProps : Int := 0
  maxProps : Int := 0
  required : List String := []

/-- `ifConstraint` (if.go 12-16). -/
structure IfC (G : Type) where
  cond : JVal → Bool
  thenGen : Option G
  elseGen : Option G

/-- The three implementations of `constraint` (constraint.go 49-52): `oneOfConstraint` (compiled validators),
`multiConstraint` (constraint functions) and `multipleIfConstraints`. -/
inductive Constr (G : Type) where
  | oneOf (schemas : List (JVal → Bool))
  | multi (functions : List (JVal → Bool))
  | ifs (constraints : List (IfC G))

/-- `Generator` values. -/
inductive Gen where
  | null
  | const (v : JVal)
  | bool
  | enum (values : List JVal)
  | num (g : NumGen)
  | str (g : StrGen)
  | arr (g : ArrGen Gen)
  | obj (g : ObjGen Gen)
  | multi (gs : List Gen)
  | comb (gs : List Gen)
  | constrained (g : Gen) (cs : List (Constr Gen))
  | ref (doc path : String)
  | allOf (g : Gen)
  /-- a nil interface value; calling `Generate` on it panics -/
  | nilGen

/-- The generator returned by `parseNumber` (number.go 54-64). -/
def NumResult.toGen : NumResult → Gen
  | .const q => .const (.num q)
  | .gen g => .num g

/-- What is fixed during a generation run: the world, the options and the table of parsed references
(`referenceHandler.References`). -/
structure Ctx where
  w : World
  o : Opts
  env : String → String → Option Gen

/-- `opts.overallComplexity++`. -/
def tick : M Unit := Comp.modS (fun s => { s with complexity := s.complexity + 1 })

/-- Record a diagnostic (model instrumentation only). -/
def note (d : Diag) : M Unit := Comp.modS (fun s => { s with diags := d :: s.diags })

/-- `opts.ShouldCutoff()`. -/
def cutoff (c : Ctx) : M Bool := fun s => .ok (shouldCutoff c.o s.complexity) s

/-- `opts.ShouldMinimize()`. -/
def minimize (c : Ctx) : M Bool := fun s => .ok (shouldMinimize c.o s.complexity) s

/-- `opts.ScaledRetryBudget(base)`. -/
def budget (c : Ctx) (base : Int) : M Int := fun s => .ok (scaledRetryBudget c.w.fp c.o s.complexity base) s

/-! ## Strings -/

/-- The formats for which faker or the clock is used (string.go 143-162). -/
def fakerFormats : List String :=
  ["date-time", "time", "date", "email", "idn-email", "hostname", "idn-hostname", "ipv4", "ipv6", "uuid",
   "uri", "uri-reference", "iri", "iri-reference"]

/-- `generateFormat` (string.go 141-168). -/
def generateFormat (c : Ctx) (format : String) : M String := do
  if format ∈ fakerFormats then
    let x ← drawAmbient c.w
    pure (c.w.fakerFormat format x)
  else if format = "duration" then
    let n ← randomInt c.w 0 90
    pure s!"P{n}D"
  else if format ∈ ["uri-template", "json-pointer", "relative-json-pointer", "regex"] then
    pure s!"Known but unsupported format: {format}"
  else pure s!"Unsupported Format: {format}"

/-- The filling loop of `stringGenerator.Generate` (string.go 124-127): append sentences until the length
reaches `minLength`.  The first argument bounds the iterations; `minLength` iterations suffice because
sentences are not empty. -/
def fillLoop (c : Ctx) (minLength : Int) : Nat → String → M String
  | 0, sb => if (sb.length : Int) < minLength then Comp.outOfFuel else pure sb
  | n + 1, sb =>
    if (sb.length : Int) < minLength then do
      let x ← drawAmbient c.w
      fillLoop c minLength n (sb ++ c.w.sentence x)
    else pure sb

/-- `stringGenerator.Generate` (string.go 110-135).  Sentences are ASCII, so bytes and characters agree.
A nil `PatternGenerator` with a non-empty pattern would be a nil dereference. -/
def stringGenerate (c : Ctx) (g : StrGen) : M JVal := do
  tick
  if g.format ≠ "" then
    let s ← generateFormat c g.format
    pure (.str s)
  else if g.pattern ≠ "" then
    match g.patternGen with
    | some p => do
      let cs ← rxGenerate c.w p
      pure (.str (String.ofList cs))
    | none => Comp.fail "nil pointer dereference"
  else
    let x ← drawAmbient c.w
    let sb ← fillLoop c g.minLength g.minLength.toNat (c.w.sentence x)
    if g.maxLength ≠ 0 ∧ (sb.length : Int) > g.maxLength then
      if g.maxLength < 0 then Comp.fail "slice bounds out of range"
      else pure (.str (String.ofList (sb.toList.take g.maxLength.toNat)))
    else pure (.str sb)

/-! ## Objects -/

/-- A generated object under construction: `map[string]interface{}`. -/
abbrev ObjMap := List (String × JVal)

/-- One required or optional key (object.go 169-179 and 206-214): generate the declared property, or a
string naming the key when it is not declared. -/
def genKey (c : Ctx) (sub : Gen → M JVal) (g : ObjGen Gen) (pre : String) (key : String) : M JVal :=
  match lookupKV g.props key with
  | some pg => sub pg
  | none => do
    let n ← randomInt c.w 0 9999999
    pure (.str s!"{pre}_{key}_{n}")

/-- The loops over required and optional keys (object.go 169-179 and 206-214). -/
def genKeys (c : Ctx) (sub : Gen → M JVal) (g : ObjGen Gen) (pre : String) : List String → ObjMap → M ObjMap
  | [], acc => pure acc
  | k :: ks, acc => do
    let v ← genKey c sub g pre k
    genKeys c sub g pre ks (insertKV acc k v)

/-- `GeneratePatternProperty` (object.go 260-275). -/
def genPatternProp (c : Ctx) (sub : Gen → M JVal) (g : ObjGen Gen) : M (String × JVal) := do
  if g.patProps = [] then pure ("", .null)
  else
    let ks ← funkKeys c.w g.patProps
    let rx ← choice c.w ks
    match lookupKV g.patProps rx with
    | some (pg, some rg) => do
      let k ← rxGenerate c.w rg
      let v ← sub pg
      pure (String.ofList k, v)
    | _ => pure ("", .null)

/-- The loop over pattern properties (object.go 222-225). -/
def genPatterns (c : Ctx) (sub : Gen → M JVal) (g : ObjGen Gen) : Nat → ObjMap → M ObjMap
  | 0, acc => pure acc
  | n + 1, acc => do
    let kv ← genPatternProp c sub g
    genPatterns c sub g n (insertKV acc kv.1 kv.2)

/-- A loop `for i := i0; i < i0+n; i++ { m[prefix_i] = gen.Generate() }` (object.go 229-231, 251-253). -/
def genNumbered (sub : Gen → M JVal) (gen : Gen) (pre : String) : Nat → Nat → ObjMap → M ObjMap
  | 0, _, acc => pure acc
  | n + 1, i, acc => do
    let v ← sub gen
    genNumbered sub gen pre n (i + 1) (insertKV acc s!"{pre}_{i}" v)

/-- The fallback loop (object.go 233-239). -/
def genFallback (c : Ctx) (sub : Gen → M JVal) (min : Int) : Nat → Nat → ObjMap → M ObjMap
  | 0, _, acc => pure acc
  | n + 1, i, acc =>
    if c.o.suppressFallbackValues ∨ min > goLen acc then genFallback c sub min n (i + 1) acc
    else do
      let v ← sub .null
      genFallback c sub min n (i + 1) (insertKV acc s!"fallback_{i}" v)

/-- The smallest and largest number of properties aimed at (object.go 185-191). -/
def objBounds (c : Ctx) (g : ObjGen Gen) : Int × Int :=
  let min := getInt [g.minProps, c.o.defaultObjectMinProperties]
  let max := getInt [g.maxProps, c.o.defaultObjectMaxProperties]
  (min, if max < min then min + max else max)

/-- The target number of extra properties (object.go 193-200). -/
def objTarget (c : Ctx) (g : ObjGen Gen) : M Int := do
  let minExtras := maxInt 0 ((objBounds c g).1 - goLen g.required)
  let maxExtras := maxInt 0 ((objBounds c g).2 - goLen g.required)
  let t ← randomInt c.w minExtras maxExtras
  let m ← minimize c
  pure (if m then minExtras else t)

/-- The filler added when fewer than `min` properties were generated (object.go 245-255). -/
def objFill (sub : Gen → M JVal) (g : ObjGen Gen) (min : Int) (acc : ObjMap) : M JVal := do
  if goLen acc < min then
    let generator := match g.additional with | some a => a | none => Gen.null
    let r ← genNumbered sub generator "min_filler" (min - goLen acc).toNat acc.length acc
    pure (.obj r)
  else pure (.obj acc)

/-- What follows the required and optional keys (object.go 216-257). -/
def objExtras (c : Ctx) (sub : Gen → M JVal) (g : ObjGen Gen) (target : Int) (acc : ObjMap) : M JVal := do
  let min := (objBounds c g).1
  if g.patProps ≠ [] then
    let acc ← genPatterns c sub g target.toNat acc
    objFill sub g min acc
  else if g.disallowAdditional then pure (.obj acc)
  else match g.additional with
    | some a => do
      let acc ← genNumbered sub a "additional" target.toNat 0 acc
      objFill sub g min acc
    | none => do
      let acc ← genFallback c sub min target.toNat 0 acc
      objFill sub g min acc

/-- `objectGenerator.Generate` (object.go 159-258). -/
def objectGenerate (c : Ctx) (sub : Gen → M JVal) (g : ObjGen Gen) : M JVal := do
  tick
  if ← cutoff c then
    note .cutoff
    pure .null
  else
    let acc ← genKeys c sub g "required" g.required []
    let ks ← funkKeys c.w g.props
    let optionalKeys := uniqString (g.required ++ ks)
    let target ← objTarget c g
    let n := minInt (goLen optionalKeys) target
    let chosen ← stringChoiceMultiple c.w optionalKeys n
    let acc ← genKeys c sub g "optional" chosen acc
    objExtras c sub g (target - goLen chosen) acc

/-! ## Arrays -/

/-- Run all tuple generators (array.go 220-224). -/
def genTuple (sub : Gen → M JVal) : List Gen → M (List JVal)
  | [] => pure []
  | g :: gs => do
    let v ← sub g
    let vs ← genTuple sub gs
    pure (v :: vs)

/-- The retry loop of `generateConsideringUnique` (array.go 314-319). -/
def uniqueLoop (sub : Gen → M JVal) (gen : Gen) (current : List JVal) : Nat → M (Option JVal)
  | 0 => pure none
  | n + 1 => do
    let item ← sub gen
    if current.any (fun x => x.jeq item) then uniqueLoop sub gen current n
    else pure (some item)

/-- The string returned when no unique item was found (array.go 321). -/
def uniqueWarning (attempts : Int) : String :=
  s!"Warning: Unable to generate unique item after {attempts} attempts. Recheck passed schema."

/-- `generateConsideringUnique` (array.go 306-322). -/
def genUnique (c : Ctx) (sub : Gen → M JVal) (unique : Bool) (gen : Gen) (arrayData : List JVal) : M (JVal × Bool) := do
  if unique = false then
    let v ← sub gen
    pure (v, true)
  else
    match ← uniqueLoop sub gen arrayData c.o.maximumUniqueGeneratorAttempts.toNat with
    | some item => pure (item, true)
    | none => do
      note .notUnique
      pure (.str (uniqueWarning c.o.maximumUniqueGeneratorAttempts), false)

/-- The loop over `contains` items (array.go 254-263): `n` iterations remain, `i` is the loop variable. -/
def containsLoop (c : Ctx) (sub : Gen → M JVal) (unique : Bool) (gen : Gen) (minContains : Int) :
    Nat → Int → List JVal → M (List JVal)
  | 0, _, acc => pure acc
  | n + 1, i, acc => do
    let r ← genUnique c sub unique gen acc
    if r.2 = false ∧ i > minContains then pure acc
    else containsLoop c sub unique gen minContains n (i + 1) (acc ++ [r.1])

/-- The loop over remaining items (array.go 281-291).  The first argument bounds the iterations. -/
def itemsLoop (c : Ctx) (sub : Gen → M JVal) (unique : Bool) (gen : Gen) (itemsToGenerate minItems : Int) :
    Nat → Int → List JVal → M (List JVal)
  | 0, i, acc => if i < itemsToGenerate ∨ minItems > goLen acc then Comp.outOfFuel else pure acc
  | n + 1, i, acc =>
    if i < itemsToGenerate ∨ minItems > goLen acc then do
      let r ← genUnique c sub unique gen acc
      if r.2 = false ∧ i > minItems then pure acc
      else itemsLoop c sub unique gen itemsToGenerate minItems n (i + 1) (acc ++ [r.1])
    else pure acc

/-- The generator used for ordinary items (array.go 226-238). -/
def itemGenOf (g : ArrGen Gen) : Gen :=
  match g.item with
  | some i => i
  | none => match g.additional with
    | some a => a
    | none => match g.unevaluated with
      | some u => u
      | none => if g.unique then .str {} else .null

/-- The bounds used by `arrayGenerator.Generate` (array.go 244-245 and 265-267). -/
def arrBounds (c : Ctx) (g : ArrGen Gen) : Int × Int :=
  let minItems := getInt [g.minItems, c.o.defaultArrayMinItems]
  let maxItems := getInt [g.maxItems, c.o.defaultArrayMaxItems]
  (minItems, if maxItems < minItems then minItems + c.o.defaultArrayMaxItems else maxItems)

/-- The `contains` stage (array.go 248-263). -/
def containsStage (c : Ctx) (sub : Gen → M JVal) (g : ArrGen Gen) (tupleData : List JVal) : M (List JVal) :=
  match g.contains with
  | some cg =>
    containsLoop c sub g.unique cg (getInt [g.minContains, 1]) (getInt [g.minContains, 1]).toNat 0 tupleData
  | none => pure tupleData

/-- The number of ordinary items aimed at (array.go 269-277). -/
def itemsTarget (c : Ctx) (g : ArrGen Gen) : M Int := do
  let k ← randomInt c.w 0 (maxInt 0 ((arrBounds c g).2 - (goLen g.tuple + g.minContains)))
  let m ← minimize c
  pure (if g.disallowUnevaluated || m then 0 else k)

/-- The ordinary items (array.go 279-293). -/
def itemsStage (c : Ctx) (sub : Gen → M JVal) (g : ArrGen Gen) (target : Int) (acc : List JVal) : M (List JVal) :=
  itemsLoop c sub g.unique (itemGenOf g) target (arrBounds c g).1
    (max target ((arrBounds c g).1 - goLen acc)).toNat 0 acc

/-- `arrayGenerator.Generate` (array.go 211-294). -/
def arrayGenerate (c : Ctx) (sub : Gen → M JVal) (g : ArrGen Gen) : M JVal := do
  tick
  if ← cutoff c then
    note .cutoff
    pure .null
  else
    let tupleData ← genTuple sub g.tuple
    if g.disallowAdditional then pure (.arr tupleData)
    else
      let acc ← containsStage c sub g tupleData
      let target ← itemsTarget c g
      let r ← itemsStage c sub g target acc
      pure (.arr r)

/-! ## Combinations, constraints, references -/

/-- `combinationGenerator.Generate` (combination.go 116-124). -/
def combGenerate (c : Ctx) (sub : Gen → M JVal) (gs : List Gen) : M JVal := do
  tick
  if ← cutoff c then
    note .cutoff
    pure .null
  else
    let i ← randomInt c.w 0 (goLen gs)
    let g ← indexAt gs i
    sub g

/-- `multipleTypeGenerator.Generate` (multiple_type.go 38-41). -/
def multiGenerate (c : Ctx) (sub : Gen → M JVal) (gs : List Gen) : M JVal := do
  let i ← randomInt c.w 0 (goLen gs)
  let g ← indexAt gs i
  sub g

/-- `oneOfConstraint.constraintPassed` (combination.go 171-185): exactly one schema accepts, stopping as
soon as two do. -/
def oneOfPassed (schemas : List (JVal → Bool)) (v : JVal) : Bool :=
  go schemas 0
where
  go : List (JVal → Bool) → Nat → Bool
  | [], n => n == 1
  | p :: ps, n =>
    let n' := if p v then n + 1 else n
    if n' > 1 then false else go ps n'

/-- `multiConstraint.constraintPassed` (constraint.go 191-198). -/
def multiPassed (functions : List (JVal → Bool)) (v : JVal) : Bool := functions.all (fun f => f v)

/-- The loop of `oneOfConstraint.Apply` (combination.go 159-166). -/
def oneOfLoop (sub : Gen → M JVal) (schemas : List (JVal → Bool)) (g : Gen) : Nat → JVal → M (Option JVal)
  | 0, _ => pure none
  | n + 1, v => do
    tick
    if oneOfPassed schemas v then pure (some v)
    else
      let v' ← sub g
      oneOfLoop sub schemas g n v'

/-- The string returned when no attempt satisfied oneOf (combination.go 168). -/
def oneOfFailure (attempts : Int) : String :=
  s!"Failed to generate a valid value for the following oneOf constraint after {attempts} attempts"

/-- The loop of `multiConstraint.Apply` (constraint.go 180-186). -/
def multiLoop (sub : Gen → M JVal) (fns : List (JVal → Bool)) (g : Gen) : Nat → JVal → M (Option JVal)
  | 0, _ => pure none
  | n + 1, v => do
    if multiPassed fns v then pure (some v)
    else
      let v' ← sub g
      multiLoop sub fns g n v'

/-- The string returned when no attempt satisfied the constraints (constraint.go 188); the description of
the constraints inside it is dropped. -/
def multiFailure (attempts : Int) : String :=
  s!"Failed to generate a valid value for the following constraints after {attempts} attempts"

/-- `AttemptToSatisfyIfStatement` (if.go 149-175); `none` is "not satisfied". -/
def attemptIf (sub : Gen → M JVal) (ic : IfC Gen) (v : JVal) : M (Option JVal) := do
  if ic.cond v then
    match ic.thenGen with
    | none => pure (some v)
    | some t =>
      let tv ← sub t
      pure (if ic.cond tv then some tv else none)
  else
    match ic.elseGen with
    | none => pure (some v)
    | some e =>
      let ev ← sub e
      pure (if !ic.cond ev then some ev else none)

/-- One pass over the constraints in the drawn order (if.go 207-214). -/
def ifsPass (sub : Gen → M JVal) (cs : List (IfC Gen)) : List Nat → JVal → M (Option JVal)
  | [], v => pure (some v)
  | i :: is, v => do
    let ic ← indexAt cs i
    match ← attemptIf sub ic v with
    | some v' => ifsPass sub cs is v'
    | none => pure none

/-- The loop of `multipleIfConstraints.Apply` (if.go 201-223). -/
def ifsLoop (c : Ctx) (sub : Gen → M JVal) (cs : List (IfC Gen)) (g : Gen) : Nat → JVal → M (Option JVal)
  | 0, _ => pure none
  | n + 1, v => do
    tick
    let p ← perm (drawSeeded c.w) cs.length
    match ← ifsPass sub cs p v with
    | some r => pure (some r)
    | none =>
      let v' ← sub g
      ifsLoop c sub cs g n v'

/-- The string returned when no attempt satisfied the conditionals (if.go 225-228); the description of the
constraints inside it is dropped. -/
def ifsFailure (attempts : Int) : String :=
  s!"Failed to generate a valid value for the following if constraints after {attempts} attempts"

/-- `constraint.Apply` for the three kinds (combination.go 157-169, constraint.go 178-189, if.go 197-229). -/
def applyConstr (c : Ctx) (sub : Gen → M JVal) (g : Gen) (k : Constr Gen) (v : JVal) : M JVal :=
  match k with
  | .oneOf schemas => do
    let n ← budget c c.o.maximumOneOfAttempts
    match ← oneOfLoop sub schemas g n.toNat v with
    | some r => pure r
    | none => do
      note .oneOfFailed
      pure (.str (oneOfFailure n))
  | .multi fns => do
    let n ← budget c c.o.maximumUniqueGeneratorAttempts
    match ← multiLoop sub fns g n.toNat v with
    | some r => pure r
    | none => do
      note .constraintsFailed
      pure (.str (multiFailure n))
  | .ifs cs => do
    let n ← budget c c.o.maximumIfAttempts
    match ← ifsLoop c sub cs g n.toNat v with
    | some r => pure r
    | none => do
      note .ifFailed
      pure (.str (ifsFailure c.o.maximumIfAttempts))

/-- The loop over constraints of `constrainedGenerator.Generate` (combination.go 196-199). -/
def applyAll (c : Ctx) (sub : Gen → M JVal) (g : Gen) : List (Constr Gen) → JVal → M JVal
  | [], v => pure v
  | k :: ks, v => do
    tick
    let v' ← applyConstr c sub g k v
    applyAll c sub g ks v'

/-- `constrainedGenerator.Generate` (combination.go 191-202). -/
def constrainedGenerate (c : Ctx) (sub : Gen → M JVal) (g : Gen) (cs : List (Constr Gen)) : M JVal := do
  let v ← sub g
  if ← cutoff c then
    note .cutoff
    pure v
  else applyAll c sub g cs v

/-- The key of a reference on the resolution stack (`PushRefResolution`, reference_hander.go 113-115). -/
def refKey (doc path : String) : String := doc ++ "|" ++ path

/-- Push on the resolution stack (reference_hander.go 113-115). -/
def pushRef (doc path : String) : M Unit := Comp.modS (fun s => { s with refs := refKey doc path :: s.refs })

/-- Pop from the resolution stack (reference_hander.go 117-119); popping an empty stack panics in Go. -/
def popRef : M Unit := fun s =>
  match s.refs with
  | [] => .panic "slice bounds out of range"
  | _ :: t => .ok () { s with refs := t }

/-- `GetFormattedResolutions` (reference_hander.go 139-141). -/
def formatRefs (refs : List String) : String := String.intercalate " -> \n" refs.reverse

/-- Entering a resolved reference (reference.go 61-73): depth check, cycle check, then generate with the
reference on the stack. -/
def refEnter (c : Ctx) (sub : Gen → M JVal) (doc path : String) (target : Gen) : M JVal := fun s =>
  if goLen s.refs > c.o.maximumReferenceDepth then
    (do
      note .maxDepth
      pure (.str s!"Maximum reference resolution depth of {c.o.maximumReferenceDepth} exceeded: {formatRefs s.refs}") : M JVal) s
  else if refKey doc path ∈ s.refs ∧ c.o.bypassCyclicReferenceCheck = false then
    (do
      note .cyclic
      pure (.str s!"Cyclic reference found: {formatRefs s.refs} \n {path} ") : M JVal) s
  else
    (do
      pushRef doc path
      let v ← sub target
      popRef
      pure v : M JVal) s

/-- `referenceGenerator.Generate` (reference.go 48-74). -/
def refGenerate (c : Ctx) (sub : Gen → M JVal) (doc path : String) : M JVal := do
  tick
  if ← cutoff c then
    note .cutoff
    pure .null
  else
    match c.env doc path with
    | none => do
      note .unresolvable
      pure (.str s!"Unresolvable reference: document '{doc}' with path '{path}'")
    | some target => refEnter c sub doc path target

/-- One `Generate` call on any generator, with the recursive calls given by `sub`. -/
def genStep (c : Ctx) (sub : Gen → M JVal) : Gen → M JVal
  | .null => do tick; pure .null                     -- null.go 18-21
  | .const v => pure v                               -- const.go 41-43
  | .bool => do                                      -- boolean.go 16-18
    let b ← randomBool c.w
    pure (.bool b)
  | .enum vs => do                                   -- enum.go 53-56
    tick
    choice c.w vs
  | .num g => do                                     -- number.go 176-210
    tick
    numberGenerate c.w g
  | .str g => stringGenerate c g
  | .arr g => arrayGenerate c sub g
  | .obj g => objectGenerate c sub g
  | .multi gs => multiGenerate c sub gs
  | .comb gs => combGenerate c sub gs
  | .constrained g cs => constrainedGenerate c sub g cs
  | .ref doc path => refGenerate c sub doc path
  | .allOf g => sub g                                -- all_of.go 58-60
  | .nilGen => Comp.fail "invalid memory address or nil pointer dereference"

/-- `Generate` on any generator with a bound on the recursion depth. -/
def generate (c : Ctx) : Nat → Gen → M JVal
  | 0, _ => Comp.outOfFuel
  | n + 1, g => genStep c (generate c n) g

/-- `RootGenerator.Generate` (root.go 72-75): fill in option defaults, fresh state, then generate. -/
def rootGenerate (w : World) (o : Opts) (env : String → String → Option Gen) (fuel : Nat) (g : Gen) :
    Res GSt JVal :=
  generate { w := w, o := withGeneratorOptionsDefaults o, env := env } fuel g {}

end Chaff
