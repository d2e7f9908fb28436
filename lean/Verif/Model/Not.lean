import Verif.Model.Merge
/-!
# Model of not.go (everything but `parseNot` itself, which is in Parse.lean)
-/

namespace Chaff

/-- `warnField` (not.go 1119-1124). -/
def warnField (field : String) (e : Err) : P Unit := addErrorSub ("/" ++ field) e

/-- `warnUnsupportedField` (not.go 1113-1117). -/
def warnUnsupported (field : String) (b : Bool) : P Unit :=
  if b then warnField field "not yet supported" else pure ()

/-! ## Types -/

/-- `notNodeHasValueConstraints` (not.go 777-799). -/
def notNodeHasValueConstraints (n : SchemaNode) : Bool :=
  n.minLength.isSome || n.maxLength.isSome || n.pattern.isSome || n.format.isSome ||
  n.minimum.isSome || n.maximum.isSome || n.exclusiveMinimum.isSome || n.exclusiveMaximum.isSome ||
  n.multipleOf.isSome ||
  n.properties.isSome || n.required.isSome || n.minProperties.isSome || n.maxProperties.isSome ||
  n.items.isSome || n.minItems.isSome || n.maxItems.isSome || n.prefixItems.isSome ||
  n.const.isSome || n.enum.isSome

/-- `getNodeTypes` (not.go 827-845). -/
def getNodeTypes (n : SchemaNode) (notType : Bool) : List String :=
  match n.type with
  | none => if notType then [] else typeAll
  | some t =>
    if t.single ≠ "" then [t.single]
    else if (t.multiple.getD []).length ≠ 0 then t.multiple.getD []
    else if notType then [] else typeAll

/-- `expandNotTypes` (not.go 852-861). -/
def expandNotTypes (l : List String) : List String :=
  if "number" ∈ l ∧ "integer" ∉ l then l ++ ["integer"] else l

/-- `nodeTypeContains` (not.go 863-869). -/
def nodeTypeContains (t : Option MultipleType) (candidate : String) : Bool :=
  match t with
  | none => false
  | some t => decide (t.single = candidate) || decide (candidate ∈ t.multiple.getD [])

/-- `resolveType` (not.go 802-822). -/
def resolveType (node notNode : SchemaNode) : Except Err MultipleType :=
  let notTypes := expandNotTypes (getNodeTypes notNode true)
  let candidates := (getNodeTypes node false).filter
    (fun t => ! (decide (t ∈ notTypes) && ! notNodeHasValueConstraints notNode))
  if candidates.length = 0 then .error "Failed to find candidate type"
  else .ok (newMultipleTypeFromSlice candidates)

/-! ## Integer bounds -/

/-- `minInt` (not.go 872). -/
def notMinInt : Int := -2 ^ 31 + 1
/-- `maxInt` (not.go 873). -/
def notMaxInt : Int := 2 ^ 31 - 1 - 1

/-- `minToNil` (not.go 1015-1021). -/
def minToNil (v : Int) : Option Int := if v ≤ notMinInt + 10 then none else some v
/-- `maxToNil` (not.go 1023-1028). -/
def maxToNil (v : Int) : Option Int := if v ≥ notMaxInt - 10 then none else some v

/-- `addIfNotNilInt` (not.go 1054-1061). -/
def addIfNotNilInt (v : Option Int) (d : Int) : Option Int := v.map (fun x => x + d)

/-- `resolveBoundsInt` (not.go 875-935); the flag tells whether "no valid range" is reported.  Go `int`
overflow is not modelled. -/
def resolveBoundsInt (min max notMin notMax : Option Int) : (Option Int × Option Int) × Bool :=
  match notMin, notMax with
  | none, none => ((min, max), false)
  | notMin, notMax =>
    match min, max with
    | none, none =>
      match notMin, notMax with
      | some m, _ => ((none, maxToNil (m - 1)), false)
      | none, some m => ((minToNil (m + 1), none), false)
      | none, none => ((none, none), false)
    | min, max =>
      let x1 := getZeroIfNil min notMinInt
      let x2 := getZeroIfNil max notMaxInt
      let y1 := getZeroIfNil notMin notMinInt
      let y2 := getZeroIfNil (addIfNotNilInt notMax 1) notMaxInt
      if y2 < x1 ∨ y1 > x2 then ((minToNil x1, maxToNil x2), false)
      else if y1 ≤ x1 ∧ y2 ≥ x2 then ((min, max), true)
      else if y1 ≤ x1 ∧ y2 < x2 then ((minToNil (y2 + 1), maxToNil x2), false)
      else if y1 > x1 ∧ y2 ≥ x2 then ((minToNil x1, maxToNil (y1 - 1)), false)
      else ((minToNil x1, maxToNil (y1 - 1)), false)

/-- `resolveBoundsInt` with its warning (not.go 914-918). -/
def boundsInt (maxField : String) (min max notMin notMax : Option Int) : P (Option Int × Option Int) :=
  let r := resolveBoundsInt min max notMin notMax
  if r.2 then do
    warnField maxField "no valid range exists"
    pure r.1
  else pure r.1

/-! ## Float bounds -/

/-- `minToNilFloat64` (not.go 1030-1036). -/
def minToNilF (F : FP) (v off : Rat) : Option Rat :=
  if v ≤ F.add (lowerBound F) (F.mul off 10) then none else some v
/-- `maxToNilFloat64` (not.go 1038-1043). -/
def maxToNilF (F : FP) (v off : Rat) : Option Rat :=
  if v ≥ F.sub (upperBound F) (F.mul off 10) then none else some v

/-- Result of `resolveBoundsFloat64`: the range, an alternative range, and whether "no valid range" is reported. -/
structure FloatBounds where
  min : Option Rat := none
  max : Option Rat := none
  altMin : Option Rat := none
  altMax : Option Rat := none
  noRange : Bool := false

/-- The combined lower bound (not.go 947, 950). -/
def lowerOf (F : FP) (off : Rat) (incl excl : Option Rat) : Option Rat := maxPtr [incl, addIfNotNil F excl off]
/-- The combined upper bound (not.go 948, 951). -/
def upperOf (F : FP) (off : Rat) (incl excl : Option Rat) : Option Rat := minPtr [incl, addIfNotNil F excl (-off)]

/-- The part of `resolveBoundsFloat64` that works on combined bounds (not.go 953-1010). -/
def resolveBoundsF (F : FP) (off : Rat) (x1 x2 y1 y2 : Option Rat) : FloatBounds :=
  match y1, y2 with
  | none, none => { min := x1, max := x2 }
  | y1, y2 =>
    match x1, x2 with
    | none, none =>
      match y1, y2 with
      | some y, _ => { max := some (F.sub y off) }
      | none, some y => { min := some (F.add y off) }
      | none, none => {}
    | x1, x2 =>
      let x1 := getZeroIfNil x1 (lowerBound F)
      let x2 := getZeroIfNil x2 (upperBound F)
      let y1 := getZeroIfNil y1 (lowerBound F)
      let y2 := getZeroIfNil y2 (upperBound F)
      if y2 < x1 ∨ y1 > x2 then { min := minToNilF F x1 off, max := maxToNilF F x2 off }
      else if y1 ≤ x1 ∧ y2 ≥ x2 then { min := minToNilF F x1 off, max := maxToNilF F x2 off, noRange := true }
      else if y1 ≤ x1 ∧ y2 < x2 then { min := minToNilF F (F.add y2 off) off, max := maxToNilF F x2 off }
      else if y1 > x1 ∧ y2 ≥ x2 then { min := minToNilF F x1 off, max := maxToNilF F (F.sub y1 off) off }
      else
        { min := minToNilF F x1 off, max := maxToNilF F (F.sub y1 off) off
          altMin := minToNilF F (F.add y2 off) off, altMax := maxToNilF F x2 off }

/-- `resolveBoundsFloat64` (not.go 938-1011) for the number keywords of two nodes. -/
def resolveBoundsNodes (F : FP) (off : Rat) (node notNode : SchemaNode) : FloatBounds :=
  resolveBoundsF F off (lowerOf F off node.minimum node.exclusiveMinimum) (upperOf F off node.maximum node.exclusiveMaximum)
    (lowerOf F off notNode.minimum notNode.exclusiveMinimum) (upperOf F off notNode.maximum notNode.exclusiveMaximum)

/-! ## Enumerating multiples -/

/-- The loop of `computeValidMultipleOfValues` (not.go 1082-1091).  The first argument is the number of
iterations left out of 10000; the second the number of candidates left out of 200. -/
def multiplesLoop (F : FP) (max multipleOf notMultipleOf : Rat) : Nat → Nat → Rat → List Rat
  | 0, _, _ => []
  | _, 0, _ => []
  | k + 1, room + 1, value =>
    if value ≤ max then
      if fmod value notMultipleOf ≠ 0 then
        value :: multiplesLoop F max multipleOf notMultipleOf k room (F.add value multipleOf)
      else multiplesLoop F max multipleOf notMultipleOf k (room + 1) (F.add value multipleOf)
    else []

/-- The first candidate (not.go 1074-1080).  The quotient and product are finite here (a float64 infinity
falls back to `min`; infinities are not represented). -/
def multiplesStart (F : FP) (min multipleOf : Rat) : Rat :=
  if multipleOf > infinitesimal F then F.mul (fCeil (F.div min multipleOf) : Rat) multipleOf else min

/-- `computeValidMultipleOfValues` (not.go 1063-1097); `none` is the error. -/
def computeMultiples (F : FP) (min max multipleOf notMultipleOf : Rat) : Option (List Rat) :=
  match multiplesLoop F max multipleOf notMultipleOf 10000 200 (multiplesStart F min multipleOf) with
  | [] => none
  | l => some l

/-- Filtering an existing enum (not.go 354-369).  `newNode.Enum` is nil whenever this point is reached. -/
def filterEnum (validValues : List Rat) (enum : List JVal) : List JVal :=
  enum.filter (fun v => match v with | .num q => decide (q ∈ validValues) | _ => false)

/-- Writing the enumeration (not.go 350-376). -/
def setMultiples (validValues : List Rat) (newNode : SchemaNode) : P SchemaNode :=
  let n := { newNode with multipleOf := none, maximum := none, minimum := none }
  match n.enum with
  | some (v :: l) => do
    let f := filterEnum validValues (v :: l)
    if f.length = 0 then warnField "not/multipleOf" "Unable to find any valid enum values"
    pure { n with enum := some f }
  | _ => pure { n with enum := some (validValues.map .num) }

/-- The candidates, from the first range or else from the alternative one (not.go 332-348).  `none` means that
the function warns and returns.  The condition `err != nil && altMin != nil || altMax != nil` uses the
alternative range whenever it has an upper bound. -/
def chooseMultiples (F : FP) (b : FloatBounds) (multipleOf notMultipleOf : Rat) : Option (List Rat) :=
  let first := computeMultiples F (getZeroIfNil b.min (lowerBound F)) (getZeroIfNil b.max (upperBound F))
    multipleOf notMultipleOf
  if (first.isNone ∧ b.altMin.isSome) ∨ b.altMax.isSome then
    computeMultiples F (getZeroIfNil b.altMin (lowerBound F)) (getZeroIfNil b.altMax (upperBound F))
      multipleOf notMultipleOf
  else some (first.getD [])

/-- The treatment of `multipleOf` (not.go 296-381), given the effective factors. -/
def applyMultiples (F : FP) (b : FloatBounds) (multipleOf notMultipleOf : Rat) (node newNode : SchemaNode) :
    P SchemaNode :=
  if multipleOf = 0 ∧ notMultipleOf = 0 then pure newNode
  else if multipleOf ≠ 0 ∧ notMultipleOf ≠ 0 ∧ multipleOf = notMultipleOf then do
    warnField "not/multipleOf" "cannot have multipleOf and not multipleOf set to the same value"
    pure newNode
  else if multipleOf ≠ 0 ∧ notMultipleOf ≠ 0 ∧ fmod multipleOf notMultipleOf = 0 then do
    warnField "not/multipleOf" "not/multipleOf cannot be a multiple of multipleOf"
    pure newNode
  else if notMultipleOf ≠ 0 ∧ notMultipleOf ≤ infinitesimal F then do
    warnField "not/multipleOf" "multipleOf is too small to enforce in a Not Clause"
    pure newNode
  else if notMultipleOf ≠ 0 then
    match chooseMultiples F b (if multipleOf = 0 then infinitesimal F else multipleOf) notMultipleOf with
    | none => do
      warnField "not/multipleOf" "unable to compute valid multipleOf values"
      pure newNode
    | some validValues => setMultiples validValues newNode
  else pure { newNode with multipleOf := node.multipleOf }

/-- The effective `multipleOf` (not.go 297, 303-305). -/
def effMultipleOf (node notNode newNode : SchemaNode) : Rat :=
  if getZeroIfNil node.multipleOf 0 = 0 ∧ nodeTypeContains newNode.type "integer" = true ∧
      nodeTypeContains notNode.type "integer" = false then 1
  else getZeroIfNil node.multipleOf 0

/-- The effective `not/multipleOf` (not.go 298, 308-310). -/
def effNotMultipleOf (notNode : SchemaNode) : Rat :=
  if getZeroIfNil notNode.multipleOf 0 = 0 ∧ nodeTypeContains notNode.type "integer" = true then 1
  else getZeroIfNil notNode.multipleOf 0

/-- The step used to exclude a bound (not.go 277-280). -/
def notOffset (F : FP) (newNode : SchemaNode) : Rat :=
  if nodeTypeContains newNode.type "integer" then 1 else infinitesimal F

/-- `notApplyNumberAndInteger` (not.go 274-388). -/
def notApplyNumber (F : FP) (node notNode newNode : SchemaNode) : P SchemaNode := do
  let b := resolveBoundsNodes F (notOffset F newNode) node notNode
  if b.noRange then warnField "maximum" "no valid range exists"
  applyMultiples F b (effMultipleOf node notNode newNode) (effNotMultipleOf notNode) node
    { newNode with minimum := b.min, maximum := b.max }

/-! ## Strings, enum, const -/

/-- `notApplyString` (not.go 227-266). -/
def notApplyString (c : PEnv) (node notNode newNode : SchemaNode) (cc : ConstraintColl) :
    P (SchemaNode × ConstraintColl) := do
  let b ← boundsInt "maxLength" node.minLength node.maxLength notNode.minLength notNode.maxLength
  let newNode := { newNode with minLength := b.1, maxLength := b.2, pattern := node.pattern, format := node.format }
  match notNode.pattern with
  | some p =>
    if getZeroIfNil newNode.pattern "" = p then do
      warnField "not/pattern" "pattern and not/pattern are the same"
      pure (newNode, cc)
    else if p ∈ cc.notRegex then pure (newNode, cc)
    else match c.rxCompile p with
      | none => do
        warnField "not/pattern" "invalid regex pattern given in not clause"
        pure (newNode, cc)
      | some _ => pure (newNode, { cc with notRegex := cc.notRegex ++ [p] })
  | none => match notNode.format with
    | none => pure (newNode, cc)
    | some f =>
      if getZeroIfNil newNode.format "" = f then do
        warnField "not/format" "format and not/format are the same"
        pure (newNode, cc)
      else if f ∈ cc.notFormats then pure (newNode, cc)
      else match c.formats f with
        | none => do
          warnField "not/format" "invalid format given in not clause"
          pure (newNode, cc)
        | some _ => pure (newNode, { cc with notFormats := cc.notFormats ++ [f] })

/-- Values of the first list whose JSON text is not in the second (`funk.DifferenceString`, not.go 416-419). -/
def diffValues (a b : List JVal) : List JVal := a.filter (fun v => ! b.any (fun w => JVal.jeq v w))

/-- The end of `notApplyEnum` (not.go 416-433): keep the values not excluded.  The values are re-read from their
JSON text, which gives back the same values. -/
def notEnumRest (node notNode newNode : SchemaNode) : P SchemaNode :=
  let d := diffValues (getZeroIfNil node.enum []) (getZeroIfNil notNode.enum [])
  if d.length = 0 then do
    warnField "not/enum" "not/enum contains all the values of enum"
    pure newNode
  else pure { newNode with enum := some d }

/-- `notApplyEnum` (not.go 390-434). -/
def notApplyEnum (node notNode newNode : SchemaNode) (cc : ConstraintColl) : P (SchemaNode × ConstraintColl) :=
  if node.enum.isNone ∧ notNode.enum.isNone then pure (newNode, cc)
  else
    let notEnum := getZeroIfNil notNode.enum []
    if (getZeroIfNil node.enum []).length = 0 ∧ notEnum.length ≠ 0 then
      match node.const with
      | none => pure (newNode, { cc with notValues := addValues cc.notValues notEnum })
      | some v =>
        if notEnum.any (fun w => JVal.jeq v w) then do
          warnField "not/enum" "not/enum contains the same value as const"
          pure (newNode, cc)
        else do
          let n ← notEnumRest node notNode newNode
          pure (n, cc)
    else do
      let n ← notEnumRest node notNode newNode
      pure (n, cc)

/-- Is the only allowed value the forbidden constant (not.go 455-463)? -/
def onlyEnumIs (enum : Option (List JVal)) (v : JVal) : Bool :=
  match enum with
  | some [w] => JVal.jeq w v
  | _ => false

/-- Is the only allowed value, by `const`, the forbidden constant (not.go 446-453)? -/
def constIs (const : Option JVal) (v : JVal) : Bool :=
  match const with
  | some w => JVal.jeq w v
  | none => false

/-- `notApplyConst` (not.go 438-467). -/
def notApplyConst (node notNode newNode : SchemaNode) (cc : ConstraintColl) : P (SchemaNode × ConstraintColl) :=
  let newNode := { newNode with const := node.const }
  match notNode.const with
  | none => pure (newNode, cc)
  | some v =>
    if constIs node.const v = true then do
      warnField "not/const" "const and not/const are the same"
      pure (newNode, cc)
    else if onlyEnumIs newNode.enum v then do
      warnField "not/const" "not/const is the only value of enum"
      pure (newNode, cc)
    else pure (newNode, { cc with notValues := addValues cc.notValues [v] })

/-! ## Arrays and objects -/

/-- The recursive call of `notMerge`: the merged node and its constraints. -/
abbrev NotRec := SchemaNode → SchemaNode → P (SchemaNode × ConstraintColl)

/-- `notMergeSubNode` (not.go 653-666). -/
def notSubNode (rec : NotRec) (scope : String) (node notNode : SchemaNode) : P SchemaNode := do
  pushPath scope
  let r ← rec node notNode
  popPath scope
  let cc := match node.constraints with
    | some x => r.2.merge x
    | none => r.2
  pure { r.1 with constraints := some cc }

/-- `notMergeSubNodePtr` (not.go 668-677). -/
def notSubPtr (rec : NotRec) (scope : String) (node notNode : Option SchemaNode) : P (Option SchemaNode) :=
  if node.isNone ∧ notNode.isNone then pure none
  else do
    let r ← notSubNode rec scope (getZeroIfNil node {}) (getZeroIfNil notNode {})
    pure (some r)

/-- `notMergeItemData` (not.go 679-719). -/
def notItems (rec : NotRec) (node notNode : Option (ItemsData SchemaNode)) : P (Option (ItemsData SchemaNode)) :=
  match notNode with
  | none => pure node
  | some nn =>
    let n : ItemsData SchemaNode := getZeroIfNil node {}
    if n.disallow = true ∧ nn.disallow = true then do
      warnField "not/additionalItems" "items and not/items are both false"
      pure (some n)
    else if n.disallow then pure (some n)
    else do
      if n.nodes.isSome ∨ nn.nodes.isSome then warnField "not/items [As Array]" "not yet supported"
      if n.node.isNone ∧ nn.node.isNone then pure none
      else do
        let r ← notSubNode rec "/not/items" (getZeroIfNil n.node {}) (getZeroIfNil nn.node {})
        pure (some { node := some r, nodes := none, disallow := false })

/-- `notMergeSchemaNodeOrFalse` (not.go 721-746). -/
def notOrFalse (rec : NotRec) (scope : String) (node notNode : Option (NodeOrFalse SchemaNode)) :
    P (Option (NodeOrFalse SchemaNode)) :=
  if node.isNone ∧ notNode.isNone then pure none
  else
    let n : NodeOrFalse SchemaNode := getZeroIfNil node {}
    let nn : NodeOrFalse SchemaNode := getZeroIfNil notNode {}
    if n.isFalse = true ∧ nn.isFalse = true then do
      warnField "" "both false"
      pure (some n)
    else if n.isFalse then pure (some n)
    else do
      let r ← notSubNode rec scope (getZeroIfNil n.schema {}) (getZeroIfNil nn.schema {})
      pure (some { schema := some r, isFalse := false })

/-- The loop of `notMergePrefixNodes` (not.go 759-765), with the number of positions left and the index. -/
def notPrefixLoop (rec : NotRec) (l nl : List SchemaNode) (extra : SchemaNode) : Nat → Nat → P (List SchemaNode)
  | 0, _ => pure []
  | k + 1, i => do
    let r ← notSubNode rec s!"/not/prefixItems/{i}" (getIndexOrDefault l i extra) (getIndexOrDefault nl i {})
    let t ← notPrefixLoop rec l nl extra k (i + 1)
    pure (r :: t)

/-- `notMergePrefixNodes` (not.go 748-768). -/
def notPrefix (rec : NotRec) (node notNode : Option (List SchemaNode)) (items : Option (ItemsData SchemaNode)) :
    P (Option (List SchemaNode)) :=
  if node.isNone ∧ notNode.isNone then pure none
  else
    let l := getZeroIfNil node []
    let nl := getZeroIfNil notNode []
    let extra := getZeroIfNil (getZeroIfNil items {}).node {}
    do
      let r ← notPrefixLoop rec l nl extra (max l.length nl.length) 0
      pure (some r)

/-- `resolveBool` (not.go 1099-1110): the warning is given a nil parser state, which panics. -/
def resolveBool (value notValue : Option Bool) : P (Option Bool) :=
  match value, notValue with
  | none, none => pure none
  | some a, some b => if a = b then Comp.fail "nil pointer dereference" else pure (some a)
  | some a, none => pure (some a)
  | none, some b => pure (some b)

/-- Limiting `minContains` (not.go 494-497). -/
def limitContains (newNode : SchemaNode) : P SchemaNode :=
  match newNode.minContains, newNode.maxItems with
  | some a, some b =>
    if a > b then do
      warnField "not/minContains" "minContains cannot be greater than maxItems"
      pure { newNode with minContains := some b }
    else pure newNode
  | _, _ => pure newNode

/-- `notApplyArray` (not.go 479-512). -/
def notApplyArray (rec : NotRec) (node notNode newNode : SchemaNode) : P SchemaNode := do
  let b1 ← boundsInt "maxItems" node.minItems node.maxItems notNode.minItems notNode.maxItems
  let b2 ← boundsInt "maxContains" node.minContains node.maxContains notNode.minContains notNode.maxContains
  let n ← limitContains
    { newNode with minItems := b1.1, maxItems := b1.2, minContains := b2.1, maxContains := b2.2 }
  let items ← notItems rec node.items notNode.items
  if notNode.uniqueItems = some true then warnField "not/uniqueItems" "cannot have not/uniqueItems set to true"
  let uniqueItems ← resolveBool node.uniqueItems notNode.uniqueItems
  let prefixItems ← notPrefix rec node.prefixItems notNode.prefixItems items
  let unevaluatedItems ← notOrFalse rec "/not/unevaluatedItems" node.unevaluatedItems notNode.unevaluatedItems
  let contains ← notSubPtr rec "/not/contains" node.contains notNode.contains
  pure { n with
    items := items
    uniqueItems := uniqueItems
    prefixItems := prefixItems
    unevaluatedItems := unevaluatedItems
    contains := contains }

/-- The loop over the properties (not.go 535-555).  A key listed twice is merged twice, with the same result up
to the path and errors, as in the code. -/
def notPropsLoop (rec : NotRec) (props notProps : List (String × SchemaNode)) :
    List String → List (String × SchemaNode) → P (List (String × SchemaNode))
  | [], acc => pure acc
  | k :: t, acc =>
    match lookupKV notProps k with
    | none => match lookupKV props k with
      | some p => notPropsLoop rec props notProps t (insertKV acc k p)
      | none => notPropsLoop rec props notProps t acc
    | some np => do
      let r ← notSubNode rec ("/not/properties/" ++ k) (getZeroIfNil (lookupKV props k) {}) np
      notPropsLoop rec props notProps t (insertKV acc k r)

/-- `delete(m, k)` on a Go map. -/
def deleteKV {β : Type} (m : List (String × β)) (k : String) : List (String × β) := m.filter (fun p => p.1 ≠ k)

/-- The forbidden names that the parent does not require (not.go 596-601). -/
def nonConflicting (required notRequired : List String) : List String := notRequired.filter (fun k => k ∉ required)

/-- `notApplyObject` (not.go 521-611). -/
def notApplyObject (rec : NotRec) (node notNode newNode : SchemaNode) (cc : ConstraintColl) :
    P (SchemaNode × ConstraintColl) := do
  let b ← boundsInt "maxProperties" node.minProperties node.maxProperties notNode.minProperties notNode.maxProperties
  let props := getZeroIfNil node.properties []
  let notProps := getZeroIfNil notNode.properties []
  let merged ← notPropsLoop rec props notProps (keysKV props ++ keysKV notProps) []
  warnUnsupported "not/patternProperties" (decide (0 < (getZeroIfNil notNode.patternProperties []).length))
  let additionalProperties ← notOrFalse rec "/not/additionalProperties" node.additionalProperties
    notNode.additionalProperties
  let forbidden := nonConflicting (getZeroIfNil node.required []) (getZeroIfNil notNode.required [])
  let merged := forbidden.foldl deleteKV merged
  let cc := if 0 < forbidden.length then { cc with mustNotHave := cc.mustNotHave ++ forbidden } else cc
  pure ({ newNode with
    minProperties := b.1
    maxProperties := b.2
    patternProperties := node.patternProperties
    additionalProperties := additionalProperties
    required := node.required
    properties := if 0 < merged.length then some merged else newNode.properties }, cc)

/-- `applyUnsupportedNotFields` (not.go 613-650). -/
def notUnsupported (notNode : SchemaNode) : P Unit := do
  warnUnsupported "not/dependentRequired" (decide (0 < notNode.dependentRequired.length))
  warnUnsupported "not/dependentSchemas" (decide (0 < notNode.dependentSchemas.length))
  warnUnsupported "not/if" notNode.ifN.isSome
  warnUnsupported "not/then" notNode.thenN.isSome
  warnUnsupported "not/else" notNode.elseN.isSome
  warnUnsupported "not/allOf" (decide (0 < (getZeroIfNil notNode.allOf []).length))
  warnUnsupported "not/anyOf" (decide (0 < (getZeroIfNil notNode.anyOf []).length))
  warnUnsupported "not/oneOf" (decide (0 < (getZeroIfNil notNode.oneOf []).length))

/-- Fields copied from the source node (not.go 176-201). -/
def notCopy (node newNode : SchemaNode) : SchemaNode :=
  { newNode with
    not := none
    mergedIf := node.mergedIf
    mergedNot := newNode.mergedNot ++ node.mergedNot ++ node.not.toList
    oneOf := node.oneOf
    anyOf := node.anyOf
    ref := node.ref
    defs := node.defs
    definitions := node.definitions
    id := node.id
    length := node.length
    dependentRequired := node.dependentRequired
    dependentSchemas := node.dependentSchemas
    ifN := node.ifN
    thenN := node.thenN
    elseN := node.elseN
    constraints := node.constraints }

/-- `notMerge` (not.go 165-205) with the recursive calls as a parameter.  Only `notApplyType` returns an error;
then the node built so far, still empty, is returned. -/
def notStep (c : PEnv) (rec : NotRec) (node notNode : SchemaNode) : P (SchemaNode × ConstraintColl) :=
  match resolveType node notNode with
  | .error e => do
    addError e
    pure ({}, {})
  | .ok t => do
    let r ← notApplyString c node notNode { emptyNode with type := some t } {}
    let n ← notApplyNumber c.fp node notNode r.1
    let r ← notApplyEnum node notNode n r.2
    let r ← notApplyConst node notNode r.1 r.2
    let n ← notApplyArray rec node notNode r.1
    let r ← notApplyObject rec node notNode n r.2
    notUnsupported notNode
    pure (notCopy node r.1, r.2)

/-- `notMerge` (not.go 165-205).  The first argument bounds the recursion depth. -/
def notMerge (c : PEnv) : Nat → SchemaNode → SchemaNode → P (SchemaNode × ConstraintColl)
  | 0 => fun _ _ => Comp.outOfFuel
  | n + 1 => notStep c (notMerge c n)

/-- `applyNotConstraints` (not.go 153-162). -/
def applyNots (c : PEnv) (fuel : Nat) : SchemaNode → ConstraintColl → List SchemaNode → P (SchemaNode × ConstraintColl)
  | node, cc, [] => pure (node, cc)
  | node, cc, nn :: t => do
    let r ← notMerge c fuel node nn
    applyNots c fuel r.1 (cc.merge r.2) t

/-- `collectNotNodes` (not.go 103-112). -/
def collectNots (n : SchemaNode) : List SchemaNode := n.not.toList ++ n.mergedNot

/-- `flattenAndPartitionNotNodes` (not.go 117-148): single negations and the inner schemas of double ones. -/
def partitionNots (c : PEnv) (fuel : Nat) : Nat → List SchemaNode → P (List SchemaNode × List SchemaNode)
  | _, [] => pure ([], [])
  | i, raw :: t => do
    pushPath s!"/not/{i}"
    let flat ← mergeNodes c fuel [emptyNode, raw]
    popPath s!"/not/{i}"
    match flat.not with
    | some inner => do
      pushPath s!"/not/{i}/not"
      let flatInner ← mergeNodes c fuel [emptyNode, inner]
      popPath s!"/not/{i}/not"
      let r ← partitionNots c fuel (i + 1) t
      pure (r.1, flatInner :: r.2)
    | none => do
      let r ← partitionNots c fuel (i + 1) t
      pure (flat :: r.1, r.2)

end Chaff
