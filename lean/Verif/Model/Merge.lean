import Verif.Model.RefPath
/-!
# Model of merge.go

`mergeSchemaNodes` and everything it calls return a nil error on every path (the only source of an error is a
recursive call), so the error result and the branches that test it are left out.
-/

namespace Chaff

/-! ## util.FindHcf (internal/util/util.go 181-219) -/

/-- `math.Mod(a, b)` for a non-zero `b`: exact in float64. -/
def fmod (a b : Rat) : Rat := a - b * (fTrunc (a / b) : Rat)

/-- Rounding to the nearest integer, ties to even. -/
def roundHalfEven (q : Rat) : Int :=
  let f := fFloor q
  let d := q - (f : Rat)
  if d < 1 / 2 then f else if d > 1 / 2 then f + 1 else if f % 2 = 0 then f else f + 1

/-- Number of decimals left after removing trailing zeros from a fraction of at most `k` digits. -/
def fracDigits : Nat → Int → Nat
  | 0, _ => 0
  | k + 1, r => if r % 10 = 0 then fracDigits k (r / 10) else k + 1

/-- `countDecimalPlaces` (internal/util/util.go 181-188): `%f` prints six decimals, correctly rounded. -/
def countDecimalPlaces (f : Rat) : Nat := fracDigits 6 (roundHalfEven (f * 1000000))

/-- `util.FindHcf` (internal/util/util.go 191-219). -/
def findHcf (F : FP) (a b : Option Rat) : Option Rat :=
  match a, b with
  | none, b => b
  | some a, b =>
    if a = 0 then b
    else match b with
      | none => some a
      | some b =>
        if b = 0 then some a
        else if fmod a b = 0 then some a
        else if fmod b a = 0 then some b
        else
          let scale : Rat := 10 ^ max (countDecimalPlaces a) (countDecimalPlaces b)
          some (F.div (F.mul (F.mul a scale) (F.mul b scale)) scale)

/-! ## Merging of single keywords -/

/-- `mergeSchemaTypes` (merge.go 430-446). -/
def mergeTypes (merged node : Option MultipleType) : Option MultipleType :=
  match node with
  | none => merged
  | some t =>
    let m := getZeroIfNil merged {}
    if t.single ≠ "" then some { single := t.single, multiple := none }
    else if 0 < (t.multiple.getD []).length then some { single := "", multiple := t.multiple }
    else some m

/-- `collectEnumValues` (merge.go 141-149). -/
def collectEnumValues (n : SchemaNode) : Option (List JVal) :=
  match n.enum with
  | some l => some l
  | none => match n.const with
    | some v => some [v]
    | none => none

/-- `intersectEnumSlices` (merge.go 556-577) of two non-nil slices. -/
def intersectEnum (a b : List JVal) : List JVal := a.filter (fun v => b.any (fun w => JVal.jeq v w))

/-- Writing the allowed values back (merge.go 182-191). -/
def setAllowed (m : SchemaNode) (result : List JVal) : SchemaNode :=
  match result with
  | [v] => { m with const := some v, enum := none }
  | _ => { m with enum := some result, const := none }

/-- `mergeEnumAndConst` (merge.go 157-192). -/
def mergeEnumAndConst (m n : SchemaNode) : P SchemaNode :=
  match collectEnumValues m, collectEnumValues n with
  | none, none => pure m
  | none, some r => pure (setAllowed m r)
  | some l, none => pure (setAllowed m l)
  | some l, some r =>
    if (intersectEnum l r).length = 0 then do
      warnMerge "enum/const" "intersection is empty"
      pure { m with enum := none, const := none }
    else pure (setAllowed m (intersectEnum l r))

/-- Merging sub-schemas: the recursive call of `mergeSchemaNodes`. -/
abbrev MergeRec := List SchemaNode → P SchemaNode

/-- The loop of `mergeProperties` and `mergePatternProperties` (merge.go 205-217, 232-242). -/
def mergeMapLoop (rec : MergeRec) : List (String × SchemaNode) → List (String × SchemaNode) →
    P (List (String × SchemaNode))
  | merged, [] => pure merged
  | merged, (k, v) :: t =>
    match lookupKV merged k with
    | some existing => do
      let x ← rec [existing, v]
      mergeMapLoop rec (insertKV merged k x) t
    | none => mergeMapLoop rec (insertKV merged k v) t

/-- `mergeProperties` and `mergePatternProperties` (merge.go 197-245). -/
def mergeMap (rec : MergeRec) (merged node : Option (List (String × SchemaNode))) :
    P (Option (List (String × SchemaNode))) :=
  match node with
  | none => pure merged
  | some l => do
    let r ← mergeMapLoop rec (getZeroIfNil merged []) l
    pure (some r)

/-- The loop of `mergePrefixItems` (merge.go 260-274). -/
def mergeZip (rec : MergeRec) : List SchemaNode → List SchemaNode → P (List SchemaNode)
  | [], n => pure n
  | m, [] => pure m
  | m :: ms, n :: ns => do
    let x ← rec [m, n]
    let r ← mergeZip rec ms ns
    pure (x :: r)

/-- `mergePrefixItems` (merge.go 250-277). -/
def mergePrefixItems (rec : MergeRec) (merged node : Option (List SchemaNode)) : P (Option (List SchemaNode)) :=
  match node with
  | none => pure merged
  | some l => do
    let r ← mergeZip rec (getZeroIfNil merged []) l
    pure (some r)

/-- `mergeItemsData` (merge.go 449-474). -/
def mergeItems (rec : MergeRec) (merged node : Option (ItemsData SchemaNode)) : P (Option (ItemsData SchemaNode)) :=
  match node with
  | none => pure merged
  | some d => match d.node with
    | none => pure merged
    | some x =>
      let m : ItemsData SchemaNode := getZeroIfNil merged {}
      if m.disallow = true ∨ d.disallow = true then pure (some { disallow := true })
      else match m.node with
        | some y => do
          let r ← rec [y, x]
          pure (some { m with node := some r })
        | none => pure (some { m with node := some x })

/-- `mergeNodeOrFalse` (merge.go 476-510). -/
def mergeNodeOrFalse (rec : MergeRec) (merged node : Option (NodeOrFalse SchemaNode)) :
    P (Option (NodeOrFalse SchemaNode)) :=
  match node, merged with
  | none, merged => pure merged
  | some n, none => pure (some n)
  | some n, some m =>
    if m.isFalse then pure (some m)
    else if n.isFalse then pure (some n)
    else match m.schema, n.schema with
      | none, _ => pure (some n)
      | some _, none => pure (some m)
      | some a, some b => do
        let r ← rec [a, b]
        pure (some { schema := some r, isFalse := false })

/-- `mergeSchemaPtrs` of two pointers (merge.go 530-551). -/
def mergePtrs (rec : MergeRec) (a b : Option SchemaNode) : P (Option SchemaNode) :=
  match a, b with
  | none, none => pure none
  | some a, none => pure (some a)
  | none, some b => pure (some b)
  | some a, some b => do
    let r ← rec [a, b]
    pure (some r)

/-- The first half of `mergeNot` (merge.go 283-295): the node's own `not`. -/
def mergeNotOwn (m n : SchemaNode) : SchemaNode :=
  match n.not with
  | none => m
  | some x =>
    match m.not with
    | some y => { m with not := none, mergedNot := m.mergedNot ++ [y] ++ [x] }
    | none => if 0 < m.mergedNot.length then { m with mergedNot := m.mergedNot ++ [x] } else { m with not := some x }

/-- The second half of `mergeNot` (merge.go 296-306): the `not`s collected by earlier merges. -/
def mergeNotCollected (m n : SchemaNode) : SchemaNode :=
  if 0 < n.mergedNot.length then
    match m.not with
    | some y => { m with not := none, mergedNot := m.mergedNot ++ [y] ++ n.mergedNot }
    | none => { m with mergedNot := m.mergedNot ++ n.mergedNot }
  else m

/-- `mergeNot` (merge.go 283-307). -/
def mergeNot (m n : SchemaNode) : SchemaNode := mergeNotCollected (mergeNotOwn m n) n

/-- `newIfStatement` (if.go 110-117). -/
def newIfStatement (n : SchemaNode) (path : String) : IfStmt SchemaNode :=
  { path := path, ifN := n.ifN, thenN := n.thenN, elseN := n.elseN }

/-- `mergeIf` (merge.go 512-528). -/
def mergeIf (path : String) (m n : SchemaNode) : SchemaNode :=
  let l := if 0 < n.mergedIf.length then m.mergedIf ++ n.mergedIf else m.mergedIf
  { m with mergedIf := if n.ifN.isSome then l ++ [newIfStatement n (path ++ "/if")] else l }

/-- `warnIfBothSetAndAreDifferent` (merge.go 372-376). -/
def warnIfDifferent {α : Type} [DecidableEq α] (field : String) (a b : Option α) : P Unit :=
  match a, b with
  | some x, some y => if x ≠ y then warnMerge field "both values set during merge" else pure ()
  | _, _ => pure ()

/-- The warnings of `mergeSchemaNodeSimpleProperties` (merge.go 335, 356, 359, 366). -/
def warnSimple (m n : SchemaNode) : P Unit := do
  warnIfDifferent "length" n.length m.length
  warnIfDifferent "pattern" m.pattern n.pattern
  warnIfDifferent "format" m.format n.format
  warnIfDifferent "uniqueItems" m.uniqueItems n.uniqueItems

/-- The values computed by `mergeSchemaNodeSimpleProperties` (merge.go 333-370). -/
def mergeSimple (F : FP) (m n : SchemaNode) : SchemaNode :=
  { m with
    length := getPtr [n.length, m.length]
    minProperties := maxPtr [n.minProperties, m.minProperties]
    maxProperties := minPtr [n.maxProperties, m.maxProperties]
    minItems := maxPtr [n.minItems, m.minItems]
    maxItems := minPtr [n.maxItems, m.maxItems]
    minContains := maxPtr [n.minContains, m.minContains]
    maxContains := minPtr [n.maxContains, m.maxContains]
    minLength := maxPtr [n.minLength, m.minLength]
    maxLength := minPtr [n.maxLength, m.maxLength]
    minimum := maxPtr [n.minimum, m.minimum]
    maximum := minPtr [n.maximum, m.maximum]
    exclusiveMinimum := maxPtr [n.exclusiveMinimum, m.exclusiveMinimum]
    exclusiveMaximum := minPtr [n.exclusiveMaximum, m.exclusiveMaximum]
    multipleOf := findHcf F n.multipleOf m.multipleOf
    pattern := getPtr [n.pattern, m.pattern]
    format := getPtr [n.format, m.format]
    required := mergeSlicePtrs [m.required, n.required]
    uniqueItems := getPtr [n.uniqueItems, m.uniqueItems] }

/-- Adding strings that are not there yet (assignment to a map used as a set). -/
def addStrings (old new : List String) : List String :=
  new.foldl (fun acc s => if s ∈ acc then acc else acc ++ [s]) old

/-- Adding values that are not there yet; the map is keyed by JSON text. -/
def addValues (old new : List JVal) : List JVal :=
  new.foldl (fun acc v => if acc.any (fun w => JVal.jeq v w) then acc else acc ++ [v]) old

/-- `constraintCollection.Merge` (constraint.go 106-120).  The receiver is a shared pointer in Go; here the result
is a new value. -/
def ConstraintColl.merge (a b : ConstraintColl) : ConstraintColl :=
  { notRegex := addStrings a.notRegex b.notRegex
    notFormats := addStrings a.notFormats b.notFormats
    notValues := addValues a.notValues b.notValues
    mustNotHave := a.mustNotHave ++ b.mustNotHave }

/-- Accumulating the constraints (merge.go 72-78). -/
def mergeConstraints (m n : Option ConstraintColl) : Option ConstraintColl :=
  match n, m with
  | none, m => m
  | some b, none => some b
  | some b, some a => some (a.merge b)

/-! ## References -/

/-- The loop of `mergeResolveReference` (merge.go 391-416).  The first argument bounds the number of iterations. -/
def resolveRefLoop (c : PEnv) : Nat → List String → SchemaNode → P (Except Err SchemaNode)
  | 0, _, _ => Comp.outOfFuel
  | k + 1, resolved, node =>
    match node.ref with
    | none => pure (.ok node)
    | some ref => do
      let r ← resolvePath c ref
      match r with
      | .error e => do
        addErrorSub "/config_ref_merge_error[]" e
        pure (.error e)
      | .ok (next, sub) =>
        if sub ∈ resolved then do
          addErrorSub "/$ref" "circular reference detected"
          pure (.error "circular reference detected")
        else resolveRefLoop c k (resolved ++ [sub]) next

/-- `mergeResolveReference` (merge.go 382-428) before the deferred function runs. -/
def resolveRefBody (c : PEnv) (fuel : Nat) (node : SchemaNode) : P (Except Err SchemaNode) := do
  let r ← resolveRefLoop c fuel [] node
  match r with
  | .error e => pure (.error e)
  | .ok n => do
    let r ← rewriteReferences c n
    match r with
    | .error e => do
      addErrorSub "/config_ref_rewrite_error" e
      pure (.error e)
    | .ok n' => pure (.ok n')

/-- `mergeResolveReference` (merge.go 382-428). -/
def mergeResolveReference (c : PEnv) (fuel : Nat) (node : SchemaNode) : P (Except Err SchemaNode) := do
  let r ← resolveRefBody c fuel node
  let id ← gets (fun s => s.parsingId)
  setResolving id
  pure r

/-- `mergeResolveNodeRef` (merge.go 102-135); its loop returns in its first iteration.  The flag tells whether a
resolution was pushed. -/
def mergeResolveNodeRef (c : PEnv) (fuel : Nat) (node : SchemaNode) : P (SchemaNode × Bool) :=
  match node.ref with
  | none => pure (node, false)
  | some ref => do
    let r ← resolveIdAndPath c ref
    match r with
    | .error e => do
      warnMerge "/$ref" e
      pure ({ node with ref := none }, false)
    | .ok (doc, path) => do
      let seen ← hasRes doc path
      if seen then pure (node, false)
      else do
        let r ← mergeResolveReference c fuel { node with ref := some (doc ++ path) }
        match r with
        | .error e => do
          warnMerge "/$ref" e
          pure ({ node with ref := none }, false)
        | .ok n => do
          pushRes doc path
          pure (n, true)

/-! ## mergeSchemaNodes -/

/-- The sub-schemas and combinators of the loop body (merge.go 40-60), after the type and the allowed values. -/
def mergeSubs (rec : MergeRec) (m n : SchemaNode) : P SchemaNode := do
  let properties ← mergeMap rec m.properties n.properties
  let additionalProperties ← mergeNodeOrFalse rec m.additionalProperties n.additionalProperties
  let patternProperties ← mergeMap rec m.patternProperties n.patternProperties
  let prefixItems ← mergePrefixItems rec m.prefixItems n.prefixItems
  let items ← mergeItems rec m.items n.items
  let additionalItems ← mergeNodeOrFalse rec m.additionalItems n.additionalItems
  let unevaluatedItems ← mergeNodeOrFalse rec m.unevaluatedItems n.unevaluatedItems
  let contains ← mergePtrs rec m.contains n.contains
  pure { m with
    properties := properties
    additionalProperties := additionalProperties
    patternProperties := patternProperties
    prefixItems := prefixItems
    items := items
    additionalItems := additionalItems
    unevaluatedItems := unevaluatedItems
    contains := contains
    oneOf := mergeSlicePtrs [m.oneOf, n.oneOf]
    anyOf := mergeSlicePtrs [m.anyOf, n.anyOf]
    allOf := mergeSlicePtrs [m.allOf, n.allOf] }

/-- The loop body for a node whose reference has been resolved (merge.go 40-85). -/
def mergeFields (F : FP) (rec : MergeRec) (m n : SchemaNode) : P SchemaNode := do
  let m ← mergeEnumAndConst { m with type := mergeTypes m.type n.type } n
  let m ← mergeSubs rec m n
  let path ← gets (fun s => s.path)
  let m := mergeIf path (mergeNot m n) n
  warnSimple m n
  let m := mergeSimple F m n
  let m := { m with constraints := mergeConstraints m.constraints n.constraints }
  pure (if n.ref.isSome then { m with ref := n.ref } else m)

/-- Flattening the `allOf` of a node reached through a reference (merge.go 28-38). -/
def flattenResolved (rec : MergeRec) (node : SchemaNode) (resolved : Bool) : P SchemaNode :=
  match node.allOf with
  | some l => if resolved then rec (l ++ [{ node with allOf := none }]) else pure node
  | none => pure node

/-- Leaving a resolved reference (merge.go 87-92). -/
def leaveRef (resolved : Bool) : P Unit :=
  if resolved then do
    popRes
    let r ← gets (fun s => s.resolutions)
    setResolving (currentResolution r).1
  else pure ()

/-- One iteration of the main loop (merge.go 19-93). -/
def mergeOne (c : PEnv) (fuel : Nat) (rec : MergeRec) (m node : SchemaNode) : P SchemaNode := do
  let p ← mergeResolveNodeRef c fuel node
  let n ← flattenResolved rec p.1 p.2
  let m ← mergeFields c.fp rec m n
  leaveRef p.2
  pure m

/-- The main loop (merge.go 19-93). -/
def mergeLoop (c : PEnv) (fuel : Nat) (rec : MergeRec) : SchemaNode → List SchemaNode → P SchemaNode
  | m, [] => pure m
  | m, n :: t => do
    let m ← mergeOne c fuel rec m n
    mergeLoop c fuel rec m t

/-- `flattenResidualAllOf` (merge.go 312-331).  The first argument bounds the number of iterations. -/
def flattenResidual (c : PEnv) (rec : MergeRec) : Nat → SchemaNode → P SchemaNode
  | 0, _ => Comp.outOfFuel
  | k + 1, m =>
    match m.allOf with
    | none => pure m
    | some l =>
      if l.length = 0 then pure m
      else do
        let d ← gets (fun s => s.depth)
        if d + 1 > c.maxParseDepth then pure m
        else do
          Comp.modS (fun s => { s with depth := s.depth + 1 })
          let m' ← rec (l ++ [{ m with allOf := none }])
          Comp.modS (fun s => { s with depth := s.depth - 1 })
          flattenResidual c rec k m'

/-- `mergeSchemaNodes` (merge.go 16-96) with the recursive calls as a parameter. -/
def mergeStep (c : PEnv) (fuel : Nat) (rec : MergeRec) (nodes : List SchemaNode) : P SchemaNode := do
  let m ← mergeLoop c fuel rec emptyNode nodes
  flattenResidual c rec fuel m

/-- `mergeSchemaNodes` (merge.go 16-96).  The first argument bounds the recursion depth and the loops. -/
def mergeNodes (c : PEnv) : Nat → List SchemaNode → P SchemaNode
  | 0 => fun _ => Comp.outOfFuel
  | n + 1 => mergeStep c n (mergeNodes c n)

end Chaff
