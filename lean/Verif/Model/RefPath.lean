import Verif.Model.Doc
/-!
# Model of reference_path.go and of `ResolvePath` (document.go 272-317)
-/

namespace Chaff

/-- `getReferencePathToken` (reference_path.go 144-151): text before the first `/`, and the text after it. -/
def pathToken : List Char → List Char × List Char
  | [] => ([], [])
  | c :: t => if c = '/' then ([], t) else (c :: (pathToken t).1, (pathToken t).2)

/-- Is a character a decimal digit? -/
def isDigit (c : Char) : Bool := decide ('0' ≤ c) && decide (c ≤ '9')

/-- The value of a list of decimal digits. -/
def digitsVal (l : List Char) : Nat := l.foldl (fun acc c => 10 * acc + (c.toNat - '0'.toNat)) 0

/-- An unsigned decimal number. -/
def atoiDigits (l : List Char) : Option Nat :=
  if l ≠ [] ∧ l.all isDigit = true then some (digitsVal l) else none

/-- `strconv.Atoi`: optional sign, at least one digit, no overflow of `int`. -/
def atoi : List Char → Option Int
  | '-' :: t => match atoiDigits t with
    | some n => if n ≤ 2 ^ 63 then some (-(n : Int)) else none
    | none => none
  | '+' :: t => match atoiDigits t with
    | some n => if n < 2 ^ 63 then some (n : Int) else none
    | none => none
  | t => match atoiDigits t with
    | some n => if n < 2 ^ 63 then some (n : Int) else none
    | none => none

/-- `resolveReferenceSlice` (reference_path.go 120-139).  An index inside the slice is rejected and any other
non-negative index panics, so no call succeeds. -/
def resolveSlice (sub : Option SchemaNode → List Char → P (Except Err SchemaNode))
    (nodes : Option (List SchemaNode)) (path : List Char) : P (Except Err SchemaNode) :=
  match nodes with
  | none => pure (.error "No array items defined")
  | some l =>
    match atoi (pathToken path).1 with
    | none => pure (.error "Invalid array index (Must be a number)")
    | some i =>
      if goLen l > i ∨ i < 0 then pure (.error "Array index out of bounds")
      else match l[i.toNat]? with
        | none => Comp.fail "index out of range"
        | some node => sub (some node) (pathToken path).2

/-- `resolveReferenceProperty` (reference_path.go 104-117). -/
def resolveProperty (sub : Option SchemaNode → List Char → P (Except Err SchemaNode))
    (nodes : Option (List (String × SchemaNode))) (path : List Char) : P (Except Err SchemaNode) :=
  match nodes with
  | none => pure (.error "No properties defined")
  | some m =>
    match lookupKV m (String.ofList (pathToken path).1) with
    | none => pure (.error "Property not found")
    | some node => sub (some node) (pathToken path).2

/-- `resolveFalseOrSchema` (reference_path.go 95-101), and the same code for `additionalProperties`
(reference_path.go 38-43): the pointer is dereferenced without a nil check. -/
def resolveFalseOrSchema (sub : Option SchemaNode → List Char → P (Except Err SchemaNode))
    (node : Option (NodeOrFalse SchemaNode)) (path : List Char) : P (Except Err SchemaNode) :=
  match node with
  | none => Comp.fail "nil pointer dereference"
  | some n => if n.isFalse then pure (.error "No schema node, node is false") else sub n.schema path

/-- The `items` case (reference_path.go 46-53). -/
def resolveItems (sub : Option SchemaNode → List Char → P (Except Err SchemaNode))
    (items : Option (ItemsData SchemaNode)) (path : List Char) : P (Except Err SchemaNode) :=
  match items with
  | none => Comp.fail "nil pointer dereference"
  | some d =>
    if (atoiDigits (pathToken path).1).isNone then sub d.node path
    else resolveSlice sub d.nodes path

/-- `resolveSubReferencePath` (reference_path.go 20-93).  The first argument bounds the recursion; one more than
the length of the path suffices (`subPath_fuel`).  The path resolved so far only appears in messages. -/
def subPath : Nat → Option SchemaNode → List Char → P (Except Err SchemaNode)
  | 0, _, _ => Comp.outOfFuel
  | _ + 1, none, _ => pure (.error "No schema node found")
  | n + 1, some node, refPath =>
    let part := String.ofList (pathToken refPath).1
    let path := (pathToken refPath).2
    if path = [] then pure (.ok node)
    else if part = "properties" then resolveProperty (subPath n) node.properties path
    else if part = "patternProperties" then resolveProperty (subPath n) node.patternProperties path
    else if part = "additionalProperties" then resolveFalseOrSchema (subPath n) node.additionalProperties path
    else if part = "items" then resolveItems (subPath n) node.items path
    else if part = "prefixItems" then resolveSlice (subPath n) node.prefixItems path
    else if part = "contains" then subPath n node.contains path
    else if part = "additionalItems" then resolveFalseOrSchema (subPath n) node.additionalItems path
    else if part = "unevaluatedItems" then resolveFalseOrSchema (subPath n) node.unevaluatedItems path
    else if part = "allOf" then resolveSlice (subPath n) node.allOf path
    else if part = "anyOf" then resolveSlice (subPath n) node.anyOf path
    else if part = "oneOf" then resolveSlice (subPath n) node.oneOf path
    else if part = "not" then subPath n node.not path
    else if part = "if" then subPath n node.ifN path
    else if part = "then" then subPath n node.thenN path
    else if part = "else" then subPath n node.elseN path
    else if part = "definitions" then resolveProperty (subPath n) node.definitions path
    else if part = "$defs" then resolveProperty (subPath n) node.defs path
    else if part = "#" then subPath n (some node) path
    else pure (.error "Invalid reference path")

/-- `resolveSubReferencePath(node, path, "")`. -/
def resolveSubReferencePath (node : Option SchemaNode) (path : String) : P (Except Err SchemaNode) :=
  subPath (path.toList.length + 1) node path.toList

/-- The document of a resolved reference: loaded, or fetched now (document.go 299-306). -/
def loadDocument (c : PEnv) (doc : String) : P (Except Err SchemaNode) := do
  let loaded ← gets (fun s => lookupKV s.docs doc)
  match loaded with
  | some d => pure (.ok d)
  | none => resolveDocument c doc

/-- `ResolvePath` (document.go 272-317): the node and the full text of the reference. -/
def resolvePath (c : PEnv) (ref : String) : P (Except Err (SchemaNode × String)) := do
  let m ← matchDocumentRegex ref
  let path := orRoot m.2
  if m.1 = "" then do
    let scope ← currentScope
    let doc ← gets (fun s => lookupKV s.docs scope)
    let r ← resolveSubReferencePath doc path
    match r with
    | .error e => pure (.error e)
    | .ok n => pure (.ok (n, scope ++ path))
  else do
    let r ← resolveDocumentRef c m.1 path
    match r with
    | .error e => pure (.error e)
    | .ok p => do
      let d ← loadDocument c p.1
      match d with
      | .error e => pure (.error e)
      | .ok document => do
        let r ← resolveSubReferencePath (some document) p.2
        match r with
        | .error e => pure (.error e)
        | .ok n => do
          setResolving p.1
          pure (.ok (n, p.1 ++ p.2))

end Chaff
