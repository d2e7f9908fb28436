import Verif.Model.Rt
/-!
# Model of internal/util/util.go
-/

namespace Chaff

/-- `util.GetInt` (internal/util/util.go 30-38): the first non-zero argument, else 0. -/
def getInt : List Int → Int
  | [] => 0
  | v :: vs => if v ≠ 0 then v else getInt vs

/-- `util.GetFloat` (internal/util/util.go 41-49): the first non-zero argument, else 0. -/
def getFloat : List Rat → Rat
  | [] => 0
  | v :: vs => if v ≠ 0 then v else getFloat vs

/-- `util.GetPtr` (internal/util/util.go 61-69): the first non-nil argument.  A Go pointer that is only
read is modelled as an `Option`. -/
def getPtr {α : Type} : List (Option α) → Option α
  | [] => none
  | some v :: _ => some v
  | none :: vs => getPtr vs

/-- `util.GetBool` (internal/util/util.go 122-128). -/
def getBool (value defaultValue : Bool) : Bool := if !value then defaultValue else value

/-- `util.GetZeroIfNil` (internal/util/util.go 221-227). -/
def getZeroIfNil {α : Type} (f : Option α) (zeroValue : α) : α :=
  match f with
  | none => zeroValue
  | some v => v

/-- `util.MaxInt` of two arguments (internal/util/util.go 131-140); the code only uses two. -/
def maxInt (a b : Int) : Int := if b > a then b else a

/-- `util.MinInt` of two arguments (internal/util/util.go 143-152); the code only uses two. -/
def minInt (a b : Int) : Int := if b < a then b else a

section Ptr
variable {α : Type} [LT α] [DecidableLT α]

/-- One step of the loop in `util.MinFloatPtr` (internal/util/util.go 157-163). -/
def minPtrStep (m v : Option α) : Option α :=
  match v, m with
  | none, m => m
  | some v, none => some v
  | some v, some m => if v < m then some v else some m

/-- `util.MinFloatPtr` (internal/util/util.go 155-166): minimum of the non-nil arguments. -/
def minPtr (a : List (Option α)) : Option α := a.foldl minPtrStep none

/-- One step of the loop in `util.MaxFloatPtr` (internal/util/util.go 170-176). -/
def maxPtrStep (m v : Option α) : Option α :=
  match v, m with
  | none, m => m
  | some v, none => some v
  | some v, some m => if m < v then some v else some m

/-- `util.MaxFloatPtr` (internal/util/util.go 168-179): maximum of the non-nil arguments. -/
def maxPtr (a : List (Option α)) : Option α := a.foldl maxPtrStep none

end Ptr

/-- `util.MergeSlicePtrs` (internal/util/util.go 81-95): concatenation of the non-nil slices; nil when the
result is empty. -/
def mergeSlicePtrs {α : Type} (slices : List (Option (List α))) : Option (List α) :=
  let result := slices.foldl (fun acc s => match s with | none => acc | some l => acc ++ l) []
  if result.length = 0 then none else some result

/-- `util.GetIndexOrDefault` (internal/util/util.go 239-245). -/
def getIndexOrDefault {α : Type} (nodes : List α) (index : Int) (defaultItem : α) : α :=
  if index < 0 ∨ goLen nodes ≤ index then defaultItem
  else (nodes[index.toNat]?).getD defaultItem

/-- Lookup in a Go map (association list with distinct keys). -/
def lookupKV {β : Type} (m : List (String × β)) (k : String) : Option β :=
  match m with
  | [] => none
  | (k', v) :: t => if k' = k then some v else lookupKV t k

/-- Assignment `m[k] = v` on a Go map: replace the value under `k` or add a new entry. -/
def insertKV {β : Type} (m : List (String × β)) (k : String) (v : β) : List (String × β) :=
  match m with
  | [] => [(k, v)]
  | (k', v') :: t => if k' = k then (k, v) :: t else (k', v') :: insertKV t k v

/-- Keys of a map in list order. -/
def keysKV {β : Type} (m : List (String × β)) : List String := m.map Prod.fst

/-- `funk.UniqString` (github.com/thoas/go-funk): drop later duplicates, keep first-occurrence order. -/
def uniqString (l : List String) : List String :=
  (l.foldl (fun (acc : List String) s => if s ∈ acc then acc else acc ++ [s]) [])

end Chaff
