import Verif.Model.Doc
/-!
# Model of the error collection (error.go)

The parser's state holds every call of `AddErrorWithSubpath`, newest first (`PSt.errors`).  Here is the map of maps
that these calls build, and what the two public readers of it return.
-/

namespace Chaff

/-- `m[k] = v` on a map given by its entries (error.go 33, 49): an existing entry is replaced. -/
def mapSet {α : Type} (k : String) (v : α) : List (String × α) → List (String × α)
  | [] => [(k, v)]
  | (k', v') :: t => if k' = k then (k, v) :: t else (k', v') :: mapSet k v t

/-- `m[k]` of a map given by its entries (error.go 29, 33). -/
def mapGet {α : Type} (k : String) : List (String × α) → Option α
  | [] => none
  | (k', v) :: t => if k' = k then some v else mapGet k t

/-- `errorCollection.Errors` (error.go 11): from document to path to error.  The order of the entries stands for the
order in which Go iterates. -/
abbrev ErrMap : Type := List (String × List (String × Err))

/-- `AddErrorWithSubpath` on the maps (error.go 29-33): the inner map is made when it is not there. -/
def ErrMap.add (m : ErrMap) (document path : String) (e : Err) : ErrMap :=
  let m := if (mapGet document m).isSome then m else mapSet document [] m
  mapSet document (mapSet path e ((mapGet document m).getD [])) m

/-- The maps after the recorded calls (error.go 15-34), the newest call first. -/
def errMapOf : List ((String × String) × Err) → ErrMap
  | [] => []
  | ((document, path), e) :: earlier => (errMapOf earlier).add document path e

/-- `HasErrors` (error.go 40-42). -/
def ErrMap.hasErrors (m : ErrMap) : Bool := 0 < m.length

/-- The key of an error in the flattened map (error.go 49). -/
def errorKey (document path : String) : String := document ++ " -> " ++ path

/-- The inner loop of `CollectErrors` (error.go 48-50). -/
def collectInner (document : String) : List (String × Err) → List (String × Err) → List (String × Err)
  | [], acc => acc
  | (path, e) :: t, acc => collectInner document t (mapSet (errorKey document path) e acc)

/-- The outer loop of `CollectErrors` (error.go 47-51). -/
def collectOuter : ErrMap → List (String × Err) → List (String × Err)
  | [], acc => acc
  | (document, inner) :: t, acc => collectOuter t (collectInner document inner acc)

/-- `CollectErrors` (error.go 44-54). -/
def ErrMap.collect (m : ErrMap) : List (String × Err) := collectOuter m []

end Chaff
