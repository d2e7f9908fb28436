import Verif.Model.Errors
/-!
# What a report of errors should say (C73)

A log is the list of the errors recorded so far, each with its place (document and path), newest first.
-/

namespace Chaff

/-- `e` is the newest error recorded at this place. -/
def NewestAt (log : List ((String × String) × Err)) (place : String × String) (e : Err) : Prop :=
  ∃ later earlier, log = later ++ (place, e) :: earlier ∧ ∀ x ∈ later, x.1 ≠ place

/-- The maps contain the newest error of every place and nothing else, each key once, whatever the order of their
entries. -/
structure Holds (m : ErrMap) (log : List ((String × String) × Err)) : Prop where
  documents : (m.map Prod.fst).Nodup
  inner : ∀ x ∈ m, (x.2.map Prod.fst).Nodup ∧ x.2 ≠ []
  entries : ∀ document path e,
    (∃ i, (document, i) ∈ m ∧ (path, e) ∈ i) ↔ NewestAt log (document, path) e

end Chaff
