import Verif.Model.Json
import Mathlib.Data.List.Perm.Basic
/-!
# Specification: JSON values and their equality

Two JSON values are the same when they differ only in the order of the members of objects.
-/

namespace Chaff

/-- Values that denote JSON: the member names of every object are distinct. -/
inductive JVal.WF : JVal → Prop
  | null : JVal.WF .null
  | bool (b : Bool) : JVal.WF (.bool b)
  | num (q : Rat) : JVal.WF (.num q)
  | str (s : String) : JVal.WF (.str s)
  | arr (l : List JVal) : (∀ x ∈ l, JVal.WF x) → JVal.WF (.arr l)
  | obj (m : List (String × JVal)) : (m.map Prod.fst).Nodup → (∀ p ∈ m, JVal.WF p.2) → JVal.WF (.obj m)

/-- Equality of JSON values: the smallest equivalence that ignores the order of object members and is
compatible with replacing an item of an array or a member of an object by an equal one. -/
inductive SameJson : JVal → JVal → Prop
  | refl (a : JVal) : SameJson a a
  | symm {a b : JVal} : SameJson a b → SameJson b a
  | trans {a b c : JVal} : SameJson a b → SameJson b c → SameJson a c
  | order {m m' : List (String × JVal)} : m.Perm m' → SameJson (.obj m) (.obj m')
  | member {k : String} {v v' : JVal} (l r : List (String × JVal)) :
      SameJson v v' → SameJson (.obj (l ++ (k, v) :: r)) (.obj (l ++ (k, v') :: r))
  | item {v v' : JVal} (l r : List JVal) : SameJson v v' → SameJson (.arr (l ++ v :: r)) (.arr (l ++ v' :: r))

end Chaff
