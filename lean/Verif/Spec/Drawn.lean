import Verif.Spec.Regex
/-!
# Expressions of which every matching text can be drawn

The conditions name the places at which the generator is known to miss characters; the theorems named
`C82_*_violation` show that they are needed.
-/

namespace Chaff

/-- The number of code points in the ranges of a class, counted with repetition. -/
def classSize : List Nat → Nat
  | lo :: hi :: rest => hi - lo + 1 + classSize rest
  | _ => 0

mutual
/-- No `.`, any character (`(?s).`) without the restriction to ASCII only, and classes of at most 100000 characters
without NUL. -/
def Exhaustive (a : RxArgs) : Rx → Prop
  | .anyCharNotNL => False
  | .anyChar => a.limitToAscii = false
  | .charClass rs => ¬ InClass rs 0 ∧ classSize rs ≤ 100000
  | .quest r | .star r | .plus r | .repeat r _ _ | .capture r => Exhaustive a r
  | .concat rs | .alternate rs => Exhaustives a rs
  | _ => True
/-- The same for a list of expressions. -/
def Exhaustives (a : RxArgs) : List Rx → Prop
  | [] => True
  | r :: rs => Exhaustive a r ∧ Exhaustives a rs
end

end Chaff
