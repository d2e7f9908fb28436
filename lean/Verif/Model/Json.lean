import Verif.Model.Util
/-!
# JSON values

Generated values and literal values inside schemas.  Go distinguishes `int` and `float64`; both print
to the same JSON number, so one constructor carrying the exact rational value is used.
An object is an association list; Go maps guarantee distinct keys and the model keeps that invariant.
-/

namespace Chaff

inductive JVal where
  | null
  | bool (b : Bool)
  | num (q : Rat)
  | str (s : String)
  | arr (items : List JVal)
  | obj (fields : List (String × JVal))
deriving Inhabited, Repr

namespace JVal

mutual
/-- Equality of the texts produced by `util.MarshalJsonToString` (internal/util/util.go 263-270):
`json.Marshal` sorts map keys, so two values have the same text exactly when they are equal up to the
order of object keys.  (That distinct values have distinct texts is a trusted fact about encoding/json.) -/
def jeq : JVal → JVal → Bool
  | .null, b => match b with | .null => true | _ => false
  | .bool a, b => match b with | .bool b => a == b | _ => false
  | .num a, b => match b with | .num b => a == b | _ => false
  | .str a, b => match b with | .str b => a == b | _ => false
  | .arr a, b => match b with | .arr b => jeqList a b | _ => false
  | .obj a, b => match b with | .obj b => a.length == b.length && jeqSub a b | _ => false
termination_by structural a => a
/-- Item-wise comparison of arrays. -/
def jeqList : List JVal → List JVal → Bool
  | [], b => b.isEmpty
  | x :: xs, b => match b with | [] => false | y :: ys => jeq x y && jeqList xs ys
termination_by structural a => a
/-- Every field of the first object is present, with an equal value, in the second. -/
def jeqSub : List (String × JVal) → List (String × JVal) → Bool
  | [], _ => true
  | p :: t, b => jeqAt p b && jeqSub t b
termination_by structural a => a
/-- The second object has an equal value under the same key. -/
def jeqAt : String × JVal → List (String × JVal) → Bool
  | (k, v), b => match lookupKV b k with
    | some v' => jeq v v'
    | none => false
termination_by structural a => a
end

end JVal
end Chaff
