import Verif.Spec.Pointer
import Verif.Spec.Json
import Verif.Model.Doc
/-!
# Identifiers of embedded schemas

A sub-schema may carry an `$id`.  It is a reference that is resolved against the identifier of the nearest enclosing schema
that has one, and the result names the sub-schema.
-/

namespace Chaff

/-- A text that is resolved against a base, as `net/url` does it. -/
def AgainstBase (u : UrlSys) (base text uri : String) : Prop :=
  ∃ b r, u.parse base = some b ∧ u.parse text = some r ∧ uri = u.str (u.resolve b r) ∧ uri ≠ ""

/-- The object has this identifier, given the base that holds around it. -/
def HasId (u : UrlSys) (base : String) (m : List (String × JVal)) (uri : String) : Prop :=
  ∃ text, lookupKV m "$id" = some (.str text) ∧ text ≠ "" ∧ AgainstBase u base text uri

/-- The base inside an object: its own identifier, or the base around it. -/
def InnerBase (u : UrlSys) (base : String) (m : List (String × JVal)) (inner : String) : Prop :=
  HasId u base m inner ∨ (inner = base ∧ ∀ uri, ¬ HasId u base m uri)

/-- In a schema whose base is `base`, the place with these pointer tokens has the identifier `uri`.  Places are objects;
the items of an array that is a member are places too. -/
inductive Identifies (u : UrlSys) : String → JVal → List String → String → Prop
  | here {base m uri} : HasId u base m uri → Identifies u base (.obj m) [] uri
  | member {base m inner k m' ts uri} : InnerBase u base m inner → (k, JVal.obj m') ∈ m →
      Identifies u inner (.obj m') ts uri → Identifies u base (.obj m) (k :: ts) uri
  | item {base m inner k l m' ts uri} {i : Nat} : InnerBase u base m inner → (k, JVal.arr l) ∈ m → l[i]? = some (JVal.obj m') →
      Identifies u inner (.obj m') ts uri → Identifies u base (.obj m) (k :: toString i :: ts) uri

/-- No member name contains a slash. -/
inductive SlashFree : JVal → Prop
  | null : SlashFree .null
  | bool (b : Bool) : SlashFree (.bool b)
  | num (q : Rat) : SlashFree (.num q)
  | str (s : String) : SlashFree (.str s)
  | arr (l : List JVal) : (∀ x ∈ l, SlashFree x) → SlashFree (.arr l)
  | obj (m : List (String × JVal)) : (∀ p ∈ m, '/' ∉ p.1.toList) → (∀ p ∈ m, SlashFree p.2) → SlashFree (.obj m)

end Chaff
