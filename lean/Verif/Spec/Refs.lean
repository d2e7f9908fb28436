import Verif.Model.Json
/-!
# References inside a schema text

Independent of the parser: what the references of a JSON text are, and what is left of it when they are ignored.
-/

namespace Chaff

mutual
/-- The text with every reference (string member named `$ref`) blanked out. -/
def eraseRefs : JVal → JVal
  | .obj m => .obj (eraseRefsObj m)
  | .arr l => .arr (eraseRefsArr l)
  | .null => .null
  | .bool b => .bool b
  | .num q => .num q
  | .str s => .str s
termination_by structural v => v
/-- Members of an object. -/
def eraseRefsObj : List (String × JVal) → List (String × JVal)
  | [] => []
  | p :: t => eraseRefsField p :: eraseRefsObj t
termination_by structural l => l
/-- One member. -/
def eraseRefsField : String × JVal → String × JVal
  | (k, v) => (k, eraseRefsMember k v)
termination_by structural p => p
/-- The value of the member named `k`. -/
def eraseRefsMember (k : String) : JVal → JVal
  | .str s => if k = "$ref" then .str "" else .str s
  | .obj m => .obj (eraseRefsObj m)
  | .arr l => .arr (eraseRefsArr l)
  | .null => .null
  | .bool b => .bool b
  | .num q => .num q
termination_by structural v => v
/-- Items of an array. -/
def eraseRefsArr : List JVal → List JVal
  | [] => []
  | v :: t => eraseRefs v :: eraseRefsArr t
termination_by structural l => l
end

mutual
/-- The references in a schema text, from left to right: string members named `$ref` of objects that are members of
objects or items of arrays that are members of objects.  (No schema sits in an array inside an array.) -/
def refTexts : JVal → List String
  | .obj m => refTextsObj m
  | .arr _ => []
  | .null => []
  | .bool _ => []
  | .num _ => []
  | .str _ => []
termination_by structural v => v
/-- Members of an object. -/
def refTextsObj : List (String × JVal) → List String
  | [] => []
  | p :: t => refTextsField p ++ refTextsObj t
termination_by structural l => l
/-- One member. -/
def refTextsField : String × JVal → List String
  | (k, v) => refTextsMember k v
termination_by structural p => p
/-- The value of the member named `k`. -/
def refTextsMember (k : String) : JVal → List String
  | .str s => if k = "$ref" then [s] else []
  | .obj m => refTextsObj m
  | .arr l => refTextsArr l
  | .null => []
  | .bool _ => []
  | .num _ => []
termination_by structural v => v
/-- Items of an array. -/
def refTextsArr : List JVal → List String
  | [] => []
  | v :: t => refTexts v ++ refTextsArr t
termination_by structural l => l
end

mutual
/-- The identifiers in a schema text, from left to right: string members named `$id` of the same objects. -/
def idTexts : JVal → List String
  | .obj m => idTextsObj m
  | .arr _ => []
  | .null => []
  | .bool _ => []
  | .num _ => []
  | .str _ => []
termination_by structural v => v
/-- Members of an object. -/
def idTextsObj : List (String × JVal) → List String
  | [] => []
  | p :: t => idTextsField p ++ idTextsObj t
termination_by structural l => l
/-- One member. -/
def idTextsField : String × JVal → List String
  | (k, v) => idTextsMember k v
termination_by structural p => p
/-- The value of the member named `k`. -/
def idTextsMember (k : String) : JVal → List String
  | .str s => if k = "$id" then [s] else []
  | .obj m => idTextsObj m
  | .arr l => idTextsArr l
  | .null => []
  | .bool _ => []
  | .num _ => []
termination_by structural v => v
/-- Items of an array. -/
def idTextsArr : List JVal → List String
  | [] => []
  | v :: t => idTexts v ++ idTextsArr t
termination_by structural l => l
end

/-- No schema below the root has an identifier of its own. -/
def NoInnerIds : JVal → Prop
  | .obj m => ∀ p ∈ m, p.1 ≠ "$id" → idTextsMember p.1 p.2 = []
  | _ => True

/-- The definitions of the given name: what a member `name` of a member `kw` (`$defs` or `definitions`) of the text holds. -/
def definitionTexts (kw name : String) : JVal → List JVal
  | .obj m => m.flatMap fun p => if p.1 = kw then (match p.2 with
    | .obj d => d.flatMap fun q => if q.1 = name then [q.2] else []
    | _ => []) else []
  | _ => []

/-- A reference to a definition of the same document, with a plain name. -/
structure NamesDefinition (r kw name : String) : Prop where
  keyword : kw = "$defs" ∨ kw = "definitions"
  text : r = "#/" ++ kw ++ "/" ++ name
  nonempty : name ≠ ""
  plain : '/' ∉ name.toList

/-- References only lead to definitions of the same document, and from a definition to ones of lower rank: no definition leads
back to itself. -/
def AcyclicReferences (schema : JVal) : Prop :=
  ∃ rank : String → Nat, ∀ r ∈ refTexts schema, ∃ kw name, NamesDefinition r kw name ∧
    ∀ d ∈ definitionTexts kw name schema, ∀ r' ∈ refTexts d, rank r' < rank r

/-- Keywords whose schemas are combined with others while a schema is parsed. -/
def combiningKeywords : List String := ["allOf", "anyOf", "oneOf", "not", "if", "contains"]

/-- The references in `S` name definitions of the schema text, and from such a definition only lead to others in `S`, of
lower rank. -/
def AcyclicFrom (schema : JVal) (S : String → Prop) : Prop :=
  ∃ rank : String → Nat, ∀ r, S r → ∃ kw name, NamesDefinition r kw name ∧
    ∀ d ∈ definitionTexts kw name schema, ∀ r' ∈ refTexts d, S r' ∧ rank r' < rank r

/-- Every reference of the text is in `S`, unless it is in objects without combining keywords all the way up. -/
inductive FreeOutside (S : String → Prop) : JVal → Prop
  | settled (v : JVal) (refs : ∀ r ∈ refTexts v, S r) : FreeOutside S v
  | plain (m : List (String × JVal)) (keywords : ∀ p ∈ m, p.1 ∉ combiningKeywords) (members : ∀ p ∈ m, FreeOutside S p.2)
      (items : ∀ p ∈ m, ∀ l, p.2 = .arr l → ∀ x ∈ l, FreeOutside S x) : FreeOutside S (.obj m)

mutual
/-- All references in a text, wherever they are. -/
def refTextsDeep : JVal → List String
  | .obj m => refTextsDeepObj m
  | .arr l => refTextsDeepArr l
  | .null => []
  | .bool _ => []
  | .num _ => []
  | .str _ => []
termination_by structural v => v
/-- Members of an object. -/
def refTextsDeepObj : List (String × JVal) → List String
  | [] => []
  | p :: t => refTextsDeepField p ++ refTextsDeepObj t
termination_by structural l => l
/-- One member. -/
def refTextsDeepField : String × JVal → List String
  | (k, v) => refTextsDeepMember k v
termination_by structural p => p
/-- The value of the member named `k`. -/
def refTextsDeepMember (k : String) : JVal → List String
  | .str s => if k = "$ref" then [s] else []
  | .obj m => refTextsDeepObj m
  | .arr l => refTextsDeepArr l
  | .null => []
  | .bool _ => []
  | .num _ => []
termination_by structural v => v
/-- Items of an array. -/
def refTextsDeepArr : List JVal → List String
  | [] => []
  | v :: t => refTextsDeep v ++ refTextsDeepArr t
termination_by structural l => l
end

mutual
/-- Every member named `$ref`, of every object, is a string. -/
def refsAreStrings : JVal → Bool
  | .obj m => refsAreStringsObj m
  | .arr l => refsAreStringsArr l
  | .null => true
  | .bool _ => true
  | .num _ => true
  | .str _ => true
termination_by structural v => v
/-- Members of an object. -/
def refsAreStringsObj : List (String × JVal) → Bool
  | [] => true
  | p :: t => refsAreStringsField p && refsAreStringsObj t
termination_by structural l => l
/-- One member. -/
def refsAreStringsField : String × JVal → Bool
  | (k, v) => refsAreStringsMember k v
termination_by structural p => p
/-- The value of the member named `k`. -/
def refsAreStringsMember (k : String) : JVal → Bool
  | .str _ => true
  | .obj m => k != "$ref" && refsAreStringsObj m
  | .arr l => k != "$ref" && refsAreStringsArr l
  | .null => k != "$ref"
  | .bool _ => k != "$ref"
  | .num _ => k != "$ref"
termination_by structural v => v
/-- Items of an array. -/
def refsAreStringsArr : List JVal → Bool
  | [] => true
  | v :: t => refsAreStrings v && refsAreStringsArr t
termination_by structural l => l
end

/-- A reference into the same document: `#` and something without a newline after it. -/
def LocalRef (r : String) : Prop := r.toList.head? = some '#' ∧ '\n' ∉ r.toList

end Chaff
