import Verif.Model.Schema
import Verif.Model.Util
/-!
# What a JSON pointer into a schema denotes

A pointer is a list of reference tokens.  `PointsTo n tokens t`: starting at the schema `n` and reading the tokens
from left to right one arrives at the schema `t`.  Only keywords that hold schemas by name, or a single schema that
the pointer goes on into, are covered.
-/

namespace Chaff

/-- The schema `n` holds the schema `t` under the name `name` of the keyword `kw`. -/
inductive HasNamed (n : SchemaNode) (name : String) (t : SchemaNode) : String → Prop
  | properties (m : List (String × SchemaNode)) : n.properties = some m → lookupKV m name = some t →
      HasNamed n name t "properties"
  | patternProperties (m : List (String × SchemaNode)) : n.patternProperties = some m → lookupKV m name = some t →
      HasNamed n name t "patternProperties"
  | definitions (m : List (String × SchemaNode)) : n.definitions = some m → lookupKV m name = some t →
      HasNamed n name t "definitions"
  | defs (m : List (String × SchemaNode)) : n.defs = some m → lookupKV m name = some t → HasNamed n name t "$defs"

/-- The schema `n` holds the single schema `t` under the keyword `kw`. -/
inductive HasSub (n t : SchemaNode) : String → Prop
  | not : n.not = some t → HasSub n t "not"
  | ifN : n.ifN = some t → HasSub n t "if"
  | thenN : n.thenN = some t → HasSub n t "then"
  | elseN : n.elseN = some t → HasSub n t "else"
  | contains : n.contains = some t → HasSub n t "contains"
  | additionalProperties (d : NodeOrFalse SchemaNode) : n.additionalProperties = some d → d.isFalse = false →
      d.schema = some t → HasSub n t "additionalProperties"
  | additionalItems (d : NodeOrFalse SchemaNode) : n.additionalItems = some d → d.isFalse = false →
      d.schema = some t → HasSub n t "additionalItems"
  | unevaluatedItems (d : NodeOrFalse SchemaNode) : n.unevaluatedItems = some d → d.isFalse = false →
      d.schema = some t → HasSub n t "unevaluatedItems"

/-- Following a list of reference tokens. -/
inductive PointsTo : SchemaNode → List String → SchemaNode → Prop
  | here (n : SchemaNode) : PointsTo n [] n
  | named (n m t : SchemaNode) (kw name : String) (rest : List String) : HasNamed n name m kw → PointsTo m rest t →
      PointsTo n (kw :: name :: rest) t
  | sub (n m t : SchemaNode) (kw next : String) (rest : List String) : HasSub n m kw → PointsTo m (next :: rest) t →
      PointsTo n (kw :: next :: rest) t
  | items (n m t : SchemaNode) (d : ItemsData SchemaNode) (next : String) (rest : List String) : n.items = some d →
      d.node = some m → (∃ c ∈ next.toList, c < '0' ∨ '9' < c) → PointsTo m (next :: rest) t →
      PointsTo n ("items" :: next :: rest) t

/-- The keywords that hold schemas by name. -/
def namedKeywords : List String := ["properties", "patternProperties", "definitions", "$defs"]

/-- The tokens name something that is not there: after a prefix that exists, the keyword (one that holds schemas by
name) has no member of the given name. -/
inductive Dangles : SchemaNode → List String → Prop
  | missing (n : SchemaNode) (kw name : String) (rest : List String) : kw ∈ namedKeywords →
      (∀ t, ¬ HasNamed n name t kw) → Dangles n (kw :: name :: rest)
  | named (n m : SchemaNode) (kw name : String) (rest : List String) : HasNamed n name m kw → Dangles m rest →
      Dangles n (kw :: name :: rest)
  | sub (n m : SchemaNode) (kw next : String) (rest : List String) : HasSub n m kw → Dangles m (next :: rest) →
      Dangles n (kw :: next :: rest)

/-- The text of a pointer: `#`, then every token after a slash. -/
def pointerText : List String → String
  | [] => "#"
  | t :: ts => (t :: ts).foldl (fun acc x => acc ++ "/" ++ x) "#"

/-- Tokens that are written as they are: not empty, and without `/` or a newline.  (The code knows no escapes.) -/
def PlainTokens (ts : List String) : Prop := ∀ t ∈ ts, t ≠ "" ∧ '/' ∉ t.toList ∧ '\n' ∉ t.toList

end Chaff
