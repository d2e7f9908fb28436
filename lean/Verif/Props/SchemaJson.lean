import Verif.Spec.SchemaJson
/-!
# C53: schema text round-trips
-/

namespace Chaff

theorem decInt_jInt {i : Int} (h : -(2 ^ 63) ≤ i ∧ i < 2 ^ 63) : decInt (jInt i) = some (some i) := by
  unfold jInt decInt
  simp only
  rw [if_pos]
  · simp
  · simpa using h

theorem decStrList_strs (l : List String) : decStrList (l.map JVal.str) = some l := by
  induction l with
  | nil => rfl
  | cons a t ih => simp [decStrList, decStrElem, ih]

theorem decStrMap_strs (m : List (String × List String)) :
    decStrMap (m.map (fun p => (p.1, jStrs p.2))) = some m := by
  induction m with
  | nil => rfl
  | cons p t ih =>
    obtain ⟨k, l⟩ := p
    simp [decStrMap, jStrs, decStrList_strs] at ih ⊢
    simp [ih]

/-- Decoding plain members one after the other. -/
def decBaseFields : List (String × JVal) → NodeBase → Option NodeBase
  | [], b => some b
  | (k, v) :: t, b => (decBaseField b k v).bind (decBaseFields t)

theorem decBaseFields_append (l l' : List (String × JVal)) (b : NodeBase) :
    decBaseFields (l ++ l') b = (decBaseFields l b).bind (decBaseFields l') := by
  induction l generalizing b with
  | nil => simp [decBaseFields]
  | cons p t ih =>
    obtain ⟨k, v⟩ := p
    simp only [List.cons_append, decBaseFields]
    cases h : decBaseField b k v with
    | none => simp
    | some m => simp [ih]

/-- A plain member is decoded into its field. -/
theorem decBaseFields_member {α : Type} (k : String) (f : α → JVal) (o : Option α) (b b' : NodeBase)
    (hn : o = none → b' = b) (hs : ∀ a, o = some a → decBaseField b k (f a) = some b') :
    decBaseFields (member k f o) b = some b' := by
  cases o with
  | none => simp [member, decBaseFields, hn]
  | some a => simp [member, decBaseFields, hs]

theorem decType_encType {t : MultipleType} (h : GoodType t) : decType (encType t) = some (some t) := by
  obtain ⟨s, m⟩ := t
  rcases h with ⟨h1, h2⟩ | ⟨h1, x, xs, h2⟩
  · simp only at h1 h2; subst h2
    simp [encType, h1, decType]
  · simp only at h1 h2; subst h1 h2
    have := decStrList_strs (x :: xs)
    simp only [List.map_cons] at this
    simp [encType, decType, jStrs, this]

theorem decBase_encBase (b : NodeBase) (h : FaithfulBase b) : decBaseFields (encBase b) {} = some b := by
  unfold encBase
  simp only [decBaseFields_append]
  obtain ⟨ty, ln, mip, map, req, pat, fmt, mil, mal, mn, mx, emn, emx, mo, mii, mai, mic, mac, ui, en, cn, rf, idd, dr⟩ := b
  rw [decBaseFields_member "type" encType ty {} { type := ty } (by rintro rfl; rfl)
    (by rintro a rfl; simp [decBaseField, decType_encType (h.type a rfl)]), Option.bind_some]
  rw [decBaseFields_member "length" jInt ln { type := ty } { type := ty, length := ln } (by rintro rfl; rfl)
    (by rintro a rfl; simp [decBaseField, decInt_jInt (h.length a rfl)]), Option.bind_some]
  rw [decBaseFields_member "minProperties" jInt mip { type := ty, length := ln } { type := ty, length := ln, minProperties := mip } (by rintro rfl; rfl)
    (by rintro a rfl; simp [decBaseField, decInt_jInt (h.minProperties a rfl)]), Option.bind_some]
  rw [decBaseFields_member "maxProperties" jInt map { type := ty, length := ln, minProperties := mip } { type := ty, length := ln, minProperties := mip, maxProperties := map } (by rintro rfl; rfl)
    (by rintro a rfl; simp [decBaseField, decInt_jInt (h.maxProperties a rfl)]), Option.bind_some]
  rw [decBaseFields_member "required" jStrs req { type := ty, length := ln, minProperties := mip, maxProperties := map } { type := ty, length := ln, minProperties := mip, maxProperties := map, required := req } (by rintro rfl; rfl)
    (by rintro a rfl; simp [decBaseField, decStrings, jStrs, decStrList_strs]), Option.bind_some]
  rw [decBaseFields_member "pattern" JVal.str pat { type := ty, length := ln, minProperties := mip, maxProperties := map, required := req } { type := ty, length := ln, minProperties := mip, maxProperties := map, required := req, pattern := pat } (by rintro rfl; rfl)
    (by rintro a rfl; simp [decBaseField, decString]), Option.bind_some]
  rw [decBaseFields_member "format" JVal.str fmt { type := ty, length := ln, minProperties := mip, maxProperties := map, required := req, pattern := pat } { type := ty, length := ln, minProperties := mip, maxProperties := map, required := req, pattern := pat, format := fmt } (by rintro rfl; rfl)
    (by rintro a rfl; simp [decBaseField, decString]), Option.bind_some]
  rw [decBaseFields_member "minLength" jInt mil { type := ty, length := ln, minProperties := mip, maxProperties := map, required := req, pattern := pat, format := fmt } { type := ty, length := ln, minProperties := mip, maxProperties := map, required := req, pattern := pat, format := fmt, minLength := mil } (by rintro rfl; rfl)
    (by rintro a rfl; simp [decBaseField, decInt_jInt (h.minLength a rfl)]), Option.bind_some]
  rw [decBaseFields_member "maxLength" jInt mal { type := ty, length := ln, minProperties := mip, maxProperties := map, required := req, pattern := pat, format := fmt, minLength := mil } { type := ty, length := ln, minProperties := mip, maxProperties := map, required := req, pattern := pat, format := fmt, minLength := mil, maxLength := mal } (by rintro rfl; rfl)
    (by rintro a rfl; simp [decBaseField, decInt_jInt (h.maxLength a rfl)]), Option.bind_some]
  rw [decBaseFields_member "minimum" JVal.num mn { type := ty, length := ln, minProperties := mip, maxProperties := map, required := req, pattern := pat, format := fmt, minLength := mil, maxLength := mal } { type := ty, length := ln, minProperties := mip, maxProperties := map, required := req, pattern := pat, format := fmt, minLength := mil, maxLength := mal, minimum := mn } (by rintro rfl; rfl)
    (by rintro a rfl; simp [decBaseField, decRat]), Option.bind_some]
  rw [decBaseFields_member "maximum" JVal.num mx { type := ty, length := ln, minProperties := mip, maxProperties := map, required := req, pattern := pat, format := fmt, minLength := mil, maxLength := mal, minimum := mn } { type := ty, length := ln, minProperties := mip, maxProperties := map, required := req, pattern := pat, format := fmt, minLength := mil, maxLength := mal, minimum := mn, maximum := mx } (by rintro rfl; rfl)
    (by rintro a rfl; simp [decBaseField, decRat]), Option.bind_some]
  rw [decBaseFields_member "exclusiveMinimum" JVal.num emn { type := ty, length := ln, minProperties := mip, maxProperties := map, required := req, pattern := pat, format := fmt, minLength := mil, maxLength := mal, minimum := mn, maximum := mx } { type := ty, length := ln, minProperties := mip, maxProperties := map, required := req, pattern := pat, format := fmt, minLength := mil, maxLength := mal, minimum := mn, maximum := mx, exclusiveMinimum := emn } (by rintro rfl; rfl)
    (by rintro a rfl; simp [decBaseField, decRat]), Option.bind_some]
  rw [decBaseFields_member "exclusiveMaximum" JVal.num emx { type := ty, length := ln, minProperties := mip, maxProperties := map, required := req, pattern := pat, format := fmt, minLength := mil, maxLength := mal, minimum := mn, maximum := mx, exclusiveMinimum := emn } { type := ty, length := ln, minProperties := mip, maxProperties := map, required := req, pattern := pat, format := fmt, minLength := mil, maxLength := mal, minimum := mn, maximum := mx, exclusiveMinimum := emn, exclusiveMaximum := emx } (by rintro rfl; rfl)
    (by rintro a rfl; simp [decBaseField, decRat]), Option.bind_some]
  rw [decBaseFields_member "multipleOf" JVal.num mo { type := ty, length := ln, minProperties := mip, maxProperties := map, required := req, pattern := pat, format := fmt, minLength := mil, maxLength := mal, minimum := mn, maximum := mx, exclusiveMinimum := emn, exclusiveMaximum := emx } { type := ty, length := ln, minProperties := mip, maxProperties := map, required := req, pattern := pat, format := fmt, minLength := mil, maxLength := mal, minimum := mn, maximum := mx, exclusiveMinimum := emn, exclusiveMaximum := emx, multipleOf := mo } (by rintro rfl; rfl)
    (by rintro a rfl; simp [decBaseField, decRat]), Option.bind_some]
  rw [decBaseFields_member "minItems" jInt mii { type := ty, length := ln, minProperties := mip, maxProperties := map, required := req, pattern := pat, format := fmt, minLength := mil, maxLength := mal, minimum := mn, maximum := mx, exclusiveMinimum := emn, exclusiveMaximum := emx, multipleOf := mo } { type := ty, length := ln, minProperties := mip, maxProperties := map, required := req, pattern := pat, format := fmt, minLength := mil, maxLength := mal, minimum := mn, maximum := mx, exclusiveMinimum := emn, exclusiveMaximum := emx, multipleOf := mo, minItems := mii } (by rintro rfl; rfl)
    (by rintro a rfl; simp [decBaseField, decInt_jInt (h.minItems a rfl)]), Option.bind_some]
  rw [decBaseFields_member "maxItems" jInt mai { type := ty, length := ln, minProperties := mip, maxProperties := map, required := req, pattern := pat, format := fmt, minLength := mil, maxLength := mal, minimum := mn, maximum := mx, exclusiveMinimum := emn, exclusiveMaximum := emx, multipleOf := mo, minItems := mii } { type := ty, length := ln, minProperties := mip, maxProperties := map, required := req, pattern := pat, format := fmt, minLength := mil, maxLength := mal, minimum := mn, maximum := mx, exclusiveMinimum := emn, exclusiveMaximum := emx, multipleOf := mo, minItems := mii, maxItems := mai } (by rintro rfl; rfl)
    (by rintro a rfl; simp [decBaseField, decInt_jInt (h.maxItems a rfl)]), Option.bind_some]
  rw [decBaseFields_member "minContains" jInt mic { type := ty, length := ln, minProperties := mip, maxProperties := map, required := req, pattern := pat, format := fmt, minLength := mil, maxLength := mal, minimum := mn, maximum := mx, exclusiveMinimum := emn, exclusiveMaximum := emx, multipleOf := mo, minItems := mii, maxItems := mai } { type := ty, length := ln, minProperties := mip, maxProperties := map, required := req, pattern := pat, format := fmt, minLength := mil, maxLength := mal, minimum := mn, maximum := mx, exclusiveMinimum := emn, exclusiveMaximum := emx, multipleOf := mo, minItems := mii, maxItems := mai, minContains := mic } (by rintro rfl; rfl)
    (by rintro a rfl; simp [decBaseField, decInt_jInt (h.minContains a rfl)]), Option.bind_some]
  rw [decBaseFields_member "maxContains" jInt mac { type := ty, length := ln, minProperties := mip, maxProperties := map, required := req, pattern := pat, format := fmt, minLength := mil, maxLength := mal, minimum := mn, maximum := mx, exclusiveMinimum := emn, exclusiveMaximum := emx, multipleOf := mo, minItems := mii, maxItems := mai, minContains := mic } { type := ty, length := ln, minProperties := mip, maxProperties := map, required := req, pattern := pat, format := fmt, minLength := mil, maxLength := mal, minimum := mn, maximum := mx, exclusiveMinimum := emn, exclusiveMaximum := emx, multipleOf := mo, minItems := mii, maxItems := mai, minContains := mic, maxContains := mac } (by rintro rfl; rfl)
    (by rintro a rfl; simp [decBaseField, decInt_jInt (h.maxContains a rfl)]), Option.bind_some]
  rw [decBaseFields_member "uniqueItems" JVal.bool ui { type := ty, length := ln, minProperties := mip, maxProperties := map, required := req, pattern := pat, format := fmt, minLength := mil, maxLength := mal, minimum := mn, maximum := mx, exclusiveMinimum := emn, exclusiveMaximum := emx, multipleOf := mo, minItems := mii, maxItems := mai, minContains := mic, maxContains := mac } { type := ty, length := ln, minProperties := mip, maxProperties := map, required := req, pattern := pat, format := fmt, minLength := mil, maxLength := mal, minimum := mn, maximum := mx, exclusiveMinimum := emn, exclusiveMaximum := emx, multipleOf := mo, minItems := mii, maxItems := mai, minContains := mic, maxContains := mac, uniqueItems := ui } (by rintro rfl; rfl)
    (by rintro a rfl; simp [decBaseField, decBool]), Option.bind_some]
  rw [decBaseFields_member "enum" JVal.arr en { type := ty, length := ln, minProperties := mip, maxProperties := map, required := req, pattern := pat, format := fmt, minLength := mil, maxLength := mal, minimum := mn, maximum := mx, exclusiveMinimum := emn, exclusiveMaximum := emx, multipleOf := mo, minItems := mii, maxItems := mai, minContains := mic, maxContains := mac, uniqueItems := ui } { type := ty, length := ln, minProperties := mip, maxProperties := map, required := req, pattern := pat, format := fmt, minLength := mil, maxLength := mal, minimum := mn, maximum := mx, exclusiveMinimum := emn, exclusiveMaximum := emx, multipleOf := mo, minItems := mii, maxItems := mai, minContains := mic, maxContains := mac, uniqueItems := ui, enum := en } (by rintro rfl; rfl)
    (by rintro a rfl; simp [decBaseField, decValues]), Option.bind_some]
  rw [decBaseFields_member "const" id cn { type := ty, length := ln, minProperties := mip, maxProperties := map, required := req, pattern := pat, format := fmt, minLength := mil, maxLength := mal, minimum := mn, maximum := mx, exclusiveMinimum := emn, exclusiveMaximum := emx, multipleOf := mo, minItems := mii, maxItems := mai, minContains := mic, maxContains := mac, uniqueItems := ui, enum := en } { type := ty, length := ln, minProperties := mip, maxProperties := map, required := req, pattern := pat, format := fmt, minLength := mil, maxLength := mal, minimum := mn, maximum := mx, exclusiveMinimum := emn, exclusiveMaximum := emx, multipleOf := mo, minItems := mii, maxItems := mai, minContains := mic, maxContains := mac, uniqueItems := ui, enum := en, const := cn } (by rintro rfl; rfl)
    (by rintro a rfl; simp [decBaseField, id]), Option.bind_some]
  rw [decBaseFields_member "$ref" JVal.str rf { type := ty, length := ln, minProperties := mip, maxProperties := map, required := req, pattern := pat, format := fmt, minLength := mil, maxLength := mal, minimum := mn, maximum := mx, exclusiveMinimum := emn, exclusiveMaximum := emx, multipleOf := mo, minItems := mii, maxItems := mai, minContains := mic, maxContains := mac, uniqueItems := ui, enum := en, const := cn } { type := ty, length := ln, minProperties := mip, maxProperties := map, required := req, pattern := pat, format := fmt, minLength := mil, maxLength := mal, minimum := mn, maximum := mx, exclusiveMinimum := emn, exclusiveMaximum := emx, multipleOf := mo, minItems := mii, maxItems := mai, minContains := mic, maxContains := mac, uniqueItems := ui, enum := en, const := cn, ref := rf } (by rintro rfl; rfl)
    (by rintro a rfl; simp [decBaseField, decString]), Option.bind_some]
  rw [decBaseFields_member "$id" JVal.str idd { type := ty, length := ln, minProperties := mip, maxProperties := map, required := req, pattern := pat, format := fmt, minLength := mil, maxLength := mal, minimum := mn, maximum := mx, exclusiveMinimum := emn, exclusiveMaximum := emx, multipleOf := mo, minItems := mii, maxItems := mai, minContains := mic, maxContains := mac, uniqueItems := ui, enum := en, const := cn, ref := rf } { type := ty, length := ln, minProperties := mip, maxProperties := map, required := req, pattern := pat, format := fmt, minLength := mil, maxLength := mal, minimum := mn, maximum := mx, exclusiveMinimum := emn, exclusiveMaximum := emx, multipleOf := mo, minItems := mii, maxItems := mai, minContains := mic, maxContains := mac, uniqueItems := ui, enum := en, const := cn, ref := rf, id := idd } (by rintro rfl; rfl)
    (by rintro a rfl; simp [decBaseField, decString]), Option.bind_some]
  cases dr with
  | nil => simp [decBaseFields]
  | cons p t =>
    have := decStrMap_strs (p :: t)
    simp only [List.map_cons] at this
    simp [decBaseFields, decBaseField, decDependentRequired, this]

theorem decodeFields_base (l : List (String × JVal)) (n : SchemaNode) (h : ∀ p ∈ l, SubKey.ofName p.1 = none) :
    decodeFields l n = (decBaseFields l n.toNodeBase).map (fun b => { n with toNodeBase := b }) := by
  induction l generalizing n with
  | nil => simp only [decodeFields, decBaseFields]; cases n; rfl
  | cons p t ih =>
    obtain ⟨k, v⟩ := p
    have hk : SubKey.ofName k = none := h (k, v) (by simp)
    simp only [decodeFields, decodeField, decBaseFields, hk]
    cases hb : decBaseField n.toNodeBase k v with
    | none => simp
    | some b =>
      simp only [Option.map_some, Option.bind_some]
      rw [ih _ (fun p hp => h p (by simp [hp]))]

theorem mem_member {α : Type} {k : String} {f : α → JVal} {o : Option α} {p : String × JVal}
    (h : p ∈ member k f o) : p.1 = k := by
  cases o <;> simp [member] at h
  subst h; rfl

theorem encBase_keys (b : NodeBase) : ∀ p ∈ encBase b, SubKey.ofName p.1 = none := by
  intro p hp
  unfold encBase at hp
  simp only [List.mem_append] at hp
  rcases hp with (((((((((((((((((((((((h | h) | h) | h) | h) | h) | h) | h) | h) | h) | h) | h) | h) | h) | h) | h) | h) | h) | h) | h) | h) | h) | h) | h)
  case inr =>
    cases hd : b.dependentRequired with
    | nil => simp [hd] at h
    | cons a t =>
      simp [hd] at h
      subst h
      show SubKey.ofName "dependentRequired" = none
      decide +kernel
  all_goals
    rw [mem_member h]; decide +kernel

theorem decode_base (b : NodeBase) (h : FaithfulBase b) :
    decodeFields (encBase b) emptyNode = some { toNodeBase := b } := by
  rw [decodeFields_base _ _ (encBase_keys b)]
  show (decBaseFields (encBase b) {}).map _ = _
  rw [decBase_encBase b h]; rfl

theorem decodeMap_enc (m : List (String × SchemaNode)) (h : ∀ p ∈ m, decodeNode (encodeNode p.2) = some p.2) :
    decodeMap (encMap m) = some m := by
  induction m with
  | nil => simp [encMap, decodeMap]
  | cons p t ih =>
    obtain ⟨k, n⟩ := p
    have h1 := h (k, n) (by simp)
    have h2 := ih (fun p hp => h p (by simp [hp]))
    simp only at h1
    simp [encMap, encPair, decodeMap, decodePair, h1, h2]

theorem decodeList_enc (m : List SchemaNode) (h : ∀ p ∈ m, decodeNode (encodeNode p) = some p) :
    decodeList (encList m) = some m := by
  induction m with
  | nil => simp [encList, decodeList]
  | cons n t ih =>
    have h1 := h n (by simp)
    have h2 := ih (fun p hp => h p (by simp [hp]))
    simp [encList, decodeList, h1, h2]

theorem encodeNode_obj (n : SchemaNode) : ∃ m, encodeNode n = .obj m := by
  cases n; simp [encodeNode]

theorem decodeFields_of_node {n n' : SchemaNode} {m : List (String × JVal)} (he : encodeNode n = .obj m)
    (h : decodeNode (encodeNode n) = some n') : decodeFields m emptyNode = some n' := by
  rw [he] at h; simpa [decodeNode] using h

theorem decodeFields_one (k : String) (v : JVal) (n : SchemaNode) (sk : SubKey) (sh : SubShape) (hk : SubKey.ofName k = some sk)
    (hsh : sk.shape = sh) (x : SubVal) (h : decodeSub sh v = some x) :
    decodeFields [(k, v)] n = some (setSub n sk x) := by
  subst hsh
  simp only [decodeFields, decodeField, hk, h]
  rfl

/-- A sub-schema member is decoded into its field. -/
theorem decode_optMap (sk : SubKey) (hk : SubKey.ofName sk.name = some sk) (hsh : sk.shape = .map)
    (o : Option (List (String × SchemaNode))) (n n' : SchemaNode)
    (h : ∀ m, o = some m → ∀ p ∈ m, decodeNode (encodeNode p.2) = some p.2)
    (hn : o = none → n' = n) (hs : ∀ m, o = some m → setSub n sk (.map (some m)) = n') :
    decodeFields (encOptMap sk.name o) n = some n' := by
  cases o with
  | none => simp [encOptMap, decodeFields, hn]
  | some m =>
    rw [encOptMap, decodeFields_one _ _ n sk .map hk hsh (.map (some m)) (by simp [decodeSub, decodeMap_enc m (h m rfl)]), hs m rfl]

theorem decode_optList (sk : SubKey) (hk : SubKey.ofName sk.name = some sk) (hsh : sk.shape = .nodes)
    (o : Option (List SchemaNode)) (n n' : SchemaNode)
    (h : ∀ m, o = some m → ∀ p ∈ m, decodeNode (encodeNode p) = some p)
    (hn : o = none → n' = n) (hs : ∀ m, o = some m → setSub n sk (.nodes (some m)) = n') :
    decodeFields (encOptList sk.name o) n = some n' := by
  cases o with
  | none => simp [encOptList, decodeFields, hn]
  | some m =>
    rw [encOptList, decodeFields_one _ _ n sk .nodes hk hsh (.nodes (some m)) (by simp [decodeSub, decodeList_enc m (h m rfl)]), hs m rfl]

theorem decode_optNode (sk : SubKey) (hk : SubKey.ofName sk.name = some sk) (hsh : sk.shape = .node)
    (o : Option SchemaNode) (n n' : SchemaNode)
    (h : ∀ m, o = some m → decodeNode (encodeNode m) = some m)
    (hn : o = none → n' = n) (hs : ∀ m, o = some m → setSub n sk (.node (some m)) = n') :
    decodeFields (encOptNode sk.name o) n = some n' := by
  cases o with
  | none => simp [encOptNode, decodeFields, hn]
  | some m =>
    obtain ⟨mm, hm⟩ := encodeNode_obj m
    have := decodeFields_of_node hm (h m rfl)
    rw [encOptNode, decodeFields_one _ _ n sk .node hk hsh (.node (some m)) (by rw [hm]; simp [decodeSub, this]), hs m rfl]

theorem decode_optOrFalse (sk : SubKey) (hk : SubKey.ofName sk.name = some sk) (hsh : sk.shape = .orFalse)
    (o : Option (NodeOrFalse SchemaNode)) (n n' : SchemaNode) (hg : GoodOrFalse o)
    (h : ∀ m, o.bind NodeOrFalse.schema = some m → decodeNode (encodeNode m) = some m)
    (hn : o = none → n' = n) (hs : ∀ m, o = some m → setSub n sk (.orFalse (some m)) = n') :
    decodeFields (encOptOrFalse sk.name o) n = some n' := by
  cases o with
  | none => simp [encOptOrFalse, decodeFields, hn]
  | some x =>
    have h2 := hs x rfl
    rcases hg x rfl with ⟨h1, h3⟩ | ⟨⟨s, h1⟩, h3⟩
    · obtain ⟨a, b⟩ := x
      simp only at h1 h3; subst h1 h3
      rw [encOptOrFalse, decodeFields_one _ _ n sk .orFalse hk hsh (.orFalse (some { isFalse := true })) (by simp [encOrFalse, decodeSub]), h2]
    · obtain ⟨a, b⟩ := x
      simp only at h1 h3; subst h1 h3
      obtain ⟨mm, hm⟩ := encodeNode_obj s
      have := decodeFields_of_node hm (h s rfl)
      rw [encOptOrFalse, decodeFields_one _ _ n sk .orFalse hk hsh (.orFalse (some { schema := some s })) (by simp [encOrFalse, encNodeOrNull, hm, decodeSub, this]), h2]

theorem decode_optItems (sk : SubKey) (hk : SubKey.ofName sk.name = some sk) (hsh : sk.shape = .items)
    (o : Option (ItemsData SchemaNode)) (n n' : SchemaNode) (hg : GoodItems o)
    (h : ∀ m, o.bind ItemsData.node = some m → decodeNode (encodeNode m) = some m)
    (hn : o = none → n' = n) (hs : ∀ m, o = some m → setSub n sk (.items (some m)) = n') :
    decodeFields (encOptItems sk.name o) n = some n' := by
  cases o with
  | none => simp [encOptItems, decodeFields, hn]
  | some x =>
    have h2 := hs x rfl
    rcases hg x rfl with ⟨h1, h3, h4⟩ | ⟨⟨s, h1⟩, h3, h4⟩
    · obtain ⟨a, b, c⟩ := x
      simp only at h1 h3 h4; subst h1 h3 h4
      rw [encOptItems, decodeFields_one _ _ n sk .items hk hsh (.items (some { disallow := true })) (by simp [encItems, decodeSub]), h2]
    · obtain ⟨a, b, c⟩ := x
      simp only at h1 h3 h4; subst h1 h3 h4
      obtain ⟨mm, hm⟩ := encodeNode_obj s
      have := decodeFields_of_node hm (h s rfl)
      rw [encOptItems, decodeFields_one _ _ n sk .items hk hsh (.items (some { node := some s, nodes := some [] })) (by simp [encItems, encNodeOrNull, hm, decodeSub, this]), h2]

theorem encodeNode_eq (n : SchemaNode) : encodeNode n =
    .obj (encBase n.toNodeBase ++ encOptMap "properties" n.properties ++
      encOptOrFalse "additionalProperties" n.additionalProperties ++
      encOptMap "patternProperties" n.patternProperties ++ encOptItems "items" n.items ++
      encOptNode "contains" n.contains ++
      encOptList "prefixItems" n.prefixItems ++ encOptOrFalse "additionalItems" n.additionalItems ++
      encOptOrFalse "unevaluatedItems" n.unevaluatedItems ++ encOptNode "not" n.not ++ encOptList "allOf" n.allOf ++
      encOptList "anyOf" n.anyOf ++ encOptList "oneOf" n.oneOf ++ encOptMap "$defs" n.defs ++
      encOptMap "definitions" n.definitions ++ encOptNode "if" n.ifN ++ encOptNode "then" n.thenN ++
      encOptNode "else" n.elseN ++
      (match encMap n.dependentSchemas with | [] => [] | x :: t => [("dependentSchemas", .obj (x :: t))])) := by
  cases n; simp only [encodeNode]
  rfl

theorem decode_dep (m : List (String × SchemaNode)) (n n' : SchemaNode)
    (h : ∀ p ∈ m, decodeNode (encodeNode p.2) = some p.2)
    (hs : { n with dependentSchemas := m } = n') (hn : n.dependentSchemas = []) :
    decodeFields (match encMap m with | [] => [] | x :: t => [("dependentSchemas", .obj (x :: t))]) n = some n' := by
  cases m with
  | nil => simp only [encMap, decodeFields]; rw [← hs, ← hn]; cases n; rfl
  | cons p t =>
    have h1 := decodeMap_enc (p :: t) h
    have hk : SubKey.ofName "dependentSchemas" = some .dependentSchemas := by decide +kernel
    simp only [encMap] at h1 ⊢
    rw [decodeFields_one _ _ n .dependentSchemas .map hk rfl (.map (some (p :: t))) (by simp [decodeSub, h1])]
    simp [setSub, hs]

/-- **C53 (main).** Writing a schema and reading it back gives the same schema. -/
theorem C53_roundtrip (n : SchemaNode) (hf : Faithful n) : decodeNode (encodeNode n) = some n := by
  induction n using SchemaNode.ind with
  | h n ih =>
    obtain ⟨_, base, addP, addI, unev, hitems, noIf, noNot, noCon, sub⟩ := hf
    have hc : ∀ c ∈ n.children, decodeNode (encodeNode c) = some c := fun c hc => ih c hc (sub c hc)
    clear ih sub
    unfold SchemaNode.children at hc
    simp only [List.mem_append] at hc
    rw [encodeNode_eq]
    obtain ⟨b, props, ap, pp, it, cont, pre, ai, ui, nt, allO, anyO, oneO, defs, dfn, iN, tN, eN, depS, mi, mn, cs⟩ := n
    simp only at base addP addI unev hitems noIf noNot noCon hc ⊢
    subst noIf noNot noCon
    simp only [decodeNode, decodeFields_append]
    rw [decode_base b base, Option.bind_some]
    rw [show encOptMap "properties" props = encOptMap SubKey.properties.name props from rfl,
      decode_optMap .properties (by decide +kernel) rfl props { toNodeBase := b } { toNodeBase := b, properties := props }
      (fun m e p hp => hc p.2 (by subst e; simp only [Option.getD_some, List.mem_map]; have : ∃ a ∈ m, a.2 = p.2 := ⟨p, hp, rfl⟩; simp [this]))
      (by rintro rfl; rfl) (by rintro m rfl; rfl), Option.bind_some]
    rw [show encOptOrFalse "additionalProperties" ap = encOptOrFalse SubKey.additionalProperties.name ap from rfl,
      decode_optOrFalse .additionalProperties (by decide +kernel) rfl ap { toNodeBase := b, properties := props } { toNodeBase := b, properties := props, additionalProperties := ap } addP
      (fun m e => hc m (by simp [e]))
      (by rintro rfl; rfl) (by rintro m rfl; rfl), Option.bind_some]
    rw [show encOptMap "patternProperties" pp = encOptMap SubKey.patternProperties.name pp from rfl,
      decode_optMap .patternProperties (by decide +kernel) rfl pp { toNodeBase := b, properties := props, additionalProperties := ap } { toNodeBase := b, properties := props, additionalProperties := ap, patternProperties := pp }
      (fun m e p hp => hc p.2 (by subst e; simp only [Option.getD_some, List.mem_map]; have : ∃ a ∈ m, a.2 = p.2 := ⟨p, hp, rfl⟩; simp [this]))
      (by rintro rfl; rfl) (by rintro m rfl; rfl), Option.bind_some]
    rw [show encOptItems "items" it = encOptItems SubKey.items.name it from rfl,
      decode_optItems .items (by decide +kernel) rfl it { toNodeBase := b, properties := props, additionalProperties := ap, patternProperties := pp } { toNodeBase := b, properties := props, additionalProperties := ap, patternProperties := pp, items := it } hitems
      (fun m e => hc m (by simp [e]))
      (by rintro rfl; rfl) (by rintro m rfl; rfl), Option.bind_some]
    rw [show encOptNode "contains" cont = encOptNode SubKey.contains.name cont from rfl,
      decode_optNode .contains (by decide +kernel) rfl cont { toNodeBase := b, properties := props, additionalProperties := ap, patternProperties := pp, items := it } { toNodeBase := b, properties := props, additionalProperties := ap, patternProperties := pp, items := it, contains := cont }
      (fun m e => hc m (by subst e; simp))
      (by rintro rfl; rfl) (by rintro m rfl; rfl), Option.bind_some]
    rw [show encOptList "prefixItems" pre = encOptList SubKey.prefixItems.name pre from rfl,
      decode_optList .prefixItems (by decide +kernel) rfl pre { toNodeBase := b, properties := props, additionalProperties := ap, patternProperties := pp, items := it, contains := cont } { toNodeBase := b, properties := props, additionalProperties := ap, patternProperties := pp, items := it, contains := cont, prefixItems := pre }
      (fun m e p hp => hc p (by subst e; simp [hp]))
      (by rintro rfl; rfl) (by rintro m rfl; rfl), Option.bind_some]
    rw [show encOptOrFalse "additionalItems" ai = encOptOrFalse SubKey.additionalItems.name ai from rfl,
      decode_optOrFalse .additionalItems (by decide +kernel) rfl ai { toNodeBase := b, properties := props, additionalProperties := ap, patternProperties := pp, items := it, contains := cont, prefixItems := pre } { toNodeBase := b, properties := props, additionalProperties := ap, patternProperties := pp, items := it, contains := cont, prefixItems := pre, additionalItems := ai } addI
      (fun m e => hc m (by simp [e]))
      (by rintro rfl; rfl) (by rintro m rfl; rfl), Option.bind_some]
    rw [show encOptOrFalse "unevaluatedItems" ui = encOptOrFalse SubKey.unevaluatedItems.name ui from rfl,
      decode_optOrFalse .unevaluatedItems (by decide +kernel) rfl ui { toNodeBase := b, properties := props, additionalProperties := ap, patternProperties := pp, items := it, contains := cont, prefixItems := pre, additionalItems := ai } { toNodeBase := b, properties := props, additionalProperties := ap, patternProperties := pp, items := it, contains := cont, prefixItems := pre, additionalItems := ai, unevaluatedItems := ui } unev
      (fun m e => hc m (by simp [e]))
      (by rintro rfl; rfl) (by rintro m rfl; rfl), Option.bind_some]
    rw [show encOptNode "not" nt = encOptNode SubKey.not.name nt from rfl,
      decode_optNode .not (by decide +kernel) rfl nt { toNodeBase := b, properties := props, additionalProperties := ap, patternProperties := pp, items := it, contains := cont, prefixItems := pre, additionalItems := ai, unevaluatedItems := ui } { toNodeBase := b, properties := props, additionalProperties := ap, patternProperties := pp, items := it, contains := cont, prefixItems := pre, additionalItems := ai, unevaluatedItems := ui, not := nt }
      (fun m e => hc m (by subst e; simp))
      (by rintro rfl; rfl) (by rintro m rfl; rfl), Option.bind_some]
    rw [show encOptList "allOf" allO = encOptList SubKey.allOf.name allO from rfl,
      decode_optList .allOf (by decide +kernel) rfl allO { toNodeBase := b, properties := props, additionalProperties := ap, patternProperties := pp, items := it, contains := cont, prefixItems := pre, additionalItems := ai, unevaluatedItems := ui, not := nt } { toNodeBase := b, properties := props, additionalProperties := ap, patternProperties := pp, items := it, contains := cont, prefixItems := pre, additionalItems := ai, unevaluatedItems := ui, not := nt, allOf := allO }
      (fun m e p hp => hc p (by subst e; simp [hp]))
      (by rintro rfl; rfl) (by rintro m rfl; rfl), Option.bind_some]
    rw [show encOptList "anyOf" anyO = encOptList SubKey.anyOf.name anyO from rfl,
      decode_optList .anyOf (by decide +kernel) rfl anyO { toNodeBase := b, properties := props, additionalProperties := ap, patternProperties := pp, items := it, contains := cont, prefixItems := pre, additionalItems := ai, unevaluatedItems := ui, not := nt, allOf := allO } { toNodeBase := b, properties := props, additionalProperties := ap, patternProperties := pp, items := it, contains := cont, prefixItems := pre, additionalItems := ai, unevaluatedItems := ui, not := nt, allOf := allO, anyOf := anyO }
      (fun m e p hp => hc p (by subst e; simp [hp]))
      (by rintro rfl; rfl) (by rintro m rfl; rfl), Option.bind_some]
    rw [show encOptList "oneOf" oneO = encOptList SubKey.oneOf.name oneO from rfl,
      decode_optList .oneOf (by decide +kernel) rfl oneO { toNodeBase := b, properties := props, additionalProperties := ap, patternProperties := pp, items := it, contains := cont, prefixItems := pre, additionalItems := ai, unevaluatedItems := ui, not := nt, allOf := allO, anyOf := anyO } { toNodeBase := b, properties := props, additionalProperties := ap, patternProperties := pp, items := it, contains := cont, prefixItems := pre, additionalItems := ai, unevaluatedItems := ui, not := nt, allOf := allO, anyOf := anyO, oneOf := oneO }
      (fun m e p hp => hc p (by subst e; simp [hp]))
      (by rintro rfl; rfl) (by rintro m rfl; rfl), Option.bind_some]
    rw [show encOptMap "$defs" defs = encOptMap SubKey.defs.name defs from rfl,
      decode_optMap .defs (by decide +kernel) rfl defs { toNodeBase := b, properties := props, additionalProperties := ap, patternProperties := pp, items := it, contains := cont, prefixItems := pre, additionalItems := ai, unevaluatedItems := ui, not := nt, allOf := allO, anyOf := anyO, oneOf := oneO } { toNodeBase := b, properties := props, additionalProperties := ap, patternProperties := pp, items := it, contains := cont, prefixItems := pre, additionalItems := ai, unevaluatedItems := ui, not := nt, allOf := allO, anyOf := anyO, oneOf := oneO, defs := defs }
      (fun m e p hp => hc p.2 (by subst e; simp only [Option.getD_some, List.mem_map]; have : ∃ a ∈ m, a.2 = p.2 := ⟨p, hp, rfl⟩; simp [this]))
      (by rintro rfl; rfl) (by rintro m rfl; rfl), Option.bind_some]
    rw [show encOptMap "definitions" dfn = encOptMap SubKey.definitions.name dfn from rfl,
      decode_optMap .definitions (by decide +kernel) rfl dfn { toNodeBase := b, properties := props, additionalProperties := ap, patternProperties := pp, items := it, contains := cont, prefixItems := pre, additionalItems := ai, unevaluatedItems := ui, not := nt, allOf := allO, anyOf := anyO, oneOf := oneO, defs := defs } { toNodeBase := b, properties := props, additionalProperties := ap, patternProperties := pp, items := it, contains := cont, prefixItems := pre, additionalItems := ai, unevaluatedItems := ui, not := nt, allOf := allO, anyOf := anyO, oneOf := oneO, defs := defs, definitions := dfn }
      (fun m e p hp => hc p.2 (by subst e; simp only [Option.getD_some, List.mem_map]; have : ∃ a ∈ m, a.2 = p.2 := ⟨p, hp, rfl⟩; simp [this]))
      (by rintro rfl; rfl) (by rintro m rfl; rfl), Option.bind_some]
    rw [show encOptNode "if" iN = encOptNode SubKey.ifK.name iN from rfl,
      decode_optNode .ifK (by decide +kernel) rfl iN { toNodeBase := b, properties := props, additionalProperties := ap, patternProperties := pp, items := it, contains := cont, prefixItems := pre, additionalItems := ai, unevaluatedItems := ui, not := nt, allOf := allO, anyOf := anyO, oneOf := oneO, defs := defs, definitions := dfn } { toNodeBase := b, properties := props, additionalProperties := ap, patternProperties := pp, items := it, contains := cont, prefixItems := pre, additionalItems := ai, unevaluatedItems := ui, not := nt, allOf := allO, anyOf := anyO, oneOf := oneO, defs := defs, definitions := dfn, ifN := iN }
      (fun m e => hc m (by subst e; simp))
      (by rintro rfl; rfl) (by rintro m rfl; rfl), Option.bind_some]
    rw [show encOptNode "then" tN = encOptNode SubKey.thenK.name tN from rfl,
      decode_optNode .thenK (by decide +kernel) rfl tN { toNodeBase := b, properties := props, additionalProperties := ap, patternProperties := pp, items := it, contains := cont, prefixItems := pre, additionalItems := ai, unevaluatedItems := ui, not := nt, allOf := allO, anyOf := anyO, oneOf := oneO, defs := defs, definitions := dfn, ifN := iN } { toNodeBase := b, properties := props, additionalProperties := ap, patternProperties := pp, items := it, contains := cont, prefixItems := pre, additionalItems := ai, unevaluatedItems := ui, not := nt, allOf := allO, anyOf := anyO, oneOf := oneO, defs := defs, definitions := dfn, ifN := iN, thenN := tN }
      (fun m e => hc m (by subst e; simp))
      (by rintro rfl; rfl) (by rintro m rfl; rfl), Option.bind_some]
    rw [show encOptNode "else" eN = encOptNode SubKey.elseK.name eN from rfl,
      decode_optNode .elseK (by decide +kernel) rfl eN { toNodeBase := b, properties := props, additionalProperties := ap, patternProperties := pp, items := it, contains := cont, prefixItems := pre, additionalItems := ai, unevaluatedItems := ui, not := nt, allOf := allO, anyOf := anyO, oneOf := oneO, defs := defs, definitions := dfn, ifN := iN, thenN := tN } { toNodeBase := b, properties := props, additionalProperties := ap, patternProperties := pp, items := it, contains := cont, prefixItems := pre, additionalItems := ai, unevaluatedItems := ui, not := nt, allOf := allO, anyOf := anyO, oneOf := oneO, defs := defs, definitions := dfn, ifN := iN, thenN := tN, elseN := eN }
      (fun m e => hc m (by subst e; simp))
      (by rintro rfl; rfl) (by rintro m rfl; rfl), Option.bind_some]
    exact decode_dep depS _ _ (fun p hp => hc p.2 (by simp only [List.mem_map]; have : ∃ a ∈ depS, a.2 = p.2 := ⟨p, hp, rfl⟩; simp [this])) rfl rfl

/-- A schema with nested objects, a type list, `const: null`, `items` and `additionalProperties: false`. -/
def demoSchemaText : JVal :=
  .obj [("type", .str "object"), ("required", .arr [.str "a"]), ("additionalProperties", .bool false),
    ("properties", .obj [("a", .obj [("type", .arr [.str "string", .str "null"]), ("minLength", .num 2)]),
      ("b", .obj [("items", .obj [("const", .null)]), ("minItems", .num 1)])])]

/-- The decoded form of `demoSchemaText`. -/
def demoSchema : SchemaNode :=
  { type := some { single := "object" }
    required := some ["a"]
    additionalProperties := some { isFalse := true }
    properties := some [
      ("a", { type := some { multiple := some ["string", "null"] }, minLength := some 2 }),
      ("b", { items := some { node := some { const := some .null }, nodes := some [] }, minItems := some 1 })] }

theorem faithful_leaf (b : NodeBase) (h : FaithfulBase b) : Faithful { toNodeBase := b } := by
  refine .mk _ h ?_ ?_ ?_ ?_ rfl rfl rfl ?_
  · intro x hx; cases hx
  · intro x hx; cases hx
  · intro x hx; cases hx
  · intro x hx; cases hx
  · intro c hc; unfold SchemaNode.children at hc; simp at hc

example : decodeNode demoSchemaText = some demoSchema := by rfl

theorem demoSchema_faithful : Faithful demoSchema := by
  have base0 : FaithfulBase {} := by
    constructor <;> (intro _ h; cases h)
  have hconst : Faithful { const := some .null } := faithful_leaf _ (by constructor <;> (intro _ h; cases h))
  have ha : Faithful { type := some { multiple := some ["string", "null"] }, minLength := some 2 } := by
    refine faithful_leaf _ ?_
    constructor <;> (intro _ h; cases h)
    · exact Or.inr ⟨rfl, _, _, rfl⟩
    · decide
  have hb : Faithful { items := some { node := some { const := some .null }, nodes := some [] }, minItems := some 1 } := by
    refine .mk _ ?_ ?_ ?_ ?_ ?_ rfl rfl rfl ?_
    · constructor <;> (intro _ h; cases h)
      decide
    · intro x hx; cases hx
    · intro x hx; cases hx
    · intro x hx; cases hx
    · intro x hx; cases hx; exact Or.inr ⟨⟨_, rfl⟩, rfl, rfl⟩
    · intro c hc; unfold SchemaNode.children at hc; simp at hc; subst hc; exact hconst
  refine .mk _ ?_ ?_ ?_ ?_ ?_ rfl rfl rfl ?_
  · constructor <;> (intro _ h; cases h)
    exact Or.inl ⟨by decide, rfl⟩
  · intro x hx; cases hx; exact Or.inl ⟨rfl, rfl⟩
  · intro x hx; cases hx
  · intro x hx; cases hx
  · intro x hx; cases hx
  · intro c hc; unfold SchemaNode.children at hc; simp [demoSchema] at hc
    rcases hc with rfl | rfl
    · exact ha
    · exact hb

example : decodeNode (encodeNode demoSchema) = some demoSchema := C53_roundtrip _ demoSchema_faithful

/-- **C53 (violated for list-valued `items`).** A schema with a list of item schemas is read, but writing it
out and reading it back loses the list: encoding prefers the (empty) single schema that decoding allocated. -/
theorem C53_items_list_violation : ∃ (text : JVal) (n n' : SchemaNode),
    decodeNode text = some n ∧ decodeNode (encodeNode n) = some n' ∧
    (n.items.bind ItemsData.nodes).map List.length = some 2 ∧ (n'.items.bind ItemsData.nodes).map List.length = some 0 :=
  ⟨.obj [("items", .arr [.obj [("type", .str "string")], .obj [("type", .str "null")]])], _, _, rfl, rfl,
    by decide +kernel, by decide +kernel⟩

/-- **C53 (violated for `true`).** `additionalProperties: true` is read as a present keyword and written back
as `null`, which reads as an absent keyword. -/
theorem C53_true_violation : ∃ (text : JVal) (n n' : SchemaNode),
    decodeNode text = some n ∧ decodeNode (encodeNode n) = some n' ∧
    n.additionalProperties.isSome = true ∧ n'.additionalProperties.isSome = false :=
  ⟨.obj [("additionalProperties", .bool true)], _, _, rfl, rfl, by decide +kernel, by decide +kernel⟩

end Chaff
