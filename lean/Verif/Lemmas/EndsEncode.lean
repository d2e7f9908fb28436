import Verif.Lemmas.EndsText
/-!
# The references and identifiers of a decoded schema come from its text

`kw v` adds up the weights `v` of the string members named `$ref` or `$id`.  The encoding of a decoded schema weighs at most
as much as the text it was decoded from, including what is in `const` and `enum`.
-/

namespace Chaff

variable {v : String → String → Nat}

mutual
/-- The weights of the references and identifiers of a text. -/
def kw (v : String → String → Nat) : JVal → Nat
  | .obj m => kwObj v m
  | .arr _ => 0
  | .null => 0
  | .bool _ => 0
  | .num _ => 0
  | .str _ => 0
termination_by structural x => x
/-- Of the members of an object. -/
def kwObj (v : String → String → Nat) : List (String × JVal) → Nat
  | [] => 0
  | p :: t => kwField v p + kwObj v t
termination_by structural l => l
/-- Of a member. -/
def kwField (v : String → String → Nat) : String × JVal → Nat
  | (k, x) => kwMember v k x
termination_by structural p => p
/-- Of the value of the member named `k`. -/
def kwMember (v : String → String → Nat) (k : String) : JVal → Nat
  | .str s => if k = "$ref" ∨ k = "$id" then v k s else 0
  | .obj m => kwObj v m
  | .arr l => kwArr v l
  | .null => 0
  | .bool _ => 0
  | .num _ => 0
termination_by structural x => x
/-- Of the items of an array. -/
def kwArr (v : String → String → Nat) : List JVal → Nat
  | [] => 0
  | x :: t => kw v x + kwArr v t
termination_by structural l => l
end

@[simp] theorem kwObj_nil : kwObj v [] = 0 := rfl
theorem kwObj_cons (k : String) (x : JVal) (t : List (String × JVal)) : kwObj v ((k, x) :: t) = kwMember v k x + kwObj v t := rfl
@[simp] theorem kwArr_nil : kwArr v [] = 0 := rfl
theorem kwArr_cons (x : JVal) (t : List JVal) : kwArr v (x :: t) = kw v x + kwArr v t := rfl

theorem kw_le_member (k : String) (x : JVal) : kw v x ≤ kwMember v k x := by
  cases x with
  | obj m => exact Nat.le_refl _
  | arr _ => exact Nat.zero_le _
  | null => exact Nat.zero_le _
  | bool _ => exact Nat.zero_le _
  | num _ => exact Nat.zero_le _
  | str _ => exact Nat.zero_le _

theorem kwObj_append (a b : List (String × JVal)) : kwObj v (a ++ b) = kwObj v a + kwObj v b := by
  induction a with
  | nil => simp
  | cons p t ih =>
    obtain ⟨k, x⟩ := p
    rw [List.cons_append, kwObj_cons, kwObj_cons, ih]
    omega

/-- References in an optional list of values. -/
def ewEnum (v : String → String → Nat) : Option (List JVal) → Nat
  | none => 0
  | some l => kwArr v l
/-- References in an optional value. -/
def ewConst (v : String → String → Nat) : Option JVal → Nat
  | none => 0
  | some x => kwMember v "const" x

theorem kwArr_strs (l : List String) : kwArr v (l.map .str) = 0 := by
  induction l with
  | nil => rfl
  | cons x t ih => rw [List.map_cons, kwArr_cons, ih]; rfl

theorem kwMember_strs (k : String) (l : List String) : kwMember v k (jStrs l) = 0 := kwArr_strs l

theorem kwObj_member {α : Type} (k : String) (f : α → JVal) (x : Option α) (h : ∀ a, kwMember v k (f a) = 0) :
    kwObj v (member k f x) = 0 := by
  cases x with
  | none => rfl
  | some a => rw [member, kwObj_cons, h]; rfl

theorem kwMember_str (k : String) (hk : ¬ (k = "$ref" ∨ k = "$id")) (s : String) : kwMember v k (.str s) = 0 := by
  rw [kwMember, if_neg hk]

theorem kwObj_depReq (l : List (String × List String)) :
    kwObj v (l.map (fun p => (p.1, jStrs p.2))) = 0 := by
  induction l with
  | nil => rfl
  | cons x t ih => rw [List.map_cons, kwObj_cons, ih, kwMember_strs]

theorem ew_base (n : NodeBase) : kwObj v (encBase n) = ewEnum v n.enum + ewConst v n.const + wtRef (v "$ref") n.ref + wtRef (v "$id") n.id := by
  unfold encBase
  simp only [kwObj_append]
  have i : ∀ k (x : Option Int), kwObj v (member k jInt x) = 0 := fun k x => kwObj_member k _ x fun _ => rfl
  have q : ∀ k (x : Option Rat), kwObj v (member k JVal.num x) = 0 := fun k x => kwObj_member k _ x fun _ => rfl
  have b : ∀ k (x : Option Bool), kwObj v (member k JVal.bool x) = 0 := fun k x => kwObj_member k _ x fun _ => rfl
  have s : ∀ k, ¬ (k = "$ref" ∨ k = "$id") → ∀ (x : Option String), kwObj v (member k JVal.str x) = 0 :=
    fun k hk x => kwObj_member k _ x fun _ => kwMember_str k hk _
  have l : ∀ k (x : Option (List String)), kwObj v (member k jStrs x) = 0 := fun k x => kwObj_member k _ x fun _ => kwMember_strs k _
  have t : kwObj v (member "type" encType n.type) = 0 := by
    refine kwObj_member _ _ _ fun a => ?_
    unfold encType
    split
    · exact kwMember_str _ (by decide) _
    · split
      · exact kwMember_strs _ _
      · rfl
  have d : kwObj v (if n.dependentRequired.isEmpty then []
      else [("dependentRequired", JVal.obj (n.dependentRequired.map (fun p => (p.1, jStrs p.2))))]) = 0 := by
    split
    · rfl
    · rw [kwObj_cons]
      show kwObj v _ + 0 = 0
      rw [kwObj_depReq]
  have en : kwObj v (member "enum" JVal.arr n.enum) = ewEnum v n.enum := by
    cases n.enum with
    | none => rfl
    | some l => rw [member, kwObj_cons]; show kwArr v l + 0 = kwArr v l; omega
  have co : kwObj v (member "const" id n.const) = ewConst v n.const := by
    cases n.const with
    | none => rfl
    | some x => rw [member, kwObj_cons]; show kwMember v "const" x + 0 = kwMember v "const" x; omega
  have re : ∀ k, k = "$ref" ∨ k = "$id" → ∀ x, kwObj v (member k JVal.str x) = wtRef (v k) x := by
    intro k hk x
    cases x with
    | none => rfl
    | some x => rw [member, kwObj_cons, kwMember, if_pos hk, wtRef_some, kwObj_nil]; omega
  rw [t, en, co, re _ (.inl rfl), re _ (.inr rfl), d]
  simp only [i, q, b, l]
  rw [s _ (by decide), s _ (by decide)]
  omega

/-- References in the encoding of a node. -/
def ew (v : String → String → Nat) (n : SchemaNode) : Nat := kw v (encodeNode n)
/-- Of an optional map. -/
def ewOM (v : String → String → Nat) : Option (List (String × SchemaNode)) → Nat
  | none => 0
  | some m => (m.map fun p => ew v p.2).sum
/-- Of an optional node. -/
def ewO (v : String → String → Nat) : Option SchemaNode → Nat
  | none => 0
  | some n => ew v n
/-- Of an optional list. -/
def ewOL (v : String → String → Nat) : Option (List SchemaNode) → Nat
  | none => 0
  | some l => (l.map (ew v)).sum
/-- Of an optional schema or false. -/
def ewOF (v : String → String → Nat) : Option (NodeOrFalse SchemaNode) → Nat
  | none => 0
  | some x => if x.isFalse then 0 else ewO v x.schema
/-- Of optional `items`. -/
def ewOI (v : String → String → Nat) : Option (ItemsData SchemaNode) → Nat
  | none => 0
  | some x => if x.disallow then 0 else if x.node.isSome then ewO v x.node else ewOL v x.nodes

theorem kwMember_encode (k : String) (n : SchemaNode) : kwMember v k (encodeNode n) = ew v n := by
  cases n; rfl

theorem kwObj_encMap (m : List (String × SchemaNode)) : kwObj v (encMap m) = (m.map fun p => ew v p.2).sum := by
  induction m with
  | nil => rfl
  | cons p t ih =>
    obtain ⟨k, n⟩ := p
    rw [encMap, encPair, kwObj_cons, kwMember_encode, ih, List.map_cons, List.sum_cons]
theorem kwArr_encList (l : List SchemaNode) : kwArr v (encList l) = (l.map (ew v)).sum := by
  induction l with
  | nil => rfl
  | cons n t ih =>
    rw [encList, kwArr_cons, ih, List.map_cons, List.sum_cons]
    show ew v n + _ = _
    omega
theorem kw_encOptMap (k : String) (m) : kwObj v (encOptMap k m) = ewOM v m := by
  cases m with
  | none => rfl
  | some m =>
    rw [encOptMap, kwObj_cons]
    show kwObj v (encMap m) + 0 = _
    rw [kwObj_encMap, ewOM]
    omega
theorem kw_encOptNode (k : String) (n) : kwObj v (encOptNode k n) = ewO v n := by
  cases n with
  | none => rfl
  | some n => rw [encOptNode, kwObj_cons, kwMember_encode, ewO, kwObj_nil]; omega
theorem kw_encOptList (k : String) (n) : kwObj v (encOptList k n) = ewOL v n := by
  cases n with
  | none => rfl
  | some l =>
    rw [encOptList, kwObj_cons]
    show kwArr v (encList l) + 0 = _
    rw [kwArr_encList, ewOL]
    omega
theorem kwMember_nodeOrNull (k : String) (n) : kwMember v k (encNodeOrNull n) = ewO v n := by
  cases n with
  | none => rfl
  | some n => rw [encNodeOrNull, kwMember_encode, ewO]
theorem kw_encOptOrFalse (k : String) (x) : kwObj v (encOptOrFalse k x) = ewOF v x := by
  cases x with
  | none => rfl
  | some x =>
    obtain ⟨s, f⟩ := x
    rw [encOptOrFalse, kwObj_cons, encOrFalse, ewOF]
    cases f with
    | true => rfl
    | false =>
      simp only [Bool.false_eq_true, if_false]
      rw [kwMember_nodeOrNull, kwObj_nil]; omega
theorem kw_encOptItems (k : String) (x) : kwObj v (encOptItems k x) = ewOI v x := by
  cases x with
  | none => rfl
  | some x =>
    obtain ⟨node, nodes, f⟩ := x
    rw [encOptItems, kwObj_cons, encItems, ewOI]
    cases f with
    | true => rfl
    | false =>
      simp only [Bool.false_eq_true, if_false]
      cases node with
      | some n => simp only [Option.isSome_some, if_true]; rw [kwMember_nodeOrNull, kwObj_nil]; omega
      | none =>
        simp only [Option.isSome_none, Bool.false_eq_true, if_false]
        cases nodes with
        | none => rfl
        | some l =>
          rw [encNodesOrNull, kwObj_nil]
          show kwArr v (encList l) + 0 = _
          rw [kwArr_encList, ewOL]; omega

theorem ew_eq (n : SchemaNode) : ew v n = ewEnum v n.enum + ewConst v n.const + wtRef (v "$ref") n.ref + wtRef (v "$id") n.id +
    ewOM v n.properties + ewOF v n.additionalProperties + ewOM v n.patternProperties + ewOI v n.items + ewO v n.contains +
    ewOL v n.prefixItems + ewOF v n.additionalItems + ewOF v n.unevaluatedItems + ewO v n.not + ewOL v n.allOf + ewOL v n.anyOf +
    ewOL v n.oneOf + ewOM v n.defs + ewOM v n.definitions + ewO v n.ifN + ewO v n.thenN + ewO v n.elseN +
    ewOM v (some n.dependentSchemas) := by
  have hd : ∀ l : List (String × SchemaNode), kwObj v (match encMap l with | [] => [] | x :: t => [("dependentSchemas", .obj (x :: t))]) =
      ewOM v (some l) := by
    intro l
    rw [ewOM, ← kwObj_encMap]
    cases encMap l with
    | nil => rfl
    | cons x t =>
      show kwObj v (x :: t) + 0 = _
      omega
  cases n with
  | mk base props addP patP items cont pre addI unevI notN allO anyO oneO defs dfn ifN thenN elseN depS mi mn cs =>
    rw [ew, encodeNode, kw]
    simp only [kwObj_append, ew_base, kw_encOptMap, kw_encOptOrFalse, kw_encOptItems, kw_encOptNode, kw_encOptList]
    have := hd depS
    exact congrArg _ this

/-- References in a decoded keyword value. -/
def slotEw (v : String → String → Nat) : SubVal → Nat
  | .map m => ewOM v m
  | .node n => ewO v n
  | .nodes l => ewOL v l
  | .orFalse x => ewOF v x
  | .items x => ewOI v x

theorem ew_empty : ew v emptyNode = 0 := rfl

attribute [local irreducible] ew

theorem ew_setSub (n : SchemaNode) (k : SubKey) (x : SubVal) : ew v (setSub n k x) ≤ ew v n + slotEw v x := by
  have hd : ∀ x : Option (List (String × SchemaNode)), ewOM v (some (x.getD [])) = ewOM v x := fun x => by cases x <;> rfl
  cases k <;> cases x <;> first
    | exact Nat.le_add_right _ _
    | (rename_i x; rw [setSub, ew_eq, ew_eq n]; simp only [slotEw, hd]; omega)

/-- The part of a base without the identifier. -/
def baseRest (v : String → String → Nat) (b : NodeBase) : Nat := ewEnum v b.enum + ewConst v b.const + wtRef (v "$ref") b.ref

theorem decBaseField_ew {b b' : NodeBase} {k : String} {x : JVal} (h : decBaseField b k x = some b') :
    baseRest v b' ≤ baseRest v b + (if k = "$id" then 0 else kwMember v k x) ∧
    wtRef (v "$id") b'.id ≤ wtRef (v "$id") b.id + (if k = "$id" then kwMember v k x else 0) := by
  have key : ∀ (α : Type) (d : Option α) (f : α → NodeBase), (do let x ← d; pure (f x) : Option NodeBase) = some b' →
      (∀ x, (f x).ref = b.ref ∧ (f x).id = b.id ∧ (f x).enum = b.enum ∧ (f x).const = b.const) →
      baseRest v b' ≤ baseRest v b + (if k = "$id" then 0 else kwMember v k x) ∧
      wtRef (v "$id") b'.id ≤ wtRef (v "$id") b.id + (if k = "$id" then kwMember v k x else 0) := by
    intro α d f h hf
    cases d with
    | none => simp at h
    | some x =>
      have e : f x = b' := Option.some.inj h
      subst e
      unfold baseRest
      rw [(hf x).1, (hf x).2.1, (hf x).2.2.1, (hf x).2.2.2]
      exact ⟨Nat.le_add_right _ _, Nat.le_add_right _ _⟩
  unfold decBaseField at h
  iterate 19 (rcases ite_or h with h | h; · exact key _ _ _ h (fun _ => ⟨rfl, rfl, rfl, rfl⟩))
  by_cases hk : k = "enum"
  · rw [if_pos hk] at h
    subst hk
    rw [if_neg (by decide), if_neg (by decide)]
    cases x with
    | null => cases h; simp only [baseRest, ewEnum]; omega
    | arr l =>
      cases h
      show kwArr v l + _ + _ ≤ _ + kwArr v l ∧ _
      unfold baseRest
      dsimp only
      omega
    | bool _ => cases h
    | num _ => cases h
    | str _ => cases h
    | obj _ => cases h
  rw [if_neg hk] at h
  by_cases hk : k = "const"
  · rw [if_pos hk] at h
    have e := Option.some.inj h
    subst e
    subst hk
    rw [if_neg (by decide), if_neg (by decide)]
    show _ + kwMember v "const" x + _ ≤ _ ∧ _
    unfold baseRest
    dsimp only
    omega
  rw [if_neg hk] at h
  by_cases hk : k = "$ref"
  · rw [if_pos hk] at h
    subst hk
    rw [if_neg (by decide), if_neg (by decide)]
    cases x with
    | null => cases h; simp only [baseRest, wtRef]; omega
    | str s =>
      cases h
      rw [kwMember, if_pos (by decide)]
      simp only [baseRest, wtRef]
      omega
    | bool _ => cases h
    | num _ => cases h
    | arr _ => cases h
    | obj _ => cases h
  rw [if_neg hk] at h
  by_cases hk : k = "$id"
  · rw [if_pos hk] at h
    rw [if_pos hk, if_pos hk]
    cases x with
    | null => cases h; simp only [baseRest, wtRef]; omega
    | str s =>
      cases h
      subst hk
      rw [kwMember, if_pos (by decide)]
      simp only [baseRest, wtRef]
      omega
    | bool _ => cases h
    | num _ => cases h
    | arr _ => cases h
    | obj _ => cases h
  rw [if_neg hk] at h
  rw [if_neg hk, if_neg hk]
  rw [if_neg hk, if_neg hk] at key
  rcases ite_or h with h | h
  · exact key _ _ _ h (fun _ => ⟨rfl, rfl, rfl, rfl⟩)
  have e := Option.some.inj h
  subst e
  exact ⟨Nat.le_add_right _ _, Nat.le_add_right _ _⟩

/-- What is proved of every value, by induction on its size. -/
def DecodesSame (v : String → String → Nat) (x : JVal) : Prop :=
  (∀ n, decodeNode x = some n → ew v n ≤ kw v x) ∧
    ∀ k sh y, decodeSub sh x = some y → slotEw v y ≤ kwMember v k x

theorem decodeField_ew {k : String} {x : JVal} {n n' : SchemaNode} (ih : DecodesSame v x)
    (h : decodeField (k, x) n = some n') : ew v n' ≤ ew v n + kwMember v k x := by
  unfold decodeField at h
  cases hk : SubKey.ofName k with
  | some sk =>
    rw [hk] at h
    dsimp only at h
    cases hd : decodeSub sk.shape x with
    | none => rw [hd] at h; simp at h
    | some y =>
      rw [hd] at h; simp at h; subst h
      have h1 := ih.2 k _ _ hd
      have h2 := ew_setSub (v := v) n sk y
      omega
  | none =>
    rw [hk] at h
    dsimp only at h
    cases hd : decBaseField n.toNodeBase k x with
    | none => rw [hd] at h; simp at h
    | some b =>
      rw [hd] at h; simp at h; subst h
      obtain ⟨h1, h2⟩ := decBaseField_ew (v := v) hd
      rw [ew_eq, ew_eq n]
      unfold baseRest at h1
      dsimp only at h1 h2 ⊢
      split at h1 <;> rename_i hk
      · rw [if_pos hk] at h2; omega
      · rw [if_neg hk] at h2; omega

theorem decodeFields_ew : ∀ (m : List (String × JVal)) (n n' : SchemaNode), (∀ p ∈ m, DecodesSame v p.2) →
    decodeFields m n = some n' → ew v n' ≤ ew v n + kwObj v m := by
  intro m
  induction m with
  | nil => intro n n' _ h; unfold decodeFields at h; simp at h; subst h; simp
  | cons p t ih =>
    intro n n' hd h
    unfold decodeFields at h
    cases h1 : decodeField p n with
    | none => rw [h1] at h; simp at h
    | some x =>
      rw [h1] at h
      obtain ⟨k, y⟩ := p
      have h2 := ih x n' (fun q hq => hd q (by simp [hq])) h
      have h3 := decodeField_ew (hd (k, y) (by simp)) h1
      dsimp only at h3
      rw [kwObj_cons]
      omega

theorem decodeMap_ew : ∀ (m : List (String × JVal)) (l : List (String × SchemaNode)), (∀ p ∈ m, DecodesSame v p.2) →
    decodeMap m = some l → (l.map fun p => ew v p.2).sum ≤ kwObj v m := by
  intro m
  induction m with
  | nil => intro l _ h; unfold decodeMap at h; simp at h; subst h; simp
  | cons p t ih =>
    intro l hd h
    obtain ⟨k, y⟩ := p
    unfold decodeMap decodePair at h
    cases h1 : decodeNode y with
    | none => rw [h1] at h; simp at h
    | some x =>
      rw [h1] at h
      cases h2 : decodeMap t with
      | none => rw [h2] at h; simp at h
      | some r =>
        rw [h2] at h
        simp at h
        subst h
        have a := ih r (fun q hq => hd q (by simp [hq])) h2
        have b := (hd (k, y) (by simp)).1 _ h1
        have b2 := kw_le_member (v := v) k y
        rw [List.map_cons, List.sum_cons, kwObj_cons]
        dsimp only at b ⊢
        omega

theorem decodeList_ew : ∀ (m : List JVal) (l : List SchemaNode), (∀ p ∈ m, DecodesSame v p) →
    decodeList m = some l → (l.map (ew v)).sum ≤ kwArr v m := by
  intro m
  induction m with
  | nil => intro l _ h; unfold decodeList at h; simp at h; subst h; simp
  | cons y t ih =>
    intro l hd h
    unfold decodeList at h
    cases h1 : decodeNode y with
    | none => rw [h1] at h; simp at h
    | some x =>
      rw [h1] at h
      cases h2 : decodeList t with
      | none => rw [h2] at h; simp at h
      | some r =>
        rw [h2] at h
        simp at h
        subst h
        have a := ih r (fun q hq => hd q (by simp [hq])) h2
        have b := (hd y (by simp)).1 _ h1
        rw [List.map_cons, List.sum_cons, kwArr_cons]
        omega

theorem decodesSame : ∀ (k : Nat) (x : JVal), sizeOf x ≤ k → DecodesSame v x := by
  intro k
  induction k with
  | zero => intro v hv; cases v <;> simp at hv
  | succ k ih =>
    intro y hk
    cases y with
    | null =>
      refine ⟨fun n h => ?_, fun k sh x h => ?_⟩
      · unfold decodeNode at h; simp at h; subst h; rw [ew_empty]; exact Nat.zero_le _
      · cases sh <;> unfold decodeSub at h <;> simp at h <;> subst h <;> simp [slotEw, ewOM, ewO, ewOL, ewOF, ewOI]
    | bool b =>
      refine ⟨fun n h => ?_, fun k sh x h => ?_⟩
      · unfold decodeNode at h; simp at h
      · cases sh <;> cases b <;> unfold decodeSub at h <;> simp at h <;> subst h <;> simp [slotEw, ewOF, ewO, ewOI]
    | num q =>
      refine ⟨fun n h => ?_, fun k sh x h => ?_⟩
      · unfold decodeNode at h; simp at h
      · cases sh <;> unfold decodeSub at h <;> simp at h
    | str q =>
      refine ⟨fun n h => ?_, fun k sh x h => ?_⟩
      · unfold decodeNode at h; simp at h
      · cases sh <;> unfold decodeSub at h <;> simp at h
    | arr l =>
      have hs : ∀ p ∈ l, DecodesSame v p := fun p hp => ih p (by
        have := List.sizeOf_lt_of_mem hp
        simp only [JVal.arr.sizeOf_spec] at hk; omega)
      refine ⟨fun n h => ?_, fun k sh x h => ?_⟩
      · unfold decodeNode at h; simp at h
      · cases sh <;> unfold decodeSub at h <;> simp at h
        · obtain ⟨r, h1, rfl⟩ := h
          exact decodeList_ew l r hs h1
        · obtain ⟨r, h1, rfl⟩ := h
          simp [slotEw, ewOI, ewO, ew_empty]
    | obj m =>
      have hs : ∀ p ∈ m, DecodesSame v p.2 := fun p hp => ih p.2 (by
        have h1 := List.sizeOf_lt_of_mem hp
        have h2 : sizeOf p.2 < sizeOf p := by cases p; simp only [Prod.mk.sizeOf_spec]; omega
        simp only [JVal.obj.sizeOf_spec] at hk; omega)
      have hf : ∀ n, decodeFields m emptyNode = some n → ew v n ≤ kwObj v m := fun n h => by
        simpa [ew_empty] using decodeFields_ew m emptyNode n hs h
      refine ⟨fun n h => ?_, fun k sh x h => ?_⟩
      · unfold decodeNode at h; exact hf n h
      · cases sh <;> unfold decodeSub at h <;> simp at h
        · obtain ⟨r, h1, rfl⟩ := h
          exact decodeMap_ew m r hs h1
        · obtain ⟨r, h1, rfl⟩ := h
          exact hf r h1
        · obtain ⟨r, h1, rfl⟩ := h
          exact hf r h1
        · obtain ⟨r, h1, rfl⟩ := h
          exact hf r h1

/-! ## References -/

/-- Weights of references only. -/
def refOnly (w : String → Nat) (k t : String) : Nat := if k = "$ref" then w t else 0

mutual
theorem kw_refOnly (w : String → Nat) : ∀ x : JVal, kw (refOnly w) x = jw 0 w x
  | .obj m => kwObj_refOnly w m
  | .arr _ => rfl
  | .null => rfl
  | .bool _ => rfl
  | .num _ => rfl
  | .str _ => rfl
termination_by structural x => x
theorem kwObj_refOnly (w : String → Nat) : ∀ m : List (String × JVal), kwObj (refOnly w) m = jwObj 0 w m
  | [] => rfl
  | p :: t => by rw [kwObj, jwObj, kwObj_refOnly w t, kwField_refOnly w p]
termination_by structural l => l
theorem kwField_refOnly (w : String → Nat) : ∀ p : String × JVal, kwField (refOnly w) p = jwField 0 w p
  | (k, x) => by rw [kwField, jwField, kwMember_refOnly w k x]; omega
termination_by structural p => p
theorem kwMember_refOnly (w : String → Nat) (k : String) : ∀ x : JVal, kwMember (refOnly w) k x = jwMember 0 w k x
  | .str s => by
    rw [kwMember, jwMember, refOnly]
    by_cases h : k = "$ref"
    · simp [h]
    · simp [h]
  | .obj m => kwObj_refOnly w m
  | .arr l => kwArr_refOnly w l
  | .null => rfl
  | .bool _ => rfl
  | .num _ => rfl
termination_by structural x => x
theorem kwArr_refOnly (w : String → Nat) : ∀ l : List JVal, kwArr (refOnly w) l = jwArr 0 w l
  | [] => rfl
  | x :: t => by rw [kwArr, jwArr, kw_refOnly w x, kwArr_refOnly w t]; omega
termination_by structural l => l
end

theorem decode_ew {x : JVal} {n : SchemaNode} (h : decodeNode x = some n) : ew v n ≤ kw v x :=
  (decodesSame (v := v) _ x (Nat.le_refl _)).1 n h

theorem ew_jw (w : String → Nat) (n : SchemaNode) : ew (refOnly w) n = jw 0 w (encodeNode n) := by
  unfold ew; exact kw_refOnly w _

theorem decode_jw {w : String → Nat} {x : JVal} {n : SchemaNode} (h : decodeNode x = some n) : jw 0 w (encodeNode n) ≤ jw 0 w x := by
  rw [← ew_jw, ← kw_refOnly]; exact decode_ew h

section
variable {v : String → Nat}
mutual
theorem jw_mem (e : Nat) : ∀ (x : JVal) (r : String), r ∈ refTexts x → v r ≤ jw e v x
  | .obj m, r, h => jwObj_mem e m r h
  | .arr _, _, h => by cases h
  | .null, _, h => by cases h
  | .bool _, _, h => by cases h
  | .num _, _, h => by cases h
  | .str _, _, h => by cases h
termination_by structural x => x
theorem jwObj_mem (e : Nat) : ∀ (m : List (String × JVal)) (r : String), r ∈ refTextsObj m → v r ≤ jwObj e v m
  | [], _, h => by cases h
  | p :: t, r, h => by
    rw [jwObj]
    rcases List.mem_append.1 h with h | h
    · have := jwField_mem e p r h; omega
    · have := jwObj_mem e t r h; omega
termination_by structural l => l
theorem jwField_mem (e : Nat) : ∀ (p : String × JVal) (r : String), r ∈ refTextsField p → v r ≤ jwField e v p
  | (k, x), r, h => by
    have := jwMember_mem e k x r h
    rw [jwField]; omega
termination_by structural p => p
theorem jwMember_mem (e : Nat) (k : String) : ∀ (x : JVal) (r : String), r ∈ refTextsMember k x → v r ≤ jwMember e v k x
  | .str s, r, h => by
    rw [refTextsMember] at h
    rw [jwMember]
    split at h
    · rename_i hk
      rw [if_pos hk]
      simp only [List.mem_cons, List.not_mem_nil, or_false] at h
      subst h
      exact Nat.le_refl _
    · cases h
  | .obj m, r, h => jwObj_mem e m r h
  | .arr l, r, h => jwArr_mem e l r h
  | .null, _, h => by cases h
  | .bool _, _, h => by cases h
  | .num _, _, h => by cases h
termination_by structural x => x
theorem jwArr_mem (e : Nat) : ∀ (l : List JVal) (r : String), r ∈ refTextsArr l → v r ≤ jwArr e v l
  | [], _, h => by cases h
  | x :: t, r, h => by
    rw [jwArr]
    rcases List.mem_append.1 h with h | h
    · have := jw_mem e x r h; omega
    · have := jwArr_mem e t r h; omega
termination_by structural l => l
end

/-- The references of the encoding of a decoded schema are references of the text. -/
theorem decode_refTexts {x : JVal} {n : SchemaNode} (h : decodeNode x = some n) : ∀ r ∈ refTexts (encodeNode n), r ∈ refTexts x := by
  intro r hr
  classical
  by_contra hn
  have h1 := decode_jw (w := fun r' => if r' ∈ refTexts x then 0 else 1) h
  have h2 : jw 0 (fun r' => if r' ∈ refTexts x then 0 else 1) x = 0 := jw_zero x fun r' hr' => if_pos hr'
  have h3 := jw_mem (v := fun r' => if r' ∈ refTexts x then 0 else 1) 0 _ r hr
  rw [if_neg hn] at h3
  omega

mutual
/-- Weights only depend on the references. -/
theorem jw_congr {v' : String → Nat} (e : Nat) : ∀ x : JVal, (∀ r ∈ refTexts x, v r = v' r) → jw e v x = jw e v' x
  | .obj m, h => jwObj_congr e m h
  | .arr _, _ => rfl
  | .null, _ => rfl
  | .bool _, _ => rfl
  | .num _, _ => rfl
  | .str _, _ => rfl
termination_by structural x => x
theorem jwObj_congr {v' : String → Nat} (e : Nat) : ∀ m : List (String × JVal), (∀ r ∈ refTextsObj m, v r = v' r) →
    jwObj e v m = jwObj e v' m
  | [], _ => rfl
  | p :: t, h => by
    rw [jwObj, jwObj, jwField_congr e p fun r hr => h r (List.mem_append_left _ hr),
      jwObj_congr e t fun r hr => h r (List.mem_append_right _ hr)]
termination_by structural l => l
theorem jwField_congr {v' : String → Nat} (e : Nat) : ∀ p : String × JVal, (∀ r ∈ refTextsField p, v r = v' r) →
    jwField e v p = jwField e v' p
  | (k, x), h => by rw [jwField, jwField, jwMember_congr e k x h]
termination_by structural p => p
theorem jwMember_congr {v' : String → Nat} (e : Nat) (k : String) : ∀ x : JVal, (∀ r ∈ refTextsMember k x, v r = v' r) →
    jwMember e v k x = jwMember e v' k x
  | .str s, h => by
    rw [jwMember, jwMember]
    split
    · rename_i hk
      refine h s ?_
      rw [refTextsMember, if_pos hk]; exact List.mem_cons_self ..
    · rfl
  | .obj m, h => jwObj_congr e m h
  | .arr l, h => jwArr_congr e l h
  | .null, _ => rfl
  | .bool _, _ => rfl
  | .num _, _ => rfl
termination_by structural x => x
theorem jwArr_congr {v' : String → Nat} (e : Nat) : ∀ l : List JVal, (∀ r ∈ refTextsArr l, v r = v' r) → jwArr e v l = jwArr e v' l
  | [], _ => rfl
  | x :: t, h => by
    rw [jwArr, jwArr, jw_congr e x fun r hr => h r (List.mem_append_left _ hr),
      jwArr_congr e t fun r hr => h r (List.mem_append_right _ hr)]
termination_by structural l => l
end

/-- The reference of a node is in its encoding. -/
theorem ref_mem_encode {n : SchemaNode} {r : String} (h : n.ref = some r) : r ∈ refTexts (encodeNode n) := by
  classical
  by_contra hn
  have h1 : jw 0 (fun r' => if r' ∈ refTexts (encodeNode n) then 0 else 1) (encodeNode n) = 0 := jw_zero _ fun r' hr' => if_pos hr'
  rw [← ew_jw, ew_eq, h, wtRef_some, refOnly, if_pos rfl, if_neg hn] at h1
  omega
end

/-! ## Identifiers -/

/-- Weights of identifiers only. -/
def idOnly (k _t : String) : Nat := if k = "$id" then 1 else 0

mutual
theorem kw_idOnly : ∀ x : JVal, kw idOnly x = (idTexts x).length
  | .obj m => kwObj_idOnly m
  | .arr _ => rfl
  | .null => rfl
  | .bool _ => rfl
  | .num _ => rfl
  | .str _ => rfl
termination_by structural x => x
theorem kwObj_idOnly : ∀ m : List (String × JVal), kwObj idOnly m = (idTextsObj m).length
  | [] => rfl
  | p :: t => by rw [kwObj, idTextsObj, kwObj_idOnly t, kwField_idOnly p, List.length_append]
termination_by structural l => l
theorem kwField_idOnly : ∀ p : String × JVal, kwField idOnly p = (idTextsField p).length
  | (k, x) => by rw [kwField, idTextsField, kwMember_idOnly k x]
termination_by structural p => p
theorem kwMember_idOnly (k : String) : ∀ x : JVal, kwMember idOnly k x = (idTextsMember k x).length
  | .str s => by
    rw [kwMember, idTextsMember, idOnly]
    by_cases h : k = "$id"
    · rw [if_pos h, if_pos h, if_pos (.inr h)]; rfl
    · rw [if_neg h, if_neg h]; simp
  | .obj m => kwObj_idOnly m
  | .arr l => kwArr_idOnly l
  | .null => rfl
  | .bool _ => rfl
  | .num _ => rfl
termination_by structural x => x
theorem kwArr_idOnly : ∀ l : List JVal, kwArr idOnly l = (idTextsArr l).length
  | [] => rfl
  | x :: t => by rw [kwArr, idTextsArr, kw_idOnly x, kwArr_idOnly t, List.length_append]
termination_by structural l => l
end

/-- The identifiers of a node that are not its own. -/
def ewRest (n : SchemaNode) : Nat := ew idOnly n - wtRef (idOnly "$id") n.id

theorem ewRest_eq (n : SchemaNode) : ew idOnly n = ewRest n + wtRef (idOnly "$id") n.id := by
  unfold ewRest
  rw [ew_eq]
  omega

theorem setSub_base (n : SchemaNode) (k : SubKey) (x : SubVal) : (setSub n k x).toNodeBase = n.toNodeBase := by
  cases k <;> cases x <;> rfl

theorem decodeFields_rest : ∀ (m : List (String × JVal)) (n n' : SchemaNode),
    (∀ p ∈ m, p.1 ≠ "$id" → idTextsMember p.1 p.2 = []) → decodeFields m n = some n' → ewRest n' ≤ ewRest n := by
  intro m
  induction m with
  | nil => intro n n' _ h; unfold decodeFields at h; simp at h; subst h; exact Nat.le_refl _
  | cons p t ih =>
    intro n n' hd h
    unfold decodeFields at h
    cases h1 : decodeField p n with
    | none => rw [h1] at h; simp at h
    | some x =>
      rw [h1] at h
      obtain ⟨k, y⟩ := p
      refine Nat.le_trans (ih x n' (fun q hq => hd q (by simp [hq])) h) ?_
      have hz : k ≠ "$id" → kwMember idOnly k y = 0 := fun hk => by
        rw [kwMember_idOnly, hd (k, y) (by simp) hk]; rfl
      unfold decodeField at h1
      cases hk : SubKey.ofName k with
      | some sk =>
        have hne : k ≠ "$id" := by rintro rfl; rw [show SubKey.ofName "$id" = none by decide] at hk; cases hk
        rw [hk] at h1
        dsimp only at h1
        cases hd : decodeSub sk.shape y with
        | none => rw [hd] at h1; simp at h1
        | some y' =>
          rw [hd] at h1; simp at h1; subst h1
          have a := (decodesSame (v := idOnly) _ y (Nat.le_refl _)).2 k _ _ hd
          have b := ew_setSub (v := idOnly) n sk y'
          rw [hz hne] at a
          unfold ewRest
          have e := congrArg NodeBase.id (setSub_base n sk y')
          rw [e]
          omega
      | none =>
        rw [hk] at h1
        dsimp only at h1
        cases hd : decBaseField n.toNodeBase k y with
        | none => rw [hd] at h1; simp at h1
        | some b =>
          rw [hd] at h1; simp at h1; subst h1
          obtain ⟨a, _⟩ := decBaseField_ew (v := idOnly) hd
          have a' : baseRest idOnly b ≤ baseRest idOnly n.toNodeBase := by
            by_cases hk : k = "$id"
            · rw [if_pos hk] at a; exact a
            · rw [if_neg hk, hz hk] at a; exact a
          unfold ewRest
          rw [ew_eq, ew_eq n]
          unfold baseRest at a'
          dsimp only at a' ⊢
          omega

mutual
theorem walkIds_none (u : UrlSys) (doc : String) : ∀ (x : JVal) (path : String) (w : IdWalk), idTexts x = [] →
    walkIds u doc x path w = w
  | .obj m, path, w, h => by
    unfold walkIds
    rw [visitId_none u doc m path w h]
    exact walkIdFields_none u doc m path w h
  | .null, _, _, _ => by unfold walkIds; rfl
  | .bool _, _, _, _ => by unfold walkIds; rfl
  | .num _, _, _, _ => by unfold walkIds; rfl
  | .str _, _, _, _ => by unfold walkIds; rfl
  | .arr _, _, _, _ => by unfold walkIds; rfl
termination_by structural x => x
theorem visitId_none (u : UrlSys) (doc : String) : ∀ (m : List (String × JVal)) (path : String) (w : IdWalk), idTextsObj m = [] →
    visitId u doc m path w = w
  | m, path, w, h => by
    have hl : ∀ m : List (String × JVal), idTextsObj m = [] → ∀ s, lookupKV m "$id" ≠ some (.str s) := by
      intro m
      induction m with
      | nil => intro _ s e; cases e
      | cons p t ih =>
        intro h s
        obtain ⟨k, y⟩ := p
        obtain ⟨h1, h2⟩ := List.append_eq_nil_iff.1 h
        unfold lookupKV
        split
        · rename_i hk
          rintro ⟨⟩
          have : idTextsMember k (.str s) = [] := h1
          rw [idTextsMember, if_pos hk] at this
          cases this
        · exact ih h2 s
    unfold visitId
    split
    · rename_i s e
      exact absurd e (hl m h s)
    · rfl
theorem walkIdFields_none (u : UrlSys) (doc : String) : ∀ (m : List (String × JVal)) (path : String) (w : IdWalk),
    idTextsObj m = [] → walkIdFields u doc m path w = w
  | [], _, _, _ => by unfold walkIdFields; rfl
  | p :: t, path, w, h => by
    obtain ⟨h1, h2⟩ := List.append_eq_nil_iff.1 h
    unfold walkIdFields
    rw [walkIdField_none u doc p path w h1]
    exact walkIdFields_none u doc t path w h2
termination_by structural l => l
theorem walkIdField_none (u : UrlSys) (doc : String) : ∀ (p : String × JVal) (path : String) (w : IdWalk),
    idTextsField p = [] → walkIdField u doc p path w = w
  | (k, x), path, w, h => by
    unfold walkIdField
    exact walkIdMember_none u doc k x _ w h
termination_by structural p => p
theorem walkIdMember_none (u : UrlSys) (doc : String) (k : String) : ∀ (x : JVal) (path : String) (w : IdWalk),
    idTextsMember k x = [] → walkIdMember u doc x path w = w
  | .obj m, path, w, h => by
    unfold walkIdMember
    rw [visitId_none u doc m path w h]
    exact walkIdFields_none u doc m path w h
  | .arr l, path, w, h => by
    unfold walkIdMember
    exact walkIdItems_none u doc l path 0 w h
  | .null, _, _, _ => by unfold walkIdMember; rfl
  | .bool _, _, _, _ => by unfold walkIdMember; rfl
  | .num _, _, _, _ => by unfold walkIdMember; rfl
  | .str _, _, _, _ => by unfold walkIdMember; rfl
termination_by structural x => x
theorem walkIdItems_none (u : UrlSys) (doc : String) : ∀ (l : List JVal) (path : String) (i : Nat) (w : IdWalk),
    idTextsArr l = [] → walkIdItems u doc l path i w = w
  | [], _, _, _, _ => by unfold walkIdItems; rfl
  | x :: t, path, i, w, h => by
    obtain ⟨h1, h2⟩ := List.append_eq_nil_iff.1 h
    unfold walkIdItems
    rw [walkIds_none u doc x _ w h1]
    exact walkIdItems_none u doc t path (i + 1) w h2
termination_by structural l => l
end

theorem walkIdFields_root (u : UrlSys) (doc : String) : ∀ (m : List (String × JVal)) (path : String) (w : IdWalk),
    (∀ p ∈ m, idTextsMember p.1 p.2 = [] ∨ ∃ s, p.2 = .str s) → walkIdFields u doc m path w = w
  | [], _, _, _ => by unfold walkIdFields; rfl
  | (k, x) :: t, path, w, h => by
    unfold walkIdFields
    have e : walkIdField u doc (k, x) path w = w := by
      rcases h _ (List.mem_cons_self ..) with h | ⟨s, hs⟩
      · exact walkIdField_none u doc (k, x) path w h
      · dsimp only at hs
        subst hs
        unfold walkIdField walkIdMember
        rfl
    rw [e]
    exact walkIdFields_root u doc t path w (fun p hp => h p (List.mem_cons_of_mem _ hp))

theorem idTextsObj_mem : ∀ {m : List (String × JVal)}, idTextsObj m = [] → ∀ p ∈ m, idTextsMember p.1 p.2 = []
  | [], _, _, hp => by cases hp
  | q :: t, h, p, hp => by
    obtain ⟨h1, h2⟩ := List.append_eq_nil_iff.1 h
    rcases List.mem_cons.1 hp with e | hp
    · subst e; obtain ⟨k, x⟩ := p; exact h1
    · exact idTextsObj_mem h2 p hp

theorem encode_id (n : SchemaNode) : ∃ m m', encodeNode n = .obj m ∧ encodeNode { n with id := none } = .obj m' ∧
    ∀ p ∈ m, p ∈ m' ∨ p.1 = "$id" ∧ ∃ s, p.2 = .str s := by
  cases n with
  | mk base props addP patP items cont pre addI unevI notN allO anyO oneO defs dfn ifN thenN elseN depS mi mn cs =>
    have hb : ∀ p ∈ encBase base, p ∈ encBase { base with id := none } ∨ p.1 = "$id" ∧ ∃ s, p.2 = .str s := by
      intro p hp
      unfold encBase at hp ⊢
      have hi : p ∈ member "$id" JVal.str base.id → p.1 = "$id" ∧ ∃ s, p.2 = .str s := by
        intro h
        cases hb : base.id with
        | none => rw [hb] at h; cases h
        | some i => rw [hb] at h; cases List.mem_singleton.1 h; exact ⟨rfl, i, rfl⟩
      simp only [List.mem_append] at hp ⊢
      repeat' rcases hp with hp | hp
      all_goals first
        | exact .inr (hi hp)
        | exact .inl (by simp only [hp, true_or, or_true])
    obtain ⟨suf, hs⟩ : ∃ suf, ∀ b, encodeNode (.mk b props addP patP items cont pre addI unevI notN allO anyO oneO defs dfn ifN thenN
        elseN depS mi mn cs) = .obj (encBase b ++ suf) :=
      ⟨_, fun b => by rw [encodeNode]; simp only [List.append_assoc]; rfl⟩
    refine ⟨_, _, hs base, hs _, ?_⟩
    intro p hp
    rcases List.mem_append.1 hp with hp | hp
    · rcases hb p hp with h | h
      · exact .inl (List.mem_append_left _ h)
      · exact .inr h
    · exact .inl (List.mem_append_right _ hp)

/-- A node without inner identifiers registers none. -/
theorem collect_none {n : SchemaNode} (h : ewRest n = 0) (u : UrlSys) (base doc : String) : collectSubSchemaIds u base doc n = [] := by
  obtain ⟨m, m', h1, h2, h3⟩ := encode_id n
  have hz : ew idOnly { n with id := none } = 0 := by
    have e := ew_eq (v := idOnly) { n with id := none }
    unfold ewRest at h
    rw [ew_eq] at h
    dsimp only at e
    rw [e, wtRef_none]
    omega
  have hm : idTextsObj m' = [] := by
    have e : kw idOnly (encodeNode { n with id := none }) = 0 := by unfold ew at hz; exact hz
    rw [h2, kw_idOnly] at e
    exact List.eq_nil_of_length_eq_zero e
  unfold collectSubSchemaIds
  rw [h1]
  unfold walkIds
  rw [walkIdFields_root u doc m]
  · unfold visitId
    split
    · split
      · rfl
      · dsimp only
        split
        · rfl
        · rw [if_pos rfl]
    · rfl
  · intro p hp
    rcases h3 p hp with h | h
    · exact .inl (idTextsObj_mem hm p h)
    · exact .inr h.2

/-- A node without any identifiers registers none. -/
theorem collect_free {n : SchemaNode} (h : idTexts (encodeNode n) = []) (u : UrlSys) (base doc : String) :
    collectSubSchemaIds u base doc n = [] := by
  obtain ⟨m, m', h1, h2, h3⟩ := encode_id n
  rw [h1, idTexts] at h
  unfold collectSubSchemaIds
  rw [h1]
  unfold walkIds
  rw [walkIdFields_root u doc m]
  · unfold visitId
    split
    · split
      · rfl
      · dsimp only
        split
        · rfl
        · rw [if_pos rfl]
    · rfl
  · intro p hp
    exact .inl (idTextsObj_mem h p hp)

end Chaff
