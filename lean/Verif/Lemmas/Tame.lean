import Verif.Spec.Tame
import Verif.Lemmas.Decode
import Verif.Props.SchemaJson
/-!
# Tame schema nodes

The conditions of `Spec/Tame.lean` on decoded schema nodes: what the decoder makes of a tame text is tame, the text of a
tame node is tame and clean, and rewriting references keeps both.
-/

namespace Chaff
open Comp

/-- A condition on every entry of a map of schemas. -/
def MapAll (A : String → Prop) (P : SchemaNode → Prop) (m : Option (List (String × SchemaNode))) : Prop :=
  ∀ l, m = some l → ∀ p ∈ l, A p.1 ∧ P p.2

/-- A condition on every schema of a list. -/
def ListAll (P : SchemaNode → Prop) (m : Option (List SchemaNode)) : Prop := ∀ l, m = some l → ∀ x ∈ l, P x

/-- A condition on an optional schema. -/
def OptAll (P : SchemaNode → Prop) (m : Option SchemaNode) : Prop := ∀ x, m = some x → P x

/-- A condition on a schema that may be `false`. -/
def OrFalseAll (P : SchemaNode → Prop) (m : Option (NodeOrFalse SchemaNode)) : Prop :=
  ∀ d, m = some d → OptAll P d.schema

/-- A condition on the schemas of `items`. -/
def ItemsAll (P : SchemaNode → Prop) (m : Option (ItemsData SchemaNode)) : Prop :=
  ∀ d, m = some d → OptAll P d.node ∧ ListAll P d.nodes

/-- A condition on the schemas of a conditional. -/
def IfAll (P : SchemaNode → Prop) (st : IfStmt SchemaNode) : Prop := OptAll P st.ifN ∧ OptAll P st.thenN ∧ OptAll P st.elseN

/-- Names of definitions. -/
def DefName (K : Care) (k : String) : Prop := K.calm → '\n' ∉ k.toList

/-- Are negations admitted? -/
def NotAllowed (K : Care) : Prop := ¬ (K.calm ∧ K.noNegations)

/-- A condition on every schema inside the listed fields, with the conditions on names. -/
structure KidsAll (c : PEnv) (K : Care) (P : SchemaNode → Prop)
    (properties : Option (List (String × SchemaNode)))
    (patternProperties : Option (List (String × SchemaNode)))
    (defs : Option (List (String × SchemaNode)))
    (definitions : Option (List (String × SchemaNode)))
    (dependentSchemas : List (String × SchemaNode))
    (contains not ifN thenN elseN : Option SchemaNode)
    (prefixItems allOf anyOf oneOf : Option (List SchemaNode))
    (additionalProperties additionalItems unevaluatedItems : Option (NodeOrFalse SchemaNode))
    (items : Option (ItemsData SchemaNode))
    (mergedNot : List SchemaNode) (mergedIf : List (IfStmt SchemaNode)) : Prop where
  properties : MapAll (fun _ => True) P properties
  patternProperties : MapAll (PatternOk c c.rxPattern) P patternProperties
  defs : MapAll (DefName K) P defs
  definitions : MapAll (DefName K) P definitions
  dependentSchemas : ∀ p ∈ dependentSchemas, P p.2
  contains : OptAll P contains
  not : OptAll (fun x => NotAllowed K ∧ P x) not
  ifN : OptAll P ifN
  thenN : OptAll P thenN
  elseN : OptAll P elseN
  prefixItems : ListAll P prefixItems
  allOf : ListAll P allOf
  anyOf : ListAll P anyOf
  oneOf : ListAll P oneOf
  additionalProperties : OrFalseAll P additionalProperties
  additionalItems : OrFalseAll P additionalItems
  unevaluatedItems : OrFalseAll P unevaluatedItems
  items : ItemsAll P items
  mergedNot : ∀ x ∈ mergedNot, NotAllowed K ∧ P x
  mergedIf : ∀ st ∈ mergedIf, IfAll P st

/-- The same for the fields of a node. -/
def Kids (c : PEnv) (K : Care) (P : SchemaNode → Prop) (n : SchemaNode) : Prop :=
  KidsAll c K P n.properties n.patternProperties n.defs n.definitions n.dependentSchemas n.contains n.not n.ifN n.thenN n.elseN
    n.prefixItems n.allOf n.anyOf n.oneOf n.additionalProperties n.additionalItems n.unevaluatedItems n.items n.mergedNot n.mergedIf

/-- Conditions on the keywords without sub-schemas. -/
structure TameBase (c : PEnv) (K : Care) (type : Option MultipleType) (pattern : Option String) (multipleOf : Option Rat)
    (uniqueItems : Option Bool) (enum : Option (List JVal)) (const : Option JVal) (ref id : Option String) : Prop where
  multiple : K.noMultiples → multipleOf = none
  types : type.bind (·.multiple) ≠ some []
  pattern : ∀ p, pattern = some p → PatternOk c c.rxString p
  ref : K.calm → ∀ r, ref = some r → RefOk r
  id : K.calm → id = none
  enum : K.calm → ∀ l, enum = some l → ∀ v ∈ l, Clean v
  const : K.calm → ∀ v, const = some v → Clean v
  unique : K.calm → ¬ K.noNegations → uniqueItems = none

/-- The conditions on the own keywords of a node. -/
def Tame (c : PEnv) (K : Care) (n : SchemaNode) : Prop :=
  TameBase c K n.type n.pattern n.multipleOf n.uniqueItems n.enum n.const n.ref n.id

/-- Conditions on names and on the presence of negations. -/
def TameNames (c : PEnv) (K : Care) (n : SchemaNode) : Prop := Kids c K (fun _ => True) n

/-- Directly inside a node. -/
def Inner (n x : SchemaNode) : Prop :=
  x ∈ n.children ∨ x ∈ n.mergedNot ∨ ∃ st ∈ n.mergedIf, st.ifN = some x ∨ st.thenN = some x ∨ st.elseN = some x

/-- A tame node, and all the nodes inside it are tame. -/
inductive Every (c : PEnv) (K : Care) : SchemaNode → Prop
  | mk {n : SchemaNode} : Tame c K n → TameNames c K n → (∀ x, Inner n x → Every c K x) → Every c K n

theorem inner_sub {n x : SchemaNode} (k : SubKey) (h : x ∈ (getSub n k).children) : Inner n x :=
  .inl (mem_children_getSub.2 ⟨k, h⟩)

theorem kids_of_inner {c : PEnv} {K : Care} {P : SchemaNode → Prop} {n : SchemaNode} (h : TameNames c K n)
    (hP : ∀ x, Inner n x → P x) : Kids c K P n where
  properties := fun l e p hp => ⟨trivial, hP _ (inner_sub .properties (by simp [getSub, SubVal.children, e]; exact ⟨_, hp⟩))⟩
  patternProperties := fun l e p hp => ⟨(h.patternProperties l e p hp).1,
    hP _ (inner_sub .patternProperties (by simp [getSub, SubVal.children, e]; exact ⟨_, hp⟩))⟩
  defs := fun l e p hp => ⟨(h.defs l e p hp).1, hP _ (inner_sub .defs (by simp [getSub, SubVal.children, e]; exact ⟨_, hp⟩))⟩
  definitions := fun l e p hp => ⟨(h.definitions l e p hp).1,
    hP _ (inner_sub .definitions (by simp [getSub, SubVal.children, e]; exact ⟨_, hp⟩))⟩
  dependentSchemas := fun p hp => hP _ (inner_sub .dependentSchemas (by simp [getSub, SubVal.children]; exact ⟨_, hp⟩))
  contains := fun x e => hP _ (inner_sub .contains (by simp [getSub, SubVal.children, e]))
  not := fun x e => ⟨(h.not x e).1, hP _ (inner_sub .not (by simp [getSub, SubVal.children, e]))⟩
  ifN := fun x e => hP _ (inner_sub .ifK (by simp [getSub, SubVal.children, e]))
  thenN := fun x e => hP _ (inner_sub .thenK (by simp [getSub, SubVal.children, e]))
  elseN := fun x e => hP _ (inner_sub .elseK (by simp [getSub, SubVal.children, e]))
  prefixItems := fun l e x hx => hP _ (inner_sub .prefixItems (by simpa [getSub, SubVal.children, e] using hx))
  allOf := fun l e x hx => hP _ (inner_sub .allOf (by simpa [getSub, SubVal.children, e] using hx))
  anyOf := fun l e x hx => hP _ (inner_sub .anyOf (by simpa [getSub, SubVal.children, e] using hx))
  oneOf := fun l e x hx => hP _ (inner_sub .oneOf (by simpa [getSub, SubVal.children, e] using hx))
  additionalProperties := fun d e x hx => hP _ (inner_sub .additionalProperties (by simp [getSub, SubVal.children, e, hx]))
  additionalItems := fun d e x hx => hP _ (inner_sub .additionalItems (by simp [getSub, SubVal.children, e, hx]))
  unevaluatedItems := fun d e x hx => hP _ (inner_sub .unevaluatedItems (by simp [getSub, SubVal.children, e, hx]))
  items := fun d e => ⟨fun x hx => hP _ (inner_sub .items (by simp [getSub, SubVal.children, e, hx])),
    fun l hl x hx => hP _ (inner_sub .items (by simp [getSub, SubVal.children, e, hl, hx]))⟩
  mergedNot := fun x hx => ⟨(h.mergedNot x hx).1, hP _ (.inr (.inl hx))⟩
  mergedIf := fun st hst => ⟨fun x e => hP _ (.inr (.inr ⟨st, hst, .inl e⟩)), fun x e => hP _ (.inr (.inr ⟨st, hst, .inr (.inl e)⟩)),
    fun x e => hP _ (.inr (.inr ⟨st, hst, .inr (.inr e)⟩))⟩

theorem MapAll.mono {A : String → Prop} {P Q : SchemaNode → Prop} {m : Option (List (String × SchemaNode))} (h : MapAll A P m)
    (hq : ∀ x, P x → Q x) : MapAll A Q m := fun l e p hp => ⟨(h l e p hp).1, hq _ (h l e p hp).2⟩
theorem ListAll.mono {P Q : SchemaNode → Prop} {m : Option (List SchemaNode)} (h : ListAll P m)
    (hq : ∀ x, P x → Q x) : ListAll Q m := fun l e x hx => hq _ (h l e x hx)
theorem OptAll.mono {P Q : SchemaNode → Prop} {m : Option SchemaNode} (h : OptAll P m)
    (hq : ∀ x, P x → Q x) : OptAll Q m := fun x e => hq _ (h x e)
theorem OrFalseAll.mono {P Q : SchemaNode → Prop} {m : Option (NodeOrFalse SchemaNode)} (h : OrFalseAll P m)
    (hq : ∀ x, P x → Q x) : OrFalseAll Q m := fun d e => (h d e).mono hq
theorem ItemsAll.mono {P Q : SchemaNode → Prop} {m : Option (ItemsData SchemaNode)} (h : ItemsAll P m)
    (hq : ∀ x, P x → Q x) : ItemsAll Q m := fun d e => ⟨(h d e).1.mono hq, (h d e).2.mono hq⟩

theorem Kids.mono {c : PEnv} {K : Care} {P Q : SchemaNode → Prop} {n : SchemaNode} (h : Kids c K P n) (hq : ∀ x, P x → Q x) :
    Kids c K Q n where
  properties := h.properties.mono hq
  patternProperties := h.patternProperties.mono hq
  defs := h.defs.mono hq
  definitions := h.definitions.mono hq
  dependentSchemas := fun p hp => hq _ (h.dependentSchemas p hp)
  contains := h.contains.mono hq
  not := fun x e => ⟨(h.not x e).1, hq _ (h.not x e).2⟩
  ifN := h.ifN.mono hq
  thenN := h.thenN.mono hq
  elseN := h.elseN.mono hq
  prefixItems := h.prefixItems.mono hq
  allOf := h.allOf.mono hq
  anyOf := h.anyOf.mono hq
  oneOf := h.oneOf.mono hq
  additionalProperties := h.additionalProperties.mono hq
  additionalItems := h.additionalItems.mono hq
  unevaluatedItems := h.unevaluatedItems.mono hq
  items := h.items.mono hq
  mergedNot := fun x e => ⟨(h.mergedNot x e).1, hq _ (h.mergedNot x e).2⟩
  mergedIf := fun st e => ⟨(h.mergedIf st e).1.mono hq, (h.mergedIf st e).2.1.mono hq, (h.mergedIf st e).2.2.mono hq⟩

theorem Kids.sub {c : PEnv} {K : Care} {P : SchemaNode → Prop} {n x : SchemaNode} (h : Kids c K P n) (k : SubKey)
    (hx : x ∈ (getSub n k).children) : P x := by
  have hm : ∀ (A : String → Prop) (m : Option (List (String × SchemaNode))), MapAll A P m → x ∈ (m.getD []).map Prod.snd → P x := by
    intro A m h hx
    cases m with
    | none => simp at hx
    | some l => obtain ⟨p, hp, rfl⟩ := List.mem_map.1 hx; exact (h l rfl p hp).2
  have ho : ∀ (m : Option SchemaNode), OptAll P m → x ∈ m.toList → P x := by
    intro m h hx
    exact h x (Option.mem_toList.1 hx)
  have hl : ∀ (m : Option (List SchemaNode)), ListAll P m → x ∈ m.getD [] → P x := by
    intro m h hx
    cases m with
    | none => simp at hx
    | some l => exact h l rfl x hx
  have hf : ∀ (m : Option (NodeOrFalse SchemaNode)), OrFalseAll P m → x ∈ (m.bind NodeOrFalse.schema).toList → P x := by
    intro m h hx
    cases m with
    | none => simp at hx
    | some d => exact ho d.schema (h d rfl) hx
  cases k with
  | properties => exact hm _ _ h.properties hx
  | patternProperties => exact hm _ _ h.patternProperties hx
  | defs => exact hm _ _ h.defs hx
  | definitions => exact hm _ _ h.definitions hx
  | dependentSchemas =>
    obtain ⟨p, hp, rfl⟩ := List.mem_map.1 hx
    exact h.dependentSchemas p hp
  | contains => exact ho _ h.contains hx
  | not => exact ho _ (h.not.mono fun x hx => hx.2) hx
  | ifK => exact ho _ h.ifN hx
  | thenK => exact ho _ h.thenN hx
  | elseK => exact ho _ h.elseN hx
  | prefixItems => exact hl _ h.prefixItems hx
  | allOf => exact hl _ h.allOf hx
  | anyOf => exact hl _ h.anyOf hx
  | oneOf => exact hl _ h.oneOf hx
  | additionalProperties => exact hf _ h.additionalProperties hx
  | additionalItems => exact hf _ h.additionalItems hx
  | unevaluatedItems => exact hf _ h.unevaluatedItems hx
  | items =>
    have hi := h.items
    cases e : n.items with
    | none => simp [getSub, SubVal.children, e] at hx
    | some d =>
      simp only [getSub, SubVal.children, e, Option.bind_some, List.mem_append] at hx
      rcases hx with hx | hx
      · exact ho _ (hi d e).1 hx
      · exact hl _ (hi d e).2 hx

theorem inner_of_kids {c : PEnv} {K : Care} {P : SchemaNode → Prop} {n : SchemaNode} (h : Kids c K P n) :
    ∀ x, Inner n x → P x := by
  rintro x (hx | hx | ⟨st, hst, hx⟩)
  · obtain ⟨k, hk⟩ := mem_children_getSub.1 hx
    exact h.sub k hk
  · exact (h.mergedNot x hx).2
  · rcases hx with hx | hx | hx
    · exact (h.mergedIf st hst).1 x hx
    · exact (h.mergedIf st hst).2.1 x hx
    · exact (h.mergedIf st hst).2.2 x hx

section
variable {c : PEnv} {K : Care}

theorem Every.tame {n : SchemaNode} (h : Every c K n) : Tame c K n := by cases h; assumption
theorem Every.kids {n : SchemaNode} (h : Every c K n) : Kids c K (Every c K) n := by
  cases h with | mk a b d => exact kids_of_inner b d
theorem Every.of {n : SchemaNode} (h : Tame c K n) (hk : Kids c K (Every c K) n) : Every c K n :=
  .mk h (hk.mono fun _ _ => trivial) (inner_of_kids hk)

theorem tame_empty : Tame c K emptyNode := by
  constructor <;> simp [emptyNode]

theorem kids_empty {P : SchemaNode → Prop} : Kids c K P emptyNode := by
  constructor <;> simp [emptyNode, MapAll, ListAll, OptAll, OrFalseAll, ItemsAll]

theorem every_empty : Every c K emptyNode := .of tame_empty kids_empty

/-! ## Decoding -/

/-- Keywords and the conditions they impose on a stored value. -/
def SubOk (c : PEnv) (K : Care) (P : SchemaNode → Prop) (k : SubKey) (v : SubVal) : Prop :=
  (∀ x ∈ v.children, P x) ∧
  (k = .patternProperties → ∀ m, v = .map (some m) → ∀ p ∈ m, PatternOk c c.rxPattern p.1) ∧
  (k = .defs ∨ k = .definitions → ∀ m, v = .map (some m) → ∀ p ∈ m, DefName K p.1) ∧
  (k = .not → ∀ n, v = .node (some n) → NotAllowed K)

theorem mapAll_of {A : String → Prop} {P : SchemaNode → Prop} {m : Option (List (String × SchemaNode))}
    (h : ∀ x ∈ (SubVal.map m).children, P x) (hA : ∀ l, m = some l → ∀ p ∈ l, A p.1) : MapAll A P m := by
  rintro l rfl p hp
  exact ⟨hA l rfl p hp, h _ (List.mem_map.2 ⟨p, hp, rfl⟩)⟩

theorem optAll_of {P : SchemaNode → Prop} {m : Option SchemaNode} (h : ∀ x ∈ (SubVal.node m).children, P x) : OptAll P m := by
  rintro x rfl; exact h x (by simp [SubVal.children])

theorem listAll_of {P : SchemaNode → Prop} {m : Option (List SchemaNode)} (h : ∀ x ∈ (SubVal.nodes m).children, P x) :
    ListAll P m := by
  rintro l rfl x hx; exact h x (by simpa [SubVal.children] using hx)

theorem orFalseAll_of {P : SchemaNode → Prop} {m : Option (NodeOrFalse SchemaNode)}
    (h : ∀ x ∈ (SubVal.orFalse m).children, P x) : OrFalseAll P m := by
  rintro d rfl x hx; exact h x (by simp [SubVal.children, hx])

theorem itemsAll_of {P : SchemaNode → Prop} {m : Option (ItemsData SchemaNode)}
    (h : ∀ x ∈ (SubVal.items m).children, P x) : ItemsAll P m := by
  rintro d rfl
  exact ⟨fun x hx => h x (by simp [SubVal.children, hx]), fun l hl x hx => h x (by simp [SubVal.children, hl, hx])⟩

theorem kids_setSub {P : SchemaNode → Prop} {n : SchemaNode} (hk : Kids c K P n) (k : SubKey) (v : SubVal)
    (hv : SubOk c K P k v) : Kids c K P (setSub n k v) := by
  obtain ⟨h1, h2, h3, h4⟩ := hv
  cases k with
  | properties =>
    cases v with
    | map m => exact ⟨mapAll_of h1 (fun _ _ _ _ => trivial), hk.2, hk.3, hk.4, hk.5, hk.6, hk.7, hk.8, hk.9, hk.10, hk.11, hk.12, hk.13, hk.14, hk.15, hk.16, hk.17, hk.18, hk.19, hk.20⟩
    | _ => exact hk
  | patternProperties =>
    cases v with
    | map m => exact ⟨hk.1, mapAll_of h1 (fun l e => h2 rfl l (congrArg SubVal.map e)), hk.3, hk.4, hk.5, hk.6, hk.7, hk.8, hk.9, hk.10, hk.11, hk.12, hk.13, hk.14, hk.15, hk.16, hk.17, hk.18, hk.19, hk.20⟩
    | _ => exact hk
  | defs =>
    cases v with
    | map m => exact ⟨hk.1, hk.2, mapAll_of h1 (fun l e => h3 (.inl rfl) l (congrArg SubVal.map e)), hk.4, hk.5, hk.6, hk.7, hk.8, hk.9, hk.10, hk.11, hk.12, hk.13, hk.14, hk.15, hk.16, hk.17, hk.18, hk.19, hk.20⟩
    | _ => exact hk
  | definitions =>
    cases v with
    | map m => exact ⟨hk.1, hk.2, hk.3, mapAll_of h1 (fun l e => h3 (.inr rfl) l (congrArg SubVal.map e)), hk.5, hk.6, hk.7, hk.8, hk.9, hk.10, hk.11, hk.12, hk.13, hk.14, hk.15, hk.16, hk.17, hk.18, hk.19, hk.20⟩
    | _ => exact hk
  | dependentSchemas =>
    cases v with
    | map m => exact ⟨hk.1, hk.2, hk.3, hk.4, fun p hp => h1 _ (List.mem_map.2 ⟨p, hp, rfl⟩), hk.6, hk.7, hk.8, hk.9, hk.10, hk.11, hk.12, hk.13, hk.14, hk.15, hk.16, hk.17, hk.18, hk.19, hk.20⟩
    | _ => exact hk
  | contains =>
    cases v with
    | node m => exact ⟨hk.1, hk.2, hk.3, hk.4, hk.5, optAll_of h1, hk.7, hk.8, hk.9, hk.10, hk.11, hk.12, hk.13, hk.14, hk.15, hk.16, hk.17, hk.18, hk.19, hk.20⟩
    | _ => exact hk
  | not =>
    cases v with
    | node m => exact ⟨hk.1, hk.2, hk.3, hk.4, hk.5, hk.6, fun x e => ⟨h4 rfl x (congrArg SubVal.node e), optAll_of h1 x e⟩, hk.8, hk.9, hk.10, hk.11, hk.12, hk.13, hk.14, hk.15, hk.16, hk.17, hk.18, hk.19, hk.20⟩
    | _ => exact hk
  | ifK =>
    cases v with
    | node m => exact ⟨hk.1, hk.2, hk.3, hk.4, hk.5, hk.6, hk.7, optAll_of h1, hk.9, hk.10, hk.11, hk.12, hk.13, hk.14, hk.15, hk.16, hk.17, hk.18, hk.19, hk.20⟩
    | _ => exact hk
  | thenK =>
    cases v with
    | node m => exact ⟨hk.1, hk.2, hk.3, hk.4, hk.5, hk.6, hk.7, hk.8, optAll_of h1, hk.10, hk.11, hk.12, hk.13, hk.14, hk.15, hk.16, hk.17, hk.18, hk.19, hk.20⟩
    | _ => exact hk
  | elseK =>
    cases v with
    | node m => exact ⟨hk.1, hk.2, hk.3, hk.4, hk.5, hk.6, hk.7, hk.8, hk.9, optAll_of h1, hk.11, hk.12, hk.13, hk.14, hk.15, hk.16, hk.17, hk.18, hk.19, hk.20⟩
    | _ => exact hk
  | prefixItems =>
    cases v with
    | nodes m => exact ⟨hk.1, hk.2, hk.3, hk.4, hk.5, hk.6, hk.7, hk.8, hk.9, hk.10, listAll_of h1, hk.12, hk.13, hk.14, hk.15, hk.16, hk.17, hk.18, hk.19, hk.20⟩
    | _ => exact hk
  | allOf =>
    cases v with
    | nodes m => exact ⟨hk.1, hk.2, hk.3, hk.4, hk.5, hk.6, hk.7, hk.8, hk.9, hk.10, hk.11, listAll_of h1, hk.13, hk.14, hk.15, hk.16, hk.17, hk.18, hk.19, hk.20⟩
    | _ => exact hk
  | anyOf =>
    cases v with
    | nodes m => exact ⟨hk.1, hk.2, hk.3, hk.4, hk.5, hk.6, hk.7, hk.8, hk.9, hk.10, hk.11, hk.12, listAll_of h1, hk.14, hk.15, hk.16, hk.17, hk.18, hk.19, hk.20⟩
    | _ => exact hk
  | oneOf =>
    cases v with
    | nodes m => exact ⟨hk.1, hk.2, hk.3, hk.4, hk.5, hk.6, hk.7, hk.8, hk.9, hk.10, hk.11, hk.12, hk.13, listAll_of h1, hk.15, hk.16, hk.17, hk.18, hk.19, hk.20⟩
    | _ => exact hk
  | additionalProperties =>
    cases v with
    | orFalse m => exact ⟨hk.1, hk.2, hk.3, hk.4, hk.5, hk.6, hk.7, hk.8, hk.9, hk.10, hk.11, hk.12, hk.13, hk.14, orFalseAll_of h1, hk.16, hk.17, hk.18, hk.19, hk.20⟩
    | _ => exact hk
  | additionalItems =>
    cases v with
    | orFalse m => exact ⟨hk.1, hk.2, hk.3, hk.4, hk.5, hk.6, hk.7, hk.8, hk.9, hk.10, hk.11, hk.12, hk.13, hk.14, hk.15, orFalseAll_of h1, hk.17, hk.18, hk.19, hk.20⟩
    | _ => exact hk
  | unevaluatedItems =>
    cases v with
    | orFalse m => exact ⟨hk.1, hk.2, hk.3, hk.4, hk.5, hk.6, hk.7, hk.8, hk.9, hk.10, hk.11, hk.12, hk.13, hk.14, hk.15, hk.16, orFalseAll_of h1, hk.18, hk.19, hk.20⟩
    | _ => exact hk
  | items =>
    cases v with
    | items m => exact ⟨hk.1, hk.2, hk.3, hk.4, hk.5, hk.6, hk.7, hk.8, hk.9, hk.10, hk.11, hk.12, hk.13, hk.14, hk.15, hk.16, hk.17, itemsAll_of h1, hk.19, hk.20⟩
    | _ => exact hk

theorem tame_setSub {n : SchemaNode} (h : Tame c K n) (k : SubKey) (v : SubVal) : Tame c K (setSub n k v) := by
  cases k <;> cases v <;> exact h

theorem ite_and {α : Type} {p : Prop} [Decidable p] {a b r : α} (h : (if p then a else b) = r) : (p ∧ a = r) ∨ b = r := by
  by_cases e : p
  · rw [if_pos e] at h; exact .inl ⟨e, h⟩
  · rw [if_neg e] at h; exact .inr h

/-- The conditions on the own keywords. -/
abbrev TameB (c : PEnv) (K : Care) (b : NodeBase) : Prop :=
  TameBase c K b.type b.pattern b.multipleOf b.uniqueItems b.enum b.const b.ref b.id

theorem decType_ne {v : JVal} {x : Option MultipleType} (hx : decType v = some x) (ho : v ≠ .arr []) :
    x.bind (·.multiple) ≠ some [] := by
  intro hm
  cases v with
  | null => simp [decType] at hx; subst hx; simp at hm
  | str t => simp [decType] at hx; subst hx; simp at hm
  | bool t => simp [decType] at hx
  | num t => simp [decType] at hx
  | obj t => simp [decType] at hx
  | arr l =>
    cases l with
    | nil => exact ho rfl
    | cons y l =>
      unfold decType at hx
      dsimp only at hx
      cases h1 : decStrList (y :: l) with
      | none => rw [h1] at hx; cases hx
      | some r =>
        rw [h1] at hx
        cases Option.some.inj hx
        simp at hm
        subst hm
        unfold decStrList at h1
        cases h2 : decStrElem y with
        | none => rw [h2] at h1; cases h1
        | some z =>
          rw [h2] at h1
          cases h3 : decStrList l with
          | none => rw [h3] at h1; cases h1
          | some w => rw [h3] at h1; cases h1

theorem decBaseField_tame {b b' : NodeBase} {k : String} {v : JVal} (h : decBaseField b k v = some b') (hb : TameB c K b)
    (ho : MemberOk c K k v) (hc : K.calm → MemberCalm K k v) : TameB c K b' := by
  have key : ∀ (α : Type) (d : Option α) (f : α → NodeBase), (do let x ← d; pure (f x) : Option NodeBase) = some b' →
      (∀ x, d = some x → TameB c K (f x)) → TameB c K b' := by
    intro α d f h hf
    cases d with
    | none => simp at h
    | some x =>
      have e : f x = b' := Option.some.inj h
      subst e
      exact hf x rfl
  unfold decBaseField at h
  rcases ite_and h with ⟨e, h⟩ | h
  · refine key _ _ _ h fun x hx => ⟨hb.1, ?_, hb.3, hb.4, hb.5, hb.6, hb.7, hb.8⟩
    exact decType_ne hx (ho.types e)
  iterate 4 (rcases ite_or h with h | h; · exact key _ _ _ h (fun _ _ => hb))
  rcases ite_and h with ⟨e, h⟩ | h
  · refine key _ _ _ h fun x hx => ⟨hb.1, hb.2, ?_, hb.4, hb.5, hb.6, hb.7, hb.8⟩
    intro p hp
    cases v <;> simp [decString] at hx <;> subst hx <;> simp at hp
    subst hp
    exact ho.pattern e _ rfl
  iterate 7 (rcases ite_or h with h | h; · exact key _ _ _ h (fun _ _ => hb))
  rcases ite_and h with ⟨e, h⟩ | h
  · refine key _ _ _ h fun x hx => ⟨?_, hb.2, hb.3, hb.4, hb.5, hb.6, hb.7, hb.8⟩
    intro hn
    cases v <;> simp [decRat] at hx <;> subst hx
    · rfl
    · exact absurd rfl (ho.multiple hn e _)
  iterate 4 (rcases ite_or h with h | h; · exact key _ _ _ h (fun _ _ => hb))
  rcases ite_and h with ⟨e, h⟩ | h
  · refine key _ _ _ h fun x hx => ⟨hb.1, hb.2, hb.3, hb.4, hb.5, hb.6, hb.7, ?_⟩
    intro h1 h2
    cases v <;> simp [decBool] at hx <;> subst hx
    · rfl
    · exact absurd rfl ((hc h1).unique h2 e _)
  rcases ite_and h with ⟨e, h⟩ | h
  · refine key _ _ _ h fun x hx => ⟨hb.1, hb.2, hb.3, hb.4, hb.5, ?_, hb.7, hb.8⟩
    intro h1 l hl w hw
    cases v <;> simp [decValues] at hx <;> subst hx <;> simp at hl
    subst hl
    have := (hc h1).values (.inl e)
    cases this with
    | atom _ h => exact absurd rfl (h _)
    | arr h => exact h w hw
  rcases ite_and h with ⟨e, h⟩ | h
  · have e' := Option.some.inj h
    subst e'
    refine ⟨hb.1, hb.2, hb.3, hb.4, hb.5, hb.6, ?_, hb.8⟩
    intro h1 w hw
    cases Option.some.inj hw
    exact (hc h1).values (.inr e)
  rcases ite_and h with ⟨e, h⟩ | h
  · refine key _ _ _ h fun x hx => ⟨hb.1, hb.2, hb.3, ?_, hb.5, hb.6, hb.7, hb.8⟩
    intro h1 p hp
    cases v <;> simp [decString] at hx <;> subst hx <;> simp at hp
    subst hp
    exact (hc h1).ref e _ rfl
  rcases ite_and h with ⟨e, h⟩ | h
  · refine key _ _ _ h fun x hx => ⟨hb.1, hb.2, hb.3, hb.4, ?_, hb.6, hb.7, hb.8⟩
    intro h1
    cases v <;> simp [decString] at hx <;> subst hx
    · rfl
    · exact absurd rfl ((hc h1).id e _)
  rcases ite_or h with h | h
  · exact key _ _ _ h (fun _ _ => hb)
  have e := Option.some.inj h
  subst e
  exact hb

theorem ofName_name {k : String} {sk : SubKey} (h : SubKey.ofName k = some sk) : sk.name = k := by
  have := List.find?_some h
  simpa using this

/-- What is proved of every value, by induction on its size. -/
def DecodesTame (c : PEnv) (K : Care) (v : JVal) : Prop := TameText c K v → ∀ n, decodeNode v = some n → Every c K n

theorem decodeMap_tame : ∀ (m : List (String × JVal)) (l : List (String × SchemaNode)), (∀ p ∈ m, TameText c K p.2) →
    (∀ p ∈ m, DecodesTame c K p.2) → decodeMap m = some l → keysKV l = keysKV m ∧ ∀ y ∈ l.map Prod.snd, Every c K y := by
  intro m
  induction m with
  | nil => intro l _ _ h; unfold decodeMap at h; simp at h; subst h; exact ⟨rfl, by simp⟩
  | cons p t ih =>
    intro l hw hd h
    obtain ⟨k, v⟩ := p
    unfold decodeMap decodePair at h
    cases h1 : decodeNode v with
    | none => rw [h1] at h; simp at h
    | some x =>
      rw [h1] at h
      cases h2 : decodeMap t with
      | none => rw [h2] at h; simp at h
      | some r =>
        rw [h2] at h
        simp at h
        subst h
        obtain ⟨a, b⟩ := ih r (fun q hq => hw q (by simp [hq])) (fun q hq => hd q (by simp [hq])) h2
        refine ⟨by simp only [keysKV, List.map_cons]; simp only [keysKV] at a; rw [a], ?_⟩
        intro y hy
        rw [List.map_cons, List.mem_cons] at hy
        rcases hy with rfl | hy
        · exact hd (k, v) (by simp) (hw (k, v) (by simp)) _ h1
        · exact b y hy

theorem decodeList_tame : ∀ (m : List JVal) (l : List SchemaNode), (∀ p ∈ m, TameText c K p) →
    (∀ p ∈ m, DecodesTame c K p) → decodeList m = some l → ∀ y ∈ l, Every c K y := by
  intro m
  induction m with
  | nil => intro l _ _ h; unfold decodeList at h; simp at h; subst h; simp
  | cons v t ih =>
    intro l hw hd h
    unfold decodeList at h
    cases h1 : decodeNode v with
    | none => rw [h1] at h; simp at h
    | some x =>
      rw [h1] at h
      cases h2 : decodeList t with
      | none => rw [h2] at h; simp at h
      | some r =>
        rw [h2] at h
        simp at h
        subst h
        have b := ih r (fun q hq => hw q (by simp [hq])) (fun q hq => hd q (by simp [hq])) h2
        intro y hy
        rcases List.mem_cons.1 hy with rfl | hy
        · exact hd v (by simp) (hw v (by simp)) _ h1
        · exact b y hy

/-- The schemas inside the value of a keyword, by its shape. -/
def schemasOf : SubShape → JVal → List JVal
  | .map, .obj m => m.map Prod.snd
  | .map, _ => []
  | .node, v => [v]
  | .orFalse, v => [v]
  | .nodes, .arr l => l
  | .nodes, _ => []
  | .items, .arr l => l
  | .items, v => [v]

theorem schemasIn_name (k : SubKey) (v : JVal) : schemasIn k.name v = schemasOf k.shape v := by
  cases k <;> cases v <;> rfl

theorem decodeSub_tame {v : JVal} {x : SubVal} (sk : SubKey) (h : decodeSub sk.shape v = some x)
    (ht : ∀ w ∈ schemasIn sk.name v, TameText c K w) (ho : MemberOk c K sk.name v) (hc : K.calm → MemberCalm K sk.name v)
    (ih : ∀ w, sizeOf w ≤ sizeOf v → DecodesTame c K w) : SubOk c K (Every c K) sk x := by
  rw [schemasIn_name] at ht
  have hsz : ∀ m : List (String × JVal), v = .obj m → ∀ p ∈ m, sizeOf p.2 ≤ sizeOf v := by
    rintro m rfl p hp
    have h1 := List.sizeOf_lt_of_mem hp
    have h2 : sizeOf p.2 < sizeOf p := by cases p; simp only [Prod.mk.sizeOf_spec]; omega
    simp only [JVal.obj.sizeOf_spec]; omega
  have hsl : ∀ m : List JVal, v = .arr m → ∀ p ∈ m, sizeOf p ≤ sizeOf v := by
    rintro m rfl p hp
    have h1 := List.sizeOf_lt_of_mem hp
    simp only [JVal.arr.sizeOf_spec]; omega
  have hfields : ∀ m n, v = .obj m → TameText c K (.obj m) → decodeFields m emptyNode = some n → Every c K n := by
    rintro m n rfl ht h
    exact ih _ (Nat.le_refl _) ht n (by unfold decodeNode; exact h)
  have hmap : ∀ m l, v = .obj m → (∀ w ∈ m.map Prod.snd, TameText c K w) → decodeMap m = some l →
      keysKV l = keysKV m ∧ ∀ y ∈ l.map Prod.snd, Every c K y := by
    intro m l e ht h
    exact decodeMap_tame m l (fun p hp => ht _ (List.mem_map.2 ⟨p, hp, rfl⟩)) (fun p hp => ih _ (hsz m e p hp)) h
  have hlist : ∀ m l, v = .arr m → (∀ w ∈ m, TameText c K w) → decodeList m = some l → ∀ y ∈ l, Every c K y := by
    intro m l e ht h
    exact decodeList_tame m l ht (fun p hp => ih _ (hsl m e p hp)) h
  have kids : ∀ y ∈ x.children, Every c K y := by
    cases hs : sk.shape with
    | map =>
      rw [hs] at h ht
      cases v <;> unfold decodeSub at h <;> simp at h
      · subst h; simp [SubVal.children]
      · obtain ⟨l, h1, rfl⟩ := h
        exact (hmap _ l rfl ht h1).2
    | node =>
      rw [hs] at h ht
      cases v <;> unfold decodeSub at h <;> simp at h
      · subst h; simp [SubVal.children]
      · obtain ⟨l, h1, rfl⟩ := h
        intro y hy
        simp only [SubVal.children, Option.toList_some, List.mem_singleton] at hy
        subst hy
        exact hfields _ _ rfl (ht _ (by simp [schemasOf])) h1
    | nodes =>
      rw [hs] at h ht
      cases v <;> unfold decodeSub at h <;> simp at h
      · subst h; simp [SubVal.children]
      · obtain ⟨l, h1, rfl⟩ := h
        exact hlist _ l rfl ht h1
    | orFalse =>
      rw [hs] at h ht
      cases v with
      | bool b => cases b <;> unfold decodeSub at h <;> simp at h <;> subst h <;> simp [SubVal.children]
      | null => unfold decodeSub at h; simp at h; subst h; simp [SubVal.children]
      | obj m =>
        unfold decodeSub at h; simp at h
        obtain ⟨l, h1, rfl⟩ := h
        intro y hy
        simp only [SubVal.children, Option.bind_some, Option.toList_some, List.mem_singleton] at hy
        subst hy
        exact hfields _ _ rfl (ht _ (by simp [schemasOf])) h1
      | _ => unfold decodeSub at h; simp at h
    | items =>
      rw [hs] at h ht
      cases v with
      | bool b => cases b <;> unfold decodeSub at h <;> simp at h <;> subst h <;> simp [SubVal.children]
      | null => unfold decodeSub at h; simp at h; subst h; simp [SubVal.children]
      | obj m =>
        unfold decodeSub at h; simp at h
        obtain ⟨l, h1, rfl⟩ := h
        intro y hy
        simp only [SubVal.children, Option.bind_some, Option.toList_some, Option.getD_some, List.append_nil,
            List.mem_singleton] at hy
        subst hy
        exact hfields _ _ rfl (ht _ (by simp [schemasOf])) h1
      | arr m =>
        unfold decodeSub at h; simp at h
        obtain ⟨l, h1, rfl⟩ := h
        intro y hy
        simp only [SubVal.children, Option.bind_some, Option.toList_some, Option.getD_some, List.mem_append,
            List.mem_singleton] at hy
        rcases hy with rfl | hy
        · exact every_empty
        · exact hlist _ l rfl ht h1 y hy
      | _ => unfold decodeSub at h; simp at h
  have keys : ∀ l, sk.shape = .map → x = .map (some l) → ∃ m, v = .obj m ∧ ∀ p ∈ l, ∃ q ∈ m, q.1 = p.1 := by
    rintro l hs rfl
    rw [hs] at h ht
    cases v <;> unfold decodeSub at h <;> simp at h
    rename_i m
    refine ⟨m, rfl, fun p hp => ?_⟩
    have hp : p.1 ∈ keysKV l := List.mem_map.2 ⟨p, hp, rfl⟩
    rw [(hmap _ l rfl ht h).1] at hp
    exact List.mem_map.1 hp
  refine ⟨kids, ?_, ?_, ?_⟩
  · rintro rfl l e p hp
    obtain ⟨m, rfl, hm⟩ := keys l rfl e
    obtain ⟨q, hq, hqp⟩ := hm p hp
    rw [← hqp]
    exact ho.names rfl m rfl q hq
  · intro hk l e p hp hcalm
    have hs : sk.shape = .map := by rcases hk with rfl | rfl <;> rfl
    have hn : sk.name = "$defs" ∨ sk.name = "definitions" := by rcases hk with rfl | rfl <;> simp [SubKey.name]
    obtain ⟨m, rfl, hm⟩ := keys l hs e
    obtain ⟨q, hq, hqp⟩ := hm p hp
    rw [← hqp]
    exact (hc hcalm).defs hn m rfl q hq
  · rintro rfl n rfl ⟨h1, h2⟩
    cases v <;> simp [SubKey.shape, decodeSub] at h
    exact (hc h1).negations h2 rfl _ rfl

theorem decodeField_tame {k : String} {v : JVal} {n n' : SchemaNode} (h : decodeField (k, v) n = some n') (hn : Every c K n)
    (ht : ∀ w ∈ schemasIn k v, TameText c K w) (ho : MemberOk c K k v) (hc : K.calm → MemberCalm K k v)
    (ih : ∀ w, sizeOf w ≤ sizeOf v → DecodesTame c K w) : Every c K n' := by
  unfold decodeField at h
  cases hk : SubKey.ofName k with
  | some sk =>
    rw [hk] at h
    dsimp only at h
    have e := ofName_name hk
    subst e
    cases hd : decodeSub sk.shape v with
    | none => rw [hd] at h; simp at h
    | some x =>
      rw [hd] at h; simp at h; subst h
      exact .of (tame_setSub hn.tame _ _) (kids_setSub hn.kids _ _ (decodeSub_tame sk hd ht ho hc ih))
  | none =>
    rw [hk] at h
    dsimp only at h
    cases hd : decBaseField n.toNodeBase k v with
    | none => rw [hd] at h; simp at h
    | some b =>
      rw [hd] at h; simp at h; subst h
      exact .of (decBaseField_tame hd hn.tame ho hc) hn.kids

theorem decodeFields_tame : ∀ (m : List (String × JVal)) (n n' : SchemaNode), Every c K n → decodeFields m n = some n' →
    (∀ p ∈ m, MemberOk c K p.1 p.2) → (∀ p ∈ m, K.calm → MemberCalm K p.1 p.2) →
    (∀ p ∈ m, ∀ w ∈ schemasIn p.1 p.2, TameText c K w) →
    (∀ p ∈ m, ∀ w, sizeOf w ≤ sizeOf p.2 → DecodesTame c K w) → Every c K n' := by
  intro m
  induction m with
  | nil => intro n n' hn h _ _ _ _; unfold decodeFields at h; simp at h; subst h; exact hn
  | cons p t ih =>
    intro n n' hn h h1 h2 h3 h4
    unfold decodeFields at h
    cases hd : decodeField p n with
    | none => rw [hd] at h; simp at h
    | some x =>
      rw [hd] at h
      obtain ⟨k, v⟩ := p
      refine ih x n' (decodeField_tame hd hn (h3 (k, v) (by simp)) (h1 (k, v) (by simp)) (h2 (k, v) (by simp))
        (h4 (k, v) (by simp))) h (fun q hq => h1 q (by simp [hq])) (fun q hq => h2 q (by simp [hq]))
        (fun q hq => h3 q (by simp [hq])) (fun q hq => h4 q (by simp [hq]))

theorem decodes_tame : ∀ (k : Nat) (v : JVal), sizeOf v ≤ k → DecodesTame c K v := by
  intro k
  induction k with
  | zero => intro v hv; cases v <;> simp at hv
  | succ k ih =>
    intro v hk ht n h
    cases ht with
    | other ho =>
      cases v with
      | null => unfold decodeNode at h; simp at h; subst h; exact every_empty
      | obj m => exact absurd rfl (ho m)
      | _ => unfold decodeNode at h; simp at h
    | obj h1 h2 h3 =>
      rename_i m
      unfold decodeNode at h
      refine decodeFields_tame m emptyNode n every_empty h h1 h2 h3 fun p hp w hw => ih w ?_
      have a := List.sizeOf_lt_of_mem hp
      have b : sizeOf p.2 < sizeOf p := by cases p; simp only [Prod.mk.sizeOf_spec]; omega
      simp only [JVal.obj.sizeOf_spec] at hk; omega

/-- What is decoded from a tame text is tame. -/
theorem decode_every {v : JVal} {n : SchemaNode} (ht : TameText c K v) (h : decodeNode v = some n) : Every c K n :=
  decodes_tame _ v (Nat.le_refl _) ht n h

/-! ## Encoding -/

/-- The text of a keyword that holds schemas. -/
def encSub (n : SchemaNode) : SubKey → List (String × JVal)
  | .properties => encOptMap "properties" n.properties
  | .patternProperties => encOptMap "patternProperties" n.patternProperties
  | .defs => encOptMap "$defs" n.defs
  | .definitions => encOptMap "definitions" n.definitions
  | .dependentSchemas => (match encMap n.dependentSchemas with | [] => [] | x :: t => [("dependentSchemas", .obj (x :: t))])
  | .contains => encOptNode "contains" n.contains
  | .not => encOptNode "not" n.not
  | .ifK => encOptNode "if" n.ifN
  | .thenK => encOptNode "then" n.thenN
  | .elseK => encOptNode "else" n.elseN
  | .prefixItems => encOptList "prefixItems" n.prefixItems
  | .allOf => encOptList "allOf" n.allOf
  | .anyOf => encOptList "anyOf" n.anyOf
  | .oneOf => encOptList "oneOf" n.oneOf
  | .additionalProperties => encOptOrFalse "additionalProperties" n.additionalProperties
  | .additionalItems => encOptOrFalse "additionalItems" n.additionalItems
  | .unevaluatedItems => encOptOrFalse "unevaluatedItems" n.unevaluatedItems
  | .items => encOptItems "items" n.items

theorem encodeNode_members (n : SchemaNode) : ∃ m, encodeNode n = .obj m ∧
    ∀ p ∈ m, p ∈ encBase n.toNodeBase ∨ ∃ k, p ∈ encSub n k := by
  refine ⟨_, encodeNode_eq n, fun p hp => ?_⟩
  simp only [List.mem_append] at hp
  rcases hp with ((((((((((((((((((h | h) | h) | h) | h) | h) | h) | h) | h) | h) | h) | h) | h) | h) | h) | h) | h) | h) | h)
  · exact .inl h
  · exact .inr ⟨.properties, h⟩
  · exact .inr ⟨.additionalProperties, h⟩
  · exact .inr ⟨.patternProperties, h⟩
  · exact .inr ⟨.items, h⟩
  · exact .inr ⟨.contains, h⟩
  · exact .inr ⟨.prefixItems, h⟩
  · exact .inr ⟨.additionalItems, h⟩
  · exact .inr ⟨.unevaluatedItems, h⟩
  · exact .inr ⟨.not, h⟩
  · exact .inr ⟨.allOf, h⟩
  · exact .inr ⟨.anyOf, h⟩
  · exact .inr ⟨.oneOf, h⟩
  · exact .inr ⟨.defs, h⟩
  · exact .inr ⟨.definitions, h⟩
  · exact .inr ⟨.ifK, h⟩
  · exact .inr ⟨.thenK, h⟩
  · exact .inr ⟨.elseK, h⟩
  · exact .inr ⟨.dependentSchemas, h⟩

theorem mem_encMap {l : List (String × SchemaNode)} {p : String × JVal} (h : p ∈ encMap l) :
    ∃ q ∈ l, p = (q.1, encodeNode q.2) := by
  induction l with
  | nil => simp [encMap] at h
  | cons q t ih =>
    rw [encMap, List.mem_cons] at h
    rcases h with rfl | h
    · exact ⟨q, by simp, by cases q; rfl⟩
    · obtain ⟨r, hr, e⟩ := ih h
      exact ⟨r, by simp [hr], e⟩

theorem mem_encList {l : List SchemaNode} {v : JVal} (h : v ∈ encList l) : ∃ q ∈ l, v = encodeNode q := by
  induction l with
  | nil => simp [encList] at h
  | cons q t ih =>
    rw [encList, List.mem_cons] at h
    rcases h with rfl | h
    · exact ⟨q, by simp, rfl⟩
    · obtain ⟨r, hr, e⟩ := ih h
      exact ⟨r, by simp [hr], e⟩

/-- The possible texts of a keyword that holds schemas. -/
inductive SubText (n : SchemaNode) (k : SubKey) : JVal → Prop
  | map {m : List (String × JVal)} (l : List (String × SchemaNode)) : getSub n k = .map (some l) →
      (∀ p ∈ m, ∃ q ∈ l, p = (q.1, encodeNode q.2)) → SubText n k (.obj m)
  | list {m : List JVal} : k.shape = .nodes ∨ k.shape = .items → (∀ v ∈ m, ∃ q ∈ (getSub n k).children, v = encodeNode q) →
      SubText n k (.arr m)
  | node (x : SchemaNode) : k.shape = .node ∨ k.shape = .orFalse ∨ k.shape = .items → x ∈ (getSub n k).children →
      SubText n k (encodeNode x)
  | atom {v : JVal} : k.shape = .orFalse ∨ k.shape = .items → (∀ m, v ≠ .obj m) → (∀ m, v ≠ .arr m) → SubText n k v

theorem encSub_text {n : SchemaNode} {k : SubKey} {p : String × JVal} (h : p ∈ encSub n k) :
    p.1 = k.name ∧ SubText n k p.2 := by
  have hmap : ∀ name (m : Option (List (String × SchemaNode))), p ∈ encOptMap name m → getSub n k = .map m →
      p.1 = name ∧ SubText n k p.2 := by
    intro name m h e
    cases m with
    | none => simp [encOptMap] at h
    | some l =>
      simp only [encOptMap, List.mem_singleton] at h
      subst h
      exact ⟨rfl, .map l e fun q hq => mem_encMap hq⟩
  have hnode : ∀ name (m : Option SchemaNode), p ∈ encOptNode name m → getSub n k = .node m → k.shape = .node →
      p.1 = name ∧ SubText n k p.2 := by
    intro name m h e hs
    cases m with
    | none => simp [encOptNode] at h
    | some x =>
      simp only [encOptNode, List.mem_singleton] at h
      subst h
      exact ⟨rfl, .node x (.inl hs) (by simp [e, SubVal.children])⟩
  have hnodes : ∀ name (m : Option (List SchemaNode)), p ∈ encOptList name m → getSub n k = .nodes m → k.shape = .nodes →
      p.1 = name ∧ SubText n k p.2 := by
    intro name m h e hs
    cases m with
    | none => simp [encOptList] at h
    | some x =>
      simp only [encOptList, List.mem_singleton] at h
      subst h
      exact ⟨rfl, .list (.inl hs) fun v hv => by simpa [e, SubVal.children] using mem_encList hv⟩
  have horf : ∀ name (m : Option (NodeOrFalse SchemaNode)), p ∈ encOptOrFalse name m → getSub n k = .orFalse m →
      k.shape = .orFalse → p.1 = name ∧ SubText n k p.2 := by
    intro name m h e hs
    cases m with
    | none => simp [encOptOrFalse] at h
    | some x =>
      simp only [encOptOrFalse, List.mem_singleton] at h
      subst h
      refine ⟨rfl, ?_⟩
      obtain ⟨s, f⟩ := x
      cases f with
      | true => exact .atom (.inl hs) (by simp [encOrFalse]) (by simp [encOrFalse])
      | false =>
        cases s with
        | none => exact .atom (.inl hs) (by simp [encOrFalse, encNodeOrNull]) (by simp [encOrFalse, encNodeOrNull])
        | some y =>
          have e' : encOrFalse { schema := some y, isFalse := false } = encodeNode y := by simp [encOrFalse, encNodeOrNull]
          dsimp only
          rw [e']
          exact .node y (.inr (.inl hs)) (by rw [e]; simp [SubVal.children])
  cases k with
  | properties => exact hmap _ _ h rfl
  | patternProperties => exact hmap _ _ h rfl
  | defs => exact hmap _ _ h rfl
  | definitions => exact hmap _ _ h rfl
  | dependentSchemas =>
    unfold encSub at h
    dsimp only at h
    cases hm : encMap n.dependentSchemas with
    | nil => rw [hm] at h; simp at h
    | cons x t =>
      rw [hm] at h
      simp only [List.mem_singleton] at h
      subst h
      refine ⟨rfl, .map n.dependentSchemas rfl fun q hq => mem_encMap (by rw [hm]; exact hq)⟩
  | contains => exact hnode _ _ h rfl rfl
  | not => exact hnode _ _ h rfl rfl
  | ifK => exact hnode _ _ h rfl rfl
  | thenK => exact hnode _ _ h rfl rfl
  | elseK => exact hnode _ _ h rfl rfl
  | prefixItems => exact hnodes _ _ h rfl rfl
  | allOf => exact hnodes _ _ h rfl rfl
  | anyOf => exact hnodes _ _ h rfl rfl
  | oneOf => exact hnodes _ _ h rfl rfl
  | additionalProperties => exact horf _ _ h rfl rfl
  | additionalItems => exact horf _ _ h rfl rfl
  | unevaluatedItems => exact horf _ _ h rfl rfl
  | items =>
    unfold encSub at h
    dsimp only at h
    cases hi : n.items with
    | none => rw [hi] at h; simp [encOptItems] at h
    | some d =>
      rw [hi] at h
      simp only [encOptItems, List.mem_singleton] at h
      subst h
      refine ⟨rfl, ?_⟩
      obtain ⟨node, nodes, dis⟩ := d
      cases dis with
      | true => exact .atom (.inr rfl) (by simp [encItems]) (by simp [encItems])
      | false =>
        cases node with
        | some y =>
          have e : encItems { node := some y, nodes := nodes, disallow := false } = encodeNode y := by
            simp [encItems, encNodeOrNull]
          dsimp only
          rw [e]
          exact .node y (.inr (.inr rfl)) (by simp [getSub, hi, SubVal.children])
        | none =>
          cases nodes with
          | none => exact .atom (.inr rfl) (by simp [encItems, encNodesOrNull]) (by simp [encItems, encNodesOrNull])
          | some l =>
            have e : encItems { node := none, nodes := some l, disallow := false } = .arr (encList l) := by
              simp [encItems, encNodesOrNull]
            dsimp only
            rw [e]
            exact .list (.inr rfl) fun v hv => by simpa [getSub, hi, SubVal.children] using mem_encList hv

/-- What holds of an encoded keyword without schemas. -/
def PlainMember (c : PEnv) (K : Care) (p : String × JVal) : Prop :=
  MemberOk c K p.1 p.2 ∧ (K.calm → MemberCalm K p.1 p.2) ∧ schemasIn p.1 p.2 = [] ∧ (K.calm → Clean p.2)

/-- Keywords with conditions or schemas. -/
def specialNames : List String :=
  ["type", "pattern", "multipleOf", "uniqueItems", "enum", "const", "$ref", "$id", "not"] ++ SubKey.all.map SubKey.name

theorem schemasIn_nil {k : String} {v : JVal} (h : k ∉ SubKey.all.map SubKey.name) : schemasIn k v = [] := by
  have s1 : ∀ x ∈ ["properties", "patternProperties", "$defs", "definitions", "dependentSchemas"],
      x ∈ SubKey.all.map SubKey.name := by decide +kernel
  have s2 : ∀ x ∈ ["contains", "not", "if", "then", "else", "additionalProperties", "additionalItems", "unevaluatedItems"],
      x ∈ SubKey.all.map SubKey.name := by decide +kernel
  have s3 : ∀ x ∈ ["prefixItems", "allOf", "anyOf", "oneOf"], x ∈ SubKey.all.map SubKey.name := by decide +kernel
  have s4 : "items" ∈ SubKey.all.map SubKey.name := by decide +kernel
  unfold schemasIn
  rw [if_neg (fun e => h (s1 k e)), if_neg (fun e => h (s2 k e)), if_neg (fun e => h (s3 k e)),
    if_neg (fun e => h (by rw [e]; exact s4))]

theorem plainMember {k : String} {v : JVal} (h : k ∉ specialNames) (hv : Clean v) : PlainMember c K (k, v) := by
  have ne : ∀ x ∈ specialNames, k ≠ x := fun x hx e => h (e ▸ hx)
  refine ⟨⟨?_, ?_, ?_, ?_⟩, fun _ => ⟨?_, ?_, ?_, ?_, ?_, ?_⟩, schemasIn_nil fun hk => h ?_, fun _ => hv⟩
  · exact fun _ e => absurd e (ne _ (by decide))
  · exact fun e => absurd e (ne _ (by decide))
  · exact fun e => absurd e (ne _ (by decide))
  · exact fun e => absurd e (ne _ (by decide))
  · exact fun e => absurd e (ne _ (by decide))
  · exact fun e => absurd e (ne _ (by decide))
  · exact fun e => e.elim (fun e => absurd e (ne _ (by decide))) (fun e => absurd e (ne _ (by decide)))
  · exact fun e => e.elim (fun e => absurd e (ne _ (by decide))) (fun e => absurd e (ne _ (by decide)))
  · exact fun _ e => absurd e (ne _ (by decide))
  · exact fun _ e => absurd e (ne _ (by decide))
  · exact List.mem_append_right _ hk

theorem clean_strs (l : List String) : Clean (jStrs l) := by
  refine .arr fun v hv => ?_
  obtain ⟨x, _, rfl⟩ := List.mem_map.1 hv
  exact .atom (by simp) (by simp)

theorem clean_type (t : MultipleType) : Clean (encType t) ∧ encType t ≠ .arr [] := by
  unfold encType
  split
  · exact ⟨.atom (by simp) (by simp), by simp⟩
  · split
    · exact ⟨clean_strs _, by simp [jStrs]⟩
    · exact ⟨.atom (by simp) (by simp), by simp⟩

theorem mem_optMember {α : Type} {k : String} {f : α → JVal} {o : Option α} {p : String × JVal} (h : p ∈ member k f o) :
    ∃ a, o = some a ∧ p = (k, f a) := by
  cases o with
  | none => simp [member] at h
  | some a => simp only [member, List.mem_singleton] at h; exact ⟨a, rfl, h⟩

theorem plain_member {α : Type} {k : String} {f : α → JVal} {o : Option α} {p : String × JVal} (h : p ∈ member k f o)
    (hk : k ∉ specialNames) (hf : ∀ a, Clean (f a)) : PlainMember c K p := by
  obtain ⟨a, _, rfl⟩ := mem_optMember h
  exact plainMember hk (hf a)

theorem clean_int (i : Int) : Clean (jInt i) := .atom (by simp [jInt]) (by simp [jInt])

set_option maxHeartbeats 1000000 in
theorem encBase_plain {b : NodeBase} (hb : TameB c K b) {p : String × JVal} (h : p ∈ encBase b) : PlainMember c K p := by
  have hq : ∀ q : Rat, Clean (JVal.num q) := fun q => .atom (by simp) (by simp)
  have hs : ∀ q : String, Clean (JVal.str q) := fun q => .atom (by simp) (by simp)
  delta encBase at h
  simp only [List.mem_append] at h
  rcases h with (((((((((((((((((((((((h | h) | h) | h) | h) | h) | h) | h) | h) | h) | h) | h) | h) | h) | h) | h) | h) | h) | h) | h) | h) | h) | h) | h)
  · obtain ⟨a, ha, rfl⟩ := mem_optMember h
    refine ⟨⟨by simp, fun _ => (clean_type a).2, by simp, by simp⟩, fun _ => ⟨by simp, by simp, by simp, by simp, by simp, by simp⟩,
      schemasIn_nil (by dsimp only; decide +kernel), fun _ => (clean_type a).1⟩
  · exact plain_member h (by decide +kernel) clean_int
  · exact plain_member h (by decide +kernel) clean_int
  · exact plain_member h (by decide +kernel) clean_int
  · exact plain_member h (by decide +kernel) clean_strs
  · obtain ⟨a, ha, rfl⟩ := mem_optMember h
    refine ⟨⟨by simp, by simp, fun _ p e => ?_, by simp⟩, fun _ => ⟨by simp, by simp, by simp, by simp, by simp, by simp⟩,
      schemasIn_nil (by dsimp only; decide +kernel), fun _ => hs a⟩
    cases e
    exact hb.pattern _ ha
  · exact plain_member h (by decide +kernel) hs
  · exact plain_member h (by decide +kernel) clean_int
  · exact plain_member h (by decide +kernel) clean_int
  · exact plain_member h (by decide +kernel) hq
  · exact plain_member h (by decide +kernel) hq
  · exact plain_member h (by decide +kernel) hq
  · exact plain_member h (by decide +kernel) hq
  · obtain ⟨a, ha, rfl⟩ := mem_optMember h
    refine ⟨⟨fun e => ?_, by simp, by simp, by simp⟩, fun _ => ⟨by simp, by simp, by simp, by simp, by simp, by simp⟩,
      schemasIn_nil (by dsimp only; decide +kernel), fun _ => hq a⟩
    rw [hb.multiple e] at ha
    cases ha
  · exact plain_member h (by decide +kernel) clean_int
  · exact plain_member h (by decide +kernel) clean_int
  · exact plain_member h (by decide +kernel) clean_int
  · exact plain_member h (by decide +kernel) clean_int
  · obtain ⟨a, ha, rfl⟩ := mem_optMember h
    refine ⟨⟨by simp, by simp, by simp, by simp⟩, fun e1 => ⟨by simp, by simp, by simp, by simp, by simp, fun e2 => ?_⟩,
      schemasIn_nil (by dsimp only; decide +kernel), fun _ => .atom (by simp) (by simp)⟩
    rw [hb.unique e1 e2] at ha
    cases ha
  · obtain ⟨a, ha, rfl⟩ := mem_optMember h
    have ce : K.calm → Clean (.arr a) := fun e => .arr (hb.enum e a ha)
    exact ⟨⟨by simp, by simp, by simp, by simp⟩, fun e1 => ⟨by simp, by simp, fun _ => ce e1, by simp, by simp, by simp⟩,
      schemasIn_nil (by dsimp only; decide +kernel), ce⟩
  · obtain ⟨a, ha, rfl⟩ := mem_optMember h
    have ce : K.calm → Clean a := fun e => hb.const e a ha
    exact ⟨⟨by simp, by simp, by simp, by simp⟩, fun e1 => ⟨by simp, by simp, fun _ => ce e1, by simp, by simp, by simp⟩,
      schemasIn_nil (by dsimp only; decide +kernel), ce⟩
  · obtain ⟨a, ha, rfl⟩ := mem_optMember h
    refine ⟨⟨by simp, by simp, by simp, by simp⟩, fun e1 => ⟨fun _ r e => ?_, by simp, by simp, by simp, by simp, by simp⟩,
      schemasIn_nil (by dsimp only; decide +kernel), fun _ => hs a⟩
    cases e
    exact hb.ref e1 _ ha
  · obtain ⟨a, ha, rfl⟩ := mem_optMember h
    refine ⟨⟨by simp, by simp, by simp, by simp⟩, fun e1 => ?_,
      schemasIn_nil (by dsimp only; decide +kernel), fun _ => hs a⟩
    rw [hb.id e1] at ha
    cases ha
  · split at h
    · simp at h
    · simp only [List.mem_singleton] at h
      subst h
      refine plainMember (by decide +kernel) (.obj ?_ ?_ ?_)
      · intro p hp _ t
        obtain ⟨q, _, rfl⟩ := List.mem_map.1 hp
        simp [jStrs]
      · intro p hp _ t
        obtain ⟨q, _, rfl⟩ := List.mem_map.1 hp
        simp [jStrs]
      · intro p hp
        obtain ⟨q, _, rfl⟩ := List.mem_map.1 hp
        exact clean_strs _

theorem subText_ok {n : SchemaNode} (hk : Kids c K (Every c K) n)
    (ih : ∀ x, Inner n x → TameText c K (encodeNode x) ∧ (K.calm → Clean (encodeNode x))) {k : SubKey} {v : JVal}
    (h : SubText n k v) :
    MemberOk c K k.name v ∧ (K.calm → MemberCalm K k.name v) ∧ (∀ w ∈ schemasIn k.name v, TameText c K w) ∧
      (K.calm → Clean v) := by
  have names : ∀ l, getSub n k = .map (some l) → (k.name = "patternProperties" → ∀ q ∈ l, PatternOk c c.rxPattern q.1) ∧
      (K.calm → k.name = "$defs" ∨ k.name = "definitions" → ∀ q ∈ l, '\n' ∉ q.1.toList) := by
    intro l e
    cases k <;> simp only [getSub, SubVal.map.injEq, reduceCtorEq] at e <;> refine ⟨fun hn => ?_, fun hc hn => ?_⟩ <;>
      simp [SubKey.name] at hn
    · exact fun q hq => (hk.patternProperties l e q hq).1
    · exact fun q hq => (hk.defs l e q hq).1 hc
    · exact fun q hq => (hk.definitions l e q hq).1 hc
  have nonName : ∀ x : String, x ∈ ["type", "pattern", "multipleOf", "uniqueItems", "enum", "const", "$ref", "$id"] → k.name ≠ x := by
    intro x hx e
    subst e
    cases k <;> simp [SubKey.name] at hx
  rw [schemasIn_name]
  have ok0 : (∀ m, v = .obj m → k.name = "patternProperties" → ∀ p ∈ m, PatternOk c c.rxPattern p.1) → MemberOk c K k.name v :=
    fun h => ⟨fun _ e => absurd e (nonName _ (by simp)), fun e => absurd e (nonName _ (by simp)),
      fun e => absurd e (nonName _ (by simp)), fun e m e' => h m e' e⟩
  have calm0 : K.calm → (∀ m, v = .obj m → k.name = "$defs" ∨ k.name = "definitions" → ∀ p ∈ m, '\n' ∉ p.1.toList) →
      (K.noNegations → k.name = "not" → ∀ m, v ≠ .obj m) → MemberCalm K k.name v :=
    fun _ h1 h2 => ⟨fun e => absurd e (nonName _ (by simp)), fun e => absurd e (nonName _ (by simp)),
      fun e => e.elim (fun e => absurd e (nonName _ (by simp))) (fun e => absurd e (nonName _ (by simp))), fun e m e' => h1 m e' e,
      h2, fun _ e => absurd e (nonName _ (by simp))⟩
  cases h with
  | map l e hm =>
    rename_i m
    have hs : k.shape = .map := by cases k <;> simp [getSub] at e <;> rfl
    have kid : ∀ p ∈ m, ∃ q ∈ l, p = (q.1, encodeNode q.2) ∧ Inner n q.2 := by
      intro p hp
      obtain ⟨q, hq, rfl⟩ := hm p hp
      exact ⟨q, hq, rfl, inner_sub k (by rw [e]; exact List.mem_map.2 ⟨q, hq, rfl⟩)⟩
    refine ⟨ok0 ?_, fun hc => calm0 hc ?_ ?_, ?_, fun hc => .obj ?_ ?_ ?_⟩
    · rintro m' e' hn p hp
      cases e'
      obtain ⟨q, hq, rfl, _⟩ := kid p hp
      exact (names l e).1 hn q hq
    · rintro m' e' hn p hp
      cases e'
      obtain ⟨q, hq, rfl, _⟩ := kid p hp
      exact (names l e).2 hc hn q hq
    · intro _ hn
      cases k <;> simp [SubKey.name] at hn
      simp [SubKey.shape] at hs
    · rw [hs]
      intro w hw
      obtain ⟨p, hp, rfl⟩ := List.mem_map.1 hw
      obtain ⟨q, hq, rfl, hi⟩ := kid p hp
      exact (ih _ hi).1
    · intro p hp _ t e
      obtain ⟨q, hq, rfl, hi⟩ := kid p hp
      obtain ⟨m', hm'⟩ := encodeNode_obj q.2
      rw [hm'] at e
      cases e
    · intro p hp _ t e
      obtain ⟨q, hq, rfl, hi⟩ := kid p hp
      obtain ⟨m', hm'⟩ := encodeNode_obj q.2
      rw [hm'] at e
      cases e
    · intro p hp
      obtain ⟨q, hq, rfl, hi⟩ := kid p hp
      exact (ih _ hi).2 hc
  | list hs hm =>
    rename_i m
    have kid : ∀ w ∈ m, TameText c K w ∧ (K.calm → Clean w) := by
      intro w hw
      obtain ⟨q, hq, rfl⟩ := hm w hw
      exact ih q (inner_sub k hq)
    refine ⟨ok0 (fun _ e => by cases e), fun hc => calm0 hc (fun _ e => by cases e) (fun _ _ m e => by cases e), ?_,
      fun hc => .arr fun w hw => (kid w hw).2 hc⟩
    intro w hw
    rcases hs with hs | hs <;> rw [hs] at hw <;> exact (kid w hw).1
  | node x hs hx =>
    obtain ⟨i1, i2⟩ := ih x (inner_sub k hx)
    have nmap : k.shape ≠ .map := by rcases hs with hs | hs | hs <;> rw [hs] <;> simp
    refine ⟨ok0 ?_, fun hc => calm0 hc ?_ ?_, ?_, i2⟩
    · intro m e hn
      cases k <;> simp [SubKey.name] at hn
      exact absurd rfl nmap
    · intro m e hn
      cases k <;> simp [SubKey.name] at hn <;> exact absurd rfl nmap
    · intro hneg hn
      cases k <;> simp [SubKey.name] at hn
      exact absurd ⟨hc, hneg⟩ (hk.not x (by simpa [getSub, SubVal.children] using hx)).1
    · intro w hw
      obtain ⟨m, hm⟩ := encodeNode_obj x
      rw [hm] at hw i1
      rcases hs with hs | hs | hs <;> rw [hs] at hw <;> simp only [schemasOf, List.mem_singleton] at hw <;> subst hw <;> exact i1
  | atom hs h1 h2 =>
    refine ⟨ok0 (fun m e => absurd e (h1 m)), fun hc => calm0 hc (fun m e => absurd e (h1 m)) (fun _ _ m => h1 m), ?_,
      fun _ => .atom h1 h2⟩
    intro w hw
    have : w = v := by
      rcases hs with hs | hs <;> rw [hs] at hw <;> cases v <;> simp [schemasOf] at hw <;> first | exact hw | exact absurd rfl (h2 _)
    subst this
    exact .other h1

/-- The text of a tame node is tame, and clean. -/
theorem encode_tame {n : SchemaNode} (h : Every c K n) : TameText c K (encodeNode n) ∧ (K.calm → Clean (encodeNode n)) := by
  induction h with
  | @mk n ht hn hi ih =>
    have hk : Kids c K (Every c K) n := kids_of_inner hn hi
    obtain ⟨m, hm, hp⟩ := encodeNode_members n
    rw [hm]
    have all : ∀ p ∈ m, MemberOk c K p.1 p.2 ∧ (K.calm → MemberCalm K p.1 p.2) ∧ (∀ w ∈ schemasIn p.1 p.2, TameText c K w) ∧
        (K.calm → Clean p.2) := by
      intro p h
      rcases hp p h with h | ⟨k, h⟩
      · obtain ⟨a, b, d, e⟩ := encBase_plain ht h
        exact ⟨a, b, by rw [d]; simp, e⟩
      · obtain ⟨e, h⟩ := encSub_text h
        rw [e]
        exact subText_ok hk ih h
    refine ⟨.obj (fun p h => (all p h).1) (fun p h => (all p h).2.1) (fun p h => (all p h).2.2.1), fun hc => .obj ?_ ?_ ?_⟩
    · exact fun p h e => ((all p h).2.1 hc).id e
    · exact fun p h e => ((all p h).2.1 hc).ref e
    · exact fun p h => (all p h).2.2.2 hc

/-! ## Rewriting, as a relation -/

/-- How a value and its rewritten form are related. -/
def TameDecodes (c : PEnv) (K : Care) (v v' : JVal) : Prop :=
  (TameText c K v → TameText c K v') ∧ (K.calm → Clean v → Clean v') ∧
  ((∃ m m', v = .obj m ∧ v' = .obj m' ∧ ∀ q ∈ m', ∃ p ∈ m, p.1 = q.1 ∧ (TameText c K p.2 → TameText c K q.2)) ∨
   (∃ l l', v = .arr l ∧ v' = .arr l' ∧ (l' = [] → l = []) ∧ ∀ w' ∈ l', ∃ w ∈ l, TameText c K w → TameText c K w') ∨ v = v')

/-- How a member and its rewritten form are related. -/
def GoodM (c : PEnv) (K : Care) (p q : String × JVal) : Prop :=
  p.1 = q.1 ∧ (TameDecodes c K p.2 q.2 ∨ (p.1 = "$ref" ∧ (∃ r, p.2 = .str r) ∧ ∃ r', q.2 = .str r' ∧ (K.calm → RefOk r')))

theorem good_refl (v : JVal) : TameDecodes c K v v := ⟨id, fun _ => id, .inr (.inr rfl)⟩

theorem goodM_refl (p : String × JVal) : GoodM c K p p := ⟨rfl, .inl (good_refl _)⟩

theorem GoodM.ok {p q : String × JVal} (h : GoodM c K p q) (hp : MemberOk c K p.1 p.2) : MemberOk c K q.1 q.2 := by
  obtain ⟨pk, pv⟩ := p
  obtain ⟨qk, qv⟩ := q
  obtain ⟨rfl, h | ⟨rfl, _, r, rfl, _⟩⟩ := h
  · obtain ⟨_, _, h⟩ := h
    dsimp only at h hp ⊢
    rcases h with ⟨m, m', rfl, rfl, h⟩ | ⟨l, l', rfl, rfl, h0, h⟩ | rfl
    · refine ⟨fun _ _ => by simp, fun _ => by simp, fun _ => by simp, fun e m e' q hq => ?_⟩
      cases e'
      obtain ⟨p, hp', e', _⟩ := h q hq
      rw [← e']
      exact hp.names e _ rfl p hp'
    · refine ⟨fun _ _ => by simp, fun e e' => ?_, fun _ => by simp, fun e m e' => by simp at e'⟩
      cases e'
      exact hp.types e (by rw [h0 rfl])
    · exact hp
  · exact ⟨by simp, by simp, by simp, by simp⟩

theorem GoodM.calm {p q : String × JVal} (h : GoodM c K p q) (hc : K.calm) (hp : MemberCalm K p.1 p.2) :
    MemberCalm K q.1 q.2 := by
  obtain ⟨pk, pv⟩ := p
  obtain ⟨qk, qv⟩ := q
  obtain ⟨rfl, h | ⟨rfl, _, r, rfl, hr⟩⟩ := h
  · obtain ⟨_, h2, h⟩ := h
    dsimp only at h hp h2 ⊢
    have hv := fun e => h2 hc (hp.values e)
    rcases h with ⟨m, m', rfl, rfl, h⟩ | ⟨l, l', rfl, rfl, h0, h⟩ | rfl
    · refine ⟨fun _ => by simp, fun _ => by simp, hv, fun e m e' q hq => ?_, fun h1 e => absurd rfl (hp.negations h1 e _), fun _ _ => by simp⟩
      cases e'
      obtain ⟨p, hp', e', _⟩ := h q hq
      rw [← e']
      exact hp.defs e _ rfl p hp'
    · exact ⟨fun _ => by simp, fun _ => by simp, hv, fun e m e' => by simp at e', fun _ _ => by simp, fun _ _ => by simp⟩
    · exact hp
  · refine ⟨fun _ r' e => ?_, by simp, by simp, by simp, by simp, by simp⟩
    cases e
    exact hr hc

theorem schemasIn_good {k : String} {v v' : JVal} (h : TameDecodes c K v v') (ht : ∀ w ∈ schemasIn k v, TameText c K w) :
    ∀ w ∈ schemasIn k v', TameText c K w := by
  obtain ⟨h1, _, h⟩ := h
  rcases h with ⟨m, m', rfl, rfl, h⟩ | ⟨l, l', rfl, rfl, h0, h⟩ | rfl
  · unfold schemasIn at ht ⊢
    dsimp only at ht ⊢
    split
    · rename_i e
      rw [if_pos e] at ht
      intro w hw
      obtain ⟨q, hq, rfl⟩ := List.mem_map.1 hw
      obtain ⟨p, hp, _, hpq⟩ := h q hq
      exact hpq (ht _ (List.mem_map.2 ⟨p, hp, rfl⟩))
    · rename_i e
      rw [if_neg e] at ht
      split
      · rename_i e
        rw [if_pos e] at ht
        simpa using h1 (ht _ (by simp))
      · rename_i e
        rw [if_neg e] at ht
        split
        · simp
        · rename_i e
          rw [if_neg e] at ht
          split
          · rename_i e
            rw [if_pos e] at ht
            simpa using h1 (ht _ (by simp))
          · simp
  · have hl : (∀ w ∈ l, TameText c K w) → ∀ w ∈ l', TameText c K w := by
      intro ht w hw
      obtain ⟨p, hp, hpq⟩ := h w hw
      exact hpq (ht p hp)
    unfold schemasIn at ht ⊢
    dsimp only at ht ⊢
    split
    · simp
    · rename_i e
      rw [if_neg e] at ht
      split
      · rename_i e
        rw [if_pos e] at ht
        simpa using h1 (ht _ (by simp))
      · rename_i e
        rw [if_neg e] at ht
        split
        · rename_i e
          rw [if_pos e] at ht
          exact hl ht
        · rename_i e
          rw [if_neg e] at ht
          split
          · rename_i e
            rw [if_pos e] at ht
            exact hl ht
          · simp
  · exact ht

theorem good_obj {m m' : List (String × JVal)} (h : ∀ q ∈ m', ∃ p ∈ m, GoodM c K p q) : TameDecodes c K (.obj m) (.obj m') := by
  refine ⟨fun ht => ?_, fun hc hv => ?_, .inl ⟨m, m', rfl, rfl, fun q hq => ?_⟩⟩
  · cases ht with
    | other h => exact absurd rfl (h _)
    | obj h1 h2 h3 =>
      refine .obj (fun q hq => ?_) (fun q hq hc => ?_) (fun q hq => ?_)
      · obtain ⟨p, hp, hg⟩ := h q hq
        exact hg.ok (h1 p hp)
      · obtain ⟨p, hp, hg⟩ := h q hq
        exact hg.calm hc (h2 p hp hc)
      · obtain ⟨⟨k, v⟩, hp, e, hg | ⟨rfl, _, r, hr, _⟩⟩ := h q hq
        · rw [← e]
          exact schemasIn_good hg (h3 _ hp)
        · rw [← e]
          exact fun w hw => by
            rw [schemasIn_nil (show "$ref" ∉ SubKey.all.map SubKey.name by decide +kernel)] at hw; simp at hw
  · cases hv with
    | atom h => exact absurd rfl (h _)
    | obj h1 h2 h3 =>
      refine .obj (fun q hq e t et => ?_) (fun q hq e t et => ?_) (fun q hq => ?_)
      · obtain ⟨p, hp, e', hg | ⟨e2, _⟩⟩ := h q hq
        · obtain ⟨_, _, ⟨a, b, x, y, _⟩ | ⟨a, b, x, y, _⟩ | z⟩ := hg
          · rw [y] at et; cases et
          · rw [y] at et; cases et
          · rw [← z] at et
            exact h1 p hp (e'.trans e) t et
        · rw [e', e] at e2
          revert e2; decide
      · obtain ⟨p, hp, e', hg | ⟨e2, _, r, hr, hr'⟩⟩ := h q hq
        · obtain ⟨_, _, ⟨a, b, x, y, _⟩ | ⟨a, b, x, y, _⟩ | z⟩ := hg
          · rw [y] at et; cases et
          · rw [y] at et; cases et
          · rw [← z] at et
            exact h2 p hp (e'.trans e) t et
        · rw [hr] at et
          cases et
          exact hr' hc
      · obtain ⟨p, hp, e', hg | ⟨e2, _, r, hr, _⟩⟩ := h q hq
        · exact hg.2.1 hc (h3 p hp)
        · rw [hr]
          exact .atom (by simp) (by simp)
  · obtain ⟨p, hp, e', hg | ⟨e2, _, r, hr, _⟩⟩ := h q hq
    · exact ⟨p, hp, e', hg.1⟩
    · exact ⟨p, hp, e', fun _ => by rw [hr]; exact .other (by simp)⟩

theorem good_arr {l l' : List JVal} (h0 : l' = [] → l = []) (h : ∀ q ∈ l', ∃ p ∈ l, TameDecodes c K p q) :
    TameDecodes c K (.arr l) (.arr l') := by
  refine ⟨fun _ => .other (by simp), fun hc hv => ?_, .inr (.inl ⟨l, l', rfl, rfl, h0, fun q hq => ?_⟩)⟩
  · cases hv with
    | atom _ h => exact absurd rfl (h _)
    | arr h1 =>
      refine .arr fun q hq => ?_
      obtain ⟨p, hp, hg⟩ := h q hq
      exact hg.2.1 hc (h1 p hp)
  · obtain ⟨p, hp, hg⟩ := h q hq
    exact ⟨p, hp, hg.1⟩

end
end Chaff
