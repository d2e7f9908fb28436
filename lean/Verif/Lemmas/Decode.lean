import Verif.Lemmas.Schema
import Verif.Lemmas.Json
import Verif.Model.SchemaJson
/-!
# What a decoded schema looks like

The decoder fills in only the keywords: the fields that merging uses for its own purposes stay empty, in the schema and in
all the schemas inside it; its values are well formed and its maps have distinct names if the text's have.
-/

namespace Chaff

/-- The fields of one decoded node. -/
structure FreshFields (n : SchemaNode) : Prop where
  mergedIf : n.mergedIf = []
  mergedNot : n.mergedNot = []
  constraints : n.constraints = none
  enum : ∀ l, n.enum = some l → ∀ v ∈ l, v.WF
  const : ∀ v, n.const = some v → v.WF
  properties : ∀ l, n.properties = some l → (keysKV l).Nodup
  patternProperties : ∀ l, n.patternProperties = some l → (keysKV l).Nodup
  defs : ∀ l, n.defs = some l → (keysKV l).Nodup
  definitions : ∀ l, n.definitions = some l → (keysKV l).Nodup

/-- A decoded node and everything inside it. -/
inductive Fresh : SchemaNode → Prop
  | mk {n : SchemaNode} : FreshFields n → (∀ x ∈ n.children, Fresh x) → Fresh n

theorem Fresh.fields {n : SchemaNode} (h : Fresh n) : FreshFields n := by cases h; assumption
theorem Fresh.child {n x : SchemaNode} (h : Fresh n) (hx : x ∈ n.children) : Fresh x := by cases h with | mk a b => exact b x hx

theorem freshFields_empty : FreshFields emptyNode := by
  constructor <;> simp [emptyNode]

theorem fresh_empty : Fresh emptyNode := by
  refine .mk freshFields_empty fun x hx => ?_
  have e : emptyNode.children = [] := rfl
  rw [e] at hx; cases hx

/-- The schemas inside a decoded keyword value. -/
def SubVal.children : SubVal → List SchemaNode
  | .map m => (m.getD []).map Prod.snd
  | .node n => n.toList
  | .nodes l => l.getD []
  | .orFalse x => (x.bind NodeOrFalse.schema).toList
  | .items x => (x.bind ItemsData.node).toList ++ ((x.bind ItemsData.nodes).getD [])

/-- The names of a decoded map are distinct. -/
def SubVal.Distinct : SubVal → Prop
  | .map m => ∀ l, m = some l → (keysKV l).Nodup
  | _ => True

/-- The value of a keyword that holds schemas. -/
def getSub (n : SchemaNode) : SubKey → SubVal
  | .properties => .map n.properties | .patternProperties => .map n.patternProperties | .defs => .map n.defs
  | .definitions => .map n.definitions | .dependentSchemas => .map (some n.dependentSchemas)
  | .contains => .node n.contains | .not => .node n.not | .ifK => .node n.ifN | .thenK => .node n.thenN
  | .elseK => .node n.elseN
  | .prefixItems => .nodes n.prefixItems | .allOf => .nodes n.allOf | .anyOf => .nodes n.anyOf | .oneOf => .nodes n.oneOf
  | .additionalProperties => .orFalse n.additionalProperties | .additionalItems => .orFalse n.additionalItems
  | .unevaluatedItems => .orFalse n.unevaluatedItems | .items => .items n.items

theorem mem_children_getSub {n x : SchemaNode} : x ∈ n.children ↔ ∃ k, x ∈ (getSub n k).children := by
  unfold SchemaNode.children
  simp only [List.mem_append]
  constructor
  · rintro ((((((((((((((((((h | h) | h) | h) | h) | h) | h) | h) | h) | h) | h) | h) | h) | h) | h) | h) | h) | h) | h)
    · exact ⟨.properties, h⟩
    · exact ⟨.patternProperties, h⟩
    · exact ⟨.defs, h⟩
    · exact ⟨.definitions, h⟩
    · exact ⟨.dependentSchemas, h⟩
    · exact ⟨.contains, h⟩
    · exact ⟨.not, h⟩
    · exact ⟨.ifK, h⟩
    · exact ⟨.thenK, h⟩
    · exact ⟨.elseK, h⟩
    · exact ⟨.prefixItems, h⟩
    · exact ⟨.allOf, h⟩
    · exact ⟨.anyOf, h⟩
    · exact ⟨.oneOf, h⟩
    · exact ⟨.additionalProperties, h⟩
    · exact ⟨.additionalItems, h⟩
    · exact ⟨.unevaluatedItems, h⟩
    · exact ⟨.items, List.mem_append_left _ h⟩
    · exact ⟨.items, List.mem_append_right _ h⟩
  · rintro ⟨k, h⟩
    cases k with
    | items =>
      unfold getSub SubVal.children at h
      dsimp only at h
      rcases List.mem_append.1 h with h | h
      · exact .inl (.inr h)
      · exact .inr h
    | unevaluatedItems => exact .inl (.inl (.inr h))
    | _ =>
      simp only [getSub, SubVal.children, Option.getD_some] at h
      simp only [h, true_or, or_true]

theorem getSub_setSub (n : SchemaNode) (k : SubKey) (v : SubVal) (x : SchemaNode) (k' : SubKey)
    (h : x ∈ (getSub (setSub n k v) k').children) : x ∈ (getSub n k').children ∨ x ∈ v.children := by
  cases k <;> cases v <;> first
    | exact .inl h
    | (cases k' <;> first
        | exact .inl h
        | exact .inr h)

theorem setSub_children (n : SchemaNode) (k : SubKey) (v : SubVal) (x : SchemaNode) (h : x ∈ (setSub n k v).children) :
    x ∈ n.children ∨ x ∈ v.children := by
  obtain ⟨k', h⟩ := mem_children_getSub.1 h
  exact (getSub_setSub n k v x k' h).imp (fun h => mem_children_getSub.2 ⟨k', h⟩) id

theorem setSub_fields (n : SchemaNode) (k : SubKey) (v : SubVal) (h : FreshFields n) (hv : v.Distinct) :
    FreshFields (setSub n k v) := by
  cases k <;> cases v <;> first
    | exact h
    | exact ⟨h.1, h.2, h.3, h.4, h.5, h.6, h.7, h.8, h.9⟩
    | exact ⟨h.1, h.2, h.3, h.4, h.5, hv, h.7, h.8, h.9⟩
    | exact ⟨h.1, h.2, h.3, h.4, h.5, h.6, hv, h.8, h.9⟩
    | exact ⟨h.1, h.2, h.3, h.4, h.5, h.6, h.7, hv, h.9⟩
    | exact ⟨h.1, h.2, h.3, h.4, h.5, h.6, h.7, h.8, hv⟩

theorem decValues_wf {v : JVal} {x : Option (List JVal)} (h : decValues v = some x) (hv : v.WF) :
    ∀ l, x = some l → ∀ w ∈ l, w.WF := by
  rintro l rfl w hw
  unfold decValues at h
  split at h <;> simp at h
  subst h
  exact hv.arr_inv w hw

theorem ite_or {α : Type} {p : Prop} [Decidable p] {a b r : α} (h : (if p then a else b) = r) : a = r ∨ b = r := by
  by_cases e : p
  · rw [if_pos e] at h; exact .inl h
  · rw [if_neg e] at h; exact .inr h

theorem decBaseField_values {b b' : NodeBase} {k : String} {v : JVal} (h : decBaseField b k v = some b') (hv : v.WF)
    (he : ∀ l, b.enum = some l → ∀ w ∈ l, w.WF) (hc : ∀ w, b.const = some w → w.WF) :
    (∀ l, b'.enum = some l → ∀ w ∈ l, w.WF) ∧ (∀ w, b'.const = some w → w.WF) := by
  have key : ∀ (α : Type) (d : Option α) (f : α → NodeBase), (do let x ← d; pure (f x) : Option NodeBase) = some b' →
      (∀ x, (f x).enum = b.enum ∧ (f x).const = b.const) →
      (∀ l, b'.enum = some l → ∀ w ∈ l, w.WF) ∧ (∀ w, b'.const = some w → w.WF) := by
    intro α d f h hf
    cases d with
    | none => simp at h
    | some x =>
      have e : f x = b' := Option.some.inj h
      subst e
      rw [(hf x).1, (hf x).2]
      exact ⟨he, hc⟩
  unfold decBaseField at h
  iterate 19 (rcases ite_or h with h | h; · exact key _ _ _ h (fun _ => ⟨rfl, rfl⟩))
  rcases ite_or h with h | h
  · cases hd : decValues v with
    | none => rw [hd] at h; cases h
    | some x =>
      rw [hd] at h
      have e := Option.some.inj h
      subst e
      exact ⟨decValues_wf hd hv, hc⟩
  rcases ite_or h with h | h
  · have e := Option.some.inj h
    subst e
    exact ⟨he, fun w hw => by cases Option.some.inj hw; exact hv⟩
  iterate 3 (rcases ite_or h with h | h; · exact key _ _ _ h (fun _ => ⟨rfl, rfl⟩))
  have e := Option.some.inj h
  subst e
  exact ⟨he, hc⟩

/-- What is proved of every value, by induction on its size. -/
def DecodesFresh (v : JVal) : Prop :=
  v.WF → (∀ n, decodeNode v = some n → Fresh n) ∧
    ∀ sh x, decodeSub sh v = some x → x.Distinct ∧ ∀ y ∈ x.children, Fresh y

theorem decodeField_fresh {k : String} {v : JVal} {n n' : SchemaNode} (hv : v.WF) (ih : DecodesFresh v) (hn : Fresh n)
    (h : decodeField (k, v) n = some n') : Fresh n' := by
  unfold decodeField at h
  cases hk : SubKey.ofName k with
  | some sk =>
    rw [hk] at h
    dsimp only at h
    cases hd : decodeSub sk.shape v with
    | none => rw [hd] at h; simp at h
    | some x =>
      rw [hd] at h; simp at h; subst h
      obtain ⟨d1, d2⟩ := (ih hv).2 _ _ hd
      refine .mk (setSub_fields _ _ _ hn.fields d1) fun y hy => ?_
      rcases setSub_children _ _ _ _ hy with hy | hy
      · exact hn.child hy
      · exact d2 y hy
  | none =>
    rw [hk] at h
    dsimp only at h
    cases hd : decBaseField n.toNodeBase k v with
    | none => rw [hd] at h; simp at h
    | some b =>
      rw [hd] at h; simp at h; subst h
      obtain ⟨a1, a2⟩ := decBaseField_values hd hv hn.fields.enum hn.fields.const
      refine .mk ?_ fun y hy => hn.child hy
      have f := hn.fields
      exact ⟨f.1, f.2, f.3, a1, a2, f.6, f.7, f.8, f.9⟩

theorem decodeFields_fresh : ∀ (m : List (String × JVal)) (n n' : SchemaNode), (∀ p ∈ m, p.2.WF) →
    (∀ p ∈ m, DecodesFresh p.2) → Fresh n → decodeFields m n = some n' → Fresh n' := by
  intro m
  induction m with
  | nil => intro n n' _ _ hn h; unfold decodeFields at h; simp at h; subst h; exact hn
  | cons p t ih =>
    intro n n' hw hd hn h
    unfold decodeFields at h
    cases h1 : decodeField p n with
    | none => rw [h1] at h; simp at h
    | some x =>
      rw [h1] at h
      obtain ⟨k, v⟩ := p
      exact ih x n' (fun q hq => hw q (by simp [hq])) (fun q hq => hd q (by simp [hq]))
        (decodeField_fresh (hw (k, v) (by simp)) (hd (k, v) (by simp)) hn h1) h

theorem decodeMap_fresh : ∀ (m : List (String × JVal)) (l : List (String × SchemaNode)), (∀ p ∈ m, p.2.WF) →
    (∀ p ∈ m, DecodesFresh p.2) → decodeMap m = some l → keysKV l = keysKV m ∧ ∀ y ∈ l.map Prod.snd, Fresh y := by
  intro m
  induction m with
  | nil => intro l _ _ h; unfold decodeMap at h; simp at h; subst h; exact ⟨rfl, by simp⟩
  | cons p t ih =>
    intro l hw hd h
    obtain ⟨k, v⟩ := p
    unfold decodeMap decodePair at h
    cases h1 : decodeNode v with
    | none => rw [h1] at h; simp at h
    | some x =>
      rw [h1] at h
      cases h2 : decodeMap t with
      | none => rw [h2] at h; simp at h
      | some r =>
        rw [h2] at h
        simp at h
        subst h
        obtain ⟨a, b⟩ := ih r (fun q hq => hw q (by simp [hq])) (fun q hq => hd q (by simp [hq])) h2
        refine ⟨by simp only [keysKV, List.map_cons]; simp only [keysKV] at a; rw [a], ?_⟩
        intro y hy
        rw [List.map_cons, List.mem_cons] at hy
        rcases hy with rfl | hy
        · exact (hd (k, v) (by simp) (hw (k, v) (by simp))).1 _ h1
        · exact b y hy

theorem decodeList_fresh : ∀ (m : List JVal) (l : List SchemaNode), (∀ p ∈ m, p.WF) →
    (∀ p ∈ m, DecodesFresh p) → decodeList m = some l → ∀ y ∈ l, Fresh y := by
  intro m
  induction m with
  | nil => intro l _ _ h; unfold decodeList at h; simp at h; subst h; simp
  | cons v t ih =>
    intro l hw hd h
    unfold decodeList at h
    cases h1 : decodeNode v with
    | none => rw [h1] at h; simp at h
    | some x =>
      rw [h1] at h
      cases h2 : decodeList t with
      | none => rw [h2] at h; simp at h
      | some r =>
        rw [h2] at h
        simp at h
        subst h
        have b := ih r (fun q hq => hw q (by simp [hq])) (fun q hq => hd q (by simp [hq])) h2
        intro y hy
        rcases List.mem_cons.1 hy with rfl | hy
        · exact (hd v (by simp) (hw v (by simp))).1 _ h1
        · exact b y hy

theorem decodesFresh_atom {v : JVal} (ho : ∀ m, v ≠ .obj m) (ha : ∀ l, v ≠ .arr l) : DecodesFresh v := by
  intro _
  cases v with
  | obj m => exact absurd rfl (ho m)
  | arr l => exact absurd rfl (ha l)
  | null =>
    refine ⟨fun n h => ?_, fun sh x h => ?_⟩
    · unfold decodeNode at h; simp at h; subst h; exact fresh_empty
    · cases sh <;> unfold decodeSub at h <;> simp at h <;> subst h <;> simp [SubVal.Distinct, SubVal.children]
  | bool b =>
    refine ⟨fun n h => ?_, fun sh x h => ?_⟩
    · unfold decodeNode at h; simp at h
    · cases sh <;> cases b <;> unfold decodeSub at h <;> simp at h <;> subst h <;> simp [SubVal.Distinct, SubVal.children]
  | num q =>
    refine ⟨fun n h => ?_, fun sh x h => ?_⟩
    · unfold decodeNode at h; simp at h
    · cases sh <;> unfold decodeSub at h <;> simp at h
  | str q =>
    refine ⟨fun n h => ?_, fun sh x h => ?_⟩
    · unfold decodeNode at h; simp at h
    · cases sh <;> unfold decodeSub at h <;> simp at h

theorem decodes_fresh : ∀ (k : Nat) (v : JVal), sizeOf v ≤ k → DecodesFresh v := by
  intro k
  induction k with
  | zero => intro v hv; cases v <;> simp at hv
  | succ k ih =>
    intro v hk
    cases v with
    | null => exact decodesFresh_atom (by simp) (by simp)
    | bool b => exact decodesFresh_atom (by simp) (by simp)
    | num b => exact decodesFresh_atom (by simp) (by simp)
    | str b => exact decodesFresh_atom (by simp) (by simp)
    | arr l =>
      intro hw
      have hs : ∀ p ∈ l, DecodesFresh p := fun p hp => ih p (by
        have := List.sizeOf_lt_of_mem hp
        simp only [JVal.arr.sizeOf_spec] at hk; omega)
      refine ⟨fun n h => ?_, fun sh x h => ?_⟩
      · unfold decodeNode at h; simp at h
      · cases sh <;> unfold decodeSub at h <;> simp at h
        · obtain ⟨r, h1, rfl⟩ := h
          exact ⟨trivial, decodeList_fresh l r hw.arr_inv hs h1⟩
        · obtain ⟨r, h1, rfl⟩ := h
          refine ⟨trivial, fun y hy => ?_⟩
          simp only [SubVal.children, Option.bind_some, Option.toList_some, Option.getD_some, List.mem_append,
            List.mem_singleton] at hy
          rcases hy with rfl | hy
          · exact fresh_empty
          · exact decodeList_fresh l r hw.arr_inv hs h1 y hy
    | obj m =>
      intro hw
      have hs : ∀ p ∈ m, DecodesFresh p.2 := fun p hp => ih p.2 (by
        have h1 := List.sizeOf_lt_of_mem hp
        have h2 : sizeOf p.2 < sizeOf p := by cases p; simp only [Prod.mk.sizeOf_spec]; omega
        simp only [JVal.obj.sizeOf_spec] at hk; omega)
      have hf : ∀ n, decodeFields m emptyNode = some n → Fresh n := fun n h =>
        decodeFields_fresh m emptyNode n hw.obj_inv hs fresh_empty h
      refine ⟨fun n h => ?_, fun sh x h => ?_⟩
      · unfold decodeNode at h; exact hf n h
      · cases sh <;> unfold decodeSub at h <;> simp at h
        · obtain ⟨r, h1, rfl⟩ := h
          obtain ⟨a, b⟩ := decodeMap_fresh m r hw.obj_inv hs h1
          refine ⟨?_, b⟩
          rintro l hl
          cases hl
          rw [a]; exact hw.obj_keys
        · obtain ⟨r, h1, rfl⟩ := h
          refine ⟨trivial, fun y hy => ?_⟩
          simp only [SubVal.children, Option.toList_some, List.mem_singleton] at hy
          subst hy; exact hf _ h1
        · obtain ⟨r, h1, rfl⟩ := h
          refine ⟨trivial, fun y hy => ?_⟩
          simp only [SubVal.children, Option.bind_some, Option.toList_some, List.mem_singleton] at hy
          subst hy; exact hf _ h1
        · obtain ⟨r, h1, rfl⟩ := h
          refine ⟨trivial, fun y hy => ?_⟩
          simp only [SubVal.children, Option.bind_some, Option.toList_some, Option.getD_some, List.append_nil,
            List.mem_singleton] at hy
          subst hy; exact hf _ h1

/-- A schema decoded from well-formed JSON. -/
theorem decode_fresh {schema : JVal} {root : SchemaNode} (hw : schema.WF) (h : decodeNode schema = some root) : Fresh root :=
  (decodes_fresh _ schema (Nat.le_refl _) hw).1 root h

end Chaff
