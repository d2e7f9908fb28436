import Verif.Model.SchemaJson
/-!
# Induction over schemas and computation rules of the decoder
-/

namespace Chaff

/-- The sub-schemas of a decoded schema (those that the encoder prints). -/
def SchemaNode.children (n : SchemaNode) : List SchemaNode :=
  (n.properties.getD []).map Prod.snd ++ (n.patternProperties.getD []).map Prod.snd ++
  (n.defs.getD []).map Prod.snd ++ (n.definitions.getD []).map Prod.snd ++ n.dependentSchemas.map Prod.snd ++
  n.contains.toList ++ n.not.toList ++ n.ifN.toList ++ n.thenN.toList ++ n.elseN.toList ++
  n.prefixItems.getD [] ++ n.allOf.getD [] ++ n.anyOf.getD [] ++ n.oneOf.getD [] ++
  (n.additionalProperties.bind NodeOrFalse.schema).toList ++ (n.additionalItems.bind NodeOrFalse.schema).toList ++
  (n.unevaluatedItems.bind NodeOrFalse.schema).toList ++
  (n.items.bind ItemsData.node).toList ++ ((n.items.bind ItemsData.nodes).getD [])

theorem sizeOf_lt_of_mem_map {m : List (String × SchemaNode)} {c : SchemaNode} (h : c ∈ m.map Prod.snd) :
    sizeOf c < sizeOf m := by
  induction m with
  | nil => simp at h
  | cons p t ih =>
    obtain ⟨k, n⟩ := p
    simp only [List.map_cons, List.mem_cons] at h
    rcases h with rfl | h
    · simp only [List.cons.sizeOf_spec, Prod.mk.sizeOf_spec]; omega
    · have := ih h
      simp only [List.cons.sizeOf_spec]; omega

theorem SchemaNode.sizeOf_properties (n : SchemaNode) : sizeOf n.properties < sizeOf n := by
  cases n; simp only [SchemaNode.mk.sizeOf_spec]; omega
theorem SchemaNode.sizeOf_additionalProperties (n : SchemaNode) : sizeOf n.additionalProperties < sizeOf n := by
  cases n; simp only [SchemaNode.mk.sizeOf_spec]; omega
theorem SchemaNode.sizeOf_patternProperties (n : SchemaNode) : sizeOf n.patternProperties < sizeOf n := by
  cases n; simp only [SchemaNode.mk.sizeOf_spec]; omega
theorem SchemaNode.sizeOf_items (n : SchemaNode) : sizeOf n.items < sizeOf n := by
  cases n; simp only [SchemaNode.mk.sizeOf_spec]; omega
theorem SchemaNode.sizeOf_contains (n : SchemaNode) : sizeOf n.contains < sizeOf n := by
  cases n; simp only [SchemaNode.mk.sizeOf_spec]; omega
theorem SchemaNode.sizeOf_prefixItems (n : SchemaNode) : sizeOf n.prefixItems < sizeOf n := by
  cases n; simp only [SchemaNode.mk.sizeOf_spec]; omega
theorem SchemaNode.sizeOf_additionalItems (n : SchemaNode) : sizeOf n.additionalItems < sizeOf n := by
  cases n; simp only [SchemaNode.mk.sizeOf_spec]; omega
theorem SchemaNode.sizeOf_unevaluatedItems (n : SchemaNode) : sizeOf n.unevaluatedItems < sizeOf n := by
  cases n; simp only [SchemaNode.mk.sizeOf_spec]; omega
theorem SchemaNode.sizeOf_not (n : SchemaNode) : sizeOf n.not < sizeOf n := by
  cases n; simp only [SchemaNode.mk.sizeOf_spec]; omega
theorem SchemaNode.sizeOf_allOf (n : SchemaNode) : sizeOf n.allOf < sizeOf n := by
  cases n; simp only [SchemaNode.mk.sizeOf_spec]; omega
theorem SchemaNode.sizeOf_anyOf (n : SchemaNode) : sizeOf n.anyOf < sizeOf n := by
  cases n; simp only [SchemaNode.mk.sizeOf_spec]; omega
theorem SchemaNode.sizeOf_oneOf (n : SchemaNode) : sizeOf n.oneOf < sizeOf n := by
  cases n; simp only [SchemaNode.mk.sizeOf_spec]; omega
theorem SchemaNode.sizeOf_defs (n : SchemaNode) : sizeOf n.defs < sizeOf n := by
  cases n; simp only [SchemaNode.mk.sizeOf_spec]; omega
theorem SchemaNode.sizeOf_definitions (n : SchemaNode) : sizeOf n.definitions < sizeOf n := by
  cases n; simp only [SchemaNode.mk.sizeOf_spec]; omega
theorem SchemaNode.sizeOf_ifN (n : SchemaNode) : sizeOf n.ifN < sizeOf n := by
  cases n; simp only [SchemaNode.mk.sizeOf_spec]; omega
theorem SchemaNode.sizeOf_thenN (n : SchemaNode) : sizeOf n.thenN < sizeOf n := by
  cases n; simp only [SchemaNode.mk.sizeOf_spec]; omega
theorem SchemaNode.sizeOf_elseN (n : SchemaNode) : sizeOf n.elseN < sizeOf n := by
  cases n; simp only [SchemaNode.mk.sizeOf_spec]; omega
theorem SchemaNode.sizeOf_dependentSchemas (n : SchemaNode) : sizeOf n.dependentSchemas < sizeOf n := by
  cases n; simp only [SchemaNode.mk.sizeOf_spec]; omega

theorem sizeOf_optMap {o : Option (List (String × SchemaNode))} {c : SchemaNode} (h : c ∈ (o.getD []).map Prod.snd) :
    sizeOf c < sizeOf o := by
  cases o with
  | none => simp at h
  | some m =>
    have := sizeOf_lt_of_mem_map h
    simp only [Option.getD] at this
    simp only [Option.some.sizeOf_spec]; omega

theorem sizeOf_optNode {o : Option SchemaNode} {c : SchemaNode} (h : c ∈ o.toList) : sizeOf c < sizeOf o := by
  cases o with
  | none => simp at h
  | some m =>
    simp only [Option.toList, List.mem_singleton] at h
    subst h
    simp only [Option.some.sizeOf_spec]; omega

theorem sizeOf_optList {o : Option (List SchemaNode)} {c : SchemaNode} (h : c ∈ o.getD []) : sizeOf c < sizeOf o := by
  cases o with
  | none => simp at h
  | some m =>
    have := List.sizeOf_lt_of_mem h
    simp only [Option.getD] at this
    simp only [Option.some.sizeOf_spec]; omega

theorem sizeOf_optOrFalse {o : Option (NodeOrFalse SchemaNode)} {c : SchemaNode}
    (h : c ∈ (o.bind NodeOrFalse.schema).toList) : sizeOf c < sizeOf o := by
  rcases o with _ | ⟨_ | s, f⟩ <;> simp [Option.toList] at h
  subst h
  simp only [Option.some.sizeOf_spec, NodeOrFalse.mk.sizeOf_spec]; omega

theorem sizeOf_optItemsNode {o : Option (ItemsData SchemaNode)} {c : SchemaNode}
    (h : c ∈ (o.bind ItemsData.node).toList) : sizeOf c < sizeOf o := by
  rcases o with _ | ⟨_ | s, ns, f⟩ <;> simp [Option.toList] at h
  subst h
  simp only [Option.some.sizeOf_spec, ItemsData.mk.sizeOf_spec]; omega

theorem sizeOf_optItemsNodes {o : Option (ItemsData SchemaNode)} {c : SchemaNode}
    (h : c ∈ (o.bind ItemsData.nodes).getD []) : sizeOf c < sizeOf o := by
  rcases o with _ | ⟨s, _ | ns, f⟩ <;> simp at h
  have := List.sizeOf_lt_of_mem h
  simp only [Option.some.sizeOf_spec, ItemsData.mk.sizeOf_spec]; omega

theorem sizeOf_children {n c : SchemaNode} (h : c ∈ n.children) : sizeOf c < sizeOf n := by
  unfold SchemaNode.children at h
  simp only [List.mem_append] at h
  rcases h with (((((((((((((((((h | h) | h) | h) | h) | h) | h) | h) | h) | h) | h) | h) | h) | h) | h) | h) | h) | h) | h
  · exact Nat.lt_trans (sizeOf_optMap h) n.sizeOf_properties
  · exact Nat.lt_trans (sizeOf_optMap h) n.sizeOf_patternProperties
  · exact Nat.lt_trans (sizeOf_optMap h) n.sizeOf_defs
  · exact Nat.lt_trans (sizeOf_optMap h) n.sizeOf_definitions
  · exact Nat.lt_trans (sizeOf_lt_of_mem_map h) n.sizeOf_dependentSchemas
  · exact Nat.lt_trans (sizeOf_optNode h) n.sizeOf_contains
  · exact Nat.lt_trans (sizeOf_optNode h) n.sizeOf_not
  · exact Nat.lt_trans (sizeOf_optNode h) n.sizeOf_ifN
  · exact Nat.lt_trans (sizeOf_optNode h) n.sizeOf_thenN
  · exact Nat.lt_trans (sizeOf_optNode h) n.sizeOf_elseN
  · exact Nat.lt_trans (sizeOf_optList h) n.sizeOf_prefixItems
  · exact Nat.lt_trans (sizeOf_optList h) n.sizeOf_allOf
  · exact Nat.lt_trans (sizeOf_optList h) n.sizeOf_anyOf
  · exact Nat.lt_trans (sizeOf_optList h) n.sizeOf_oneOf
  · exact Nat.lt_trans (sizeOf_optOrFalse h) n.sizeOf_additionalProperties
  · exact Nat.lt_trans (sizeOf_optOrFalse h) n.sizeOf_additionalItems
  · exact Nat.lt_trans (sizeOf_optOrFalse h) n.sizeOf_unevaluatedItems
  · exact Nat.lt_trans (sizeOf_optItemsNode h) n.sizeOf_items
  · exact Nat.lt_trans (sizeOf_optItemsNodes h) n.sizeOf_items

/-- Induction over the sub-schemas of a schema. -/
theorem SchemaNode.ind {P : SchemaNode → Prop} (h : ∀ n, (∀ c ∈ n.children, P c) → P n) (n : SchemaNode) : P n := by
  have aux : ∀ k, ∀ m : SchemaNode, sizeOf m = k → P m := by
    intro k
    induction k using Nat.strongRecOn with
    | ind k ih =>
      intro m hm
      exact h m (fun c hc => ih (sizeOf c) (by rw [← hm]; exact sizeOf_children hc) c rfl)
  exact aux _ n rfl

/-! ## The decoder -/

theorem decodeFields_append (l l' : List (String × JVal)) (n : SchemaNode) :
    decodeFields (l ++ l') n = (decodeFields l n).bind (decodeFields l') := by
  induction l generalizing n with
  | nil => simp [decodeFields]
  | cons p t ih =>
    simp only [List.cons_append, decodeFields]
    cases h : decodeField p n with
    | none => simp
    | some m => simp [ih]

end Chaff
