import Verif.Lemmas.Follow
import Verif.Lemmas.Exclude
/-!
# Alternatives of any type

Merging a schema into an empty one, as the code does with the alternatives of an `anyOf` that stands alone.
-/

namespace Chaff
open Comp

section
variable {c : PEnv} {o : Opts} {root : SchemaNode}

theorem mergeMapLoop_fresh {rec : MergeRec} (s : PSt) : ∀ (l acc : List (String × SchemaNode)), (keysKV (acc ++ l)).Nodup →
    mergeMapLoop rec acc l s = .ok (acc ++ l) s := by
  intro l
  induction l with
  | nil => intro acc _; rw [List.append_nil]; rfl
  | cons q l ih =>
    obtain ⟨k, v⟩ := q
    intro acc hnd
    have hk : k ∉ keysKV acc := by
      intro hk
      unfold keysKV at hnd hk
      rw [List.map_append, List.map_cons] at hnd
      exact (List.nodup_append.1 hnd).2.2 k hk k (by simp) rfl
    have hl : lookupKV acc k = none := by
      cases h : lookupKV acc k with
      | none => rfl
      | some x => exact (hk (mem_keysKV.2 ⟨x, lookupKV_mem h⟩)).elim
    unfold mergeMapLoop
    rw [hl]
    simp only
    rw [insertKV_fresh hl, ih _ (by simpa using hnd)]
    simp

theorem slice_one {α : Type} {l : Option (List α)} (h : l ≠ some []) : mergeSlicePtrs [none, l] = l := by
  cases l with
  | none => rfl
  | some l =>
    cases l with
    | nil => exact (h rfl).elim
    | cons x l => rfl

/-- What a schema must be like for merging to keep it. -/
structure Copied (n : SchemaNode) : Prop where
  ref : n.ref = none
  allOf : n.allOf = none
  anyOf : n.anyOf ≠ some []
  oneOf : n.oneOf ≠ some []
  not : n.not = none
  ifN : n.ifN = none
  thenN : n.thenN = none
  elseN : n.elseN = none
  mergedIf : n.mergedIf = []
  mergedNot : n.mergedNot = []
  constraints : n.constraints = none
  id : n.id = none
  dependentRequired : n.dependentRequired = []
  dependentSchemas : n.dependentSchemas = []
  additionalItems : n.additionalItems = none
  unevaluatedItems : n.unevaluatedItems = none
  enum : ∀ v, n.enum ≠ some [v]
  someValue : n.enum ≠ some []
  oneList : n.enum = none ∨ n.const = none
  required : n.required ≠ some []
  items : ∀ d, n.items = some d → d.disallow = false ∧ d.node ≠ none
  multipleOf : n.multipleOf ≠ some 0
  type : ∀ t, n.type = some t → (t.multiple = none ∧ t.single ≠ "") ∨ (t.single = "" ∧ ∃ l, t.multiple = some l ∧ l ≠ [])
  properties : ∀ p, n.properties = some p → (keysKV p).Nodup
  patternProperties : ∀ p, n.patternProperties = some p → (keysKV p).Nodup

theorem copied_empty : Copied emptyNode := by
  constructor <;> first | rfl | exact .inl rfl | (intros; simp_all [emptyNode])

theorem Copied.onlyAnyOf {n : SchemaNode} (h : OnlyAnyOf n) (ha : n.anyOf ≠ some []) : Copied n := by
  have h : n = { emptyNode with anyOf := n.anyOf, defs := n.defs, definitions := n.definitions } := h
  generalize n.anyOf = a, n.defs = b, n.definitions = d at h ha
  subst h
  constructor <;> first | exact ha | rfl | exact .inl rfl | (intros; simp_all [emptyNode])

theorem Copied.onlyOneOf {n : SchemaNode} (h : OnlyOneOf n) (ha : n.oneOf ≠ some []) : Copied n := by
  have h : n = { emptyNode with oneOf := n.oneOf, defs := n.defs, definitions := n.definitions } := h
  generalize n.oneOf = a, n.defs = b, n.definitions = d at h ha
  subst h
  constructor <;> first | exact ha | rfl | exact .inl rfl | (intros; simp_all [emptyNode])

theorem KeptByMerge.copied {n : SchemaNode} (h : KeptByMerge n) (h1 : ∀ p, n.properties = some p → (keysKV p).Nodup)
    (h2 : ∀ p, n.patternProperties = some p → (keysKV p).Nodup) : Copied n :=
  { ref := h.ref, allOf := h.allOf, anyOf := by rw [h.anyOf]; nofun, oneOf := by rw [h.covered.oneOf]; nofun, not := h.covered.not
    ifN := h.covered.ifN, thenN := h.thenN, elseN := h.elseN, mergedIf := h.covered.mergedIf, mergedNot := h.covered.mergedNot
    constraints := h.covered.constraints, id := h.covered.id, dependentRequired := h.covered.dependentRequired
    dependentSchemas := h.covered.dependentSchemas, additionalItems := h.covered.additionalItems
    unevaluatedItems := h.covered.unevaluatedItems, enum := h.enum, someValue := h.someValue, oneList := h.oneList
    required := h.required, items := h.items, multipleOf := h.multipleOf, type := h.type, properties := h1
    patternProperties := h2 }

theorem Copied.beside {n : SchemaNode} (ha : n.anyOf ≠ some []) (h : Copied { n with anyOf := none }) : Copied n := by
  obtain ⟨h1, h2, h3, h4, h5, h6, h7, h8, h9, h10, h11, h12, h13, h14, h15, h16, h17, h18, h19, h20, h21, h22, h23, h24, h25⟩ := h
  exact ⟨h1, h2, ha, h4, h5, h6, h7, h8, h9, h10, h11, h12, h13, h14, h15, h16, h17, h18, h19, h20, h21, h22, h23, h24, h25⟩

/-- Merging such a schema into an empty one. -/
theorem mergeFields_copy {F : FP} {rec : MergeRec} {n : SchemaNode} {s : PSt} (h : Copied n) :
    mergeFields F rec emptyNode n s = .ok (asMerged n) s := by
  have htype' : mergeTypes emptyNode.type n.type = n.type := by
    show mergeTypes none n.type = n.type
    cases hty : n.type with
    | none => rfl
    | some x =>
      unfold mergeTypes
      rcases x with ⟨a, m⟩
      rcases h.type _ hty with ⟨h1, h2⟩ | ⟨h1, l, h2, h3⟩
      · simp only at h1 h2
        subst h1
        simp [h2]
      · simp only at h1 h2
        subst h1 h2
        have : 0 < l.length := List.length_pos_iff.2 h3
        simp [this]
  have henum : ∀ m : SchemaNode, m.enum = none → m.const = none →
      mergeEnumAndConst m n s = .ok { m with enum := n.enum, const := n.const } s := by
    intro m h1 h2
    unfold mergeEnumAndConst collectEnumValues
    rw [h1, h2]
    cases h3 : n.enum with
    | none =>
      cases h4 : n.const with
      | none =>
        rcases m with ⟨⟨⟩⟩
        simp only at h1 h2
        subst h1 h2
        rfl
      | some v => rfl
    | some l =>
      have h4 : n.const = none := by
        rcases h.oneList with h | h
        · exact absurd (h.symm.trans h3) nofun
        · exact h
      rw [h4]
      match l, h3 with
      | [], h3 => exact (h.someValue h3).elim
      | [v], h3 => exact (h.enum v h3).elim
      | _ :: _ :: _, _ => rfl
  have hmap : ∀ x : Option (List (String × SchemaNode)), (∀ p, x = some p → (keysKV p).Nodup) →
      mergeMap rec none x s = .ok x s := by
    intro x hx
    unfold mergeMap
    cases hp : x with
    | none => rfl
    | some p =>
      simp only [getZeroIfNil]
      rw [bind_apply, mergeMapLoop_fresh s p [] (by simpa using hx p hp)]
      rfl
  have hprefix : mergePrefixItems rec none n.prefixItems s = .ok n.prefixItems s := by
    unfold mergePrefixItems
    cases n.prefixItems with
    | none => rfl
    | some p => simp [getZeroIfNil, mergeZip, bind_apply, pure_apply]
  have hitems : mergeItems rec none n.items s = .ok (n.items.map fun d => { node := d.node }) s := by
    unfold mergeItems
    cases hp : n.items with
    | none => rfl
    | some x =>
      obtain ⟨h1, h2⟩ := h.items x hp
      rcases x with ⟨a, b, d⟩
      cases a with
      | none => exact (h2 rfl).elim
      | some y =>
        simp only at h1
        subst h1
        rfl
  have hfalse : ∀ x, mergeNodeOrFalse rec none x s = .ok x s := by
    intro x
    cases x <;> rfl
  have hptr : ∀ x, mergePtrs rec none x s = .ok x s := by
    intro x
    cases x <;> rfl
  have hsubs : ∀ m : SchemaNode, m.properties = none → m.additionalProperties = none →
      m.patternProperties = none → m.prefixItems = none → m.items = none → m.additionalItems = none →
      m.unevaluatedItems = none → m.contains = none → m.oneOf = none → m.anyOf = none → m.allOf = none →
      mergeSubs rec m n s = .ok { m with properties := n.properties, additionalProperties := n.additionalProperties,
                                          patternProperties := n.patternProperties, prefixItems := n.prefixItems,
                                          items := n.items.map fun d => { node := d.node }, contains := n.contains,
                                          anyOf := n.anyOf, oneOf := n.oneOf } s := by
    intro m m1 m2 m3 m4 m5 m6 m7 m8 m9 m10 m11
    unfold mergeSubs
    rw [m1, m2, m3, m4, m5, m6, m7, m8, m9, m10, m11, slice_one h.anyOf, slice_one h.oneOf, h.allOf]
    simp only [bind_apply, hmap _ h.properties, hmap _ h.patternProperties, hitems, hprefix, hfalse, hptr, pure_apply]
    simp only [mergeSlicePtrs, List.foldl_cons, List.foldl_nil, List.length_nil, if_true, h.additionalItems, h.unevaluatedItems]
  unfold mergeFields
  rw [bind_apply, henum _ rfl rfl]
  simp only
  rw [bind_apply, hsubs _ rfl rfl rfl rfl rfl rfl rfl rfl rfl rfl rfl]
  have hs : ∀ m : SchemaNode, m.length = none → m.pattern = none → m.format = none → m.uniqueItems = none →
      warnSimple m n s = .ok () s := by
    intro m m1 m2 m3 m4
    unfold warnSimple
    rw [m1, m2, m3, m4]
    cases n.length <;> rfl
  simp only
  rw [bind_apply]
  simp only [gets]
  have e9 := h.not
  have e10 := h.ifN
  have e11 := h.mergedIf
  have e12 := h.mergedNot
  have e13 := h.constraints
  have e1 := h.ref
  rw [bind_apply, hs]
  · simp only [mergeIf, mergeNot, mergeNotCollected, mergeNotOwn, e9, e10, e11, e12, e13, e1, mergeSimple, mergeConstraints,
      List.length_nil, Nat.lt_irrefl, if_false, Option.isSome_none, Bool.false_eq_true]
    refine congrArg (fun x => Res.ok x s) ?_
    have p1 : ∀ x : Option Int, maxPtr [x, none] = x := fun x => by cases x <;> rfl
    have p2 : ∀ x : Option Int, minPtr [x, none] = x := fun x => by cases x <;> rfl
    have p3 : ∀ x : Option Rat, maxPtr [x, none] = x := fun x => by cases x <;> rfl
    have p4 : ∀ x : Option Rat, minPtr [x, none] = x := fun x => by cases x <;> rfl
    have p5 : ∀ {α : Type} (x : Option α), getPtr [x, none] = x := fun x => by cases x <;> rfl
    have p6 : findHcf F n.multipleOf none = n.multipleOf := by
      have := h.multipleOf
      unfold findHcf
      cases hm : n.multipleOf with
      | none => rfl
      | some a =>
        rw [hm] at this
        simp only
        rw [if_neg (fun e => this (by rw [e]))]
    rw [htype']
    simp only [emptyNode, p1, p2, p3, p4, p5, p6, slice_one h.required]
    clear henum hmap hitems hsubs hs hprefix hfalse hptr htype' p6
    have q1 := h.allOf
    have q3 := h.thenN
    have q4 := h.elseN
    have q5 := h.id
    have q6 := h.dependentRequired
    have q7 := h.dependentSchemas
    have q8 := h.additionalItems
    have q9 := h.unevaluatedItems
    clear h
    unfold asMerged
    rcases n with ⟨⟨⟩⟩
    simp only at *
    subst_vars
    rfl
  all_goals
    simp only [mergeIf, mergeNot, mergeNotCollected, mergeNotOwn, e9, e12, List.length_nil, Nat.lt_irrefl, if_false]
    rfl

theorem asMerged_empty : asMerged emptyNode = emptyNode := rfl

/-- Merging one such schema. -/
theorem merge_copy {k : Nat} {n a : SchemaNode} {s s' : PSt} (hn : Copied n) (h : mergeNodes c k [n] s = .ok a s') :
    a = asMerged n ∧ s' = s := by
  cases k with
  | zero => simp [mergeNodes, outOfFuel] at h
  | succ k =>
    have h : mergeStep c k (mergeNodes c k) [n] s = .ok a s' := h
    unfold mergeStep at h
    obtain ⟨m, s1, h1, h2⟩ := bind_ok.1 h
    unfold mergeLoop at h1
    obtain ⟨m', s2, h3, h4⟩ := bind_ok.1 h1
    unfold mergeLoop at h4
    obtain ⟨rfl, rfl⟩ := pure_ok.1 h4
    rw [mergeOne_plain hn.ref, mergeFields_copy hn] at h3
    cases h3
    cases k with
    | zero => simp [flattenResidual, outOfFuel] at h2
    | succ k =>
      unfold flattenResidual at h2
      simp only [show (asMerged n).allOf = none from hn.allOf] at h2
      obtain ⟨rfl, rfl⟩ := pure_ok.1 h2
      exact ⟨rfl, rfl⟩

/-- Merging one such schema with an empty one. -/
theorem merge_copy' {k : Nat} {n a : SchemaNode} {s s' : PSt} (hn : Copied n) (h : mergeNodes c k [emptyNode, n] s = .ok a s') :
    a = asMerged n ∧ s' = s := by
  cases k with
  | zero => simp [mergeNodes, outOfFuel] at h
  | succ k =>
    have h : mergeStep c k (mergeNodes c k) [emptyNode, n] s = .ok a s' := h
    unfold mergeStep at h
    obtain ⟨m, s1, h1, h2⟩ := bind_ok.1 h
    unfold mergeLoop at h1
    obtain ⟨m0, s0, h0, h1⟩ := bind_ok.1 h1
    rw [mergeOne_plain rfl, mergeFields_copy copied_empty, asMerged_empty] at h0
    cases h0
    unfold mergeLoop at h1
    obtain ⟨m', s2, h3, h4⟩ := bind_ok.1 h1
    unfold mergeLoop at h4
    obtain ⟨rfl, rfl⟩ := pure_ok.1 h4
    rw [mergeOne_plain hn.ref, mergeFields_copy hn] at h3
    cases h3
    cases k with
    | zero => simp [flattenResidual, outOfFuel] at h2
    | succ k =>
      unfold flattenResidual at h2
      simp only [show (asMerged n).allOf = none from hn.allOf] at h2
      obtain ⟨rfl, rfl⟩ := pure_ok.1 h2
      exact ⟨rfl, rfl⟩

/-- Merging a reference with an empty schema. -/
theorem merge_copy_ref {R : Places} {pid : String} {ts : List String} {e k : Nat} {us : List String} {t a : SchemaNode} {s s' : PSt}
    (hg : Good c root R pid e ts s) (hoff : ¬ Off root ts) (hf : Followable c root) (hu : PlainTokens us)
    (hpt : PointsTo root us t) (hout : ¬ us <+: ts) (htext : Faithful t) (hstr : refsAreStrings (encodeNode t) = true)
    (hfree : refTexts (encodeNode t) = []) (hn : Copied t)
    (h : mergeNodes c k [emptyNode, { emptyNode with ref := some (pointerText us) }] s = .ok a s') (he : s'.errors = []) :
    a = asMerged t ∧ Moved pid s s' := by
  cases k with
  | zero => simp [mergeNodes, outOfFuel] at h
  | succ k =>
    have h : mergeStep c k (mergeNodes c k) [emptyNode, { emptyNode with ref := some (pointerText us) }] s = .ok a s' := h
    unfold mergeStep at h
    obtain ⟨m, s1, h1, h2⟩ := bind_ok.1 h
    unfold mergeLoop at h1
    obtain ⟨m0, s0, h0, h1⟩ := bind_ok.1 h1
    rw [mergeOne_plain rfl, mergeFields_copy copied_empty, asMerged_empty] at h0
    cases h0
    unfold mergeLoop at h1
    obtain ⟨m', s2, h3, h4⟩ := bind_ok.1 h1
    unfold mergeLoop at h4
    obtain ⟨rfl, rfl⟩ := pure_ok.1 h4
    have e2 : s2.errors = [] := by
      have := keeps_flattenResidual (c := c) (fun l => keeps_mergeNodes (c := c) k l) k m' s2 a s' h2
      exact this.noErrors he
    unfold mergeOne at h3
    obtain ⟨p, s3, h5, h6⟩ := bind_ok.1 h3
    obtain ⟨n, s4, h7, h8⟩ := bind_ok.1 h6
    obtain ⟨x, s5, h9, h10⟩ := bind_ok.1 h8
    obtain ⟨_, s6, h11, h12⟩ := bind_ok.1 h10
    obtain ⟨rfl, rfl⟩ := pure_ok.1 h12
    have e5 : s5.errors = [] := by
      unfold leaveRef at h11
      split at h11
      · obtain ⟨_, s5, h13, h14⟩ := bind_ok.1 h11
        obtain ⟨_, s6, h15, h16⟩ := bind_ok.1 h14
        cases h15
        unfold setResolving at h16
        rw [modS_apply] at h16
        injection h16 with _ h16
        unfold popRes at h13
        split at h13
        · cases h13
        · cases h13; rw [← h16] at e2; exact e2
      · obtain ⟨_, rfl⟩ := pure_ok.1 h11; exact e2
    have e4 := (keeps_mergeFields (c := c) (fun l => keeps_mergeNodes (c := c) k l) emptyNode n s4 x s5 h9).noErrors e5
    have e3 := (keeps_flattenResolved (c := c) (fun l => keeps_mergeNodes (c := c) k l) p.1 p.2 s3 n s4 h7).noErrors e4
    obtain ⟨rfl, hs3⟩ := follow_ref hg hf hoff hu hpt hout htext hstr hfree hn.ref h5 e3
    unfold flattenResolved at h7
    simp only [hn.allOf] at h7
    obtain ⟨rfl, rfl⟩ := pure_ok.1 h7
    rw [mergeFields_copy hn] at h9
    cases h9
    have hmoved : Moved pid s s6 := by
      subst hs3
      unfold leaveRef at h11
      simp only [if_true] at h11
      obtain ⟨_, s5, h13, h14⟩ := bind_ok.1 h11
      obtain ⟨_, s6, h15, h16⟩ := bind_ok.1 h14
      cases h15
      unfold popRes at h13
      cases h13
      unfold setResolving at h16
      rw [modS_apply] at h16
      injection h16 with _ h16
      refine ⟨_, h16.symm, ?_⟩
      simp only
      cases hr : s.resolutions with
      | nil => exact .inl rfl
      | cons y l =>
        right
        rcases hg.stack with h | h
        · exact (hoff h).elim
        · obtain ⟨vs, _, _, rfl⟩ := h y (by rw [hr]; simp)
          unfold currentResolution
          exact splitBar_key (by rw [(hg.world hf).key]; exact hf.bar)
    cases k with
    | zero => simp [flattenResidual, outOfFuel] at h2
    | succ k =>
      unfold flattenResidual at h2
      simp only [show (asMerged t).allOf = none from hn.allOf] at h2
      obtain ⟨rfl, rfl⟩ := pure_ok.1 h2
      exact ⟨rfl, hmoved⟩

theorem Denotes.ownOnly {x t : SchemaNode} (h : Denotes root x t) (hr : x.ref = none) : t = x := by
  cases h with
  | own => rfl
  | refer => cases hr

theorem Denotes.unique {x t t' : SchemaNode} (s : PSt) (h : Denotes root x t) (h' : Denotes root x t') (hk : t.ref = none)
    (hk' : t'.ref = none) : t = t' := by
  cases h with
  | own => exact (h'.ownOnly hk).symm
  | @refer us _ hu hp =>
    generalize hx : ({ emptyNode with ref := some (pointerText us) } : SchemaNode) = x at h'
    cases h' with
    | own => rw [← hx] at hk'; cases hk'
    | @refer us' _ hu' hp' =>
      have : pointerText us = pointerText us' := by injection hx with hb; exact Option.some.inj (congrArg NodeBase.ref hb)
      have := pointerText_inj hu hu' this
      subst this
      exact (target_of_points hu hp).unique s (target_of_points hu' hp')

theorem StandsFor.denotes {ts : List String} {x t : SchemaNode} (h : StandsFor c root ts x t) : Denotes root x t := by
  cases h with
  | own => exact .own
  | refer _ hu _ hp => exact .refer hu hp

theorem OnlyOneOf.rest {n : SchemaNode} (h : OnlyOneOf n) : { asMerged n with oneOf := none } = emptyNode := by
  have h : n = { emptyNode with oneOf := n.oneOf, defs := n.defs, definitions := n.definitions } := h
  generalize n.oneOf = a, n.defs = b, n.definitions = d at h
  subst h
  rfl

theorem OnlyOneOf.bare {n : SchemaNode} (h : OnlyOneOf n) : ({ n with oneOf := none, defs := none, definitions := none } : SchemaNode) = emptyNode := by
  have h : n = { emptyNode with oneOf := n.oneOf, defs := n.defs, definitions := n.definitions } := h
  generalize n.oneOf = a, n.defs = b, n.definitions = d at h
  subst h
  rfl

theorem OnlyOneOf.constraints {n : SchemaNode} (h : OnlyOneOf n) : n.constraints = none := by
  have h : n = { emptyNode with oneOf := n.oneOf, defs := n.defs, definitions := n.definitions } := h
  rw [h]
  rfl

theorem OnlyOneOf.id {n : SchemaNode} (h : OnlyOneOf n) : n.id = none := by
  have h : n = { emptyNode with oneOf := n.oneOf, defs := n.defs, definitions := n.definitions } := h
  rw [h]
  rfl

theorem OnlyOneOf.anyOf {n : SchemaNode} (h : OnlyOneOf n) : n.anyOf = none := by
  have h : n = { emptyNode with oneOf := n.oneOf, defs := n.defs, definitions := n.definitions } := h
  rw [h]
  rfl

theorem OnlyOneOf.ifN {n : SchemaNode} (h : OnlyOneOf n) : n.ifN = none := by
  have h : n = { emptyNode with oneOf := n.oneOf, defs := n.defs, definitions := n.definitions } := h
  rw [h]
  rfl

theorem OnlyAnyOf.rest {n : SchemaNode} (h : OnlyAnyOf n) : { asMerged n with anyOf := none } = emptyNode := by
  have h : n = { emptyNode with anyOf := n.anyOf, defs := n.defs, definitions := n.definitions } := h
  generalize n.anyOf = a, n.defs = b, n.definitions = d at h
  subst h
  rfl

/-! ## Validity -/

theorem items_asMerged {n : SchemaNode} {x : ItemsData SchemaNode} (h : (asMerged n).items = some x) :
    ∃ d, n.items = some d ∧ x = { node := d.node } := by
  unfold asMerged at h
  simp only [Option.map_eq_some_iff] at h
  obtain ⟨d, h1, h2⟩ := h
  exact ⟨d, h1, h2.symm⟩

theorem items_asMerged' {n : SchemaNode} {d : ItemsData SchemaNode} (h : n.items = some d) :
    (asMerged n).items = some { node := d.node } := by
  unfold asMerged
  simp only [h, Option.map_some]

theorem covered_asMerged {n : SchemaNode} (h : Covered n) : Covered (asMerged n) := by
  refine ⟨h.1, h.2, h.3, h.4, h.5, h.6, h.7, h.8, ?_, h.10, h.11, h.12, h.13⟩
  intro x hx
  obtain ⟨d, _, rfl⟩ := items_asMerged hx
  rfl

theorem valid_of_asMerged {pat : String → String → Prop} {n : SchemaNode} {v : JVal} (hcov : Covered n)
    (hit : ∀ d, n.items = some d → d.disallow = false) (h : Valid pat root (asMerged n) v) : Valid pat root n v := by
  obtain ⟨_, _, target, alternative, found, hc, hl, h1, h2, h3, h4, h5, h6, h7, h8, h9, h10, h11, h12, chosen, o1, o2, o3, holds, i1, i2, i3, i4, ng⟩ := h
  refine .intro n v target alternative found ⟨rfl, rfl, rfl, hcov.4, hcov.5, hcov.6, hcov.7, hcov.8, hcov.9, hcov.10, hcov.11, hcov.12, hcov.13⟩
    ⟨hl.1, hl.2, hl.3, fun q hq => ⟨(hl.4 q hq).1, (hl.4 q hq).2, (hl.4 q hq).3, (hl.4 q hq).4, (hl.4 q hq).5⟩, hl.5, hl.6, hl.7,
      hl.8, hl.9, hl.10, fun l x _ hx hd => (by rw [hit x hx] at hd; cases hd), hl.12, hl.13, hl.14, hl.15⟩ h1 h2 h3 h4 h5 h6 h7 h8 h9
    (fun l d i x sub hv hd hs hi hx => h10 l _ i x sub hv (items_asMerged' hd) hs hi hx) h11 h12
    chosen o1 o2 o3 holds i1 i2 i3 i4 ng

theorem valid_asMerged {pat : String → String → Prop} {n : SchemaNode} {v : JVal} (hcov : Covered n)
    (h : Valid pat root n v) : Valid pat root (asMerged n) v := by
  have hcov := covered_asMerged hcov
  obtain ⟨_, _, target, alternative, found, hc, hl, h1, h2, h3, h4, h5, h6, h7, h8, h9, h10, h11, h12, chosen, o1, o2, o3, holds, i1, i2, i3, i4, ng⟩ := h
  refine .intro (asMerged n) v target alternative found ⟨rfl, rfl, rfl, hcov.4, hcov.5, hcov.6, hcov.7, hcov.8, hcov.9, hcov.10, hcov.11, hcov.12, hcov.13⟩
    ⟨hl.1, hl.2, hl.3, fun q hq => ⟨(hl.4 q hq).1, (hl.4 q hq).2, (hl.4 q hq).3, (hl.4 q hq).4, (hl.4 q hq).5⟩, hl.5, hl.6, hl.7,
      hl.8, hl.9, hl.10, ?_, hl.12, hl.13, hl.14, hl.15⟩ h1 h2 h3 h4 h5 h6 h7 h8 h9
    ?_ h11 h12 chosen o1 o2 o3 holds i1 i2 i3 i4 ng
  · intro l x _ hx hd
    obtain ⟨d, _, rfl⟩ := items_asMerged hx
    cases hd
  · intro l d i x sub hv hd hs hi hx
    obtain ⟨d', hd', rfl⟩ := items_asMerged hd
    exact h10 l d' i x sub hv hd' hs hi hx

theorem supported_asMerged {n : SchemaNode} (h : Supported c o root n) (href : n.ref = none) :
    Supported c o root (asMerged n) where
  covered := covered_asMerged h.covered
  allOf := h.allOf
  anyOf := h.anyOf
  ref := by
    intro r hr
    rw [show (asMerged n).ref = none from href] at hr
    cases hr
  definitions := nofun
  defs := nofun
  enum := fun l hl => ⟨(h.enum l hl).1, fun x hx => ⟨((h.enum l hl).2 x hx).1, valid_asMerged h.covered ((h.enum l hl).2 x hx).2⟩⟩
  const := fun x hx he => ⟨(h.const x hx he).1, valid_asMerged h.covered (h.const x hx he).2⟩
  types := ⟨h.types.1, fun t l ht hl => by
    obtain ⟨h1, h2, h3⟩ := h.types.several t l ht hl
    exact ⟨h1, h2, ⟨h3.1, h3.2, h3.3, h3.4, h3.5, h3.6, h3.7, h3.8, h3.9, h3.10, h3.11, h3.12, h3.13, h3.14, h3.15⟩⟩⟩
  object := ⟨fun p hp => ⟨(h.object.patterns p hp).1, (h.object.patterns p hp).2, (h.object.patterns p hp).3, (h.object.patterns p hp).4,
      (h.object.patterns p hp).5, (h.object.patterns p hp).6⟩,
    h.object.2, h.object.3, h.object.4, h.object.5, h.object.6⟩
  array :=
    { maximum := h.array.maximum
      closedMinimum := by
        intro x k hx hd
        obtain ⟨d, _, rfl⟩ := items_asMerged hx
        cases hd
      minimum := h.array.minimum
      containsAlone := by
        intro hc
        unfold asMerged
        simp only [h.array.containsAlone hc, Option.map_none]
      minContains := h.array.minContains
      unique := h.array.unique }
  string := ⟨h.string.1, h.string.2⟩
  number := ⟨h.number.1, h.number.2, h.number.3, fun hb ht => (h.number.4 hb ht).imp id
    (fun w => ⟨w.1, w.2, w.3, w.4, w.5⟩)⟩

/-- The parts of the schema stay the same. -/
theorem inside_asMerged {n m : SchemaNode} {e : Nat} {us : List String} (hit : ∀ d, n.items = some d → d.disallow = false)
    (h : Inside (asMerged n) e us m) : (e = 0 ∧ us = [] ∧ m = asMerged n) ∨ Inside n e us m := by
  induction h with
  | root => exact .inl ⟨rfl, rfl, rfl⟩
  | @named d ts m m' kw name _ hn ih =>
    rcases ih with ⟨rfl, rfl, rfl⟩ | ih
    · refine .inr (.named .root ?_)
      cases hn with
      | properties p h1 h2 => exact .properties p h1 h2
      | patternProperties p h1 h2 => exact .patternProperties p h1 h2
      | definitions p h1 h2 => cases h1
      | defs p h1 h2 => cases h1
    · exact .inr (.named ih hn)
  | @sub d ts m m' kw _ hn hk ih =>
    rcases ih with ⟨rfl, rfl, rfl⟩ | ih
    · refine .inr (.sub .root ?_ hk)
      cases hn with
      | not h => exact .not h
      | ifN h => exact .ifN h
      | thenN h => exact .thenN h
      | elseN h => exact .elseN h
      | contains h => exact .contains h
      | additionalProperties d h1 h2 h3 => exact .additionalProperties d h1 h2 h3
      | additionalItems d h1 h2 h3 => exact .additionalItems d h1 h2 h3
      | unevaluatedItems d h1 h2 h3 => exact .unevaluatedItems d h1 h2 h3
    · exact .inr (.sub ih hn hk)
  | @items d ts m m' x _ hx hd hm ih =>
    rcases ih with ⟨rfl, rfl, rfl⟩ | ih
    · obtain ⟨y, hy, rfl⟩ := items_asMerged hx
      exact .inr (.items .root hy (hit y hy) hm)
    · exact .inr (.items ih hx hd hm)
  | @prefixItems d ts m m' l i _ hx hm ih =>
    rcases ih with ⟨rfl, rfl, rfl⟩ | ih
    · exact .inr (.prefixItems .root hx hm)
    · exact .inr (.prefixItems ih hx hm)

theorem FreeOk.shallow {d : Nat} {n : SchemaNode} (h : FreeOk c o root d n) : (d : Int) < c.maxParseDepth := by
  cases h <;> assumption

theorem OnlyAnyOf.covered {n : SchemaNode} (h : OnlyAnyOf n) : Covered n := by
  have h : n = { emptyNode with anyOf := n.anyOf, defs := n.defs, definitions := n.definitions } := h
  generalize n.anyOf = a, n.defs = b, n.definitions = d at h
  subst h
  constructor <;> first | rfl | (intros; simp_all [emptyNode])

theorem FreeOk.covered {d : Nat} {n : SchemaNode} (h : FreeOk c o root d n) : Covered n := by
  cases h with
  | plain h _ => exact h.covered
  | alternatives h => exact h.covered

/-- What is parsed for an alternative. -/
theorem FreeOk.alternative {d : Nat} {x : SchemaNode} (hk : KeptByMerge x)
    (h : ∀ e us m, Inside x e us m → FreeOk c o root (d + e) m) :
    Supported c o root x ∧ ∀ e us m, Inside (asMerged x) e us m → FreeOk c o root (d + e) m := by
  have hx : Supported c o root x ∧ (d : Int) < c.maxParseDepth := by
    cases h 0 [] x .root with
    | plain h h' => exact ⟨h, h'⟩
    | alternatives _ h => rw [hk.anyOf] at h; cases h
  refine ⟨hx.1, ?_⟩
  intro e us m hm
  rcases inside_asMerged (fun d hd => (hk.items d hd).1) hm with ⟨rfl, rfl, rfl⟩ | hm
  · exact .plain (supported_asMerged hx.1 hk.ref) hx.2
  · exact h e us m hm

/-- Without its alternatives such a schema admits everything. -/
theorem OnlyOneOf.free {pat : String → String → Prop} {n : SchemaNode} (h : OnlyOneOf n) (v : JVal) :
    Valid pat root { n with oneOf := none } v := by
  have h : n = { emptyNode with oneOf := n.oneOf, defs := n.defs, definitions := n.definitions } := h
  generalize n.oneOf = a, n.defs = b, n.definitions = d at h
  subst h
  refine .basic _ v emptyNode emptyNode [] ?_ ?_ nofun nofun nofun nofun nofun nofun nofun nofun nofun nofun nofun nofun
  · constructor <;> first | rfl | (intros; simp_all [emptyNode])
  · constructor
    case number =>
      intro q _
      constructor <;> nofun
    all_goals nofun

/-- A value that is valid for one of the alternatives. -/
theorem OnlyAnyOf.valid {pat : String → String → Prop} {n x : SchemaNode} {v : JVal} {l : List SchemaNode} (h : OnlyAnyOf n)
    (hl : n.anyOf = some l) (hx : x ∈ l) (hv : Valid pat root x v) : Valid pat root n v := by
  have hcov := h.covered
  have h : n = { emptyNode with anyOf := n.anyOf, defs := n.defs, definitions := n.definitions } := h
  rw [hl] at h
  generalize n.defs = b, n.definitions = d at h
  subst h
  refine .basic _ v emptyNode x [] hcov ?_ nofun nofun nofun ?_ ?_ nofun nofun nofun nofun nofun nofun nofun
  · constructor
    case number =>
      intro q _
      constructor <;> nofun
    all_goals nofun
  · intro l' hl'
    cases hl'
    exact hx
  · intro _ _
    exact hv

end

end Chaff
