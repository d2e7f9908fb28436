import Verif.Lemmas.NotCover
import Verif.Spec.Combine
/-!
# A schema whose `not` has become checks
-/

namespace Chaff
open Comp

variable {c : PEnv}

/-- A negated schema with nothing but `const`, `enum`, `pattern` and `required`. -/
structure Bare (y : SchemaNode) : Prop where
  type : y.type = none
  minLength : y.minLength = none
  maxLength : y.maxLength = none
  format : y.format = none
  minimum : y.minimum = none
  maximum : y.maximum = none
  exclusiveMinimum : y.exclusiveMinimum = none
  exclusiveMaximum : y.exclusiveMaximum = none
  multipleOf : y.multipleOf = none
  items : y.items = none
  minItems : y.minItems = none
  maxItems : y.maxItems = none
  contains : y.contains = none
  minContains : y.minContains = none
  maxContains : y.maxContains = none
  uniqueItems : y.uniqueItems = none
  prefixItems : y.prefixItems = none
  unevaluatedItems : y.unevaluatedItems = none
  properties : y.properties = none
  patternProperties : y.patternProperties = none
  additionalProperties : y.additionalProperties = none
  minProperties : y.minProperties = none
  maxProperties : y.maxProperties = none

theorem bare_const (w : JVal) : Bare { emptyNode with const := some w } := by constructor <;> rfl
theorem bare_enum (l : List JVal) : Bare { emptyNode with enum := some l } := by constructor <;> rfl
theorem bare_pattern (p : String) : Bare { emptyNode with pattern := some p } := by constructor <;> rfl
theorem bare_required (l : List String) : Bare { emptyNode with required := some l } := by constructor <;> rfl

/-- Flattening a negated schema: a list of one value becomes a constant. -/
theorem negated_flat {t : String} {req : List String} {x y : SchemaNode} {k : Nat} {s s' : PSt} (hx : Negated c t req x)
    (h : mergeNodes c k [emptyNode, x] s = .ok y s') :
    s' = s ∧ Bare y ∧ y.not = none ∧ SameNegation x y := by
  have hsame : SameNegation x y := by
    cases hx <;> exact (flatten_negation rfl rfl rfl h).1
  suffices s' = s ∧ Bare y ∧ y.not = none from ⟨this.1, this.2.1, this.2.2, hsame⟩
  match k with
  | 0 => simp [mergeNodes] at h
  | 1 =>
    unfold mergeNodes mergeStep at h
    obtain ⟨m, s1, -, h1⟩ := bind_ok.1 h
    cases h1
  | k + 2 =>
    have one : ∀ z, mergeNodes c (k + 2) [emptyNode, x] s = .ok z s → y = z ∧ s' = s := by
      intro z hz
      rw [hz] at h
      injection h with h1 h2
      exact ⟨h1.symm, h2.symm⟩
    cases hx with
    | const w wf =>
      obtain ⟨rfl, rfl⟩ := one { emptyNode with const := some w } rfl
      exact ⟨rfl, bare_const w, rfl⟩
    | enum l ne wf =>
      match l, ne with
      | [w], _ =>
        obtain ⟨rfl, rfl⟩ := one { emptyNode with const := some w } rfl
        exact ⟨rfl, bare_const w, rfl⟩
      | v :: w :: l, _ =>
        obtain ⟨rfl, rfl⟩ := one { emptyNode with enum := some (v :: w :: l) } rfl
        exact ⟨rfl, bare_enum _, rfl⟩
    | pattern p f text compiles meaning =>
      obtain ⟨rfl, rfl⟩ := one { emptyNode with pattern := some p } rfl
      exact ⟨rfl, bare_pattern _, rfl⟩
    | required l object possible =>
      match l, possible with
      | v :: l, _ =>
        obtain ⟨rfl, rfl⟩ := one { emptyNode with required := some (v :: l) } rfl
        exact ⟨rfl, bare_required _, rfl⟩

/-- Nothing is added to a negated schema. -/
structure NoMore (x y : SchemaNode) : Prop where
  listed : ∀ w, Lists y w → Lists x w
  pattern : y.pattern = x.pattern
  required : y.required = x.required

theorem negated_noMore {t : String} {req : List String} {x y : SchemaNode} {k : Nat} {s s' : PSt} (hx : Negated c t req x)
    (h : mergeNodes c k [emptyNode, x] s = .ok y s') : NoMore x y := by
  match k with
  | 0 => simp [mergeNodes] at h
  | 1 =>
    unfold mergeNodes mergeStep at h
    obtain ⟨m, s1, -, h1⟩ := bind_ok.1 h
    cases h1
  | k + 2 =>
    have one : ∀ z, mergeNodes c (k + 2) [emptyNode, x] s = .ok z s → y = z := by
      intro z hz
      rw [hz] at h
      injection h with h1 h2
      exact h1.symm
    cases hx with
    | const w wf =>
      obtain rfl := one { emptyNode with const := some w } rfl
      exact ⟨fun _ h => h, rfl, rfl⟩
    | enum l ne wf =>
      match l, ne with
      | [w], _ =>
        obtain rfl := one { emptyNode with const := some w } rfl
        refine ⟨?_, rfl, rfl⟩
        rintro u (⟨l, h, _⟩ | h)
        · cases h
        · cases h
          exact .inl ⟨_, rfl, by simp⟩
      | v :: w :: l, _ =>
        obtain rfl := one { emptyNode with enum := some (v :: w :: l) } rfl
        exact ⟨fun _ h => h, rfl, rfl⟩
    | pattern p f text compiles meaning =>
      obtain rfl := one { emptyNode with pattern := some p } rfl
      exact ⟨fun _ h => h, rfl, rfl⟩
    | required l object possible =>
      match l, possible with
      | v :: l, _ =>
        obtain rfl := one { emptyNode with required := some (v :: l) } rfl
        exact ⟨fun _ h => h, rfl, rfl⟩

theorem push_pop (part : String) (s : PSt) : popPath part { s with path := s.path ++ part } = .ok () s := by
  unfold popPath
  simp only [String.length_append, Nat.le_add_left, if_true, Nat.add_sub_cancel, String.toList_append]
  congr 1
  have : (s.path.toList ++ part.toList).take s.path.length = s.path.toList := by
    rw [← String.length_toList, List.take_left]
  rw [this, String.ofList_toList]

theorem partition_one {t : String} {req : List String} {x : SchemaNode} {k i : Nat} {a : List SchemaNode × List SchemaNode}
    {s s' : PSt} (hx : Negated c t req x) (h : partitionNots c k i [x] s = .ok a s') :
    s' = s ∧ ∃ y, a = ([y], []) ∧ Bare y ∧ SameNegation x y ∧ NoMore x y := by
  unfold partitionNots at h
  obtain ⟨_, s1, h1, h⟩ := bind_ok.1 h
  obtain ⟨y, s2, h2, h⟩ := bind_ok.1 h
  obtain ⟨_, s3, h3, h⟩ := bind_ok.1 h
  have hmore := negated_noMore hx h2
  obtain ⟨rfl, hb, hn, hs⟩ := negated_flat hx h2
  cases h1
  rw [push_pop] at h3
  injection h3 with _ h3
  subst h3
  rw [hn] at h
  obtain ⟨r, s4, h4, h⟩ := bind_ok.1 h
  obtain ⟨rfl, rfl⟩ := pure_ok.1 h4
  obtain ⟨rfl, rfl⟩ := pure_ok.1 h
  exact ⟨rfl, y, rfl, hb, hs, hmore⟩

theorem deleteKV_all {β : Type} : ∀ (l : List String) (m : List (String × β)),
    l.foldl deleteKV m = m.filter (fun q => decide (q.1 ∉ l)) := by
  intro l
  induction l with
  | nil => intro m; simp
  | cons k t ih =>
    intro m
    rw [List.foldl_cons, ih]
    unfold deleteKV
    rw [List.filter_filter]
    congr 1
    funext q
    simp only [List.mem_cons, not_or, ne_eq, Bool.decide_and, Bool.and_comm]

theorem insertKV_fresh {β : Type} {k : String} {v : β} : ∀ {m : List (String × β)}, lookupKV m k = none →
    insertKV m k v = m ++ [(k, v)]
  | [], _ => rfl
  | (k', v') :: t, h => by
    unfold lookupKV at h
    split at h
    · cases h
    · rename_i hk
      unfold insertKV
      rw [if_neg hk, insertKV_fresh h]
      rfl

theorem notPropsLoop_none {rec : NotRec} {props : List (String × SchemaNode)} (hnd : (keysKV props).Nodup) (s : PSt) :
    ∀ (l acc : List (String × SchemaNode)), props = acc ++ l →
    notPropsLoop rec props [] (keysKV l) acc s = .ok props s := by
  intro l
  induction l with
  | nil => intro acc h; rw [h, List.append_nil]; rfl
  | cons q t ih =>
    intro acc h
    obtain ⟨k, x⟩ := q
    have hk : lookupKV props k = some x := lookupKV_of_mem hnd (by rw [h]; simp)
    have hfresh : lookupKV acc k = none := by
      rw [lookupKV_none]
      intro hm
      have : (keysKV acc ++ keysKV ((k, x) :: t)).Nodup := by
        have : keysKV props = keysKV acc ++ keysKV ((k, x) :: t) := by rw [h]; simp [keysKV]
        rw [← this]; exact hnd
      exact (List.nodup_append.1 this).2.2 k hm k (by simp [keysKV]) rfl
    have : keysKV ((k, x) :: t) = k :: keysKV t := rfl
    rw [this]
    unfold notPropsLoop
    rw [show lookupKV ([] : List (String × SchemaNode)) k = none from rfl, hk]
    simp only
    rw [insertKV_fresh hfresh]
    exact ih _ (by rw [h]; simp)

/-- What the schema beside `not` has to be like. -/
structure Plainly (a : SchemaNode) (t : String) : Prop where
  known : t ≠ ""
  type : a.type = some { single := t }
  exclusiveMinimum : a.exclusiveMinimum = none
  exclusiveMaximum : a.exclusiveMaximum = none
  multipleOf : a.multipleOf = none
  enum : a.enum = none
  const : a.const = none
  prefixItems : a.prefixItems = none
  additionalItems : a.additionalItems = none
  unevaluatedItems : a.unevaluatedItems = none
  contains : a.contains = none
  minContains : a.minContains = none
  additionalProperties : a.additionalProperties = none
  allOf : a.allOf = none
  not : a.not = none
  mergedNot : a.mergedNot = []
  names : (keysKV (a.properties.getD [])).Nodup

/-- Turning a bare negation into checks leaves the schema as it is, apart from the forbidden properties. -/
theorem notMerge_bare {k : Nat} {a y m : SchemaNode} {t : String} {cc : ConstraintColl} {s s' : PSt} (ha : Plainly a t) (hy : Bare y)
    (h : notMerge c k a y s = .ok (m, cc) s') (hq : s'.errors.length = s.errors.length) :
    m = { a with properties := restProperties a.properties (nonConflicting (a.required.getD []) (y.required.getD [])) } ∧ s' = s := by
  cases k with
  | zero => cases h
  | succ k =>
    unfold notMerge notStep at h
    have hrec : ∀ a b, Keeps c (notMerge c k a b) := keeps_notMerge k
    have ht : resolveType a y = .ok { single := t } := by
      unfold resolveType getNodeTypes expandNotTypes
      rw [hy.type, ha.type]
      simp [ha.known, newMultipleTypeFromSlice]
    rw [ht] at h
    simp only at h
    obtain ⟨r1, s1, h1, h⟩ := bind_ok.1 h
    obtain ⟨n2, s2, h2, h⟩ := bind_ok.1 h
    obtain ⟨r3, s3, h3, h⟩ := bind_ok.1 h
    obtain ⟨r4, s4, h4, h⟩ := bind_ok.1 h
    obtain ⟨n5, s5, h5, h⟩ := bind_ok.1 h
    obtain ⟨r6, s6, h6, h⟩ := bind_ok.1 h
    obtain ⟨u7, s7, h7, h⟩ := bind_ok.1 h
    obtain ⟨e, rfl⟩ := pure_ok.1 h
    simp only [Prod.mk.injEq] at e
    obtain ⟨rfl, rfl⟩ := e
    have g1 := (keeps_notApplyString (c := c) _ _ _ _).grow h1
    have g2 := (keeps_notApplyNumber (c := c) _ _ _).grow h2
    have g3 := (keeps_notApplyEnum (c := c) _ _ _ _).grow h3
    have g4 := (keeps_notApplyConst (c := c) _ _ _ _).grow h4
    have g5 := (keeps_notApplyArray hrec _ _ _).grow h5
    have g6 := (keeps_notApplyObject hrec _ _ _ _).grow h6
    have g7 := (keeps_notUnsupported (c := c) _).grow h7
    have e1 : r1.1 = { emptyNode with type := some { single := t }, minLength := a.minLength, maxLength := a.maxLength, pattern := a.pattern, format := a.format } ∧ s1 = s := by
      have q1 : s1.errors.length = s.errors.length := by omega
      unfold notApplyString boundsInt resolveBoundsInt at h1
      rw [hy.minLength, hy.maxLength, hy.format] at h1
      simp only at h1
      obtain ⟨b1, s8, h8, h1⟩ := bind_ok.1 h1
      obtain ⟨rfl, rfl⟩ := pure_ok.1 h8
      simp only at h1
      cases hp : y.pattern with
      | none =>
        rw [hp] at h1
        obtain ⟨rfl, rfl⟩ := pure_ok.1 h1
        exact ⟨rfl, rfl⟩
      | some p =>
        rw [hp] at h1
        simp only at h1
        split at h1
        · obtain ⟨_, _, hw, h1⟩ := bind_ok.1 h1
          obtain ⟨rfl, rfl⟩ := pure_ok.1 h1
          have := warnField_grow hw
          omega
        · split at h1
          · obtain ⟨rfl, rfl⟩ := pure_ok.1 h1
            exact ⟨rfl, rfl⟩
          · cases hc : c.rxCompile p with
            | none =>
              rw [hc] at h1
              obtain ⟨_, _, hw, h1⟩ := bind_ok.1 h1
              obtain ⟨rfl, rfl⟩ := pure_ok.1 h1
              have := warnField_grow hw
              omega
            | some f =>
              rw [hc] at h1
              obtain ⟨rfl, rfl⟩ := pure_ok.1 h1
              exact ⟨rfl, rfl⟩
    have e2 : n2 = { r1.1 with minimum := a.minimum, maximum := a.maximum } ∧ s2 = s1 := by
      have hb : resolveBoundsNodes c.fp (notOffset c.fp r1.1) a y = { min := a.minimum, max := a.maximum } := by
        unfold resolveBoundsNodes lowerOf upperOf
        rw [hy.minimum, hy.maximum, hy.exclusiveMinimum, hy.exclusiveMaximum, ha.exclusiveMinimum, ha.exclusiveMaximum]
        cases a.minimum <;> cases a.maximum <;> rfl
      unfold notApplyNumber at h2
      rw [hb] at h2
      have hn : effNotMultipleOf y = 0 := by
        unfold effNotMultipleOf nodeTypeContains
        rw [hy.type, hy.multipleOf]
        simp [getZeroIfNil]
      rw [hn] at h2
      simp only [Bool.false_eq_true, if_false] at h2
      unfold applyMultiples at h2
      simp only [ne_eq, not_true_eq_false, false_and, and_false, if_false] at h2
      rw [ha.multipleOf] at h2
      have hz : r1.1.multipleOf = none := by rw [e1.1]; rfl
      split at h2
      · obtain ⟨rfl, rfl⟩ := pure_ok.1 h2
        exact ⟨rfl, rfl⟩
      · obtain ⟨rfl, rfl⟩ := pure_ok.1 h2
        rw [← hz]
        exact ⟨rfl, rfl⟩
    have e3 : r3.1 = n2 ∧ s3 = s2 := by
      have q3 : s3.errors.length = s2.errors.length := by omega
      have rest : ∀ s s' n, notEnumRest a y n2 s = .ok n s' → s'.errors.length ≠ s.errors.length := by
        intro s s' n h
        unfold notEnumRest at h
        rw [ha.enum] at h
        obtain ⟨_, _, hw, h⟩ := bind_ok.1 h
        obtain ⟨_, rfl⟩ := pure_ok.1 h
        have := warnField_grow hw
        omega
      unfold notApplyEnum at h3
      rw [ha.const] at h3
      simp only at h3
      split at h3
      · obtain ⟨rfl, rfl⟩ := pure_ok.1 h3
        exact ⟨rfl, rfl⟩
      · split at h3
        · obtain ⟨rfl, rfl⟩ := pure_ok.1 h3
          exact ⟨rfl, rfl⟩
        · obtain ⟨n, s8, h8, h3⟩ := bind_ok.1 h3
          obtain ⟨rfl, rfl⟩ := pure_ok.1 h3
          exact (rest _ _ _ h8 q3).elim
    have e4 : r4.1 = { r3.1 with const := none } ∧ s4 = s3 := by
      have q4 : s4.errors.length = s3.errors.length := by omega
      unfold notApplyConst at h4
      rw [ha.const] at h4
      cases hw : y.const with
      | none =>
        rw [hw] at h4
        obtain ⟨rfl, rfl⟩ := pure_ok.1 h4
        exact ⟨rfl, rfl⟩
      | some w =>
        rw [hw] at h4
        simp only at h4
        split at h4
        · obtain ⟨_, _, hw, h4⟩ := bind_ok.1 h4
          obtain ⟨rfl, rfl⟩ := pure_ok.1 h4
          have := warnField_grow hw
          omega
        · split at h4
          · obtain ⟨_, _, hw, h4⟩ := bind_ok.1 h4
            obtain ⟨rfl, rfl⟩ := pure_ok.1 h4
            have := warnField_grow hw
            omega
          · obtain ⟨rfl, rfl⟩ := pure_ok.1 h4
            exact ⟨rfl, rfl⟩
    have e5 : n5 = { r4.1 with
        minItems := a.minItems, maxItems := a.maxItems, minContains := none, maxContains := a.maxContains,
        items := a.items, uniqueItems := a.uniqueItems, prefixItems := none, unevaluatedItems := none, contains := none } ∧ s5 = s4 := by
      unfold notApplyArray boundsInt resolveBoundsInt at h5
      rw [hy.minItems, hy.maxItems, hy.minContains, hy.maxContains, hy.items, hy.uniqueItems, hy.prefixItems, hy.unevaluatedItems,
        hy.contains, ha.prefixItems, ha.unevaluatedItems, ha.contains, ha.minContains] at h5
      have hu : ∀ x : Option Bool, ∀ s : PSt, resolveBool x none s = .ok x s := by
        intro x s
        cases x <;> rfl
      have hl : ∀ x : SchemaNode, x.minContains = none → limitContains x = pure x := by
        intro x hx
        unfold limitContains
        rw [hx]
      obtain ⟨b1, s8, h8, h5⟩ := bind_ok.1 h5
      obtain ⟨rfl, rfl⟩ := pure_ok.1 h8
      obtain ⟨b2, s8, h8, h5⟩ := bind_ok.1 h5
      obtain ⟨rfl, rfl⟩ := pure_ok.1 h8
      obtain ⟨n8, s8, h8, h5⟩ := bind_ok.1 h5
      rw [hl _ rfl] at h8
      obtain ⟨rfl, rfl⟩ := pure_ok.1 h8
      obtain ⟨it, s8, h8, h5⟩ := bind_ok.1 h5
      obtain ⟨rfl, rfl⟩ := pure_ok.1 h8
      rw [if_neg (by nofun)] at h5
      obtain ⟨ui, s8, h8, h5⟩ := bind_ok.1 h5
      rw [hu] at h8
      injection h8 with e8 e9
      subst e8 e9
      obtain ⟨p, s8, h8, h5⟩ := bind_ok.1 h5
      obtain ⟨rfl, rfl⟩ := pure_ok.1 h8
      obtain ⟨p, s8, h8, h5⟩ := bind_ok.1 h5
      obtain ⟨rfl, rfl⟩ := pure_ok.1 h8
      obtain ⟨p, s8, h8, h5⟩ := bind_ok.1 h5
      obtain ⟨rfl, rfl⟩ := pure_ok.1 h8
      obtain ⟨rfl, rfl⟩ := pure_ok.1 h5
      exact ⟨rfl, rfl⟩
    have e6 : r6.1 = { n5 with
        minProperties := a.minProperties, maxProperties := a.maxProperties, patternProperties := a.patternProperties,
        additionalProperties := none, required := a.required, properties := restProperties a.properties
          (nonConflicting (a.required.getD []) (y.required.getD [])) } ∧ s6 = s5 := by
      have hz : n5.properties = none := by rw [e5.1, e4.1, e3.1, e2.1, e1.1]; rfl
      have hget : ∀ {α : Type} (x : Option α) (d : α), getZeroIfNil x d = x.getD d := by
        intro α x d
        cases x <;> rfl
      unfold notApplyObject boundsInt resolveBoundsInt at h6
      rw [hy.minProperties, hy.maxProperties, hy.properties, hy.patternProperties, hy.additionalProperties, ha.additionalProperties, hz] at h6
      simp only [hget] at h6
      obtain ⟨b1, s8, h8, h6⟩ := bind_ok.1 h6
      obtain ⟨rfl, rfl⟩ := pure_ok.1 h8
      obtain ⟨mp, s8, h8, h6⟩ := bind_ok.1 h6
      have hk : keysKV ((none : Option (List (String × SchemaNode))).getD []) = [] := rfl
      rw [hk, List.append_nil, show (none : Option (List (String × SchemaNode))).getD [] = [] from rfl,
        notPropsLoop_none ha.names s5 (a.properties.getD []) [] rfl] at h8
      injection h8 with e8 e9
      subst e8 e9
      obtain ⟨u, s8, h8, h6⟩ := bind_ok.1 h6
      obtain ⟨-, rfl⟩ := pure_ok.1 h8
      obtain ⟨u', s9, h9, h6⟩ := bind_ok.1 h6
      obtain ⟨rfl, rfl⟩ := pure_ok.1 h9
      obtain ⟨rfl, rfl⟩ := pure_ok.1 h6
      rw [deleteKV_all]
      unfold restProperties
      generalize List.filter (fun q : String × SchemaNode => decide (q.1 ∉ nonConflicting (a.required.getD []) (y.required.getD [])))
        (a.properties.getD []) = q
      cases q <;> exact ⟨rfl, rfl⟩
    have e7 : s7 = s6 := by
      have q7 : s7.errors.length = s6.errors.length := by omega
      have one : ∀ f b, ∀ s s' u, warnUnsupported f b s = .ok u s' → s'.errors.length = s.errors.length → s' = s := by
        intro f b s s' u h hq
        unfold warnUnsupported at h
        split at h
        · have := warnField_grow h
          omega
        · exact (pure_ok.1 h).2.symm
      unfold notUnsupported at h7
      obtain ⟨_, t1, k1, h7⟩ := bind_ok.1 h7
      obtain ⟨_, t2, k2, h7⟩ := bind_ok.1 h7
      obtain ⟨_, t3, k3, h7⟩ := bind_ok.1 h7
      obtain ⟨_, t4, k4, h7⟩ := bind_ok.1 h7
      obtain ⟨_, t5, k5, h7⟩ := bind_ok.1 h7
      obtain ⟨_, t6, k6, h7⟩ := bind_ok.1 h7
      obtain ⟨_, t7, k7, h7⟩ := bind_ok.1 h7
      have l1 := (keeps_warnUnsupported (c := c) _ _).grow k1
      have l2 := (keeps_warnUnsupported (c := c) _ _).grow k2
      have l3 := (keeps_warnUnsupported (c := c) _ _).grow k3
      have l4 := (keeps_warnUnsupported (c := c) _ _).grow k4
      have l5 := (keeps_warnUnsupported (c := c) _ _).grow k5
      have l6 := (keeps_warnUnsupported (c := c) _ _).grow k6
      have l7 := (keeps_warnUnsupported (c := c) _ _).grow k7
      have l8 := (keeps_warnUnsupported (c := c) _ _).grow h7
      rw [one _ _ _ _ _ h7 (by omega), one _ _ _ _ _ k7 (by omega), one _ _ _ _ _ k6 (by omega), one _ _ _ _ _ k5 (by omega),
        one _ _ _ _ _ k4 (by omega), one _ _ _ _ _ k3 (by omega), one _ _ _ _ _ k2 (by omega), one _ _ _ _ _ k1 (by omega)]
    refine ⟨?_, by rw [e7, e6.2, e5.2, e4.2, e3.2, e2.2, e1.2]⟩
    rw [e6.1, e5.1, e4.1, e3.1, e2.1, e1.1]
    rcases a with ⟨⟨⟩⟩
    obtain ⟨_, a1, a2, a3, a4, a5, a6, a7, a8, a9, a10, a11, a12, a13, a14, a15, _⟩ := ha
    simp only at a1 a2 a3 a4 a5 a6 a7 a8 a9 a10 a11 a12 a13 a14 a15
    subst a1 a2 a3 a4 a5 a6 a7 a8 a9 a10 a11 a12 a13 a14 a15
    rfl

/-- A value that passes the checks does not have the negated schema's property. -/
theorem addValues_from {w : JVal} : ∀ (new old : List JVal), w ∈ addValues old new → w ∈ old ∨ w ∈ new := by
  intro new
  induction new with
  | nil => intro old h; exact .inl h
  | cons v t ih =>
    intro old h
    unfold addValues at h ih
    rw [List.foldl_cons] at h
    rcases ih _ h with h | h
    · split at h
      · exact .inl h
      · rcases List.mem_append.1 h with h | h
        · exact .inl h
        · exact .inr (by rw [List.mem_singleton.1 h]; simp)
    · exact .inr (List.mem_cons_of_mem _ h)

theorem addStrings_from {w : String} : ∀ (new old : List String), w ∈ addStrings old new → w ∈ old ∨ w ∈ new := by
  intro new
  induction new with
  | nil => intro old h; exact .inl h
  | cons v t ih =>
    intro old h
    unfold addStrings at h ih
    rw [List.foldl_cons] at h
    rcases ih _ h with h | h
    · split at h
      · exact .inl h
      · rcases List.mem_append.1 h with h | h
        · exact .inl h
        · exact .inr (by rw [List.mem_singleton.1 h]; simp)
    · exact .inr (List.mem_cons_of_mem _ h)

/-- No more is forbidden than the negated schema says. -/
structure Forbids (req : List String) (y : SchemaNode) (cc : ConstraintColl) : Prop where
  notRegex : ∀ p ∈ cc.notRegex, y.pattern = some p
  notFormats : ∀ p ∈ cc.notFormats, y.format = some p
  notValues : ∀ w ∈ cc.notValues, Lists y w
  mustNotHave : ∀ k ∈ cc.mustNotHave, k ∈ y.required.getD [] ∧ k ∉ req

theorem Forbids.merged {req : List String} {y : SchemaNode} {cc : ConstraintColl} (h : Forbids req y cc) :
    Forbids req y (({} : ConstraintColl).merge cc) where
  notRegex := fun p hp => h.notRegex p ((addStrings_from _ _ hp).resolve_left List.not_mem_nil)
  notFormats := fun p hp => h.notFormats p ((addStrings_from _ _ hp).resolve_left List.not_mem_nil)
  notValues := fun p hp => h.notValues p ((addValues_from _ _ hp).resolve_left List.not_mem_nil)
  mustNotHave := fun p hp => h.mustNotHave p hp

theorem notMerge_forbids {k : Nat} {a y m : SchemaNode} {cc : ConstraintColl} {s s' : PSt}
    (h : notMerge c k a y s = .ok (m, cc) s') : Forbids (a.required.getD []) y cc := by
  have hget : ∀ {α : Type} (x : Option α) (d : α), getZeroIfNil x d = x.getD d := by
    intro α x d
    cases x <;> rfl
  cases k with
  | zero => cases h
  | succ k =>
    unfold notMerge notStep at h
    cases ht : resolveType a y with
    | error e =>
      rw [ht] at h
      obtain ⟨_, _, _, h⟩ := bind_ok.1 h
      obtain ⟨e, -⟩ := pure_ok.1 h
      obtain ⟨-, rfl⟩ := Prod.mk.injEq .. ▸ e
      exact ⟨nofun, nofun, nofun, nofun⟩
    | ok t =>
      rw [ht] at h
      simp only at h
      obtain ⟨r1, s1, h1, h⟩ := bind_ok.1 h
      obtain ⟨n2, s2, h2, h⟩ := bind_ok.1 h
      obtain ⟨r3, s3, h3, h⟩ := bind_ok.1 h
      obtain ⟨r4, s4, h4, h⟩ := bind_ok.1 h
      obtain ⟨n5, s5, h5, h⟩ := bind_ok.1 h
      obtain ⟨r6, s6, h6, h⟩ := bind_ok.1 h
      obtain ⟨u7, s7, h7, h⟩ := bind_ok.1 h
      obtain ⟨e, -⟩ := pure_ok.1 h
      simp only [Prod.mk.injEq] at e
      obtain ⟨-, rfl⟩ := e
      have f1 : Forbids (a.required.getD []) y r1.2 := by
        have f0 : Forbids (a.required.getD []) y {} := ⟨nofun, nofun, nofun, nofun⟩
        unfold notApplyString at h1
        obtain ⟨b, s8, -, h1⟩ := bind_ok.1 h1
        simp only at h1
        cases hp : y.pattern with
        | some p =>
          rw [hp] at h1
          simp only at h1
          split at h1
          · obtain ⟨_, _, _, h1⟩ := bind_ok.1 h1
            obtain ⟨rfl, -⟩ := pure_ok.1 h1
            exact f0
          · split at h1
            · obtain ⟨rfl, -⟩ := pure_ok.1 h1
              exact f0
            · cases hc : c.rxCompile p with
              | none =>
                rw [hc] at h1
                obtain ⟨_, _, _, h1⟩ := bind_ok.1 h1
                obtain ⟨rfl, -⟩ := pure_ok.1 h1
                exact f0
              | some f =>
                rw [hc] at h1
                obtain ⟨rfl, -⟩ := pure_ok.1 h1
                refine ⟨fun q hq => ?_, nofun, nofun, nofun⟩
                rw [hp, List.mem_singleton.1 hq]
        | none =>
          rw [hp] at h1
          simp only at h1
          cases hf : y.format with
          | none =>
            rw [hf] at h1
            obtain ⟨rfl, -⟩ := pure_ok.1 h1
            exact f0
          | some p =>
            rw [hf] at h1
            simp only at h1
            split at h1
            · obtain ⟨_, _, _, h1⟩ := bind_ok.1 h1
              obtain ⟨rfl, -⟩ := pure_ok.1 h1
              exact f0
            · split at h1
              · obtain ⟨rfl, -⟩ := pure_ok.1 h1
                exact f0
              · cases hc : c.formats p with
                | none =>
                  rw [hc] at h1
                  obtain ⟨_, _, _, h1⟩ := bind_ok.1 h1
                  obtain ⟨rfl, -⟩ := pure_ok.1 h1
                  exact f0
                | some f =>
                  rw [hc] at h1
                  obtain ⟨rfl, -⟩ := pure_ok.1 h1
                  refine ⟨nofun, fun q hq => ?_, nofun, nofun⟩
                  rw [hf, List.mem_singleton.1 hq]
      have f3 : Forbids (a.required.getD []) y r3.2 := by
        unfold notApplyEnum at h3
        split at h3
        · obtain ⟨rfl, -⟩ := pure_ok.1 h3
          exact f1
        · simp only at h3
          split at h3
          · cases hc : a.const with
            | none =>
              rw [hc] at h3
              obtain ⟨rfl, -⟩ := pure_ok.1 h3
              refine ⟨f1.1, f1.2, fun w hw => ?_, f1.4⟩
              rcases addValues_from _ _ hw with hw | hw
              · exact f1.3 w hw
              · rw [hget] at hw
                cases hl : y.enum with
                | none => rw [hl] at hw; cases hw
                | some l => rw [hl] at hw; exact .inl ⟨l, hl, hw⟩
            | some v =>
              rw [hc] at h3
              simp only at h3
              split at h3
              · obtain ⟨_, _, _, h3⟩ := bind_ok.1 h3
                obtain ⟨rfl, -⟩ := pure_ok.1 h3
                exact f1
              · obtain ⟨_, _, _, h3⟩ := bind_ok.1 h3
                obtain ⟨rfl, -⟩ := pure_ok.1 h3
                exact f1
          · obtain ⟨_, _, _, h3⟩ := bind_ok.1 h3
            obtain ⟨rfl, -⟩ := pure_ok.1 h3
            exact f1
      have f4 : Forbids (a.required.getD []) y r4.2 := by
        unfold notApplyConst at h4
        simp only at h4
        cases hc : y.const with
        | none =>
          rw [hc] at h4
          obtain ⟨rfl, -⟩ := pure_ok.1 h4
          exact f3
        | some v =>
          rw [hc] at h4
          simp only at h4
          split at h4
          · obtain ⟨_, _, _, h4⟩ := bind_ok.1 h4
            obtain ⟨rfl, -⟩ := pure_ok.1 h4
            exact f3
          · split at h4
            · obtain ⟨_, _, _, h4⟩ := bind_ok.1 h4
              obtain ⟨rfl, -⟩ := pure_ok.1 h4
              exact f3
            · obtain ⟨rfl, -⟩ := pure_ok.1 h4
              refine ⟨f3.1, f3.2, fun w hw => ?_, f3.4⟩
              rcases addValues_from _ _ hw with hw | hw
              · exact f3.3 w hw
              · rw [List.mem_singleton.1 hw]; exact .inr hc
      unfold notApplyObject at h6
      obtain ⟨b, s8, -, h6⟩ := bind_ok.1 h6
      obtain ⟨_, s9, -, h6⟩ := bind_ok.1 h6
      obtain ⟨_, s10, -, h6⟩ := bind_ok.1 h6
      obtain ⟨_, s11, -, h6⟩ := bind_ok.1 h6
      obtain ⟨rfl, -⟩ := pure_ok.1 h6
      simp only [hget]
      split
      · refine ⟨f4.1, f4.2, f4.3, fun k hk => ?_⟩
        rcases List.mem_append.1 hk with hk | hk
        · exact f4.4 k hk
        · simpa [nonConflicting] using hk
      · exact f4

/-- The kind of a value and its names do not depend on how it is written. -/
theorem SameJson.shape {a b : JVal} (h : SameJson a b) : (∀ u, a = .str u ↔ b = .str u) ∧
    ∀ k, (∃ m, a = .obj m ∧ k ∈ keysKV m) ↔ ∃ m, b = .obj m ∧ k ∈ keysKV m := by
  induction h with
  | refl a => exact ⟨fun _ => Iff.rfl, fun _ => Iff.rfl⟩
  | symm _ ih => exact ⟨fun u => (ih.1 u).symm, fun k => (ih.2 k).symm⟩
  | trans _ _ ih1 ih2 => exact ⟨fun u => (ih1.1 u).trans (ih2.1 u), fun k => (ih1.2 k).trans (ih2.2 k)⟩
  | order hp =>
    refine ⟨by simp, fun k => ?_⟩
    simp only [JVal.obj.injEq, exists_eq_left', keysKV]
    exact (hp.map _).mem_iff
  | member l r _ _ => refine ⟨by simp, fun k => ?_⟩; simp only [JVal.obj.injEq, exists_eq_left', keysKV, List.map_append, List.map_cons]
  | item l r _ _ => exact ⟨by simp, by simp⟩

theorem Spared.same {req : List String} {x : SchemaNode} {v v' : JVal} (h : Spared c req x v) (hs : SameJson v v') :
    Spared c req x v' where
  listed := fun w hw hv => h.listed w hw (hs.trans hv)
  pattern := fun p f u hp hf hv => h.pattern p f u hp hf ((hs.shape.1 u).2 hv)
  required := fun k m hk hr hv hm => by
    obtain ⟨m', e1, e2⟩ := (hs.shape.2 k).2 ⟨m, hv, hm⟩
    exact h.required k m' hk hr e1 e2

/-- A value that the negated schema spares passes the tests. -/
theorem spared_passes {t : String} {req : List String} {x y : SchemaNode} {cc : ConstraintColl} {fns : List (JVal → Bool)} {v : JVal}
    (hx : Negated c t req x) (hb : Bare y) (hmore : NoMore x y) (hc : compileColl c cc = .multi fns) (hf : Forbids req y cc)
    (hv : v.WF) (hs : Spared c req x v) : ∀ f ∈ fns, f v = true := by
  unfold compileColl at hc
  injection hc with hc
  subst hc
  intro f hmem
  rcases List.mem_append.1 hmem with hmem | hmem
  · rcases List.mem_append.1 hmem with hmem | hmem
    · rcases List.mem_append.1 hmem with hmem | hmem
      · obtain ⟨p, hp, he⟩ := List.mem_filterMap.1 hmem
        have hpat := hmore.pattern.symm.trans (hf.notRegex p hp)
        cases hr : c.rxCompile p with
        | none => rw [hr] at he; cases he
        | some g =>
          rw [hr] at he
          cases he
          cases v with
          | str u => simp [notRegexFn, hs.pattern p g u hpat hr rfl]
          | _ => rfl
      · obtain ⟨p, hp, he⟩ := List.mem_filterMap.1 hmem
        have := hf.notFormats p hp
        rw [hb.format] at this
        cases this
    · split at hmem
      · rw [List.mem_singleton.1 hmem]
        unfold notValuesFn
        rw [Bool.not_eq_true', List.any_eq_false]
        intro w hw hj
        have hl := hmore.listed w (hf.notValues w hw)
        have hwf : w.WF := by
          cases hx with
          | const u wf => rcases hl with ⟨l, h, _⟩ | h <;> cases h; exact wf
          | enum l ne wf =>
            rcases hl with ⟨l', h, hm⟩ | h
            · cases h; exact wf w hm
            · cases h
          | pattern p f => rcases hl with ⟨l, h, _⟩ | h <;> cases h
          | required l => rcases hl with ⟨l, h, _⟩ | h <;> cases h
        exact hs.listed w hl (sameJson_of_jeq v w hv hwf hj)
      · cases hmem
  · split at hmem
    · rw [List.mem_singleton.1 hmem]
      cases v with
      | obj m =>
        unfold mustNotHaveFn
        rw [List.all_eq_true]
        intro k hk
        obtain ⟨h1, h2⟩ := hf.mustNotHave k hk
        rw [hmore.required] at h1
        rw [Option.isNone_iff_eq_none, lookupKV_none]
        exact hs.required k m h1 h2 rfl
      | _ => rfl
    · cases hmem

theorem negated_invalid {root : SchemaNode} {t : String} {req : List String} {x y : SchemaNode} {cc : ConstraintColl}
    {fns : List (JVal → Bool)} {v : JVal} (hx : Negated c t req x) (hsame : SameNegation x y) (hc : compileColl c cc = .multi fns)
    (hcov : Covers req y cc) (henum : CoversEnum y cc) (hv : ∀ f ∈ fns, f v = true) (ht : HasType t v) :
    Invalid (patternMeaning c) root x v := by
  have h1 := covers_clear (demanded := (· ∈ req)) hc hv hsame hcov fun _ h => h
  have h2 := covers_clear_enum hc hv hsame hcov henum
  refine .alone fun hl => ?_
  cases hx with
  | const w wf => exact h1.const w rfl rfl wf (hl.const w rfl).symm
  | enum l ne wf =>
    obtain ⟨w, hw, hs⟩ := hl.enum l rfl
    exact h2 l w rfl hw (wf w hw) hs.symm
  | pattern p f text compiles meaning =>
    generalize hv' : v = v' at ht
    cases ht with
    | string u =>
      subst hv'
      exact h1.pattern p u rfl rfl ⟨f, compiles, meaning u (hl.pattern u p rfl rfl)⟩
    | _ => exact absurd text (by decide)
  | required l object possible =>
    obtain ⟨k, hk, hr⟩ := possible
    generalize hv' : v = v' at ht
    cases ht with
    | object m =>
      subst hv'
      obtain ⟨w, hw⟩ := hl.required m l k rfl rfl hk
      exact h1.required l k m w rfl hk hr rfl hw
    | _ => exact absurd object (by decide)

/-- What is valid without the forbidden properties and has none of them is valid with them. -/
theorem valid_rest {pat : String → String → Prop} {root n : SchemaNode} {l : List String} {v : JVal}
    (hadd : n.additionalProperties = none) (hneg : ∀ x, n.not = some x → Invalid pat root x v)
    (hfree : ∀ k ∈ l, ∀ m, v = .obj m → k ∉ keysKV m)
    (h : Valid pat root { n with not := none, defs := none, definitions := none, properties := restProperties n.properties l } v) :
    Valid pat root n v := by
  obtain ⟨_, _, target, alternative, found, covered, localOk, refTarget, ref, allOf, anyOfMember, anyOf, properties, patternProperties, additional,
    prefixItems, items, containsSome, contains, chosen, o1, o2, o3, holds, i1, i2, i3, i4, ng⟩ := h
  refine .intro n v target alternative found ?_ ?_ refTarget ref allOf anyOfMember anyOf ?_ patternProperties ?_
    prefixItems items containsSome contains chosen o1 o2 o3 holds i1 i2 i3 i4 hneg
  · exact ⟨rfl, rfl, rfl, covered.dependentRequired, covered.dependentSchemas, covered.additionalItems, covered.unevaluatedItems,
      covered.maxContains, covered.itemsList, covered.id, covered.mergedIf, covered.mergedNot, covered.constraints⟩
  · exact ⟨localOk.type, localOk.enum, localOk.const, localOk.number, localOk.minLength, localOk.maxLength, localOk.pattern, localOk.minItems,
      localOk.maxItems, localOk.uniqueItems, localOk.itemsFalse, localOk.minProperties, localOk.maxProperties, localOk.required,
      fun m d k x _ hd => by rw [hadd] at hd; cases hd⟩
  · intro m p k x sub hm hp hk hsub
    have hkl : k ∉ l := fun hl => hfree k hl m hm (mem_keysKV.2 ⟨x, hk⟩)
    have hin : (k, sub) ∈ p.filter (fun q => decide (q.1 ∉ l)) :=
      List.mem_filter.2 ⟨lookupKV_mem hsub, by simpa using hkl⟩
    have hlook : lookupKV (p.filter (fun q => decide (q.1 ∉ l))) k = some sub := by
      clear hin hp
      induction p with
      | nil => cases hsub
      | cons q t ih =>
        obtain ⟨k', x'⟩ := q
        unfold lookupKV at hsub
        by_cases hk' : k' = k
        · subst hk'
          rw [if_pos rfl] at hsub
          rw [List.filter_cons_of_pos (by simpa using hkl)]
          unfold lookupKV
          rw [if_pos rfl]
          exact hsub
        · rw [if_neg hk'] at hsub
          by_cases hq : k' ∈ l
          · rw [List.filter_cons_of_neg (by simpa using hq)]
            exact ih hsub
          · rw [List.filter_cons_of_pos (by simpa using hq)]
            unfold lookupKV
            rw [if_neg hk']
            exact ih hsub
    refine properties m (p.filter (fun q => decide (q.1 ∉ l))) k x sub hm ?_ hk hlook
    show restProperties n.properties l = _
    unfold restProperties
    rw [hp]
    simp only [Option.getD_some]
    split
    · rename_i hf; rw [hf] at hin; cases hin
    · rename_i hf; rw [hf]
  · intro m d k x sub _ hd
    rw [hadd] at hd; cases hd

end Chaff
