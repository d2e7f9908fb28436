import Verif.Lemmas.Concurs
/-!
# Merging schemas without combinations gathers their keywords
-/

namespace Chaff
open Comp
variable {c : PEnv} {o : Opts} {rec : MergeRec}

section
variable {α : Type} [LinearOrder α] {f : SchemaNode → Option α} {ns : List SchemaNode} {n : SchemaNode} {x : Option α}

theorem Strictest.snocMax (h : Strictest (· ≤ ·) f ns x) : Strictest (· ≤ ·) f (ns ++ [n]) (maxPtr [f n, x]) := by
  refine ⟨fun y hy => ?_, fun a ha y hy => ?_⟩
  · rcases maxPtr_pick hy with e | e
    · exact ⟨n, by simp, e⟩
    · obtain ⟨a, ha, e⟩ := h.1 y e
      exact ⟨a, by simp [ha], e⟩
  · rcases List.mem_append.1 ha with ha | ha
    · obtain ⟨z, hz, hle⟩ := h.2 a ha y hy
      obtain ⟨w, hw, hle'⟩ := maxPtr_right (a := f n) hz
      exact ⟨w, hw, le_trans hle hle'⟩
    · rw [List.mem_singleton.1 ha] at hy
      exact maxPtr_left hy

theorem Strictest.snocMin (h : Strictest (· ≥ ·) f ns x) : Strictest (· ≥ ·) f (ns ++ [n]) (minPtr [f n, x]) := by
  refine ⟨fun y hy => ?_, fun a ha y hy => ?_⟩
  · rcases minPtr_pick hy with e | e
    · exact ⟨n, by simp, e⟩
    · obtain ⟨a, ha, e⟩ := h.1 y e
      exact ⟨a, by simp [ha], e⟩
  · rcases List.mem_append.1 ha with ha | ha
    · obtain ⟨z, hz, hle⟩ := h.2 a ha y hy
      obtain ⟨w, hw, hle'⟩ := minPtr_right (a := f n) hz
      exact ⟨w, hw, le_trans hle' hle⟩
    · rw [List.mem_singleton.1 ha] at hy
      exact minPtr_left hy

end

theorem Shared.snoc {α : Type} {f : SchemaNode → Option α} {ns : List SchemaNode} {n : SchemaNode} {x r : Option α}
    (h : Shared f ns x) (pick : ∀ y, r = some y → x = some y ∨ f n = some y) (left : ∀ y, x = some y → r = some y)
    (right : ∀ y, f n = some y → r = some y) : Shared f (ns ++ [n]) r := by
  intro y
  constructor
  · intro hy
    rcases pick y hy with e | e
    · obtain ⟨a, ha, e⟩ := (h y).1 e
      exact ⟨a, by simp [ha], e⟩
    · exact ⟨n, by simp, e⟩
  · rintro ⟨a, ha, e⟩
    rcases List.mem_append.1 ha with ha | ha
    · exact left y ((h y).2 ⟨a, ha, e⟩)
    · rw [List.mem_singleton.1 ha] at e
      exact right y e

theorem getPtr_snoc {α : Type} {f : SchemaNode → Option α} {ns : List SchemaNode} {n : SchemaNode} {x : Option α}
    (h : Shared f ns x) (same : ∀ a b, x = some a → f n = some b → a = b) : Shared f (ns ++ [n]) (getPtr [f n, x]) := by
  refine h.snoc (fun y hy => (getPtr_pick hy).symm) (fun y hy => ?_) fun y hy => by rw [hy]; rfl
  cases hn : f n with
  | none => rw [hy]; rfl
  | some z => rw [same y z hy hn]; rfl

/-! ## The parts -/

theorem mapLoop_names : ∀ (l m r : List (String × SchemaNode)) (s s' : PSt), mergeMapLoop rec m l s = .ok r s' →
    (∀ k, k ∈ keysKV r ↔ k ∈ keysKV m ∨ k ∈ keysKV l) ∧
    (∀ k, k ∉ keysKV l → lookupKV r k = lookupKV m k) ∧
    (∀ k x, (keysKV l).Nodup → k ∉ keysKV m → lookupKV l k = some x → lookupKV r k = some x) := by
  intro l
  induction l with
  | nil =>
    intro m r s s' h
    unfold mergeMapLoop at h
    obtain ⟨rfl, rfl⟩ := pure_ok.1 h
    exact ⟨fun k => by simp [keysKV], fun _ _ => rfl, fun k x _ _ h => by simp [lookupKV] at h⟩
  | cons p l ih =>
    obtain ⟨k, v⟩ := p
    intro m r s s' h
    have key : ∀ x s1, mergeMapLoop rec (insertKV m k x) l s1 = .ok r s' → (k ∉ keysKV m → x = v) →
        (∀ j, j ∈ keysKV r ↔ j ∈ keysKV m ∨ j ∈ keysKV ((k, v) :: l)) ∧
        (∀ j, j ∉ keysKV ((k, v) :: l) → lookupKV r j = lookupKV m j) ∧
        (∀ j y, (keysKV ((k, v) :: l)).Nodup → j ∉ keysKV m → lookupKV ((k, v) :: l) j = some y → lookupKV r j = some y) := by
      intro x s1 hrun hx
      obtain ⟨i1, i2, i3⟩ := ih (insertKV m k x) r s1 s' hrun
      refine ⟨fun j => ?_, fun j hj => ?_, fun j y hnd hj hy => ?_⟩
      · rw [i1, keys_insertKV]
        simp only [keysKV, List.map_cons, List.mem_cons]
        tauto
      · have hj' : j ≠ k ∧ j ∉ keysKV l := by simpa [keysKV] using hj
        rw [i2 j hj'.2, lookup_insert_other m x hj'.1]
      · have hnd' : k ∉ keysKV l ∧ (keysKV l).Nodup := by simpa [keysKV] using hnd
        unfold lookupKV at hy
        split at hy
        · rename_i e
          cases hy
          subst e
          rw [i2 k hnd'.1, lookup_insert_same, hx hj]
        · rename_i e
          refine i3 j y hnd'.2 ?_ hy
          rw [keys_insertKV]
          rintro (h | h)
          · exact e h.symm
          · exact hj h
    unfold mergeMapLoop at h
    cases hex : lookupKV m k with
    | some existing =>
      rw [hex] at h
      simp only at h
      obtain ⟨x, s1, h1, h2⟩ := bind_ok.1 h
      exact key x s1 h2 fun hk => (hk (List.mem_map.2 ⟨_, lookupKV_mem hex, rfl⟩)).elim
    | none =>
      rw [hex] at h
      exact key v s h fun _ => rfl

theorem lookup_none_iff {β : Type} {m : List (String × β)} {k : String} : lookupKV m k = none ↔ k ∉ keysKV m := by
  induction m with
  | nil => simp [lookupKV, keysKV]
  | cons p t ih =>
    obtain ⟨k', v⟩ := p
    unfold lookupKV
    split
    · rename_i h; subst h; simp [keysKV]
    · rename_i h
      rw [ih]
      simp [keysKV, Ne.symm h]

theorem memberSchemas_snoc (k : String) (ns : List SchemaNode) (n : SchemaNode) :
    memberSchemas k (ns ++ [n]) = memberSchemas k ns ++ (n.properties.bind (lookupKV · k)).toList := by
  unfold memberSchemas
  rw [List.filterMap_append]
  cases h : n.properties.bind (lookupKV · k) <;> simp [h]

theorem itemSchemas_snoc (ns : List SchemaNode) (n : SchemaNode) :
    itemSchemas (ns ++ [n]) = itemSchemas ns ++ (n.items.bind (·.node)).toList := by
  unfold itemSchemas
  rw [List.filterMap_append]
  cases h : n.items.bind (·.node) <;> simp [h]

theorem mergeSlice_getD {α : Type} (a b : Option (List α)) : (mergeSlicePtrs [a, b]).getD [] = a.getD [] ++ b.getD [] := by
  unfold mergeSlicePtrs
  cases a <;> cases b <;> simp <;> split <;> simp_all

/-- One iteration. -/
theorem fields_gathers {t : Kind} {m n r : SchemaNode} {ns : List SchemaNode} {s s' : PSt} (hk : ∀ l, Keeps c (rec l))
    (hm : Mergeable c o t (bare m)) (hn : Mergeable c o t (bare n)) (hg : Gathers ns m) (hall : n.allOf = none) (hany : n.anyOf = none)
    (h : mergeFields c.fp rec m n s = .ok r s') (he : s'.errors = []) : Gathers (ns ++ [n]) r := by
  obtain ⟨e, k, pr, it, s1, s2, g1, g2, ⟨u, m', w1, w2, w3, g3⟩, hval, rfl⟩ := mergeFields_simple hm hn hk h he
  obtain ⟨rfl, p1, p2, p3⟩ := warnSimple_quiet g3 he
  obtain ⟨-, t1, t2⟩ := mergeTypes_same hm.known hm.type hn.type
  have hgn : ∀ x, n.properties = some x → (keysKV x).Nodup := fun x hx => (hn.names x hx).1
  -- the members
  have hpr : (∀ k, k ∈ keysKV (pr.getD []) ↔ k ∈ keysKV (m.properties.getD []) ∨ k ∈ keysKV (n.properties.getD [])) ∧
      (∀ k x, k ∉ keysKV (n.properties.getD []) → (∃ p, m.properties = some p ∧ lookupKV p k = some x) →
        ∃ p, pr = some p ∧ lookupKV p k = some x) ∧
      (∀ k x, k ∉ keysKV (m.properties.getD []) → (∃ p, n.properties = some p ∧ lookupKV p k = some x) →
        ∃ p, pr = some p ∧ lookupKV p k = some x) := by
    unfold mergeMap at g1
    cases hnp : n.properties with
    | none =>
      rw [hnp] at g1
      obtain ⟨rfl, -⟩ := pure_ok.1 g1
      refine ⟨fun k => by simp [keysKV], fun k x _ h => h, ?_⟩
      rintro k x _ ⟨p, hp, _⟩
      cases hp
    | some l =>
      rw [hnp] at g1
      simp only at g1
      obtain ⟨r', s3, h1, h2⟩ := bind_ok.1 g1
      obtain ⟨rfl, -⟩ := pure_ok.1 h2
      obtain ⟨i1, i2, i3⟩ := mapLoop_names l _ r' s s3 h1
      have hz : (getZeroIfNil m.properties []) = m.properties.getD [] := by cases m.properties <;> rfl
      rw [hz] at i1 i2 i3
      refine ⟨i1, ?_, ?_⟩
      · rintro k x hk ⟨p, hp, hx⟩
        refine ⟨r', rfl, ?_⟩
        rw [i2 k hk, hp]
        exact hx
      · rintro k x hk ⟨p, hp, hx⟩
        cases hp
        exact ⟨r', rfl, i3 k x (hgn l hnp) hk hx⟩
  obtain ⟨q1, q2, q3⟩ := hpr
  -- the items
  have hit : (∀ d, it = some d → d.disallow = false) ∧
      (n.items.bind (·.node) = none → it = m.items) ∧
      (∀ x, n.items.bind (·.node) = some x → (∀ d, m.items = some d → d.node = none) → ∃ d, it = some d ∧ d.node = some x) := by
    have hmd : ∀ d, m.items = some d → d.disallow = false := hm.items
    have hnd : ∀ d, n.items = some d → d.disallow = false := hn.items
    unfold mergeItems at g2
    cases hni : n.items with
    | none =>
      rw [hni] at g2
      obtain ⟨rfl, -⟩ := pure_ok.1 g2
      exact ⟨hmd, fun _ => rfl, fun x h => by cases h⟩
    | some d =>
      rw [hni] at g2
      simp only at g2
      cases hd : d.node with
      | none =>
        rw [hd] at g2
        obtain ⟨rfl, -⟩ := pure_ok.1 g2
        refine ⟨hmd, fun _ => rfl, fun x h => ?_⟩
        simp only [Option.bind_some] at h
        rw [hd] at h; cases h
      | some x =>
        rw [hd] at g2
        simp only at g2
        have hz : (getZeroIfNil m.items {}).disallow = false := by
          cases hmi : m.items with
          | none => rfl
          | some a => exact hmd a hmi
        rw [if_neg (by rw [hz, hnd d hni]; simp)] at g2
        cases hmn : (getZeroIfNil m.items {}).node with
        | none =>
          rw [hmn] at g2
          obtain ⟨rfl, -⟩ := pure_ok.1 g2
          refine ⟨by rintro _ ⟨⟩; exact hz, fun h => ?_, fun y h _ => ⟨_, rfl, ?_⟩⟩
          · simp only [Option.bind_some] at h
            rw [hd] at h; cases h
          · simp only [Option.bind_some] at h
            rw [hd] at h; exact h
        | some y =>
          rw [hmn] at g2
          simp only at g2
          obtain ⟨z, s3, h1, h2⟩ := bind_ok.1 g2
          obtain ⟨rfl, -⟩ := pure_ok.1 h2
          refine ⟨by rintro _ ⟨⟩; exact hz, fun h => ?_, fun w _ h => ?_⟩
          · simp only [Option.bind_some] at h
            rw [hd] at h; cases h
          · cases hmi : m.items with
            | none => rw [hmi] at hmn; cases hmn
            | some a =>
              rw [hmi] at hmn
              have := h a hmi
              rw [show (getZeroIfNil (some a) {} : ItemsData SchemaNode) = a from rfl, this] at hmn
              cases hmn
  obtain ⟨j1, j2, j3⟩ := hit
  have nkeys : ∀ k, k ∈ keysKV (n.properties.getD []) ↔ n.properties.bind (lookupKV · k) ≠ none := by
    intro k
    cases hp : n.properties with
    | none => simp [keysKV]
    | some p =>
      show k ∈ keysKV p ↔ lookupKV p k ≠ none
      rw [ne_eq, lookup_none_iff, not_not]
  exact
    { ref := hg.ref
      allOf := by
        show mergeSlicePtrs [m.allOf, n.allOf] = none
        rw [hg.allOf, hall]; rfl
      anyOf := by
        show mergeSlicePtrs [m.anyOf, n.anyOf] = none
        rw [hg.anyOf, hany]; rfl
      oneOf := by
        show mergeSlicePtrs [m.oneOf, n.oneOf] = none
        rw [hg.oneOf, show n.oneOf = none from hn.covered.oneOf]; rfl
      ifN := hg.ifN
      not := hg.not
      type := by
        refine hg.type.snoc (fun y hy => ?_) t1 t2
        have hy : mergeTypes m.type n.type = some y := hy
        cases hnt : n.type with
        | some z => exact .inr (hnt.symm.trans (hnt.trans ((t2 z hnt).symm.trans hy)))
        | none => rw [hnt] at hy; exact .inl hy
      listed := by
        intro v hwf hsome hevery
        refine hval.stays v hwf ?_ ?_ (hevery n (by simp))
        · by_cases hex : ∃ x ∈ ns, Lists x v
          · exact .inl (hg.listed v hwf hex fun x hx => hevery x (by simp [hx]))
          · obtain ⟨x, hx, hl⟩ := hsome
            rcases List.mem_append.1 hx with hx | hx
            · exact (hex ⟨x, hx, hl⟩).elim
            · rw [List.mem_singleton.1 hx] at hl; exact .inr hl
        · intro hne
          have : ∃ x ∈ ns, x.enum ≠ none ∨ x.const ≠ none := by
            by_contra hcon
            have := hg.unlisted fun x hx => by
              constructor
              · by_contra h0; exact hcon ⟨x, hx, .inl h0⟩
              · by_contra h0; exact hcon ⟨x, hx, .inr h0⟩
            rcases hne with h | h
            · exact h this.1
            · exact h this.2
          obtain ⟨x, hx, hxe⟩ := this
          exact hg.listed v hwf ⟨x, hx, hevery x (by simp [hx]) hxe⟩ fun x hx => hevery x (by simp [hx])
      unlisted := fun h =>
        hval.none (hg.unlisted fun x hx => h x (by simp [hx])).1 (hg.unlisted fun x hx => h x (by simp [hx])).2
          (h n (by simp)).1 (h n (by simp)).2
      oneList := hval.oneList
      minimum := hg.minimum.snocMax
      maximum := hg.maximum.snocMin
      exclusiveMinimum := hg.exclusiveMinimum.snocMax
      exclusiveMaximum := hg.exclusiveMaximum.snocMin
      multipleOf := by
        show findHcf c.fp n.multipleOf m.multipleOf = none
        rw [hg.multipleOf, show n.multipleOf = none from hn.multipleOf]
        rfl
      minLength := hg.minLength.snocMax
      maxLength := hg.maxLength.snocMin
      pattern := getPtr_snoc hg.pattern fun a b ha hb => p1 a b (w1.trans ha) hb
      format := getPtr_snoc hg.format fun a b ha hb => p2 a b (w2.trans ha) hb
      minItems := hg.minItems.snocMax
      maxItems := hg.maxItems.snocMin
      uniqueItems := getPtr_snoc hg.uniqueItems fun a b ha hb => p3 a b (w3.trans ha) hb
      prefixItems := hg.prefixItems
      contains := hg.contains
      minContains := by
        show maxPtr [n.minContains, m.minContains] = none
        rw [hg.minContains, show n.minContains = none from hn.minContains]
        rfl
      items := j1
      noItems := by
        rw [itemSchemas_snoc]
        intro h
        obtain ⟨a, b⟩ := List.append_eq_nil_iff.1 h
        intro d hd
        have hd : it = some d := hd
        rw [j2 (by simpa using b)] at hd
        exact hg.noItems a d hd
      oneItems := by
        rw [itemSchemas_snoc]
        intro x h
        show ∃ d, it = some d ∧ d.node = some x
        cases hni : n.items.bind (·.node) with
        | none =>
          rw [hni] at h
          rw [j2 hni]
          exact hg.oneItems x (by simpa using h)
        | some y =>
          rw [hni] at h
          have : itemSchemas ns = [] ∧ y = x := by
            cases hl : itemSchemas ns with
            | nil => rw [hl] at h; simpa using h
            | cons a b => rw [hl] at h; simp at h
          rw [← this.2]
          exact j3 y hni (hg.noItems this.1)
      minProperties := hg.minProperties.snocMax
      maxProperties := hg.maxProperties.snocMin
      required := by
        show (mergeSlicePtrs [m.required, n.required]).getD [] = _
        rw [mergeSlice_getD, hg.required]
        simp
      names := by
        intro k
        show k ∈ keysKV (pr.getD []) ↔ _
        rw [q1, memberSchemas_snoc, hg.names, nkeys]
        cases hb : n.properties.bind (lookupKV · k) <;> simp
      oneMember := by
        intro k x h
        show ∃ p, pr = some p ∧ lookupKV p k = some x
        rw [memberSchemas_snoc] at h
        cases hb : n.properties.bind (lookupKV · k) with
        | none =>
          rw [hb] at h
          refine q2 k x ?_ (hg.oneMember k x (by simpa using h))
          rw [nkeys, hb]
          simp
        | some y =>
          rw [hb] at h
          have : memberSchemas k ns = [] ∧ y = x := by
            cases hl : memberSchemas k ns with
            | nil => rw [hl] at h; simpa using h
            | cons a b => rw [hl] at h; simp at h
          rw [← this.2]
          refine q3 k y ?_ ?_
          · rw [hg.names, this.1]; simp
          · cases hp : n.properties with
            | none => rw [hp] at hb; cases hb
            | some p => rw [hp] at hb; exact ⟨p, rfl, hb⟩ }

theorem gathers_nil : Gathers [] emptyNode where
  ref := rfl
  allOf := rfl
  anyOf := rfl
  oneOf := rfl
  ifN := rfl
  not := rfl
  type := by intro y; simp [emptyNode]
  listed := by rintro v _ ⟨n, hn, _⟩; cases hn
  unlisted := fun _ => ⟨rfl, rfl⟩
  oneList := .inl rfl
  minimum := ⟨nofun, nofun⟩
  maximum := ⟨nofun, nofun⟩
  exclusiveMinimum := ⟨nofun, nofun⟩
  exclusiveMaximum := ⟨nofun, nofun⟩
  multipleOf := rfl
  minLength := ⟨nofun, nofun⟩
  maxLength := ⟨nofun, nofun⟩
  pattern := by intro y; simp [emptyNode]
  format := by intro y; simp [emptyNode]
  minItems := ⟨nofun, nofun⟩
  maxItems := ⟨nofun, nofun⟩
  uniqueItems := by intro y; simp [emptyNode]
  prefixItems := rfl
  contains := rfl
  minContains := rfl
  items := nofun
  noItems := fun _ => nofun
  oneItems := by intro x h; cases h
  minProperties := ⟨nofun, nofun⟩
  maxProperties := ⟨nofun, nofun⟩
  required := rfl
  names := by intro k; simp [memberSchemas, keysKV, emptyNode]
  oneMember := by intro k x h; cases h

variable {ty : ValuePath → Kind} {b : Nat} {path : ValuePath} {root : SchemaNode} {A : SchemaNode → Prop}

/-- A merge of agreeing schemas without combinations. -/
theorem merge_gathers {k : Nat} {l : List SchemaNode} {z r : SchemaNode} {s s' : PSt}
    (hl : ∀ x ∈ l, Concurs c o ty b path x) (hz : Combines c o ty A b path z) (hall : ∀ x ∈ l ++ [z], x.allOf = none)
    (hany : z.anyOf = none) (h : mergeNodes c k (l ++ [z]) s = .ok r s') (he : s'.errors = []) : Gathers (l ++ [z]) r := by
  cases k with
  | zero => simp [mergeNodes] at h
  | succ k =>
    have hk := fun l => keeps_mergeNodes (c := c) k l
    have hrec := (merge_concur (c := c) (o := o) (root := emptyNode) (ty := ty) k).concurs
    unfold mergeNodes mergeStep at h
    obtain ⟨m, s1, h1, h2⟩ := bind_ok.1 h
    have he1 := ((keeps_flattenResidual hk k m) s1 r s' h2).noErrors he
    have loop : ∀ (l : List SchemaNode) (m : SchemaNode) (ns : List SchemaNode) (s : PSt) (r : SchemaNode) (s' : PSt), Concurs c o ty b path m →
        Gathers ns m → (∀ x ∈ l, Concurs c o ty b path x) → (∀ x ∈ l, x.allOf = none) →
        mergeLoop c k (mergeNodes c k) m (l ++ [z]) s = .ok r s' → s'.errors = [] → Gathers (ns ++ (l ++ [z])) r := by
      intro l
      induction l with
      | nil =>
        intro m ns s r s' hm hg _ _ h he
        rw [List.nil_append] at h
        unfold mergeLoop at h
        obtain ⟨x, s1, h1, h2⟩ := bind_ok.1 h
        unfold mergeLoop at h2
        obtain ⟨rfl, rfl⟩ := pure_ok.1 h2
        rw [mergeOne_plain (n := z) hz.mergeable.ref] at h1
        exact fields_gathers hk (hm.bare_eq.symm ▸ hm.mergeable) hz.mergeable hg (hall z (by simp)) hany h1 he
      | cons n l ih =>
        intro m ns s r s' hm hg hl hal h he
        rw [List.cons_append] at h
        unfold mergeLoop at h
        obtain ⟨x, s1, h1, h2⟩ := bind_ok.1 h
        have he1 := ((keeps_mergeLoop hk _ _) s1 r s' h2).noErrors he
        have hn := hl n (by simp)
        rw [mergeOne_plain hn.mergeable.ref] at h1
        have hx := fields_gathers hk (hm.bare_eq.symm ▸ hm.mergeable) (hn.bare_eq.symm ▸ hn.mergeable) hg (hal n (by simp))
          hn.mergeable.anyOf h1 he1
        obtain ⟨rfl, g2, g3, g4, g5, _⟩ := fields_concur (A := fun _ => True) hk hrec hm hn.combines h1 he1
        have := ih x (ns ++ [n]) s1 r s' (g2.concurs (g5.trans hn.mergeable.anyOf) g3 g4) hx (fun y hy => hl y (by simp [hy]))
          (fun y hy => hal y (by simp [hy])) h2 he
        simpa using this
    have hm := loop l emptyNode [] s m s1 hz.empty gathers_nil hl (fun x hx => hall x (by simp [hx])) h1 he1
    rw [List.nil_append] at hm
    cases k with
    | zero => simp [flattenResidual] at h2
    | succ k =>
      unfold flattenResidual at h2
      rw [hm.allOf] at h2
      obtain ⟨rfl, rfl⟩ := pure_ok.1 h2
      exact hm

end Chaff
