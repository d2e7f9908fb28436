import Verif.Lemmas.Concurs
/-!
# What a merge forbids

The counterpart of `Verif.Lemmas.Concurs`: a value that is valid against each of the merged schemas is valid against the
result.
-/

namespace Chaff
open Comp
variable {c : PEnv} {o : Opts} {root : SchemaNode} {ty : ValuePath → Kind} {rec : MergeRec} {b : Nat} {path : ValuePath}

/-- What is known about the recursive calls. -/
def RecAbove (c : PEnv) (o : Opts) (root : SchemaNode) (ty : ValuePath → Kind) (rec : MergeRec) : Prop :=
  ∀ b path nodes s r s', nodes ≠ [] → (∀ x ∈ nodes, Concurs c o ty b path x) → rec nodes s = .ok r s' → s'.errors = [] →
    ∀ v, (∀ a ∈ nodes, Valid (patternMeaning c) root a v) → Valid (patternMeaning c) root r v

/-! ## The parts -/

theorem mapLoop_above (hk : ∀ l, Keeps c (rec l)) (hrec : RecConcurs c o root ty rec) (ha : RecAbove c o root ty rec) :
    ∀ (l m r : List (String × SchemaNode)) (s s' : PSt), (keysKV l).Nodup → (keysKV m).Nodup →
      (∀ k x, (k, x) ∈ l → Concurs c o ty b (path ++ [some k]) x) →
      (∀ k x, (k, x) ∈ m → Concurs c o ty b (path ++ [some k]) x) → mergeMapLoop rec m l s = .ok r s' → s'.errors = [] →
      ∀ k z v, lookupKV r k = some z → (∀ x, lookupKV m k = some x → Valid (patternMeaning c) root x v) →
        (∀ x, lookupKV l k = some x → Valid (patternMeaning c) root x v) → Valid (patternMeaning c) root z v := by
  intro l
  induction l with
  | nil =>
    intro m r s s' _ _ _ _ h _ k z v hz h1 _
    unfold mergeMapLoop at h
    obtain ⟨rfl, rfl⟩ := pure_ok.1 h
    exact h1 z hz
  | cons p l ih =>
    obtain ⟨k, v⟩ := p
    intro m r s s' hnl hnm hl hm h he j z u hz h1 h2
    have hnl' : k ∉ keysKV l ∧ (keysKV l).Nodup := by simpa [keysKV] using hnl
    have hv := hl k v (by simp)
    have hl' : ∀ k x, (k, x) ∈ l → Concurs c o ty b (path ++ [some k]) x := fun k x hx => hl k x (by simp [hx])
    have key : ∀ x s1, Concurs c o ty b (path ++ [some k]) x →
        ((∀ y, lookupKV m k = some y → Valid (patternMeaning c) root y u) → Valid (patternMeaning c) root v u →
          Valid (patternMeaning c) root x u) → mergeMapLoop rec (insertKV m k x) l s1 = .ok r s' →
        Valid (patternMeaning c) root z u := by
      intro x s1 hx hxu hrun
      refine ih (insertKV m k x) r s1 s' hnl'.2 (nodup_insertKV hnm) hl' (by
        intro j y hy
        rcases mem_insertKV hy with hy | hy
        · cases hy; exact hx
        · exact hm j y hy) hrun he j z u hz ?_ ?_
      · intro y hy
        by_cases hj : j = k
        · subst hj
          rw [lookup_insert_same] at hy
          cases hy
          exact hxu h1 (h2 v (by simp [lookupKV]))
        · rw [lookup_insert_other m x hj] at hy
          exact h1 y hy
      · intro y hy
        by_cases hj : j = k
        · subst hj
          exact (hnl'.1 (List.mem_map.2 ⟨_, lookupKV_mem hy, rfl⟩)).elim
        · exact h2 y (by simp [lookupKV, Ne.symm hj, hy])
    unfold mergeMapLoop at h
    cases hex : lookupKV m k with
    | some existing =>
      rw [hex] at h
      simp only at h
      obtain ⟨x, s1, g1, g2⟩ := bind_ok.1 h
      have he1 : s1.errors = [] := ((keeps_mergeMapLoop hk l _) s1 r s' g2).noErrors he
      have both : ∀ y ∈ [existing, v], Concurs c o ty b (path ++ [some k]) y := by
        intro y hy
        rcases List.mem_cons.1 hy with rfl | hy
        · exact hm k _ (lookupKV_mem hex)
        · rw [List.mem_singleton.1 hy]; exact hv
      obtain ⟨-, hx, -⟩ := hrec b (path ++ [some k]) [existing, v] s x s1 (by simp) both g1 he1
      refine key x _ hx (fun a1 a2 => ha b (path ++ [some k]) [existing, v] s x s1 (by simp) both g1 he1 u ?_) g2
      intro y hy
      rcases List.mem_cons.1 hy with rfl | hy
      · exact a1 _ hex
      · rw [List.mem_singleton.1 hy]; exact a2
    | none =>
      rw [hex] at h
      exact key v s hv (fun _ a => a) h

theorem map_above (hk : ∀ l, Keeps c (rec l)) (hrec : RecConcurs c o root ty rec) (ha : RecAbove c o root ty rec)
    {m l r : Option (List (String × SchemaNode))} {s s' : PSt} {P : String → Prop}
    (hnl : ∀ p, l = some p → (keysKV p).Nodup ∧ ∀ k ∈ keysKV p, P k)
    (hnm : ∀ p, m = some p → (keysKV p).Nodup ∧ ∀ k ∈ keysKV p, P k)
    (hl : ∀ p k x, l = some p → (k, x) ∈ p → Concurs c o ty b (path ++ [some k]) x)
    (hm : ∀ p k x, m = some p → (k, x) ∈ p → Concurs c o ty b (path ++ [some k]) x)
    (h : mergeMap rec m l s = .ok r s') (he : s'.errors = []) {p : List (String × SchemaNode)} {k : String} {z : SchemaNode}
    {v : JVal} (hr : r = some p) (hz : lookupKV p k = some z)
    (h1 : ∀ q x, m = some q → lookupKV q k = some x → Valid (patternMeaning c) root x v)
    (h2 : ∀ q x, l = some q → lookupKV q k = some x → Valid (patternMeaning c) root x v) :
    Valid (patternMeaning c) root z v := by
  unfold mergeMap at h
  cases l with
  | none =>
    obtain ⟨rfl, rfl⟩ := pure_ok.1 h
    exact h1 p z hr hz
  | some l =>
    simp only at h
    obtain ⟨r', s1, g1, g2⟩ := bind_ok.1 h
    obtain ⟨rfl, rfl⟩ := pure_ok.1 g2
    cases hr
    refine mapLoop_above hk hrec ha l (getZeroIfNil m []) p s s1 (hnl l rfl).1 ?_ (fun k x hx => hl l k x rfl hx) ?_ g1 he
      k z v hz ?_ (fun x hx => h2 l x rfl hx)
    · cases m with
      | none => simp [getZeroIfNil, keysKV]
      | some m => exact (hnm m rfl).1
    · intro k x hx
      cases m with
      | none => simp [getZeroIfNil] at hx
      | some m => exact hm m k x rfl hx
    · intro x hx
      cases m with
      | none => simp [getZeroIfNil, lookupKV] at hx
      | some m => exact h1 m x rfl hx

theorem items_above (ha : RecAbove c o root ty rec)
    {m l r : Option (ItemsData SchemaNode)} {s s' : PSt}
    (hdl : ∀ d, l = some d → d.disallow = false ∧ d.nodes.getD [] = [])
    (hdm : ∀ d, m = some d → d.disallow = false ∧ d.nodes.getD [] = [])
    (hl : ∀ d x, l = some d → d.node = some x → Concurs c o ty b (path ++ [none]) x)
    (hm : ∀ d x, m = some d → d.node = some x → Concurs c o ty b (path ++ [none]) x)
    (h : mergeItems rec m l s = .ok r s') (he : s'.errors = []) {d : ItemsData SchemaNode} {z : SchemaNode} {v : JVal}
    (hr : r = some d) (hz : d.node = some z)
    (h1 : ∀ q x, m = some q → q.node = some x → Valid (patternMeaning c) root x v)
    (h2 : ∀ q x, l = some q → q.node = some x → Valid (patternMeaning c) root x v) :
    Valid (patternMeaning c) root z v := by
  unfold mergeItems at h
  cases l with
  | none =>
    obtain ⟨rfl, rfl⟩ := pure_ok.1 h
    exact h1 d z hr hz
  | some dl =>
    simp only at h
    cases hd : dl.node with
    | none =>
      rw [hd] at h
      obtain ⟨rfl, rfl⟩ := pure_ok.1 h
      exact h1 d z hr hz
    | some x =>
      rw [hd] at h
      simp only at h
      have hz' : (getZeroIfNil m {}).disallow = false := by
        cases m with
        | none => rfl
        | some m => exact (hdm m rfl).1
      rw [if_neg (by rw [hz', (hdl dl rfl).1]; simp)] at h
      cases hmn : (getZeroIfNil m {}).node with
      | none =>
        rw [hmn] at h
        obtain ⟨e, rfl⟩ := pure_ok.1 h
        rw [hr] at e
        cases e
        cases hz
        exact h2 dl _ rfl hd
      | some y =>
        rw [hmn] at h
        simp only at h
        obtain ⟨w, s1, g1, g2⟩ := bind_ok.1 h
        obtain ⟨e, rfl⟩ := pure_ok.1 g2
        rw [hr] at e
        cases e
        cases hz
        have hmy : ∃ d', m = some d' ∧ d'.node = some y := by
          cases m with
          | none => simp [getZeroIfNil] at hmn
          | some d' => exact ⟨d', rfl, hmn⟩
        obtain ⟨d', hd', hy'⟩ := hmy
        refine ha b (path ++ [none]) [y, x] s z s1 (by simp) ?_ g1 he v ?_
        · intro w hw
          rcases List.mem_cons.1 hw with rfl | hw
          · exact hm d' _ hd' hy'
          · rw [List.mem_singleton.1 hw]; exact hl dl x rfl hd
        · intro w hw
          rcases List.mem_cons.1 hw with rfl | hw
          · exact h1 d' _ hd' hy'
          · rw [List.mem_singleton.1 hw]; exact h2 dl x rfl hd

/-! ## The merged schema -/

/-- How a value passes from two schemas to the merged one. -/
theorem joined_above {t : Kind} {r x y : SchemaNode} (hr : Mergeable c o t r) {v : JVal}
    (hx : Valid (patternMeaning c) root x v) (hy : Valid (patternMeaning c) root y v)
    (type : ∀ u, r.type = some u → x.type = some u ∨ y.type = some u)
    (values : OnLists x v → OnLists y v → OnLists r v)
    (minimum : ∀ u, r.minimum = some u → x.minimum = some u ∨ y.minimum = some u)
    (maximum : ∀ u, r.maximum = some u → x.maximum = some u ∨ y.maximum = some u)
    (exclusiveMinimum : ∀ u, r.exclusiveMinimum = some u → x.exclusiveMinimum = some u ∨ y.exclusiveMinimum = some u)
    (exclusiveMaximum : ∀ u, r.exclusiveMaximum = some u → x.exclusiveMaximum = some u ∨ y.exclusiveMaximum = some u)
    (minLength : ∀ u, r.minLength = some u → x.minLength = some u ∨ y.minLength = some u)
    (maxLength : ∀ u, r.maxLength = some u → x.maxLength = some u ∨ y.maxLength = some u)
    (minItems : ∀ u, r.minItems = some u → x.minItems = some u ∨ y.minItems = some u)
    (maxItems : ∀ u, r.maxItems = some u → x.maxItems = some u ∨ y.maxItems = some u)
    (minProperties : ∀ u, r.minProperties = some u → x.minProperties = some u ∨ y.minProperties = some u)
    (maxProperties : ∀ u, r.maxProperties = some u → x.maxProperties = some u ∨ y.maxProperties = some u)
    (pattern : ∀ u, r.pattern = some u → x.pattern = some u ∨ y.pattern = some u)
    (uniqueItems : ∀ u, r.uniqueItems = some u → x.uniqueItems = some u ∨ y.uniqueItems = some u)
    (required : ∀ l k, r.required = some l → k ∈ l → (∃ l', x.required = some l' ∧ k ∈ l') ∨ ∃ l', y.required = some l' ∧ k ∈ l')
    (allOf : ∀ l u, r.allOf = some l → u ∈ l → (∃ l', x.allOf = some l' ∧ u ∈ l') ∨ ∃ l', y.allOf = some l' ∧ u ∈ l')
    (properties : ∀ p k z u, r.properties = some p → lookupKV p k = some z →
      (∀ q w, x.properties = some q → lookupKV q k = some w → Valid (patternMeaning c) root w u) →
      (∀ q w, y.properties = some q → lookupKV q k = some w → Valid (patternMeaning c) root w u) →
      Valid (patternMeaning c) root z u)
    (prefixX : x.prefixItems = none) (prefixY : y.prefixItems = none)
    (items : ∀ d z u, r.items = some d → d.node = some z →
      (∀ q w, x.items = some q → q.node = some w → Valid (patternMeaning c) root w u) →
      (∀ q w, y.items = some q → q.node = some w → Valid (patternMeaning c) root w u) →
      Valid (patternMeaning c) root z u) :
    Valid (patternMeaning c) root r v := by
  obtain ⟨_, _, _, _, _, _, hl, _, _, h3, _, _, h6, _, _, _, h10, _⟩ := hx
  obtain ⟨_, _, _, _, _, _, gl, _, _, g3, _, _, g6, _, _, _, g10, _⟩ := hy
  refine .basic r v emptyNode emptyNode [] hr.covered ?_ ?_ ?_ ?_ ?_ ?_ ?_ ?_ ?_ ?_ ?_ ?_ ?_
  · exact
      { type := fun u hu => (type u hu).elim (hl.type u) (gl.type u)
        enum := (values ⟨hl.enum, hl.const⟩ ⟨gl.enum, gl.const⟩).1
        const := (values ⟨hl.enum, hl.const⟩ ⟨gl.enum, gl.const⟩).2
        number := by
          intro q hq
          have a := hl.number q hq
          have b := gl.number q hq
          refine ⟨fun u hu => (minimum u hu).elim (a.1 u) (b.1 u), fun u hu => (maximum u hu).elim (a.2 u) (b.2 u),
            fun u hu => (exclusiveMinimum u hu).elim (a.3 u) (b.3 u), fun u hu => (exclusiveMaximum u hu).elim (a.4 u) (b.4 u), ?_⟩
          intro u hu
          have hu : r.multipleOf = some u := hu
          rw [hr.multipleOf] at hu
          cases hu
        minLength := fun t u ht hu => (minLength u hu).elim (hl.minLength t u ht) (gl.minLength t u ht)
        maxLength := fun t u ht hu => (maxLength u hu).elim (hl.maxLength t u ht) (gl.maxLength t u ht)
        pattern := fun t u ht hu => (pattern u hu).elim (hl.pattern t u ht) (gl.pattern t u ht)
        minItems := fun t u ht hu => (minItems u hu).elim (hl.minItems t u ht) (gl.minItems t u ht)
        maxItems := fun t u ht hu => (maxItems u hu).elim (hl.maxItems t u ht) (gl.maxItems t u ht)
        uniqueItems := fun t ht hu => (uniqueItems _ hu).elim (hl.uniqueItems t ht) (gl.uniqueItems t ht)
        itemsFalse := by
          intro l d _ hd hf
          rw [hr.items d hd] at hf
          cases hf
        minProperties := fun t u ht hu => (minProperties u hu).elim (hl.minProperties t u ht) (gl.minProperties t u ht)
        maxProperties := fun t u ht hu => (maxProperties u hu).elim (hl.maxProperties t u ht) (gl.maxProperties t u ht)
        required := by
          intro mm l k hv hr hk
          rcases required l k hr hk with ⟨l', h1, h2⟩ | ⟨l', h1, h2⟩
          · exact hl.required mm l' k hv h1 h2
          · exact gl.required mm l' k hv h1 h2
        additionalFalse := by
          intro mm d k y _ hd
          rw [hr.additionalProperties] at hd
          cases hd }
  · intro u hu; rw [hr.ref] at hu; cases hu
  · intro u hu; rw [hr.ref] at hu; cases hu
  · intro l u hl' hu
    rcases allOf l u hl' hu with ⟨l', h1, h2⟩ | ⟨l', h1, h2⟩
    · exact h3 l' u h1 h2
    · exact g3 l' u h1 h2
  · intro l h; rw [hr.anyOf] at h; cases h
  · intro l h; rw [hr.anyOf] at h; cases h
  · intro mm p k u z hv hp hk hz
    exact properties p k z u hp hz (fun q w hq hw => h6 mm q k u w hv hq hk hw) (fun q w hq hw => g6 mm q k u w hv hq hk hw)
  · intro mm p _ _ _ _ _ hp; rw [hr.patternProperties] at hp; cases hp
  · intro mm p _ _ _ _ hp; rw [hr.additionalProperties] at hp; cases hp
  · intro l p _ _ _ _ hp; rw [hr.prefixItems] at hp; cases hp
  · intro l d i u z hv hd hz _ hi
    have e1 : prefixLength x = 0 := by unfold prefixLength; rw [prefixX]; rfl
    have e2 : prefixLength y = 0 := by unfold prefixLength; rw [prefixY]; rfl
    exact items d z u hd hz (fun q w hq hw => h10 l q i u w hv hq hw (by omega) hi)
      (fun q w hq hw => g10 l q i u w hv hq hw (by omega) hi)
  · intro l p _ hp; rw [hr.contains] at hp; cases hp
  · intro l p _ _ hp; rw [hr.contains] at hp; cases hp

/-- One iteration. -/
theorem fields_above (hk : ∀ l, Keeps c (rec l)) (hrec : RecConcurs c o root ty rec) (ha : RecAbove c o root ty rec)
    {m n r : SchemaNode} {s s' : PSt} (hm : Concurs c o ty b path m) (hn : Concurs c o ty b path n)
    (h : mergeFields c.fp rec m n s = .ok r s') (he : s'.errors = []) {v : JVal} (vm : Valid (patternMeaning c) root m v)
    (vn : Valid (patternMeaning c) root n v) : Valid (patternMeaning c) root r v := by
  have hr : Mergeable c o (ty path) r := by
    obtain ⟨_, g2, g3, g4, g5, _⟩ := fields_concur (A := fun _ => True) hk hrec hm hn.combines h he
    exact (g2.concurs (g5.trans hn.mergeable.anyOf) g3 g4).mergeable
  have hmb := hm.bare_eq
  have hnb := hn.bare_eq
  obtain ⟨hmm, ms, mall, mprops, mitems⟩ := hm
  obtain ⟨hnn, ns, nall, nprops, nitems⟩ := hn
  rename_i b
  obtain ⟨e, k, pr, it, s1, s2, g1, g2, ⟨u, m', w1, w2, w3, g3⟩, hval, rfl⟩ :=
    mergeFields_simple (hmb.symm ▸ hmm) (hnb.symm ▸ hnn) hk h he
  obtain ⟨rfl, -⟩ := warnSimple_quiet g3 he
  have k2 : Keeps c (mergeItems rec m.items n.items) := keeps_mergeItems hk _ _
  have he1 : s1.errors = [] := (k2 s1 it s' g2).noErrors he
  refine joined_above hr vm vn ?_ (fun a b => hval.above v a b) (fun u hu => (maxPtr_pick hu).symm) (fun u hu => (minPtr_pick hu).symm)
    (fun u hu => (maxPtr_pick hu).symm) (fun u hu => (minPtr_pick hu).symm) (fun u hu => (maxPtr_pick hu).symm)
    (fun u hu => (minPtr_pick hu).symm) (fun u hu => (maxPtr_pick hu).symm) (fun u hu => (minPtr_pick hu).symm)
    (fun u hu => (maxPtr_pick hu).symm) (fun u hu => (minPtr_pick hu).symm) (fun u hu => (getPtr_pick hu).symm)
    (fun u hu => (getPtr_pick hu).symm)
    (fun l k hl hk => (mem_mergeSlicePtrs (show mergeSlicePtrs [m.required, n.required] = some l from hl) k).1 hk)
    (fun l k hl hk => (mem_mergeSlicePtrs (show mergeSlicePtrs [m.allOf, n.allOf] = some l from hl) k).1 hk) ?_
    hmm.prefixItems hnn.prefixItems ?_
  · intro u hu
    have hu : mergeTypes m.type n.type = some u := hu
    obtain ⟨t0, t1, t2⟩ := mergeTypes_same hmm.known hmm.type hnn.type
    cases hn : n.type with
    | some y => exact .inr (by rw [t2 y hn] at hu; exact hu)
    | none => rw [hn] at hu; exact .inl hu
  · intro p k z u hp hz a1 a2
    exact map_above (b := b) (path := path) hk hrec ha hnn.names hmm.names nprops mprops g1 he1 hp hz a1 a2
  · intro d z u hd hz a1 a2
    exact items_above (b := b) (path := path) ha (fun d hd => ⟨hnn.items d hd, hnn.covered.itemsList d hd⟩)
      (fun d hd => ⟨hmm.items d hd, hmm.covered.itemsList d hd⟩) nitems mitems g2 he hd hz a1 a2

/-! ## Whole merges -/

theorem loop_above (hk : ∀ l, Keeps c (rec l)) (hrec : RecConcurs c o root ty rec) (ha : RecAbove c o root ty rec) {k : Nat} :
    ∀ (l : List SchemaNode) (m : SchemaNode) (s : PSt) (r : SchemaNode) (s' : PSt), Concurs c o ty b path m →
      (∀ x ∈ l, Concurs c o ty b path x) → mergeLoop c k rec m l s = .ok r s' →
      s'.errors = [] → ∀ v, Valid (patternMeaning c) root m v → (∀ x ∈ l, Valid (patternMeaning c) root x v) →
      Valid (patternMeaning c) root r v := by
  intro l
  induction l with
  | nil =>
    intro m s r s' _ _ h _ v hv _
    unfold mergeLoop at h
    obtain ⟨rfl, rfl⟩ := pure_ok.1 h
    exact hv
  | cons n l ih =>
    intro m s r s' hm hl h he v hv hall
    unfold mergeLoop at h
    obtain ⟨x, s1, h1, h2⟩ := bind_ok.1 h
    have he1 := ((keeps_mergeLoop hk _ _) s1 r s' h2).noErrors he
    have hn := hl n (by simp)
    rw [mergeOne_plain hn.mergeable.ref] at h1
    have hx := fields_above hk hrec ha hm hn h1 he1 hv (hall n (by simp))
    obtain ⟨rfl, g2, g3, g4, g5, _⟩ := fields_concur (A := fun _ => True) hk hrec hm hn.combines h1 he1
    exact ih x s1 r s' (g2.concurs (g5.trans hn.mergeable.anyOf) g3 g4) (fun y hy => hl y (by simp [hy])) h2 he v hx
      (fun y hy => hall y (by simp [hy]))

/-- A value is valid against the schema without its `allOf`, too. -/
theorem valid_noAllOf {pat : String → String → Prop} {n : SchemaNode} {v : JVal} (h : Valid pat root n v) :
    Valid pat root { n with allOf := none } v ∧ ∀ l x, n.allOf = some l → x ∈ l → Valid pat root x v := by
  obtain ⟨_, _, target, alternative, found, hc, hl, h1, h2, h3, h4, h5, h6, h7, h8, h9, h10, h11, h12, chosen, o1, o2, o3, holds, i1, i2, i3, i4, ng⟩ := h
  exact ⟨.intro _ v target alternative found ⟨hc.1, hc.2, hc.3, hc.4, hc.5, hc.6, hc.7, hc.8, hc.9, hc.10, hc.11, hc.12, hc.13⟩
    ⟨hl.1, hl.2, hl.3, fun q hq => ⟨(hl.4 q hq).1, (hl.4 q hq).2, (hl.4 q hq).3, (hl.4 q hq).4, (hl.4 q hq).5⟩, hl.5, hl.6, hl.7,
      hl.8, hl.9, hl.10, hl.11, hl.12, hl.13, hl.14, hl.15⟩ h1 h2 nofun h4 h5 h6 h7 h8 h9 h10 h11 h12
    chosen o1 o2 o3 holds i1 i2 i3 i4 ng, h3⟩

theorem residual_above (hk : ∀ l, Keeps c (rec l)) (hrec : RecConcurs c o root ty rec) (ha : RecAbove c o root ty rec) :
    ∀ (k : Nat) (m : SchemaNode) (s : PSt) (r : SchemaNode) (s' : PSt), Concurs c o ty b path m →
      flattenResidual c rec k m s = .ok r s' → s'.errors = [] → ∀ v, Valid (patternMeaning c) root m v →
      Valid (patternMeaning c) root r v := by
  intro k
  induction k with
  | zero => intro m s r s' _ h; simp [flattenResidual] at h
  | succ k ih =>
    intro m s r s' hm h he v hv
    unfold flattenResidual at h
    cases hal : m.allOf with
    | none => rw [hal] at h; obtain ⟨rfl, rfl⟩ := pure_ok.1 h; exact hv
    | some l =>
      rw [hal] at h
      simp only at h
      split at h
      · obtain ⟨rfl, rfl⟩ := pure_ok.1 h; exact hv
      obtain ⟨dd, s1, h1, h2⟩ := bind_ok.1 h
      cases h1
      by_cases hdep : s.depth + 1 > c.maxParseDepth
      · rw [if_pos hdep] at h2
        obtain ⟨rfl, rfl⟩ := pure_ok.1 h2; exact hv
      · rw [if_neg hdep] at h2
        obtain ⟨_, s2, h3, h4⟩ := bind_ok.1 h2
        obtain ⟨m', s3, h5, h6⟩ := bind_ok.1 h4
        obtain ⟨_, s4, h7, h8⟩ := bind_ok.1 h6
        rw [modS_apply] at h3 h7
        injection h3 with _ h3
        injection h7 with _ h7
        have e4 := ((keeps_flattenResidual hk k m') s4 r s' h8).noErrors he
        have e3 : s3.errors = [] := by rw [← h7] at e4; exact e4
        have hno : Concurs c o ty b path { m with allOf := none } := by
          have := (hm.combines (A := fun _ => True)).noAllOf
          exact this.concurs hm.mergeable.anyOf hm.mergeable.defs hm.mergeable.definitions
        have hall : ∀ x ∈ l ++ [{ m with allOf := none }], Concurs c o ty b path x := by
          intro x hx
          rcases List.mem_append.1 hx with hx | hx
          · exact (hm.combines (A := fun _ => True)).members hal x hx
          · rw [List.mem_singleton.1 hx]; exact hno
        obtain ⟨v1, v2⟩ := valid_noAllOf hv
        have hv' := ha b path _ s2 m' s3 (by simp) hall h5 e3 v (by
          intro x hx
          rcases List.mem_append.1 hx with hx | hx
          · exact v2 l x hal hx
          · rw [List.mem_singleton.1 hx]; exact v1)
        obtain ⟨_, hm', _⟩ := hrec b path _ s2 m' s3 (by simp) hall h5 e3
        exact ih m' s4 r s' hm' h8 he v hv'

/-- A merge of agreeing schemas. -/
theorem merge_above : ∀ k : Nat, RecAbove c o root ty (mergeNodes c k) := by
  intro k
  induction k with
  | zero => intro b path l s r s' _ _ h; simp [mergeNodes] at h
  | succ k ih =>
    intro b path l s r s' hne hl h he v hv
    have hk := fun l => keeps_mergeNodes (c := c) k l
    have hrec := (merge_concur (c := c) (o := o) (root := root) (ty := ty) k).concurs
    unfold mergeNodes mergeStep at h
    obtain ⟨m, s1, h1, h2⟩ := bind_ok.1 h
    have he1 := ((keeps_flattenResidual hk k m) s1 r s' h2).noErrors he
    obtain ⟨x, hx⟩ := List.exists_mem_of_ne_nil l hne
    have hempty : Concurs c o ty b path emptyNode := ((hl x hx).combines (A := fun _ => True)).empty
    have h0 : Valid (patternMeaning c) root emptyNode v := by
      refine .basic emptyNode v emptyNode emptyNode [] hempty.mergeable.covered ?_ nofun nofun nofun nofun nofun nofun nofun nofun
        nofun nofun nofun nofun
      exact ⟨nofun, nofun, nofun, fun q _ => ⟨nofun, nofun, nofun, nofun, nofun⟩, nofun, nofun, nofun, nofun, nofun, nofun,
        nofun, nofun, nofun, nofun, nofun⟩
    have hm := loop_above hk hrec ih l emptyNode s m s1 hempty hl h1 he1 v h0 hv
    have hmc : Concurs c o ty b path m := by
      obtain ⟨l', z, rfl⟩ : ∃ l' z, l = l' ++ [z] := ⟨_, _, (List.dropLast_append_getLast hne).symm⟩
      have hz := hl z (by simp)
      obtain ⟨-, g⟩ := loop_concur (A := fun _ => True) hk hrec l' emptyNode s m s1 hempty (fun x hx => hl x (by simp [hx])) hz.combines h1 he1
      exact g.combines.concurs (g.anyOf.trans hz.mergeable.anyOf) g.defs g.definitions
    exact residual_above hk hrec ih k m s1 r s' hmc h2 he v hm

end Chaff
