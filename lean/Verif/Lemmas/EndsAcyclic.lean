import Verif.Lemmas.EndsRefs
/-!
# Acyclic references to definitions have ranks
-/

namespace Chaff
open Comp

/-! ## Where definitions come from -/

theorem decodeMap_lookup : ∀ {m : List (String × JVal)} {l : List (String × SchemaNode)}, decodeMap m = some l →
    ∀ {k : String} {n : SchemaNode}, lookupKV l k = some n → ∃ d, (k, d) ∈ m ∧ decodeNode d = some n := by
  intro m
  induction m with
  | nil => intro l h k n hl; unfold decodeMap at h; simp at h; subst h; cases hl
  | cons p t ih =>
    intro l h k n hl
    obtain ⟨k', y⟩ := p
    unfold decodeMap decodePair at h
    cases h1 : decodeNode y with
    | none => rw [h1] at h; simp at h
    | some x =>
      rw [h1] at h
      cases h2 : decodeMap t with
      | none => rw [h2] at h; simp at h
      | some r =>
        rw [h2] at h
        simp at h
        subst h
        unfold lookupKV at hl
        split at hl
        · rename_i hk
          cases hl
          subst hk
          exact ⟨y, List.mem_cons_self .., h1⟩
        · obtain ⟨d, a, b⟩ := ih h2 hl
          exact ⟨d, List.mem_cons_of_mem _ a, b⟩

/-- The map under one of the two keywords of definitions. -/
def defsOf (kw : String) (n : SchemaNode) : Option (List (String × SchemaNode)) :=
  if kw = "$defs" then n.defs else n.definitions

theorem decodeField_defs {kw : String} (hkw : kw = "$defs" ∨ kw = "definitions") {p : String × JVal} {n n' : SchemaNode}
    (h : decodeField p n = some n') {l} (hl : defsOf kw n' = some l) :
    defsOf kw n = some l ∨ ∃ dm, p = (kw, .obj dm) ∧ decodeMap dm = some l := by
  obtain ⟨k, x⟩ := p
  unfold decodeField at h
  cases hk : SubKey.ofName k with
  | none =>
    rw [hk] at h
    dsimp only at h
    cases hd : decBaseField n.toNodeBase k x with
    | none => rw [hd] at h; simp at h
    | some b =>
      rw [hd] at h; simp at h; subst h
      exact .inl hl
  | some sk =>
    rw [hk] at h
    dsimp only at h
    cases hd : decodeSub sk.shape x with
    | none => rw [hd] at h; simp at h
    | some y =>
      rw [hd] at h; simp at h; subst h
      have hname : k = sk.name := (ofName_name hk).symm
      have key : ∀ (sk' : SubKey), sk'.name = kw → sk'.shape = .map → sk = sk' → decodeSub .map x = some (.map (some l)) →
          ∃ dm, (k, x) = (kw, .obj dm) ∧ decodeMap dm = some l := by
        intro sk' e1 e2 e3 hx
        unfold decodeSub at hx
        cases x with
        | obj dm =>
          simp at hx
          exact ⟨dm, by rw [hname, e3, e1], hx⟩
        | null => simp at hx
        | bool _ => simp at hx
        | num _ => simp at hx
        | str _ => simp at hx
        | arr _ => simp at hx
      rcases hkw with rfl | rfl
      · by_cases hs : sk = .defs
        · refine .inr ?_
          subst hs
          cases y with
          | map m =>
            have : m = some l := hl
            subst this
            exact key .defs rfl rfl rfl hd
          | node _ => cases x <;> simp [SubKey.shape, decodeSub] at hd
          | nodes _ => cases x <;> simp [SubKey.shape, decodeSub] at hd
          | orFalse _ => cases x <;> simp [SubKey.shape, decodeSub] at hd
          | items _ => cases x <;> simp [SubKey.shape, decodeSub] at hd
        · refine .inl ?_
          have e : (setSub n sk y).defs = n.defs := by
            cases sk <;> cases y <;> first | rfl | exact absurd rfl hs
          unfold defsOf at hl ⊢
          rw [if_pos rfl] at hl ⊢
          rw [← e]; exact hl
      · by_cases hs : sk = .definitions
        · refine .inr ?_
          subst hs
          cases y with
          | map m =>
            have : m = some l := hl
            subst this
            exact key .definitions rfl rfl rfl hd
          | node _ => cases x <;> simp [SubKey.shape, decodeSub] at hd
          | nodes _ => cases x <;> simp [SubKey.shape, decodeSub] at hd
          | orFalse _ => cases x <;> simp [SubKey.shape, decodeSub] at hd
          | items _ => cases x <;> simp [SubKey.shape, decodeSub] at hd
        · refine .inl ?_
          have e : (setSub n sk y).definitions = n.definitions := by
            cases sk <;> cases y <;> first | rfl | exact absurd rfl hs
          unfold defsOf at hl ⊢
          rw [if_neg (by decide)] at hl ⊢
          rw [← e]; exact hl

theorem decodeFields_defs {kw : String} (hkw : kw = "$defs" ∨ kw = "definitions") : ∀ (m : List (String × JVal)) (n n' : SchemaNode),
    decodeFields m n = some n' → ∀ {l}, defsOf kw n' = some l → defsOf kw n = some l ∨ ∃ dm, (kw, .obj dm) ∈ m ∧ decodeMap dm = some l := by
  intro m
  induction m with
  | nil => intro n n' h l hl; unfold decodeFields at h; simp at h; subst h; exact .inl hl
  | cons p t ih =>
    intro n n' h l hl
    unfold decodeFields at h
    cases h1 : decodeField p n with
    | none => rw [h1] at h; simp at h
    | some x =>
      rw [h1] at h
      rcases ih x n' h hl with h2 | ⟨dm, a, b⟩
      · rcases decodeField_defs hkw h1 h2 with h3 | ⟨dm, rfl, b⟩
        · exact .inl h3
        · exact .inr ⟨dm, List.mem_cons_self .., b⟩
      · exact .inr ⟨dm, List.mem_cons_of_mem _ a, b⟩

/-- A definition of the decoded schema is decoded from a definition of the text. -/
theorem definition_text {kw name : String} (hkw : kw = "$defs" ∨ kw = "definitions") {schema : JVal} {root n : SchemaNode} {l}
    (h : decodeNode schema = some root) (hl : defsOf kw root = some l) (hn : lookupKV l name = some n) :
    ∃ d ∈ definitionTexts kw name schema, decodeNode d = some n := by
  unfold decodeNode at h
  cases schema with
  | obj m =>
    rcases decodeFields_defs hkw m _ _ h hl with h1 | ⟨dm, h1, h2⟩
    · unfold defsOf at h1
      split at h1 <;> cases h1
    · obtain ⟨d, h3, h4⟩ := decodeMap_lookup h2 hn
      refine ⟨d, ?_, h4⟩
      rw [definitionTexts, List.mem_flatMap]
      refine ⟨_, h1, ?_⟩
      rw [if_pos rfl]
      dsimp only
      rw [List.mem_flatMap]
      exact ⟨_, h3, by rw [if_pos rfl]; exact List.mem_singleton.2 rfl⟩
  | null =>
    simp at h; subst h
    unfold defsOf at hl
    split at hl <;> cases hl
  | bool _ => simp at h
  | num _ => simp at h
  | str _ => simp at h
  | arr _ => simp at h

/-! ## References to definitions -/

theorem NamesDefinition.chars {r kw name : String} (h : NamesDefinition r kw name) :
    r.toList = '#' :: '/' :: (kw.toList ++ '/' :: name.toList) := by
  rw [h.text]
  simp [String.toList_append]

theorem NamesDefinition.frag {r kw name : String} (h : NamesDefinition r kw name) : fragKey r = r := fragKey_of_hash h.chars

/-- The node that such a reference names. -/
theorem target_definition {r kw name : String} (h : NamesDefinition r kw name) {root n : SchemaNode} (ht : Target root r n) :
    ∃ l, defsOf kw root = some l ∧ lookupKV l name = some n := by
  have ht := ht {}
  unfold resolveSubReferencePath at ht
  rw [h.chars] at ht
  have hne : name.toList ≠ [] := fun e => h.nonempty (by rw [← String.ofList_toList (s := name), e])
  obtain ⟨k, hk⟩ : ∃ k, ('#' :: '/' :: (kw.toList ++ '/' :: name.toList)).length + 1 = k + 3 :=
    ⟨kw.toList.length + name.toList.length + 1, by simp; omega⟩
  rw [hk, subPath] at ht
  have e1 : pathToken ('#' :: '/' :: (kw.toList ++ '/' :: name.toList)) = (['#'], kw.toList ++ '/' :: name.toList) := rfl
  rw [e1] at ht
  rw [if_neg (by simp)] at ht
  simp only [show String.ofList ['#'] = "#" from rfl, String.reduceEq, if_false, if_true] at ht
  have hs : '/' ∉ kw.toList := by rcases h.keyword with e | e <;> rw [e] <;> decide
  have e2 : pathToken (kw.toList ++ '/' :: name.toList) = (kw.toList, name.toList) := pathToken_slash hs
  rw [subPath, e2] at ht
  rw [if_neg hne] at ht
  have e3 : ∀ m, resolveProperty (subPath (k + 1)) m name.toList ({} : PSt) = .ok (.ok n) {} →
      ∃ l, m = some l ∧ lookupKV l name = some n := by
    intro m hm
    unfold resolveProperty at hm
    rw [pathToken_plain h.plain] at hm
    cases m with
    | none => cases hm
    | some l =>
      dsimp only at hm
      rw [String.ofList_toList] at hm
      cases hl : lookupKV l name with
      | none => rw [hl] at hm; cases hm
      | some x =>
        rw [hl] at hm
        dsimp only at hm
        rw [subPath] at hm
        rw [if_pos (by rfl)] at hm
        cases hm
        exact ⟨l, rfl, hl⟩
  rw [String.ofList_toList] at ht
  rcases h.keyword with rfl | rfl
  · simp only [String.reduceEq, if_false, if_true] at ht
    exact e3 _ ht
  · simp only [String.reduceEq, if_false, if_true] at ht
    exact e3 _ ht

theorem refTexts_sub (k : String) (x : JVal) : ∀ r ∈ refTexts x, r ∈ refTextsMember k x := by
  intro r hr
  cases x with
  | obj m => exact hr
  | arr _ => cases hr
  | null => cases hr
  | bool _ => cases hr
  | num _ => cases hr
  | str _ => cases hr

theorem refTextsObj_mem {m : List (String × JVal)} {p : String × JVal} (hp : p ∈ m) : ∀ r ∈ refTextsMember p.1 p.2, r ∈ refTextsObj m := by
  intro r hr
  induction m with
  | nil => cases hp
  | cons q t ih =>
    rw [refTextsObj]
    rcases List.mem_cons.1 hp with e | hp
    · subst e
      exact List.mem_append_left _ (by obtain ⟨k, x⟩ := p; exact hr)
    · exact List.mem_append_right _ (ih hp)

/-- References inside a definition are references of the text. -/
theorem definition_refs {kw name : String} {schema d : JVal} (h : d ∈ definitionTexts kw name schema) :
    ∀ r ∈ refTexts d, r ∈ refTexts schema := by
  intro r hr
  cases schema with
  | obj m =>
    rw [definitionTexts, List.mem_flatMap] at h
    obtain ⟨p, hp, h⟩ := h
    obtain ⟨k, x⟩ := p
    split at h
    · dsimp only at h
      cases x with
      | obj dm =>
        dsimp only at h
        rw [List.mem_flatMap] at h
        obtain ⟨q, hq, h⟩ := h
        split at h
        · cases List.mem_singleton.1 h
          exact refTextsObj_mem (p := (k, .obj dm)) hp r (refTextsObj_mem hq r (refTexts_sub q.1 q.2 r hr))
        · cases h
      | null => cases h
      | bool _ => cases h
      | num _ => cases h
      | str _ => cases h
      | arr _ => cases h
    · cases h
  | null => cases h
  | bool _ => cases h
  | num _ => cases h
  | str _ => cases h
  | arr _ => cases h

/-! ## Weights from ranks -/

theorem target_unique {root a b : SchemaNode} {p : String} (ha : Target root p a) (hb : Target root p b) : a = b := by
  have h := (ha {}).symm.trans (hb {})
  cases h
  rfl

section
open Classical

/-- The node that a reference leads to. -/
noncomputable def targetOf (root : SchemaNode) (r : String) : Option SchemaNode :=
  if h : ∃ n, Target root (fragKey r) n then some h.choose else none

theorem targetOf_eq {root n : SchemaNode} {r : String} (h : Target root (fragKey r) n) : targetOf root r = some n := by
  have hx : ∃ n, Target root (fragKey r) n := ⟨n, h⟩
  unfold targetOf
  rw [dif_pos hx]
  exact congrArg some (target_unique hx.choose_spec h)

/-- Sizes of schemas with references followed to a depth. -/
noncomputable def followed (root : SchemaNode) : Nat → String → Nat
  | 0, _ => 0
  | k + 1, r => match targetOf root r with
    | none => 1
    | some n => 1 + jw 1 (followed root k) (encodeNode n)

theorem targetOf_some {root n : SchemaNode} {r : String} (h : targetOf root r = some n) : Target root (fragKey r) n := by
  unfold targetOf at h
  by_cases hx : ∃ n, Target root (fragKey r) n
  · rw [dif_pos hx] at h
    have e : hx.choose = n := Option.some.inj h
    rw [← e]
    exact hx.choose_spec
  · rw [dif_neg hx] at h; cases h

theorem followed_succ (root : SchemaNode) (k : Nat) (r : String) : followed root (k + 1) r = match targetOf root r with
    | none => 1
    | some n => 1 + jw 1 (followed root k) (encodeNode n) := rfl

theorem followed_frag (root : SchemaNode) : ∀ k r, followed root k (fragKey r) = followed root k r := by
  intro k
  cases k with
  | zero => exact fun _ => rfl
  | succ k =>
    intro r
    have : targetOf root (fragKey r) = targetOf root r := by unfold targetOf; rw [fragKey_idem]
    rw [followed_succ, followed_succ, this]

theorem followed_stable {root : SchemaNode} {S : String → Prop} {rank : String → Nat} (hfrag : ∀ r, S r → fragKey r = r)
    (hstep : ∀ r, S r → ∀ n, Target root r n → ∀ r' ∈ refTexts (encodeNode n), S r' ∧ rank r' < rank r) :
    ∀ m r, S r → rank r < m → ∀ k, rank r < k → followed root k r = followed root (rank r + 1) r := by
  intro m
  induction m with
  | zero => intro r hr hm; omega
  | succ m ih =>
    intro r hr hm k hk
    obtain ⟨j, rfl⟩ : ∃ j, k = j + 1 := ⟨k - 1, by omega⟩
    rw [followed_succ, followed_succ]
    cases ht : targetOf root r with
    | none => rfl
    | some n =>
      dsimp only
      have hT := targetOf_some ht
      rw [hfrag r hr] at hT
      refine congrArg (1 + ·) (jw_congr 1 (encodeNode n) fun r' hr' => ?_)
      obtain ⟨a, b⟩ := hstep r hr n hT r' hr'
      rw [ih r' a (by omega) j (by omega), ih r' a (by omega) (rank r) b]

/-- References that only lead to definitions, and on to others of lower rank, are ranked. -/
theorem ranked_from {schema : JVal} {root : SchemaNode} {S : String → Prop} (hd : decodeNode schema = some root)
    (h : AcyclicFrom schema S) : ∃ bad w, Ranked root bad w ∧ ∀ r, S r → bad r = 0 := by
  obtain ⟨rank, h⟩ := h
  have hfrag : ∀ r, S r → fragKey r = r := fun r hr => by
    obtain ⟨kw, name, hn, _⟩ := h r hr
    exact hn.frag
  have hstep : ∀ r, S r → ∀ n, Target root r n → ∀ r' ∈ refTexts (encodeNode n), S r' ∧ rank r' < rank r := by
    intro r hr n hn r' hr'
    obtain ⟨kw, name, hN, hR⟩ := h r hr
    obtain ⟨l, h1, h2⟩ := target_definition hN hn
    obtain ⟨d, h3, h4⟩ := definition_text hN.keyword hd h1 h2
    exact hR d h3 r' (decode_refTexts h4 r' hr')
  have stable := followed_stable (root := root) hfrag hstep
  refine ⟨fun r => if S (fragKey r) then 0 else 1, fun r => followed root (rank (fragKey r) + 1) r, ⟨?_, ?_, ?_, ?_⟩, ?_⟩
  · intro r; rw [fragKey_idem]
  · intro r; rw [fragKey_idem, followed_frag]
  · intro r n hb hn r' hr'
    split at hb
    · rename_i hr
      have := (hstep _ hr n hn r' hr').1
      rw [hfrag r' this, if_pos this]
    · cases hb
  · intro r n hb hn
    split at hb
    · rename_i hr
      rw [followed_succ, targetOf_eq hn]
      dsimp only
      have e : jw 1 (fun r => followed root (rank (fragKey r) + 1) r) (encodeNode n) = jw 1 (followed root (rank (fragKey r))) (encodeNode n) := ?_
      · rw [e]; exact Nat.le_of_eq (Nat.add_comm _ _)
      · refine jw_congr 1 (encodeNode n) fun r' hr' => ?_
        obtain ⟨a, b⟩ := hstep _ hr n hn r' hr'
        rw [hfrag r' a]
        exact (stable _ r' a (Nat.lt_succ_self _) _ b).symm
    · cases hb
  · intro r hr
    show (if S (fragKey r) then 0 else 1) = 0
    rw [hfrag r hr, if_pos hr]

/-- Acyclic references to definitions are ranked. -/
theorem ranked_acyclic {schema : JVal} {root : SchemaNode} (hd : decodeNode schema = some root) (h : AcyclicReferences schema) :
    ∃ bad w, Ranked root bad w ∧ Fine bad root := by
  obtain ⟨rank, h⟩ := h
  obtain ⟨bad, w, hr, hb⟩ := ranked_from (S := fun r => r ∈ refTexts schema) hd ⟨rank, fun r hr => by
    obtain ⟨kw, name, hN, hR⟩ := h r hr
    exact ⟨kw, name, hN, fun d hd r' hr' => ⟨definition_refs hd r' hr', hR d hd r' hr'⟩⟩⟩
  exact ⟨bad, w, hr, Nat.le_zero.1 (le_of_le_of_eq (decode_wt hd) (jw_zero schema hb))⟩

end

/-! ## The initial state -/

theorem initState_oneDoc {c : PEnv} {schema : JVal} {root : SchemaNode} {s : PSt} (hd : decodeNode schema = some root)
    (h : initState c root = .ok s) (hi : NoInnerIds schema) (hh : c.httpOpts.enabled = false) (hf : c.fileOpts.enabled = false)
    (hr : '#' ∉ c.relativeTo.toList) (hc : ∀ p, c.fs.cwd = some p → '#' ∉ (pathText p).toList) (res : List (String × JVal)) :
    OneDoc (rootIds c).2 root { s with resources := res } ∧ s.depth = 0 := by
  have hid : HashFree (rootIds c).1 := by
    unfold rootIds
    split
    · dsimp only
      split
      · show '#' ∉ "file://./".toList
        decide +kernel
      · rename_i p hp
        show '#' ∉ ("file://" ++ pathText p ++ "/").toList
        simp only [String.toList_append, List.mem_append, not_or]
        exact ⟨⟨by decide +kernel, hc p hp⟩, by decide +kernel⟩
    · exact hr
  have hrest : ewRest root = 0 := by
    unfold decodeNode at hd
    cases schema with
    | obj m => exact Nat.le_zero.1 (decodeFields_rest m _ _ hi hd)
    | null => simp at hd; subst hd; rfl
    | bool _ => simp at hd
    | num _ => simp at hd
    | str _ => simp at hd
    | arr _ => simp at hd
  unfold initState at h
  have hff : makeFileFetcher c = .ok none := by unfold makeFileFetcher; rw [hf]; rfl
  rw [hff] at h
  dsimp only at h
  cases h
  refine ⟨⟨rfl, ?_, ?_, rfl, hid, ?_, ?_⟩, rfl⟩
  · show addAliases [] (collectSubSchemaIds _ _ _ _) = []
    rw [collect_none hrest]; rfl
  · show (if c.httpOpts.enabled then some c.httpOpts else none) = none
    rw [hh]; rfl
  · show '#' ∉ "".toList
    decide +kernel
  · intro r hr; cases hr

end Chaff
