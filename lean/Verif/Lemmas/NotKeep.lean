import Verif.Lemmas.NotInv
import Verif.Lemmas.KV
/-!
# What `notMerge` does with the sub-schemas, and what it copies, when it records no error
-/

namespace Chaff
open Comp
variable {c : PEnv}

/-- A step that gives `a` and records no error. -/
def Quietly {α : Type} (m : P α) (a : α) : Prop := ∃ s s', m s = .ok a s' ∧ s'.errors.length = s.errors.length

/-- The sub-schemas of the result of `notStep`. -/
structure NotKids (rec : NotRec) (a b n : SchemaNode) : Prop where
  items : Quietly (notItems rec a.items b.items) n.items
  uniqueItems : Quietly (resolveBool a.uniqueItems b.uniqueItems) n.uniqueItems
  prefixItems : Quietly (notPrefix rec a.prefixItems b.prefixItems n.items) n.prefixItems
  contains : Quietly (notSubPtr rec "/not/contains" a.contains b.contains) n.contains
  additional : Quietly (notOrFalse rec "/not/additionalProperties" a.additionalProperties b.additionalProperties)
    n.additionalProperties
  patternProperties : n.patternProperties = a.patternProperties
  properties : ∃ merged, Quietly (notPropsLoop rec (getZeroIfNil a.properties []) (getZeroIfNil b.properties [])
      (keysKV (getZeroIfNil a.properties []) ++ keysKV (getZeroIfNil b.properties [])) []) merged ∧
    getZeroIfNil n.properties [] =
      (nonConflicting (getZeroIfNil a.required []) (getZeroIfNil b.required [])).foldl deleteKV merged
  constraints : n.constraints = a.constraints

theorem notApplyArray_kids {rec : NotRec} (hrec : ∀ a b, Keeps c (rec a b)) {a b n m : SchemaNode} {s s' : PSt}
    (h : notApplyArray rec a b n s = .ok m s') (hq : s'.errors.length = s.errors.length) :
    Quietly (notItems rec a.items b.items) m.items ∧ Quietly (resolveBool a.uniqueItems b.uniqueItems) m.uniqueItems ∧
    Quietly (notPrefix rec a.prefixItems b.prefixItems m.items) m.prefixItems ∧
    Quietly (notSubPtr rec "/not/contains" a.contains b.contains) m.contains := by
  unfold notApplyArray at h
  obtain ⟨b1, s1, h1, h⟩ := bind_ok.1 h
  obtain ⟨b2, s2, h2, h⟩ := bind_ok.1 h
  obtain ⟨n3, s3, h3, h⟩ := bind_ok.1 h
  obtain ⟨it, s4, h4, h⟩ := bind_ok.1 h
  have g1 := (keeps_boundsInt (c := c) _ _ _ _ _).grow h1
  have g2 := (keeps_boundsInt (c := c) _ _ _ _ _).grow h2
  have g3 := (keeps_limitContains (c := c) _).grow h3
  have g4 := (keeps_notItems hrec _ _).grow h4
  have tail : ∀ s5 : PSt, s4.errors.length ≤ s5.errors.length → (do
      let uniqueItems ← resolveBool a.uniqueItems b.uniqueItems
      let prefixItems ← notPrefix rec a.prefixItems b.prefixItems it
      let unevaluatedItems ← notOrFalse rec "/not/unevaluatedItems" a.unevaluatedItems b.unevaluatedItems
      let contains ← notSubPtr rec "/not/contains" a.contains b.contains
      pure { n3 with
        items := it
        uniqueItems := uniqueItems
        prefixItems := prefixItems
        unevaluatedItems := unevaluatedItems
        contains := contains } : P SchemaNode) s5 = .ok m s' →
      Quietly (notItems rec a.items b.items) m.items ∧ Quietly (resolveBool a.uniqueItems b.uniqueItems) m.uniqueItems ∧
      Quietly (notPrefix rec a.prefixItems b.prefixItems m.items) m.prefixItems ∧
      Quietly (notSubPtr rec "/not/contains" a.contains b.contains) m.contains := by
    intro s5 g5 h
    obtain ⟨u, s6, h6, h⟩ := bind_ok.1 h
    obtain ⟨p, s7, h7, h⟩ := bind_ok.1 h
    obtain ⟨ui, s8, h8, h⟩ := bind_ok.1 h
    obtain ⟨ct, s9, h9, h⟩ := bind_ok.1 h
    obtain ⟨rfl, rfl⟩ := pure_ok.1 h
    have g6 := (keeps_resolveBool (c := c) _ _).grow h6
    have g7 := (keeps_notPrefix hrec _ _ _).grow h7
    have g8 := (keeps_notOrFalse hrec _ _ _).grow h8
    have g9 := (keeps_notSubPtr hrec _ _ _).grow h9
    exact ⟨⟨_, _, h4, by omega⟩, ⟨_, _, h6, by omega⟩, ⟨_, _, h7, by omega⟩, ⟨_, _, h9, by omega⟩⟩
  split at h
  · obtain ⟨u, s5, h5, h⟩ := bind_ok.1 h
    have := warnField_grow h5
    exact tail _ (by omega) h
  · exact tail _ (le_refl _) h

theorem notApplyObject_kids {rec : NotRec} (hrec : ∀ a b, Keeps c (rec a b)) {a b n : SchemaNode} {cc : ConstraintColl}
    {r : SchemaNode × ConstraintColl} {s s' : PSt}
    (h : notApplyObject rec a b n cc s = .ok r s') (hq : s'.errors.length = s.errors.length) (hn : n.properties = none) :
    Quietly (notOrFalse rec "/not/additionalProperties" a.additionalProperties b.additionalProperties)
      r.1.additionalProperties ∧ r.1.patternProperties = a.patternProperties ∧
    ∃ merged, Quietly (notPropsLoop rec (getZeroIfNil a.properties []) (getZeroIfNil b.properties [])
        (keysKV (getZeroIfNil a.properties []) ++ keysKV (getZeroIfNil b.properties [])) []) merged ∧
      getZeroIfNil r.1.properties [] =
        (nonConflicting (getZeroIfNil a.required []) (getZeroIfNil b.required [])).foldl deleteKV merged := by
  unfold notApplyObject at h
  obtain ⟨b1, s1, h1, h⟩ := bind_ok.1 h
  obtain ⟨mp, s2, h2, h⟩ := bind_ok.1 h
  obtain ⟨u, s3, h3, h⟩ := bind_ok.1 h
  obtain ⟨ap, s4, h4, h⟩ := bind_ok.1 h
  have g1 := (keeps_boundsInt (c := c) _ _ _ _ _).grow h1
  have g2 := (keeps_notPropsLoop hrec _ _ _ _).grow h2
  have g3 := (keeps_warnUnsupported (c := c) _ _).grow h3
  have g4 := (keeps_notOrFalse hrec _ _ _).grow h4
  obtain ⟨rfl, rfl⟩ := pure_ok.1 h
  refine ⟨⟨_, _, h4, by omega⟩, rfl, mp, ⟨_, _, h2, by omega⟩, ?_⟩
  dsimp only
  split
  · rfl
  · rename_i hz
    rw [hn]
    have : (List.foldl deleteKV mp (nonConflicting (getZeroIfNil a.required []) (getZeroIfNil b.required []))).length = 0 := by
      omega
    rw [List.length_eq_zero_iff.1 this]; rfl

theorem notStep_kids {rec : NotRec} (hrec : ∀ a b, Keeps c (rec a b)) {a b n : SchemaNode} {cc : ConstraintColl}
    {s s' : PSt} (h : notStep c rec a b s = .ok (n, cc) s') (hq : s'.errors.length = s.errors.length) :
    NotKids rec a b n := by
  unfold notStep at h
  cases ht : resolveType a b with
  | error e =>
    rw [ht] at h; dsimp only at h
    obtain ⟨u, s1, h1, h2⟩ := bind_ok.1 h
    obtain ⟨-, rfl⟩ := pure_ok.1 h2
    have := addError_grow h1; omega
  | ok t =>
    rw [ht] at h; dsimp only at h
    obtain ⟨r1, s1, h1, h⟩ := bind_ok.1 h
    obtain ⟨n2, s2, h2, h⟩ := bind_ok.1 h
    obtain ⟨r3, s3, h3, h⟩ := bind_ok.1 h
    obtain ⟨r4, s4, h4, h⟩ := bind_ok.1 h
    obtain ⟨n5, s5, h5, h⟩ := bind_ok.1 h
    obtain ⟨r6, s6, h6, h⟩ := bind_ok.1 h
    obtain ⟨u7, s7, h7, h⟩ := bind_ok.1 h
    have g1 := (keeps_notApplyString (c := c) _ _ _ _).grow h1
    have g2 := (keeps_notApplyNumber (c := c) _ _ _).grow h2
    have g3 := (keeps_notApplyEnum (c := c) _ _ _ _).grow h3
    have g4 := (keeps_notApplyConst (c := c) _ _ _ _).grow h4
    have g5 := (keeps_notApplyArray hrec _ _ _).grow h5
    have g6 := (keeps_notApplyObject hrec _ _ _ _).grow h6
    have g7 := (keeps_notUnsupported (c := c) _).grow h7
    obtain ⟨e, rfl⟩ := pure_ok.1 h
    simp only [Prod.mk.injEq] at e
    obtain ⟨rfl, rfl⟩ := e
    obtain ⟨⟨lo, hi, i1, e1⟩, xa, xb, e1', i1', i1''⟩ := notApplyString_inv h1 (by omega)
    obtain ⟨nlo, nhi, nmo, nen, e2⟩ := notApplyNumber_part h2
    obtain ⟨en, vals, e3, e3'⟩ := notApplyEnum_part h3
    obtain ⟨vals', e4, e4'⟩ := notApplyConst_part h4
    obtain ⟨i5, i5', a1, a2, a3, a4, it, u, p, ui, ct, e5⟩ := notApplyArray_inv hrec h5 (by omega)
    have hn5 : n5.properties = none := by
      have p5 : n5.properties = r4.1.properties := by rw [e5]
      have p4 : r4.1.properties = r3.1.properties := by rw [e4]
      have p3 : r3.1.properties = n2.properties := by rw [e3]
      have p2 : n2.properties = r1.1.properties := by rw [e2]
      have p1 : r1.1.properties = none := by rw [e1]; rfl
      exact p5.trans (p4.trans (p3.trans (p2.trans p1)))
    obtain ⟨i6, i6r, ⟨o1, o2, pp, ap, rq, pr, e6⟩, i6', i6''⟩ := notApplyObject_inv hrec h6 (by omega)
    obtain ⟨k1, k2, k3, k4⟩ := notApplyArray_kids hrec h5 (by omega)
    obtain ⟨k5, k6, k7⟩ := notApplyObject_kids hrec h6 (by omega) hn5
    have f1 : r6.1.items = n5.items := by rw [e6]
    have f2 : r6.1.uniqueItems = n5.uniqueItems := by rw [e6]
    have f3 : r6.1.prefixItems = n5.prefixItems := by rw [e6]
    have f4 : r6.1.contains = n5.contains := by rw [e6]
    refine ⟨?_, ?_, ?_, ?_, k5, k6, k7, rfl⟩
    · show Quietly _ r6.1.items; rw [f1]; exact k1
    · show Quietly _ r6.1.uniqueItems; rw [f2]; exact k2
    · show Quietly (notPrefix rec _ _ r6.1.items) r6.1.prefixItems; rw [f1, f3]; exact k3
    · show Quietly _ r6.1.contains; rw [f4]; exact k4

theorem notStep_copy {rec : NotRec} {a b n : SchemaNode} {cc : ConstraintColl}
    {s s' : PSt} (h : notStep c rec a b s = .ok (n, cc) s') (hq : s'.errors.length = s.errors.length) :
    ∃ m, n = notCopy a m := by
  unfold notStep at h
  cases ht : resolveType a b with
  | error e =>
    rw [ht] at h; dsimp only at h
    obtain ⟨u, s1, h1, h2⟩ := bind_ok.1 h
    obtain ⟨-, rfl⟩ := pure_ok.1 h2
    have := addError_grow h1; omega
  | ok t =>
    rw [ht] at h; dsimp only at h
    obtain ⟨r1, s1, h1, h⟩ := bind_ok.1 h
    obtain ⟨n2, s2, h2, h⟩ := bind_ok.1 h
    obtain ⟨r3, s3, h3, h⟩ := bind_ok.1 h
    obtain ⟨r4, s4, h4, h⟩ := bind_ok.1 h
    obtain ⟨n5, s5, h5, h⟩ := bind_ok.1 h
    obtain ⟨r6, s6, h6, h⟩ := bind_ok.1 h
    obtain ⟨u7, s7, h7, h⟩ := bind_ok.1 h
    obtain ⟨e, -⟩ := pure_ok.1 h
    simp only [Prod.mk.injEq] at e
    exact ⟨r6.1, e.1.symm⟩

/-! ## Sub-schemas -/

/-- A sub-schema of the result: what the recursion gave, with the constraints of the schema added. -/
def SubResult (rec : NotRec) (node notNode n : SchemaNode) : Prop :=
  ∃ m cc s s', rec node notNode s = .ok (m, cc) s' ∧ s'.errors.length = s.errors.length ∧
    n = { m with constraints := some (match node.constraints with | some x => cc.merge x | none => cc) }

theorem notSubNode_kid {rec : NotRec} (hrec : ∀ a b, Keeps c (rec a b)) {scope : String} {node notNode n : SchemaNode}
    (h : Quietly (notSubNode rec scope node notNode) n) : SubResult rec node notNode n := by
  obtain ⟨s, s', h, hq⟩ := h
  unfold notSubNode at h
  obtain ⟨u, s1, h1, h⟩ := bind_ok.1 h
  obtain ⟨r, s2, h2, h⟩ := bind_ok.1 h
  obtain ⟨u', s3, h3, h⟩ := bind_ok.1 h
  obtain ⟨rfl, rfl⟩ := pure_ok.1 h
  have g1 : s1.errors.length = s.errors.length := by
    unfold pushPath at h1
    simp only [modS_apply, Res.ok.injEq, true_and] at h1
    subst h1; rfl
  have g2 := (hrec _ _).grow h2
  have g3 : s3.errors.length = s2.errors.length := by
    unfold popPath at h3
    split at h3
    · simp only [Res.ok.injEq, true_and] at h3
      subst h3; rfl
    · cases h3
  exact ⟨r.1, r.2, s1, s2, h2, by omega, rfl⟩

theorem notSubPtr_kid {rec : NotRec} (hrec : ∀ a b, Keeps c (rec a b)) {scope : String} {node notNode n : Option SchemaNode}
    (h : Quietly (notSubPtr rec scope node notNode) n) {sub : SchemaNode} (hs : node = some sub) :
    ∃ m, n = some m ∧ SubResult rec sub (getZeroIfNil notNode {}) m := by
  obtain ⟨s, s', h, hq⟩ := h
  subst hs
  unfold notSubPtr at h
  rw [if_neg (by simp)] at h
  obtain ⟨r, s1, h1, h⟩ := bind_ok.1 h
  obtain ⟨rfl, rfl⟩ := pure_ok.1 h
  exact ⟨r, rfl, notSubNode_kid hrec ⟨_, _, h1, hq⟩⟩

theorem notOrFalse_kid {rec : NotRec} (hrec : ∀ a b, Keeps c (rec a b)) {scope : String}
    {node notNode n : Option (NodeOrFalse SchemaNode)} (h : Quietly (notOrFalse rec scope node notNode) n)
    {d : NodeOrFalse SchemaNode} (hd : node = some d) :
    ∃ e, n = some e ∧ (d.isFalse = true → e = d) ∧ (d.isFalse = false → ∀ sub, d.schema = some sub →
      ∃ m, e.schema = some m ∧ SubResult rec sub (getZeroIfNil (getZeroIfNil notNode {}).schema {}) m) := by
  obtain ⟨s, s', h, hq⟩ := h
  subst hd
  unfold notOrFalse at h
  rw [if_neg (by simp)] at h
  cases hf : d.isFalse with
  | true =>
    split at h
    · obtain ⟨u, s1, h1, h2⟩ := bind_ok.1 h
      obtain ⟨rfl, rfl⟩ := pure_ok.1 h2
      have := warnField_grow h1; omega
    · rw [if_pos (by simp [getZeroIfNil, hf])] at h
      obtain ⟨rfl, rfl⟩ := pure_ok.1 h
      exact ⟨d, rfl, fun _ => rfl, by simp⟩
  | false =>
    rw [if_neg (by simp [getZeroIfNil, hf]), if_neg (by simp [getZeroIfNil, hf])] at h
    obtain ⟨r, s1, h1, h⟩ := bind_ok.1 h
    obtain ⟨rfl, rfl⟩ := pure_ok.1 h
    refine ⟨_, rfl, by simp, fun _ sub hs => ⟨r, rfl, ?_⟩⟩
    have := notSubNode_kid hrec ⟨_, _, h1, hq⟩
    simp only [getZeroIfNil, hs] at this
    exact this

theorem notItems_kid {rec : NotRec} (hrec : ∀ a b, Keeps c (rec a b))
    {node notNode n : Option (ItemsData SchemaNode)} (h : Quietly (notItems rec node notNode) n)
    {d : ItemsData SchemaNode} (hd : node = some d) :
    n = some d ∨ (d.disallow = false ∧ ∃ e, notNode = some e ∧ ∀ sub, d.node = some sub → ∃ x m, n = some x ∧ x.node = some m ∧
      SubResult rec sub (getZeroIfNil e.node {}) m) := by
  obtain ⟨s, s', h, hq⟩ := h
  subst hd
  unfold notItems at h
  cases he : notNode with
  | none => rw [he] at h; obtain ⟨rfl, -⟩ := pure_ok.1 h; exact Or.inl rfl
  | some e =>
    rw [he] at h
    dsimp only at h
    by_cases hb : (getZeroIfNil (some d) {} : ItemsData SchemaNode).disallow = true ∧ e.disallow = true
    · rw [if_pos hb] at h
      obtain ⟨u, s1, h1, h2⟩ := bind_ok.1 h
      obtain ⟨rfl, rfl⟩ := pure_ok.1 h2
      have := warnField_grow h1; omega
    · rw [if_neg hb] at h
      by_cases hd : (getZeroIfNil (some d) {} : ItemsData SchemaNode).disallow = true
      · rw [if_pos hd] at h
        obtain ⟨rfl, -⟩ := pure_ok.1 h; exact Or.inl rfl
      · rw [if_neg hd] at h
        right
        refine ⟨by simpa [getZeroIfNil] using hd, e, rfl, ?_⟩
        have tail : ∀ s1 : PSt, s.errors.length ≤ s1.errors.length →
            (if (getZeroIfNil (some d) {} : ItemsData SchemaNode).node.isNone = true ∧ e.node.isNone = true then pure none else do
              let r ← notSubNode rec "/not/items" (getZeroIfNil (getZeroIfNil (some d) {} : ItemsData SchemaNode).node {}) (getZeroIfNil e.node {})
              pure (some { node := some r, nodes := none, disallow := false }) : P (Option (ItemsData SchemaNode))) s1 = .ok n s' →
            ∀ sub, d.node = some sub → ∃ x m, n = some x ∧ x.node = some m ∧
              SubResult rec sub (getZeroIfNil e.node {}) m := by
          intro s1 g h sub hs
          rw [if_neg (by simp [getZeroIfNil, hs])] at h
          obtain ⟨r, s2, h2, h⟩ := bind_ok.1 h
          obtain ⟨rfl, rfl⟩ := pure_ok.1 h
          have := (keeps_notSubNode (c := c) hrec _ _ _).grow h2
          have h3 := notSubNode_kid hrec ⟨_, _, h2, by omega⟩
          have e0 : getZeroIfNil (getZeroIfNil (some d) {} : ItemsData SchemaNode).node {} = sub := by
            simp [getZeroIfNil, hs]
          rw [e0] at h3
          exact ⟨_, r, rfl, rfl, h3⟩
        by_cases hw : (getZeroIfNil (some d) {} : ItemsData SchemaNode).nodes.isSome = true ∨ e.nodes.isSome = true
        · rw [if_pos hw] at h
          obtain ⟨u, s1, h1, h⟩ := bind_ok.1 h
          have := warnField_grow h1
          exact tail _ (by omega) h
        · rw [if_neg hw] at h
          exact tail _ (le_refl _) h

theorem notPrefixLoop_kid {rec : NotRec} (hrec : ∀ a b, Keeps c (rec a b)) {l nl : List SchemaNode} {extra : SchemaNode} :
    ∀ (k i : Nat) (r : List SchemaNode) (s s' : PSt), notPrefixLoop rec l nl extra k i s = .ok r s' →
      s'.errors.length = s.errors.length → r.length = k ∧ ∀ j, j < k → ∃ m, r[j]? = some m ∧
        SubResult rec (getIndexOrDefault l ((i + j : Nat) : Int) extra) (getIndexOrDefault nl ((i + j : Nat) : Int) {}) m := by
  intro k
  induction k with
  | zero =>
    intro i r s s' h hq
    obtain ⟨rfl, -⟩ := pure_ok.1 h
    exact ⟨rfl, fun j hj => absurd hj (by omega)⟩
  | succ k ih =>
    intro i r s s' h hq
    unfold notPrefixLoop at h
    obtain ⟨x, s1, h1, h⟩ := bind_ok.1 h
    obtain ⟨t, s2, h2, h⟩ := bind_ok.1 h
    obtain ⟨rfl, rfl⟩ := pure_ok.1 h
    have g1 := (keeps_notSubNode (c := c) hrec _ _ _).grow h1
    have g2 := (keeps_notPrefixLoop (c := c) hrec _ _ _ _ _).grow h2
    obtain ⟨e, hj⟩ := ih (i + 1) t s1 _ h2 (by omega)
    refine ⟨by simp [e], ?_⟩
    intro j hjk
    cases j with
    | zero => exact ⟨x, rfl, notSubNode_kid hrec ⟨_, _, h1, by omega⟩⟩
    | succ j =>
      obtain ⟨m, e1, e2⟩ := hj j (by omega)
      refine ⟨m, e1, ?_⟩
      have : i + (j + 1) = i + 1 + j := by omega
      rw [this]; exact e2

theorem lookupKV_insertKV_self {β : Type} {m : List (String × β)} {k : String} {v : β} :
    lookupKV (insertKV m k v) k = some v := by
  induction m with
  | nil => simp [insertKV, lookupKV]
  | cons q t ih =>
    obtain ⟨k', v'⟩ := q
    simp only [insertKV]
    split
    · simp [lookupKV]
    · rename_i h; simp [lookupKV, h, ih]

theorem lookupKV_insertKV_ne {β : Type} {m : List (String × β)} {k k' : String} {v : β} (hne : k ≠ k') :
    lookupKV (insertKV m k' v) k = lookupKV m k := by
  induction m with
  | nil => simp [insertKV, lookupKV, Ne.symm hne]
  | cons q t ih =>
    obtain ⟨k'', v'⟩ := q
    simp only [insertKV]
    split
    · rename_i h; subst h; simp [lookupKV, Ne.symm hne]
    · simp only [lookupKV, ih]

theorem notPropsLoop_kid {rec : NotRec} (hrec : ∀ a b, Keeps c (rec a b)) {props notProps : List (String × SchemaNode)} :
    ∀ (ks : List String) (acc r : List (String × SchemaNode)) (s s' : PSt),
      notPropsLoop rec props notProps ks acc s = .ok r s' → s'.errors.length = s.errors.length →
      ∀ k, (k ∉ ks → lookupKV r k = lookupKV acc k) ∧ (k ∈ ks →
        (lookupKV notProps k = none → ∀ p, lookupKV props k = some p → lookupKV r k = some p) ∧
        (lookupKV notProps k = none → lookupKV props k = none → lookupKV r k = lookupKV acc k) ∧
        (∀ np, lookupKV notProps k = some np → ∃ m, lookupKV r k = some m ∧
          SubResult rec (getZeroIfNil (lookupKV props k) {}) np m)) := by
  intro ks
  induction ks with
  | nil =>
    intro acc r s s' h hq k
    obtain ⟨rfl, -⟩ := pure_ok.1 h
    exact ⟨fun _ => rfl, fun hk => by cases hk⟩
  | cons x t ih =>
    intro acc r s s' h hq k
    unfold notPropsLoop at h
    cases hx : lookupKV notProps x with
    | none =>
      rw [hx] at h; dsimp only at h
      cases hp : lookupKV props x with
      | none =>
        rw [hp] at h
        obtain ⟨i1, i2⟩ := ih _ _ _ _ h hq k
        refine ⟨fun hk => i1 (fun e => hk (List.mem_cons_of_mem _ e)), fun hk => ?_⟩
        by_cases ht : k ∈ t
        · exact i2 ht
        · have e : k = x := (List.mem_cons.1 hk).resolve_right ht
          subst e
          refine ⟨fun _ p hp' => ?_, fun _ _ => i1 ht, fun np hn => ?_⟩
          · rw [hp] at hp'; cases hp'
          · rw [hx] at hn; cases hn
      | some p =>
        rw [hp] at h
        obtain ⟨i1, i2⟩ := ih _ _ _ _ h hq k
        refine ⟨fun hk => ?_, fun hk => ?_⟩
        · rw [i1 (fun e => hk (List.mem_cons_of_mem _ e))]
          exact lookupKV_insertKV_ne (fun e => hk (by rw [e]; simp))
        · by_cases ht : k ∈ t
          · obtain ⟨j1, j2, j3⟩ := i2 ht
            refine ⟨j1, fun a b => ?_, j3⟩
            rw [j2 a b]
            exact lookupKV_insertKV_ne (fun e => by rw [e, hp] at b; cases b)
          · have e : k = x := (List.mem_cons.1 hk).resolve_right ht
            subst e
            refine ⟨fun _ p' hp' => ?_, fun _ b => ?_, fun np hn => ?_⟩
            · rw [i1 ht, lookupKV_insertKV_self]; rw [hp] at hp'; exact hp'
            · rw [hp] at b; cases b
            · rw [hx] at hn; cases hn
    | some np =>
      rw [hx] at h; dsimp only at h
      obtain ⟨m, s1, h1, h⟩ := bind_ok.1 h
      have g1 := (keeps_notSubNode (c := c) hrec _ _ _).grow h1
      have g2 := (keeps_notPropsLoop (c := c) hrec _ _ _ _).grow h
      obtain ⟨i1, i2⟩ := ih _ _ _ _ h (by omega) k
      refine ⟨fun hk => ?_, fun hk => ?_⟩
      · rw [i1 (fun e => hk (List.mem_cons_of_mem _ e))]
        exact lookupKV_insertKV_ne (fun e => hk (by rw [e]; simp))
      · by_cases ht : k ∈ t
        · obtain ⟨j1, j2, j3⟩ := i2 ht
          refine ⟨j1, fun a b => ?_, j3⟩
          rw [j2 a b]
          exact lookupKV_insertKV_ne (fun e => by rw [e, hx] at a; cases a)
        · have e : k = x := (List.mem_cons.1 hk).resolve_right ht
          subst e
          refine ⟨fun a => ?_, fun a => ?_, fun np' hn => ?_⟩
          · rw [hx] at a; cases a
          · rw [hx] at a; cases a
          · rw [hx] at hn; cases hn
            exact ⟨m, by rw [i1 ht, lookupKV_insertKV_self], notSubNode_kid hrec ⟨_, _, h1, by omega⟩⟩

theorem lookupKV_deletes {β : Type} {k : String} : ∀ (l : List String) (m : List (String × β)), k ∉ l →
    lookupKV (l.foldl deleteKV m) k = lookupKV m k := by
  intro l
  induction l with
  | nil => intro m _; rfl
  | cons x t ih =>
    intro m hk
    simp only [List.foldl_cons]
    rw [ih _ (fun e => hk (List.mem_cons_of_mem _ e))]
    have hx : k ≠ x := fun e => hk (by rw [e]; simp)
    unfold deleteKV
    induction m with
    | nil => rfl
    | cons q t ih =>
      obtain ⟨k', v⟩ := q
      simp only [List.filter_cons]
      split
      · simp only [lookupKV]; rw [ih]
      · rename_i hkx
        simp only [ne_eq, decide_eq_true_eq, not_not] at hkx
        subst hkx
        simp only [lookupKV]
        rw [if_neg (fun e => hx e.symm), ih]

end Chaff
