import Verif.Lemmas.PKeeps
/-!
# What `notMerge` puts into each field when it records no error
-/

namespace Chaff
open Comp
variable {c : PEnv}

theorem Keeps.grow {α : Type} {m : P α} (h : Keeps c m) {s s' : PSt} {a : α} (e : m s = .ok a s') :
    s.errors.length ≤ s'.errors.length := by
  obtain ⟨l, hl, -⟩ := (h s a s' e).errors
  rw [hl]; simp

theorem warnField_grow {f e : String} {s s' : PSt} {u : Unit} (h : warnField f e s = .ok u s') :
    s'.errors.length = s.errors.length + 1 := by
  unfold warnField addErrorSub at h
  simp only [modS_apply, Res.ok.injEq, true_and] at h
  subst h; rfl

theorem addError_grow {e : String} {s s' : PSt} {u : Unit} (h : addError e s = .ok u s') :
    s'.errors.length = s.errors.length + 1 := by
  unfold addError addErrorSub at h
  simp only [modS_apply, Res.ok.injEq, true_and] at h
  subst h; rfl

theorem boundsInt_inv {f : String} {a b x y : Option Int} {s s' : PSt} {r : Option Int × Option Int}
    (h : boundsInt f a b x y s = .ok r s') (hq : s'.errors.length = s.errors.length) :
    resolveBoundsInt a b x y = (r, false) := by
  unfold boundsInt at h
  split at h
  · obtain ⟨u, s1, h1, h2⟩ := bind_ok.1 h
    obtain ⟨-, rfl⟩ := pure_ok.1 h2
    have := warnField_grow h1; omega
  · rename_i hf
    obtain ⟨rfl, -⟩ := pure_ok.1 h
    exact Prod.ext rfl (by simpa using hf)

theorem limitContains_inv {n m : SchemaNode} {s s' : PSt}
    (h : limitContains n s = .ok m s') (hq : s'.errors.length = s.errors.length) : m = n := by
  unfold limitContains at h
  cases ha : n.minContains with
  | none => rw [ha] at h; exact (pure_ok.1 h).1.symm
  | some x =>
    cases hb : n.maxItems with
    | none => rw [ha, hb] at h; exact (pure_ok.1 h).1.symm
    | some y =>
      rw [ha, hb] at h; dsimp only at h
      split at h
      · obtain ⟨u, s1, h1, h2⟩ := bind_ok.1 h
        obtain ⟨-, rfl⟩ := pure_ok.1 h2
        have := warnField_grow h1; omega
      · exact (pure_ok.1 h).1.symm

theorem notApplyString_inv {node notNode nn : SchemaNode} {cc : ConstraintColl} {r : SchemaNode × ConstraintColl}
    {s s' : PSt} (h : notApplyString c node notNode nn cc s = .ok r s') (hq : s'.errors.length = s.errors.length) :
    (∃ lo hi, resolveBoundsInt node.minLength node.maxLength notNode.minLength notNode.maxLength = ((lo, hi), false) ∧
      r.1 = { nn with minLength := lo, maxLength := hi, pattern := node.pattern, format := node.format }) ∧
    (∃ a b, r.2 = { cc with notRegex := cc.notRegex ++ a, notFormats := cc.notFormats ++ b } ∧
      (∀ p, notNode.pattern = some p → p ∈ cc.notRegex ++ a) ∧
      (notNode.pattern = none → ∀ f, notNode.format = some f → f ∈ cc.notFormats ++ b)) := by
  unfold notApplyString at h
  obtain ⟨b, s1, h1, h2⟩ := bind_ok.1 h
  have g1 := (keeps_boundsInt (c := c) _ _ _ _ _).grow h1
  dsimp only at h2
  have key : ∀ {e f : String} {x : SchemaNode × ConstraintColl},
      (do warnField e f; pure x : P (SchemaNode × ConstraintColl)) s1 = .ok r s' → False := by
    intro e f x hx
    obtain ⟨u, s2, h1, h2⟩ := bind_ok.1 hx
    obtain ⟨-, rfl⟩ := pure_ok.1 h2
    have := warnField_grow h1; omega
  have fin : s'.errors.length = s1.errors.length →
      ∃ lo hi, resolveBoundsInt node.minLength node.maxLength notNode.minLength notNode.maxLength = ((lo, hi), false) ∧
      b = (lo, hi) := fun e => ⟨b.1, b.2, boundsInt_inv h1 (by omega), rfl⟩
  cases hp : notNode.pattern with
  | some p =>
    rw [hp] at h2; dsimp only at h2
    split at h2
    · exact (key h2).elim
    · split at h2
      · rename_i hmem
        obtain ⟨rfl, rfl⟩ := pure_ok.1 h2
        obtain ⟨lo, hi, e1, rfl⟩ := fin rfl
        exact ⟨⟨lo, hi, e1, rfl⟩, [], [], by simp, by simpa using hmem, by simp⟩
      · cases hr : c.rxCompile p with
        | none => rw [hr] at h2; exact (key h2).elim
        | some _ =>
          rw [hr] at h2
          obtain ⟨rfl, rfl⟩ := pure_ok.1 h2
          obtain ⟨lo, hi, e1, rfl⟩ := fin rfl
          exact ⟨⟨lo, hi, e1, rfl⟩, [p], [], by simp, by simp, by simp⟩
  | none =>
    rw [hp] at h2; dsimp only at h2
    cases hf : notNode.format with
    | none =>
      rw [hf] at h2; dsimp only at h2
      obtain ⟨rfl, rfl⟩ := pure_ok.1 h2
      obtain ⟨lo, hi, e1, rfl⟩ := fin rfl
      exact ⟨⟨lo, hi, e1, rfl⟩, [], [], by simp, by simp, by simp⟩
    | some f =>
      rw [hf] at h2; dsimp only at h2
      split at h2
      · exact (key h2).elim
      · split at h2
        · rename_i hmem
          obtain ⟨rfl, rfl⟩ := pure_ok.1 h2
          obtain ⟨lo, hi, e1, rfl⟩ := fin rfl
          exact ⟨⟨lo, hi, e1, rfl⟩, [], [], by simp, by simp, by simpa using hmem⟩
        · cases hr : c.formats f with
          | none => rw [hr] at h2; exact (key h2).elim
          | some _ =>
            rw [hr] at h2
            obtain ⟨rfl, rfl⟩ := pure_ok.1 h2
            obtain ⟨lo, hi, e1, rfl⟩ := fin rfl
            exact ⟨⟨lo, hi, e1, rfl⟩, [], [f], by simp, by simp, by simp⟩

/-- `n` is `m` with other number keywords and another enum. -/
def NumberPart (m n : SchemaNode) : Prop :=
  ∃ lo hi mo en, n = { m with minimum := lo, maximum := hi, multipleOf := mo, enum := en }

theorem NumberPart.trans {a b d : SchemaNode} (h : NumberPart a b) (h' : NumberPart b d) : NumberPart a d := by
  obtain ⟨_, _, _, _, rfl⟩ := h
  obtain ⟨lo, hi, mo, en, rfl⟩ := h'
  exact ⟨lo, hi, mo, en, rfl⟩

theorem NumberPart.refl (a : SchemaNode) : NumberPart a a := ⟨a.minimum, a.maximum, a.multipleOf, a.enum, by cases a; rfl⟩

theorem setMultiples_part {l : List Rat} {n m : SchemaNode} {s s' : PSt} (h : setMultiples l n s = .ok m s') :
    NumberPart n m := by
  unfold setMultiples at h
  dsimp only at h
  rcases he : n.enum with _ | ⟨_ | ⟨v, t⟩⟩
  · rw [he] at h
    obtain ⟨rfl, -⟩ := pure_ok.1 h
    exact ⟨_, _, _, _, rfl⟩
  · rw [he] at h
    obtain ⟨rfl, -⟩ := pure_ok.1 h
    exact ⟨_, _, _, _, rfl⟩
  · rw [he] at h
    dsimp only at h
    split at h
    · obtain ⟨u, s1, h1, h2⟩ := bind_ok.1 h
      obtain ⟨rfl, -⟩ := pure_ok.1 h2
      exact ⟨_, _, _, _, rfl⟩
    · obtain ⟨rfl, -⟩ := pure_ok.1 h
      exact ⟨_, _, _, _, rfl⟩

theorem applyMultiples_part {F : FP} {b : FloatBounds} {x y : Rat} {a n m : SchemaNode} {s s' : PSt}
    (h : applyMultiples F b x y a n s = .ok m s') : NumberPart n m := by
  have key : ∀ {e f : String}, (do warnField e f; pure n : P SchemaNode) s = .ok m s' → NumberPart n m := by
    intro e f hx
    obtain ⟨u, s2, h1, h2⟩ := bind_ok.1 hx
    obtain ⟨rfl, -⟩ := pure_ok.1 h2
    exact NumberPart.refl _
  unfold applyMultiples at h
  repeat' split at h
  all_goals first
    | exact key h
    | (cases hm : chooseMultiples F b (if x = 0 then infinitesimal F else x) y with
       | none => rw [hm] at h; exact key h
       | some l => rw [hm] at h; exact setMultiples_part h)
    | (obtain ⟨rfl, -⟩ := pure_ok.1 h; first | exact NumberPart.refl _ | exact ⟨_, _, _, _, rfl⟩)

theorem notApplyNumber_part {F : FP} {a b n m : SchemaNode} {s s' : PSt}
    (h : notApplyNumber F a b n s = .ok m s') : NumberPart n m := by
  unfold notApplyNumber at h
  dsimp only at h
  refine NumberPart.trans (b := { n with minimum := (resolveBoundsNodes F (notOffset F n) a b).min, maximum := (resolveBoundsNodes F (notOffset F n) a b).max }) ⟨_, _, _, _, rfl⟩ ?_
  split at h
  · obtain ⟨u, s1, h1, h2⟩ := bind_ok.1 h
    exact applyMultiples_part h2
  · exact applyMultiples_part h

theorem notEnumRest_part {a b n m : SchemaNode} {s s' : PSt} (h : notEnumRest a b n s = .ok m s') :
    ∃ en, m = { n with enum := en } := by
  unfold notEnumRest at h
  split at h
  · obtain ⟨u, s1, h1, h2⟩ := bind_ok.1 h
    obtain ⟨rfl, -⟩ := pure_ok.1 h2
    exact ⟨n.enum, by cases n; rfl⟩
  · obtain ⟨rfl, -⟩ := pure_ok.1 h
    exact ⟨_, rfl⟩

theorem notEnumRest_inv {a b n m : SchemaNode} {s s' : PSt} (h : notEnumRest a b n s = .ok m s')
    (hq : s'.errors.length = s.errors.length) :
    m.enum = some (diffValues (getZeroIfNil a.enum []) (getZeroIfNil b.enum [])) ∧
      diffValues (getZeroIfNil a.enum []) (getZeroIfNil b.enum []) ≠ [] := by
  unfold notEnumRest at h
  split at h
  · obtain ⟨u, s1, h1, h2⟩ := bind_ok.1 h
    obtain ⟨-, rfl⟩ := pure_ok.1 h2
    have := warnField_grow h1; omega
  · rename_i hd
    obtain ⟨rfl, -⟩ := pure_ok.1 h
    exact ⟨rfl, fun e => hd (by rw [e]; rfl)⟩

theorem notApplyEnum_part {a b n : SchemaNode} {cc : ConstraintColl} {r : SchemaNode × ConstraintColl} {s s' : PSt}
    (h : notApplyEnum a b n cc s = .ok r s') :
    ∃ en vals, r.1 = { n with enum := en } ∧ r.2 = { cc with notValues := vals } := by
  have rest : ∀ {m : SchemaNode} {s' : PSt}, notEnumRest a b n s = .ok m s' → (m, cc) = r →
      ∃ en vals, r.1 = { n with enum := en } ∧ r.2 = { cc with notValues := vals } := by
    intro m s' h e
    obtain ⟨en, rfl⟩ := notEnumRest_part h
    subst e
    exact ⟨en, cc.notValues, rfl, rfl⟩
  have same : (n, cc) = r → ∃ en vals, r.1 = { n with enum := en } ∧ r.2 = { cc with notValues := vals } := by
    intro e; subst e; exact ⟨n.enum, cc.notValues, by cases n; rfl, rfl⟩
  unfold notApplyEnum at h
  dsimp only at h
  split at h
  · exact same (pure_ok.1 h).1
  · split at h
    · cases hc : a.const with
      | none =>
        rw [hc] at h
        obtain ⟨rfl, -⟩ := pure_ok.1 h
        exact ⟨n.enum, _, by cases n; rfl, rfl⟩
      | some v =>
        rw [hc] at h; dsimp only at h
        split at h
        · obtain ⟨u, s1, h1, h2⟩ := bind_ok.1 h
          exact same (pure_ok.1 h2).1
        · obtain ⟨u, s1, h1, h2⟩ := bind_ok.1 h
          exact rest h1 (pure_ok.1 h2).1
    · obtain ⟨u, s1, h1, h2⟩ := bind_ok.1 h
      exact rest h1 (pure_ok.1 h2).1

theorem notApplyConst_part {a b n : SchemaNode} {cc : ConstraintColl} {r : SchemaNode × ConstraintColl} {s s' : PSt}
    (h : notApplyConst a b n cc s = .ok r s') :
    ∃ vals, r.1 = { n with const := a.const } ∧ r.2 = { cc with notValues := vals } := by
  unfold notApplyConst at h
  dsimp only at h
  cases hc : b.const with
  | none => rw [hc] at h; obtain ⟨rfl, -⟩ := pure_ok.1 h; exact ⟨cc.notValues, rfl, rfl⟩
  | some v =>
    rw [hc] at h; dsimp only at h
    by_cases hw : constIs a.const v = true
    · rw [if_pos hw] at h
      obtain ⟨u, s1, h1, h2⟩ := bind_ok.1 h
      obtain ⟨rfl, -⟩ := pure_ok.1 h2; exact ⟨cc.notValues, rfl, rfl⟩
    · rw [if_neg hw] at h
      split at h
      · obtain ⟨u, s1, h1, h2⟩ := bind_ok.1 h
        obtain ⟨rfl, -⟩ := pure_ok.1 h2; exact ⟨cc.notValues, rfl, rfl⟩
      · obtain ⟨rfl, -⟩ := pure_ok.1 h; exact ⟨_, rfl, rfl⟩

/-- `n` is `m` with other array keywords. -/
def ArrayPart (m n : SchemaNode) : Prop :=
  ∃ a1 a2 a3 a4 it u p ui ct, n = { m with minItems := a1, maxItems := a2, minContains := a3, maxContains := a4, items := it, uniqueItems := u, prefixItems := p, unevaluatedItems := ui, contains := ct }

theorem notApplyArray_inv {rec : NotRec} (hrec : ∀ a b, Keeps c (rec a b)) {a b n m : SchemaNode} {s s' : PSt}
    (h : notApplyArray rec a b n s = .ok m s') (hq : s'.errors.length = s.errors.length) :
    resolveBoundsInt a.minItems a.maxItems b.minItems b.maxItems = ((m.minItems, m.maxItems), false) ∧
    resolveBoundsInt a.minContains a.maxContains b.minContains b.maxContains = ((m.minContains, m.maxContains), false) ∧
    ArrayPart n m := by
  unfold notApplyArray at h
  obtain ⟨b1, s1, h1, h⟩ := bind_ok.1 h
  obtain ⟨b2, s2, h2, h⟩ := bind_ok.1 h
  obtain ⟨n3, s3, h3, h⟩ := bind_ok.1 h
  obtain ⟨it, s4, h4, h⟩ := bind_ok.1 h
  have g1 := (keeps_boundsInt (c := c) _ _ _ _ _).grow h1
  have g2 := (keeps_boundsInt (c := c) _ _ _ _ _).grow h2
  have g3 := (keeps_limitContains (c := c) _).grow h3
  have g4 := (keeps_notItems hrec _ _).grow h4
  have tail : ∀ s5 : PSt, (do
      let uniqueItems ← resolveBool a.uniqueItems b.uniqueItems
      let prefixItems ← notPrefix rec a.prefixItems b.prefixItems it
      let unevaluatedItems ← notOrFalse rec "/not/unevaluatedItems" a.unevaluatedItems b.unevaluatedItems
      let contains ← notSubPtr rec "/not/contains" a.contains b.contains
      pure { n3 with
        items := it
        uniqueItems := uniqueItems
        prefixItems := prefixItems
        unevaluatedItems := unevaluatedItems
        contains := contains } : P SchemaNode) s5 = .ok m s' →
      s5.errors.length ≤ s'.errors.length ∧ ∃ u p ui ct, m = { n3 with
        items := it, uniqueItems := u, prefixItems := p, unevaluatedItems := ui, contains := ct } := by
    intro s5 h
    obtain ⟨u, s6, h6, h⟩ := bind_ok.1 h
    obtain ⟨p, s7, h7, h⟩ := bind_ok.1 h
    obtain ⟨ui, s8, h8, h⟩ := bind_ok.1 h
    obtain ⟨ct, s9, h9, h⟩ := bind_ok.1 h
    obtain ⟨rfl, rfl⟩ := pure_ok.1 h
    have g6 := (keeps_resolveBool (c := c) _ _).grow h6
    have g7 := (keeps_notPrefix hrec _ _ _).grow h7
    have g8 := (keeps_notOrFalse hrec _ _ _).grow h8
    have g9 := (keeps_notSubPtr hrec _ _ _).grow h9
    exact ⟨by omega, u, p, ui, ct, rfl⟩
  have : s4.errors.length ≤ s'.errors.length ∧ ∃ u p ui ct, m = { n3 with
        items := it, uniqueItems := u, prefixItems := p, unevaluatedItems := ui, contains := ct } := by
    split at h
    · obtain ⟨u, s5, h5, h⟩ := bind_ok.1 h
      have := warnField_grow h5
      have := tail _ h
      exact ⟨by omega, this.2⟩
    · exact tail _ h
  obtain ⟨g5, u, p, ui, ct, rfl⟩ := this
  have e1 := boundsInt_inv h1 (by omega)
  have e2 := boundsInt_inv h2 (by omega)
  have e3 := limitContains_inv h3 (by omega)
  subst e3
  exact ⟨e1, e2, _, _, _, _, _, _, _, _, _, rfl⟩

/-- `n` is `m` with other object keywords. -/
def ObjectPart (m n : SchemaNode) : Prop :=
  ∃ a1 a2 pp ap rq p, n = { m with minProperties := a1, maxProperties := a2, patternProperties := pp, additionalProperties := ap, required := rq, properties := p }

theorem notApplyObject_inv {rec : NotRec} (hrec : ∀ a b, Keeps c (rec a b)) {a b n : SchemaNode} {cc : ConstraintColl}
    {r : SchemaNode × ConstraintColl} {s s' : PSt}
    (h : notApplyObject rec a b n cc s = .ok r s') (hq : s'.errors.length = s.errors.length) :
    resolveBoundsInt a.minProperties a.maxProperties b.minProperties b.maxProperties =
      ((r.1.minProperties, r.1.maxProperties), false) ∧ r.1.required = a.required ∧
    ObjectPart n r.1 ∧
    r.2 = { cc with mustNotHave := cc.mustNotHave ++ nonConflicting (getZeroIfNil a.required []) (getZeroIfNil b.required []) } ∧
    ∀ k, k ∈ nonConflicting (getZeroIfNil a.required []) (getZeroIfNil b.required []) →
      n.properties = none → lookupKV (getZeroIfNil r.1.properties []) k = none := by
  unfold notApplyObject at h
  obtain ⟨b1, s1, h1, h⟩ := bind_ok.1 h
  obtain ⟨mp, s2, h2, h⟩ := bind_ok.1 h
  obtain ⟨u, s3, h3, h⟩ := bind_ok.1 h
  obtain ⟨ap, s4, h4, h⟩ := bind_ok.1 h
  have g1 := (keeps_boundsInt (c := c) _ _ _ _ _).grow h1
  have g2 := (keeps_notPropsLoop hrec _ _ _ _).grow h2
  have g3 := (keeps_warnUnsupported (c := c) _ _).grow h3
  have g4 := (keeps_notOrFalse hrec _ _ _).grow h4
  obtain ⟨rfl, rfl⟩ := pure_ok.1 h
  have e1 := boundsInt_inv h1 (by omega)
  refine ⟨e1, rfl, ⟨_, _, _, _, _, _, rfl⟩, ?_, ?_⟩
  · dsimp only
    split
    · rfl
    · rename_i hz
      have : nonConflicting (getZeroIfNil a.required []) (getZeroIfNil b.required []) = [] := by
        cases hn : nonConflicting (getZeroIfNil a.required []) (getZeroIfNil b.required []) with
        | nil => rfl
        | cons x l => rw [hn] at hz; simp at hz
      rw [this]; simp
  · intro k hk hp
    dsimp only
    have del : ∀ (l : List String) (m : List (String × SchemaNode)),
        (k ∈ l ∨ lookupKV m k = none) → lookupKV (l.foldl deleteKV m) k = none := by
      intro l
      induction l with
      | nil => intro m hm; simpa using hm
      | cons x t ih =>
        intro m hm
        simp only [List.foldl_cons]
        apply ih
        by_cases hx : k ∈ t
        · exact Or.inl hx
        · right
          have hm' : k = x ∨ lookupKV m k = none := by
            rcases hm with hm | hm
            · rcases List.mem_cons.1 hm with rfl | h
              · exact Or.inl rfl
              · exact absurd h hx
            · exact Or.inr hm
          clear ih hm
          unfold deleteKV
          induction m with
          | nil => rfl
          | cons q t ih =>
            obtain ⟨k', v⟩ := q
            have ht : k = x ∨ lookupKV t k = none := by
              rcases hm' with h | h
              · exact Or.inl h
              · right
                simp only [lookupKV] at h
                split at h
                · simp at h
                · exact h
            simp only [List.filter_cons]
            split
            · rename_i hk'
              simp only [lookupKV]
              split
              · rename_i hkk
                rcases hm' with rfl | h
                · simp only [ne_eq, decide_eq_true_eq] at hk'
                  exact absurd hkk hk'
                · simp [lookupKV, hkk] at h
              · exact ih ht
            · exact ih ht
    split
    · exact del _ _ (Or.inl hk)
    · rw [hp]; rfl

/-- Everything `notMerge` does when it records no error. -/
structure NotResult (c : PEnv) (node notNode n : SchemaNode) (cc : ConstraintColl) : Prop where
  type : ∃ t, resolveType node notNode = .ok t ∧ n.type = some t
  lengths : resolveBoundsInt node.minLength node.maxLength notNode.minLength notNode.maxLength =
    ((n.minLength, n.maxLength), false)
  items : resolveBoundsInt node.minItems node.maxItems notNode.minItems notNode.maxItems =
    ((n.minItems, n.maxItems), false)
  contains : resolveBoundsInt node.minContains node.maxContains notNode.minContains notNode.maxContains =
    ((n.minContains, n.maxContains), false)
  properties : resolveBoundsInt node.minProperties node.maxProperties notNode.minProperties notNode.maxProperties =
    ((n.minProperties, n.maxProperties), false)
  pattern : n.pattern = node.pattern ∧ n.format = node.format
  required : n.required = node.required
  const : n.const = node.const
  regex : ∀ p, notNode.pattern = some p → p ∈ cc.notRegex
  formats : notNode.pattern = none → ∀ f, notNode.format = some f → f ∈ cc.notFormats
  mustNotHave : cc.mustNotHave = nonConflicting (getZeroIfNil node.required []) (getZeroIfNil notNode.required [])
  forbidden : ∀ k ∈ cc.mustNotHave, lookupKV (getZeroIfNil n.properties []) k = none
  /-- the number step and what follows it -/
  number : ∃ n0 n1 n2 : SchemaNode, ∃ cc0 cc1 : ConstraintColl, ∃ s0 s1 s2 s3 : PSt, ∃ r3,
    n0.type = n.type ∧ n0.enum = none ∧ cc0.notValues = [] ∧
    notApplyNumber c.fp node notNode n0 s0 = .ok n1 s1 ∧ s1.errors.length = s0.errors.length ∧
    n.minimum = n1.minimum ∧ n.maximum = n1.maximum ∧ n.multipleOf = n1.multipleOf ∧
    notApplyEnum node notNode n1 cc0 s1 = .ok (n2, cc1) s2 ∧ s2.errors.length = s1.errors.length ∧
    n.enum = n2.enum ∧
    notApplyConst node notNode n2 cc1 s2 = .ok r3 s3 ∧ s3.errors.length = s2.errors.length ∧
    cc.notValues = r3.2.notValues

theorem notStep_inv {rec : NotRec} (hrec : ∀ a b, Keeps c (rec a b)) {a b n : SchemaNode} {cc : ConstraintColl}
    {s s' : PSt} (h : notStep c rec a b s = .ok (n, cc) s') (hq : s'.errors.length = s.errors.length) :
    NotResult c a b n cc := by
  unfold notStep at h
  cases ht : resolveType a b with
  | error e =>
    rw [ht] at h; dsimp only at h
    obtain ⟨u, s1, h1, h2⟩ := bind_ok.1 h
    obtain ⟨-, rfl⟩ := pure_ok.1 h2
    have := addError_grow h1; omega
  | ok t =>
    rw [ht] at h; dsimp only at h
    obtain ⟨r1, s1, h1, h⟩ := bind_ok.1 h
    obtain ⟨n2, s2, h2, h⟩ := bind_ok.1 h
    obtain ⟨r3, s3, h3, h⟩ := bind_ok.1 h
    obtain ⟨r4, s4, h4, h⟩ := bind_ok.1 h
    obtain ⟨n5, s5, h5, h⟩ := bind_ok.1 h
    obtain ⟨r6, s6, h6, h⟩ := bind_ok.1 h
    obtain ⟨u7, s7, h7, h⟩ := bind_ok.1 h
    have g1 := (keeps_notApplyString (c := c) _ _ _ _).grow h1
    have g2 := (keeps_notApplyNumber (c := c) _ _ _).grow h2
    have g3 := (keeps_notApplyEnum (c := c) _ _ _ _).grow h3
    have g4 := (keeps_notApplyConst (c := c) _ _ _ _).grow h4
    have g5 := (keeps_notApplyArray hrec _ _ _).grow h5
    have g6 := (keeps_notApplyObject hrec _ _ _ _).grow h6
    have g7 := (keeps_notUnsupported (c := c) _).grow h7
    obtain ⟨e, rfl⟩ := pure_ok.1 h
    simp only [Prod.mk.injEq] at e
    obtain ⟨rfl, rfl⟩ := e
    obtain ⟨⟨lo, hi, i1, e1⟩, xa, xb, e1', i1', i1''⟩ := notApplyString_inv h1 (by omega)
    obtain ⟨nlo, nhi, nmo, nen, e2⟩ := notApplyNumber_part h2
    obtain ⟨en, vals, e3, e3'⟩ := notApplyEnum_part h3
    obtain ⟨vals', e4, e4'⟩ := notApplyConst_part h4
    obtain ⟨i5, i5', a1, a2, a3, a4, it, u, p, ui, ct, e5⟩ := notApplyArray_inv hrec h5 (by omega)
    obtain ⟨i6, i6r, ⟨o1, o2, pp, ap, rq, pr, e6⟩, i6', i6''⟩ := notApplyObject_inv hrec h6 (by omega)
    have type6 : r6.1.type = n5.type := by rw [e6]
    have type5 : n5.type = r4.1.type := by rw [e5]
    have type4 : r4.1.type = r3.1.type := by rw [e4]
    have type3 : r3.1.type = n2.type := by rw [e3]
    have type2 : n2.type = r1.1.type := by rw [e2]
    have type1 : r1.1.type = some t := by rw [e1]
    have minimum6 : r6.1.minimum = n5.minimum := by rw [e6]
    have minimum5 : n5.minimum = r4.1.minimum := by rw [e5]
    have minimum4 : r4.1.minimum = r3.1.minimum := by rw [e4]
    have minimum3 : r3.1.minimum = n2.minimum := by rw [e3]
    have maximum6 : r6.1.maximum = n5.maximum := by rw [e6]
    have maximum5 : n5.maximum = r4.1.maximum := by rw [e5]
    have maximum4 : r4.1.maximum = r3.1.maximum := by rw [e4]
    have maximum3 : r3.1.maximum = n2.maximum := by rw [e3]
    have multipleOf6 : r6.1.multipleOf = n5.multipleOf := by rw [e6]
    have multipleOf5 : n5.multipleOf = r4.1.multipleOf := by rw [e5]
    have multipleOf4 : r4.1.multipleOf = r3.1.multipleOf := by rw [e4]
    have multipleOf3 : r3.1.multipleOf = n2.multipleOf := by rw [e3]
    have enum6 : r6.1.enum = n5.enum := by rw [e6]
    have enum5 : n5.enum = r4.1.enum := by rw [e5]
    have enum4 : r4.1.enum = r3.1.enum := by rw [e4]
    have minLength6 : r6.1.minLength = n5.minLength := by rw [e6]
    have minLength5 : n5.minLength = r4.1.minLength := by rw [e5]
    have minLength4 : r4.1.minLength = r3.1.minLength := by rw [e4]
    have minLength3 : r3.1.minLength = n2.minLength := by rw [e3]
    have minLength2 : n2.minLength = r1.1.minLength := by rw [e2]
    have minLength1 : r1.1.minLength = lo := by rw [e1]
    have maxLength6 : r6.1.maxLength = n5.maxLength := by rw [e6]
    have maxLength5 : n5.maxLength = r4.1.maxLength := by rw [e5]
    have maxLength4 : r4.1.maxLength = r3.1.maxLength := by rw [e4]
    have maxLength3 : r3.1.maxLength = n2.maxLength := by rw [e3]
    have maxLength2 : n2.maxLength = r1.1.maxLength := by rw [e2]
    have maxLength1 : r1.1.maxLength = hi := by rw [e1]
    have pattern6 : r6.1.pattern = n5.pattern := by rw [e6]
    have pattern5 : n5.pattern = r4.1.pattern := by rw [e5]
    have pattern4 : r4.1.pattern = r3.1.pattern := by rw [e4]
    have pattern3 : r3.1.pattern = n2.pattern := by rw [e3]
    have pattern2 : n2.pattern = r1.1.pattern := by rw [e2]
    have pattern1 : r1.1.pattern = a.pattern := by rw [e1]
    have format6 : r6.1.format = n5.format := by rw [e6]
    have format5 : n5.format = r4.1.format := by rw [e5]
    have format4 : r4.1.format = r3.1.format := by rw [e4]
    have format3 : r3.1.format = n2.format := by rw [e3]
    have format2 : n2.format = r1.1.format := by rw [e2]
    have format1 : r1.1.format = a.format := by rw [e1]
    have const6 : r6.1.const = n5.const := by rw [e6]
    have const5 : n5.const = r4.1.const := by rw [e5]
    have const4 : r4.1.const = a.const := by rw [e4]
    have hN : ∃ n0 n1 n2 : SchemaNode, ∃ cc0 cc1 : ConstraintColl, ∃ s0 s1 s2 s3 : PSt, ∃ r3,
        n0.type = (notCopy a r6.1).type ∧ n0.enum = none ∧ cc0.notValues = [] ∧
        notApplyNumber c.fp a b n0 s0 = .ok n1 s1 ∧ s1.errors.length = s0.errors.length ∧
        (notCopy a r6.1).minimum = n1.minimum ∧ (notCopy a r6.1).maximum = n1.maximum ∧
        (notCopy a r6.1).multipleOf = n1.multipleOf ∧
        notApplyEnum a b n1 cc0 s1 = .ok (n2, cc1) s2 ∧ s2.errors.length = s1.errors.length ∧
        (notCopy a r6.1).enum = n2.enum ∧
        notApplyConst a b n2 cc1 s2 = .ok r3 s3 ∧ s3.errors.length = s2.errors.length ∧
        r6.2.notValues = r3.2.notValues := by
      refine ⟨r1.1, n2, r3.1, r1.2, r3.2, s1, s2, s3, s4, r4, ?_, ?_, ?_, h2, by omega, ?_, ?_, ?_, h3, by omega, ?_, h4, by omega, ?_⟩
      · exact (show r1.1.type = some t from type1).trans (Eq.symm (type6.trans (type5.trans (type4.trans (type3.trans (type2.trans type1))))))
      · rw [e1]; rfl
      · rw [e1']
      · exact (minimum6.trans (minimum5.trans (minimum4.trans minimum3)))
      · exact (maximum6.trans (maximum5.trans (maximum4.trans maximum3)))
      · exact (multipleOf6.trans (multipleOf5.trans (multipleOf4.trans multipleOf3)))
      · exact (enum6.trans (enum5.trans enum4))
      · rw [i6']
    have hn5 : n5.properties = none := by
      have p5 : n5.properties = r4.1.properties := by rw [e5]
      have p4 : r4.1.properties = r3.1.properties := by rw [e4]
      have p3 : r3.1.properties = n2.properties := by rw [e3]
      have p2 : n2.properties = r1.1.properties := by rw [e2]
      have p1 : r1.1.properties = none := by rw [e1]; rfl
      exact p5.trans (p4.trans (p3.trans (p2.trans p1)))
    have hlo : r6.1.minLength = lo := (minLength6.trans (minLength5.trans (minLength4.trans (minLength3.trans (minLength2.trans minLength1)))))
    have hhi : r6.1.maxLength = hi := (maxLength6.trans (maxLength5.trans (maxLength4.trans (maxLength3.trans (maxLength2.trans maxLength1)))))
    have hmi : r6.1.minItems = n5.minItems := by rw [e6]
    have hma : r6.1.maxItems = n5.maxItems := by rw [e6]
    have hmc : r6.1.minContains = n5.minContains := by rw [e6]
    have hmd : r6.1.maxContains = n5.maxContains := by rw [e6]
    refine ⟨⟨t, ht, ?_⟩, ?_, ?_, ?_, i6, ⟨?_, ?_⟩, i6r, ?_, ?_, ?_, ?_, ?_, hN⟩
    · exact (type6.trans (type5.trans (type4.trans (type3.trans (type2.trans type1)))))
    · rw [i1, ← hlo, ← hhi]; rfl
    · rw [i5, ← hmi, ← hma]; rfl
    · rw [i5', ← hmc, ← hmd]; rfl
    · exact (pattern6.trans (pattern5.trans (pattern4.trans (pattern3.trans (pattern2.trans pattern1)))))
    · exact (format6.trans (format5.trans (format4.trans (format3.trans (format2.trans format1)))))
    · exact (const6.trans (const5.trans const4))
    · intro p hp; rw [i6', e4', e3', e1']; exact i1' p hp
    · intro hn f hf; rw [i6', e4', e3', e1']; exact i1'' hn f hf
    · rw [i6', e4', e3', e1']; rfl
    · intro k hk
      refine i6'' k ?_ hn5
      rw [i6', e4', e3', e1'] at hk; exact hk

theorem notMerge_inv {k : Nat} {a b n : SchemaNode} {cc : ConstraintColl} {s s' : PSt}
    (h : notMerge c k a b s = .ok (n, cc) s') (hq : s'.errors.length = s.errors.length) : NotResult c a b n cc := by
  cases k with
  | zero => simp [notMerge] at h
  | succ k => exact notStep_inv (keeps_notMerge k) h hq

end Chaff
