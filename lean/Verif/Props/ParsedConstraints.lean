import Verif.Props.Types
import Verif.Props.Constraint
import Verif.Lemmas.Compiles
/-!
# C28, C30: the checks belong to the schema

`Props/Constraint.lean` speaks about constraints that are already compiled.  Here they are followed back to the schema:
every alternative of `oneOf` is checked, by a validator of that alternative, and the branches of a conditional come from
`then` and `else` in this order.
-/

namespace Chaff
open Comp

/-- `m` is the schema `x` with its own references and `allOf` resolved. -/
def Flattens (c : PEnv) (x m : SchemaNode) : Prop := ∃ k t t', mergeNodes c k [x] t = .ok m t'

/-- `f` is the validator of the alternative `x`, registered at the position of the state `s` with the index `i`. -/
def Checks (c : PEnv) (s : PSt) (i : Nat) (x : SchemaNode) (f : JVal → Bool) : Prop :=
  ∃ m t t', Flattens c x m ∧ t.path = s.path ∧ t.parsingId = s.parsingId ∧ OwnValidator c m s!"oneOf/{i}" t t' f

/-- `g` was made, without an error, for the schema `x` together with the schema `n`. -/
def MadeFor (c : PEnv) (n x : SchemaNode) (g : Gen) : Prop :=
  ∃ k k' scope m t t' u u', mergeNodes c k [n, x] t = .ok m t' ∧ parseInScope c (parseRec c k') scope m [x] u = .ok (g, none) u'

/-! ## oneOf -/

theorem addErrorSub_errors {sub : String} {e : Err} {s s' : PSt} {a : Unit} (h : addErrorSub sub e s = .ok a s') :
    s'.errors ≠ [] := by
  unfold addErrorSub at h
  simp at h
  rw [← h]
  simp

theorem flattenAll_flattens {c : PEnv} {k : Nat} : ∀ {l r : List SchemaNode} {s s' : PSt}, flattenAll c k l s = .ok r s' →
    List.Forall₂ (Flattens c) l r := by
  intro l
  induction l with
  | nil =>
    intro r s s' h
    unfold flattenAll at h
    rw [← (pure_ok.1 h).1]
    exact .nil
  | cons x t ih =>
    intro r s s' h
    unfold flattenAll at h
    obtain ⟨m, s1, h1, h⟩ := bind_ok.1 h
    obtain ⟨rest, s2, h2, h⟩ := bind_ok.1 h
    rw [← (pure_ok.1 h).1]
    exact .cons ⟨_, _, _, h1⟩ (ih h2)

theorem oneOfValidators_own {c : PEnv} {s0 : PSt} : ∀ {r : List SchemaNode} {j : Nat} {fs : List (JVal → Bool)} {s s' : PSt},
    oneOfValidators c j r s = .ok fs s' → s'.errors = [] → s.path = s0.path → s.parsingId = s0.parsingId →
    fs.length = r.length ∧ ∀ (i : Nat) m f, r[i]? = some m → fs[i]? = some f →
      ∃ t t', t.path = s0.path ∧ t.parsingId = s0.parsingId ∧ OwnValidator c m s!"oneOf/{j + i}" t t' f := by
  intro r
  induction r with
  | nil =>
    intro j fs s s' h _ _ _
    unfold oneOfValidators at h
    rw [← (pure_ok.1 h).1]
    exact ⟨rfl, nofun⟩
  | cons x t ih =>
    intro j fs s s' h he hp hd
    unfold oneOfValidators at h
    obtain ⟨v, s1, h1, h⟩ := bind_ok.1 h
    have ev := keeps_validatorFor c x _ _ _ _ h1
    cases v with
    | none =>
      dsimp only at h
      obtain ⟨_, s2, h2, h⟩ := bind_ok.1 h
      exact absurd ((keeps_oneOfValidators _ _ _ _ _ h).noErrors he) (addErrorSub_errors h2)
    | some f =>
      dsimp only at h
      obtain ⟨rest, s2, h2, h⟩ := bind_ok.1 h
      obtain ⟨rfl, rfl⟩ := pure_ok.1 h
      obtain ⟨hl, hi⟩ := ih h2 he (ev.path.trans hp) (ev.parsing.trans hd)
      refine ⟨by simp [hl], ?_⟩
      intro i m f' hm hf
      cases i with
      | zero =>
        cases hm
        cases hf
        exact ⟨s, s1, hp, hd, validatorFor_own h1⟩
      | succ i =>
        rw [show j + (i + 1) = j + 1 + i by omega]
        exact hi i m f' hm hf

theorem parseBranches_made {c : PEnv} {k : Nat} {n : SchemaNode} : ∀ {l : List SchemaNode} {j : Nat} {gs : List Gen} {s s' : PSt},
    parseBranches c (parseRec c k) n true j l s = .ok gs s' → s'.errors = [] →
    List.Forall₂ (fun x g => ∃ base, Flattens c n base ∧ MadeFor c { base with oneOf := none } x g) l gs := by
  intro l
  induction l with
  | nil =>
    intro j gs s s' h _
    unfold parseBranches at h
    rw [← (pure_ok.1 h).1]
    exact .nil
  | cons x t ih =>
    intro j gs s s' h he
    unfold parseBranches at h
    obtain ⟨g, s1, h1, h⟩ := bind_ok.1 h
    obtain ⟨rest, s2, h2, h⟩ := bind_ok.1 h
    obtain ⟨rfl, rfl⟩ := pure_ok.1 h
    refine .cons ?_ (ih h2 he)
    have he1 := (keeps_parseBranches (keeps_parseRec k) n true t (j + 1) _ _ _ h2).noErrors he
    unfold parseBranch at h1
    obtain ⟨base, t1, hb, h1⟩ := bind_ok.1 h1
    dsimp only at h1
    obtain ⟨m, t2, hm, h1⟩ := bind_ok.1 h1
    obtain ⟨⟨g', e⟩, t3, hg, h1⟩ := bind_ok.1 h1
    cases e with
    | some e =>
      dsimp only at h1
      obtain ⟨_, t4, h4, h1⟩ := bind_ok.1 h1
      obtain ⟨_, rfl⟩ := pure_ok.1 h1
      exact absurd he1 (addErrorSub_errors h4)
    | none =>
      obtain ⟨rfl, rfl⟩ := pure_ok.1 h1
      exact ⟨base, ⟨_, _, _, hb⟩, _, _, _, _, _, _, _, _, hm, hg⟩

/-- **C28.** A schema with several alternatives in `oneOf`, parsed without errors: there is a generator and a validator
for each of the alternatives, made from that alternative, and a value generated before the cutoff is accepted by
exactly one of these validators or is the documented failure string. -/
theorem C28_every_alternative_checked (c : PEnv) (k : Nat) (n : SchemaNode) (l : List SchemaNode) (s s' : PSt) (g : Gen)
    (href : n.ref = none) (hall : n.allOf = none) (hone : n.oneOf = some l) (hlen : 1 < l.length)
    (h : (parseRec c (k + 1)).schema n s = .ok (g, none) s') (herr : s'.errors = []) :
    ∃ (gs : List Gen) (fs : List (JVal → Bool)), g = .constrained (.comb gs) [.oneOf fs] ∧
      List.Forall₂ (fun x g => ∃ base, Flattens c n base ∧ MadeFor c { base with oneOf := none } x g) l gs ∧
      fs.length = l.length ∧ (∀ (i : Nat) x f, l[i]? = some x → fs[i]? = some f → Checks c s i x f) ∧
      ∀ ctx j st v st', generate ctx j g st = .ok v st' → shouldCutoff ctx.o st'.complexity = false →
        fs.countP (fun accepts => accepts v) = 1 ∨ ∃ attempts : Int,
          v = .str s!"Failed to generate a valid value for the following oneOf constraint after {attempts} attempts" := by
  change parseSchemaStep c (parseRec c k) n s = _ at h
  unfold parseSchemaStep at h
  cases hu : checkUnsupported n with
  | some e => rw [hu] at h; exact absurd h nullErr_ok
  | none =>
    rw [hu, href, hall] at h
    dsimp only at h
    rw [if_pos (.inl (by rw [hone]; rfl))] at h
    unfold parseCombination at h
    have hz : getZeroIfNil n.oneOf [] = l := by rw [hone]; rfl
    simp only [hz] at h
    have hd : decide (0 < l.length) = true := decide_eq_true (by omega)
    rw [hd] at h
    obtain ⟨gs, s1, h1, h⟩ := bind_ok.1 h
    rw [if_pos hlen] at h
    obtain ⟨resolved, s2, h2, h⟩ := bind_ok.1 h
    obtain ⟨fs, s3, h3, h⟩ := bind_ok.1 h
    obtain ⟨rfl, rfl⟩ := okGen_ok h
    have e1 := keeps_parseBranches (keeps_parseRec k) n true _ _ _ _ _ h1
    have e2 := keeps_flattenAll (c := c) _ _ _ _ _ h2
    have he2 := (keeps_oneOfValidators _ _ _ _ _ h3).noErrors herr
    have he1 := e2.noErrors he2
    have hfl := flattenAll_flattens h2
    obtain ⟨hl, hi⟩ := oneOfValidators_own (s0 := s) h3 herr (e2.path.trans e1.path) (e2.parsing.trans e1.parsing)
    refine ⟨gs, fs, rfl, parseBranches_made h1 he1, hl.trans hfl.length_eq.symm, ?_, ?_⟩
    · intro i x f hx hf
      have hlt : i < resolved.length := by
        rw [← hl]; exact (List.getElem?_eq_some_iff.1 hf).1
      obtain ⟨t, t', hp, hd, ho⟩ := hi i _ f (List.getElem?_eq_getElem hlt) hf
      rw [Nat.zero_add] at ho
      refine ⟨_, t, t', ?_, hp, hd, ho⟩
      obtain ⟨hxl, hxe⟩ := List.getElem?_eq_some_iff.1 hx
      rw [← hxe]
      exact (List.forall₂_iff_get.1 hfl).2 i hxl hlt
    · intro ctx j st v st' hg hcut
      exact C28_oneOf_exactly_one ctx j (.comb gs) [] fs st v st' hg hcut

/-! ## if, then, else -/

/-- The generator of a branch: made for the branch together with the rest of the schema; none without a branch. -/
def BranchOf (c : PEnv) (rest : SchemaNode) (body : Option SchemaNode) (g : Option Gen) : Prop :=
  match body with
  | none => g = none
  | some b => ∃ g', g = some g' ∧ MadeFor c rest b g'

theorem parseIfBody_branch {c : PEnv} {k : Nat} {scope : String} {n : SchemaNode} {body : Option SchemaNode} {s s' : PSt}
    {g : Option Gen} (h : parseIfBody c (parseRec c k) scope n body s = .ok g s') (he : s'.errors = []) :
    BranchOf c n body g := by
  unfold parseIfBody at h
  cases body with
  | none => exact (pure_ok.1 h).1.symm
  | some b =>
    dsimp only at h
    obtain ⟨m, s1, h1, h⟩ := bind_ok.1 h
    obtain ⟨⟨g', e⟩, s2, h2, h⟩ := bind_ok.1 h
    cases e with
    | some e =>
      dsimp only at h
      obtain ⟨_, s3, h3, h⟩ := bind_ok.1 h
      obtain ⟨_, rfl⟩ := pure_ok.1 h
      exact absurd he (addErrorSub_errors h3)
    | none =>
      obtain ⟨rfl, rfl⟩ := pure_ok.1 h
      exact ⟨g', rfl, _, _, _, _, _, _, _, _, h1, h2⟩

/-- **C30.** A schema with a conditional (and none inherited by merging), parsed without errors: the condition is a
validator of the schema under `if`, the branches are made for the schemas under `then` and `else`, and a value generated
before the cutoff satisfies the condition and comes from the first, or fails it and comes from the second, or is the
documented failure string. -/
theorem C30_conditional_applied (c : PEnv) (k : Nat) (n cond : SchemaNode) (s s' : PSt) (g : Gen)
    (href : n.ref = none) (hall : n.allOf = none) (hone : n.oneOf = none) (hany : n.anyOf = none) (hnot : n.not = none)
    (hmnot : n.mergedNot = []) (hmif : n.mergedIf = []) (hif : n.ifN = some cond)
    (h : (parseRec c (k + 1)).schema n s = .ok (g, none) s') (herr : s'.errors = []) :
    ∃ (base : Gen) (ic : IfC Gen), g = .constrained base [.ifs [ic]] ∧
      (∃ field t t', t.path = s.path ∧ OwnValidator c cond field t t' ic.cond) ∧
      BranchOf c { n with ifN := none, thenN := none, elseN := none, mergedIf := [] } n.thenN ic.thenGen ∧
      BranchOf c { n with ifN := none, thenN := none, elseN := none, mergedIf := [] } n.elseN ic.elseGen ∧
      ∀ ctx j st v st', generate ctx j g st = .ok v st' → shouldCutoff ctx.o st'.complexity = false →
        (ic.cond v = true ∧ ∀ t, ic.thenGen = some t → ∃ j' s1 s2, j = j' + 1 ∧ generate ctx j' t s1 = .ok v s2) ∨
        (ic.cond v = false ∧ ∀ e, ic.elseGen = some e → ∃ j' s1 s2, j = j' + 1 ∧ generate ctx j' e s1 = .ok v s2) ∨
        v = .str (ifsFailure ctx.o.maximumIfAttempts) := by
  change parseSchemaStep c (parseRec c k) n s = _ at h
  unfold parseSchemaStep at h
  cases hu : checkUnsupported n with
  | some e => rw [hu] at h; exact absurd h nullErr_ok
  | none =>
    rw [hu, href, hall] at h
    dsimp only at h
    rw [if_neg (by rw [hone, hany]; simp), if_neg (by rw [hnot, hmnot]; simp), if_pos (.inl (by rw [hif]; rfl))] at h
    unfold parseIf at h
    obtain ⟨path, s0, h0, h⟩ := bind_ok.1 h
    have hs0 : s = s0 := by unfold Chaff.gets at h0; cases h0; rfl
    subst hs0
    rw [if_pos (by rw [hif]; rfl), hmif, List.nil_append] at h
    obtain ⟨⟨base, e⟩, s1, h1, h⟩ := bind_ok.1 h
    have ev1 := (keeps_parseRec k).schema _ _ _ _ h1
    cases e with
    | some e => exact absurd h nullErr_ok
    | none =>
      dsimp only at h
      rw [if_neg (by simp)] at h
      obtain ⟨cs, s2, h2, h⟩ := bind_ok.1 h
      have he2 : s2.errors = [] := by
        split at h
        · obtain ⟨_, s3, h3, h⟩ := bind_ok.1 h
          obtain ⟨_, rfl⟩ := okGen_ok h
          exact absurd herr (addErrorSub_errors h3)
        · obtain ⟨_, rfl⟩ := okGen_ok h
          exact herr
      unfold compileIfs at h2
      obtain ⟨x, s3, h3, h2⟩ := bind_ok.1 h2
      cases x with
      | error e =>
        dsimp only at h2
        obtain ⟨_, s4, h4, h2⟩ := bind_ok.1 h2
        unfold compileIfs at h2
        obtain ⟨_, rfl⟩ := pure_ok.1 h2
        exact absurd he2 (addErrorSub_errors h4)
      | ok ic =>
        dsimp only at h2
        obtain ⟨rest, s4, h4, h2⟩ := bind_ok.1 h2
        unfold compileIfs at h4
        obtain ⟨rfl, rfl⟩ := pure_ok.1 h4
        obtain ⟨rfl, rfl⟩ := pure_ok.1 h2
        rw [if_neg (by simp)] at h
        obtain ⟨rfl, rfl⟩ := okGen_ok h
        unfold compileIf newIfStatement at h3
        dsimp only at h3
        rw [hif] at h3
        dsimp only at h3
        split at h3
        · cases (pure_ok.1 h3).1
        · obtain ⟨p, t0, hp, h3⟩ := bind_ok.1 h3
          have ht0 : s1 = t0 := by unfold Chaff.gets at hp; cases hp; rfl
          subst ht0
          obtain ⟨v, t1, hv, h3⟩ := bind_ok.1 h3
          cases v with
          | none => cases (pure_ok.1 h3).1
          | some f =>
            dsimp only at h3
            obtain ⟨th, t2, hth, h3⟩ := bind_ok.1 h3
            obtain ⟨el, t3, hel, h3⟩ := bind_ok.1 h3
            obtain ⟨hic, rfl⟩ := pure_ok.1 h3
            cases hic
            have he3 := (keeps_parseIfBody (keeps_parseRec k) _ _ _ _ _ _ hel).noErrors herr
            refine ⟨base, _, rfl, ⟨_, s1, t1, ev1.path, validatorFor_own hv⟩, parseIfBody_branch hth he3,
              parseIfBody_branch hel herr, ?_⟩
            intro ctx j st v st' hg hcut
            exact C30_if_then_else ctx j base [] _ st v st' hg hcut

/-! ## The hypotheses are met -/

/-- A node is parsed into a constrained generator, without errors. -/
def cleanlyConstrained (n : SchemaNode) : Bool :=
  match (parseRec demoEnv 12).schema n emptyPSt with
  | .ok (.constrained _ _, none) s => s.errors.length = 0
  | _ => false

theorem cleanlyConstrained_spec {n : SchemaNode} (h : cleanlyConstrained n = true) :
    ∃ g s, (parseRec demoEnv 12).schema n emptyPSt = .ok (g, none) s ∧ s.errors = [] := by
  unfold cleanlyConstrained at h
  split at h
  · rename_i heq
    exact ⟨_, _, heq, by simpa using h⟩
  · cases h

/-- `{"type": "string", "minLength": 1}` and `{"type": "integer"}`. -/
def someText : SchemaNode := { emptyNode with type := some { single := "string" }, minLength := some 1 }
def someCount : SchemaNode := { emptyNode with type := some { single := "integer" } }

/-- `{"oneOf": [{"type": "string", "minLength": 1}, {"type": "integer"}]}`. -/
def textOrCount : SchemaNode := { emptyNode with oneOf := some [someText, someCount] }

/-- C28: both alternatives have a generator and a validator. -/
example : ∃ gs fs s, (parseRec demoEnv 12).schema textOrCount emptyPSt = .ok (.constrained (.comb gs) [.oneOf fs], none) s ∧
    fs.length = 2 ∧ gs.length = 2 := by
  obtain ⟨g, s, h, he⟩ := cleanlyConstrained_spec (n := textOrCount) (by decide +kernel)
  obtain ⟨gs, fs, rfl, hg, hf, _⟩ := C28_every_alternative_checked demoEnv 11 textOrCount _ _ _ g rfl rfl rfl (by decide) h he
  exact ⟨gs, fs, s, h, hf, hg.length_eq.symm⟩

/-- `{"type": "string", "if": {"minLength": 3}, "then": {"maxLength": 9}}`. -/
def conditionalText : SchemaNode :=
  { emptyNode with
    type := some { single := "string" }, ifN := some { emptyNode with minLength := some 3 }
    thenN := some { emptyNode with maxLength := some 9 } }

/-- C30: there is a then branch and no else branch. -/
example : ∃ base f t s, (parseRec demoEnv 12).schema conditionalText emptyPSt =
    .ok (.constrained base [.ifs [⟨f, some t, none⟩]], none) s := by
  obtain ⟨g, s, h, he⟩ := cleanlyConstrained_spec (n := conditionalText) (by decide +kernel)
  obtain ⟨base, ic, rfl, _, ⟨t, ht, _⟩, hel, _⟩ := C30_conditional_applied demoEnv 11 conditionalText _ _ _ g rfl rfl rfl rfl
    rfl rfl rfl rfl h he
  have hel : ic.elseGen = none := hel
  refine ⟨base, ic.cond, t, s, ?_⟩
  rw [h]
  cases ic
  simp_all

end Chaff
