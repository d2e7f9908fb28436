import Verif.Props.Array
import Verif.Props.Options
/-!
# C28 - C31: oneOf, not and if/then/else constraints
-/

set_option linter.unusedVariables false

namespace Chaff
open Comp

/-! ## Specification of the three constraints on the final value -/

/-- Exactly one of the alternatives accepts the value. -/
def ExactlyOne (schemas : List (JVal → Bool)) (v : JVal) : Prop := schemas.countP (fun p => p v) = 1

/-- The value meets the condition and comes from the then generator (if there is one), or fails it and comes
from the else generator (if there is one). -/
def BranchOK (sub : Gen → M JVal) (ic : IfC Gen) (v : JVal) : Prop :=
  (ic.cond v = true ∧ ∀ t, ic.thenGen = some t → Produced sub t v) ∨
  (ic.cond v = false ∧ ∀ e, ic.elseGen = some e → Produced sub e v)

/-! ## Lemmas -/

theorem oneOfPassed_go (v : JVal) (ps : List (JVal → Bool)) (n : Nat) (hn : n ≤ 1) :
    oneOfPassed.go v ps n = true ↔ n + ps.countP (fun p => p v) = 1 := by
  induction ps generalizing n with
  | nil => simp [oneOfPassed.go]
  | cons p ps ih =>
    simp only [oneOfPassed.go, List.countP_cons]
    by_cases hp : p v = true
    · simp only [hp, if_true]
      split
      · constructor
        · intro h; cases h
        · intro h; omega
      · rw [ih _ (by omega)]; omega
    · simp only [hp]
      simp only [Bool.false_eq_true, if_false]
      split
      · omega
      · rw [ih _ hn]; omega

theorem oneOfPassed_iff {schemas : List (JVal → Bool)} {v : JVal} :
    oneOfPassed schemas v = true ↔ ExactlyOne schemas v := by
  unfold oneOfPassed ExactlyOne
  rw [oneOfPassed_go v schemas 0 (by omega)]
  omega

section
variable {c : Ctx} {sub : Gen → M JVal}

theorem oneOfLoop_post (schemas : List (JVal → Bool)) (g : Gen) (n : Nat) (v : JVal) (s : GSt) :
    Post (oneOfLoop sub schemas g n v) s
      (fun o _ => ∀ r, o = some r → ExactlyOne schemas r ∧ (r = v ∨ Produced sub g r)) := by
  induction n generalizing v s with
  | zero => exact Post.pure (by simp)
  | succ n ih =>
    unfold oneOfLoop
    refine Post.bind (fun _ s1 h1 => ?_)
    split
    · rename_i h
      refine Post.pure ?_
      intro r hr; cases hr
      exact ⟨oneOfPassed_iff.1 h, Or.inl rfl⟩
    · refine Post.bind (fun v' s2 h2 => ?_)
      refine Post.mono (ih v' s2) (fun o _ h r hr => ?_)
      obtain ⟨h3, h4⟩ := h r hr
      refine ⟨h3, Or.inr ?_⟩
      rcases h4 with rfl | h4
      · exact ⟨_, _, h2⟩
      · exact h4

theorem multiLoop_post (fns : List (JVal → Bool)) (g : Gen) (n : Nat) (v : JVal) (s : GSt) :
    Post (multiLoop sub fns g n v) s
      (fun o _ => ∀ r, o = some r → (∀ f ∈ fns, f r = true) ∧ (r = v ∨ Produced sub g r)) := by
  induction n generalizing v s with
  | zero => exact Post.pure (by simp)
  | succ n ih =>
    unfold multiLoop
    split
    · rename_i h
      refine Post.pure ?_
      intro r hr; cases hr
      exact ⟨by simpa [multiPassed, List.all_eq_true] using h, Or.inl rfl⟩
    · refine Post.bind (fun v' s2 h2 => ?_)
      refine Post.mono (ih v' s2) (fun o _ h r hr => ?_)
      obtain ⟨h3, h4⟩ := h r hr
      refine ⟨h3, Or.inr ?_⟩
      rcases h4 with rfl | h4
      · exact ⟨_, _, h2⟩
      · exact h4

/-- A value from one of the branches. -/
def FromBranch (sub : Gen → M JVal) (ic : IfC Gen) (r : JVal) : Prop :=
  (∃ t, ic.thenGen = some t ∧ Produced sub t r) ∨ (∃ e, ic.elseGen = some e ∧ Produced sub e r)

theorem attemptIf_post (ic : IfC Gen) (v : JVal) (s : GSt) :
    Post (attemptIf sub ic v) s (fun o _ => ∀ r, o = some r →
      BranchOK sub ic r ∧ (r = v ∨ FromBranch sub ic r)) := by
  unfold attemptIf
  split
  · rename_i h
    cases ht : ic.thenGen with
    | none =>
      refine Post.pure ?_
      intro r hr; cases hr
      exact ⟨Or.inl ⟨h, by rw [ht]; simp⟩, Or.inl rfl⟩
    | some t =>
      refine Post.bind (fun tv s1 h1 => Post.pure ?_)
      intro r hr
      split at hr
      · rename_i hc
        cases hr
        refine ⟨Or.inl ⟨hc, ?_⟩, Or.inr (Or.inl ⟨t, ht, _, _, h1⟩)⟩
        intro t' ht'
        rw [ht] at ht'; cases ht'
        exact ⟨_, _, h1⟩
      · cases hr
  · rename_i h
    have h : ic.cond v = false := by simpa using h
    cases ht : ic.elseGen with
    | none =>
      refine Post.pure ?_
      intro r hr; cases hr
      exact ⟨Or.inr ⟨h, by rw [ht]; simp⟩, Or.inl rfl⟩
    | some t =>
      refine Post.bind (fun tv s1 h1 => Post.pure ?_)
      intro r hr
      split at hr
      · rename_i hc
        cases hr
        refine ⟨Or.inr ⟨by simpa using hc, ?_⟩, Or.inr (Or.inr ⟨t, ht, _, _, h1⟩)⟩
        intro t' ht'
        rw [ht] at ht'; cases ht'
        exact ⟨_, _, h1⟩
      · cases hr

/-- A pass over the conditionals: the value comes from the start or a branch, and satisfies the last conditional. -/
theorem ifsPass_post (cs : List (IfC Gen)) (is : List Nat) (v : JVal) (s : GSt) :
    Post (ifsPass sub cs is v) s (fun o _ => ∀ r, o = some r →
      (r = v ∨ ∃ ic ∈ cs, FromBranch sub ic r) ∧ (is = [] → r = v) ∧
      (∀ i, is.getLast? = some i → ∃ ic, cs[i]? = some ic ∧ BranchOK sub ic r)) := by
  induction is generalizing v s with
  | nil =>
    refine Post.pure ?_
    intro r hr; cases hr
    exact ⟨Or.inl rfl, fun _ => rfl, by simp⟩
  | cons i is ih =>
    unfold ifsPass
    refine Post.bind (fun ic s1 h1 => Post.bind (fun o s2 h2 => ?_))
    have hi := indexAt_post _ _ _ ic s1 h1
    have ha := attemptIf_post ic v _ o s2 h2
    cases o with
    | none => exact Post.pure (by simp)
    | some v' =>
      obtain ⟨hb, ho⟩ := ha v' rfl
      refine Post.mono (ih v' s2) (fun o _ h r hr => ?_)
      obtain ⟨h3, h5, h4⟩ := h r hr
      have hic : ic ∈ cs := List.mem_of_getElem? hi.2.1
      refine ⟨?_, by simp, ?_⟩
      · rcases h3 with rfl | h3
        · rcases ho with rfl | ho
          · exact Or.inl rfl
          · exact Or.inr ⟨ic, hic, ho⟩
        · exact Or.inr h3
      · intro j hj
        cases is with
        | nil =>
          simp at hj
          subst hj
          rw [h5 rfl]
          exact ⟨ic, by simpa using hi.2.1, hb⟩
        | cons a as => exact h4 j (by simpa using hj)

theorem ifsLoop_post (cs : List (IfC Gen)) (g : Gen) (n : Nat) (v : JVal) (s : GSt) :
    Post (ifsLoop c sub cs g n v) s (fun o _ => ∀ r, o = some r →
      (r = v ∨ Produced sub g r ∨ ∃ ic ∈ cs, FromBranch sub ic r) ∧
      (cs ≠ [] → ∃ ic ∈ cs, BranchOK sub ic r)) := by
  induction n generalizing v s with
  | zero => exact Post.pure (by simp)
  | succ n ih =>
    unfold ifsLoop
    refine Post.bind (fun _ s1 _ => Post.bind (fun p s2 hp => Post.bind (fun o s3 ho => ?_)))
    have hperm := perm_post _ _ _ p s2 hp
    have hpass := ifsPass_post cs p v _ o s3 ho
    cases o with
    | some r =>
      refine Post.pure ?_
      intro r' hr'; cases hr'
      obtain ⟨h1, h2, h3⟩ := hpass r rfl
      refine ⟨?_, fun hne => ?_⟩
      · rcases h1 with h1 | h1
        · exact Or.inl h1
        · exact Or.inr (Or.inr h1)
      · have hp0 : p ≠ [] := by
          intro h0
          rw [h0] at hperm
          have := hperm.length_eq
          simp at this
          exact hne (List.length_eq_zero_iff.1 this.symm)
        obtain ⟨i, hi⟩ : ∃ i, p.getLast? = some i := ⟨_, List.getLast?_eq_some_getLast hp0⟩
        obtain ⟨ic, h4, h5⟩ := h3 i hi
        exact ⟨ic, List.mem_of_getElem? h4, h5⟩
    | none =>
      refine Post.bind (fun v' s4 h4 => ?_)
      refine Post.mono (ih v' s4) (fun o _ h r hr => ?_)
      obtain ⟨h5, h6⟩ := h r hr
      refine ⟨?_, h6⟩
      rcases h5 with rfl | h5 | h5
      · exact Or.inr (Or.inl ⟨_, _, h4⟩)
      · exact Or.inr (Or.inl h5)
      · exact Or.inr (Or.inr h5)

/-- Where the value returned by a constraint comes from: it is the value passed in, a regenerated one, one of a
branch of a conditional, or a failure string that is also recorded as a diagnostic. -/
inductive Origin (sub : Gen → M JVal) (g : Gen) (k : Constr Gen) (v r : JVal) : Prop
  | same : r = v → Origin sub g k v r
  | again : Produced sub g r → Origin sub g k v r
  | branch {cs : List (IfC Gen)} {ic : IfC Gen} : k = .ifs cs → ic ∈ cs → FromBranch sub ic r → Origin sub g k v r
  | failure (msg : String) : r = .str msg → Origin sub g k v r

/-- What the constraint guarantees about its result. -/
def Satisfied (sub : Gen → M JVal) : Constr Gen → JVal → Prop
  | .oneOf schemas, r => ExactlyOne schemas r
  | .multi fns, r => ∀ f ∈ fns, f r = true
  | .ifs cs, r => cs ≠ [] → ∃ ic ∈ cs, BranchOK sub ic r

/-- The failure strings. -/
def FailureString (c : Ctx) : Constr Gen → JVal → Prop
  | .oneOf _, r => ∃ n : Int, r = .str (oneOfFailure n)
  | .multi _, r => ∃ n : Int, r = .str (multiFailure n)
  | .ifs _, r => r = .str (ifsFailure c.o.maximumIfAttempts)

theorem applyConstr_post (g : Gen) (k : Constr Gen) (v : JVal) (s : GSt) :
    Post (applyConstr c sub g k v) s (fun r s' => Origin sub g k v r ∧
      (Satisfied sub k r ∨ (FailureString c k r ∧ s'.diags ≠ []))) := by
  cases k with
  | oneOf schemas =>
    simp only [applyConstr]
    refine Post.bind (fun n s1 h1 => Post.bind (fun o s2 h2 => ?_))
    have h := oneOfLoop_post schemas g _ v _ o s2 h2
    cases o with
    | some r =>
      refine Post.pure ⟨?_, Or.inl (h r rfl).1⟩
      rcases (h r rfl).2 with h | h
      · exact .same h
      · exact .again h
    | none =>
      refine Post.bind (fun _ s3 h3 => Post.pure ⟨.failure _ rfl, Or.inr ⟨⟨n, rfl⟩, ?_⟩⟩)
      simp [note] at h3; subst h3; simp
  | multi fns =>
    simp only [applyConstr]
    refine Post.bind (fun n s1 h1 => Post.bind (fun o s2 h2 => ?_))
    have h := multiLoop_post fns g _ v _ o s2 h2
    cases o with
    | some r =>
      refine Post.pure ⟨?_, Or.inl (h r rfl).1⟩
      rcases (h r rfl).2 with h | h
      · exact .same h
      · exact .again h
    | none =>
      refine Post.bind (fun _ s3 h3 => Post.pure ⟨.failure _ rfl, Or.inr ⟨⟨n, rfl⟩, ?_⟩⟩)
      simp [note] at h3; subst h3; simp
  | ifs cs =>
    simp only [applyConstr]
    refine Post.bind (fun n s1 h1 => Post.bind (fun o s2 h2 => ?_))
    have h := ifsLoop_post cs g _ v _ o s2 h2
    cases o with
    | some r =>
      refine Post.pure ⟨?_, Or.inl (h r rfl).2⟩
      rcases (h r rfl).1 with h | h | ⟨ic, h1, h2⟩
      · exact .same h
      · exact .again h
      · exact .branch rfl h1 h2
    | none =>
      refine Post.bind (fun _ s3 h3 => Post.pure ⟨.failure _ rfl, Or.inr ⟨rfl, ?_⟩⟩)
      simp [note] at h3; subst h3; simp

theorem applyAll_last (g : Gen) (pre : List (Constr Gen)) (k : Constr Gen) (v : JVal) (s : GSt) :
    Post (applyAll c sub g (pre ++ [k]) v) s (fun r s' => Satisfied sub k r ∨ (FailureString c k r ∧ s'.diags ≠ [])) := by
  induction pre generalizing v s with
  | nil =>
    simp only [List.nil_append, applyAll]
    refine Post.bind (fun _ s1 h1 => Post.bind (fun r s2 h2 => Post.pure ?_))
    exact (applyConstr_post g k v _ r s2 h2).2
  | cons k' pre ih =>
    simp only [List.cons_append, applyAll]
    exact Post.bind (fun _ s1 h1 => Post.bind (fun r s2 h2 => ih r s2))

end

/-- Constrained generation: unless the cutoff is passed, the result satisfies the last constraint or is its
failure string. -/
theorem generate_constrained_post (c : Ctx) (n : Nat) (g : Gen) (pre : List (Constr Gen)) (k : Constr Gen)
    (s : GSt) (v : JVal) (s' : GSt) (h : generate c n (.constrained g (pre ++ [k])) s = .ok v s')
    (hcut : shouldCutoff c.o s'.complexity = false) :
    ∃ n', n = n' + 1 ∧ (Satisfied (generate c n') k v ∨ FailureString c k v) := by
  cases n with
  | zero => simp [generate] at h
  | succ n =>
    refine ⟨n, rfl, ?_⟩
    have hev := generate_evolves c (n + 1) (.constrained g (pre ++ [k])) s v s' h
    simp only [generate, genStep, constrainedGenerate] at h
    obtain ⟨v0, s1, h1, h⟩ := bind_ok.1 h
    obtain ⟨b, s2, h2, h⟩ := bind_ok.1 h
    simp [cutoff] at h2
    obtain ⟨hb, rfl⟩ := h2
    cases b with
    | true =>
      rw [if_pos rfl] at h
      obtain ⟨_, s3, h3, h⟩ := bind_ok.1 h
      simp [note] at h3 h
      obtain ⟨rfl, rfl⟩ := h
      rw [← h3] at hcut
      simp only at hcut
      rw [hcut] at hb
      cases hb
    | false =>
      rw [if_neg (by simp)] at h
      rcases applyAll_last g pre k v0 _ v s' h with h | h
      · exact Or.inl h
      · exact Or.inr h.1

/-- **C28.** A value generated under `oneOf` before the cutoff is accepted by exactly one of the compiled
alternatives, or is the documented failure string. -/
theorem C28_oneOf_exactly_one (c : Ctx) (n : Nat) (g : Gen) (pre : List (Constr Gen)) (schemas : List (JVal → Bool))
    (s : GSt) (v : JVal) (s' : GSt) (h : generate c n (.constrained g (pre ++ [.oneOf schemas])) s = .ok v s')
    (hcut : shouldCutoff c.o s'.complexity = false) :
    schemas.countP (fun accepts => accepts v) = 1 ∨
    ∃ attempts : Int, v = .str s!"Failed to generate a valid value for the following oneOf constraint after {attempts} attempts" := by
  obtain ⟨n', _, h | h⟩ := generate_constrained_post c n g pre _ s v s' h hcut
  · exact Or.inl h
  · exact Or.inr h

/-- **C29.** A value generated under compiled `not` constraints before the cutoff satisfies all of them, or is the
documented failure string. -/
theorem C29_not_constraints (c : Ctx) (n : Nat) (g : Gen) (pre : List (Constr Gen)) (fns : List (JVal → Bool))
    (s : GSt) (v : JVal) (s' : GSt) (h : generate c n (.constrained g (pre ++ [.multi fns])) s = .ok v s')
    (hcut : shouldCutoff c.o s'.complexity = false) :
    (∀ f ∈ fns, f v = true) ∨ ∃ attempts : Int, v = .str (multiFailure attempts) := by
  obtain ⟨n', _, h | h⟩ := generate_constrained_post c n g pre _ s v s' h hcut
  · exact Or.inl h
  · exact Or.inr h

/-- **C30.** With one conditional the value satisfies the condition and was produced for the then branch, or fails
it and was produced for the else branch, or is the failure string. -/
theorem C30_if_then_else (c : Ctx) (n : Nat) (g : Gen) (pre : List (Constr Gen)) (ic : IfC Gen)
    (s : GSt) (v : JVal) (s' : GSt) (h : generate c n (.constrained g (pre ++ [.ifs [ic]])) s = .ok v s')
    (hcut : shouldCutoff c.o s'.complexity = false) :
    (ic.cond v = true ∧ ∀ t, ic.thenGen = some t → ∃ n' s1 s2, n = n' + 1 ∧ generate c n' t s1 = .ok v s2) ∨
    (ic.cond v = false ∧ ∀ e, ic.elseGen = some e → ∃ n' s1 s2, n = n' + 1 ∧ generate c n' e s1 = .ok v s2) ∨
    v = .str (ifsFailure c.o.maximumIfAttempts) := by
  obtain ⟨n', hn, h | h⟩ := generate_constrained_post c n g pre _ s v s' h hcut
  · obtain ⟨ic', hic, hb⟩ := h (by simp)
    simp at hic
    subst hic
    rcases hb with ⟨h1, h2⟩ | ⟨h1, h2⟩
    · refine Or.inl ⟨h1, fun t ht => ?_⟩
      obtain ⟨s1, s2, h3⟩ := h2 t ht
      exact ⟨n', s1, s2, hn, h3⟩
    · refine Or.inr (Or.inl ⟨h1, fun t ht => ?_⟩)
      obtain ⟨s1, s2, h3⟩ := h2 t ht
      exact ⟨n', s1, s2, hn, h3⟩
  · exact Or.inr (Or.inr h)

/-- **C30, several conditionals.**  The result is only guaranteed to satisfy one of them (the last one tried);
see `C30_two_conditionals_violation`. -/
theorem C30_several_conditionals_partial (c : Ctx) (n : Nat) (g : Gen) (pre : List (Constr Gen)) (cs : List (IfC Gen))
    (hcs : cs ≠ []) (s : GSt) (v : JVal) (s' : GSt)
    (h : generate c n (.constrained g (pre ++ [.ifs cs])) s = .ok v s')
    (hcut : shouldCutoff c.o s'.complexity = false) :
    (∃ n', n = n' + 1 ∧ ∃ ic ∈ cs, BranchOK (generate c n') ic v) ∨ v = .str (ifsFailure c.o.maximumIfAttempts) := by
  obtain ⟨n', hn, h | h⟩ := generate_constrained_post c n g pre _ s v s' h hcut
  · exact Or.inl ⟨n', hn, h hcs⟩
  · exact Or.inr h

/-! ## C31: how often a constraint regenerates -/

/-- A behaviour of sub-generators that leaves a mark for every call: each call of `g` makes the reference stack
longer by exactly `b g`.  The constraints themselves never touch that stack, so it counts the calls. -/
def Marks (sub : Gen → M JVal) (b : Gen → Nat) : Prop :=
  ∀ g s v s', sub g s = .ok v s' → s'.refs.length = s.refs.length + b g

/-- The calls of a computation are bounded. -/
def Calls {α : Type} (m : M α) (k : Nat) : Prop := ∀ s a s', m s = .ok a s' → s'.refs.length ≤ s.refs.length + k

section calls
variable {c : Ctx} {sub : Gen → M JVal} {b : Gen → Nat}

theorem Calls.pure {α : Type} {a : α} {k : Nat} : Calls (Pure.pure a : M α) k := by
  intro s x s' h; simp at h; obtain ⟨_, rfl⟩ := h; omega

theorem Calls.bind {α β : Type} {m : M α} {f : α → M β} {k l : Nat} (hm : Calls m k) (hf : ∀ a, Calls (f a) l) :
    Calls (m >>= f) (k + l) := by
  intro s x s' h
  obtain ⟨a, s1, h1, h2⟩ := bind_ok.1 h
  have := hm s a s1 h1
  have := hf a s1 x s' h2
  omega

theorem Calls.mono {α : Type} {m : M α} {k l : Nat} (h : Calls m k) (hl : k ≤ l) : Calls m l :=
  fun s a s' e => (h s a s' e).trans (by omega)

theorem Calls.of_evolves {α : Type} {m : M α} (h : Evolves m) : Calls m 0 := by
  intro s a s' e; rw [(h s a s' e).refs]; omega

theorem Calls.marked (h : Marks sub b) (g : Gen) : Calls (sub g) (b g) := by
  intro s a s' e; rw [h g s a s' e]

theorem oneOfLoop_calls (h : Marks sub b) (schemas : List (JVal → Bool)) (g : Gen) (n : Nat) (v : JVal) :
    Calls (oneOfLoop sub schemas g n v) (n * b g) := by
  induction n generalizing v with
  | zero => exact Calls.pure
  | succ n ih =>
    unfold oneOfLoop
    refine (Calls.bind (Calls.of_evolves Evolves.tick) (fun _ => ?_)).mono (Nat.le_of_eq (Nat.zero_add _))
    split
    · exact Calls.pure
    · exact (Calls.bind (Calls.marked h g) (fun v' => ih v')).mono (by rw [Nat.succ_mul]; omega)

theorem multiLoop_calls (h : Marks sub b) (fns : List (JVal → Bool)) (g : Gen) (n : Nat) (v : JVal) :
    Calls (multiLoop sub fns g n v) (n * b g) := by
  induction n generalizing v with
  | zero => exact Calls.pure
  | succ n ih =>
    unfold multiLoop
    split
    · exact Calls.pure
    · exact (Calls.bind (Calls.marked h g) (fun v' => ih v')).mono (by rw [Nat.succ_mul]; omega)

/-- Calls of the two branches of a conditional: at most one of them. -/
def branchMarks (b : Gen → Nat) (ic : IfC Gen) : Nat :=
  max (match ic.thenGen with | some t => b t | none => 0) (match ic.elseGen with | some e => b e | none => 0)

theorem attemptIf_calls (h : Marks sub b) (ic : IfC Gen) (v : JVal) : Calls (attemptIf sub ic v) (branchMarks b ic) := by
  unfold attemptIf branchMarks
  split
  · cases ht : ic.thenGen with
    | none => exact Calls.pure
    | some t => exact (Calls.bind (Calls.marked h t) (fun _ => Calls.pure (k := 0))).mono (by simp)
  · cases ht : ic.elseGen with
    | none => exact Calls.pure
    | some t => exact (Calls.bind (Calls.marked h t) (fun _ => Calls.pure (k := 0))).mono (by simp)

theorem indexAt_evolves {α : Type} (l : List α) (i : Int) : Evolves (indexAt l i) := by
  intro s a s' h
  obtain ⟨_, _, rfl⟩ := indexAt_post l i s a s' h
  exact Evol.rfl'

theorem perm_refs (d : M Nat) (hd : ∀ s a s', d s = .ok a s' → s'.refs = s.refs) (n : Nat) (m : List Nat) :
    ∀ s a s', permLoop d n m s = .ok a s' → s'.refs = s.refs := by
  induction n generalizing m with
  | zero => intro s a s' h; simp [permLoop] at h; rw [h.2]
  | succ n ih =>
    intro s a s' h
    unfold permLoop at h
    obtain ⟨j, s1, h1, h⟩ := bind_ok.1 h
    have e1 : s1.refs = s.refs := by
      unfold intnWith at h1
      split at h1
      · simp at h1
      · obtain ⟨x, s2, h2, h1⟩ := bind_ok.1 h1
        simp at h1
        rw [← h1.2]
        exact hd _ _ _ h2
    rw [ih _ _ _ _ h, e1]

theorem ifsPass_calls (h : Marks sub b) (cs : List (IfC Gen)) (K : Nat) (hK : ∀ ic ∈ cs, branchMarks b ic ≤ K)
    (is : List Nat) (v : JVal) : Calls (ifsPass sub cs is v) (is.length * K) := by
  induction is generalizing v with
  | nil => exact Calls.pure
  | cons i is ih =>
    intro s o s' he
    unfold ifsPass at he
    obtain ⟨ic, s1, h1, he⟩ := bind_ok.1 he
    obtain ⟨r, s2, h2, he⟩ := bind_ok.1 he
    obtain ⟨_, hget, rfl⟩ := indexAt_post _ _ _ ic s1 h1
    have hb := hK ic (List.mem_of_getElem? hget)
    have c2 := attemptIf_calls h ic v _ r s2 h2
    rw [List.length_cons, Nat.succ_mul]
    cases r with
    | none => simp at he; obtain ⟨_, rfl⟩ := he; omega
    | some v' =>
      have := ih v' s2 o s' he
      omega

theorem ifsLoop_calls (h : Marks sub b) (cs : List (IfC Gen)) (K : Nat) (hK : ∀ ic ∈ cs, branchMarks b ic ≤ K)
    (g : Gen) (n : Nat) (v : JVal) : Calls (ifsLoop c sub cs g n v) (n * (cs.length * K + b g)) := by
  induction n generalizing v with
  | zero => exact Calls.pure
  | succ n ih =>
    intro s o s' he
    unfold ifsLoop at he
    obtain ⟨_, s1, h1, he⟩ := bind_ok.1 he
    obtain ⟨p, s2, h2, he⟩ := bind_ok.1 he
    obtain ⟨r, s3, h3, he⟩ := bind_ok.1 he
    have e1 : s1.refs = s.refs := (Evolves.tick s _ s1 h1).refs
    have e2 : s2.refs = s1.refs := perm_refs _ (fun s a s' hd => (Evolves.seeded c.w s a s' hd).refs) _ _ _ _ _ h2
    have hl : p.length = cs.length := by
      have := (perm_post _ _ _ p s2 h2).length_eq
      simpa using this
    have c3 := ifsPass_calls h cs K hK p v s2 r s3 h3
    rw [hl, e2, e1] at c3
    rw [Nat.succ_mul]
    cases r with
    | some x => simp at he; obtain ⟨_, rfl⟩ := he; omega
    | none =>
      obtain ⟨v', s4, h4, he⟩ := bind_ok.1 he
      have := ih v' s4 o s' he
      have := h g s3 v' s4 h4
      omega

end calls

/-- **C31.** Whatever the sub-generators do, applying a `oneOf` or `not` constraint calls the underlying generator
at most as often as the retry budget, which is at most the configured number of attempts (and at least 1).  Calls are
counted by a mark that every call leaves on the reference stack and that nothing else touches. -/
theorem C31_retries_bounded (c : Ctx) (hF : c.w.fp.Lawful) (sub : Gen → M JVal) (g : Gen) (v : JVal) (k : Constr Gen)
    (attempts : Int)
    (hk : (∃ schemas, k = .oneOf schemas ∧ attempts = c.o.maximumOneOfAttempts) ∨
          (∃ fns, k = .multi fns ∧ attempts = c.o.maximumUniqueGeneratorAttempts))
    (hbig : attempts ≤ 2 ^ 53)
    (hmark : ∀ g s v s', sub g s = .ok v s' → s'.refs.length = s.refs.length + 1) (s : GSt) (r : JVal) (s' : GSt)
    (h : applyConstr c sub g k v s = .ok r s') :
    (s'.refs.length : Int) ≤ s.refs.length + scaledRetryBudget c.w.fp c.o s.complexity attempts ∧
    scaledRetryBudget c.w.fp c.o s.complexity attempts ≤ max 1 attempts := by
  have hrange := C06_budget_range (o := c.o) hF s.complexity attempts hbig
  refine ⟨?_, hrange.2⟩
  have hm : Marks sub (fun _ => 1) := hmark
  rcases hk with ⟨schemas, rfl, rfl⟩ | ⟨fns, rfl, rfl⟩
  · simp only [applyConstr] at h
    obtain ⟨n, s1, h1, h⟩ := bind_ok.1 h
    obtain ⟨o, s2, h2, h⟩ := bind_ok.1 h
    simp [budget] at h1
    obtain ⟨rfl, rfl⟩ := h1
    have h3 := oneOfLoop_calls hm schemas g _ v _ o s2 h2
    have : s'.refs = s2.refs := by
      cases o with
      | some r => simp at h; rw [h.2]
      | none => simp [bind_apply, note] at h; rw [← h.2]
    rw [this]
    omega
  · simp only [applyConstr] at h
    obtain ⟨n, s1, h1, h⟩ := bind_ok.1 h
    obtain ⟨o, s2, h2, h⟩ := bind_ok.1 h
    simp [budget] at h1
    obtain ⟨rfl, rfl⟩ := h1
    have h3 := multiLoop_calls hm fns g _ v _ o s2 h2
    have : s'.refs = s2.refs := by
      cases o with
      | some r => simp at h; rw [h.2]
      | none => simp [bind_apply, note] at h; rw [← h.2]
    rw [this]
    omega

/-- **C31, conditionals.**  The underlying value is regenerated at most as often as the budget (take `perBranch = 0`
and `perValue = 1`), and together with the branches there are at most `budget * (number of conditionals + 1)`
calls (take both 1). -/
theorem C31_conditional_retries_bounded (c : Ctx) (hF : c.w.fp.Lawful) (sub : Gen → M JVal) (g : Gen) (v : JVal)
    (cs : List (IfC Gen)) (hbig : c.o.maximumIfAttempts ≤ 2 ^ 53) (b : Gen → Nat) (perBranch : Nat)
    (hbranch : ∀ ic ∈ cs, (∀ t, ic.thenGen = some t → b t ≤ perBranch) ∧ (∀ e, ic.elseGen = some e → b e ≤ perBranch))
    (hmark : ∀ g s v s', sub g s = .ok v s' → s'.refs.length = s.refs.length + b g) (s : GSt) (r : JVal) (s' : GSt)
    (h : applyConstr c sub g (.ifs cs) v s = .ok r s') :
    ∃ n : Nat, (n : Int) = scaledRetryBudget c.w.fp c.o s.complexity c.o.maximumIfAttempts ∧
      s'.refs.length ≤ s.refs.length + n * (cs.length * perBranch + b g) := by
  have hrange := C06_budget_range (o := c.o) hF s.complexity c.o.maximumIfAttempts hbig
  simp only [applyConstr] at h
  obtain ⟨n, s1, h1, h⟩ := bind_ok.1 h
  obtain ⟨o, s2, h2, h⟩ := bind_ok.1 h
  simp [budget] at h1
  obtain ⟨rfl, rfl⟩ := h1
  have hK : ∀ ic ∈ cs, branchMarks b ic ≤ perBranch := by
    intro ic hic
    obtain ⟨h1, h2⟩ := hbranch ic hic
    unfold branchMarks
    refine max_le ?_ ?_
    · cases ht : ic.thenGen with
      | none => exact Nat.zero_le _
      | some t => exact h1 t ht
    · cases ht : ic.elseGen with
      | none => exact Nat.zero_le _
      | some t => exact h2 t ht
  have h3 := ifsLoop_calls hmark cs perBranch hK g _ v _ o s2 h2
  have : s'.refs = s2.refs := by
    cases o with
    | some r => simp at h; rw [h.2]
    | none => simp [bind_apply, note] at h; rw [← h.2]
  rw [this]
  exact ⟨_, by omega, h3⟩

/-! ## Concrete runs -/

/-- Is the value a number? -/
def isNumB : JVal → Bool | .num _ => true | _ => false
/-- Is the value a string? -/
def isStrB : JVal → Bool | .str _ => true | _ => false

/-- The string value of a result. -/
def strOf : Res GSt JVal → Option String
  | .ok (.str t) _ => some t
  | _ => none

theorem exists_of_strOf {r : Res GSt JVal} {t : String} (h : strOf r = some t) : ∃ s', r = .ok (.str t) s' := by
  unfold strOf at h
  split at h
  · cases h; exact ⟨_, rfl⟩
  · cases h

/-- C28: a run that regenerates until exactly one alternative accepts. -/
example : strOf (generate demoCtx 4
    (.constrained (.comb [.enum [.str "a", .str "b"], .null]) [.oneOf [isStrB, fun v => isNumB v]]) {}) = some "b" := by
  decide +kernel

/-- C29: a run under a `not` constraint. -/
example : strOf (generate demoCtx 4
    (.constrained (.enum [.str "a", .str "b"]) [.multi [fun v => !v.jeq (.str "b")]]) {}) = some "a" := by decide +kernel

/-- C30: a run that takes the else branch. -/
example : strOf (generate demoCtx 4
    (.constrained .null [.ifs [⟨isNumB, none, some (.const (.str "x"))⟩]]) {}) = some "x" := by decide +kernel

/-- C31: a behaviour that marks its calls. -/
example : ∃ sub : Gen → M JVal, (∀ g s v s', sub g s = .ok v s' → s'.refs.length = s.refs.length + 1) ∧
    ∀ g s, ∃ v s', sub g s = .ok v s' :=
  ⟨fun _ => do pushRef "call" ""; pure .null,
   by intro g s v s' h; simp [bind_apply, pushRef] at h; rw [← h.2]; simp,
   by intro g s; exact ⟨.null, _, rfl⟩⟩

/-- **C30 fails jointly for several conditionals**: "unless a number it is "x"" and "if a string it is "y"".  The
result "y" is returned without any failure although it breaks the first conditional: it is no number and the
first else branch produces only "x". -/
theorem C30_two_conditionals_violation :
    ∃ (c : Ctx) (n : Nat) (ic1 ic2 : IfC Gen) (s' : GSt),
      c.o = withGeneratorOptionsDefaults {} ∧
      ic1 = ⟨isNumB, none, some (.const (.str "x"))⟩ ∧ ic2 = ⟨isStrB, some (.const (.str "y")), none⟩ ∧
      generate c n (.constrained .null [.ifs [ic1, ic2]]) {} = .ok (.str "y") s' ∧
      ¬ BranchOK (generate c (n - 1)) ic1 (.str "y") := by
  have h : strOf (generate { demoCtx with w := { demoWorld with seeded := fun i => if i = 1 then 1 else 0 } } 3
      (.constrained .null [.ifs [⟨isNumB, none, some (.const (.str "x"))⟩, ⟨isStrB, some (.const (.str "y")), none⟩]]) {})
      = some "y" := by decide +kernel
  obtain ⟨s', h1⟩ := exists_of_strOf h
  refine ⟨_, _, _, _, s', rfl, rfl, rfl, h1, ?_⟩
  rintro (⟨h2, _⟩ | ⟨_, h2⟩)
  · simp [isNumB] at h2
  · obtain ⟨s1, s2, h3⟩ := h2 _ rfl
    simp [generate, genStep] at h3

end Chaff
