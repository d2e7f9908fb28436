import Verif.Spec.Limits
import Verif.Lemmas.Evol
import Verif.Props.Valid
/-!
# C85: a limit that is not reached does not matter

A run that stays within the limits, and reports nothing, is repeated exactly when the limits are raised.
-/

namespace Chaff
open Comp

/-- A run of `m` that takes at most `K` steps and reports nothing is also a run of `m'`. -/
def Same (K : Int) {α : Type} (m m' : M α) : Prop := ∀ s a s', m s = .ok a s' →
  s.complexity ≤ s'.complexity ∧ s.diags <:+ s'.diags ∧ (s'.complexity ≤ K → s'.diags = [] → m' s = .ok a s')

variable {K : Int} {α β : Type}

theorem Same.of_evolves {m m' : M α} (h : Evolves m) (e : m' = m) : Same K m m' := by
  subst e
  intro s a s' hm
  exact ⟨(h s a s' hm).complexity, (h s a s' hm).diags, fun _ _ => hm⟩

theorem Same.pure (a : α) : Same K (pure a : M α) (pure a) := .of_evolves (Evolves.pure a) rfl

theorem Same.bind {m m' : M α} {f f' : α → M β} (hm : Same K m m') (hf : ∀ a, Same K (f a) (f' a)) :
    Same K (m >>= f) (m' >>= f') := by
  intro s b s2 h
  obtain ⟨a, s1, h1, h2⟩ := bind_ok.1 h
  obtain ⟨k1, d1, e1⟩ := hm s a s1 h1
  obtain ⟨k2, d2, e2⟩ := hf a s1 b s2 h2
  refine ⟨le_trans k1 k2, d1.trans d2, fun hk hd => ?_⟩
  exact bind_ok.2 ⟨a, s1, e1 (le_trans k2 hk) (List.eq_nil_of_suffix_nil (hd ▸ d2)), e2 hk hd⟩

/-- What is reported ends the comparison. -/
theorem Same.noted (d : Diag) (x : α) (m' : M α) : Same K (note d >>= fun _ => Pure.pure x : M α) m' := by
  intro s a s' h
  obtain ⟨_, s1, h1, h2⟩ := bind_ok.1 h
  simp [note] at h1
  obtain ⟨rfl, rfl⟩ := pure_ok.1 h2
  subst h1
  refine ⟨le_refl _, List.suffix_cons _ _, fun _ hd => ?_⟩
  cases hd

/-- As `Same`, for attempts that succeed. -/
def SameSome (K : Int) (m m' : M (Option α)) : Prop := ∀ s a s', m s = .ok a s' →
  s.complexity ≤ s'.complexity ∧ s.diags <:+ s'.diags ∧
  (a.isSome = true → s'.complexity ≤ K → s'.diags = [] → m' s = .ok a s')

/-- The first computation always reports something. -/
def Notes (m : M α) : Prop := ∀ s a s', m s = .ok a s' → s.complexity ≤ s'.complexity ∧ s.diags <:+ s'.diags ∧ s'.diags ≠ []

theorem Notes.note (d : Diag) (x : α) : Notes (note d >>= fun _ => Pure.pure x : M α) := by
  intro s a s' h
  obtain ⟨_, s1, h1, h2⟩ := bind_ok.1 h
  simp [Chaff.note] at h1
  obtain ⟨rfl, rfl⟩ := pure_ok.1 h2
  subst h1
  exact ⟨le_refl _, List.suffix_cons _ _, List.cons_ne_nil _ _⟩

theorem SameSome.bind {m m' : M (Option α)} {f f' : Option α → M β} (hm : SameSome K m m')
    (hf : ∀ a, Same K (f (some a)) (f' (some a))) (hn : Notes (f none)) : Same K (m >>= f) (m' >>= f') := by
  intro s b s2 h
  obtain ⟨a, s1, h1, h2⟩ := bind_ok.1 h
  obtain ⟨k1, d1, e1⟩ := hm s a s1 h1
  cases a with
  | none =>
    obtain ⟨k2, d2, e2⟩ := hn s1 b s2 h2
    exact ⟨le_trans k1 k2, d1.trans d2, fun _ hd => absurd hd e2⟩
  | some a =>
    obtain ⟨k2, d2, e2⟩ := hf a s1 b s2 h2
    refine ⟨le_trans k1 k2, d1.trans d2, fun hk hd => ?_⟩
    exact bind_ok.2 ⟨some a, s1, e1 rfl (le_trans k2 hk) (List.eq_nil_of_suffix_nil (hd ▸ d2)), e2 hk hd⟩

/-- One more computation before the attempts. -/
theorem SameSome.after {m m' : M β} {f f' : β → M (Option α)} (hm : Same K m m') (hf : ∀ a, SameSome K (f a) (f' a)) :
    SameSome K (m >>= f) (m' >>= f') := by
  intro s b s2 h
  obtain ⟨a, s1, h1, h2⟩ := bind_ok.1 h
  obtain ⟨k1, d1, e1⟩ := hm s a s1 h1
  obtain ⟨k2, d2, e2⟩ := hf a s1 b s2 h2
  refine ⟨le_trans k1 k2, d1.trans d2, fun hb hk hd => ?_⟩
  exact bind_ok.2 ⟨a, s1, e1 (le_trans k2 hk) (List.eq_nil_of_suffix_nil (hd ▸ d2)), e2 hb hk hd⟩

theorem Same.some {m m' : M (Option α)} (h : Same K m m') : SameSome K m m' := fun s a s' hm =>
  ⟨(h s a s' hm).1, (h s a s' hm).2.1, fun _ => (h s a s' hm).2.2⟩

theorem SameSome.none (m' : M (Option α)) : SameSome K (Pure.pure none : M (Option α)) m' := by
  intro s a s' h
  obtain ⟨rfl, rfl⟩ := pure_ok.1 h
  exact ⟨le_refl _, List.suffix_refl _, nofun⟩

section
variable {c c' : Ctx} (hw : c'.w = c.w) (hr : Raises c.o c'.o) (hk : StepsAllowed c.o K) (hk' : StepsAllowed c'.o K)

theorem StepsAllowed.cut {o : Opts} (h : StepsAllowed o K) {k : Int} (hk : k ≤ K) : shouldCutoff o k = false := by
  unfold shouldCutoff
  rcases h.cutoff with h | h
  · simp; omega
  · simp; omega

theorem StepsAllowed.min {o : Opts} (h : StepsAllowed o K) {k : Int} (hk : k ≤ K) : shouldMinimize o k = false := by
  unfold shouldMinimize
  rcases h.maximum with h | h
  · simp; omega
  · simp; omega

include hk hk' in
theorem same_cutoff : Same K (cutoff c) (cutoff c') := by
  intro s a s' h
  unfold cutoff at h ⊢
  simp at h
  obtain ⟨rfl, rfl⟩ := h
  refine ⟨le_refl _, List.suffix_refl _, fun h _ => ?_⟩
  rw [hk.cut h, hk'.cut h]

include hk hk' in
theorem same_minimize : Same K (minimize c) (minimize c') := by
  intro s a s' h
  unfold minimize at h ⊢
  simp at h
  obtain ⟨rfl, rfl⟩ := h
  refine ⟨le_refl _, List.suffix_refl _, fun h _ => ?_⟩
  rw [hk.min h, hk'.min h]

/-- With no step limit in force the budget is the configured number of attempts, or one. -/
theorem StepsAllowed.budget {F : FP} {o : Opts} (h : StepsAllowed o K) {k b : Int} (hk : k ≤ K) :
    scaledRetryBudget F o k b = if b ≤ 0 then 1 else b := by
  unfold scaledRetryBudget
  rw [h.min hk]
  simp

include hk hk' in
theorem same_budget {b b' : Int} (hb : b ≤ b') {f f' : Int → M α} (hf : ∀ n n', n ≤ n' → Same K (f n) (f' n')) :
    Same K (budget c b >>= f) (budget c' b' >>= f') := by
  intro s a s' h
  obtain ⟨n, s1, h1, h2⟩ := bind_ok.1 h
  unfold budget at h1
  simp at h1
  obtain ⟨rfl, rfl⟩ := h1
  obtain ⟨k2, d2, -⟩ := hf _ _ (le_refl _) s a s' h2
  refine ⟨k2, d2, fun h hd => ?_⟩
  refine bind_ok.2 ⟨_, s, rfl, (hf _ _ ?_ s a s' h2).2.2 h hd⟩
  rw [hk.budget (le_trans k2 h), hk'.budget (le_trans k2 h)]
  split <;> split <;> omega

include hw hk hk' in
/-- A walk over the generators with equal numbers of attempts. -/
theorem same_closedS (ha : ∀ b (s : GSt), s.complexity ≤ K →
    scaledRetryBudget c.w.fp c.o s.complexity b = scaledRetryBudget c'.w.fp c'.o s.complexity b) : Closed c c' (fun m m' => Same K m m') where
  pure a := .pure a
  bind hm hf := hm.bind hf
  fail e := .of_evolves (Evolves.fail e) rfl
  tick := .of_evolves Evolves.tick rfl
  note d := .of_evolves (Evolves.note d) rfl
  seeded := .of_evolves (Evolves.seeded _) (by rw [hw])
  cutoff := same_cutoff hk hk'
  minimize := same_minimize hk hk'
  budget b := by
    intro s a s' h
    unfold budget at h ⊢
    simp at h
    obtain ⟨rfl, rfl⟩ := h
    exact ⟨le_refl _, List.suffix_refl _, fun h _ => by rw [ha b s h]⟩
  ambient := .of_evolves (Evolves.ambient _) (by rw [hw])
  fill mn sb := .of_evolves (Evolves.fill _ _ _ _) (by
    have e : ∀ n sb, fillLoop c' mn n sb = fillLoop c mn n sb := by
      intro n
      induction n with
      | zero => intro sb; rfl
      | succ n ih =>
        intro sb
        unfold fillLoop
        rw [hw]
        simp only [ih]
    exact e _ _)

include hw hk hk' in
theorem same_closed : Closed c c' (fun m m' => Same K m m') := by
  refine same_closedS hw hk hk' fun b s h => ?_
  rw [hk.budget h, hk'.budget h]

include hw hr in
theorem same_conf : SameConf c c' := by
  have h := hr.rest
  injection h with h1 h2 h3 h4 h5 h6 h7 h8 h9
  exact ⟨⟨⟨by assumption, by assumption, by assumption, by assumption, by assumption⟩, by rw [hw], by rw [hw]⟩, by rw [hw], by rw [hw]⟩

include hr in
theorem same_bypass : c.o.bypassCyclicReferenceCheck = c'.o.bypassCyclicReferenceCheck := by
  have h := hr.rest
  injection h

variable {sub sub' : Gen → M JVal}

theorem same_oneOfLoop (ss : List (JVal → Bool)) (g : Gen) (hg : Same K (sub g) (sub' g)) : ∀ (n n' : Nat) (v : JVal), n ≤ n' →
    SameSome K (oneOfLoop sub ss g n v) (oneOfLoop sub' ss g n' v) := by
  intro n
  induction n with
  | zero => intro n' v _; exact .none _
  | succ n ih =>
    intro n' v hn
    obtain ⟨k, rfl⟩ : ∃ k, n' = k + 1 := ⟨n' - 1, by omega⟩
    unfold oneOfLoop
    refine .after (.of_evolves Evolves.tick rfl) fun _ => ?_
    split
    · exact (Same.pure _).some
    · exact .after hg fun v' => ih _ _ (by omega)

theorem same_multiLoop (fs : List (JVal → Bool)) (g : Gen) (hg : Same K (sub g) (sub' g)) : ∀ (n n' : Nat) (v : JVal), n ≤ n' →
    SameSome K (multiLoop sub fs g n v) (multiLoop sub' fs g n' v) := by
  intro n
  induction n with
  | zero => intro n' v _; exact .none _
  | succ n ih =>
    intro n' v hn
    obtain ⟨k, rfl⟩ : ∃ k, n' = k + 1 := ⟨n' - 1, by omega⟩
    unfold multiLoop
    split
    · exact (Same.pure _).some
    · exact .after hg fun v' => ih _ _ (by omega)

include hw hk hk' in
theorem same_ifsLoop (cs : List (IfC Gen)) (hsub : ∀ g, Same K (sub g) (sub' g)) (g : Gen) : ∀ (n n' : Nat) (v : JVal), n ≤ n' →
    SameSome K (ifsLoop c sub cs g n v) (ifsLoop c' sub' cs g n' v) := by
  have cl := (same_closed (K := K) hw hk hk').toClosedS
  intro n
  induction n with
  | zero => intro n' v _; exact .none _
  | succ n ih =>
    intro n' v hn
    obtain ⟨k, rfl⟩ : ∃ k, n' = k + 1 := ⟨n' - 1, by omega⟩
    unfold ifsLoop perm
    refine .after cl.tick fun _ => .after (permLoop_rel cl cl.seeded _ _) fun p => .after (ifsPass_rel cl cs (fun g _ => hsub g) _ _) fun r => ?_
    cases r with
    | none => exact .after (hsub g) fun v' => ih _ _ (by omega)
    | some r => exact (Same.pure _).some

theorem same_uniqueLoop (gen : Gen) (hg : Same K (sub gen) (sub' gen)) (cur : List JVal) : ∀ n n' : Nat, n ≤ n' →
    SameSome K (uniqueLoop sub gen cur n) (uniqueLoop sub' gen cur n') := by
  intro n
  induction n with
  | zero => intro n' _; exact .none _
  | succ n ih =>
    intro n' hn
    obtain ⟨k, rfl⟩ : ∃ k, n' = k + 1 := ⟨n' - 1, by omega⟩
    unfold uniqueLoop
    refine .after hg fun v => ?_
    split
    · exact ih _ (by omega)
    · exact (Same.pure _).some

include hw hr hk hk' in
theorem same_applyConstr (hsub : ∀ g, Same K (sub g) (sub' g)) (g : Gen) (k : Constr Gen) (v : JVal) :
    Same K (applyConstr c sub g k v) (applyConstr c' sub' g k v) := by
  cases k with
  | oneOf ss =>
    refine same_budget hk hk' hr.oneOfAttempts fun n n' hn => ?_
    exact (same_oneOfLoop ss g (hsub g) _ _ v (Int.toNat_le_toNat hn)).bind (fun r => .pure r) (.note _ _)
  | multi fs =>
    refine same_budget hk hk' hr.uniqueAttempts fun n n' hn => ?_
    exact (same_multiLoop fs g (hsub g) _ _ v (Int.toNat_le_toNat hn)).bind (fun r => .pure r) (.note _ _)
  | ifs cs =>
    refine same_budget hk hk' hr.ifAttempts fun n n' hn => ?_
    exact (same_ifsLoop hw hk hk' cs hsub g _ _ v (Int.toNat_le_toNat hn)).bind (fun r => .pure r) (.note _ _)

include hw hr hk hk' in
theorem same_applyAll (hsub : ∀ g, Same K (sub g) (sub' g)) (g : Gen) : ∀ (ks : List (Constr Gen)) (v : JVal),
    Same K (applyAll c sub g ks v) (applyAll c' sub' g ks v) := by
  intro ks
  induction ks with
  | nil => intro v; exact .pure _
  | cons k ks ih =>
    intro v
    exact (Same.of_evolves Evolves.tick rfl).bind fun _ => (same_applyConstr hw hr hk hk' hsub g k v).bind fun v' => ih v'

include hr in
theorem same_genUnique (hsub : ∀ g, Same K (sub g) (sub' g)) (u : Bool) (gen : Gen) (cur : List JVal) :
    Same K (genUnique c sub u gen cur) (genUnique c' sub' u gen cur) := by
  unfold genUnique
  split
  · exact (hsub gen).bind fun _ => .pure _
  · exact (same_uniqueLoop gen (hsub gen) cur _ _ (Int.toNat_le_toNat hr.uniqueAttempts)).bind (fun r => .pure _) (.note _ _)

include hr in
theorem same_containsLoop (hsub : ∀ g, Same K (sub g) (sub' g)) (u : Bool) (gen : Gen) (mc : Int) : ∀ (n : Nat) (i : Int) (acc : List JVal),
    Same K (containsLoop c sub u gen mc n i acc) (containsLoop c' sub' u gen mc n i acc) := by
  intro n
  induction n with
  | zero => intro i acc; exact .pure _
  | succ n ih =>
    intro i acc
    refine (same_genUnique hr hsub u gen acc).bind fun r => ?_
    split
    · exact .pure _
    · exact ih _ _

include hr in
theorem same_itemsLoop (hsub : ∀ g, Same K (sub g) (sub' g)) (u : Bool) (gen : Gen) (k mn : Int) : ∀ (n : Nat) (i : Int) (acc : List JVal),
    Same K (itemsLoop c sub u gen k mn n i acc) (itemsLoop c' sub' u gen k mn n i acc) := by
  intro n
  induction n with
  | zero =>
    intro i acc
    unfold itemsLoop
    split
    · intro s a s' h; cases h
    · exact .pure _
  | succ n ih =>
    intro i acc
    unfold itemsLoop
    split
    · refine (same_genUnique hr hsub u gen acc).bind fun r => ?_
      split
      · exact .pure _
      · exact ih _ _
    · exact .pure _

include hw hr hk hk' in
theorem same_arrayGenerate (hsub : ∀ g, Same K (sub g) (sub' g)) (g : ArrGen Gen) :
    Same K (arrayGenerate c sub g) (arrayGenerate c' sub' g) := by
  have cl := (same_closed (K := K) hw hk hk').toClosedS
  have hc := same_conf hw hr
  have hb : arrBounds c' g = arrBounds c g := by
    unfold arrBounds
    rw [hc.opts.arrayMin, hc.opts.arrayMax]
  unfold arrayGenerate
  refine cl.tick.bind fun _ => cl.cutoff.bind fun b => ?_
  split
  · exact .noted _ _ _
  · refine (genTuple_rel cl _ (fun g' _ => hsub g')).bind fun td => ?_
    split
    · exact .pure _
    · refine Same.bind ?_ fun acc => Same.bind ?_ fun k => Same.bind ?_ fun r => .pure _
      · unfold containsStage
        cases g.contains with
        | none => exact .pure _
        | some cg => exact same_containsLoop hr hsub _ _ _ _ _ _
      · unfold itemsTarget
        rw [hb]
        exact (randomInt_rel cl _ _).bind fun k => cl.minimize.bind fun m => .pure _
      · unfold itemsStage
        rw [hb]
        exact same_itemsLoop hr hsub _ _ _ _ _ _ _

include hw hr hk hk' in
theorem same_refGenerate (he : c'.env = c.env) (hsub : ∀ g, Same K (sub g) (sub' g)) (doc path : String) :
    Same K (refGenerate c sub doc path) (refGenerate c' sub' doc path) := by
  have cl := (same_closed (K := K) hw hk hk').toClosedS
  unfold refGenerate
  refine cl.tick.bind fun _ => cl.cutoff.bind fun b => ?_
  split
  · exact .noted _ _ _
  · rw [he]
    cases c.env doc path with
    | none => exact .noted _ _ _
    | some target =>
      show Same K (refEnter c sub doc path target) (refEnter c' sub' doc path target)
      intro s v s' h
      unfold refEnter at h ⊢
      split at h
      · obtain ⟨a, b, e⟩ := Notes.note _ _ s v s' h
        exact ⟨a, b, fun _ hd => absurd hd e⟩
      · rename_i h1
        split at h
        · obtain ⟨a, b, e⟩ := Notes.note _ _ s v s' h
          exact ⟨a, b, fun _ hd => absurd hd e⟩
        · rename_i h2
          rw [same_bypass hr] at h2
          rw [if_neg (by have := hr.references; omega), if_neg h2]
          have hp : Same K (pushRef doc path) (pushRef doc path) := by
            intro s a s' h
            simp [pushRef] at h
            subst h
            exact ⟨le_refl _, List.suffix_refl _, fun _ _ => rfl⟩
          have hq : Same K popRef popRef := by
            intro s a s' h
            have h' := h
            unfold popRef at h
            split at h
            · cases h
            · simp at h
              subst h
              exact ⟨le_refl _, List.suffix_refl _, fun _ _ => h'⟩
          exact (hp.bind fun _ => (hsub target).bind fun v => hq.bind fun _ => .pure _) s v s' h

include hw hr hk hk' in
theorem same_generate (he : c'.env = c.env) (n : Nat) : ∀ g, Same K (generate c n g) (generate c' n g) := by
  have cl := same_closed (K := K) hw hk hk'
  have hc := same_conf hw hr
  induction n with
  | zero => intro g s a s' h; cases h
  | succ n ih =>
    intro g
    show Same K (genStep c (generate c n) g) (genStep c' (generate c' n) g)
    cases g with
    | null => exact cl.bind cl.tick (fun _ => cl.pure _)
    | const v => exact cl.pure _
    | bool =>
      show Same K (randomBool c.w >>= _) (randomBool c'.w >>= _)
      unfold randomBool intn
      exact cl.bind (cl.bind (intnWith_rel cl.toClosedS cl.seeded _) (fun _ => cl.pure _)) (fun _ => cl.pure _)
    | enum vs => exact cl.bind cl.tick (fun _ => choice_rel cl.toClosedS _)
    | num g => exact cl.bind cl.tick (fun _ => numberGenerate_rel cl.toClosedS hc.toSameConfS _)
    | str g => exact stringGenerate_rel cl hc g
    | arr g => exact same_arrayGenerate hw hr hk hk' ih g
    | obj g => exact objectGenerate_rel cl hc g (fun g' _ => ih g')
    | multi gs => exact multiGenerate_rel cl.toClosedS gs (fun g' _ => ih g')
    | comb gs => exact combGenerate_rel cl.toClosedS gs (fun g' _ => ih g')
    | constrained g cs =>
      refine (ih g).bind fun v => (same_cutoff hk hk').bind fun b => ?_
      split
      · exact .noted _ _ _
      · exact same_applyAll hw hr hk hk' ih g cs v
    | ref doc path => exact same_refGenerate hw hr hk hk' he ih doc path
    | allOf g => exact ih g
    | nilGen => exact cl.fail _

end

/-- C85: let a generation under some options return a value without reporting anything, and let the steps it took be within
the limits of these options and of others that only raise limits.  Then generation under the other options, with the same
random numbers, returns the same value, after the same steps and draws, and reports nothing either.  This holds for every
parsed schema, every pair of such options and all random numbers. -/
theorem C85_unreached_limits_do_not_matter (w : World) (o o' : Opts) (env : String → String → Option Gen) (fuel : Nat) (g : Gen)
    (v : JVal) (st : GSt) (h : rootGenerate w o env fuel g = .ok v st) (hquiet : st.diags = [])
    (hraise : Raises (withGeneratorOptionsDefaults o) (withGeneratorOptionsDefaults o'))
    (hsteps : StepsAllowed (withGeneratorOptionsDefaults o) st.complexity)
    (hsteps' : StepsAllowed (withGeneratorOptionsDefaults o') st.complexity) :
    rootGenerate w o' env fuel g = .ok v st :=
  (same_generate (K := st.complexity) (c := ⟨w, withGeneratorOptionsDefaults o, env⟩) (c' := ⟨w, withGeneratorOptionsDefaults o', env⟩)
    rfl hraise hsteps hsteps' rfl fuel g {} v st h).2.2 (le_refl _) hquiet

/-! ## The hypotheses are met -/

/-- Options that raise every limit. -/
def generous : Opts where
  maximumReferenceDepth := 40
  maximumUniqueGeneratorAttempts := 500
  maximumOneOfAttempts := 600
  maximumIfAttempts := 700
  maximumGenerationSteps := 900
  cutoffGenerationSteps := 5000

/-- The steps of a run with the default options that reports nothing. -/
def noteSteps : Option Int :=
  match parseSchema demoEnv 20 noteSchema with
  | .done (.ok (g, none) s) => match rootGenerate noteWorld {} (refEnv s) 40 g with
    | .ok _ st => if st.diags.length = 0 then some st.complexity else none
    | _ => none
  | _ => none

/-- A recursive schema, whose generation takes 18 steps: the same value comes out with the higher limits. -/
example : ∃ g s v st, parseSchema demoEnv 20 noteSchema = .done (.ok (g, none) s) ∧
    rootGenerate noteWorld {} (refEnv s) 40 g = .ok v st ∧ rootGenerate noteWorld generous (refEnv s) 40 g = .ok v st := by
  have h : noteSteps = some 18 := by decide +kernel
  unfold noteSteps at h
  split at h
  · rename_i g s hparse
    split at h
    · rename_i v st hgen
      split at h
      · rename_i hd
        have hk : st.complexity = 18 := Option.some.inj h
        refine ⟨g, s, v, st, hparse, hgen, C85_unreached_limits_do_not_matter noteWorld {} generous (refEnv s) 40 g v st hgen
          (List.eq_nil_of_length_eq_zero hd) ⟨by decide, by decide, by decide, by decide, rfl⟩ ?_ ?_⟩ <;> rw [hk]
        · exact ⟨.inr (by decide), .inr (by decide)⟩
        · exact ⟨.inr (by decide), .inr (by decide)⟩
      · cases h
    · cases h
  · cases h

/-- An array generator for pairs of nulls and further truth values. -/
def pairGen : Gen := .arr { tuple := [.null, .null], item := some .bool, maxItems := 5 }

/-- Random numbers for it. -/
def pairWorld : World := { noteWorld with seeded := fun i => i + 2 }

/-- The steps do matter: with a limit of two the further items are left out, without a report. -/
example : (∃ st, rootGenerate pairWorld { maximumGenerationSteps := 2 } (fun _ _ => none) 5 pairGen = .ok (.arr [.null, .null]) st ∧
      st.diags = []) ∧
    ¬ ∃ st, rootGenerate pairWorld {} (fun _ _ => none) 5 pairGen = .ok (.arr [.null, .null]) st := by
  refine ⟨⟨_, rfl, rfl⟩, ?_⟩
  rintro ⟨st, h⟩
  have : (match rootGenerate pairWorld {} (fun _ _ => none) 5 pairGen with
    | .ok (.arr l) _ => decide (l.length = 4) | _ => false) = true := by decide +kernel
  rw [h] at this
  cases this

end Chaff
