import Verif.Lemmas.Evol
import Verif.Props.Regen
import Verif.Props.Number
/-!
# C02: generation never panics on well-formed generators
-/

set_option linter.unusedVariables false

namespace Chaff
open Comp

/-- A regex generator that was built from a safe expression. -/
def RxBuilt (p : RxGen) : Prop := ∃ (a : RxArgs) (r : Rx), RxSafe a r ∧ newRxGen a r = .ok p

/-- Generators without an empty choice: lists of alternatives and enum values are not empty, patterns have a
generator built from a safe expression, sizes are not negative, and the number of multiples in the range of a number
generator is not negative. -/
inductive GenSafe (F : FP) (P : Platform) : Gen → Prop
  | null : GenSafe F P .null
  | const (v) : GenSafe F P (.const v)
  | bool : GenSafe F P .bool
  | enum (vs) : vs ≠ [] → GenSafe F P (.enum vs)
  | num (g : NumGen) : (g.multipleOf ≠ 0 → 0 ≤ countMultiplesInRange F P g.min g.max g.multipleOf) → GenSafe F P (.num g)
  | str (g : StrGen) : (g.pattern ≠ "" → ∃ p, g.patternGen = some p ∧ RxBuilt p) → 0 ≤ g.maxLength → GenSafe F P (.str g)
  | arr (g : ArrGen Gen) : (∀ t ∈ g.tuple, GenSafe F P t) → (∀ k ∈ g.item, GenSafe F P k) →
      (∀ k ∈ g.additional, GenSafe F P k) → (∀ k ∈ g.contains, GenSafe F P k) → (∀ k ∈ g.unevaluated, GenSafe F P k) →
      GenSafe F P (.arr g)
  | obj (g : ObjGen Gen) : (∀ p ∈ g.props, GenSafe F P p.2) → (∀ p ∈ g.patProps, GenSafe F P p.2.1) →
      (∀ p ∈ g.patProps, ∀ r ∈ p.2.2, RxBuilt r) → (∀ k ∈ g.additional, GenSafe F P k) → 0 ≤ g.maxProps →
      GenSafe F P (.obj g)
  | multi (gs) : gs ≠ [] → (∀ g ∈ gs, GenSafe F P g) → GenSafe F P (.multi gs)
  | comb (gs) : gs ≠ [] → (∀ g ∈ gs, GenSafe F P g) → GenSafe F P (.comb gs)
  | constrained (g cs) : GenSafe F P g → (∀ k ∈ cs, ∀ g' ∈ constrChildren k, GenSafe F P g') →
      GenSafe F P (.constrained g cs)
  | ref (d p) : GenSafe F P (.ref d p)
  | allOf (g) : GenSafe F P g → GenSafe F P (.allOf g)

section
variable {c : Ctx}

theorem tick_noPanic : NoPanic tick := by intro s e h; simp [tick] at h
theorem note_noPanic (d : Diag) : NoPanic (note d) := by intro s e h; simp [note] at h
theorem cutoff_noPanic (c : Ctx) : NoPanic (cutoff c) := by intro s e h; simp [cutoff] at h
theorem minimize_noPanic (c : Ctx) : NoPanic (minimize c) := by intro s e h; simp [minimize] at h
theorem budget_noPanic (c : Ctx) (b : Int) : NoPanic (budget c b) := by intro s e h; simp [budget] at h

theorem NoPanic.ite {α : Type} {p : Prop} [Decidable p] {a b : M α} (ha : p → NoPanic a) (hb : ¬ p → NoPanic b) :
    NoPanic (if p then a else b) := by
  split
  · exact ha ‹_›
  · exact hb ‹_›

theorem rxBuilt_noPanic {p : RxGen} (w : World) (h : RxBuilt p) : NoPanic (rxGenerate w p) := by
  obtain ⟨a, r, h1, h2⟩ := h
  exact C26_run_no_panic w a r h1 p h2

theorem generateMultipleOf_noPanic (w : World) {mn mx m : Rat}
    (h : 0 ≤ countMultiplesInRange w.fp w.plat mn mx m) : NoPanic (generateMultipleOf w mn mx m) := by
  unfold generateMultipleOf
  simp only
  refine NoPanic.ite (fun _ => NoPanic.pure) (fun hn => ?_)
  exact NoPanic.bind (randomInt_noPanic w (by omega)) (fun _ => NoPanic.pure)

theorem numberGenerate_noPanic (w : World) (g : NumGen)
    (h : g.multipleOf ≠ 0 → 0 ≤ countMultiplesInRange w.fp w.plat g.min g.max g.multipleOf) :
    NoPanic (numberGenerate w g) := by
  unfold numberGenerate
  refine NoPanic.bind ?_ (fun r => ?_)
  · unfold numberRaw
    refine NoPanic.ite (fun _ => NoPanic.ite (fun hm => generateMultipleOf_noPanic w (h hm))
      (fun _ => NoPanic.bind (randomFloat_noPanic w _ _) (fun _ => NoPanic.pure)))
      (fun _ => NoPanic.ite (fun hm => NoPanic.bind (generateMultipleOf_noPanic w (h hm)) (fun _ => NoPanic.pure))
        (fun _ => randomFloat_noPanic w _ _))
  · refine NoPanic.ite (fun _ => NoPanic.pure) (fun _ => NoPanic.ite (fun _ => NoPanic.pure)
      (fun _ => NoPanic.ite (fun _ => NoPanic.pure) (fun _ => NoPanic.pure)))

theorem fillLoop_noPanic (mn : Int) (n : Nat) (sb : String) : NoPanic (fillLoop c mn n sb) := by
  induction n generalizing sb with
  | zero =>
    unfold fillLoop
    exact NoPanic.ite (fun _ => by intro s e h; simp at h) (fun _ => NoPanic.pure)
  | succ n ih =>
    unfold fillLoop
    exact NoPanic.ite (fun _ => NoPanic.bind (drawAmbient_draws _) (fun _ => ih _)) (fun _ => NoPanic.pure)

theorem stringGenerate_noPanic (g : StrGen) (h1 : g.pattern ≠ "" → ∃ p, g.patternGen = some p ∧ RxBuilt p)
    (h2 : 0 ≤ g.maxLength) : NoPanic (stringGenerate c g) := by
  unfold stringGenerate
  refine NoPanic.bind tick_noPanic (fun _ => NoPanic.ite (fun _ => ?_) (fun _ => NoPanic.ite (fun hp => ?_) (fun _ => ?_)))
  · refine NoPanic.bind ?_ (fun _ => NoPanic.pure)
    unfold generateFormat
    refine NoPanic.ite (fun _ => NoPanic.bind (drawAmbient_draws _) (fun _ => NoPanic.pure)) (fun _ => NoPanic.ite (fun _ =>
      NoPanic.bind (randomInt_noPanic _ (by omega)) (fun _ => NoPanic.pure)) (fun _ => NoPanic.ite (fun _ => NoPanic.pure) (fun _ => NoPanic.pure)))
  · obtain ⟨p, hp1, hp2⟩ := h1 hp
    rw [hp1]
    exact NoPanic.bind (rxBuilt_noPanic _ hp2) (fun _ => NoPanic.pure)
  · refine NoPanic.bind (drawAmbient_draws _) (fun _ => NoPanic.bind (fillLoop_noPanic _ _ _) (fun sb => ?_))
    exact NoPanic.ite (fun _ => NoPanic.ite (fun h => absurd h (by omega)) (fun _ => NoPanic.pure)) (fun _ => NoPanic.pure)

variable {sub : Gen → M JVal}

theorem genKey_noPanic (g : ObjGen Gen) (hp : ∀ p ∈ g.props, NoPanic (sub p.2)) (pre k : String) :
    NoPanic (genKey c sub g pre k) := by
  unfold genKey
  cases hl : lookupKV g.props k with
  | none => exact NoPanic.bind (randomInt_noPanic _ (by omega)) (fun _ => NoPanic.pure)
  | some pg =>
    have := lookupKV_mem hl
    exact hp _ this

theorem genKeys_noPanic (g : ObjGen Gen) (hp : ∀ p ∈ g.props, NoPanic (sub p.2)) (pre : String) (ks : List String)
    (acc : ObjMap) : NoPanic (genKeys c sub g pre ks acc) := by
  induction ks generalizing acc with
  | nil => exact NoPanic.pure
  | cons k ks ih =>
    unfold genKeys
    exact NoPanic.bind (genKey_noPanic g hp _ _) (fun _ => ih _)

theorem genPatternProp_noPanic (g : ObjGen Gen) (hp : ∀ p ∈ g.patProps, NoPanic (sub p.2.1))
    (hr : ∀ p ∈ g.patProps, ∀ r ∈ p.2.2, RxBuilt r) : NoPanic (genPatternProp c sub g) := by
  unfold genPatternProp
  refine NoPanic.ite (fun _ => NoPanic.pure) (fun hne => ?_)
  refine NoPanic.bindPost (fun ks => ks.Perm (keysKV g.patProps)) (shuffle_noPanic _ _) (fun s => funkKeys_post _ _ s)
    (fun ks hks => ?_)
  have hks' : ks ≠ [] := by
    intro he
    subst he
    have := hks.length_eq
    cases hpp : g.patProps with
    | nil => exact hne hpp
    | cons a t => rw [hpp] at this; simp [keysKV] at this
  refine NoPanic.bind (choice_noPanic _ hks') (fun rx => ?_)
  cases hl : lookupKV g.patProps rx with
  | none => exact NoPanic.pure
  | some p =>
    obtain ⟨pg, ro⟩ := p
    have hm := lookupKV_mem hl
    cases ro with
    | none => exact NoPanic.pure
    | some rg =>
      exact NoPanic.bind (rxBuilt_noPanic _ (hr _ hm rg rfl)) (fun _ => NoPanic.bind (hp _ hm) (fun _ => NoPanic.pure))

theorem genPatterns_noPanic (g : ObjGen Gen) (hp : ∀ p ∈ g.patProps, NoPanic (sub p.2.1))
    (hr : ∀ p ∈ g.patProps, ∀ r ∈ p.2.2, RxBuilt r) (n : Nat) (acc : ObjMap) :
    NoPanic (genPatterns c sub g n acc) := by
  induction n generalizing acc with
  | zero => exact NoPanic.pure
  | succ n ih =>
    unfold genPatterns
    exact NoPanic.bind (genPatternProp_noPanic g hp hr) (fun _ => ih _)

theorem genNumbered_noPanic {gen : Gen} (hg : NoPanic (sub gen)) (pre : String) (n i : Nat) (acc : ObjMap) :
    NoPanic (genNumbered sub gen pre n i acc) := by
  induction n generalizing i acc with
  | zero => exact NoPanic.pure
  | succ n ih =>
    unfold genNumbered
    exact NoPanic.bind hg (fun _ => ih _ _)

theorem genFallback_noPanic (hg : NoPanic (sub .null)) (mn : Int) (n i : Nat) (acc : ObjMap) :
    NoPanic (genFallback c sub mn n i acc) := by
  induction n generalizing i acc with
  | zero => exact NoPanic.pure
  | succ n ih =>
    unfold genFallback
    exact NoPanic.ite (fun _ => ih _ _) (fun _ => NoPanic.bind hg (fun _ => ih _ _))

theorem objFill_noPanic (g : ObjGen Gen) (hn : NoPanic (sub .null)) (ha : ∀ k ∈ g.additional, NoPanic (sub k)) (mn : Int)
    (acc : ObjMap) : NoPanic (objFill sub g mn acc) := by
  unfold objFill
  refine NoPanic.ite (fun _ => NoPanic.bind (genNumbered_noPanic ?_ _ _ _ _) (fun _ => NoPanic.pure)) (fun _ => NoPanic.pure)
  cases h : g.additional with
  | none => exact hn
  | some a => exact ha a h

theorem objExtras_noPanic (g : ObjGen Gen) (hn : NoPanic (sub .null)) (ha : ∀ k ∈ g.additional, NoPanic (sub k))
    (hp : ∀ p ∈ g.patProps, NoPanic (sub p.2.1)) (hr : ∀ p ∈ g.patProps, ∀ r ∈ p.2.2, RxBuilt r) (t : Int)
    (acc : ObjMap) : NoPanic (objExtras c sub g t acc) := by
  unfold objExtras
  refine NoPanic.ite (fun _ => NoPanic.bind (genPatterns_noPanic g hp hr _ _) (fun _ => objFill_noPanic g hn ha _ _))
    (fun _ => NoPanic.ite (fun _ => NoPanic.pure) (fun _ => ?_))
  cases h : g.additional with
  | none => exact NoPanic.bind (genFallback_noPanic hn _ _ _ _) (fun _ => objFill_noPanic g hn ha _ _)
  | some a => exact NoPanic.bind (genNumbered_noPanic (ha a h) _ _ _ _) (fun _ => objFill_noPanic g hn ha _ _)

theorem getInt2_nonneg {a b : Int} (ha : 0 ≤ a) (hb : 0 ≤ b) : 0 ≤ getInt [a, b] := by
  simp only [getInt]
  split <;> (try split) <;> omega

theorem objTarget_noPanic (g : ObjGen Gen) (hm : 0 ≤ g.maxProps) (ho : 0 ≤ c.o.defaultObjectMaxProperties) :
    NoPanic (objTarget c g) ∧ ∀ s, Post (objTarget c g) s (fun t _ => 0 ≤ t) := by
  have h0 := getInt2_nonneg hm ho
  have hb : (objBounds c g).1 ≤ (objBounds c g).2 := by
    unfold objBounds
    simp only
    split <;> omega
  have hle : maxInt 0 ((objBounds c g).1 - goLen g.required) ≤ maxInt 0 ((objBounds c g).2 - goLen g.required) := by
    unfold maxInt
    split <;> split <;> omega
  have hnn : ∀ x : Int, 0 ≤ maxInt 0 x := by
    intro x; unfold maxInt; split <;> omega
  constructor
  · unfold objTarget
    simp only
    exact NoPanic.bind (randomInt_noPanic _ hle) (fun _ => NoPanic.bind (minimize_noPanic c) (fun _ => NoPanic.pure))
  · intro s
    unfold objTarget
    simp only
    refine Post.bind (fun t s1 h1 => Post.bind (fun m s2 h2 => Post.pure ?_))
    have := randomInt_post _ _ _ _ t s1 h1
    have h3 := hnn ((objBounds c g).1 - goLen g.required)
    split
    · exact h3
    · rcases this with h | h
      · rw [h.2]; exact h3
      · omega

theorem objectGenerate_noPanic (g : ObjGen Gen) (hn : NoPanic (sub .null)) (hpr : ∀ p ∈ g.props, NoPanic (sub p.2))
    (ha : ∀ k ∈ g.additional, NoPanic (sub k)) (hp : ∀ p ∈ g.patProps, NoPanic (sub p.2.1))
    (hr : ∀ p ∈ g.patProps, ∀ r ∈ p.2.2, RxBuilt r) (hm : 0 ≤ g.maxProps) (ho : 0 ≤ c.o.defaultObjectMaxProperties) :
    NoPanic (objectGenerate c sub g) := by
  unfold objectGenerate
  refine NoPanic.bind tick_noPanic (fun _ => NoPanic.bind (cutoff_noPanic c) (fun b => NoPanic.ite
    (fun _ => NoPanic.bind (note_noPanic _) (fun _ => NoPanic.pure)) (fun _ => ?_)))
  refine NoPanic.bind (genKeys_noPanic g hpr _ _ _) (fun acc => NoPanic.bind (shuffle_noPanic _ _) (fun ks => ?_))
  refine NoPanic.bindPost (fun t => 0 ≤ t) (objTarget_noPanic g hm ho).1 (objTarget_noPanic g hm ho).2 (fun t ht => ?_)
  simp only
  have hmin : 0 ≤ minInt (goLen (uniqString (g.required ++ ks))) t ∧
      minInt (goLen (uniqString (g.required ++ ks))) t ≤ goLen (uniqString (g.required ++ ks)) := by
    have : 0 ≤ goLen (uniqString (g.required ++ ks)) := by unfold goLen; omega
    unfold minInt
    split <;> omega
  exact NoPanic.bind (stringChoiceMultiple_noPanic _ _ hmin.1 hmin.2)
    (fun ch => NoPanic.bind (genKeys_noPanic g hpr _ _ _) (fun acc' => objExtras_noPanic g hn ha hp hr _ _))

theorem genTuple_noPanic (gs : List Gen) (h : ∀ g ∈ gs, NoPanic (sub g)) : NoPanic (genTuple sub gs) := by
  induction gs with
  | nil => exact NoPanic.pure
  | cons g gs ih =>
    unfold genTuple
    exact NoPanic.bind (h g (by simp)) (fun _ => NoPanic.bind (ih (fun g' hg' => h g' (by simp [hg']))) (fun _ => NoPanic.pure))

theorem uniqueLoop_noPanic {gen : Gen} (hg : NoPanic (sub gen)) (cur : List JVal) (n : Nat) :
    NoPanic (uniqueLoop sub gen cur n) := by
  induction n with
  | zero => exact NoPanic.pure
  | succ n ih =>
    unfold uniqueLoop
    exact NoPanic.bind hg (fun _ => NoPanic.ite (fun _ => ih) (fun _ => NoPanic.pure))

theorem genUnique_noPanic {gen : Gen} (hg : NoPanic (sub gen)) (u : Bool) (cur : List JVal) :
    NoPanic (genUnique c sub u gen cur) := by
  unfold genUnique
  refine NoPanic.ite (fun _ => NoPanic.bind hg (fun _ => NoPanic.pure)) (fun _ =>
    NoPanic.bind (uniqueLoop_noPanic hg _ _) (fun r => ?_))
  cases r with
  | none => exact NoPanic.bind (note_noPanic _) (fun _ => NoPanic.pure)
  | some x => exact NoPanic.pure

theorem containsLoop_noPanic {gen : Gen} (hg : NoPanic (sub gen)) (u : Bool) (mc : Int) (n : Nat) (i : Int)
    (acc : List JVal) : NoPanic (containsLoop c sub u gen mc n i acc) := by
  induction n generalizing i acc with
  | zero => exact NoPanic.pure
  | succ n ih =>
    unfold containsLoop
    exact NoPanic.bind (genUnique_noPanic hg u _) (fun r => NoPanic.ite (fun _ => NoPanic.pure) (fun _ => ih _ _))

theorem itemsLoop_noPanic {gen : Gen} (hg : NoPanic (sub gen)) (u : Bool) (k mn : Int) (n : Nat) (i : Int)
    (acc : List JVal) : NoPanic (itemsLoop c sub u gen k mn n i acc) := by
  induction n generalizing i acc with
  | zero =>
    unfold itemsLoop
    exact NoPanic.ite (fun _ => by intro s e h; simp at h) (fun _ => NoPanic.pure)
  | succ n ih =>
    unfold itemsLoop
    exact NoPanic.ite (fun _ => NoPanic.bind (genUnique_noPanic hg u _) (fun r =>
      NoPanic.ite (fun _ => NoPanic.pure) (fun _ => ih _ _))) (fun _ => NoPanic.pure)

theorem arrayGenerate_noPanic (g : ArrGen Gen) (h : ∀ g' ∈ arrUses g, NoPanic (sub g')) :
    NoPanic (arrayGenerate c sub g) := by
  unfold arrayGenerate
  refine NoPanic.bind tick_noPanic (fun _ => NoPanic.bind (cutoff_noPanic c) (fun b => NoPanic.ite
    (fun _ => NoPanic.bind (note_noPanic _) (fun _ => NoPanic.pure)) (fun _ => ?_)))
  refine NoPanic.bind (genTuple_noPanic _ (fun g' hg' => h g' (by simp [arrUses, hg']))) (fun td =>
    NoPanic.ite (fun _ => NoPanic.pure) (fun _ => ?_))
  refine NoPanic.bind ?_ (fun acc => NoPanic.bind ?_ (fun t => NoPanic.bind ?_ (fun _ => NoPanic.pure)))
  · unfold containsStage
    cases hcg : g.contains with
    | none => exact NoPanic.pure
    | some cg => exact containsLoop_noPanic (h cg (by simp [arrUses, hcg])) _ _ _ _ _
  · unfold itemsTarget
    refine NoPanic.bind (randomInt_noPanic _ ?_) (fun _ => NoPanic.bind (minimize_noPanic c) (fun _ => NoPanic.pure))
    unfold maxInt; split <;> omega
  · exact itemsLoop_noPanic (h _ (by simp [arrUses])) _ _ _ _ _ _

theorem pick_noPanic (gs : List Gen) (hne : gs ≠ []) (h : ∀ g ∈ gs, NoPanic (sub g)) :
    NoPanic (randomInt c.w 0 (goLen gs) >>= fun i => indexAt gs i >>= sub) := by
  have hl : 0 < gs.length := List.length_pos_of_ne_nil hne
  refine NoPanic.bindPost (fun i => 0 ≤ i ∧ i < goLen gs) (randomInt_noPanic _ (by unfold goLen; omega)) ?_ (fun i hi => ?_)
  · intro s i s' hi
    have := randomInt_post _ _ _ _ i s' hi
    unfold goLen at *
    omega
  · refine NoPanic.bindPost (fun g => g ∈ gs) (indexAt_noPanic gs hi.1 hi.2) ?_ (fun g hg => h g hg)
    intro s g s' hg
    exact List.mem_of_getElem? (indexAt_post _ _ _ g s' hg).2.1

theorem oneOfLoop_noPanic {g : Gen} (hg : NoPanic (sub g)) (ss : List (JVal → Bool)) (n : Nat) (v : JVal) :
    NoPanic (oneOfLoop sub ss g n v) := by
  induction n generalizing v with
  | zero => exact NoPanic.pure
  | succ n ih =>
    unfold oneOfLoop
    exact NoPanic.bind tick_noPanic (fun _ => NoPanic.ite (fun _ => NoPanic.pure) (fun _ => NoPanic.bind hg (fun _ => ih _)))

theorem multiLoop_noPanic {g : Gen} (hg : NoPanic (sub g)) (ss : List (JVal → Bool)) (n : Nat) (v : JVal) :
    NoPanic (multiLoop sub ss g n v) := by
  induction n generalizing v with
  | zero => exact NoPanic.pure
  | succ n ih =>
    unfold multiLoop
    exact NoPanic.ite (fun _ => NoPanic.pure) (fun _ => NoPanic.bind hg (fun _ => ih _))

theorem attemptIf_noPanic (ic : IfC Gen) (h : ∀ g' ∈ ic.thenGen.toList ++ ic.elseGen.toList, NoPanic (sub g')) (v : JVal) :
    NoPanic (attemptIf sub ic v) := by
  unfold attemptIf
  refine NoPanic.ite (fun _ => ?_) (fun _ => ?_)
  · cases ht : ic.thenGen with
    | none => exact NoPanic.pure
    | some t => exact NoPanic.bind (h t (by simp [ht])) (fun _ => NoPanic.pure)
  · cases ht : ic.elseGen with
    | none => exact NoPanic.pure
    | some t => exact NoPanic.bind (h t (by simp [ht])) (fun _ => NoPanic.pure)

theorem ifsPass_noPanic (cs : List (IfC Gen)) (h : ∀ g' ∈ constrChildren (.ifs cs), NoPanic (sub g')) (is : List Nat)
    (hi : ∀ i ∈ is, i < cs.length) (v : JVal) : NoPanic (ifsPass sub cs is v) := by
  induction is generalizing v with
  | nil => exact NoPanic.pure
  | cons i is ih =>
    unfold ifsPass
    refine NoPanic.bindPost (fun ic => ic ∈ cs) (indexAt_noPanic cs (by omega) (by
      have := hi i (by simp); unfold goLen; omega)) ?_ (fun ic hic => ?_)
    · intro s ic s' hic
      exact List.mem_of_getElem? (indexAt_post _ _ _ ic s' hic).2.1
    · refine NoPanic.bind (attemptIf_noPanic ic (fun g' hg' => h g' ?_) v) (fun r => ?_)
      · simp only [constrChildren, List.mem_flatMap]
        exact ⟨ic, hic, hg'⟩
      · cases r with
        | none => exact NoPanic.pure
        | some v' => exact ih (fun j hj => hi j (by simp [hj])) _

theorem ifsLoop_noPanic (cs : List (IfC Gen)) (h : ∀ g' ∈ constrChildren (.ifs cs), NoPanic (sub g')) {g : Gen}
    (hg : NoPanic (sub g)) (n : Nat) (v : JVal) : NoPanic (ifsLoop c sub cs g n v) := by
  induction n generalizing v with
  | zero => exact NoPanic.pure
  | succ n ih =>
    unfold ifsLoop
    refine NoPanic.bind tick_noPanic (fun _ => ?_)
    refine NoPanic.bindPost (fun p => p.Perm (List.range cs.length)) (perm_noPanic (drawSeeded_draws _) _)
      (fun s => perm_post _ _ s) (fun p hp => ?_)
    refine NoPanic.bind (ifsPass_noPanic cs h p (fun i hi => ?_) v) (fun r => ?_)
    · have := hp.mem_iff.1 hi
      simpa using this
    · cases r with
      | none => exact NoPanic.bind hg (fun _ => ih _)
      | some r => exact NoPanic.pure

theorem applyConstr_noPanic {g : Gen} (hg : NoPanic (sub g)) (k : Constr Gen)
    (h : ∀ g' ∈ constrChildren k, NoPanic (sub g')) (v : JVal) : NoPanic (applyConstr c sub g k v) := by
  unfold applyConstr
  cases k with
  | oneOf ss =>
    refine NoPanic.bind (budget_noPanic c _) (fun n => NoPanic.bind (oneOfLoop_noPanic hg _ _ _) (fun r => ?_))
    cases r with
    | none => exact NoPanic.bind (note_noPanic _) (fun _ => NoPanic.pure)
    | some x => exact NoPanic.pure
  | multi fs =>
    refine NoPanic.bind (budget_noPanic c _) (fun n => NoPanic.bind (multiLoop_noPanic hg _ _ _) (fun r => ?_))
    cases r with
    | none => exact NoPanic.bind (note_noPanic _) (fun _ => NoPanic.pure)
    | some x => exact NoPanic.pure
  | ifs cs =>
    refine NoPanic.bind (budget_noPanic c _) (fun n => NoPanic.bind (ifsLoop_noPanic cs h hg _ _) (fun r => ?_))
    cases r with
    | none => exact NoPanic.bind (note_noPanic _) (fun _ => NoPanic.pure)
    | some x => exact NoPanic.pure

theorem applyAll_noPanic {g : Gen} (hg : NoPanic (sub g)) (ks : List (Constr Gen))
    (h : ∀ k ∈ ks, ∀ g' ∈ constrChildren k, NoPanic (sub g')) (v : JVal) : NoPanic (applyAll c sub g ks v) := by
  induction ks generalizing v with
  | nil => exact NoPanic.pure
  | cons k ks ih =>
    unfold applyAll
    exact NoPanic.bind tick_noPanic (fun _ => NoPanic.bind (applyConstr_noPanic hg k (h k (by simp)) _)
      (fun _ => ih (fun k' hk' => h k' (by simp [hk'])) _))

theorem refGenerate_noPanic (doc path : String) (hev : ∀ g, Evolves (sub g))
    (h : ∀ g, c.env doc path = some g → NoPanic (sub g)) : NoPanic (refGenerate c sub doc path) := by
  unfold refGenerate
  refine NoPanic.bind tick_noPanic (fun _ => NoPanic.bind (cutoff_noPanic c) (fun b => NoPanic.ite
    (fun _ => NoPanic.bind (note_noPanic _) (fun _ => NoPanic.pure)) (fun _ => ?_)))
  cases hg : c.env doc path with
  | none => exact NoPanic.bind (note_noPanic _) (fun _ => NoPanic.pure)
  | some target =>
    intro s e
    show refEnter c sub doc path target s ≠ .panic e
    unfold refEnter
    split
    · exact NoPanic.bind (note_noPanic _) (fun _ => NoPanic.pure) s e
    · split
      · exact NoPanic.bind (note_noPanic _) (fun _ => NoPanic.pure) s e
      · intro hp
        rcases bind_panic.1 hp with hp | ⟨_, s1, h1, hp⟩
        · simp [pushRef] at hp
        · have hs1 : s1.refs = refKey doc path :: s.refs := by
            simp [pushRef] at h1; rw [← h1]
          rcases bind_panic.1 hp with hp | ⟨v, s2, h2, hp⟩
          · exact h target hg s1 e hp
          · rcases bind_panic.1 hp with hp | ⟨_, s3, h3, hp⟩
            · have hs2 := (hev target s1 v s2 h2).refs
              unfold popRef at hp
              rw [hs2, hs1] at hp
              simp at hp
            · simp at hp

end

/-- C02: for options whose default object size is not negative, generation on a well-formed generator with
well-formed references never panics, whatever the random streams. -/
theorem C02_generate_no_panic (c : Ctx) (ho : 0 ≤ c.o.defaultObjectMaxProperties)
    (htab : ∀ d p g, c.env d p = some g → GenSafe c.w.fp c.w.plat g) (n : Nat) (g : Gen)
    (hg : GenSafe c.w.fp c.w.plat g) (s : GSt) (e : String) : generate c n g s ≠ .panic e := by
  suffices h : NoPanic (generate c n g) from h s e
  induction n generalizing g with
  | zero => intro s e h; simp [generate] at h
  | succ n ih =>
    show NoPanic (genStep c (generate c n) g)
    cases hg with
    | null => exact NoPanic.bind tick_noPanic (fun _ => NoPanic.pure)
    | const v => exact NoPanic.pure
    | bool =>
      show NoPanic (randomBool c.w >>= _)
      unfold randomBool
      exact NoPanic.bind (NoPanic.bind (intnWith_noPanic (drawSeeded_draws _) (by omega)) (fun _ => NoPanic.pure)) (fun _ => NoPanic.pure)
    | enum vs h => exact NoPanic.bind tick_noPanic (fun _ => choice_noPanic _ h)
    | num g h => exact NoPanic.bind tick_noPanic (fun _ => numberGenerate_noPanic _ g h)
    | str g h1 h2 => exact stringGenerate_noPanic g h1 h2
    | arr g h1 h2 h3 h4 h5 =>
      refine arrayGenerate_noPanic g (fun g' hg' => ih g' ?_)
      simp only [arrUses, List.mem_append, List.mem_singleton, Option.mem_toList] at hg'
      rcases hg' with (hg' | hg') | rfl
      · exact h1 _ hg'
      · exact h4 _ hg'
      · unfold itemGenOf
        cases hi : g.item with
        | some i => exact h2 i hi
        | none =>
          cases ha : g.additional with
          | some a => exact h3 a ha
          | none =>
            cases hu : g.unevaluated with
            | some u => exact h5 u hu
            | none =>
              simp only
              split
              · exact .str {} (fun h => absurd rfl h) (by simp)
              · exact .null
    | obj g h1 h2 h3 h4 h5 =>
      exact objectGenerate_noPanic g (ih _ .null) (fun p hp => ih _ (h1 p hp)) (fun k hk => ih _ (h4 k hk))
        (fun p hp => ih _ (h2 p hp)) h3 h5 ho
    | multi gs h1 h2 => exact pick_noPanic gs h1 (fun g hg => ih g (h2 g hg))
    | comb gs h1 h2 =>
      refine NoPanic.bind tick_noPanic (fun _ => NoPanic.bind (cutoff_noPanic c) (fun b => NoPanic.ite
        (fun _ => NoPanic.bind (note_noPanic _) (fun _ => NoPanic.pure)) (fun _ => ?_)))
      exact pick_noPanic gs h1 (fun g hg => ih g (h2 g hg))
    | constrained g cs h1 h2 =>
      refine NoPanic.bind (ih g h1) (fun v => NoPanic.bind (cutoff_noPanic c) (fun b => NoPanic.ite
        (fun _ => NoPanic.bind (note_noPanic _) (fun _ => NoPanic.pure)) (fun _ => ?_)))
      exact applyAll_noPanic (ih g h1) cs (fun k hk g' hg' => ih g' (h2 k hk g' hg')) _
    | ref d p => exact refGenerate_noPanic d p (generate_evolves c n) (fun g hg => ih g (htab d p g hg))
    | allOf g h => exact ih g h

/-- C02 at the entry point: with a non-negative object size option, a call of `Generate` on a well-formed generator
returns a value or runs out of the model's fuel; it never panics. -/
theorem C02_root_no_panic (w : World) (o : Opts) (ho : 0 ≤ o.defaultObjectMaxProperties)
    (env : String → String → Option Gen) (htab : ∀ d p g, env d p = some g → GenSafe w.fp w.plat g) (n : Nat) (g : Gen)
    (hg : GenSafe w.fp w.plat g) (e : String) : rootGenerate w o env n g ≠ .panic e :=
  C02_generate_no_panic ⟨w, withGeneratorOptionsDefaults o, env⟩ (getInt2_nonneg ho (by omega)) htab n g hg {} e

theorem floorToInt_fin {P : Platform} {q : Rat} (h : |q| ≤ 2 ^ 61) : floorToInt P (.fin q) = ⌊q⌋ ∧ |⌊q⌋| ≤ 2 ^ 61 := by
  have h1 := abs_le.1 h
  have h2 : |⌊q⌋| ≤ (2 ^ 61 : Int) := by
    rw [abs_le]
    constructor
    · rw [Int.le_floor]; push_cast; linarith [h1.1]
    · have : (⌊q⌋ : Rat) ≤ 2 ^ 61 := le_trans (Int.floor_le q) h1.2
      exact_mod_cast this
  refine ⟨?_, h2⟩
  simp only [floorToInt, fFloor]
  exact toInt64_int P _ (le_trans h2 (by norm_num))

/-- C02 for numbers: what `parseNumber` accepts is a well-formed generator, provided the bounds divided by
`multipleOf` stay below 2^61. -/
theorem C02_number_safe (F : FP) (hF : F.Lawful) (P : Platform) (n : NumSpec) (isInt : Bool) (r : NumResult)
    (h : parseNumber F P n isInt = .ok r)
    (hq : ∀ g m, r = .gen g → n.multipleOf = some m → m ≠ 0 → |F.div g.min m| ≤ 2 ^ 61 ∧ |F.div g.max m| ≤ 2 ^ 61) :
    GenSafe F P r.toGen := by
  unfold parseNumber at h
  cases hr : resolveMinMaxForNode F P n isInt with
  | error e => rw [hr] at h; cases h
  | ok b =>
    obtain ⟨mn, mx⟩ := b
    rw [hr] at h
    simp only at h
    by_cases he : mn = mx
    · rw [if_pos he] at h; cases h; exact .const _
    · rw [if_neg he] at h
      cases h
      refine .num _ (fun hm => ?_)
      obtain ⟨hle, hchk, _, _⟩ := resolve_ok hr
      cases hmo : n.multipleOf with
      | none => rw [hmo] at hm; simp [getZeroIfNil] at hm
      | some m =>
        have hmz : getZeroIfNil (some m) (0 : Rat) = m := rfl
        simp only [hmo, hmz] at hm ⊢
        obtain ⟨hm0, _, _, _⟩ := checkMultipleOf_some hmo hchk
        have hpos : 0 < m := lt_of_le_of_ne hm0 (Ne.symm hm)
        obtain ⟨hq1, hq2⟩ := hq _ m rfl hmo hm
        obtain ⟨e1, b1⟩ := floorToInt_fin (P := P) hq1
        obtain ⟨e2, b2⟩ := floorToInt_fin (P := P) hq2
        have hmono : ⌊F.div mn m⌋ ≤ ⌊F.div mx m⌋ := by
          apply Int.floor_le_floor
          unfold FP.div
          exact hF.mono _ _ (div_le_div_of_nonneg_right hle (le_of_lt hpos))
        unfold countMultiplesInRange
        have f1 : fdiv0 F mx m = .fin (F.div mx m) := by unfold fdiv0; rw [if_neg hm]
        have f2 : fdiv0 F mn m = .fin (F.div mn m) := by unfold fdiv0; rw [if_neg hm]
        simp only at e1 e2 b1 b2
        rw [f1, f2, e1, e2]
        split
        · rename_i h0
          have : F.div mn m = 0 := by unfold FP.div; rw [h0, zero_div, hF.zero]
          rw [this] at hmono
          simpa using hmono
        · rw [wrap64_small]
          · omega
          · have := abs_le.1 b1
            have := abs_le.1 b2
            rw [abs_le]
            constructor <;> norm_num at * <;> omega

/-- The message of a panic. -/
def isPanic {α : Type} : Res GSt α → Bool
  | .panic _ => true
  | _ => false

theorem exists_of_isPanic {α : Type} {r : Res GSt α} (h : isPanic r = true) : ∃ e, r = .panic e := by
  cases r <;> simp [isPanic] at h; exact ⟨_, rfl⟩

/-- C02 fails for `"type": []`: the parser builds a choice between no generators, which panics on every run. -/
theorem C02_empty_types_violation (c : Ctx) (n : Nat) (s : GSt) : ∃ e, generate c (n + 1) (.multi []) s = .panic e :=
  ⟨_, rfl⟩

/-- Parse a numeric schema and report whether generating one value panics. -/
def numSchemaPanics (c : Ctx) (n : NumSpec) (isInt : Bool) : Bool :=
  match parseNumber c.w.fp c.w.plat n isInt with
  | .ok r => isPanic (generate c 1 r.toGen {})
  | .error _ => false

/-- C02 fails for `{"type":"number","minimum":-5,"maximum":1e30,"multipleOf":1}`: the schema is accepted, the count of
multiples overflows to a negative number and the draw panics. -/
theorem C02_multipleOf_overflow_violation :
    ∃ (n : NumSpec) (r : NumResult) (e : String), n.minimum = some (-5) ∧ n.maximum = some (10 ^ 30) ∧ n.multipleOf = some 1 ∧
      parseNumber doubleCtx.w.fp doubleCtx.w.plat n false = .ok r ∧ generate doubleCtx 1 r.toGen {} = .panic e := by
  have h : numSchemaPanics doubleCtx { minimum := some (-5), maximum := some (10 ^ 30), multipleOf := some 1 } false = true := by
    decide +kernel
  unfold numSchemaPanics at h
  cases hp : parseNumber doubleCtx.w.fp doubleCtx.w.plat { minimum := some (-5), maximum := some (10 ^ 30), multipleOf := some 1 } false with
  | error e => rw [hp] at h; cases h
  | ok r =>
    rw [hp] at h
    obtain ⟨e, he⟩ := exists_of_isPanic h
    exact ⟨_, r, e, rfl, rfl, rfl, hp, he⟩

/-- A generator that meets the hypotheses: an object with a pattern property, an array of a choice, and a reference
to itself. -/
example : GenSafe FP.exact Platform.amd64 (.obj
    { props := [("a", .arr { item := some (.multi [.bool, .null]) }), ("b", .ref "d" "#")]
      patProps := [("x", (.const .null, some (.lit [97])))]
      maxProps := 3 }) := by
  refine .obj _ ?_ ?_ ?_ ?_ (by simp)
  · intro p hp
    simp at hp
    rcases hp with rfl | rfl
    · refine .arr _ (by simp) ?_ (by simp) (by simp) (by simp)
      intro k hk
      simp at hk
      subst hk
      exact .multi _ (by simp) (by intro g hg; simp at hg; rcases hg with rfl | rfl; exact .bool; exact .null)
    · exact .ref _ _
  · intro p hp
    simp at hp
    subst hp
    exact .const _
  · intro p hp r hr
    simp at hp
    subst hp
    simp at hr
    subst hr
    exact ⟨{}, .literal [97], trivial, rfl⟩
  · simp

end Chaff
