import Verif.Lemmas.Comp
/-!
# One walk over every `Generate` method

`Closed P` says that a family of relations between computations is closed under the operations out of
which the generators are built.  `genStep_rel` then shows that one `Generate` call is related to itself
(with different recursive calls and possibly different contexts) as soon as the recursive calls on the
immediate sub-generators are.
-/

namespace Chaff
open Comp

/-- The immediate sub-generators whose `Generate` may be called by a generator itself
(referenced generators are looked up in the table and are not children). -/
def constrChildren : Constr Gen → List Gen
  | .oneOf _ => []
  | .multi _ => []
  | .ifs cs => cs.flatMap (fun ic => ic.thenGen.toList ++ ic.elseGen.toList)

def children : Gen → List Gen
  | .arr g => g.tuple ++ g.item.toList ++ g.additional.toList ++ g.contains.toList ++ g.unevaluated.toList
      ++ [.str {}, .null]
  | .obj g => g.props.map Prod.snd ++ g.patProps.map (fun p => p.2.1) ++ g.additional.toList ++ [.null]
  | .multi gs => gs
  | .comb gs => gs
  | .constrained g cs => g :: cs.flatMap constrChildren
  | .allOf g => [g]
  | _ => []

/-- Closure conditions on a family of relations between computations, without the ambient source. -/
structure ClosedS (c c' : Ctx) (P : ∀ {α : Type}, M α → M α → Prop) : Prop where
  pure : ∀ {α : Type} (a : α), P (pure a : M α) (pure a)
  bind : ∀ {α β : Type} {m m' : M α} {f f' : α → M β}, P m m' → (∀ a, P (f a) (f' a)) → P (m >>= f) (m' >>= f')
  fail : ∀ {α : Type} (e : String), P (Comp.fail e : M α) (Comp.fail e)
  tick : P tick tick
  note : ∀ d, P (note d) (note d)
  seeded : P (drawSeeded c.w) (drawSeeded c'.w)
  cutoff : P (cutoff c) (cutoff c')
  minimize : P (minimize c) (minimize c')
  budget : ∀ b, P (budget c b) (budget c' b)

/-- Closure conditions on a family of relations between computations. -/
structure Closed (c c' : Ctx) (P : ∀ {α : Type}, M α → M α → Prop) : Prop extends ClosedS c c' P where
  ambient : P (drawAmbient c.w) (drawAmbient c'.w)
  fill : ∀ mn sb, P (fillLoop c mn mn.toNat sb) (fillLoop c' mn mn.toNat sb)

/-- The options agree on sizes and fallback values. -/
structure SameSizes (o o' : Opts) : Prop where
  arrayMin : o.defaultArrayMinItems = o'.defaultArrayMinItems
  arrayMax : o.defaultArrayMaxItems = o'.defaultArrayMaxItems
  objectMin : o.defaultObjectMinProperties = o'.defaultObjectMinProperties
  objectMax : o.defaultObjectMaxProperties = o'.defaultObjectMaxProperties
  suppress : o.suppressFallbackValues = o'.suppressFallbackValues

theorem SameSizes.of_eq {o o' : Opts} (h : o = o') : SameSizes o o' := by
  subst h
  exact ⟨rfl, rfl, rfl, rfl, rfl⟩

/-- The options agree on the numbers of attempts. -/
structure SameAttempts (o o' : Opts) : Prop where
  unique : o.maximumUniqueGeneratorAttempts = o'.maximumUniqueGeneratorAttempts
  oneOf : o.maximumOneOfAttempts = o'.maximumOneOfAttempts
  ifs : o.maximumIfAttempts = o'.maximumIfAttempts

theorem SameAttempts.of_eq {o o' : Opts} (h : o = o') : SameAttempts o o' := by
  subst h
  exact ⟨rfl, rfl, rfl⟩

/-- The contexts agree on sizes, fallback values and the number formats. -/
structure SameConfS (c c' : Ctx) : Prop where
  opts : SameSizes c.o c'.o
  fp : c.w.fp = c'.w.fp
  plat : c.w.plat = c'.w.plat

/-- The contexts agree on everything a generator reads directly, apart from numbers of attempts. -/
structure SameConf (c c' : Ctx) : Prop extends SameConfS c c' where
  sentence : c.w.sentence = c'.w.sentence
  faker : c.w.fakerFormat = c'.w.fakerFormat

theorem SameConf.refl (c : Ctx) : SameConf c c := ⟨⟨.of_eq rfl, rfl, rfl⟩, rfl, rfl⟩

set_option linter.unusedSectionVars false

section
variable {c c' : Ctx} {P : ∀ {α : Type}, M α → M α → Prop} (h : ClosedS c c' P) (hc : SameConfS c c')
include h hc

omit h hc in
theorem Closed.ite {α : Type} {p q : Prop} [Decidable p] [Decidable q] {a b a' b' : M α} (hpq : p ↔ q)
    (ha : P a a') (hb : P b b') : P (if p then a else b) (if q then a' else b') := by
  by_cases hp : p
  · rw [if_pos hp, if_pos (hpq.1 hp)]; exact ha
  · rw [if_neg hp, if_neg (fun hq => hp (hpq.2 hq))]; exact hb

omit hc in
theorem intnWith_rel {d d' : M Nat} (hd : P d d') (n : Int) : P (intnWith d n) (intnWith d' n) := by
  unfold intnWith
  exact Closed.ite (P := P) Iff.rfl (h.fail _) (h.bind hd (fun _ => h.pure _))

omit hc in
theorem randomInt_rel (a b : Int) : P (randomInt c.w a b) (randomInt c'.w a b) := by
  unfold randomInt intn
  exact Closed.ite (P := P) Iff.rfl (h.pure _) (h.bind (intnWith_rel h h.seeded _) (fun _ => h.pure _))

omit hc in
theorem indexAt_rel {α : Type} (l : List α) (i : Int) : P (indexAt l i) (indexAt l i) := by
  unfold indexAt
  refine Closed.ite (P := P) Iff.rfl (h.fail _) ?_
  cases l[i.toNat]? with
  | none => exact h.fail _
  | some a => exact h.pure _

omit hc in
theorem choice_rel {α : Type} (l : List α) : P (choice c.w l) (choice c'.w l) := by
  unfold choice intn
  exact h.bind (intnWith_rel h h.seeded _) (fun _ => indexAt_rel h _ _)

omit hc in
theorem permLoop_rel {d d' : M Nat} (hd : P d d') (n : Nat) (m : List Nat) :
    P (permLoop d n m) (permLoop d' n m) := by
  induction n generalizing m with
  | zero => exact h.pure _
  | succ n ih =>
    unfold permLoop
    exact h.bind (intnWith_rel h hd _) (fun _ => ih _)

omit hc in
theorem repeatM_rel {m m' : M (List Char)} (hm : P m m') (n : Nat) : P (repeatM m n) (repeatM m' n) := by
  induction n with
  | zero => exact h.pure _
  | succ n ih =>
    unfold repeatM
    exact h.bind hm (fun _ => h.bind ih (fun _ => h.pure _))

theorem randomFloat_rel (a b : Rat) : P (randomFloat c.w a b) (randomFloat c'.w a b) := by
  unfold randomFloat float64
  rw [hc.fp]
  exact h.bind (h.bind h.seeded (fun _ => h.pure _)) (fun _ => h.pure _)

theorem numberGenerate_rel (g : NumGen) : P (numberGenerate c.w g) (numberGenerate c'.w g) := by
  have hgm : ∀ a b m, P (generateMultipleOf c.w a b m) (generateMultipleOf c'.w a b m) := by
    intro a b m
    unfold generateMultipleOf
    rw [hc.fp, hc.plat]
    exact Closed.ite (P := P) Iff.rfl (h.pure _) (h.bind (randomInt_rel h _ _) (fun _ => h.pure _))
  have hraw : P (numberRaw c.w g) (numberRaw c'.w g) := by
    unfold numberRaw
    refine Closed.ite (P := P) Iff.rfl (Closed.ite (P := P) Iff.rfl (hgm _ _ _) ?_) (Closed.ite (P := P) Iff.rfl ?_ (randomFloat_rel h hc _ _))
    · exact h.bind (randomFloat_rel h hc _ _) (fun _ => h.pure _)
    · rw [hc.fp]
      exact h.bind (hgm _ _ _) (fun _ => h.pure _)
  unfold numberGenerate
  rw [hc.plat, hc.fp]
  exact h.bind hraw (fun _ => Closed.ite (P := P) Iff.rfl (h.pure _)
    (Closed.ite (P := P) Iff.rfl (h.pure _) (Closed.ite (P := P) Iff.rfl (h.pure _) (h.pure _))))

omit hc in
theorem genNumbered_rel {sub sub' : Gen → M JVal} (gen : Gen) (hg : P (sub gen) (sub' gen)) (pre : String)
    (n i : Nat) (acc : ObjMap) :
    P (genNumbered sub gen pre n i acc) (genNumbered sub' gen pre n i acc) := by
  induction n generalizing i acc with
  | zero => exact h.pure _
  | succ n ih =>
    unfold genNumbered
    exact h.bind hg (fun _ => ih _ _)

theorem genFallback_rel {sub sub' : Gen → M JVal} (hg : P (sub .null) (sub' .null)) (mn : Int)
    (n i : Nat) (acc : ObjMap) :
    P (genFallback c sub mn n i acc) (genFallback c' sub' mn n i acc) := by
  induction n generalizing i acc with
  | zero => exact h.pure _
  | succ n ih =>
    unfold genFallback
    rw [hc.opts.suppress]
    exact Closed.ite (P := P) Iff.rfl (ih _ _) (h.bind hg (fun _ => ih _ _))

omit hc in
theorem genTuple_rel {sub sub' : Gen → M JVal} (gs : List Gen) (hsub : ∀ g' ∈ gs, P (sub g') (sub' g')) :
    P (genTuple sub gs) (genTuple sub' gs) := by
  induction gs with
  | nil => exact h.pure _
  | cons g gs ih =>
    unfold genTuple
    exact h.bind (hsub g (by simp)) (fun _ => h.bind (ih (fun g' hg' => hsub g' (by simp [hg']))) (fun _ => h.pure _))

omit hc in
theorem uniqueLoop_rel {sub sub' : Gen → M JVal} (gen : Gen) (hg : P (sub gen) (sub' gen)) (cur : List JVal) (n : Nat) :
    P (uniqueLoop sub gen cur n) (uniqueLoop sub' gen cur n) := by
  induction n with
  | zero => exact h.pure _
  | succ n ih =>
    unfold uniqueLoop
    exact h.bind hg (fun _ => Closed.ite (P := P) Iff.rfl ih (h.pure _))

theorem genUnique_rel (ha : SameAttempts c.o c'.o) {sub sub' : Gen → M JVal} (u : Bool) (gen : Gen) (hg : P (sub gen) (sub' gen)) (cur : List JVal) :
    P (genUnique c sub u gen cur) (genUnique c' sub' u gen cur) := by
  unfold genUnique
  rw [ha.unique]
  refine Closed.ite (P := P) Iff.rfl (h.bind hg (fun _ => h.pure _)) (h.bind (uniqueLoop_rel h gen hg _ _) (fun r => ?_))
  cases r with
  | none => exact h.bind (h.note _) (fun _ => h.pure _)
  | some x => exact h.pure _

theorem containsLoop_rel (ha : SameAttempts c.o c'.o) {sub sub' : Gen → M JVal} (u : Bool) (gen : Gen) (hg : P (sub gen) (sub' gen)) (mc : Int)
    (n : Nat) (i : Int) (acc : List JVal) :
    P (containsLoop c sub u gen mc n i acc) (containsLoop c' sub' u gen mc n i acc) := by
  induction n generalizing i acc with
  | zero => exact h.pure _
  | succ n ih =>
    unfold containsLoop
    exact h.bind (genUnique_rel h hc ha u gen hg _) (fun r => Closed.ite (P := P) Iff.rfl (h.pure _) (ih _ _))

/-- The loop bound given to `itemsLoop` is never exhausted. -/
theorem itemsLoop_rel (ha : SameAttempts c.o c'.o) {sub sub' : Gen → M JVal} (u : Bool) (gen : Gen) (hg : P (sub gen) (sub' gen)) (k mn : Int)
    (n : Nat) (i : Int) (acc : List JVal) (hn : max (k - i) (mn - goLen acc) ≤ n) :
    P (itemsLoop c sub u gen k mn n i acc) (itemsLoop c' sub' u gen k mn n i acc) := by
  induction n generalizing i acc with
  | zero =>
    unfold itemsLoop
    have : ¬ (i < k ∨ mn > goLen acc) := by omega
    simp only [if_neg this]
    exact h.pure _
  | succ n ih =>
    unfold itemsLoop
    refine Closed.ite (P := P) Iff.rfl (h.bind (genUnique_rel h hc ha u gen hg _) (fun r => Closed.ite (P := P) Iff.rfl (h.pure _) (ih _ _ ?_))) (h.pure _)
    simp only [goLen, List.length_append, List.length_singleton] at *
    omega

/-- The generators an array generator can call. -/
def arrUses (g : ArrGen Gen) : List Gen := g.tuple ++ g.contains.toList ++ [itemGenOf g]

omit h hc in
theorem arrUses_children (g : ArrGen Gen) : ∀ g' ∈ arrUses g, g' ∈ children (.arr g) := by
  have hitem : itemGenOf g ∈ children (.arr g) := by
    unfold itemGenOf
    cases h1 : g.item with
    | some i => simp [children, h1]
    | none =>
      cases h2 : g.additional with
      | some i => simp [children, h2]
      | none =>
        cases h3 : g.unevaluated with
        | some i => simp [children, h3]
        | none => by_cases hu : g.unique <;> simp [children, hu]
  intro g' hg'
  simp only [arrUses, List.mem_append, List.mem_singleton] at hg'
  rcases hg' with (hg' | hg') | rfl
  · simp [children, hg']
  · simp only [children, List.mem_append, hg', true_or, or_true]
  · exact hitem

theorem arrayGenerate_rel (ha : SameAttempts c.o c'.o) {sub sub' : Gen → M JVal} (g : ArrGen Gen)
    (hsub : ∀ g' ∈ arrUses g, P (sub g') (sub' g')) :
    P (arrayGenerate c sub g) (arrayGenerate c' sub' g) := by
  have hitem : itemGenOf g ∈ arrUses g := by simp [arrUses]
  unfold arrayGenerate
  refine h.bind h.tick (fun _ => h.bind h.cutoff (fun b => Closed.ite (P := P) Iff.rfl ?_ ?_))
  · exact h.bind (h.note _) (fun _ => h.pure _)
  · refine h.bind (genTuple_rel h _ (fun g' hg' => hsub g' (by simp [arrUses, hg']))) (fun td =>
      Closed.ite (P := P) Iff.rfl (h.pure _) ?_)
    refine h.bind ?_ (fun acc => h.bind ?_ (fun k => h.bind ?_ (fun _ => h.pure _)))
    · unfold containsStage
      cases hcg : g.contains with
      | none => exact h.pure _
      | some cg => exact containsLoop_rel h hc ha _ _ (hsub cg (by simp [arrUses, hcg])) _ _ _ _
    · unfold itemsTarget arrBounds
      rw [hc.opts.arrayMin, hc.opts.arrayMax]
      exact h.bind (randomInt_rel h _ _) (fun k => h.bind h.minimize (fun m => h.pure _))
    · unfold itemsStage arrBounds
      rw [hc.opts.arrayMin, hc.opts.arrayMax]
      refine itemsLoop_rel h hc ha _ _ (hsub _ hitem) _ _ _ _ _ ?_
      omega

omit hc in
theorem combGenerate_rel {sub sub' : Gen → M JVal} (gs : List Gen) (hsub : ∀ g' ∈ gs, P (sub g') (sub' g')) :
    P (combGenerate c sub gs) (combGenerate c' sub' gs) := by
  unfold combGenerate
  refine h.bind h.tick (fun _ => h.bind h.cutoff (fun b => Closed.ite (P := P) Iff.rfl ?_ ?_))
  · exact h.bind (h.note _) (fun _ => h.pure _)
  · refine h.bind (randomInt_rel h _ _) (fun i => ?_)
    unfold indexAt
    by_cases hi : i < 0
    · simp only [if_pos hi]
      have := h.fail (α := JVal) "index out of range"
      exact this
    · simp only [if_neg hi]
      cases hg : gs[i.toNat]? with
      | none =>
        have := h.fail (α := JVal) "index out of range"
        exact this
      | some g =>
        have := hsub g (List.mem_of_getElem? hg)
        exact this

omit hc in
theorem multiGenerate_rel {sub sub' : Gen → M JVal} (gs : List Gen) (hsub : ∀ g' ∈ gs, P (sub g') (sub' g')) :
    P (multiGenerate c sub gs) (multiGenerate c' sub' gs) := by
  unfold multiGenerate
  refine h.bind (randomInt_rel h _ _) (fun i => ?_)
  unfold indexAt
  by_cases hi : i < 0
  · simp only [if_pos hi]
    have := h.fail (α := JVal) "index out of range"
    exact this
  · simp only [if_neg hi]
    cases hg : gs[i.toNat]? with
    | none =>
      have := h.fail (α := JVal) "index out of range"
      exact this
    | some g =>
      have := hsub g (List.mem_of_getElem? hg)
      exact this

omit hc in
theorem oneOfLoop_rel {sub sub' : Gen → M JVal} (ss : List (JVal → Bool)) (g : Gen) (hg : P (sub g) (sub' g))
    (n : Nat) (v : JVal) : P (oneOfLoop sub ss g n v) (oneOfLoop sub' ss g n v) := by
  induction n generalizing v with
  | zero => exact h.pure _
  | succ n ih =>
    unfold oneOfLoop
    exact h.bind h.tick (fun _ => Closed.ite (P := P) Iff.rfl (h.pure _) (h.bind hg (fun _ => ih _)))

omit hc in
theorem multiLoop_rel {sub sub' : Gen → M JVal} (fs : List (JVal → Bool)) (g : Gen) (hg : P (sub g) (sub' g))
    (n : Nat) (v : JVal) : P (multiLoop sub fs g n v) (multiLoop sub' fs g n v) := by
  induction n generalizing v with
  | zero => exact h.pure _
  | succ n ih =>
    unfold multiLoop
    exact Closed.ite (P := P) Iff.rfl (h.pure _) (h.bind hg (fun _ => ih _))

omit hc in
theorem attemptIf_rel {sub sub' : Gen → M JVal} (ic : IfC Gen)
    (hsub : ∀ g' ∈ ic.thenGen.toList ++ ic.elseGen.toList, P (sub g') (sub' g')) (v : JVal) :
    P (attemptIf sub ic v) (attemptIf sub' ic v) := by
  unfold attemptIf
  refine Closed.ite (P := P) Iff.rfl ?_ ?_
  · cases ht : ic.thenGen with
    | none => exact h.pure _
    | some t => exact h.bind (hsub t (by simp [ht])) (fun _ => h.pure _)
  · cases ht : ic.elseGen with
    | none => exact h.pure _
    | some t => exact h.bind (hsub t (by simp [ht])) (fun _ => h.pure _)

omit hc in
theorem ifsPass_rel {sub sub' : Gen → M JVal} (cs : List (IfC Gen))
    (hsub : ∀ g' ∈ constrChildren (.ifs cs), P (sub g') (sub' g')) (is : List Nat) (v : JVal) :
    P (ifsPass sub cs is v) (ifsPass sub' cs is v) := by
  induction is generalizing v with
  | nil => exact h.pure _
  | cons i is ih =>
    unfold ifsPass indexAt
    have hi : ¬ ((i : Int) < 0) := by omega
    simp only [if_neg hi, Int.toNat_natCast]
    cases hg : cs[i]? with
    | none =>
      have := h.fail (α := Option JVal) "index out of range"
      exact this
    | some ic =>
      have h1 : P (attemptIf sub ic v) (attemptIf sub' ic v) := by
        refine attemptIf_rel h ic (fun g' hg' => hsub g' ?_) v
        simp only [constrChildren, List.mem_flatMap]
        exact ⟨ic, List.mem_of_getElem? hg, hg'⟩
      have := h.bind h1 (f := fun r => match r with | some v' => ifsPass sub cs is v' | none => pure none)
        (f' := fun r => match r with | some v' => ifsPass sub' cs is v' | none => pure none) (by
          intro r
          cases r with
          | none => exact h.pure _
          | some v' => exact ih _)
      exact this

omit hc in
theorem ifsLoop_rel {sub sub' : Gen → M JVal} (cs : List (IfC Gen))
    (hsub : ∀ g' ∈ constrChildren (.ifs cs), P (sub g') (sub' g')) (g : Gen) (hg : P (sub g) (sub' g))
    (n : Nat) (v : JVal) : P (ifsLoop c sub cs g n v) (ifsLoop c' sub' cs g n v) := by
  induction n generalizing v with
  | zero => exact h.pure _
  | succ n ih =>
    unfold ifsLoop perm
    refine h.bind h.tick (fun _ => h.bind (permLoop_rel h h.seeded _ _) (fun p => h.bind (ifsPass_rel h cs hsub _ _) (fun r => ?_)))
    cases r with
    | none => exact h.bind hg (fun _ => ih _)
    | some v' => exact h.pure _

theorem applyConstr_rel (ha : SameAttempts c.o c'.o) {sub sub' : Gen → M JVal} (g : Gen) (hg : P (sub g) (sub' g)) (k : Constr Gen)
    (hsub : ∀ g' ∈ constrChildren k, P (sub g') (sub' g')) (v : JVal) :
    P (applyConstr c sub g k v) (applyConstr c' sub' g k v) := by
  unfold applyConstr
  cases k with
  | oneOf ss =>
    simp only [ha.oneOf]
    refine h.bind (h.budget _) (fun n => h.bind (oneOfLoop_rel h ss g hg _ _) (fun r => ?_))
    cases r with
    | none => exact h.bind (h.note _) (fun _ => h.pure _)
    | some x => exact h.pure _
  | multi fs =>
    simp only [ha.unique]
    refine h.bind (h.budget _) (fun n => h.bind (multiLoop_rel h fs g hg _ _) (fun r => ?_))
    cases r with
    | none => exact h.bind (h.note _) (fun _ => h.pure _)
    | some x => exact h.pure _
  | ifs cs =>
    simp only [ha.ifs]
    refine h.bind (h.budget _) (fun n => h.bind (ifsLoop_rel h cs hsub g hg _ _) (fun r => ?_))
    cases r with
    | none => exact h.bind (h.note _) (fun _ => h.pure _)
    | some x => exact h.pure _

theorem applyAll_rel (ha : SameAttempts c.o c'.o) {sub sub' : Gen → M JVal} (g : Gen) (hg : P (sub g) (sub' g)) (ks : List (Constr Gen))
    (hsub : ∀ k ∈ ks, ∀ g' ∈ constrChildren k, P (sub g') (sub' g')) (v : JVal) :
    P (applyAll c sub g ks v) (applyAll c' sub' g ks v) := by
  induction ks generalizing v with
  | nil => exact h.pure _
  | cons k ks ih =>
    unfold applyAll
    exact h.bind h.tick (fun _ => h.bind (applyConstr_rel h hc ha g hg k (hsub k (by simp)) _)
      (fun _ => ih (fun k' hk' => hsub k' (by simp [hk'])) _))

end

section
variable {c c' : Ctx} {P : ∀ {α : Type}, M α → M α → Prop} (h : Closed c c' P) (hc : SameConf c c')
include h hc

omit hc in
theorem shuffle_rel {α : Type} (l : List α) : P (shuffleAmbient c.w l) (shuffleAmbient c'.w l) := by
  unfold shuffleAmbient perm
  exact h.bind (permLoop_rel h.toClosedS h.ambient _ _) (fun _ => h.pure _)

omit hc in
theorem funkKeys_rel {β : Type} (m : List (String × β)) : P (funkKeys c.w m) (funkKeys c'.w m) :=
  shuffle_rel h _

omit hc in
theorem stringChoiceMultiple_rel (l : List String) (n : Int) :
    P (stringChoiceMultiple c.w l n) (stringChoiceMultiple c'.w l n) := by
  unfold stringChoiceMultiple
  exact h.bind (shuffle_rel h _) (fun _ => Closed.ite (P := P) Iff.rfl (h.fail _) (h.pure _))

omit hc in
mutual
theorem rxGenerate_rel : ∀ g : RxGen, P (rxGenerate c.w g) (rxGenerate c'.w g)
  | .empty => by simp only [rxGenerate]; exact h.pure _
  | .lit rs => by simp only [rxGenerate]; exact h.pure _
  | .any true => by
    simp only [rxGenerate]
    exact h.bind (intnWith_rel h.toClosedS h.ambient _) (fun _ => h.pure _)
  | .any false => by
    simp only [rxGenerate]
    exact h.bind (intnWith_rel h.toClosedS h.ambient _) (fun _ => h.pure _)
  | .cls cl => by
    simp only [rxGenerate]
    refine h.bind (intnWith_rel h.toClosedS h.ambient _) (fun i => h.bind ?_ (fun j => ?_))
    · unfold clsIndex
      exact Closed.ite (P := P) Iff.rfl (h.bind (intnWith_rel h.toClosedS h.ambient _) (fun _ => h.pure _)) (h.pure _)
    · cases getRuneAt cl.ranges j.toNat with
      | none => exact h.fail _
      | some r => exact h.pure _
  | .rep g mn mx => by
    simp only [rxGenerate]
    exact h.bind (intnWith_rel h.toClosedS h.ambient _) (fun _ => repeatM_rel h.toClosedS (rxGenerate_rel g) _)
  | .cat gs => by
    simp only [rxGenerate]
    exact rxCat_rel gs
  | .alt gs => by
    simp only [rxGenerate]
    exact h.bind (intnWith_rel h.toClosedS h.ambient _) (fun _ => rxNth_rel gs _)
theorem rxCat_rel : ∀ gs : List RxGen, P (rxCat c.w gs) (rxCat c'.w gs)
  | [] => by simp only [rxCat]; exact h.pure _
  | g :: gs => by
    simp only [rxCat]
    exact h.bind (rxGenerate_rel g) (fun _ => h.bind (rxCat_rel gs) (fun _ => h.pure _))
theorem rxNth_rel : ∀ (gs : List RxGen) (n : Nat), P (rxNth c.w gs n) (rxNth c'.w gs n)
  | [], _ => by simp only [rxNth]; exact h.fail _
  | g :: _, 0 => by simp only [rxNth]; exact rxGenerate_rel g
  | _ :: gs, n + 1 => by simp only [rxNth]; exact rxNth_rel gs n
end

theorem generateFormat_rel (f : String) : P (generateFormat c f) (generateFormat c' f) := by
  unfold generateFormat
  rw [hc.faker]
  refine Closed.ite (P := P) Iff.rfl (h.bind h.ambient (fun _ => h.pure _)) (Closed.ite (P := P) Iff.rfl ?_ ?_)
  · exact h.bind (randomInt_rel h.toClosedS _ _) (fun _ => h.pure _)
  · exact Closed.ite (P := P) Iff.rfl (h.pure _) (h.pure _)

theorem stringGenerate_rel (g : StrGen) : P (stringGenerate c g) (stringGenerate c' g) := by
  unfold stringGenerate
  refine h.bind h.tick (fun _ => Closed.ite (P := P) Iff.rfl ?_ (Closed.ite (P := P) Iff.rfl ?_ ?_))
  · exact h.bind (generateFormat_rel h hc _) (fun _ => h.pure _)
  · cases g.patternGen with
    | none => exact h.fail _
    | some p => exact h.bind (rxGenerate_rel h _) (fun _ => h.pure _)
  · rw [hc.sentence]
    refine h.bind h.ambient (fun x => h.bind (h.fill _ _) (fun sb => ?_))
    exact Closed.ite (P := P) Iff.rfl (Closed.ite (P := P) Iff.rfl (h.fail _) (h.pure _)) (h.pure _)

omit hc in
theorem genKey_rel {sub sub' : Gen → M JVal} (g : ObjGen Gen)
    (hsub : ∀ g' ∈ children (.obj g), P (sub g') (sub' g')) (pre k : String) :
    P (genKey c sub g pre k) (genKey c' sub' g pre k) := by
  unfold genKey
  cases hl : lookupKV g.props k with
  | none => exact h.bind (randomInt_rel h.toClosedS _ _) (fun _ => h.pure _)
  | some pg =>
    refine hsub pg ?_
    have : ∀ (l : List (String × Gen)), lookupKV l k = some pg → pg ∈ l.map Prod.snd := by
      intro l
      induction l with
      | nil => simp [lookupKV]
      | cons a t ih =>
        obtain ⟨ka, va⟩ := a
        unfold lookupKV
        split
        · intro e; simp at e; simp [e]
        · intro e; simp only [List.map_cons, List.mem_cons]; exact Or.inr (ih e)
    simp only [children, List.mem_append]
    exact Or.inl (Or.inl (Or.inl (this _ hl)))

omit hc in
theorem genKeys_rel {sub sub' : Gen → M JVal} (g : ObjGen Gen)
    (hsub : ∀ g' ∈ children (.obj g), P (sub g') (sub' g')) (pre : String) (ks : List String) (acc : ObjMap) :
    P (genKeys c sub g pre ks acc) (genKeys c' sub' g pre ks acc) := by
  induction ks generalizing acc with
  | nil => exact h.pure _
  | cons k ks ih =>
    unfold genKeys
    exact h.bind (genKey_rel h g hsub _ _) (fun _ => ih _)

omit hc in
theorem genPatternProp_rel {sub sub' : Gen → M JVal} (g : ObjGen Gen)
    (hsub : ∀ g' ∈ children (.obj g), P (sub g') (sub' g')) :
    P (genPatternProp c sub g) (genPatternProp c' sub' g) := by
  unfold genPatternProp
  refine Closed.ite (P := P) Iff.rfl (h.pure _) (h.bind (funkKeys_rel h _) (fun ks => h.bind (choice_rel h.toClosedS _) (fun rx => ?_)))
  cases hl : lookupKV g.patProps rx with
  | none => exact h.pure _
  | some p =>
    obtain ⟨pg, ro⟩ := p
    cases ro with
    | none => exact h.pure _
    | some rg =>
      refine h.bind (rxGenerate_rel h _) (fun _ => h.bind (hsub pg ?_) (fun _ => h.pure _))
      have : ∀ (l : List (String × (Gen × Option RxGen))), lookupKV l rx = some (pg, some rg) →
          pg ∈ l.map (fun p => p.2.1) := by
        intro l
        induction l with
        | nil => simp [lookupKV]
        | cons a t ih =>
          obtain ⟨ka, va⟩ := a
          unfold lookupKV
          split
          · intro e; simp at e; simp [e]
          · intro e; simp only [List.map_cons, List.mem_cons]; exact Or.inr (ih e)
      simp only [children, List.mem_append]
      exact Or.inl (Or.inl (Or.inr (this _ hl)))

omit hc in
theorem genPatterns_rel {sub sub' : Gen → M JVal} (g : ObjGen Gen)
    (hsub : ∀ g' ∈ children (.obj g), P (sub g') (sub' g')) (n : Nat) (acc : ObjMap) :
    P (genPatterns c sub g n acc) (genPatterns c' sub' g n acc) := by
  induction n generalizing acc with
  | zero => exact h.pure _
  | succ n ih =>
    unfold genPatterns
    exact h.bind (genPatternProp_rel h g hsub) (fun _ => ih _)

omit hc in
theorem objFill_rel {sub sub' : Gen → M JVal} (g : ObjGen Gen)
    (hsub : ∀ g' ∈ children (.obj g), P (sub g') (sub' g')) (mn : Int) (acc : ObjMap) :
    P (objFill sub g mn acc) (objFill sub' g mn acc) := by
  unfold objFill
  refine Closed.ite (P := P) Iff.rfl (h.bind (genNumbered_rel h.toClosedS _ (hsub _ ?_) _ _ _ _) (fun _ => h.pure _)) (h.pure _)
  cases ha : g.additional with
  | none => simp [children]
  | some a => simp [children, ha]

theorem objExtras_rel {sub sub' : Gen → M JVal} (g : ObjGen Gen)
    (hsub : ∀ g' ∈ children (.obj g), P (sub g') (sub' g')) (t : Int) (acc : ObjMap) :
    P (objExtras c sub g t acc) (objExtras c' sub' g t acc) := by
  unfold objExtras objBounds
  rw [hc.opts.objectMin, hc.opts.objectMax]
  refine Closed.ite (P := P) Iff.rfl (h.bind (genPatterns_rel h g hsub _ _) (fun _ => objFill_rel h g hsub _ _))
    (Closed.ite (P := P) Iff.rfl (h.pure _) ?_)
  cases ha : g.additional with
  | none =>
    exact h.bind (genFallback_rel h.toClosedS hc.toSameConfS (hsub _ (by simp [children])) _ _ _ _) (fun _ => objFill_rel h g hsub _ _)
  | some a =>
    exact h.bind (genNumbered_rel h.toClosedS _ (hsub _ (by simp [children, ha])) _ _ _ _) (fun _ => objFill_rel h g hsub _ _)

theorem objectGenerate_rel {sub sub' : Gen → M JVal} (g : ObjGen Gen)
    (hsub : ∀ g' ∈ children (.obj g), P (sub g') (sub' g')) :
    P (objectGenerate c sub g) (objectGenerate c' sub' g) := by
  unfold objectGenerate
  refine h.bind h.tick (fun _ => h.bind h.cutoff (fun b => Closed.ite (P := P) Iff.rfl ?_ ?_))
  · exact h.bind (h.note _) (fun _ => h.pure _)
  · refine h.bind (genKeys_rel h g hsub _ _ _) (fun acc => h.bind (funkKeys_rel h _) (fun ks => h.bind ?_ (fun t =>
      h.bind (stringChoiceMultiple_rel h _ _) (fun ch => h.bind (genKeys_rel h g hsub _ _ _) (fun acc' =>
        objExtras_rel h hc g hsub _ _)))))
    unfold objTarget objBounds
    rw [hc.opts.objectMin, hc.opts.objectMax]
    exact h.bind (randomInt_rel h.toClosedS _ _) (fun _ => h.bind h.minimize (fun _ => h.pure _))

/-- One `Generate` call is related to itself when the recursive calls are. -/
theorem genStep_rel (ha : SameAttempts c.o c'.o) {sub sub' : Gen → M JVal} (g : Gen)
    (hsub : ∀ g' ∈ children g, P (sub g') (sub' g'))
    (href : ∀ doc path, g = .ref doc path → P (refGenerate c sub doc path) (refGenerate c' sub' doc path)) :
    P (genStep c sub g) (genStep c' sub' g) := by
  cases g with
  | null => exact h.bind h.tick (fun _ => h.pure _)
  | const v => exact h.pure _
  | bool =>
    show P (randomBool c.w >>= _) (randomBool c'.w >>= _)
    unfold randomBool intn
    exact h.bind (h.bind (intnWith_rel h.toClosedS h.seeded _) (fun _ => h.pure _)) (fun _ => h.pure _)
  | enum vs => exact h.bind h.tick (fun _ => choice_rel h.toClosedS _)
  | num g => exact h.bind h.tick (fun _ => numberGenerate_rel h.toClosedS hc.toSameConfS _)
  | str g => exact stringGenerate_rel h hc g
  | arr g => exact arrayGenerate_rel h.toClosedS hc.toSameConfS ha g (fun g' hg' => hsub g' (arrUses_children g g' hg'))
  | obj g => exact objectGenerate_rel h hc g hsub
  | multi gs => exact multiGenerate_rel h.toClosedS gs hsub
  | comb gs => exact combGenerate_rel h.toClosedS gs hsub
  | constrained g cs =>
    refine h.bind (hsub g (by simp [children])) (fun v => h.bind h.cutoff (fun b => Closed.ite (P := P) Iff.rfl ?_ ?_))
    · exact h.bind (h.note _) (fun _ => h.pure _)
    · refine applyAll_rel h.toClosedS hc.toSameConfS ha g (hsub g (by simp [children])) cs (fun k hk g' hg' => hsub g' ?_) _
      simp only [children, List.mem_cons, List.mem_flatMap]
      exact Or.inr ⟨k, hk, hg'⟩
  | ref doc path => exact href doc path rfl
  | allOf g => exact hsub g (by simp [children])
  | nilGen => exact h.fail _

end
end Chaff
