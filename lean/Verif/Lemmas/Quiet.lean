import Verif.Lemmas.Walk
import Verif.Props.Array
import Verif.Props.Object
/-!
# Generation without diagnostics

`quiet sub` is `sub` restricted to calls that end without any diagnostic.  A generation that ends without a
diagnostic is also one in which every recursive call is quiet.
-/

namespace Chaff
open Comp

/-- The call, if no diagnostic is recorded at its end. -/
def quiet (sub : Gen → M JVal) (g : Gen) : M JVal := fun s =>
  match sub g s with
  | .ok v s' => if s'.diags = [] then .ok v s' else .oom
  | .panic e => .panic e
  | .oom => .oom

/-- A run of `m` that ends without diagnostics starts without any, and is also a run of `m'`. -/
def QuietRel {α : Type} (m m' : M α) : Prop :=
  ∀ s a s', m s = .ok a s' → s'.diags = [] → s.diags = [] ∧ m' s = .ok a s'

theorem QuietRel.bind {α β : Type} {m m' : M α} {f f' : α → M β} (hm : QuietRel m m')
    (hf : ∀ a, QuietRel (f a) (f' a)) : QuietRel (m >>= f) (m' >>= f') := by
  intro s b s' h hd
  obtain ⟨a, s1, h1, h2⟩ := bind_ok.1 h
  obtain ⟨hd1, h2⟩ := hf a s1 b s' h2 hd
  obtain ⟨hd0, h1⟩ := hm s a s1 h1 hd1
  exact ⟨hd0, bind_ok.2 ⟨a, s1, h1, h2⟩⟩

theorem quietRel_same {α : Type} {m : M α} (h : ∀ s a s', m s = .ok a s' → s'.diags = s.diags) : QuietRel m m :=
  fun s a s' hm hd => ⟨by rw [← h s a s' hm]; exact hd, hm⟩

theorem quietRel_fill (c : Ctx) (mn : Int) (k : Nat) (sb : String) :
    QuietRel (fillLoop c mn k sb) (fillLoop c mn k sb) := by
  induction k generalizing sb with
  | zero =>
    unfold fillLoop
    split
    · intro s a s' h; simp at h
    · exact quietRel_same (fun s a s' h => by simp at h; rw [h.2])
  | succ k ih =>
    unfold fillLoop
    split
    · refine QuietRel.bind ?_ (fun x => ih _)
      exact quietRel_same (fun s a s' h => by unfold drawAmbient at h; cases h; rfl)
    · exact quietRel_same (fun s a s' h => by simp at h; rw [h.2])

theorem quiet_closed (c : Ctx) : Closed c c QuietRel where
  pure a := quietRel_same (fun s a s' h => by simp at h; rw [h.2])
  bind := QuietRel.bind
  fail e := fun s a s' h => by simp at h
  tick := quietRel_same (fun s a s' h => by unfold tick at h; simp at h; rw [← h])
  note d := fun s a s' h hd => by
    unfold note at h
    simp at h
    rw [← h] at hd
    cases hd
  seeded := quietRel_same (fun s a s' h => by unfold drawSeeded at h; cases h; rfl)
  cutoff := quietRel_same (fun s a s' h => by unfold cutoff at h; cases h; rfl)
  minimize := quietRel_same (fun s a s' h => by unfold minimize at h; cases h; rfl)
  budget b := quietRel_same (fun s a s' h => by unfold budget at h; cases h; rfl)
  ambient := quietRel_same (fun s a s' h => by unfold drawAmbient at h; cases h; rfl)
  fill mn sb := quietRel_fill c mn _ sb

theorem quietRel_ref {c : Ctx} {sub sub' : Gen → M JVal} (hsub : ∀ g, QuietRel (sub g) (sub' g)) (doc path : String) :
    QuietRel (refGenerate c sub doc path) (refGenerate c sub' doc path) := by
  have h := (quiet_closed c)
  unfold refGenerate
  refine h.bind h.tick (fun _ => h.bind h.cutoff (fun b => Closed.ite (P := QuietRel) Iff.rfl
    (h.bind (h.note _) (fun _ => h.pure _)) ?_))
  cases c.env doc path with
  | none => exact h.bind (h.note _) (fun _ => h.pure _)
  | some target =>
    intro s
    show ∀ a s', refEnter c sub doc path target s = _ → _ → _ ∧ refEnter c sub' doc path target s = _
    unfold refEnter
    split
    · exact h.bind (h.note _) (fun _ => h.pure _) s
    · split
      · exact h.bind (h.note _) (fun _ => h.pure _) s
      · refine QuietRel.bind (m := pushRef doc path) ?_ (fun _ => QuietRel.bind (hsub target) (fun v => QuietRel.bind ?_ (fun _ => h.pure _))) s
        · exact quietRel_same (fun s a s' h => by unfold pushRef at h; simp at h; rw [← h])
        · refine quietRel_same (fun s a s' h => ?_)
          unfold popRef at h
          cases hr : s.refs with
          | nil => rw [hr] at h; cases h
          | cons x t => rw [hr] at h; cases h; rfl

theorem quietRel_step {c : Ctx} {sub sub' : Gen → M JVal} (hsub : ∀ g, QuietRel (sub g) (sub' g)) (g : Gen) :
    QuietRel (genStep c sub g) (genStep c sub' g) :=
  genStep_rel (quiet_closed c) (SameConf.refl c) (.of_eq rfl) g (fun g' _ => hsub g') (fun doc path _ => quietRel_ref hsub doc path)

/-- Diagnostics are never removed. -/
theorem quietRel_generate (c : Ctx) (n : Nat) (g : Gen) : QuietRel (generate c n g) (generate c n g) := by
  induction n generalizing g with
  | zero => intro s a s' h; unfold generate at h; simp at h
  | succ n ih => exact quietRel_step ih g

theorem quietRel_quiet {sub : Gen → M JVal} (h : ∀ g, QuietRel (sub g) (sub g)) (g : Gen) :
    QuietRel (sub g) (quiet sub g) := by
  intro s a s' hs hd
  refine ⟨(h g s a s' hs hd).1, ?_⟩
  unfold quiet
  rw [hs]
  simp [hd]

/-- A generation without diagnostics is one with quiet recursive calls. -/
theorem generate_quiet {c : Ctx} {n : Nat} {g : Gen} {s s' : GSt} {v : JVal} (h : generate c n g s = .ok v s')
    (hd : s'.diags = []) : ∃ k, n = k + 1 ∧ s.diags = [] ∧ genStep c (quiet (generate c k)) g s = .ok v s' := by
  cases n with
  | zero => unfold generate at h; simp at h
  | succ k =>
    have := quietRel_step (c := c) (quietRel_quiet (quietRel_generate c k)) g s v s' h hd
    exact ⟨k, rfl, this.1, this.2⟩

theorem quiet_ok {sub : Gen → M JVal} {g : Gen} {s s' : GSt} {v : JVal} (h : quiet sub g s = .ok v s') :
    sub g s = .ok v s' ∧ s'.diags = [] := by
  unfold quiet at h
  cases hs : sub g s with
  | panic e => rw [hs] at h; cases h
  | oom => rw [hs] at h; cases h
  | ok a s1 =>
    rw [hs] at h
    simp only at h
    split at h
    · rename_i hd
      cases h
      exact ⟨rfl, hd⟩
    · cases h

/-! ## Unique items -/

section
variable {c : Ctx} {sub : Gen → M JVal}

/-- No item equals an earlier one. -/
def AllFresh (l : List JVal) : Prop := l.Pairwise (fun x y => x.jeq y = false)

theorem uniqueLoop_some {gen : Gen} {acc : List JVal} {k : Nat} {s s' : GSt} {item : JVal}
    (h : uniqueLoop sub gen acc k s = .ok (some item) s') :
    (∀ x ∈ acc, x.jeq item = false) ∧ Produced sub gen item := by
  induction k generalizing s with
  | zero => unfold uniqueLoop at h; simp at h
  | succ k ih =>
    unfold uniqueLoop at h
    obtain ⟨x, s2, h2, h⟩ := bind_ok.1 h
    split at h
    · exact ih h
    · rename_i hn
      simp at h
      obtain ⟨rfl, rfl⟩ := h
      refine ⟨fun y hy => ?_, ⟨s, s2, h2⟩⟩
      cases hj : y.jeq x with
      | false => rfl
      | true => exact absurd (List.any_eq_true.2 ⟨y, hy, hj⟩) hn

theorem genUnique_quiet {gen : Gen} {acc : List JVal} {s s' : GSt}
    {r : JVal × Bool} (h : genUnique c sub true gen acc s = .ok r s') (hd : s'.diags = []) :
    r.2 = true ∧ (∀ x ∈ acc, x.jeq r.1 = false) ∧ Produced sub gen r.1 := by
  unfold genUnique at h
  simp only [Bool.true_eq_false, if_false] at h
  obtain ⟨o, s1, h1, h⟩ := bind_ok.1 h
  cases o with
  | none =>
    simp only at h
    obtain ⟨_, s2, h2, h⟩ := bind_ok.1 h
    simp at h
    unfold note at h2
    simp at h2
    rw [← h.2, ← h2] at hd
    cases hd
  | some item =>
    simp at h
    obtain ⟨rfl, rfl⟩ := h
    exact ⟨rfl, uniqueLoop_some h1⟩

/-- A step of a loop that appends: the item is fresh and comes from the generator. -/
structure Appends (sub : Gen → M JVal) (gen : Gen) (acc acc' : List JVal) : Prop where
  ext : ∃ l, acc' = acc ++ l ∧ ∀ x ∈ l, Produced sub gen x
  fresh : AllFresh acc → AllFresh acc'

theorem allFresh_snoc {acc : List JVal} {x : JVal} (h : AllFresh acc) (hx : ∀ y ∈ acc, y.jeq x = false) :
    AllFresh (acc ++ [x]) := by
  unfold AllFresh at *
  rw [List.pairwise_append]
  refine ⟨h, List.pairwise_singleton _ _, fun a ha b hb => ?_⟩
  rw [List.mem_singleton] at hb
  subst hb
  exact hx a ha

theorem Appends.refl (gen : Gen) (acc : List JVal) : Appends sub gen acc acc := ⟨⟨[], by simp, by simp⟩, id⟩

theorem Appends.cons {gen : Gen} {acc acc' : List JVal} {x : JVal} (hx : ∀ y ∈ acc, y.jeq x = false)
    (hp : Produced sub gen x) (h : Appends sub gen (acc ++ [x]) acc') : Appends sub gen acc acc' := by
  obtain ⟨l, rfl, hl⟩ := h.ext
  refine ⟨⟨x :: l, by simp, ?_⟩, fun hf => h.fresh (allFresh_snoc hf hx)⟩
  intro y hy
  rcases List.mem_cons.1 hy with rfl | hy
  · exact hp
  · exact hl y hy

theorem containsLoop_quiet (hq : ∀ g, QuietRel (sub g) (sub g)) {gen : Gen} {mc : Int} (k : Nat) {i : Int}
    {acc acc' : List JVal} {s s' : GSt} (h : containsLoop c sub true gen mc k i acc s = .ok acc' s')
    (hd : s'.diags = []) : Appends sub gen acc acc' := by
  induction k generalizing i acc s with
  | zero => unfold containsLoop at h; simp at h; rw [h.1]; exact Appends.refl gen acc'
  | succ k ih =>
    have hrel : ∀ acc i, QuietRel (containsLoop c sub true gen mc k i acc) (containsLoop c sub true gen mc k i acc) :=
      fun acc i => containsLoop_rel (quiet_closed c).toClosedS (SameConfS.mk (.of_eq rfl) rfl rfl) (.of_eq rfl) true gen (hq gen) mc k i acc
    unfold containsLoop at h
    obtain ⟨r, s1, h1, h⟩ := bind_ok.1 h
    split at h
    · rename_i hr
      simp at h
      obtain ⟨rfl, rfl⟩ := h
      have := (genUnique_quiet h1 hd).1
      rw [this] at hr
      cases hr.1
    · obtain ⟨hd1, _⟩ := hrel _ _ _ _ _ h hd
      obtain ⟨_, h2, h3⟩ := genUnique_quiet h1 hd1
      exact Appends.cons h2 h3 (ih h)

theorem itemsLoop_mono (hq : ∀ g, QuietRel (sub g) (sub g)) {gen : Gen} {u : Bool} {a b : Int} (k : Nat) {i : Int}
    {acc acc' : List JVal} {s s' : GSt} (h : itemsLoop c sub u gen a b k i acc s = .ok acc' s')
    (hd : s'.diags = []) : s.diags = [] := by
  induction k generalizing i acc s with
  | zero =>
    unfold itemsLoop at h
    split at h
    · simp at h
    · simp at h; rw [h.2]; exact hd
  | succ k ih =>
    unfold itemsLoop at h
    split at h
    · obtain ⟨r, s1, h1, h⟩ := bind_ok.1 h
      have hu := genUnique_rel (quiet_closed c).toClosedS (SameConfS.mk (.of_eq rfl) rfl rfl) (.of_eq rfl) u gen (hq gen) acc
      refine (hu _ _ _ h1 ?_).1
      split at h
      · simp at h; rw [h.2]; exact hd
      · exact ih h
    · simp at h; rw [h.2]; exact hd

theorem itemsLoop_quiet (hq : ∀ g, QuietRel (sub g) (sub g)) {gen : Gen} {a b : Int} (k : Nat) {i : Int}
    {acc acc' : List JVal} {s s' : GSt} (h : itemsLoop c sub true gen a b k i acc s = .ok acc' s')
    (hd : s'.diags = []) : Appends sub gen acc acc' := by
  induction k generalizing i acc s with
  | zero =>
    unfold itemsLoop at h
    split at h
    · simp at h
    · simp at h; rw [h.1]; exact Appends.refl gen acc'
  | succ k ih =>
    unfold itemsLoop at h
    split at h
    · obtain ⟨r, s1, h1, h⟩ := bind_ok.1 h
      split at h
      · rename_i hr
        simp at h
        obtain ⟨rfl, rfl⟩ := h
        have := (genUnique_quiet h1 hd).1
        rw [this] at hr
        cases hr.1
      · have hrel := itemsLoop_mono hq k h hd
        obtain ⟨_, h2, h3⟩ := genUnique_quiet h1 hrel
        exact Appends.cons h2 h3 (ih h)
    · simp at h; rw [h.1]; exact Appends.refl gen acc'

/-- A generated array in a run without diagnostics: everything of `ArrayOK`, and with unique items every item after
the tuple comes from its generator and differs from all earlier ones. -/
structure QuietArray (c : Ctx) (sub : Gen → M JVal) (g : ArrGen Gen) (tup cont rest : List JVal) : Prop
    extends ArrayOK c sub g tup cont rest where
  uniqueContains : g.unique = true → ∀ x ∈ cont, ∃ cg, g.contains = some cg ∧ Produced sub cg x
  uniqueItems : g.unique = true → ∀ x ∈ rest, Produced sub (itemGenOf g) x
  allFresh : g.unique = true → g.tuple = [] → AllFresh (tup ++ cont ++ rest)

theorem arrayGenerate_quiet (hq : ∀ g, QuietRel (sub g) (sub g)) {g : ArrGen Gen} {s s' : GSt} {v : JVal}
    (h : arrayGenerate c sub g s = .ok v s') (hdi : s'.diags = []) :
    ∃ tup cont rest, v = .arr (tup ++ cont ++ rest) ∧ QuietArray c sub g tup cont rest := by
  rcases arrayGenerate_post g s v s' h with hnull | ⟨_, tup, cont, rest, rfl, hok⟩
  · exfalso
    unfold arrayGenerate at h
    obtain ⟨_, s1, h1, h⟩ := bind_ok.1 h
    simp [tick] at h1
    subst h1
    obtain ⟨b, s2, h2, h⟩ := bind_ok.1 h
    simp [cutoff] at h2
    obtain ⟨hb, rfl⟩ := h2
    rw [hnull.2] at hb
    subst hb
    rw [if_pos rfl] at h
    obtain ⟨_, s3, h3, h⟩ := bind_ok.1 h
    simp at h
    unfold note at h3
    simp at h3
    rw [← h.2, ← h3] at hdi
    cases hdi
  · refine ⟨tup, cont, rest, rfl, ?_⟩
    cases hu : g.unique with
    | false =>
      exact { toArrayOK := hok, uniqueContains := by simp [hu], uniqueItems := by simp [hu], allFresh := by simp [hu] }
    | true =>
      cases hd : g.disallowAdditional with
      | true =>
        obtain ⟨rfl, rfl⟩ := hok.closed hd
        refine { toArrayOK := hok, uniqueContains := by simp, uniqueItems := by simp, allFresh := ?_ }
        intro _ ht
        have := hok.tuple
        rw [ht] at this
        cases this
        exact List.Pairwise.nil
      | false =>
        unfold arrayGenerate at h
        obtain ⟨_, s1, h1, h⟩ := bind_ok.1 h
        obtain ⟨b, s2, h2, h⟩ := bind_ok.1 h
        cases b with
        | true =>
          rw [if_pos rfl] at h
          obtain ⟨_, s3, h3, h⟩ := bind_ok.1 h
          simp at h
        | false =>
          rw [if_neg (by simp)] at h
          obtain ⟨tup', s3, h3, h⟩ := bind_ok.1 h
          rw [hd, if_neg (by simp)] at h
          obtain ⟨acc, s4, h4, h⟩ := bind_ok.1 h
          obtain ⟨target, s5, h5, h⟩ := bind_ok.1 h
          obtain ⟨r, s6, h6, h⟩ := bind_ok.1 h
          simp at h
          obtain ⟨hr, rfl⟩ := h
          have p3 := genTuple_post _ _ tup' s3 h3
          have hl : tup'.length = tup.length := by rw [← p3.length_eq, ← hok.tuple.length_eq]
          obtain ⟨cont', rfl, hcl, _, _⟩ := containsStage_post g tup' _ acc s4 h4
          unfold itemsStage at h6
          rw [hu] at h6
          have hA := itemsLoop_quiet hq _ h6 hdi
          have hd5 := itemsLoop_mono hq _ h6 hdi
          obtain ⟨rest', rfl, hrest⟩ := hA.ext
          have he : tup' ++ (cont' ++ rest') = tup ++ (cont ++ rest) := by
            simpa only [List.append_assoc] using hr
          clear hr
          obtain ⟨rfl, he2⟩ := List.append_inj he hl
          clear he
          obtain ⟨rfl, rfl⟩ := List.append_inj he2 (by rw [hok.contains_len hd]; exact_mod_cast hcl)
          have hd4 : s4.diags = [] := by
            unfold itemsTarget at h5
            have hrel := (quiet_closed c).toClosedS.bind (randomInt_rel (quiet_closed c).toClosedS 0 (maxInt 0 ((arrBounds c g).2 - (goLen g.tuple + g.minContains))))
              (fun k => (quiet_closed c).toClosedS.bind (quiet_closed c).minimize (fun m => (quiet_closed c).toClosedS.pure (if g.disallowUnevaluated || m then 0 else k)))
            exact (hrel _ _ _ h5 hd5).1
          have hC : ∀ x ∈ cont', ∃ cg, g.contains = some cg ∧ Produced sub cg x := by
            unfold containsStage at h4
            cases hcg : g.contains with
            | none =>
              rw [hcg] at h4
              simp at h4
              rw [h4.1]
              simp
            | some cg =>
              rw [hcg, hu] at h4
              obtain ⟨l, hl, hp⟩ := (containsLoop_quiet hq _ h4 hd4).ext
              rw [List.append_cancel_left hl]
              exact fun x hx => ⟨cg, rfl, hp x hx⟩
          refine { toArrayOK := hok, uniqueContains := fun _ => hC, uniqueItems := fun _ => hrest, allFresh := ?_ }
          intro _ ht
          refine hA.fresh ?_
          unfold containsStage at h4
          have htup : tup' = [] := by
            have := hok.tuple
            rw [ht] at this
            cases this
            rfl
          cases hcg : g.contains with
          | none =>
            rw [hcg] at h4
            simp at h4
            rw [h4.1, htup]
            exact List.Pairwise.nil
          | some cg =>
            rw [hcg, hu] at h4
            refine (containsLoop_quiet hq _ h4 hd4).fresh ?_
            rw [htup]
            exact List.Pairwise.nil

end
end Chaff
