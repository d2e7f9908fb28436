import Verif.Lemmas.Walk
/-!
# How the state evolves during generation
-/

set_option linter.unusedVariables false

namespace Chaff
open Comp

/-- The relation between the state before and after a generation step: same reference stack, counters and
diagnostics only grow. -/
structure Evol (s s' : GSt) : Prop where
  refs : s'.refs = s.refs
  complexity : s.complexity ≤ s'.complexity
  spos : s.spos ≤ s'.spos
  apos : s.apos ≤ s'.apos
  diags : s.diags <:+ s'.diags

theorem Evol.rfl' {s : GSt} : Evol s s := ⟨rfl, le_refl _, le_refl _, le_refl _, List.suffix_refl _⟩

theorem Evol.trans {s s' s'' : GSt} (h : Evol s s') (h' : Evol s' s'') : Evol s s'' :=
  ⟨h'.refs.trans h.refs, h.complexity.trans h'.complexity, h.spos.trans h'.spos, h.apos.trans h'.apos,
    h.diags.trans h'.diags⟩

/-- A computation whose successful runs only evolve the state. -/
def Evolves {α : Type} (m : M α) : Prop := ∀ s a s', m s = .ok a s' → Evol s s'

theorem Evolves.pure {α : Type} (a : α) : Evolves (pure a : M α) := by
  intro s b s' h; simp at h; obtain ⟨_, rfl⟩ := h; exact Evol.rfl'

theorem Evolves.bind {α β : Type} {m : M α} {f : α → M β} (hm : Evolves m) (hf : ∀ a, Evolves (f a)) :
    Evolves (m >>= f) := by
  intro s b s'' h
  obtain ⟨a, s', h1, h2⟩ := bind_ok.1 h
  exact (hm s a s' h1).trans (hf a s' b s'' h2)

theorem Evolves.fail {α : Type} (e : String) : Evolves (Comp.fail e : M α) := by
  intro s a s' h; simp at h

theorem Evolves.tick : Evolves tick := by
  intro s a s' h; simp [Chaff.tick] at h; subst h
  exact ⟨rfl, by simp, le_refl _, le_refl _, List.suffix_refl _⟩

theorem Evolves.note (d : Diag) : Evolves (note d) := by
  intro s a s' h; simp [Chaff.note] at h; subst h
  exact ⟨rfl, le_refl _, le_refl _, le_refl _, List.suffix_cons _ _⟩

theorem Evolves.seeded (w : World) : Evolves (drawSeeded w) := by
  intro s a s' h; simp [drawSeeded] at h; obtain ⟨_, rfl⟩ := h
  exact ⟨rfl, le_refl _, by simp, le_refl _, List.suffix_refl _⟩

theorem Evolves.ambient (w : World) : Evolves (drawAmbient w) := by
  intro s a s' h; simp [drawAmbient] at h; obtain ⟨_, rfl⟩ := h
  exact ⟨rfl, le_refl _, le_refl _, by simp, List.suffix_refl _⟩

theorem Evolves.read {α : Type} (f : GSt → α) : Evolves (fun s => .ok (f s) s : M α) := by
  intro s a s' h; simp at h; obtain ⟨_, rfl⟩ := h; exact Evol.rfl'

theorem Evolves.fill (c : Ctx) (mn : Int) (n : Nat) (sb : String) : Evolves (fillLoop c mn n sb) := by
  induction n generalizing sb with
  | zero =>
    unfold fillLoop
    split
    · intro s a s' h; simp at h
    · exact Evolves.pure _
  | succ n ih =>
    unfold fillLoop
    split
    · exact Evolves.bind (Evolves.ambient _) (fun _ => ih _)
    · exact Evolves.pure _

theorem evolves_closed (c c' : Ctx) : Closed c c' (fun m _ => Evolves m) where
  pure a := Evolves.pure a
  bind hm hf := Evolves.bind hm hf
  fail e := Evolves.fail e
  tick := Evolves.tick
  note d := Evolves.note d
  seeded := Evolves.seeded _
  ambient := Evolves.ambient _
  cutoff := Evolves.read _
  minimize := Evolves.read _
  budget b := Evolves.read _
  fill mn sb := Evolves.fill _ _ _ _

theorem refEnter_evolves (c : Ctx) (sub : Gen → M JVal)
    (hsub : ∀ g, Evolves (sub g)) (doc path : String) (target : Gen) : Evolves (refEnter c sub doc path target) := by
  intro s1 v s2 h
  unfold refEnter at h
  split at h
  · exact Evolves.bind (Evolves.note _) (fun _ => Evolves.pure _) _ _ _ h
  · split at h
    · exact Evolves.bind (Evolves.note _) (fun _ => Evolves.pure _) _ _ _ h
    · obtain ⟨_, s3, h3, h⟩ := bind_ok.1 h
      obtain ⟨v', s4, h4, h⟩ := bind_ok.1 h
      obtain ⟨_, s5, h5, h⟩ := bind_ok.1 h
      simp [pushRef] at h3
      have he := hsub target _ _ _ h4
      simp at h
      obtain ⟨rfl, rfl⟩ := h
      subst h3
      unfold popRef at h5
      have hr := he.refs
      simp only at hr
      rw [hr] at h5
      simp at h5
      subst h5
      exact ⟨rfl, he.complexity, he.spos, he.apos, he.diags⟩

theorem refGenerate_evolves (c : Ctx) (sub : Gen → M JVal)
    (hsub : ∀ g, Evolves (sub g)) (doc path : String) : Evolves (refGenerate c sub doc path) := by
  unfold refGenerate
  refine Evolves.bind Evolves.tick (fun _ => Evolves.bind (Evolves.read _) (fun b => ?_))
  split
  · exact Evolves.bind (Evolves.note _) (fun _ => Evolves.pure _)
  · split
    · exact Evolves.bind (Evolves.note _) (fun _ => Evolves.pure _)
    · rename_i target _
      exact refEnter_evolves c sub hsub doc path target

/-- Every `Generate` call only evolves the state. -/
theorem generate_evolves (c : Ctx) (n : Nat) (g : Gen) : Evolves (generate c n g) := by
  induction n generalizing g with
  | zero => intro s a s' h; simp [generate] at h
  | succ n ih =>
    exact genStep_rel (sub' := generate c n) (evolves_closed c c) (SameConf.refl c) (.of_eq rfl) g (fun g' _ => ih g')
      (fun doc path _ => refGenerate_evolves c _ ih doc path)

/-- As `Evolves`, for one step over arbitrary sub-generators. -/
theorem genStep_evolves (c : Ctx) (sub : Gen → M JVal) (hsub : ∀ g, Evolves (sub g)) (g : Gen) :
    Evolves (genStep c sub g) :=
  genStep_rel (sub' := sub) (evolves_closed c c) (SameConf.refl c) (.of_eq rfl) g (fun g' _ => hsub g')
      (fun doc path _ => refGenerate_evolves c _ hsub doc path)

end Chaff
