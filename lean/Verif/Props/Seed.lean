import Verif.Lemmas.Walk
import Verif.Props.Array
/-!
# C32: what a seed determines
-/

namespace Chaff
open Comp

/-- Generators that contain no string, pattern, format or object.  An array with `uniqueItems` and no item schema
falls back to strings and is excluded through its item generator. -/
inductive SeedOnly : Gen → Prop
  | null : SeedOnly .null
  | const (v) : SeedOnly (.const v)
  | bool : SeedOnly .bool
  | enum (vs) : SeedOnly (.enum vs)
  | num (g) : SeedOnly (.num g)
  | ref (d p) : SeedOnly (.ref d p)
  | arr (g : ArrGen Gen) : (∀ t ∈ g.tuple, SeedOnly t) → (∀ k ∈ g.contains, SeedOnly k) → SeedOnly (itemGenOf g) →
      SeedOnly (.arr g)
  | multi (gs) : (∀ g ∈ gs, SeedOnly g) → SeedOnly (.multi gs)
  | comb (gs) : (∀ g ∈ gs, SeedOnly g) → SeedOnly (.comb gs)
  | constrained (g cs) : SeedOnly g → (∀ k ∈ cs, ∀ g' ∈ constrChildren k, SeedOnly g') → SeedOnly (.constrained g cs)
  | allOf (g) : SeedOnly g → SeedOnly (.allOf g)

/-- States that agree except for the position in the global random stream. -/
def SeedEq (s t : GSt) : Prop :=
  s.complexity = t.complexity ∧ s.refs = t.refs ∧ s.spos = t.spos ∧ s.diags = t.diags

/-- Outcomes that agree except for the position in the global random stream. -/
def SeedRes {α : Type} : Res GSt α → Res GSt α → Prop
  | .ok a s, .ok b t => a = b ∧ SeedEq s t
  | .panic e, .panic f => e = f
  | .oom, .oom => True
  | _, _ => False

/-- Two computations agree from all states that agree. -/
def SeedAgree {α : Type} (m m' : M α) : Prop := ∀ s t, SeedEq s t → SeedRes (m s) (m' t)

theorem SeedAgree.bind {α β : Type} {m m' : M α} {f f' : α → M β} (hm : SeedAgree m m')
    (hf : ∀ a, SeedAgree (f a) (f' a)) : SeedAgree (m >>= f) (m' >>= f') := by
  intro s t hst
  have h := hm s t hst
  rw [bind_apply, bind_apply]
  cases h1 : m s <;> cases h2 : m' t <;> rw [h1, h2] at h <;> simp only [SeedRes] at h ⊢
  · obtain ⟨rfl, h⟩ := h
    exact hf _ _ _ h
  · exact h

theorem seedAgree_closed {c c' : Ctx} (hs : c.w.seeded = c'.w.seeded) (hc : SameConfS c c') (ho : c.o = c'.o) :
    ClosedS c c' SeedAgree where
  pure a := fun s t h => ⟨rfl, h⟩
  bind := SeedAgree.bind
  fail e := fun s t h => rfl
  tick := fun s t h => ⟨rfl, by obtain ⟨h1, h2, h3, h4⟩ := h; exact ⟨by simp [h1], h2, h3, h4⟩⟩
  note d := fun s t h => ⟨rfl, by obtain ⟨h1, h2, h3, h4⟩ := h; exact ⟨h1, h2, h3, by simp [h4]⟩⟩
  seeded := fun s t h => by
    obtain ⟨h1, h2, h3, h4⟩ := h
    exact ⟨by rw [hs, h3], h1, h2, by simp [h3], h4⟩
  cutoff := fun s t h => ⟨by rw [ho, h.1], h⟩
  minimize := fun s t h => ⟨by rw [ho, h.1], h⟩
  budget b := fun s t h => ⟨by rw [ho, hc.fp, h.1], h⟩

theorem seedAgree_ref {c c' : Ctx} (hs : c.w.seeded = c'.w.seeded) (hc : SameConfS c c') (ho : c.o = c'.o) (he : c.env = c'.env)
    {sub sub' : Gen → M JVal} (doc path : String)
    (hsub : ∀ g, c.env doc path = some g → SeedAgree (sub g) (sub' g)) :
    SeedAgree (refGenerate c sub doc path) (refGenerate c' sub' doc path) := by
  have h := seedAgree_closed hs hc ho
  unfold refGenerate
  refine h.bind h.tick (fun _ => h.bind h.cutoff (fun b => Closed.ite (P := SeedAgree) Iff.rfl
    (h.bind (h.note _) (fun _ => h.pure _)) ?_))
  rw [← he]
  cases hg : c.env doc path with
  | none => exact h.bind (h.note _) (fun _ => h.pure _)
  | some target =>
    have hsub' := hsub target hg
    intro s t hst
    show SeedRes (refEnter c sub doc path target s) (refEnter c' sub' doc path target t)
    unfold refEnter
    have hst' := hst
    obtain ⟨h1, h2, h3, h4⟩ := hst'
    rw [← ho, ← h2]
    by_cases hd : goLen s.refs > c.o.maximumReferenceDepth
    · rw [if_pos hd, if_pos hd]
      exact h.bind (h.note _) (fun _ => h.pure _) s t hst
    · rw [if_neg hd, if_neg hd]
      by_cases hcy : refKey doc path ∈ s.refs ∧ c.o.bypassCyclicReferenceCheck = false
      · rw [if_pos hcy, if_pos hcy]
        exact h.bind (h.note _) (fun _ => h.pure _) s t hst
      · rw [if_neg hcy, if_neg hcy]
        refine SeedAgree.bind (m := pushRef doc path) ?_ (fun _ => SeedAgree.bind hsub' (fun v => SeedAgree.bind ?_ (fun _ => h.pure _))) s t hst
        · intro s t hst
          obtain ⟨h1, h2, h3, h4⟩ := hst
          exact ⟨rfl, h1, by simp [h2], h3, h4⟩
        · intro s t hst
          obtain ⟨h1, h2, h3, h4⟩ := hst
          unfold popRef
          rw [← h2]
          cases s.refs with
          | nil => rfl
          | cons a r => exact ⟨rfl, h1, rfl, h3, h4⟩

theorem seedAgree_generate {c c' : Ctx} (hs : c.w.seeded = c'.w.seeded) (hc : SameConfS c c') (ho : c.o = c'.o) (he : c.env = c'.env)
    (htab : ∀ d p g, c.env d p = some g → SeedOnly g) (n : Nat) (g : Gen) (hg : SeedOnly g) :
    SeedAgree (generate c n g) (generate c' n g) := by
  induction n generalizing g with
  | zero => intro s t _; trivial
  | succ n ih =>
    have h := seedAgree_closed hs hc ho
    show SeedAgree (genStep c (generate c n) g) (genStep c' (generate c' n) g)
    cases hg with
    | null => exact h.bind h.tick (fun _ => h.pure _)
    | const v => exact h.pure _
    | bool =>
      show SeedAgree (randomBool c.w >>= _) (randomBool c'.w >>= _)
      unfold randomBool intn
      exact h.bind (h.bind (intnWith_rel h h.seeded _) (fun _ => h.pure _)) (fun _ => h.pure _)
    | enum vs => exact h.bind h.tick (fun _ => choice_rel h _)
    | num g => exact h.bind h.tick (fun _ => numberGenerate_rel h hc _)
    | ref d p => exact seedAgree_ref hs hc ho he d p (fun g hg => ih g (htab d p g hg))
    | arr g h1 h2 h3 =>
      refine arrayGenerate_rel h hc (.of_eq ho) g (fun g' hg' => ih g' ?_)
      simp only [arrUses, List.mem_append, List.mem_singleton, Option.mem_toList] at hg'
      rcases hg' with (hg' | hg') | rfl
      · exact h1 _ hg'
      · exact h2 _ hg'
      · exact h3
    | multi gs h1 => exact multiGenerate_rel h gs (fun g' hg' => ih g' (h1 g' hg'))
    | comb gs h1 => exact combGenerate_rel h gs (fun g' hg' => ih g' (h1 g' hg'))
    | constrained g cs h1 h2 =>
      refine h.bind (ih g h1) (fun v => h.bind h.cutoff (fun b => Closed.ite (P := SeedAgree) Iff.rfl ?_ ?_))
      · exact h.bind (h.note _) (fun _ => h.pure _)
      · exact applyAll_rel h hc (.of_eq ho) g (ih g h1) cs (fun k hk g' hg' => ih g' (h2 k hk g' hg')) _
    | allOf g h1 => exact ih g h1

/-- C32: for a generator without strings and objects, two runs with the same seed, options and references return the
same value (or fail in the same way), whatever the global random source, the fake sentences and the fake formats
are. -/
theorem C32_seed_reproducible (w w' : World) (hs : w.seeded = w'.seeded) (hfp : w.fp = w'.fp)
    (hpl : w.plat = w'.plat) (o : Opts) (env : String → String → Option Gen)
    (htab : ∀ d p g, env d p = some g → SeedOnly g) (g : Gen) (hg : SeedOnly g) (fuel : Nat) :
    match rootGenerate w o env fuel g, rootGenerate w' o env fuel g with
    | .ok v _, .ok v' _ => v = v'
    | .panic e, .panic e' => e = e'
    | .oom, .oom => True
    | _, _ => False := by
  have h := seedAgree_generate (c := ⟨w, withGeneratorOptionsDefaults o, env⟩)
    (c' := ⟨w', withGeneratorOptionsDefaults o, env⟩) hs ⟨.of_eq rfl, hfp, hpl⟩ rfl rfl htab fuel g hg {} {} ⟨rfl, rfl, rfl, rfl⟩
  unfold rootGenerate
  revert h
  cases generate ⟨w, withGeneratorOptionsDefaults o, env⟩ fuel g {} <;>
    cases generate ⟨w', withGeneratorOptionsDefaults o, env⟩ fuel g {} <;> simp only [SeedRes] <;> intro h
  · exact h.1
  all_goals exact h

/-- The hypotheses hold for an array of three enum values with a `contains` number, and the run succeeds. -/
example : SeedOnly (.arr { item := some (.enum [.bool true, .null]), contains := some .bool, minItems := 3, maxItems := 5 }) :=
  .arr _ (by simp) (by simp [SeedOnly.bool]) (.enum _)

example : arrLen (rootGenerate demoWorld {} (fun _ _ => none) 3
    (.arr { item := some (.enum [.bool true, .null]), contains := some .bool, minItems := 3, maxItems := 5 })) = some 3 := by
  decide +kernel

/-- The restriction is needed: an object with two optional properties of which one is chosen takes different shapes
under the same seed when the global source differs. -/
theorem C32_object_violation : ∃ w w' : World, w.seeded = w'.seeded ∧ w.fp = w'.fp ∧ w.plat = w'.plat ∧
    w.sentence = w'.sentence ∧ w.fakerFormat = w'.fakerFormat ∧ ∃ (g : Gen) (ks ks' : List String),
    keysOf (rootGenerate w {} (fun _ _ => none) 3 g) = some ks ∧
    keysOf (rootGenerate w' {} (fun _ _ => none) 3 g) = some ks' ∧ ks ≠ ks' := by
  refine ⟨demoWorld, { demoWorld with ambient := fun i => if i = 1 then 1 else 0 }, rfl, rfl, rfl, rfl, rfl,
    .obj { props := [("a", .null), ("b", .null)], minProps := 1, maxProps := 2, disallowAdditional := true }, ["a"], ["b"], ?_⟩
  refine ⟨?_, ?_, ?_⟩ <;> decide +kernel

end Chaff
