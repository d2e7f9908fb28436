import Verif.Props.ValidNot
import Verif.Props.Reach
/-!
# C75: values beside a negation

Every value of the schema of `Verif/Props/ValidNot.lean` that the negations do not name comes out.
-/

namespace Chaff
open Comp

theorem num_not_same {a b : Rat} (h : a ≠ b) : ¬ SameJson (.num a) (.num b) := by
  intro hs
  have := hs.jeq (.num a)
  simp [JVal.jeq, h] at this

/-- Whether the schema parses without errors. -/
def loginParses : Bool :=
  match parseSchema rangeEnv 30 loginSchema with
  | .done (.ok (_, none) s) => s.errors.length = 0
  | _ => false

/-- Each allowed port comes out, together with each small identifier, although the code draws the ports 3 and 5, too,
and tries again: the hypotheses of C75 are met. -/
example (z i : Int) (h1 : 1 ≤ z) (h9 : z ≤ 9) (h3 : z ≠ 3) (h5 : z ≠ 5) (hi0 : 0 ≤ i) (hi10 : i ≤ 10) :
    ∃ g s, parseSchema rangeEnv 30 loginSchema = .done (.ok (g, none) s) ∧
      ∃ (seeded ambient : Nat → Nat) (gfuel : Nat) (v' : JVal) (st : GSt),
        rootGenerate { noteWorld with seeded := seeded, ambient := ambient } {} (refEnv s) gfuel g = .ok v' st ∧
        SameJson (.obj [("port", .num z), ("user", .obj [("id", .num i)])]) v' ∧ st.diags = [] := by
  have hp : loginParses = true := by decide +kernel
  unfold loginParses at hp
  split at hp
  · rename_i g s hparse
    refine ⟨g, s, hparse, ?_⟩
    have e1 : (100 : Int) ≤ (withGeneratorOptionsDefaults {}).maximumGenerationSteps := by decide
    have e2 : (100 : Int) ≤ (withGeneratorOptionsDefaults {}).cutoffGenerationSteps := by decide
    have hs : (JVal.obj [("port", .num z), ("user", .obj [("id", .num i)])]).steps = 4 := rfl
    refine C75_attainable_values_are_generated_partial rangeEnv 30 loginSchema loginRoot login_decodes noteWorld {} rfl
      (fun d ts m hm => login_ok _ hm) g s hparse (by simpa using hp) 1 _ ?_ (.inr (by rw [hs]; omega)) (.inr (by rw [hs]; omega))
    refine .object loginRoot _ ⟨⟨rfl, rfl, rfl, rfl, rfl, rfl⟩, rfl, rfl, _, rfl, .inl ⟨rfl, rfl⟩⟩ (by decide) (by simp [keysKV]) (by decide)
      (show ∀ a ∈ loginRoot.required.getD [], a ∈ ["port", "user"] by decide)
      (show ∀ a ∈ ["port", "user"], a ∈ keysKV (loginRoot.properties.getD []) by decide)
      (show InReach 0 10 2 2 from ⟨by decide, by decide, by decide⟩) ?_
    rintro p a x sub ⟨⟩ hx hl
    simp only [List.mem_cons, Prod.mk.injEq, List.mem_nil_iff, or_false] at hx
    rcases hx with ⟨rfl, rfl⟩ | ⟨rfl, rfl⟩
    · cases hl
      refine .excluded loginPort _ _ rfl rfl rfl rfl rfl (.num _) ⟨?_, nofun, nofun⟩ (by decide) ?_
      · rintro w (⟨l, ⟨⟩, hw⟩ | h)
        · simp only [List.mem_cons, List.mem_nil_iff, or_false] at hw
          rcases hw with rfl | rfl
          · exact num_not_same (by exact_mod_cast h3)
          · exact num_not_same (by exact_mod_cast h5)
        · cases h
      · refine .integer _ z ⟨⟨rfl, rfl, rfl, rfl, rfl, rfl⟩, rfl, rfl, _, rfl, .inl ⟨rfl, rfl⟩⟩ ?_
        refine ⟨⟨?_, ?_, fun x hx => (by cases hx), fun x hx => (by cases hx), fun x hx => (by cases hx)⟩, rfl, ⟨?_, ?_, fun x hx => (by cases hx),
          fun x hx => (by cases hx), fun x hx => (by cases hx)⟩, fun x hx => (by cases hx), fun x hx => (by cases hx), fun h => ?_, fun h => ?_⟩
        · rintro x ⟨⟩; exact_mod_cast h1
        · rintro x ⟨⟩; exact_mod_cast h9
        · rintro x ⟨⟩; norm_num
        · rintro x ⟨⟩; norm_num
        · exact (h 9 (.inl rfl)).elim
        · exact (h 1 (.inl rfl)).elim
    · cases hl
      refine .excluded loginUser _ _ rfl rfl rfl rfl rfl ?_ ⟨?_, nofun, ?_⟩ (by decide) ?_
      · refine .obj _ (by simp) fun q hq => ?_
        rw [List.mem_singleton.1 hq]
        exact .num _
      · rintro w (⟨l, h, _⟩ | h) <;> cases h
      · rintro k m hk _ ⟨⟩ hm
        have hk : k = "root" := by simpa using hk
        have hm : k = "id" := by simpa [keysKV] using hm
        exact absurd (hk.symm.trans hm) (by decide)
      · refine .object _ _ ⟨⟨rfl, rfl, rfl, rfl, rfl, rfl⟩, rfl, rfl, _, rfl, .inl ⟨rfl, rfl⟩⟩ (by decide) (by simp [keysKV]) (by decide)
          (show ∀ a ∈ ["id"], a ∈ ["id"] by decide) (show ∀ a ∈ ["id"], a ∈ ["id"] by decide)
          (show InReach 0 10 1 1 from ⟨by decide, by decide, by decide⟩) ?_
        intro p a x sub hp hx hl
        have hp : p = [("id", loginId)] := (Option.some.inj hp).symm
        subst hp
        simp only [List.mem_cons, Prod.mk.injEq, List.mem_nil_iff, or_false] at hx
        obtain ⟨rfl, rfl⟩ := hx
        cases hl
        refine .integer _ i ⟨⟨rfl, rfl, rfl, rfl, rfl, rfl⟩, rfl, rfl, _, rfl, .inl ⟨rfl, rfl⟩⟩ ?_
        refine ⟨⟨fun x hx => (by cases hx), fun x hx => (by cases hx), fun x hx => (by cases hx), fun x hx => (by cases hx), fun x hx => (by cases hx)⟩, rfl,
          ⟨fun x hx => (by cases hx), fun x hx => (by cases hx), fun x hx => (by cases hx), fun x hx => (by cases hx), fun x hx => (by cases hx)⟩,
          fun x hx => (by cases hx), fun x hx => (by cases hx), fun h => .inr ⟨fun x hx => ?_, hi10⟩, fun h => .inr ⟨fun x hx => ?_, hi0⟩⟩
        · rcases hx with h | h <;> cases h
        · rcases hx with h | h <;> cases h
  · cases hp

end Chaff
