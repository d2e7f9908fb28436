import Verif.Model.Gen
/-!
# Basic lemmas about computations
-/

namespace Chaff
namespace Comp
variable {σ α β : Type}

theorem bind_def (m : Comp σ α) (f : α → Comp σ β) : (m >>= f) = andThen m f := rfl
theorem pure_def (a : α) : (pure a : Comp σ α) = ret a := rfl

@[simp] theorem pure_apply (a : α) (s : σ) : (pure a : Comp σ α) s = .ok a s := rfl
theorem bind_apply (m : Comp σ α) (f : α → Comp σ β) (s : σ) :
    (m >>= f) s = match m s with | .ok a s' => f a s' | .panic e => .panic e | .oom => .oom := rfl
@[simp] theorem fail_apply (e : String) (s : σ) : (fail e : Comp σ α) s = .panic e := rfl
@[simp] theorem oom_apply (s : σ) : (outOfFuel : Comp σ α) s = .oom := rfl
@[simp] theorem modS_apply (f : σ → σ) (s : σ) : modS f s = .ok () (f s) := rfl
@[simp] theorem getS_apply (s : σ) : getS s = .ok s s := rfl

/-- Inversion of a successful sequence. -/
theorem bind_ok {m : Comp σ α} {f : α → Comp σ β} {s : σ} {b : β} {s'' : σ} :
    (m >>= f) s = .ok b s'' ↔ ∃ a s', m s = .ok a s' ∧ f a s' = .ok b s'' := by
  rw [bind_apply]
  cases h : m s with
  | ok a s' =>
    constructor
    · intro h'; exact ⟨a, s', rfl, h'⟩
    · rintro ⟨a', s1, h1, h2⟩
      cases h1; exact h2
  | panic e => simp
  | oom => simp

theorem bind_panic {m : Comp σ α} {f : α → Comp σ β} {s : σ} {e : String} :
    (m >>= f) s = .panic e ↔ m s = .panic e ∨ ∃ a s', m s = .ok a s' ∧ f a s' = .panic e := by
  rw [bind_apply]
  cases h : m s with
  | ok a s' =>
    constructor
    · intro h'; exact Or.inr ⟨a, s', rfl, h'⟩
    · rintro (h1 | ⟨a', s1, h1, h2⟩)
      · cases h1
      · cases h1; exact h2
  | panic e' => simp
  | oom => simp

theorem bind_oom {m : Comp σ α} {f : α → Comp σ β} {s : σ} :
    (m >>= f) s = .oom ↔ m s = .oom ∨ ∃ a s', m s = .ok a s' ∧ f a s' = .oom := by
  rw [bind_apply]
  cases h : m s with
  | ok a s' =>
    constructor
    · intro h'; exact Or.inr ⟨a, s', rfl, h'⟩
    · rintro (h1 | ⟨a', s1, h1, h2⟩)
      · cases h1
      · cases h1; exact h2
  | panic e' => simp
  | oom => simp

theorem pure_ok {a b : α} {s s' : σ} : (pure a : Comp σ α) s = .ok b s' ↔ a = b ∧ s = s' := by
  simp

/-- Partial correctness: every successful result satisfies the postcondition. -/
def Post (m : Comp σ α) (s : σ) (Q : α → σ → Prop) : Prop := ∀ a s', m s = .ok a s' → Q a s'

theorem Post.pure {a : α} {s : σ} {Q : α → σ → Prop} (h : Q a s) : Post (pure a) s Q := by
  intro b s' hb; simp at hb; obtain ⟨rfl, rfl⟩ := hb; exact h

theorem Post.bind {m : Comp σ α} {f : α → Comp σ β} {s : σ} {Q : β → σ → Prop}
    (h : ∀ a s', m s = .ok a s' → Post (f a) s' Q) : Post (m >>= f) s Q := by
  intro b s'' hb
  obtain ⟨a, s', h1, h2⟩ := bind_ok.1 hb
  exact h a s' h1 b s'' h2

theorem Post.mono {m : Comp σ α} {s : σ} {Q Q' : α → σ → Prop} (h : Post m s Q)
    (hq : ∀ a s', Q a s' → Q' a s') : Post m s Q' := fun a s' e => hq a s' (h a s' e)

theorem Post.fail {e : String} {s : σ} {Q : α → σ → Prop} : Post (fail e) s Q := by
  intro a s' h; simp at h

theorem Post.outOfFuel {s : σ} {Q : α → σ → Prop} : Post (outOfFuel) s Q := by
  intro a s' h; simp at h

theorem Post.trivial {m : Comp σ α} {s : σ} : Post m s (fun _ _ => True) := fun _ _ _ => True.intro

/-- The computation never panics. -/
def NoPanic (m : Comp σ α) : Prop := ∀ s e, m s ≠ .panic e

theorem NoPanic.pure {a : α} : NoPanic (pure a : Comp σ α) := by intro s e; simp

theorem NoPanic.bind {m : Comp σ α} {f : α → Comp σ β} (hm : NoPanic m) (hf : ∀ a, NoPanic (f a)) :
    NoPanic (m >>= f) := by
  intro s e h
  rcases bind_panic.1 h with h | ⟨a, s', _, h⟩
  · exact hm s e h
  · exact hf a s' e h

/-- Sequencing where the continuation only needs to be panic-free on possible results. -/
theorem NoPanic.bindPost {m : Comp σ α} {f : α → Comp σ β} (Q : α → Prop) (hm : NoPanic m)
    (hq : ∀ s, Post m s (fun a _ => Q a)) (hf : ∀ a, Q a → NoPanic (f a)) : NoPanic (m >>= f) := by
  intro s e h
  rcases bind_panic.1 h with h | ⟨a, s', h1, h⟩
  · exact hm s e h
  · exact hf a (hq s a s' h1) s' e h

end Comp
end Chaff
