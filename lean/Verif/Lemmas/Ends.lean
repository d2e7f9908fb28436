import Verif.Lemmas.Weight
import Verif.Lemmas.Comp
/-!
# Computations that answer once they have enough fuel

`Ends I m Q`: from every state satisfying `I`, the runs of `m k` are all the same from some `k` on, are not "out of
fuel", and if they return, the result satisfies `Q` and the state satisfies `I` again.
-/

namespace Chaff
open Comp

/-- Runs with enough fuel all give the same answer. -/
def Ends {α : Type} (I : PSt → Prop) (m : Nat → P α) (Q : α → Prop) : Prop :=
  ∀ s, I s → ∃ r : Res PSt α, r ≠ .oom ∧ (∃ k0, ∀ k, k0 ≤ k → m k s = r) ∧ ∀ a s', r = .ok a s' → Q a ∧ I s'

section
variable {α β : Type} {I J : PSt → Prop} {m : Nat → P α} {Q R : α → Prop}

theorem Ends.mono (h : Ends I m Q) (hq : ∀ a, Q a → R a) : Ends I m R := by
  intro s hs
  obtain ⟨r, h0, h1, h2⟩ := h s hs
  exact ⟨r, h0, h1, fun a s' e => ⟨hq _ (h2 a s' e).1, (h2 a s' e).2⟩⟩

theorem Ends.congr {m' : Nat → P α} (h : Ends I m Q) (e : ∀ k, m' k = m k) : Ends I m' Q := by
  have : m' = m := funext e
  rw [this]; exact h

/-- A computation that uses no fuel. -/
theorem Ends.const {x : P α} (h : ∀ s, I s → x s ≠ .oom ∧ ∀ a s', x s = .ok a s' → Q a ∧ I s') :
    Ends I (fun _ => x) Q := by
  intro s hs
  exact ⟨x s, (h s hs).1, ⟨0, fun _ _ => rfl⟩, (h s hs).2⟩

theorem Ends.pure {a : α} (h : Q a) : Ends I (fun _ => (pure a : P α)) Q := by
  refine Ends.const fun s hs => ⟨by rw [pure_apply]; exact nofun, fun b s' e => ?_⟩
  rw [pure_apply] at e
  cases e
  exact ⟨h, hs⟩

theorem Ends.fail {e : String} : Ends I (fun _ => (Comp.fail e : P α)) Q :=
  Ends.const fun _ _ => ⟨nofun, fun _ _ e => by cases e⟩

theorem Ends.bind' {f : Nat → α → P β} {R : β → Prop} (hm : ∀ s, I s → ∃ r : Res PSt α, r ≠ .oom ∧ (∃ k0, ∀ k, k0 ≤ k → m k s = r) ∧
      ∀ a s', r = .ok a s' → ∃ r' : Res PSt β, r' ≠ .oom ∧ (∃ k0, ∀ k, k0 ≤ k → f k a s' = r') ∧
        ∀ b s'', r' = .ok b s'' → R b ∧ J s'') (s : PSt) (hs : I s) :
    ∃ r' : Res PSt β, r' ≠ .oom ∧ (∃ k0, ∀ k, k0 ≤ k → (m k >>= f k) s = r') ∧
        ∀ b s'', r' = .ok b s'' → R b ∧ J s'' := by
  obtain ⟨r, h0, ⟨k0, h1⟩, h2⟩ := hm s hs
  cases r with
  | oom => exact absurd rfl h0
  | panic e =>
    refine ⟨.panic e, nofun, ⟨k0, fun k hk => ?_⟩, nofun⟩
    rw [bind_apply, h1 k hk]
  | ok a s' =>
    obtain ⟨r', g0, ⟨k1, g1⟩, g2⟩ := h2 a s' rfl
    refine ⟨r', g0, ⟨max k0 k1, fun k hk => ?_⟩, g2⟩
    rw [bind_apply, h1 k (le_trans (le_max_left _ _) hk)]
    exact g1 k (le_trans (le_max_right _ _) hk)

theorem Ends.bind {f : Nat → α → P β} {R : β → Prop} (hm : Ends I m Q) (hf : ∀ a, Q a → Ends I (fun k => f k a) R) :
    Ends I (fun k => m k >>= f k) R := by
  refine Ends.bind' (m := m) fun s hs => ?_
  obtain ⟨r, h0, h1, h2⟩ := hm s hs
  exact ⟨r, h0, h1, fun a s' e => hf a (h2 a s' e).1 s' (h2 a s' e).2⟩

theorem Ends.ite {p : Prop} [Decidable p] {a b : Nat → P α} (ha : p → Ends I a Q) (hb : ¬ p → Ends I b Q) :
    Ends I (fun k => if p then a k else b k) Q := by
  by_cases h : p
  · exact (ha h).congr fun k => if_pos h
  · exact (hb h).congr fun k => if_neg h

/-- One more unit of fuel makes no difference. -/
theorem Ends.shift (h : Ends I (fun k => m (k + 1)) Q) : Ends I m Q := by
  intro s hs
  obtain ⟨r, h0, ⟨k0, h1⟩, h2⟩ := h s hs
  refine ⟨r, h0, ⟨k0 + 1, fun k hk => ?_⟩, h2⟩
  obtain ⟨j, rfl⟩ : ∃ j, k = j + 1 := ⟨k - 1, by omega⟩
  exact h1 j (by omega)

theorem Ends.reindex (h : Ends I m Q) (g : Nat → Nat) (hg : ∀ k, k ≤ g k) : Ends I (fun k => m (g k)) Q := by
  intro s hs
  obtain ⟨r, h0, ⟨k0, h1⟩, h2⟩ := h s hs
  exact ⟨r, h0, ⟨k0, fun k hk => h1 _ (le_trans hk (hg k))⟩, h2⟩

/-- A change of the state followed by a computation. -/
theorem Ends.modS {g : PSt → PSt} (h : ∀ s, I s → I (g s)) : Ends I (fun _ => (Comp.modS g : P Unit)) (fun _ => True) :=
  Ends.const fun s hs => ⟨nofun, fun a s' e => by cases e; exact ⟨trivial, h s hs⟩⟩

theorem Ends.gets {f : PSt → α} : Ends I (fun _ => Chaff.gets f) (fun _ => True) :=
  Ends.const fun s hs => ⟨nofun, fun a s' e => by cases e; exact ⟨trivial, hs⟩⟩

theorem Ends.getsP {f : PSt → α} (h : ∀ s, I s → Q (f s)) : Ends I (fun _ => Chaff.gets f) Q :=
  Ends.const fun s hs => ⟨nofun, fun a s' e => by cases e; exact ⟨h s hs, hs⟩⟩

end

/-! ## The state -/

/-- The parts of the state that references depend on. -/
structure SameRef (s s' : PSt) : Prop where
  docs : s'.docs = s.docs
  aliases : s'.aliases = s.aliases
  queue : s'.queue = s.queue
  parsing : s'.parsingId = s.parsingId
  resolving : s'.resolvingId = s.resolvingId
  res : s'.resolutions = s.resolutions
  http : s'.httpFetcher = s.httpFetcher
  file : s'.fileFetcher = s.fileFetcher

/-- The two measures of interest: the size `wt 1 w`, and the number of references that are not allowed. -/
def Measures (bad : String → Nat) (w : String → Nat) (e : Nat) (v : String → Nat) : Prop :=
  (e = 0 ∧ v = bad) ∨ (e = 1 ∧ v = w)

/-- Only allowed references: `bad` is zero on them. -/
abbrev Fine (bad : String → Nat) (n : SchemaNode) : Prop := wt 0 bad n = 0

/-- What the proof needs to know about references: `B` holds of the states of the parser; `bad` is zero
on the allowed references; following one of them gives a smaller schema in which all are allowed. -/
structure RefWorld (c : PEnv) (bad : String → Nat) (w : String → Nat) (B : PSt → Prop) : Prop where
  frame : ∀ s s', B s → SameRef s s' → B s'
  pop : ∀ s r t, B s → s.resolutions = r :: t → B { s with resolutions := t }
  leave : ∀ s, B s → B { s with resolvingId := (currentResolution s.resolutions).1 }
  push : ∀ ref s p s', B s → resolveIdAndPath c ref s = .ok (.ok p) s' →
    B { s' with resolutions := resKey p.1 p.2 :: s'.resolutions }
  locate : ∀ ref d, Ends (fun s => B s ∧ s.depth = d) (fun _ => resolveIdAndPath c ref) (fun _ => True)
  defer : ∀ ref d, bad ref = 0 → Ends (fun s => B s ∧ s.depth = d) (fun _ => handleDeferred c ref) (fun _ => True)
  follow : ∀ node ref d, node.ref = some ref → Fine bad node →
    Ends (fun s => B s ∧ s.depth = d) (fun k => mergeResolveNodeRef c k node)
      (fun p => Fine bad p.1 ∧ wt 1 w p.1 + (if p.2 then 1 else 0) ≤ wt 1 w node)

/-- The invariant at a depth. -/
def At (B : PSt → Prop) (d : Int) (s : PSt) : Prop := B s ∧ s.depth = d

section
variable {c : PEnv} {bad : String → Nat} {w : String → Nat} {B : PSt → Prop} {d : Int}

/-- A fuel-free change that leaves references and the depth alone. -/
theorem RefWorld.step (W : RefWorld c bad w B) {g : PSt → PSt} (h : ∀ s, SameRef s (g s)) (hd : ∀ s, (g s).depth = s.depth) :
    Ends (At B d) (fun _ => (Comp.modS g : P Unit)) (fun _ => True) :=
  Ends.modS fun s hs => ⟨W.frame _ _ hs.1 (h s), (hd s).trans hs.2⟩

theorem ends_addErrorSub (W : RefWorld c bad w B) (sub : String) (e : Err) :
    Ends (At B d) (fun _ => addErrorSub sub e) (fun _ => True) :=
  W.step (fun _ => ⟨rfl, rfl, rfl, rfl, rfl, rfl, rfl, rfl⟩) fun _ => rfl
theorem ends_addError (W : RefWorld c bad w B) (e : Err) : Ends (At B d) (fun _ => addError e) (fun _ => True) :=
  ends_addErrorSub W _ _
theorem ends_warnMerge (W : RefWorld c bad w B) (f : String) (e : Err) :
    Ends (At B d) (fun _ => warnMerge f e) (fun _ => True) := ends_addErrorSub W _ _
theorem ends_warnField (W : RefWorld c bad w B) (f : String) (e : Err) :
    Ends (At B d) (fun _ => warnField f e) (fun _ => True) := ends_addErrorSub W _ _
theorem ends_pushPath (W : RefWorld c bad w B) (p : String) : Ends (At B d) (fun _ => pushPath p) (fun _ => True) :=
  W.step (fun _ => ⟨rfl, rfl, rfl, rfl, rfl, rfl, rfl, rfl⟩) fun _ => rfl
theorem ends_popPath (W : RefWorld c bad w B) (p : String) : Ends (At B d) (fun _ => popPath p) (fun _ => True) := by
  refine Ends.const fun s hs => ?_
  rw [popPath]
  split
  · exact ⟨nofun, fun a s' e => by cases e; exact ⟨trivial, W.frame _ _ hs.1 ⟨rfl, rfl, rfl, rfl, rfl, rfl, rfl, rfl⟩, hs.2⟩⟩
  · exact ⟨nofun, nofun⟩
theorem ends_popRes (W : RefWorld c bad w B) : Ends (At B d) (fun _ => popRes) (fun _ => True) := by
  refine Ends.const fun s hs => ?_
  rw [popRes]
  split
  · exact ⟨nofun, nofun⟩
  · rename_i r t hr
    exact ⟨nofun, fun a s' e => by cases e; exact ⟨trivial, W.pop _ _ _ hs.1 hr, hs.2⟩⟩
theorem ends_up (W : RefWorld c bad w B) : ∀ s, At B d s → At B (d + 1) { s with depth := s.depth + 1 } :=
  fun s hs => ⟨W.frame _ _ hs.1 ⟨rfl, rfl, rfl, rfl, rfl, rfl, rfl, rfl⟩, by simp [hs.2]⟩
theorem ends_down (W : RefWorld c bad w B) : ∀ s, At B (d + 1) s → At B d { s with depth := s.depth - 1 } :=
  fun s hs => ⟨W.frame _ _ hs.1 ⟨rfl, rfl, rfl, rfl, rfl, rfl, rfl, rfl⟩, by simp [hs.2]⟩

/-- A computation one level deeper. -/
theorem Ends.deeper {α β : Type} (W : RefWorld c bad w B) {m : Nat → P α} {f : Nat → α → P β} {Q : α → Prop} {R : β → Prop}
    (hm : Ends (At B (d + 1)) m Q) (hf : ∀ a, Q a → Ends (At B d) (fun k => f k a) R) :
    Ends (At B d) (fun k => (do
      Comp.modS (fun s => { s with depth := s.depth + 1 })
      let a ← m k
      Comp.modS (fun s => { s with depth := s.depth - 1 })
      f k a : P β)) R := by
  refine Ends.bind' (J := At B d) (m := fun _ => Comp.modS fun s => { s with depth := s.depth + 1 }) fun s hs => ?_
  refine ⟨.ok () { s with depth := s.depth + 1 }, nofun, ⟨0, fun _ _ => rfl⟩, fun a s' e => ?_⟩
  cases e
  refine Ends.bind' (I := At B (d + 1)) (J := At B d) (m := m) (fun s hs => ?_) _ (ends_up W s hs)
  obtain ⟨r, h0, h1, h2⟩ := hm s hs
  refine ⟨r, h0, h1, fun a s' e => ?_⟩
  refine Ends.bind' (I := At B (d + 1)) (J := At B d) (m := fun _ => Comp.modS fun s => { s with depth := s.depth - 1 }) (fun s hs => ?_) _ (h2 a s' e).2
  refine ⟨.ok () { s with depth := s.depth - 1 }, nofun, ⟨0, fun _ _ => rfl⟩, fun b s'' e' => ?_⟩
  cases e'
  exact hf a (h2 a _ e).1 _ (ends_down W _ hs)

end

end Chaff
