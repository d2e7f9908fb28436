import Verif.Lemmas.Comp
import Mathlib.Data.List.Perm.Basic
import Mathlib.Tactic.Linarith
/-!
# What the random helpers can return, and when they do not panic
-/

namespace Chaff
open Comp

section draws
variable {d : M Nat} {s : GSt}

/-- A source of draws that never fails. -/
def Draws (d : M Nat) : Prop := NoPanic d

theorem drawSeeded_draws (w : World) : NoPanic (drawSeeded w) := by intro s e h; simp [drawSeeded] at h
theorem drawAmbient_draws (w : World) : NoPanic (drawAmbient w) := by intro s e h; simp [drawAmbient] at h

theorem intnWith_post (d : M Nat) (n : Int) (s : GSt) : Post (intnWith d n) s (fun k _ => 0 ≤ k ∧ k < n) := by
  intro k s' h
  unfold intnWith at h
  split at h
  · simp at h
  · rename_i hn
    obtain ⟨x, s1, _, h⟩ := bind_ok.1 h
    simp at h
    obtain ⟨rfl, _⟩ := h
    exact ⟨Int.emod_nonneg _ (by omega), Int.emod_lt_of_pos _ (by omega)⟩

theorem intnWith_noPanic {d : M Nat} (hd : NoPanic d) {n : Int} (hn : 0 < n) : NoPanic (intnWith d n) := by
  unfold intnWith
  rw [if_neg (by omega)]
  exact NoPanic.bind hd (fun _ => NoPanic.pure)

end draws

theorem randomInt_post (w : World) (a b : Int) (s : GSt) :
    Post (randomInt w a b) s (fun k _ => (a = b ∧ k = a) ∨ (a ≤ k ∧ k < b)) := by
  intro k s' h
  unfold randomInt at h
  split at h
  · simp at h; exact Or.inl ⟨by assumption, h.1.symm⟩
  · obtain ⟨x, s1, h1, h⟩ := bind_ok.1 h
    simp at h
    have := intnWith_post _ _ _ x s1 h1
    right; omega

theorem randomInt_noPanic (w : World) {a b : Int} (h : a ≤ b) : NoPanic (randomInt w a b) := by
  unfold randomInt
  split
  · exact NoPanic.pure
  · exact NoPanic.bind (intnWith_noPanic (drawSeeded_draws w) (by omega)) (fun _ => NoPanic.pure)

theorem indexAt_post {α : Type} (l : List α) (i : Int) (s : GSt) :
    Post (indexAt l i) s (fun a s' => 0 ≤ i ∧ l[i.toNat]? = some a ∧ s' = s) := by
  intro a s' h
  unfold indexAt at h
  split at h
  · simp at h
  · cases hl : l[i.toNat]? with
    | none => rw [hl] at h; simp at h
    | some x => rw [hl] at h; simp at h; exact ⟨by omega, by rw [h.1], h.2.symm⟩

theorem indexAt_noPanic {α : Type} (l : List α) {i : Int} (h0 : 0 ≤ i) (h1 : i < goLen l) : NoPanic (indexAt l i) := by
  unfold indexAt
  rw [if_neg (by omega)]
  have : i.toNat < l.length := by unfold goLen at h1; omega
  rw [List.getElem?_eq_getElem this]
  exact NoPanic.pure

theorem choice_post {α : Type} (w : World) (l : List α) (s : GSt) : Post (choice w l) s (fun a _ => a ∈ l) := by
  intro a s' h
  unfold choice at h
  obtain ⟨i, s1, _, h⟩ := bind_ok.1 h
  exact List.mem_of_getElem? (indexAt_post l i s1 a s' h).2.1

theorem choice_noPanic {α : Type} (w : World) {l : List α} (h : l ≠ []) : NoPanic (choice w l) := by
  unfold choice
  have hl : 0 < l.length := List.length_pos_of_ne_nil h
  refine NoPanic.bindPost (fun k => 0 ≤ k ∧ k < goLen l) (intnWith_noPanic (drawSeeded_draws w) (by unfold goLen; omega))
    (fun s => intnWith_post _ _ s) (fun a ha => indexAt_noPanic l ha.1 ha.2)

theorem set_append_perm {m : List Nat} {j x y : Nat} (h : m[j]? = some x) : (m.set j y ++ [x]).Perm (m ++ [y]) := by
  induction m generalizing j with
  | nil => simp at h
  | cons a t ih =>
    cases j with
    | zero =>
      simp at h
      subst h
      simp only [List.set_cons_zero, List.cons_append]
      exact (List.Perm.cons y (List.perm_append_singleton a t)).trans
        ((List.Perm.swap a y t).trans (List.Perm.cons a (List.perm_append_singleton y t).symm))
    | succ j =>
      simp at h
      simp only [List.set_cons_succ, List.cons_append]
      exact List.Perm.cons a (ih h)

theorem permLoop_post (d : M Nat) (n : Nat) (m : List Nat) (hm : m.Perm (List.range m.length)) (s : GSt) :
    Post (permLoop d n m) s (fun p _ => p.Perm (List.range (m.length + n))) := by
  induction n generalizing m s with
  | zero => exact Post.pure (by simpa using hm)
  | succ n ih =>
    unfold permLoop
    refine Post.bind (fun j s' hj => ?_)
    have hjr := intnWith_post _ _ _ j s' hj
    have hlt : j.toNat < m.length ∨ j.toNat = m.length := by
      unfold goLen at hjr; omega
    simp only
    cases hx : m[j.toNat]? with
    | none =>
      have h1 : (m ++ [m.length]).Perm (List.range (m ++ [m.length]).length) := by
        simp only [List.length_append, List.length_singleton, List.range_succ]
        exact List.Perm.append_right _ hm
      refine Post.mono (ih _ h1 s') (fun p _ hp => ?_)
      simpa [Nat.add_assoc, Nat.add_comm, Nat.add_left_comm] using hp
    | some x =>
      have h1 : (m.set j.toNat m.length ++ [x]).Perm (List.range (m.set j.toNat m.length ++ [x]).length) := by
        simp only [List.length_append, List.length_singleton, List.length_set, List.range_succ]
        exact (set_append_perm hx).trans (List.Perm.append_right _ hm)
      refine Post.mono (ih _ h1 s') (fun p _ hp => ?_)
      simpa [Nat.add_assoc, Nat.add_comm, Nat.add_left_comm] using hp

theorem perm_post (d : M Nat) (n : Nat) (s : GSt) : Post (perm d n) s (fun p _ => p.Perm (List.range n)) := by
  refine Post.mono (permLoop_post d n [] (by simp) s) (fun p _ hp => ?_)
  simpa using hp

theorem permLoop_noPanic {d : M Nat} (hd : NoPanic d) (n : Nat) (m : List Nat) : NoPanic (permLoop d n m) := by
  induction n generalizing m with
  | zero => exact NoPanic.pure
  | succ n ih =>
    unfold permLoop
    exact NoPanic.bind (intnWith_noPanic hd (by unfold goLen; omega)) (fun _ => ih _)

theorem perm_noPanic {d : M Nat} (hd : NoPanic d) (n : Nat) : NoPanic (perm d n) := permLoop_noPanic hd n []

theorem filterMap_range_getElem? {α : Type} (l : List α) : (List.range l.length).filterMap (fun i => l[i]?) = l := by
  induction l with
  | nil => simp
  | cons a t ih =>
    rw [List.length_cons, List.range_succ_eq_map]
    simp only [List.filterMap_cons, List.getElem?_cons_zero, List.filterMap_map]
    congr 1

theorem shuffle_post {α : Type} (w : World) (l : List α) (s : GSt) :
    Post (shuffleAmbient w l) s (fun r _ => r.Perm l) := by
  unfold shuffleAmbient
  refine Post.bind (fun p s' hp => Post.pure ?_)
  have := perm_post _ _ _ p s' hp
  have h2 := this.filterMap (fun i => l[i]?)
  rwa [filterMap_range_getElem?] at h2

theorem shuffle_noPanic {α : Type} (w : World) (l : List α) : NoPanic (shuffleAmbient w l) := by
  unfold shuffleAmbient
  exact NoPanic.bind (perm_noPanic (drawAmbient_draws w) _) (fun _ => NoPanic.pure)

theorem funkKeys_post {β : Type} (w : World) (m : List (String × β)) (s : GSt) :
    Post (funkKeys w m) s (fun r _ => r.Perm (keysKV m)) := shuffle_post w _ s

theorem stringChoiceMultiple_post (w : World) (l : List String) (n : Int) (s : GSt) :
    Post (stringChoiceMultiple w l n) s
      (fun r _ => 0 ≤ n ∧ n ≤ goLen l ∧ goLen r = n ∧ ∃ p : List String, p.Perm l ∧ r = p.take n.toNat) := by
  unfold stringChoiceMultiple
  refine Post.bind (fun p s' hp => ?_)
  have hperm := shuffle_post _ _ _ p s' hp
  have hlen := hperm.length_eq
  split
  · exact Post.fail
  · rename_i h
    refine Post.pure ⟨by omega, by unfold goLen at *; omega, ?_, p, hperm, rfl⟩
    unfold goLen at *
    rw [List.length_take]
    omega

theorem stringChoiceMultiple_noPanic (w : World) (l : List String) {n : Int} (h0 : 0 ≤ n) (h1 : n ≤ goLen l) :
    NoPanic (stringChoiceMultiple w l n) := by
  unfold stringChoiceMultiple
  refine NoPanic.bindPost (fun p => p.Perm l) (shuffle_noPanic w l) (fun s => shuffle_post w l s) (fun p hp => ?_)
  have := hp.length_eq
  rw [if_neg (by unfold goLen at *; omega)]
  exact NoPanic.pure

end Chaff
