import Verif.Lemmas.MergeInv
import Verif.Spec.Merge
/-!
# Predicates that merging conjoins
-/

namespace Chaff
open Comp
variable {c : PEnv}

theorem everyPart_iff {A : SchemaNode → Prop} {n : SchemaNode} :
    EveryPart A n ↔ A n ∧ ∀ l, n.allOf = some l → ∀ x ∈ l, EveryPart A x := by
  constructor
  · intro h
    exact ⟨h n (.self n), fun l hl x hx y hy => h y (.member hl hx hy)⟩
  · rintro ⟨h1, h2⟩ x hx
    cases hx with
    | self => exact h1
    | member hl hm hp => exact h2 _ hl _ hm _ hp

theorem everyPart_flat {A : SchemaNode → Prop} {n : SchemaNode} (h : n.allOf = none) : EveryPart A n ↔ A n := by
  rw [everyPart_iff]; simp [h]

/-- `A` holds of a merged node only if it holds of both arguments (and, if `both`, exactly if it does), for
arguments that satisfy `Pre`; `q` says that the claim needs the merge to record no error, and `Acc` holds of every node that a merge returns. -/
structure Conj (c : PEnv) (q both : Prop) (Acc Pre A : SchemaNode → Prop) : Prop where
  emptyAcc : Acc emptyNode
  noRef : ∀ n, Pre n → n.ref = none
  emptyPre : Pre emptyNode
  empty : both → A emptyNode
  preAllOf : ∀ m, Pre m → Pre { m with allOf := none }
  allOf : ∀ m : SchemaNode, A { m with allOf := none } ↔ A m
  step : ∀ (rec : MergeRec) (m n r : SchemaNode) (s s' : PSt), Acc m → Pre m → Pre n → (∀ l, Keeps c (rec l)) →
    mergeFields c.fp rec m n s = .ok r s' → (q → s'.errors.length = s.errors.length) →
    Acc r ∧ Pre r ∧ (A r → A m ∧ A n) ∧ (both → A m → A n → A r)

theorem mem_mergeSlicePtrs {α : Type} {a b : Option (List α)} {l : List α} (h : mergeSlicePtrs [a, b] = some l) (x : α) :
    x ∈ l ↔ (∃ p, a = some p ∧ x ∈ p) ∨ (∃ p, b = some p ∧ x ∈ p) := by
  unfold mergeSlicePtrs at h
  cases a <;> cases b <;> simp at h <;> obtain ⟨-, rfl⟩ := h <;> simp

theorem mergeSlicePtrs_none {α : Type} {a b : Option (List α)} (h : mergeSlicePtrs [a, b] = none) (x : α) :
    ¬ ((∃ p, a = some p ∧ x ∈ p) ∨ (∃ p, b = some p ∧ x ∈ p)) := by
  unfold mergeSlicePtrs at h
  cases a <;> cases b <;> simp at h <;> simp [h]

theorem mergeSlicePtrs_all {α : Type} {a b : Option (List α)} {Q : α → Prop} :
    (∀ l, mergeSlicePtrs [a, b] = some l → ∀ x ∈ l, Q x) ↔
      (∀ l, a = some l → ∀ x ∈ l, Q x) ∧ (∀ l, b = some l → ∀ x ∈ l, Q x) := by
  cases h : mergeSlicePtrs [a, b] with
  | none =>
    have := mergeSlicePtrs_none h
    simp only [not_or, not_exists, not_and] at this
    simp only [reduceCtorEq, false_implies, implies_true, true_iff]
    exact ⟨fun l hl x hx => ((this x).1 l hl hx).elim, fun l hl x hx => ((this x).2 l hl hx).elim⟩
  | some l =>
    have := mem_mergeSlicePtrs h
    constructor
    · intro hx
      exact ⟨fun p hp x hm => hx l rfl x ((this x).2 (.inl ⟨p, hp, hm⟩)),
        fun p hp x hm => hx l rfl x ((this x).2 (.inr ⟨p, hp, hm⟩))⟩
    · rintro ⟨h1, h2⟩ l' hl x hx
      cases hl
      rcases (this x).1 hx with ⟨p, hp, hm⟩ | ⟨p, hp, hm⟩
      · exact h1 p hp x hm
      · exact h2 p hp x hm

variable {q both : Prop} {Acc Pre A : SchemaNode → Prop}

theorem Conj.fields (H : Conj c q both Acc Pre A) {rec : MergeRec} {m n r : SchemaNode} {s s' : PSt}
    (hc : Acc m) (hm : EveryPart Pre m) (hn : EveryPart Pre n) (hk : ∀ l, Keeps c (rec l))
    (h : mergeFields c.fp rec m n s = .ok r s') (hq : q → s'.errors.length = s.errors.length) :
    Acc r ∧ EveryPart Pre r ∧ (EveryPart A r → EveryPart A m ∧ EveryPart A n) ∧
      (both → EveryPart A m → EveryPart A n → EveryPart A r) := by
  obtain ⟨f, -⟩ := mergeFields_inv (c := c) h
  obtain ⟨p1, p2⟩ := everyPart_iff.1 hm
  obtain ⟨q1, q2⟩ := everyPart_iff.1 hn
  obtain ⟨r0, r1, r2, r3⟩ := H.step rec m n r s s' hc p1 q1 hk h hq
  have ha : ∀ Q : SchemaNode → Prop, (∀ l, r.allOf = some l → ∀ x ∈ l, Q x) ↔
      (∀ l, m.allOf = some l → ∀ x ∈ l, Q x) ∧ (∀ l, n.allOf = some l → ∀ x ∈ l, Q x) := by
    intro Q; rw [f.allOf]; exact mergeSlicePtrs_all
  refine ⟨r0, everyPart_iff.2 ⟨r1, (ha _).2 ⟨p2, q2⟩⟩, fun h => ?_, fun hb h1 h2 => ?_⟩
  · obtain ⟨x1, x2⟩ := everyPart_iff.1 h
    exact ⟨everyPart_iff.2 ⟨(r2 x1).1, ((ha _).1 x2).1⟩, everyPart_iff.2 ⟨(r2 x1).2, ((ha _).1 x2).2⟩⟩
  · obtain ⟨x1, x2⟩ := everyPart_iff.1 h1
    obtain ⟨y1, y2⟩ := everyPart_iff.1 h2
    exact everyPart_iff.2 ⟨r3 hb x1 y1, (ha _).2 ⟨x2, y2⟩⟩

theorem mergeOne_noRef {k : Nat} {rec : MergeRec} {m n r : SchemaNode} {s s' : PSt} (hn : n.ref = none)
    (h : mergeOne c k rec m n s = .ok r s') : mergeFields c.fp rec m n s = .ok r s' := by
  unfold mergeOne at h
  obtain ⟨p, s1, h1, w1⟩ := bind_ok.1 h
  unfold mergeResolveNodeRef at h1
  rw [hn] at h1; dsimp only at h1
  obtain ⟨hp, hs⟩ := pure_ok.1 h1
  subst hp; subst hs
  obtain ⟨n', s2, h2, w2⟩ := bind_ok.1 w1
  have : n' = n ∧ s2 = s := by
    unfold flattenResolved at h2
    dsimp only at h2
    cases hl : n.allOf with
    | none => rw [hl] at h2; dsimp only at h2; obtain ⟨e1, e2⟩ := pure_ok.1 h2; exact ⟨e1.symm, e2.symm⟩
    | some l =>
      rw [hl] at h2; dsimp only at h2; rw [if_neg (by simp)] at h2
      obtain ⟨e1, e2⟩ := pure_ok.1 h2; exact ⟨e1.symm, e2.symm⟩
  obtain ⟨e1, e2⟩ := this
  subst e1; subst e2
  obtain ⟨m', s3, h3, w3⟩ := bind_ok.1 w2
  obtain ⟨u, s4, h4, w4⟩ := bind_ok.1 w3
  unfold leaveRef at h4
  rw [if_neg (by simp)] at h4
  obtain ⟨-, hs⟩ := pure_ok.1 h4
  obtain ⟨hr, hs'⟩ := pure_ok.1 w4
  rw [← hr, ← hs', ← hs]; exact h3

theorem Conj.loop (H : Conj c q both Acc Pre A) {k : Nat} {rec : MergeRec} (hk : ∀ l, Keeps c (rec l)) :
    ∀ (l : List SchemaNode) (m r : SchemaNode) (s s' : PSt), Acc m → EveryPart Pre m → (∀ n ∈ l, EveryPart Pre n) →
    mergeLoop c k rec m l s = .ok r s' → (q → s'.errors.length = s.errors.length) →
    Acc r ∧ EveryPart Pre r ∧ (EveryPart A r → EveryPart A m ∧ ∀ n ∈ l, EveryPart A n) ∧
      (both → EveryPart A m → (∀ n ∈ l, EveryPart A n) → EveryPart A r) := by
  intro l
  induction l with
  | nil =>
    intro m r s s' hc hm _ h _
    unfold mergeLoop at h
    obtain ⟨rfl, -⟩ := pure_ok.1 h
    exact ⟨hc, hm, fun h => ⟨h, by simp⟩, fun _ h _ => h⟩
  | cons n t ih =>
    intro m r s s' hc hm hl h hq
    unfold mergeLoop at h
    obtain ⟨m1, s1, h1, w1⟩ := bind_ok.1 h
    have hn := hl n (by simp)
    have h1' := mergeOne_noRef (H.noRef n (hn n (.self n))) h1
    have g1 := (keeps_mergeFields (c := c) (F := c.fp) hk m n).grow h1'
    have g2 := (keeps_mergeLoop (c := c) (k := k) hk t m1).grow w1
    obtain ⟨a0, a1, a2, a3⟩ := H.fields hc hm hn hk h1' (fun e => by have := hq e; omega)
    obtain ⟨b0, b1, b2, b3⟩ := ih m1 r s1 s' a0 a1 (fun x hx => hl x (by simp [hx])) w1 (fun e => by have := hq e; omega)
    refine ⟨b0, b1, fun h => ?_, fun hb h1 h2 => ?_⟩
    · obtain ⟨x1, x2⟩ := b2 h
      refine ⟨(a2 x1).1, ?_⟩
      intro y hy
      rcases List.mem_cons.1 hy with rfl | hy
      · exact (a2 x1).2
      · exact x2 y hy
    · exact b3 hb (a3 hb h1 (h2 n (by simp))) (fun x hx => h2 x (by simp [hx]))

/-- Taking the members out of a node's `allOf` and putting them beside it. -/
theorem everyPart_split {Q : SchemaNode → Prop} {m : SchemaNode} {l : List SchemaNode} (hl : m.allOf = some l)
    (hQ : Q { m with allOf := none } ↔ Q m) :
    (∀ n ∈ l ++ [{ m with allOf := none }], EveryPart Q n) ↔ EveryPart Q m := by
  rw [everyPart_iff (n := m)]
  simp only [List.mem_append, List.mem_singleton]
  constructor
  · intro h
    refine ⟨hQ.1 (h _ (.inr rfl) _ (.self _)), fun l' h' x hx => ?_⟩
    rw [hl] at h'; cases h'; exact h x (.inl hx)
  · rintro ⟨h1, h2⟩ n (hn | rfl)
    · exact h2 l hl n hn
    · exact (everyPart_flat rfl).2 (hQ.2 h1)

theorem Conj.residual (H : Conj c q both Acc Pre A) {rec : MergeRec} (hk : ∀ l, Keeps c (rec l))
    (hrec : ∀ (l : List SchemaNode) (r : SchemaNode) (s s' : PSt), (∀ n ∈ l, EveryPart Pre n) → rec l s = .ok r s' →
      (q → s'.errors.length = s.errors.length) →
      Acc r ∧ EveryPart Pre r ∧ (EveryPart A r → ∀ n ∈ l, EveryPart A n) ∧ (both → (∀ n ∈ l, EveryPart A n) → EveryPart A r)) :
    ∀ (k : Nat) (m r : SchemaNode) (s s' : PSt), Acc m → EveryPart Pre m → flattenResidual c rec k m s = .ok r s' →
    (q → s'.errors.length = s.errors.length) →
    Acc r ∧ EveryPart Pre r ∧ (EveryPart A r → EveryPart A m) ∧ (both → EveryPart A m → EveryPart A r) := by
  intro k
  induction k with
  | zero => intro m r s s' _ _ h; cases h
  | succ k ih =>
    intro m r s s' hc hm h hq
    unfold flattenResidual at h
    cases hl : m.allOf with
    | none =>
      rw [hl] at h; dsimp only at h
      obtain ⟨rfl, -⟩ := pure_ok.1 h; exact ⟨hc, hm, id, fun _ => id⟩
    | some l =>
      rw [hl] at h; dsimp only at h
      split at h
      · obtain ⟨rfl, -⟩ := pure_ok.1 h; exact ⟨hc, hm, id, fun _ => id⟩
      · obtain ⟨d, s1, h1, w1⟩ := bind_ok.1 h
        have hs1 : s1 = s := by unfold gets at h1; injection h1 with _ h1'; exact h1'.symm
        split at w1
        · obtain ⟨rfl, -⟩ := pure_ok.1 w1; exact ⟨hc, hm, id, fun _ => id⟩
        · obtain ⟨u, s2, h2, w2⟩ := bind_ok.1 w1
          obtain ⟨m', s3, h3, w3⟩ := bind_ok.1 w2
          obtain ⟨u', s4, h4, w4⟩ := bind_ok.1 w3
          rw [modS_apply] at h2 h4
          injection h2 with _ h2; injection h4 with _ h4
          have e2 : s2.errors = s.errors := by rw [← h2, hs1]
          have e4 : s4.errors = s3.errors := by rw [← h4]
          have g3 := (hk _).grow h3
          have g4 := (keeps_flattenResidual (c := c) hk k m').grow w4
          have hpre : ∀ n ∈ l ++ [{ m with allOf := none }], EveryPart Pre n := by
            obtain ⟨p1, p2⟩ := everyPart_iff.1 hm
            intro n hn
            rcases List.mem_append.1 hn with hn | hn
            · exact p2 l hl n hn
            · rw [List.mem_singleton] at hn; rw [hn]; exact (everyPart_flat rfl).2 (H.preAllOf m p1)
          obtain ⟨a0, a1, a2, a3⟩ := hrec _ _ _ _ hpre h3 (fun e => by have := hq e; rw [e4] at g4; rw [e2] at g3 ⊢; omega)
          obtain ⟨b0, b1, b2, b3⟩ := ih m' r s4 s' a0 a1 w4 (fun e => by have := hq e; rw [e4] at g4 ⊢; rw [e2] at g3; omega)
          have sp := everyPart_split (Q := A) hl (H.allOf m)
          exact ⟨b0, b1, fun h => sp.1 (a2 (b2 h)), fun hb h => b3 hb (a3 hb (sp.2 h))⟩

/-- Merging conjoins `A`. -/
theorem Conj.merge (H : Conj c q both Acc Pre A) : ∀ (k : Nat) (l : List SchemaNode) (r : SchemaNode) (s s' : PSt),
    (∀ n ∈ l, EveryPart Pre n) → mergeNodes c k l s = .ok r s' → (q → s'.errors.length = s.errors.length) →
    Acc r ∧ EveryPart Pre r ∧ (EveryPart A r → ∀ n ∈ l, EveryPart A n) ∧ (both → (∀ n ∈ l, EveryPart A n) → EveryPart A r) := by
  intro k
  induction k with
  | zero => intro l r s s' _ h; cases h
  | succ k ih =>
    intro l r s s' hl h hq
    unfold mergeNodes mergeStep at h
    obtain ⟨m, s1, h1, w1⟩ := bind_ok.1 h
    have hk : ∀ l, Keeps c (mergeNodes c k l) := keeps_mergeNodes k
    have g1 := (keeps_mergeLoop (c := c) (k := k) hk l emptyNode).grow h1
    have g2 := (keeps_flattenResidual (c := c) hk k m).grow w1
    obtain ⟨a0, a1, a2, a3⟩ := H.loop hk l emptyNode m s s1 H.emptyAcc ((everyPart_flat rfl).2 H.emptyPre) hl h1
      (fun e => by have := hq e; omega)
    obtain ⟨b0, b1, b2, b3⟩ := H.residual hk ih k m r s1 s' a0 a1 w1 (fun e => by have := hq e; omega)
    exact ⟨b0, b1, fun h => (a2 (b2 h)).2, fun hb h => b3 hb (a3 hb ((everyPart_flat rfl).2 (H.empty hb)) h)⟩

end Chaff
