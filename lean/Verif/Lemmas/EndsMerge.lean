import Verif.Lemmas.Ends
/-!
# Merging always ends
-/

namespace Chaff
open Comp

/-- A weight is within the bound, and counts no references if none are allowed. -/
def Fit (bad : String → Nat) (w : String → Nat) (N : Nat) (f : Nat → (String → Nat) → Nat) : Prop :=
  (f 0 bad = 0) ∧ f 1 w ≤ N

section
variable {c : PEnv} {bad : String → Nat} {w : String → Nat} {B : PSt → Prop} {d : Int} {N : Nat}

theorem Fit.of_le {f g : Nat → (String → Nat) → Nat} (h : Fit bad w N g)
    (hle : ∀ e v, Measures bad w e v → f e v ≤ g e v) : Fit bad w N f :=
  ⟨Nat.le_zero.1 ((hle _ _ (.inl ⟨rfl, rfl⟩)).trans (h.1).le), (hle _ _ (.inr ⟨rfl, rfl⟩)).trans h.2⟩

theorem Fit.fine {n : SchemaNode} (h : Fit bad w N (fun e v => wt e v n)) : Fine bad n := h.1
theorem Fine.fit {n : SchemaNode} (h : Fine bad n) : Fit bad w (wt 1 w n) (fun e v => wt e v n) := ⟨h, Nat.le_refl _⟩

/-- Merging smaller lists ends, and the result weighs no more than the list. -/
def RecEnds (bad : String → Nat) (w : String → Nat) (B : PSt → Prop) (N : Nat) (rec : Nat → MergeRec) : Prop :=
  ∀ d l, Fit bad w N (fun e v => wtSum e v l + e) →
    Ends (At B d) (fun k => rec k l) (fun r => ∀ e v, Measures bad w e v → wt e v r ≤ wtSum e v l)

theorem RecEnds.reindex {rec : Nat → MergeRec} (h : RecEnds bad w B N rec) (j : Nat) :
    RecEnds bad w B N (fun k => rec (k + j)) := fun d l hf => (h d l hf).reindex (fun k => k + j) fun k => by omega

section
variable {rec : Nat → MergeRec}

theorem ends_mergeMapLoop (h : RecEnds bad w B N rec) : ∀ (t m : List (String × SchemaNode)),
    Fit bad w N (fun e v => wtM e v m + wtM e v t) →
    Ends (At B d) (fun k => mergeMapLoop (rec k) m t)
      (fun r => ∀ e v, Measures bad w e v → wtM e v r ≤ wtM e v m + wtM e v t) := by
  intro t
  induction t with
  | nil => intro m _; exact Ends.pure fun e v _ => by simp
  | cons x t ih =>
    obtain ⟨k, n⟩ := x
    intro m hf
    simp only [mergeMapLoop]
    cases hl : lookupKV m k with
    | none =>
      dsimp only
      have hi : ∀ e v, wtM e v (insertKV m k n) = wtM e v m + e + wt e v n := fun e v => wtM_insert_none hl
      refine (ih (insertKV m k n) (hf.of_le fun e v _ => ?_)).mono fun r hr e v hm => (hr e v hm).trans ?_
      · rw [hi, wtM_cons]; omega
      · rw [hi, wtM_cons]; omega
    | some y =>
      dsimp only
      have hy : ∀ e v, e + wt e v y ≤ wtM e v m := fun e v => wtM_mem (lookupKV_mem hl)
      refine Ends.bind (h d [y, n] (hf.of_le fun e v _ => ?_)) fun x hx => ?_
      · have := hy e v
        simp only [wtSum_cons, wtSum_nil, wtM_cons]; omega
      · have hi : ∀ e v, wtM e v (insertKV m k x) + wt e v y = wtM e v m + wt e v x := fun e v => wtM_insert_some hl
        have hx : ∀ e v, Measures bad w e v → wtM e v (insertKV m k x) ≤ wtM e v m + wt e v n := fun e v hm => by
          have h1 := hi e v
          have h2 := hx e v hm
          simp only [wtSum_cons, wtSum_nil] at h2
          omega
        refine (ih (insertKV m k x) (hf.of_le fun e v hm => ?_)).mono fun r hr e v hm => (hr e v hm).trans ?_
        · have := hx e v hm
          rw [wtM_cons]; omega
        · have := hx e v hm
          rw [wtM_cons]; omega

theorem ends_mergeMap (h : RecEnds bad w B N rec) (a b : Option (List (String × SchemaNode)))
    (hf : Fit bad w N (fun e v => wtOM e v a + wtOM e v b)) :
    Ends (At B d) (fun k => mergeMap (rec k) a b)
      (fun r => ∀ e v, Measures bad w e v → wtOM e v r ≤ wtOM e v a + wtOM e v b) := by
  unfold mergeMap
  cases b with
  | none => exact Ends.pure fun e v _ => by simp
  | some l =>
    dsimp only
    refine Ends.bind (ends_mergeMapLoop h l _ (hf.of_le fun e v _ => ?_)) fun r hr => Ends.pure fun e v hm => ?_
    · rw [wtOM_zero]; simp
    · have := hr e v hm
      rw [wtOM_zero] at this
      simpa using this

theorem ends_mergeZip (h : RecEnds bad w B N rec) : ∀ a b : List SchemaNode, Fit bad w N (fun e v => wtL e v a + wtL e v b) →
    Ends (At B d) (fun k => mergeZip (rec k) a b)
      (fun r => ∀ e v, Measures bad w e v → wtL e v r ≤ wtL e v a + wtL e v b) := by
  intro a
  induction a with
  | nil => intro b _; unfold mergeZip; exact Ends.pure fun e v _ => by simp
  | cons x t ih =>
    intro b hf
    cases b with
    | nil => unfold mergeZip; exact Ends.pure fun e v _ => by simp
    | cons y u =>
      unfold mergeZip
      refine Ends.bind (h d [x, y] (hf.of_le fun e v _ => ?_)) fun z hz =>
        Ends.bind (ih u (hf.of_le fun e v _ => ?_)) fun r hr => Ends.pure fun e v hm => ?_
      · simp only [wtSum_cons, wtSum_nil, wtL_cons]; omega
      · simp only [wtL_cons]; omega
      · have h1 := hz e v hm
        have h2 := hr e v hm
        simp only [wtSum_cons, wtSum_nil, wtL_cons] at h1 ⊢
        omega

theorem ends_mergePrefixItems (h : RecEnds bad w B N rec) (a b : Option (List SchemaNode))
    (hf : Fit bad w N (fun e v => wtOL e v a + wtOL e v b)) :
    Ends (At B d) (fun k => mergePrefixItems (rec k) a b)
      (fun r => ∀ e v, Measures bad w e v → wtOL e v r ≤ wtOL e v a + wtOL e v b) := by
  unfold mergePrefixItems
  cases b with
  | none => exact Ends.pure fun e v _ => by simp
  | some l =>
    dsimp only
    refine Ends.bind (ends_mergeZip h _ l (hf.of_le fun e v _ => ?_)) fun r hr => Ends.pure fun e v hm => ?_
    · rw [wtOL_zero]; simp
    · have := hr e v hm
      rw [wtOL_zero] at this
      simpa using this

theorem ends_mergeItems (h : RecEnds bad w B N rec) (a b : Option (ItemsData SchemaNode))
    (hf : Fit bad w N (fun e v => wtOI e v a + wtOI e v b)) :
    Ends (At B d) (fun k => mergeItems (rec k) a b)
      (fun r => ∀ e v, Measures bad w e v → wtOI e v r ≤ wtOI e v a + wtOI e v b) := by
  unfold mergeItems
  cases b with
  | none => exact Ends.pure fun e v _ => by simp
  | some x =>
    obtain ⟨xn, xl, xd⟩ := x
    cases xn with
    | none => exact Ends.pure fun e v _ => by simp
    | some xn =>
      dsimp only
      refine Ends.ite (fun _ => Ends.pure fun e v _ => by simp) fun _ => ?_
      cases a with
      | none => exact Ends.pure fun e v _ => by simp [getZeroIfNil]
      | some y =>
        obtain ⟨yn, yl, yd⟩ := y
        cases yn with
        | none => exact Ends.pure fun e v _ => by simp [getZeroIfNil]; omega
        | some yn =>
          simp only [getZeroIfNil]
          refine Ends.bind (h d [yn, xn] (hf.of_le fun e v _ => ?_)) fun z hz => Ends.pure fun e v hm => ?_
          · simp only [wtSum_cons, wtSum_nil, wtOI_some, wtO_some]; omega
          · have h1 := hz e v hm
            simp only [wtSum_cons, wtSum_nil, wtOI_some, wtO_some] at h1 ⊢
            omega

theorem ends_mergeNodeOrFalse (h : RecEnds bad w B N rec) (a b : Option (NodeOrFalse SchemaNode))
    (hf : Fit bad w N (fun e v => wtOF e v a + wtOF e v b)) :
    Ends (At B d) (fun k => mergeNodeOrFalse (rec k) a b)
      (fun r => ∀ e v, Measures bad w e v → wtOF e v r ≤ wtOF e v a + wtOF e v b) := by
  unfold mergeNodeOrFalse
  cases b with
  | none => exact Ends.pure fun e v _ => by simp
  | some x =>
    cases a with
    | none => exact Ends.pure fun e v _ => by simp
    | some y =>
      dsimp only
      refine Ends.ite (fun _ => Ends.pure fun e v _ => by simp) fun _ =>
        Ends.ite (fun _ => Ends.pure fun e v _ => by simp) fun _ => ?_
      obtain ⟨yn, yd⟩ := y
      obtain ⟨xn, xd⟩ := x
      cases yn with
      | none => exact Ends.pure fun e v _ => by simp
      | some yn =>
        cases xn with
        | none => exact Ends.pure fun e v _ => by simp
        | some xn =>
          refine Ends.bind (h d [yn, xn] (hf.of_le fun e v _ => ?_)) fun z hz => Ends.pure fun e v hm => ?_
          · simp only [wtSum_cons, wtSum_nil, wtOF_some, wtO_some]; omega
          · have h1 := hz e v hm
            simp only [wtSum_cons, wtSum_nil, wtOF_some, wtO_some] at h1 ⊢
            omega

theorem ends_mergePtrs (h : RecEnds bad w B N rec) (a b : Option SchemaNode)
    (hf : Fit bad w N (fun e v => wtO e v a + wtO e v b)) :
    Ends (At B d) (fun k => mergePtrs (rec k) a b)
      (fun r => ∀ e v, Measures bad w e v → wtO e v r ≤ wtO e v a + wtO e v b) := by
  unfold mergePtrs
  cases a with
  | none => cases b <;> exact Ends.pure fun e v _ => by simp
  | some a =>
    cases b with
    | none => exact Ends.pure fun e v _ => by simp
    | some b =>
      refine Ends.bind (h d [a, b] (hf.of_le fun e v _ => ?_)) fun z hz => Ends.pure fun e v hm => ?_
      · simp only [wtSum_cons, wtSum_nil, wtO_some]; omega
      · have h1 := hz e v hm
        simp only [wtSum_cons, wtSum_nil, wtO_some] at h1 ⊢
        omega

/-- What `mergeSubs` leaves alone, and the weight of the rest. -/
theorem ends_mergeSubs (h : RecEnds bad w B N rec) (m n : SchemaNode) (hf : Fit bad w N (fun e v => wt e v m + wt e v n)) :
    Ends (At B d) (fun k => mergeSubs (rec k) m n)
      (fun r => ∀ e v, Measures bad w e v →
        wt e v r + (wtRef v n.ref + wtO e v n.not + wtOM e v n.defs + wtOM e v n.definitions + wtIf e v n.ifN +
          wtO e v n.thenN + wtO e v n.elseN + wtM e v n.dependentSchemas + wtIfs e v n.mergedIf +
          wtL e v n.mergedNot) ≤ wt e v m + wt e v n) := by
  have em := fun e v => wt_eq (e := e) (w := v) m
  have en := fun e v => wt_eq (e := e) (w := v) n
  unfold mergeSubs
  refine Ends.bind (ends_mergeMap h _ _ (hf.of_le fun e v _ => by rw [em, en]; omega)) fun x1 h1 => ?_
  refine Ends.bind (ends_mergeNodeOrFalse h _ _ (hf.of_le fun e v _ => by rw [em, en]; omega)) fun x2 h2 => ?_
  refine Ends.bind (ends_mergeMap h _ _ (hf.of_le fun e v _ => by rw [em, en]; omega)) fun x3 h3 => ?_
  refine Ends.bind (ends_mergePrefixItems h _ _ (hf.of_le fun e v _ => by rw [em, en]; omega)) fun x4 h4 => ?_
  refine Ends.bind (ends_mergeItems h _ _ (hf.of_le fun e v _ => by rw [em, en]; omega)) fun x5 h5 => ?_
  refine Ends.bind (ends_mergeNodeOrFalse h _ _ (hf.of_le fun e v _ => by rw [em, en]; omega)) fun x6 h6 => ?_
  refine Ends.bind (ends_mergeNodeOrFalse h _ _ (hf.of_le fun e v _ => by rw [em, en]; omega)) fun x7 h7 => ?_
  refine Ends.bind (ends_mergePtrs h _ _ (hf.of_le fun e v _ => by rw [em, en]; omega)) fun x8 h8 => ?_
  refine Ends.pure fun e v hm => ?_
  have h1 := h1 e v hm
  have h2 := h2 e v hm
  have h3 := h3 e v hm
  have h4 := h4 e v hm
  have h5 := h5 e v hm
  have h6 := h6 e v hm
  have h7 := h7 e v hm
  have h8 := h8 e v hm
  rw [em, en, wt_eq]
  simp only [wtOL_slicePtrs]
  omega

theorem ends_mergeEnumAndConst (W : RefWorld c bad w B) (m n : SchemaNode) :
    Ends (At B d) (fun _ => mergeEnumAndConst m n) (fun r => ∀ e v, wt e v r = wt e v m) := by
  unfold mergeEnumAndConst
  split
  · exact Ends.pure fun _ _ => rfl
  · exact Ends.pure fun _ _ => wt_setAllowed _ _
  · exact Ends.pure fun _ _ => wt_setAllowed _ _
  · refine Ends.ite (fun _ => Ends.bind (ends_warnMerge W _ _) fun _ _ => Ends.pure fun e v => ?_)
      fun _ => Ends.pure fun _ _ => wt_setAllowed _ _
    rw [wt_eq, wt_eq m]

theorem ends_warnIfDifferent {α : Type} [DecidableEq α] (W : RefWorld c bad w B) (f : String) (a b : Option α) :
    Ends (At B d) (fun _ => warnIfDifferent f a b) (fun _ => True) := by
  unfold warnIfDifferent
  split
  · exact Ends.ite (fun _ => ends_warnMerge W _ _) fun _ => Ends.pure trivial
  · exact Ends.pure trivial

theorem ends_warnSimple (W : RefWorld c bad w B) (m n : SchemaNode) :
    Ends (At B d) (fun _ => warnSimple m n) (fun _ => True) := by
  unfold warnSimple
  exact Ends.bind (ends_warnIfDifferent W _ _ _) fun _ _ => Ends.bind (ends_warnIfDifferent W _ _ _) fun _ _ =>
    Ends.bind (ends_warnIfDifferent W _ _ _) fun _ _ => ends_warnIfDifferent W _ _ _

theorem ends_mergeFields (W : RefWorld c bad w B) (fp : FP) (h : RecEnds bad w B N rec) (m n : SchemaNode)
    (hf : Fit bad w N (fun e v => wt e v m + wt e v n)) :
    Ends (At B d) (fun k => mergeFields fp (rec k) m n)
      (fun r => ∀ e v, Measures bad w e v → wt e v r ≤ wt e v m + wt e v n) := by
  unfold mergeFields
  refine Ends.bind (ends_mergeEnumAndConst W _ n) fun m1 h1 => ?_
  have h1 : ∀ e v, wt e v m1 = wt e v m := fun e v => (h1 e v).trans (by rw [wt_eq, wt_eq m])
  refine Ends.bind (ends_mergeSubs h m1 n (hf.of_le fun e v _ => by rw [h1])) fun m2 h2 => ?_
  refine Ends.bind Ends.gets fun path _ => ?_
  dsimp only
  refine Ends.bind (ends_warnSimple W _ _) fun _ _ => Ends.pure fun e v hm => ?_
  have h2 := h2 e v hm
  have h3 := wt_mergeIf (e := e) (w := v) path (mergeNot m2 n) n
  have h4 := wt_mergeNot (e := e) (w := v) m2 n
  have h5 := wt_mergeSimple (e := e) (w := v) fp (mergeIf path (mergeNot m2 n) n) n
  have h1 := h1 e v
  have en := wt_eq (e := e) (w := v) n
  generalize hM : mergeSimple fp (mergeIf path (mergeNot m2 n) n) n = M at *
  have eM := wt_eq (e := e) (w := v) M
  split
  · rw [wt_eq]
    dsimp only
    omega
  · rw [wt_eq]
    dsimp only
    omega

theorem ends_flattenResolved (h : RecEnds bad w B N rec) (node : SchemaNode) (resolved : Bool)
    (hf : Fit bad w N (fun e v => wt e v node + if resolved then e else 0)) :
    Ends (At B d) (fun k => flattenResolved (rec k) node resolved)
      (fun r => ∀ e v, Measures bad w e v → wt e v r ≤ wt e v node) := by
  unfold flattenResolved
  split
  · rename_i l hl
    have hs : ∀ e v, wtSum e v (l ++ [{ node with allOf := none }]) ≤ wt e v node := fun e v => by
      have := wtL_eq (e := e) (w := v) l
      simp only [wtSum_append, wtSum_cons, wtSum_nil]
      rw [wt_eq, wt_eq node, hl]
      simp only [wtOL_none, wtOL_some]
      omega
    refine Ends.ite (fun hr => (h d _ (hf.of_le fun e v _ => ?_)).mono fun r hr e v hm => (hr e v hm).trans (hs e v))
      fun _ => Ends.pure fun _ _ _ => Nat.le_refl _
    have := hs e v
    rw [if_pos hr]
    omega
  · exact Ends.pure fun _ _ _ => Nat.le_refl _

theorem ends_leaveRef (W : RefWorld c bad w B) (resolved : Bool) :
    Ends (At B d) (fun _ => leaveRef resolved) (fun _ => True) := by
  unfold leaveRef
  refine Ends.ite (fun _ => Ends.bind (ends_popRes W) fun _ _ => ?_) fun _ => Ends.pure trivial
  refine Ends.const fun s hs => ⟨nofun, fun a s' e => ?_⟩
  cases e
  exact ⟨trivial, W.leave s hs.1, hs.2⟩

theorem ends_mergeResolveNodeRef (W : RefWorld c bad w B) (node : SchemaNode) (hf : Fine bad node) :
    Ends (At B d) (fun k => mergeResolveNodeRef c k node)
      (fun p => ∀ e v, Measures bad w e v → wt e v p.1 + (if p.2 then e else 0) ≤ wt e v node) := by
  cases hr : node.ref with
  | none =>
    have : ∀ k, mergeResolveNodeRef c k node = pure (node, false) := fun k => by rw [mergeResolveNodeRef, hr]
    exact (Ends.pure fun e v _ => by simp).congr this
  | some ref =>
    refine (W.follow node ref d hr hf).mono fun p hp e v hm => ?_
    rcases hm with ⟨rfl, rfl⟩ | ⟨rfl, rfl⟩
    · have h1 : wt 0 v p.1 = 0 := hp.1
      split <;> omega
    · exact hp.2

theorem ends_mergeOne (W : RefWorld c bad w B) (h : RecEnds bad w B N rec) (m node : SchemaNode)
    (hf : Fit bad w N (fun e v => wt e v m + wt e v node)) :
    Ends (At B d) (fun k => mergeOne c k (rec k) m node)
      (fun r => ∀ e v, Measures bad w e v → wt e v r ≤ wt e v m + wt e v node) := by
  unfold mergeOne
  refine Ends.bind (ends_mergeResolveNodeRef W node
    (Fit.fine (w := w) (N := N) (hf.of_le fun e v _ => by omega))) fun p hp => ?_
  refine Ends.bind (ends_flattenResolved h p.1 p.2 (hf.of_le fun e v hm => (hp e v hm).trans (by omega))) fun n hn => ?_
  have hn : ∀ e v, Measures bad w e v → wt e v n ≤ wt e v node := fun e v hm => by
    have := hp e v hm
    have := hn e v hm
    omega
  refine Ends.bind (ends_mergeFields W c.fp h m n (hf.of_le fun e v hm => by have := hn e v hm; omega)) fun m' hm' => ?_
  refine Ends.bind (ends_leaveRef W _) fun _ _ => Ends.pure fun e v hm => ?_
  have := hm' e v hm
  have := hn e v hm
  omega

theorem ends_mergeLoop (W : RefWorld c bad w B) (h : RecEnds bad w B N rec) : ∀ (l : List SchemaNode) (m : SchemaNode),
    Fit bad w N (fun e v => wt e v m + wtSum e v l) →
    Ends (At B d) (fun k => mergeLoop c k (rec k) m l)
      (fun r => ∀ e v, Measures bad w e v → wt e v r ≤ wt e v m + wtSum e v l) := by
  intro l
  induction l with
  | nil => intro m _; exact Ends.pure fun e v _ => by simp
  | cons n t ih =>
    intro m hf
    unfold mergeLoop
    refine Ends.bind (ends_mergeOne W h m n (hf.of_le fun e v _ => by rw [wtSum_cons]; omega)) fun m' hm' => ?_
    refine (ih m' (hf.of_le fun e v hm => ?_)).mono fun r hr e v hm => (hr e v hm).trans ?_
    · have := hm' e v hm
      rw [wtSum_cons]; omega
    · have := hm' e v hm
      rw [wtSum_cons]; omega

theorem ends_flattenResidual (W : RefWorld c bad w B) (h : RecEnds bad w B N rec) : ∀ (M : Nat) (m : SchemaNode) (j : Nat),
    wt 1 w m ≤ M → Fit bad w N (fun e v => wt e v m) →
    Ends (At B d) (fun k => flattenResidual c (rec (k + j)) k m)
      (fun r => ∀ e v, Measures bad w e v → wt e v r ≤ wt e v m) := by
  intro M
  induction M with
  | zero =>
    intro m j hM hf
    refine Ends.shift ?_
    unfold flattenResidual
    cases hl : m.allOf with
    | none => exact Ends.pure fun _ _ _ => Nat.le_refl _
    | some l =>
      have : l.length = 0 := by
        have h1 := wt_eq (e := 1) (w := w) m
        have h2 := wtL_eq (e := 1) (w := w) l
        rw [hl, wtOL_some] at h1
        omega
      dsimp only
      refine Ends.ite (fun _ => Ends.pure fun _ _ _ => Nat.le_refl _) fun hn => absurd this hn
  | succ M ih =>
    intro m j hM hf
    refine Ends.shift ?_
    unfold flattenResidual
    cases hl : m.allOf with
    | none => exact Ends.pure fun _ _ _ => Nat.le_refl _
    | some l =>
      dsimp only
      refine Ends.ite (fun _ => Ends.pure fun _ _ _ => Nat.le_refl _) fun hn => ?_
      have hs : ∀ e v, wtSum e v (l ++ [{ m with allOf := none }]) + e ≤ wt e v m := fun e v => by
        have h1 := wtL_eq (e := e) (w := v) l
        have h2 : e ≤ e * l.length := Nat.le_mul_of_pos_right _ (by omega)
        simp only [wtSum_append, wtSum_cons, wtSum_nil]
        rw [wt_eq, wt_eq m, hl]
        simp only [wtOL_none, wtOL_some]
        omega
      refine Ends.bind Ends.gets fun d' _ => Ends.ite (fun _ => Ends.pure fun _ _ _ => Nat.le_refl _) fun _ => ?_
      refine Ends.deeper W ((h.reindex j).reindex 1 (d + 1) _ (hf.of_le fun e v _ => hs e v)) fun m' hm' => ?_
      have hm' : ∀ e v, Measures bad w e v → wt e v m' + e ≤ wt e v m := fun e v hm => by
        have := hm' e v hm
        have := hs e v
        omega
      have hlt := hm' 1 w (.inr ⟨rfl, rfl⟩)
      refine ((ih m' (j + 1) (by omega) (hf.of_le fun e v hm => ?_)).congr fun k => ?_).mono
        fun r hr e v hm => (hr e v hm).trans ?_
      · have := hm' e v hm; omega
      · rw [Nat.add_right_comm, Nat.add_assoc]
      · have := hm' e v hm; omega

end

/-- Merging ends, and the result weighs no more than the schemas merged. -/
theorem recEnds_mergeNodes (W : RefWorld c bad w B) : ∀ N, RecEnds bad w B N (fun k => mergeNodes c k) := by
  intro N
  induction N with
  | zero => intro d l hf; exact absurd hf.2 (by simp)
  | succ N ih =>
    intro d l hf
    refine Ends.shift ?_
    have hf : Fit bad w N (fun e v => wtSum e v l) :=
      ⟨by have := hf.1 ; simpa using this, by have := hf.2; simp at this; exact this⟩
    unfold mergeNodes mergeStep
    refine Ends.bind (ends_mergeLoop W ih l emptyNode (hf.of_le fun e v _ => by simp)) fun m hm => ?_
    simp only [wt_empty, Nat.zero_add] at hm
    exact (ends_flattenResidual W ih (wt 1 w m) m 0 (Nat.le_refl _) (hf.of_le fun e v h => hm e v h)).mono
      fun r hr e v h => (hr e v h).trans (hm e v h)

theorem ends_mergeNodes (W : RefWorld c bad w B) (l : List SchemaNode) (hf : wtSum 0 bad l = 0) :
    Ends (At B d) (fun k => mergeNodes c k l) (fun r => ∀ e v, Measures bad w e v → wt e v r ≤ wtSum e v l) :=
  recEnds_mergeNodes W (wtSum 1 w l + 1) d l ⟨by simpa using hf, Nat.le_refl _⟩

end

end Chaff
