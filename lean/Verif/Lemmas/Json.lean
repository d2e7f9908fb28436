import Verif.Spec.Json
import Verif.Lemmas.KV
/-!
# The comparison of generated values decides JSON equality
-/

namespace Chaff
namespace JVal

/-- Structural induction on JSON values. -/
theorem ind {P : JVal → Prop} (h1 : P .null) (h2 : ∀ b, P (.bool b)) (h3 : ∀ q, P (.num q)) (h4 : ∀ s, P (.str s))
    (h5 : ∀ l, (∀ x ∈ l, P x) → P (.arr l)) (h6 : ∀ m : List (String × JVal), (∀ p ∈ m, P p.2) → P (.obj m)) : ∀ v, P v
  | .null => h1
  | .bool b => h2 b
  | .num q => h3 q
  | .str s => h4 s
  | .arr l => h5 l (fun x _ => ind h1 h2 h3 h4 h5 h6 x)
  | .obj m => h6 m (fun p hp => by
      have : sizeOf p.2 < 1 + sizeOf m := by
        have := List.sizeOf_lt_of_mem hp
        cases p
        simp at *
        omega
      exact ind h1 h2 h3 h4 h5 h6 p.2)

theorem jeqAt_iff {k : String} {v : JVal} {m : List (String × JVal)} :
    jeqAt (k, v) m = true ↔ ∃ v', lookupKV m k = some v' ∧ jeq v v' = true := by
  simp only [jeqAt]
  cases lookupKV m k <;> simp

theorem jeqSub_iff {a b : List (String × JVal)} :
    jeqSub a b = true ↔ ∀ k v, (k, v) ∈ a → ∃ v', lookupKV b k = some v' ∧ jeq v v' = true := by
  induction a with
  | nil => simp [jeqSub]
  | cons p t ih =>
    obtain ⟨k, v⟩ := p
    simp only [jeqSub, Bool.and_eq_true, ih, jeqAt_iff]
    constructor
    · rintro ⟨h1, h2⟩ k' v' h
      rcases List.mem_cons.1 h with h | h
      · cases h; exact h1
      · exact h2 k' v' h
    · intro h
      exact ⟨h k v (by simp), fun k' v' h' => h k' v' (by simp [h'])⟩

theorem jeqList_iff {a b : List JVal} : jeqList a b = true ↔ List.Forall₂ (fun x y => jeq x y = true) a b := by
  induction a generalizing b with
  | nil => cases b <;> simp [jeqList]
  | cons x t ih =>
    cases b with
    | nil => simp [jeqList]
    | cons y s => simp [jeqList, ih]

theorem jeq_obj_iff {a b : List (String × JVal)} : jeq (.obj a) (.obj b) = true ↔
    a.length = b.length ∧ ∀ k v, (k, v) ∈ a → ∃ v', lookupKV b k = some v' ∧ jeq v v' = true := by
  simp [jeq, jeqSub_iff]

theorem jeq_arr_iff {a b : List JVal} : jeq (.arr a) (.arr b) = true ↔ List.Forall₂ (fun x y => jeq x y = true) a b := by
  simp [jeq, jeqList_iff]

theorem WF.arr_inv {l : List JVal} (h : WF (.arr l)) : ∀ x ∈ l, WF x := by cases h; assumption
theorem WF.obj_keys {m : List (String × JVal)} (h : WF (.obj m)) : (keysKV m).Nodup := by cases h; assumption
theorem WF.obj_inv {m : List (String × JVal)} (h : WF (.obj m)) : ∀ p ∈ m, WF p.2 := by cases h; assumption

theorem forall₂_same {α : Type} {R : α → α → Prop} {l : List α} (h : ∀ x ∈ l, R x x) : List.Forall₂ R l l := by
  induction l with
  | nil => exact .nil
  | cons a t ih => exact .cons (h a (by simp)) (ih (fun x hx => h x (by simp [hx])))

theorem jeq_refl (v : JVal) : WF v → jeq v v = true := by
  induction v using ind with
  | h1 => intro _; simp [jeq]
  | h2 b => intro _; simp [jeq]
  | h3 q => intro _; simp [jeq]
  | h4 s => intro _; simp [jeq]
  | h5 l ih =>
    intro h
    rw [jeq_arr_iff]
    exact forall₂_same (fun x hx => ih x hx (h.arr_inv x hx))
  | h6 m ih =>
    intro h
    rw [jeq_obj_iff]
    exact ⟨rfl, fun k v hkv => ⟨v, lookupKV_of_mem h.obj_keys hkv, ih _ hkv (h.obj_inv _ hkv)⟩⟩

theorem jeq_symm (a : JVal) : ∀ b, WF a → WF b → jeq a b = true → jeq b a = true := by
  induction a using ind with
  | h1 => intro b _ _ h; cases b <;> simp [jeq] at *
  | h2 x => intro b _ _ h; cases b <;> simp_all [jeq]
  | h3 q => intro b _ _ h; cases b <;> simp_all [jeq]
  | h4 s => intro b _ _ h; cases b <;> simp_all [jeq]
  | h5 l ih =>
    intro b ha hb h
    cases b with
    | arr l' =>
      rw [jeq_arr_iff] at *
      have ha := ha.arr_inv
      have hb := hb.arr_inv
      clear * - ih ha hb h
      induction h with
      | nil => exact .nil
      | cons h1 h2 ih2 =>
        refine .cons (ih _ (by simp) _ (ha _ (by simp)) (hb _ (by simp)) h1) (ih2 ?_ ?_ ?_)
        · intro x hx; exact ih x (by simp [hx])
        · intro x hx; exact ha x (by simp [hx])
        · intro x hx; exact hb x (by simp [hx])
    | _ => simp [jeq] at h
  | h6 m ih =>
    intro b ha hb h
    cases b with
    | obj m' =>
      rw [jeq_obj_iff] at *
      obtain ⟨hl, h⟩ := h
      refine ⟨hl.symm, ?_⟩
      have hsub : keysKV m ⊆ keysKV m' := by
        intro k hk
        obtain ⟨v, hv⟩ := mem_keysKV.1 hk
        obtain ⟨v', h1, _⟩ := h k v hv
        exact mem_keysKV.2 ⟨v', lookupKV_mem h1⟩
      have hperm : (keysKV m).Perm (keysKV m') :=
        List.Subperm.perm_of_length_le (List.subperm_of_subset ha.obj_keys hsub) (by simp [length_keysKV, hl])
      intro k v' hv'
      have hk : k ∈ keysKV m := hperm.mem_iff.2 (mem_keysKV.2 ⟨v', hv'⟩)
      obtain ⟨v, hv⟩ := mem_keysKV.1 hk
      obtain ⟨v2, h1, h2⟩ := h k v hv
      rw [lookupKV_of_mem hb.obj_keys hv'] at h1
      cases h1
      exact ⟨v, lookupKV_of_mem ha.obj_keys hv, ih _ hv _ (ha.obj_inv _ hv) (hb.obj_inv _ hv') h2⟩
    | _ => simp [jeq] at h

theorem jeq_trans (a : JVal) : ∀ b c, jeq a b = true → jeq b c = true → jeq a c = true := by
  induction a using ind with
  | h1 => intro b c h h'; cases b <;> cases c <;> simp [jeq] at *
  | h2 x => intro b c h h'; cases b <;> cases c <;> simp_all [jeq]
  | h3 q => intro b c h h'; cases b <;> cases c <;> simp_all [jeq]
  | h4 s => intro b c h h'; cases b <;> cases c <;> simp_all [jeq]
  | h5 l ih =>
    intro b c h h'
    cases b with
    | arr l' =>
      cases c with
      | arr l'' =>
        rw [jeq_arr_iff] at *
        induction h generalizing l'' with
        | nil => exact h'
        | cons h1 h2 ih2 =>
          cases h' with
          | cons g1 g2 => exact .cons (ih _ (by simp) _ _ h1 g1) (ih2 (fun x hx => ih x (by simp [hx])) _ g2)
      | _ => simp [jeq] at h'
    | _ => simp [jeq] at h
  | h6 m ih =>
    intro b c h h'
    cases b with
    | obj m' =>
      cases c with
      | obj m'' =>
        rw [jeq_obj_iff] at *
        refine ⟨h.1.trans h'.1, fun k v hv => ?_⟩
        obtain ⟨v1, h1, h2⟩ := h.2 k v hv
        obtain ⟨v2, h3, h4⟩ := h'.2 k v1 (lookupKV_mem h1)
        exact ⟨v2, h3, ih _ hv _ _ h2 h4⟩
      | _ => simp [jeq] at h'
    | _ => simp [jeq] at h

end JVal

open JVal

theorem SameJson.wf {a b : JVal} (h : SameJson a b) : a.WF ↔ b.WF := by
  induction h with
  | refl => rfl
  | symm _ ih => exact ih.symm
  | trans _ _ ih1 ih2 => exact ih1.trans ih2
  | order hp =>
    rename_i m m'
    constructor
    · intro h
      exact .obj _ ((hp.map Prod.fst).nodup_iff.1 h.obj_keys) (fun p hp' => h.obj_inv p (hp.mem_iff.2 hp'))
    · intro h
      exact .obj _ ((hp.map Prod.fst).nodup_iff.2 h.obj_keys) (fun p hp' => h.obj_inv p (hp.mem_iff.1 hp'))
  | member l r _ ih =>
    rename_i k v v' _
    constructor
    · intro h
      refine .obj _ (by have := h.obj_keys; unfold keysKV at this; simpa using this) (fun p hp => ?_)
      have hi := h.obj_inv
      simp only [List.mem_append, List.mem_cons] at hp hi
      rcases hp with hp | rfl | hp
      · exact hi p (Or.inl hp)
      · exact ih.1 (hi (k, v) (Or.inr (Or.inl rfl)))
      · exact hi p (Or.inr (Or.inr hp))
    · intro h
      refine .obj _ (by have := h.obj_keys; unfold keysKV at this; simpa using this) (fun p hp => ?_)
      have hi := h.obj_inv
      simp only [List.mem_append, List.mem_cons] at hp hi
      rcases hp with hp | rfl | hp
      · exact hi p (Or.inl hp)
      · exact ih.2 (hi (k, v') (Or.inr (Or.inl rfl)))
      · exact hi p (Or.inr (Or.inr hp))
  | item l r _ ih =>
    rename_i v v' _
    constructor
    · intro h
      refine .arr _ (fun p hp => ?_)
      have hi := h.arr_inv
      simp only [List.mem_append, List.mem_cons] at hp hi
      rcases hp with hp | rfl | hp
      · exact hi p (Or.inl hp)
      · exact ih.1 (hi v (Or.inr (Or.inl rfl)))
      · exact hi p (Or.inr (Or.inr hp))
    · intro h
      refine .arr _ (fun p hp => ?_)
      have hi := h.arr_inv
      simp only [List.mem_append, List.mem_cons] at hp hi
      rcases hp with hp | rfl | hp
      · exact hi p (Or.inl hp)
      · exact ih.2 (hi v' (Or.inr (Or.inl rfl)))
      · exact hi p (Or.inr (Or.inr hp))

/-- The comparison finds every pair of equal JSON values. -/
theorem SameJson.jeq {a b : JVal} (h : SameJson a b) (hw : a.WF) : a.jeq b = true := by
  induction h with
  | refl => exact jeq_refl _ hw
  | symm h ih =>
    have hb := h.wf.2 hw
    exact jeq_symm _ _ hb hw (ih hb)
  | trans h1 h2 ih1 ih2 => exact jeq_trans _ _ _ (ih1 hw) (ih2 (h1.wf.1 hw))
  | order hp =>
    rw [jeq_obj_iff]
    have hn' := (hp.map Prod.fst).nodup_iff.1 hw.obj_keys
    exact ⟨hp.length_eq, fun k v hkv => ⟨v, lookupKV_of_mem hn' (hp.mem_iff.1 hkv), jeq_refl _ (hw.obj_inv _ hkv)⟩⟩
  | member l r h ih =>
    rename_i k v v'
    rw [jeq_obj_iff]
    have hw' := (SameJson.member (k := k) l r h).wf.1 hw
    refine ⟨by simp, fun k2 v2 hkv => ?_⟩
    have hi := hw.obj_inv _ hkv
    simp only [List.mem_append, List.mem_cons] at hkv
    rcases hkv with h1 | h1 | h1
    · exact ⟨v2, lookupKV_of_mem hw'.obj_keys (by simp [h1]), jeq_refl _ hi⟩
    · cases h1
      exact ⟨v', lookupKV_of_mem hw'.obj_keys (by simp), ih hi⟩
    · exact ⟨v2, lookupKV_of_mem hw'.obj_keys (by simp [h1]), jeq_refl _ hi⟩
  | item l r h ih =>
    rename_i v v'
    rw [jeq_arr_iff]
    have hi := hw.arr_inv
    simp only [List.mem_append, List.mem_cons] at hi
    refine List.rel_append (forall₂_same (fun x hx => jeq_refl _ (hi x (Or.inl hx)))) ?_
    exact .cons (ih (hi v (Or.inr (Or.inl rfl)))) (forall₂_same (fun x hx => jeq_refl _ (hi x (Or.inr (Or.inr hx)))))

theorem SameJson.arr_of {a b : List JVal} (h : List.Forall₂ SameJson a b) : SameJson (.arr a) (.arr b) := by
  suffices ∀ pre : List JVal, SameJson (.arr (pre ++ a)) (.arr (pre ++ b)) from this []
  induction h with
  | nil => intro pre; exact .refl _
  | cons h1 h2 ih =>
    rename_i x y l l'
    intro pre
    refine .trans (.item pre l h1) ?_
    have := ih (pre ++ [y])
    simpa using this

theorem SameJson.obj_of {a b : List (String × JVal)}
    (h : List.Forall₂ (fun p q : String × JVal => p.1 = q.1 ∧ SameJson p.2 q.2) a b) : SameJson (.obj a) (.obj b) := by
  suffices ∀ pre : List (String × JVal), SameJson (.obj (pre ++ a)) (.obj (pre ++ b)) from this []
  induction h with
  | nil => intro pre; exact .refl _
  | cons h1 h2 ih =>
    rename_i x y l l'
    intro pre
    obtain ⟨k, v⟩ := x
    obtain ⟨k', v'⟩ := y
    obtain ⟨hk, h1⟩ := h1
    simp only at hk
    subst hk
    refine .trans (.member pre l h1) ?_
    have := ih (pre ++ [(k, v')])
    simpa using this

/-- The comparison finds only equal JSON values. -/
theorem sameJson_of_jeq (a : JVal) : ∀ b, a.WF → b.WF → a.jeq b = true → SameJson a b := by
  induction a using ind with
  | h1 => intro b _ _ h; cases b <;> simp [JVal.jeq] at h; exact .refl _
  | h2 x => intro b _ _ h; cases b <;> simp [JVal.jeq] at h; subst h; exact .refl _
  | h3 q => intro b _ _ h; cases b <;> simp [JVal.jeq] at h; subst h; exact .refl _
  | h4 s => intro b _ _ h; cases b <;> simp [JVal.jeq] at h; subst h; exact .refl _
  | h5 l ih =>
    intro b ha hb h
    cases b with
    | arr l' =>
      rw [jeq_arr_iff] at h
      have ha := ha.arr_inv
      have hb := hb.arr_inv
      refine SameJson.arr_of ?_
      clear * - ih ha hb h
      induction h with
      | nil => exact .nil
      | cons h1 h2 ih2 =>
        refine .cons (ih _ (by simp) _ (ha _ (by simp)) (hb _ (by simp)) h1) (ih2 ?_ ?_ ?_)
        · intro x hx; exact ih x (by simp [hx])
        · intro x hx; exact ha x (by simp [hx])
        · intro x hx; exact hb x (by simp [hx])
    | _ => simp [JVal.jeq] at h
  | h6 m ih =>
    intro b ha hb h
    cases b with
    | obj m' =>
      rw [jeq_obj_iff] at h
      obtain ⟨hl, h⟩ := h
      -- the members of the second object in the order of the first
      let f : String × JVal → String × JVal := fun p => (p.1, (lookupKV m' p.1).getD .null)
      have hf : SameJson (.obj m) (.obj (m.map f)) := by
        refine SameJson.obj_of ?_
        rw [List.forall₂_map_right_iff]
        refine forall₂_same (fun p hp => ⟨rfl, ?_⟩)
        obtain ⟨k, v⟩ := p
        obtain ⟨v', h1, h2⟩ := h k v hp
        simp only [f, h1, Option.getD_some]
        exact ih _ hp _ (ha.obj_inv _ hp) (hb.obj_inv _ (lookupKV_mem h1)) h2
      refine .trans hf (.order ?_)
      have hn : (m.map f).Nodup := by
        have : ((m.map f).map Prod.fst).Nodup := by
          have := ha.obj_keys
          unfold keysKV at this
          simpa [f, Function.comp_def] using this
        exact List.Nodup.of_map _ this
      have hsub : m.map f ⊆ m' := by
        intro p hp
        obtain ⟨⟨k, v⟩, hq, rfl⟩ := List.mem_map.1 hp
        obtain ⟨v', h1, h2⟩ := h k v hq
        simp only [f, h1, Option.getD_some]
        exact lookupKV_mem h1
      exact List.Subperm.perm_of_length_le (List.subperm_of_subset hn hsub) (by simp [hl])
    | _ => simp [JVal.jeq] at h

/-- The comparison decides JSON equality. -/
theorem jeq_iff_sameJson {a b : JVal} (ha : a.WF) (hb : b.WF) : a.jeq b = true ↔ SameJson a b :=
  ⟨sameJson_of_jeq a b ha hb, fun h => h.jeq ha⟩

end Chaff
