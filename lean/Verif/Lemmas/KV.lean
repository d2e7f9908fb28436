import Verif.Model.Util
import Mathlib.Data.List.Nodup
import Mathlib.Data.List.Perm.Basic
/-!
# Association lists as maps
-/

namespace Chaff
variable {β : Type}

theorem mem_keysKV {m : List (String × β)} {k : String} : k ∈ keysKV m ↔ ∃ v, (k, v) ∈ m := by
  unfold keysKV
  simp

theorem lookupKV_mem {m : List (String × β)} {k : String} {v : β} (h : lookupKV m k = some v) : (k, v) ∈ m := by
  induction m with
  | nil => simp [lookupKV] at h
  | cons a t ih =>
    obtain ⟨k', v'⟩ := a
    unfold lookupKV at h
    split at h
    · rename_i e; simp at h; simp [e, h]
    · exact List.mem_cons_of_mem _ (ih h)

theorem lookupKV_none {m : List (String × β)} {k : String} : lookupKV m k = none ↔ k ∉ keysKV m := by
  induction m with
  | nil => simp [lookupKV, keysKV]
  | cons a t ih =>
    obtain ⟨k', v'⟩ := a
    unfold lookupKV
    simp only [keysKV, List.map_cons, List.mem_cons, not_or] at *
    split
    · rename_i e; simp [e]
    · rename_i e
      rw [ih]
      constructor
      · intro h; exact ⟨fun h' => e h'.symm, h⟩
      · intro h; exact h.2

theorem lookupKV_of_mem {m : List (String × β)} (hn : (keysKV m).Nodup) {k : String} {v : β} (h : (k, v) ∈ m) :
    lookupKV m k = some v := by
  induction m with
  | nil => simp at h
  | cons a t ih =>
    obtain ⟨k', v'⟩ := a
    unfold lookupKV
    simp only [keysKV, List.map_cons, List.nodup_cons] at hn
    rcases List.mem_cons.1 h with h | h
    · simp at h; simp [h.1, h.2]
    · have hk : k' ≠ k := by
        rintro rfl
        exact hn.1 (List.mem_map.2 ⟨_, h, rfl⟩)
      rw [if_neg hk]
      exact ih hn.2 h

theorem mem_insertKV {m : List (String × β)} {k : String} {v : β} {p : String × β} (h : p ∈ insertKV m k v) :
    p = (k, v) ∨ p ∈ m := by
  induction m with
  | nil => simp [insertKV] at h; exact Or.inl h
  | cons a t ih =>
    obtain ⟨k', v'⟩ := a
    unfold insertKV at h
    split at h
    · rcases List.mem_cons.1 h with h | h
      · exact Or.inl h
      · exact Or.inr (List.mem_cons_of_mem _ h)
    · rcases List.mem_cons.1 h with h | h
      · subst h; simp
      · rcases ih h with h | h
        · exact Or.inl h
        · exact Or.inr (List.mem_cons_of_mem _ h)

theorem keys_insertKV {m : List (String × β)} {k : String} {v : β} {k' : String} :
    k' ∈ keysKV (insertKV m k v) ↔ k' = k ∨ k' ∈ keysKV m := by
  induction m with
  | nil => simp [insertKV, keysKV]
  | cons a t ih =>
    obtain ⟨k0, v0⟩ := a
    unfold insertKV
    split
    · rename_i e
      subst e
      simp [keysKV]
    · simp only [keysKV, List.map_cons, List.mem_cons] at *
      rw [ih]
      constructor
      · rintro (h | h | h) <;> simp [h]
      · rintro (h | h | h) <;> simp [h]

theorem nodup_insertKV {m : List (String × β)} {k : String} {v : β} (h : (keysKV m).Nodup) :
    (keysKV (insertKV m k v)).Nodup := by
  induction m with
  | nil => simp [insertKV, keysKV]
  | cons a t ih =>
    obtain ⟨k0, v0⟩ := a
    unfold insertKV
    simp only [keysKV, List.map_cons, List.nodup_cons] at h
    split
    · rename_i e
      subst e
      simpa [keysKV] using h
    · rename_i e
      simp only [keysKV, List.map_cons, List.nodup_cons]
      refine ⟨?_, ih h.2⟩
      intro hm
      rcases keys_insertKV.1 hm with h1 | h1
      · exact e h1
      · exact h.1 h1

theorem length_insertKV {m : List (String × β)} {k : String} {v : β} :
    (insertKV m k v).length = if k ∈ keysKV m then m.length else m.length + 1 := by
  induction m with
  | nil => simp [insertKV, keysKV]
  | cons a t ih =>
    obtain ⟨k0, v0⟩ := a
    unfold insertKV
    by_cases e : k0 = k
    · subst e; simp [keysKV]
    · rw [if_neg e]
      simp only [List.length_cons, ih]
      have : (k ∈ keysKV ((k0, v0) :: t)) ↔ k ∈ keysKV t := by
        simp only [keysKV, List.map_cons, List.mem_cons]
        constructor
        · rintro (h | h)
          · exact (e h.symm).elim
          · exact h
        · exact Or.inr
      by_cases hk : k ∈ keysKV t
      · rw [if_pos hk, if_pos (this.2 hk)]
      · rw [if_neg hk, if_neg (fun h => hk (this.1 h))]

theorem length_insertKV_le {m : List (String × β)} {k : String} {v : β} : (insertKV m k v).length ≤ m.length + 1 := by
  rw [length_insertKV]; split <;> omega

theorem le_length_insertKV {m : List (String × β)} {k : String} {v : β} : m.length ≤ (insertKV m k v).length := by
  rw [length_insertKV]; split <;> omega

theorem length_keysKV {m : List (String × β)} : (keysKV m).length = m.length := by simp [keysKV]

/-! `funk.UniqString` -/

theorem uniq_go_mem (l acc : List String) (x : String) :
    x ∈ l.foldl (fun (acc : List String) s => if s ∈ acc then acc else acc ++ [s]) acc ↔ x ∈ acc ∨ x ∈ l := by
  induction l generalizing acc with
  | nil => simp
  | cons a t ih =>
    simp only [List.foldl_cons, ih, List.mem_cons]
    split
    · rename_i h
      constructor
      · rintro (h1 | h1) <;> simp [h1]
      · rintro (h1 | rfl | h1) <;> simp [*]
    · simp only [List.mem_append, List.mem_singleton]
      constructor
      · rintro ((h1 | h1) | h1) <;> simp [h1]
      · rintro (h1 | h1 | h1) <;> simp [h1]

theorem mem_uniqString {l : List String} {x : String} : x ∈ uniqString l ↔ x ∈ l := by
  unfold uniqString
  rw [uniq_go_mem]; simp

theorem uniq_go_nodup (l acc : List String) (h : acc.Nodup) :
    (l.foldl (fun (acc : List String) s => if s ∈ acc then acc else acc ++ [s]) acc).Nodup := by
  induction l generalizing acc with
  | nil => simpa
  | cons a t ih =>
    simp only [List.foldl_cons]
    split
    · exact ih _ h
    · rename_i ha
      refine ih _ ?_
      rw [List.nodup_append]
      refine ⟨h, by simp, ?_⟩
      intro x hx y hy
      simp at hy
      subst hy
      rintro rfl
      exact ha hx

theorem nodup_uniqString (l : List String) : (uniqString l).Nodup := uniq_go_nodup l [] (by simp)

end Chaff
