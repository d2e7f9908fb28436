import Verif.Spec.Report
import Verif.Props.Parser
import Verif.Props.Cli
import Verif.Props.Valid
/-!
# The errors reported after a parse (C73) and what the command line tool prints (C74)
-/

namespace Chaff
open Comp

/-! ## Maps -/

theorem mapSet_keys {α : Type} (k : String) (v : α) : ∀ m : List (String × α),
    (mapSet k v m).map Prod.fst = if k ∈ m.map Prod.fst then m.map Prod.fst else m.map Prod.fst ++ [k]
  | [] => by simp [mapSet]
  | (k', v') :: t => by
    unfold mapSet
    by_cases h : k' = k
    · subst h; simp
    · rw [if_neg h, List.map_cons, mapSet_keys k v t]
      have h' : k ≠ k' := fun e => h e.symm
      by_cases hm : k ∈ t.map Prod.fst
      · rw [if_pos hm, if_pos (by rw [List.map_cons]; exact List.mem_cons_of_mem _ hm)]
        rfl
      · rw [if_neg hm, if_neg]
        · rfl
        · rw [List.map_cons]
          intro hh
          rcases List.mem_cons.1 hh with hh | hh
          · exact h' hh
          · exact hm hh

theorem mapSet_nodup {α : Type} (k : String) (v : α) {m : List (String × α)} (h : (m.map Prod.fst).Nodup) :
    ((mapSet k v m).map Prod.fst).Nodup := by
  rw [mapSet_keys]
  split
  · exact h
  · rename_i hk
    exact List.nodup_append.2 ⟨h, List.nodup_singleton _, fun a ha b hb hab => by
      rw [List.mem_singleton.1 hb] at hab
      exact hk (hab ▸ ha)⟩

theorem mem_mapSet {α : Type} (k : String) (v : α) : ∀ {m : List (String × α)} (_ : (m.map Prod.fst).Nodup)
    (k' : String) (v' : α), (k', v') ∈ mapSet k v m ↔ (k' = k ∧ v' = v) ∨ (k' ≠ k ∧ (k', v') ∈ m)
  | [], _, k', v' => by simp [mapSet]
  | (a, b) :: t, h, k', v' => by
    rw [List.map_cons, List.nodup_cons] at h
    unfold mapSet
    by_cases hk : a = k
    · subst hk
      rw [if_pos rfl, List.mem_cons, List.mem_cons]
      constructor
      · rintro (hh | hh)
        · left; exact Prod.mk.inj hh
        · right
          refine ⟨?_, Or.inr hh⟩
          rintro rfl
          exact h.1 (List.mem_map.2 ⟨_, hh, rfl⟩)
      · rintro (⟨rfl, rfl⟩ | ⟨hne, hh | hh⟩)
        · exact Or.inl rfl
        · exact (hne (Prod.mk.inj hh).1).elim
        · exact Or.inr hh
    · rw [if_neg hk, List.mem_cons, List.mem_cons, mem_mapSet k v h.2]
      constructor
      · rintro (hh | hh | hh)
        · obtain ⟨rfl, rfl⟩ := Prod.mk.inj hh
          exact Or.inr ⟨hk, Or.inl rfl⟩
        · exact Or.inl hh
        · exact Or.inr ⟨hh.1, Or.inr hh.2⟩
      · rintro (hh | ⟨hne, hh | hh⟩)
        · exact Or.inr (Or.inl hh)
        · exact Or.inl hh
        · exact Or.inr (Or.inr ⟨hne, hh⟩)

theorem mapGet_mem {α : Type} (k : String) (v : α) : ∀ {m : List (String × α)} (_ : (m.map Prod.fst).Nodup),
    mapGet k m = some v ↔ (k, v) ∈ m
  | [], _ => by simp [mapGet]
  | (a, b) :: t, h => by
    rw [List.map_cons, List.nodup_cons] at h
    unfold mapGet
    by_cases hk : a = k
    · subst hk
      rw [if_pos rfl, List.mem_cons]
      constructor
      · rintro hh; injection hh with hh; subst hh; exact Or.inl rfl
      · rintro (hh | hh)
        · rw [(Prod.mk.inj hh).2]
        · exact (h.1 (List.mem_map.2 ⟨_, hh, rfl⟩)).elim
    · rw [if_neg hk, mapGet_mem k v h.2, List.mem_cons]
      constructor
      · exact Or.inr
      · rintro (hh | hh)
        · exact (hk (Prod.mk.inj hh).1.symm).elim
        · exact hh

theorem mapSet_ne_nil {α : Type} (k : String) (v : α) : ∀ m : List (String × α), mapSet k v m ≠ []
  | [] => by simp [mapSet]
  | (a, b) :: t => by unfold mapSet; split <;> simp

theorem newestAt_cons {log : List ((String × String) × Err)} {x : (String × String) × Err} {place : String × String}
    {e : Err} : NewestAt (x :: log) place e ↔ (place = x.1 ∧ e = x.2) ∨ (place ≠ x.1 ∧ NewestAt log place e) := by
  constructor
  · rintro ⟨later, earlier, h1, h2⟩
    cases later with
    | nil =>
      injection h1 with h1 _
      subst h1
      exact Or.inl ⟨rfl, rfl⟩
    | cons a later =>
      injection h1 with h1 h3
      subst h1
      exact Or.inr ⟨fun hh => h2 _ List.mem_cons_self hh.symm, later, earlier, h3,
        fun y hy => h2 y (List.mem_cons_of_mem _ hy)⟩
  · rintro (⟨h1, h2⟩ | ⟨h1, later, earlier, h2, h3⟩)
    · exact ⟨[], log, by rw [h1, h2]; rfl, fun y hy => by cases hy⟩
    · refine ⟨x :: later, earlier, by rw [h2]; rfl, ?_⟩
      intro y hy
      rcases List.mem_cons.1 hy with rfl | hy
      · exact fun hh => h1 hh.symm
      · exact h3 y hy

/-- The inner map of a document. -/
theorem add_eq (m : ErrMap) (h : (m.map Prod.fst).Nodup) (document path : String) (e : Err) :
    m.add document path e = mapSet document (mapSet path e ((mapGet document m).getD [])) m := by
  unfold ErrMap.add
  cases hg : mapGet document m with
  | some v => simp [hg]
  | none =>
    have hn : ∀ i, (document, i) ∉ m := fun i hi => by rw [(mapGet_mem document i h).2 hi] at hg; cases hg
    have hk : document ∉ m.map Prod.fst := fun hh => by
      obtain ⟨x, hx, rfl⟩ := List.mem_map.1 hh
      exact hn x.2 hx
    have h1 : mapGet document (mapSet document ([] : List (String × Err)) m) = some [] :=
      (mapGet_mem _ _ (mapSet_nodup _ _ h)).2 ((mem_mapSet _ _ h _ _).2 (Or.inl ⟨rfl, rfl⟩))
    simp only [Option.isSome_none, Bool.false_eq_true, if_false, h1, Option.getD_some, Option.getD_none]
    clear hg h1 hn h
    induction m with
    | nil => simp [mapSet]
    | cons a t ih =>
      obtain ⟨a, b⟩ := a
      rw [List.map_cons, List.mem_cons, not_or] at hk
      have hne : a ≠ document := fun hh => hk.1 hh.symm
      have hc : ∀ (v : List (String × Err)) r, mapSet document v ((a, b) :: r) = (a, b) :: mapSet document v r := by
        intro v r
        rw [mapSet, if_neg hne]
      rw [hc, hc, hc, ih hk.2]

/-- C73: the maps built by the recorded calls hold the newest error of every place and nothing else. -/
theorem C73_newest_kept : ∀ log : List ((String × String) × Err), Holds (errMapOf log) log
  | [] => ⟨by simp [errMapOf], by simp [errMapOf], by
      intro d p e
      simp only [errMapOf, List.not_mem_nil, false_and, exists_false, false_iff]
      rintro ⟨l, r, h, _⟩
      cases l <;> cases h⟩
  | ((document, path), e) :: log => by
    have ih := C73_newest_kept log
    have hinner : (((mapGet document (errMapOf log)).getD []).map Prod.fst).Nodup := by
      cases hg : mapGet document (errMapOf log) with
      | none => simp
      | some i => exact (ih.inner _ ((mapGet_mem _ _ ih.documents).1 hg)).1
    have hold : ∀ p' e', (p', e') ∈ (mapGet document (errMapOf log)).getD [] ↔ NewestAt log (document, p') e' := by
      intro p' e'
      rw [← ih.entries]
      cases hg : mapGet document (errMapOf log) with
      | none =>
        simp only [Option.getD_none, List.not_mem_nil, false_iff]
        rintro ⟨i, hi, _⟩
        rw [(mapGet_mem _ _ ih.documents).2 hi] at hg
        cases hg
      | some i =>
        have hi := (mapGet_mem _ _ ih.documents).1 hg
        constructor
        · exact fun hh => ⟨i, hi, hh⟩
        · rintro ⟨i', hi', hh⟩
          rw [(mapGet_mem _ _ ih.documents).2 hi'] at hg
          injection hg with hg
          subst hg
          exact hh
    rw [errMapOf, add_eq _ ih.documents]
    refine ⟨mapSet_nodup _ _ ih.documents, ?_, ?_⟩
    · rintro ⟨d', i'⟩ hx
      rcases (mem_mapSet _ _ ih.documents _ _).1 hx with ⟨rfl, rfl⟩ | ⟨_, hx⟩
      · exact ⟨mapSet_nodup _ _ hinner, mapSet_ne_nil _ _ _⟩
      · exact ih.inner _ hx
    · intro d' p' e'
      rw [newestAt_cons]
      constructor
      · rintro ⟨i', hi', hm⟩
        rcases (mem_mapSet _ _ ih.documents _ _).1 hi' with ⟨rfl, rfl⟩ | ⟨hne, hi'⟩
        · rcases (mem_mapSet _ _ hinner _ _).1 hm with ⟨rfl, rfl⟩ | ⟨hne, hm⟩
          · exact Or.inl ⟨rfl, rfl⟩
          · exact Or.inr ⟨fun hh => hne (Prod.mk.inj hh).2, (hold _ _).1 hm⟩
        · exact Or.inr ⟨fun hh => hne (Prod.mk.inj hh).1, (ih.entries _ _ _).1 ⟨i', hi', hm⟩⟩
      · rintro (⟨hp, rfl⟩ | ⟨hp, hn⟩)
        · obtain ⟨rfl, rfl⟩ := Prod.mk.inj hp
          exact ⟨_, (mem_mapSet _ _ ih.documents _ _).2 (Or.inl ⟨rfl, rfl⟩),
            (mem_mapSet _ _ hinner _ _).2 (Or.inl ⟨rfl, rfl⟩)⟩
        · by_cases hd : d' = document
          · subst hd
            have hne : p' ≠ path := fun hh => hp (by rw [hh])
            exact ⟨_, (mem_mapSet _ _ ih.documents _ _).2 (Or.inl ⟨rfl, rfl⟩),
              (mem_mapSet _ _ hinner _ _).2 (Or.inr ⟨hne, (hold _ _).2 hn⟩)⟩
          · obtain ⟨i', hi', hm⟩ := (ih.entries _ _ _).2 hn
            exact ⟨i', (mem_mapSet _ _ ih.documents _ _).2 (Or.inr ⟨hd, hi'⟩), hm⟩

theorem exists_newest {log : List ((String × String) × Err)} {place : String × String} {e : Err}
    (h : (place, e) ∈ log) : ∃ e', NewestAt log place e' := by
  induction log with
  | nil => cases h
  | cons x log ih =>
    by_cases hx : place = x.1
    · exact ⟨x.2, newestAt_cons.2 (Or.inl ⟨hx, rfl⟩)⟩
    · rcases List.mem_cons.1 h with rfl | h
      · exact (hx rfl).elim
      · obtain ⟨e', he'⟩ := ih h
        exact ⟨e', newestAt_cons.2 (Or.inr ⟨hx, he'⟩)⟩

theorem newest_mem {log : List ((String × String) × Err)} {place : String × String} {e : Err}
    (h : NewestAt log place e) : (place, e) ∈ log := by
  obtain ⟨later, earlier, rfl, _⟩ := h
  simp

/-! ## Reading them -/

/-- C73: `HasErrors` says whether an error was recorded. -/
theorem C73_hasErrors (m : ErrMap) (log : List ((String × String) × Err)) (h : Holds m log) :
    m.hasErrors = true ↔ log ≠ [] := by
  unfold ErrMap.hasErrors
  rw [decide_eq_true_iff]
  constructor
  · intro hl hn
    subst hn
    cases m with
    | nil => cases hl
    | cons x m =>
      have := (h.inner x List.mem_cons_self).2
      cases hx : x.2 with
      | nil => exact this hx
      | cons y t =>
        have hh := (h.entries x.1 y.1 y.2).1 ⟨x.2, List.mem_cons_self, by rw [hx]; exact List.mem_cons_self⟩
        exact List.not_mem_nil (newest_mem hh)
  · intro hl
    cases log with
    | nil => exact (hl rfl).elim
    | cons x log =>
      obtain ⟨i, hi, _⟩ := (h.entries x.1.1 x.1.2 x.2).2 (newestAt_cons.2 (Or.inl ⟨rfl, rfl⟩))
      exact List.length_pos_of_mem hi

/-- The entries of a flattened map: each belongs to an entry of the maps. -/
def FromMaps (m : ErrMap) (k : String) (e : Err) : Prop :=
  ∃ document i path, (document, i) ∈ m ∧ (path, e) ∈ i ∧ k = errorKey document path

theorem collectInner_spec (document : String) : ∀ (i : List (String × Err)) (acc : List (String × Err))
    (_ : (acc.map Prod.fst).Nodup),
    ((collectInner document i acc).map Prod.fst).Nodup ∧
    (∀ k e, (k, e) ∈ collectInner document i acc → (k, e) ∈ acc ∨ ∃ path, (path, e) ∈ i ∧ k = errorKey document path) ∧
    (∀ k, (k ∈ acc.map Prod.fst ∨ ∃ x ∈ i, k = errorKey document x.1) → k ∈ (collectInner document i acc).map Prod.fst)
  | [], acc, h => ⟨h, fun k e hh => Or.inl hh, by
      rintro k (hh | ⟨x, hx, _⟩)
      · exact hh
      · cases hx⟩
  | (path, e0) :: t, acc, h => by
    obtain ⟨h1, h2, h3⟩ := collectInner_spec document t (mapSet (errorKey document path) e0 acc) (mapSet_nodup _ _ h)
    refine ⟨h1, ?_, ?_⟩
    · intro k e hh
      rcases h2 k e hh with hh | ⟨p, hp, hk⟩
      · rcases (mem_mapSet _ _ h _ _).1 hh with ⟨rfl, rfl⟩ | ⟨_, hh⟩
        · exact Or.inr ⟨path, List.mem_cons_self, rfl⟩
        · exact Or.inl hh
      · exact Or.inr ⟨p, List.mem_cons_of_mem _ hp, hk⟩
    · rintro k hh
      apply h3
      rw [mapSet_keys]
      rcases hh with hh | ⟨x, hx, hk⟩
      · left
        split
        · exact hh
        · exact List.mem_append_left _ hh
      · rcases List.mem_cons.1 hx with rfl | hx
        · left
          subst hk
          split
          · assumption
          · exact List.mem_append_right _ List.mem_cons_self
        · exact Or.inr ⟨x, hx, hk⟩

theorem collectOuter_spec : ∀ (m : ErrMap) (acc : List (String × Err)) (_ : (acc.map Prod.fst).Nodup),
    ((collectOuter m acc).map Prod.fst).Nodup ∧
    (∀ k e, (k, e) ∈ collectOuter m acc → (k, e) ∈ acc ∨ FromMaps m k e) ∧
    (∀ k, (k ∈ acc.map Prod.fst ∨ ∃ e, FromMaps m k e) → k ∈ (collectOuter m acc).map Prod.fst)
  | [], acc, h => ⟨h, fun k e hh => Or.inl hh, by
      rintro k (hh | ⟨e, d, i, p, hx, _⟩)
      · exact hh
      · cases hx⟩
  | (document, i) :: t, acc, h => by
    obtain ⟨a1, a2, a3⟩ := collectInner_spec document i acc h
    obtain ⟨h1, h2, h3⟩ := collectOuter_spec t (collectInner document i acc) a1
    refine ⟨h1, ?_, ?_⟩
    · intro k e hh
      rcases h2 k e hh with hh | ⟨d, i', p, hm, hp, hk⟩
      · rcases a2 k e hh with hh | ⟨p, hp, hk⟩
        · exact Or.inl hh
        · exact Or.inr ⟨document, i, p, List.mem_cons_self, hp, hk⟩
      · exact Or.inr ⟨d, i', p, List.mem_cons_of_mem _ hm, hp, hk⟩
    · rintro k hh
      apply h3
      rcases hh with hh | ⟨e, d, i', p, hm, hp, hk⟩
      · exact Or.inl (a3 k (Or.inl hh))
      · rcases List.mem_cons.1 hm with hm | hm
        · obtain ⟨rfl, rfl⟩ := Prod.mk.inj hm
          exact Or.inl (a3 k (Or.inr ⟨_, hp, hk⟩))
        · exact Or.inr ⟨e, d, i', p, hm, hp, hk⟩

/-- C73: every reported error was recorded, at the place that its key names, and no later error was recorded there. -/
theorem C73_reported_was_recorded (m : ErrMap) (log : List ((String × String) × Err)) (h : Holds m log) (k : String)
    (e : Err) (hk : (k, e) ∈ m.collect) :
    ∃ document path, k = document ++ " -> " ++ path ∧ NewestAt log (document, path) e := by
  rcases (collectOuter_spec m [] (by simp)).2.1 k e hk with hh | ⟨d, i, p, hm, hp, hk⟩
  · cases hh
  · exact ⟨d, p, hk, (h.entries _ _ _).1 ⟨i, hm, hp⟩⟩

/-- C73: the report names every place at which an error was recorded, once. -/
theorem C73_recorded_is_reported (m : ErrMap) (log : List ((String × String) × Err)) (h : Holds m log)
    (document path : String) (e : Err) (he : ((document, path), e) ∈ log) :
    (∃ e', (document ++ " -> " ++ path, e') ∈ m.collect) ∧ (m.collect.map Prod.fst).Nodup := by
  obtain ⟨h1, _, h3⟩ := collectOuter_spec m [] (by simp)
  refine ⟨?_, h1⟩
  obtain ⟨e', he'⟩ := exists_newest he
  obtain ⟨i, hi, hp⟩ := (h.entries _ _ _).2 he'
  have := h3 (errorKey document path) (Or.inr ⟨e', document, i, path, hi, hp, rfl⟩)
  obtain ⟨x, hx, hxk⟩ := List.mem_map.1 this
  refine ⟨x.2, ?_⟩
  have hx' : x = (document ++ " -> " ++ path, x.2) := by
    rw [show document ++ " -> " ++ path = x.1 from hxk.symm]
  rw [← hx']
  exact hx

/-- C73: the newest error of a place is reported under the name of that place, unless another place with a recorded
error has the same name. -/
theorem C73_newest_is_reported (m : ErrMap) (log : List ((String × String) × Err)) (h : Holds m log)
    (document path : String) (e : Err) (hn : NewestAt log (document, path) e)
    (hu : ∀ x ∈ log, x.1.1 ++ " -> " ++ x.1.2 = document ++ " -> " ++ path → x.1 = (document, path)) :
    (document ++ " -> " ++ path, e) ∈ m.collect := by
  obtain ⟨⟨e', he'⟩, _⟩ := C73_recorded_is_reported m log h document path e (newest_mem hn)
  obtain ⟨d, p, hk, hn'⟩ := C73_reported_was_recorded m log h _ e' he'
  have hx := hu _ (newest_mem hn') hk.symm
  obtain ⟨rfl, rfl⟩ := Prod.mk.inj hx
  have : e' = e := by
    obtain ⟨i, hi, hp⟩ := (h.entries _ _ _).2 hn
    obtain ⟨i', hi', hp'⟩ := (h.entries _ _ _).2 hn'
    have hii : i = i' := Option.some.inj (((mapGet_mem _ _ h.documents).2 hi).symm.trans ((mapGet_mem _ _ h.documents).2 hi'))
    subst hii
    have hnd := (h.inner _ hi).1
    exact Option.some.inj (((mapGet_mem _ _ hnd).2 hp').symm.trans ((mapGet_mem _ _ hnd).2 hp))
  rw [← this]
  exact he'

theorem errorKey_inj {document p q : String} (h : document ++ " -> " ++ p = document ++ " -> " ++ q) : p = q := by
  have h' := congrArg String.toList h
  simp only [String.toList_append, List.append_assoc, List.append_cancel_left_eq] at h'
  exact String.toList_inj.1 h'

/-- C73 for a schema that refers to no other document: the report consists of exactly the newest error of every place. -/
theorem C73_single_document (m : ErrMap) (log : List ((String × String) × Err)) (h : Holds m log) (document : String)
    (hd : ∀ x ∈ log, x.1.1 = document) (k : String) (e : Err) :
    (k, e) ∈ m.collect ↔ ∃ path, k = document ++ " -> " ++ path ∧ NewestAt log (document, path) e := by
  constructor
  · intro hk
    obtain ⟨d, p, hk, hn⟩ := C73_reported_was_recorded m log h k e hk
    have := hd _ (newest_mem hn)
    simp only at this
    subst this
    exact ⟨p, hk, hn⟩
  · rintro ⟨p, rfl, hn⟩
    refine C73_newest_is_reported m log h document p e hn ?_
    rintro ⟨⟨d', p'⟩, e'⟩ hx hk
    have := hd _ hx
    simp only at this
    subst this
    exact congrArg (Prod.mk d') (errorKey_inj hk)

/-! ### Runs -/

/-- A schema with three faults: a length range that is empty, in two places, and two members of `allOf` that disagree
on `length` and on `uniqueItems`. -/
def faultySchema : JVal :=
  .obj [("type", .str "object"), ("properties", .obj [
    ("a", .obj [("type", .str "string"), ("minLength", .num 5), ("maxLength", .num 2)]),
    ("b", .obj [("type", .str "string"), ("minLength", .num 4), ("maxLength", .num 3)]),
    ("c", .obj [("allOf", .arr [.obj [("type", .str "string"), ("length", .num 1), ("uniqueItems", .bool true)],
      .obj [("length", .num 2), ("uniqueItems", .bool false)]])])])]

/-- What is recorded and what is reported. -/
def faultyReport : Option (List ((String × String) × Err) × List (String × Err)) :=
  (parseSchema demoEnv 20 faultySchema).state.map (fun s => (s.errors, (errMapOf s.errors).collect))

/-- The theorems apply to it: four errors are recorded, all in one document. -/
example : faultyReport = some
    ([(("file:///w/", "#/properties/c/config_merge_error"), "error merging field uniqueItems: both values set during merge"),
      (("file:///w/", "#/properties/c/config_merge_error"), "error merging field length: both values set during merge"),
      (("file:///w/", "#/properties/b"), "minLength cannot be greater than maxLength"),
      (("file:///w/", "#/properties/a"), "minLength cannot be greater than maxLength")],
    [("file:///w/ -> #/properties/a", "minLength cannot be greater than maxLength"),
      ("file:///w/ -> #/properties/b", "minLength cannot be greater than maxLength"),
      ("file:///w/ -> #/properties/c/config_merge_error", "error merging field uniqueItems: both values set during merge")]) := by
  decide +kernel

/-- That every recorded error is reported is false: the schema has two merge errors in one place, and the report names
one of them. -/
theorem C73_overwritten_violation : ∃ s, Parsed demoEnv faultySchema s ∧
    (("file:///w/", "#/properties/c/config_merge_error"), "error merging field length: both values set during merge") ∈ s.errors ∧
    ∀ k, (k, "error merging field length: both values set during merge") ∉ (errMapOf s.errors).collect := by
  have h : ((parseSchema demoEnv 20 faultySchema).state.map (fun s => (decide
      ((("file:///w/", "#/properties/c/config_merge_error"), "error merging field length: both values set during merge") ∈ s.errors),
      ((errMapOf s.errors).collect.map Prod.snd).contains "error merging field length: both values set during merge"))) =
      some (true, false) := by decide +kernel
  obtain ⟨s, hs, h⟩ := Option.map_eq_some_iff.1 h
  obtain ⟨h1, h2⟩ := Prod.mk.inj h
  refine ⟨s, ?_, of_decide_eq_true h1, ?_⟩
  · unfold ParseOutcome.state at hs
    split at hs
    · rename_i r s' hp
      injection hs with hs
      subst hs
      exact ⟨20, r, hp⟩
    · cases hs
  · intro k hk
    have := List.contains_iff_mem.2 (List.mem_map.2 ⟨_, hk, rfl⟩ :
      "error merging field length: both values set during merge" ∈ (errMapOf s.errors).collect.map Prod.snd)
    rw [h2] at this
    cases this

/-! ## C74: what the command line tool prints -/

/-- Everything a run prints, case by case. -/
theorem cli_prints {c : PEnv} {w : World} {os : Os} {texts : CliTexts} {marshal : Bool → JVal → Option String}
    {fuel : Nat} {f : CliFlags} {stdin : Option JVal} {d : Disk} {e : CliEnd} (hh : f.showHelp = false)
    (hv : f.showVersion = false) (h : cliMain c w os texts marshal fuel f stdin d = some e) :
    (e.code ≠ 0 ∧ e.stdout = "") ∨
    ∃ g s, cliParse c fuel f stdin = some (.done (.ok (g, none) s)) ∧
      ((e.stdout = verboseText texts f g s ∧ (e.code ≠ 0 ∨ f.output ≠ "")) ∨
       (e.code = 0 ∧ f.output = "" ∧ ∃ v t res, rootGenerate w (cliOpts f) (refEnv s) fuel g = .ok v t ∧
          marshal f.formatted v = some res ∧ e.stdout = verboseText texts f g s ++ res)) := by
  unfold cliMain at h
  rw [if_neg (by simp [hh]), if_neg (by simp [hv])] at h
  split at h
  · injection h with h; subst h; exact Or.inl ⟨by simp, rfl⟩
  · injection h with h; subst h; exact Or.inl ⟨by simp, rfl⟩
  · cases h
  · injection h with h; subst h; exact Or.inl ⟨by simp, rfl⟩
  · injection h with h; subst h; exact Or.inl ⟨by simp, rfl⟩
  · rename_i g s hp
    refine Or.inr ⟨g, s, hp, ?_⟩
    split at h
    · cases h
    · injection h with h; subst h; exact Or.inl ⟨rfl, Or.inl (by simp)⟩
    · rename_i v t hg
      split at h
      · injection h with h; subst h; exact Or.inl ⟨rfl, Or.inl (by simp)⟩
      · rename_i res hm
        split at h
        · rename_i ho
          injection h with h; subst h; exact Or.inl ⟨rfl, Or.inr ho⟩
        · rename_i ho
          injection h with h; subst h
          exact Or.inr ⟨rfl, not_not.1 ho, v, t, res, hg, hm, rfl⟩

/-- C74: a run that succeeds without `output` and without `verbose` prints the JSON text of the generated value and
nothing else. -/
theorem C74_prints_the_value (c : PEnv) (w : World) (os : Os) (texts : CliTexts)
    (marshal : Bool → JVal → Option String) (fuel : Nat) (f : CliFlags) (stdin : Option JVal) (d : Disk) (e : CliEnd)
    (hh : f.showHelp = false) (hv : f.showVersion = false) (hq : f.verbose = false) (ho : f.output = "")
    (h : cliMain c w os texts marshal fuel f stdin d = some e) (hc : e.code = 0) :
    ∃ g s v t, cliParse c fuel f stdin = some (.done (.ok (g, none) s)) ∧
      rootGenerate w (cliOpts f) (refEnv s) fuel g = .ok v t ∧ marshal f.formatted v = some e.stdout := by
  rcases cli_prints hh hv h with ⟨h1, _⟩ | ⟨g, s, hp, ⟨_, h1 | h1⟩ | ⟨_, _, v, t, res, hg, hm, hr⟩⟩
  · exact (h1 hc).elim
  · exact (h1 hc).elim
  · exact (h1 ho).elim
  · refine ⟨g, s, v, t, hp, hg, ?_⟩
    rw [hr, hm]
    simp [verboseText, hq]

/-- C74: without `verbose`, a run that fails or that writes its result to a file prints nothing. -/
theorem C74_otherwise_silent (c : PEnv) (w : World) (os : Os) (texts : CliTexts)
    (marshal : Bool → JVal → Option String) (fuel : Nat) (f : CliFlags) (stdin : Option JVal) (d : Disk) (e : CliEnd)
    (hh : f.showHelp = false) (hv : f.showVersion = false) (hq : f.verbose = false)
    (h : cliMain c w os texts marshal fuel f stdin d = some e) (hc : e.code ≠ 0 ∨ f.output ≠ "") : e.stdout = "" := by
  rcases cli_prints hh hv h with ⟨_, h1⟩ | ⟨g, s, hp, ⟨h1, _⟩ | ⟨h1, h2, _⟩⟩
  · exact h1
  · rw [h1]; simp [verboseText, hq]
  · rcases hc with hc | hc
    · exact (hc h1).elim
    · exact (hc h2).elim

/-- One text occurs in another. -/
def OccursIn (part text : String) : Prop := ∃ before after, text = before ++ part ++ after

theorem occursIn_join {l : List String} {x : String} (h : x ∈ l) : OccursIn x (String.join l) := by
  induction l with
  | nil => cases h
  | cons a l ih =>
    rw [String.join_cons]
    rcases List.mem_cons.1 h with rfl | h
    · exact ⟨"", String.join l, by simp⟩
    · obtain ⟨b, r, hr⟩ := ih h
      exact ⟨a ++ b, r, by rw [hr]; simp only [String.append_assoc]⟩

/-- C74: with `verbose`, a run that succeeds names every place at which an error was recorded, with the newest error
there if no other place has the same name. -/
theorem C74_verbose_names_errors (c : PEnv) (w : World) (os : Os) (texts : CliTexts)
    (marshal : Bool → JVal → Option String) (fuel : Nat) (f : CliFlags) (stdin : Option JVal) (d : Disk) (e : CliEnd)
    (hh : f.showHelp = false) (hv : f.showVersion = false) (hq : f.verbose = true)
    (h : cliMain c w os texts marshal fuel f stdin d = some e) (hc : e.code = 0) :
    ∃ g s, cliParse c fuel f stdin = some (.done (.ok (g, none) s)) ∧
      ∀ document path x, NewestAt s.errors (document, path) x →
        (∀ y ∈ s.errors, y.1.1 ++ " -> " ++ y.1.2 = document ++ " -> " ++ path → y.1 = (document, path)) →
        OccursIn (" - [" ++ (document ++ " -> " ++ path) ++ "] " ++ x ++ " \n") e.stdout := by
  have key : ∀ g s tail, e.stdout = verboseText texts f g s ++ tail →
      ∀ document path x, NewestAt s.errors (document, path) x →
        (∀ y ∈ s.errors, y.1.1 ++ " -> " ++ y.1.2 = document ++ " -> " ++ path → y.1 = (document, path)) →
        OccursIn (" - [" ++ (document ++ " -> " ++ path) ++ "] " ++ x ++ " \n") e.stdout := by
    intro g s tail hs document path x hn hu
    have hm := C73_newest_is_reported _ _ (C73_newest_kept s.errors) document path x hn hu
    obtain ⟨b, a, hr⟩ := occursIn_join (List.mem_map.2 ⟨_, hm, rfl⟩ :
      errorLine (document ++ " -> " ++ path, x) ∈ (errMapOf s.errors).collect.map errorLine)
    rw [hs, verboseText, if_pos hq, hr]
    generalize ("Schema compiled successfully to the following generator tree: " ++ texts.tree g ++ "\n" ++
      if (errMapOf s.errors).hasErrors = true then
        "Passed schema failed to fully compile with the following errors:\n" else "") = start
    exact ⟨start ++ b, a ++ tail, by simp only [errorLine, String.append_assoc]⟩
  rcases cli_prints hh hv h with ⟨h1, _⟩ | ⟨g, s, hp, ⟨h1, _⟩ | ⟨_, _, v, t, res, hg, hm, hr⟩⟩
  · exact (h1 hc).elim
  · exact ⟨g, s, hp, key g s "" (by rw [h1]; simp)⟩
  · exact ⟨g, s, hp, key g s res hr⟩

/-- The printed text of a run. -/
def cliSays (f : CliFlags) (stdin : Option JVal) : Option (Nat × String) :=
  (cliMain demoEnv demoWorld {} { tree := fun _ => "T" } (fun _ _ => some "{}") 30 f stdin (fun _ => none)).map
    (fun e => (e.code, e.stdout))

/-- Three runs: the value, a failure, and a result that goes to a file. -/
example : cliSays {} (some faultySchema) = some (0, "{}") ∧ cliSays {} none = some (1, "") ∧
    cliSays { output := "o" } (some faultySchema) = some (0, "") := by decide +kernel

/-- That the output of a successful run is the JSON of the value is false with `verbose`: other lines come first, on
the same stream. -/
theorem C74_verbose_violation : cliSays { verbose := true } (some faultySchema) = some (0,
    "Schema compiled successfully to the following generator tree: T\n\
Passed schema failed to fully compile with the following errors:\n \
- [file:///w/ -> #/properties/a] minLength cannot be greater than maxLength \n \
- [file:///w/ -> #/properties/b] minLength cannot be greater than maxLength \n \
- [file:///w/ -> #/properties/c/config_merge_error] error merging field uniqueItems: both values set during merge \n{}") := by
  decide +kernel

end Chaff
