import Verif.Spec.Combine
import Verif.Lemmas.Compiles
import Verif.Lemmas.MergeSat
/-!
# Merging agreeing schemas

A merge of agreeing schemas that records no error yields an agreeing schema, and every value that is valid against the
result is valid against each of the merged schemas.
-/

namespace Chaff
open Comp
variable {c : PEnv} {o : Opts} {root : SchemaNode} {ty : ValuePath → Kind}

/-- Every value that is valid against `x` is valid against `a`. -/
def Below (c : PEnv) (root x a : SchemaNode) : Prop :=
  ∀ v, Valid (patternMeaning c) root x v → Valid (patternMeaning c) root a v

theorem Below.refl (x : SchemaNode) : Below c root x x := fun _ h => h

theorem Below.trans {x y z : SchemaNode} (h : Below c root x y) (h' : Below c root y z) : Below c root x z :=
  fun v hv => h' v (h v hv)

/-! ## Choosing between bounds -/

section ptr
variable {α : Type} [LinearOrder α] {a b : Option α} {x : α}

theorem maxPtr_pick (h : maxPtr [a, b] = some x) : a = some x ∨ b = some x := by
  unfold maxPtr at h
  cases a with
  | none => cases b <;> simp_all [maxPtrStep]
  | some a =>
    cases b with
    | none => simp_all [maxPtrStep]
    | some b =>
      simp only [List.foldl_cons, List.foldl_nil, maxPtrStep] at h
      split at h <;> simp_all

theorem minPtr_pick (h : minPtr [a, b] = some x) : a = some x ∨ b = some x := by
  unfold minPtr at h
  cases a with
  | none => cases b <;> simp_all [minPtrStep]
  | some a =>
    cases b with
    | none => simp_all [minPtrStep]
    | some b =>
      simp only [List.foldl_cons, List.foldl_nil, minPtrStep] at h
      split at h <;> simp_all

theorem maxPtr_left (h : a = some x) : ∃ y, maxPtr [a, b] = some y ∧ x ≤ y := by
  subst h
  cases b with
  | none => exact ⟨x, rfl, le_refl _⟩
  | some b =>
    by_cases hx : x < b
    · exact ⟨b, by simp [maxPtr, maxPtrStep, hx], hx.le⟩
    · exact ⟨x, by simp [maxPtr, maxPtrStep, hx], le_refl _⟩

theorem maxPtr_right (h : b = some x) : ∃ y, maxPtr [a, b] = some y ∧ x ≤ y := by
  subst h
  cases a with
  | none => exact ⟨x, rfl, le_refl _⟩
  | some a =>
    by_cases hx : a < x
    · exact ⟨x, by simp [maxPtr, maxPtrStep, hx], le_refl _⟩
    · exact ⟨a, by simp [maxPtr, maxPtrStep, hx], not_lt.1 hx⟩

theorem minPtr_left (h : a = some x) : ∃ y, minPtr [a, b] = some y ∧ y ≤ x := by
  subst h
  cases b with
  | none => exact ⟨x, rfl, le_refl _⟩
  | some b =>
    by_cases hx : b < x
    · exact ⟨b, by simp [minPtr, minPtrStep, hx], hx.le⟩
    · exact ⟨x, by simp [minPtr, minPtrStep, hx], le_refl _⟩

theorem minPtr_right (h : b = some x) : ∃ y, minPtr [a, b] = some y ∧ y ≤ x := by
  subst h
  cases a with
  | none => exact ⟨x, rfl, le_refl _⟩
  | some a =>
    by_cases hx : x < a
    · exact ⟨x, by simp [minPtr, minPtrStep, hx], le_refl _⟩
    · exact ⟨a, by simp [minPtr, minPtrStep, hx], not_lt.1 hx⟩

end ptr

theorem mergeSlice_left {α : Type} {a b : Option (List α)} {p : List α} {x : α} (h : a = some p) (hx : x ∈ p) :
    ∃ l, mergeSlicePtrs [a, b] = some l ∧ x ∈ l := by
  cases hl : mergeSlicePtrs [a, b] with
  | none => exact ((mergeSlicePtrs_none hl x) (.inl ⟨p, h, hx⟩)).elim
  | some l => exact ⟨l, rfl, (mem_mergeSlicePtrs hl x).2 (.inl ⟨p, h, hx⟩)⟩

theorem mergeSlice_right {α : Type} {a b : Option (List α)} {p : List α} {x : α} (h : b = some p) (hx : x ∈ p) :
    ∃ l, mergeSlicePtrs [a, b] = some l ∧ x ∈ l := by
  cases hl : mergeSlicePtrs [a, b] with
  | none => exact ((mergeSlicePtrs_none hl x) (.inr ⟨p, h, hx⟩)).elim
  | some l => exact ⟨l, rfl, (mem_mergeSlicePtrs hl x).2 (.inr ⟨p, h, hx⟩)⟩

theorem mergeSlice_ne {α : Type} {a b : Option (List α)} {l : List α} (h : mergeSlicePtrs [a, b] = some l) : l ≠ [] := by
  unfold mergeSlicePtrs at h
  simp only at h
  split at h
  · cases h
  · rintro rfl
    simp_all

theorem mergeSlice_none_left {α : Type} {b : Option (List α)} (h : ∀ l, b = some l → l ≠ []) :
    mergeSlicePtrs [none, b] = b := by
  cases b with
  | none => rfl
  | some l =>
    have := h l rfl
    cases l with
    | nil => exact (this rfl).elim
    | cons x t => simp [mergeSlicePtrs]

/-! ## What the errors give -/

theorem warnIfDifferent_quiet {α : Type} [DecidableEq α] {f : String} {a b : Option α} {s s' : PSt} {u : Unit}
    (h : warnIfDifferent f a b s = .ok u s') (he : s'.errors = []) :
    s' = s ∧ ∀ x y, a = some x → b = some y → x = y := by
  unfold warnIfDifferent at h
  split at h
  · rename_i x y
    split at h
    · have := warnMerge_grow h
      rw [he] at this
      simp at this
    · rename_i hne
      obtain ⟨_, rfl⟩ := pure_ok.1 h
      refine ⟨rfl, ?_⟩
      rintro x y ⟨⟩ ⟨⟩
      simpa using hne
  · rename_i hno
    obtain ⟨_, rfl⟩ := pure_ok.1 h
    exact ⟨rfl, fun x y hx hy => (hno x y hx hy).elim⟩

theorem warnSimple_quiet {m n : SchemaNode} {s s' : PSt} {u : Unit} (h : warnSimple m n s = .ok u s')
    (he : s'.errors = []) : s' = s ∧ (∀ x y, m.pattern = some x → n.pattern = some y → x = y) ∧
      (∀ x y, m.format = some x → n.format = some y → x = y) ∧
      (∀ x y, m.uniqueItems = some x → n.uniqueItems = some y → x = y) := by
  unfold warnSimple at h
  obtain ⟨_, s1, h1, h⟩ := bind_ok.1 h
  obtain ⟨_, s2, h2, h⟩ := bind_ok.1 h
  obtain ⟨_, s3, h3, h4⟩ := bind_ok.1 h
  obtain ⟨rfl, a4⟩ := warnIfDifferent_quiet h4 he
  obtain ⟨rfl, a3⟩ := warnIfDifferent_quiet h3 he
  obtain ⟨rfl, a2⟩ := warnIfDifferent_quiet h2 he
  obtain ⟨rfl, a1⟩ := warnIfDifferent_quiet h1 he
  exact ⟨rfl, a2, a3, a4⟩

/-! ## One iteration of the merge -/

/-- The schema without what `Concurs` does not speak about. -/
def bare (n : SchemaNode) : SchemaNode := { n with anyOf := none, defs := none, definitions := none }

/-- The value is on the lists of the schema. -/
def OnLists (n : SchemaNode) (v : JVal) : Prop :=
  (∀ l, n.enum = some l → ∃ x ∈ l, SameJson x v) ∧ ∀ x, n.const = some x → SameJson x v

theorem collect_above {n : SchemaNode} {v : JVal} {l : List JVal} (h : collectEnumValues n = some l) (hv : OnLists n v) :
    ∃ x ∈ l, SameJson x v := by
  unfold collectEnumValues at h
  cases he : n.enum with
  | some l' => rw [he] at h; cases h; exact hv.1 _ he
  | none =>
    rw [he] at h
    cases hc : n.const with
    | none => rw [hc] at h; cases h
    | some x => rw [hc] at h; cases h; exact ⟨x, by simp, hv.2 x hc⟩

theorem setAllowed_above (m : SchemaNode) {l : List JVal} {v : JVal} (h : ∃ x ∈ l, SameJson x v) : OnLists (setAllowed m l) v := by
  match l with
  | [] => obtain ⟨x, hx, _⟩ := h; cases hx
  | [x] =>
    obtain ⟨y, hy, hv⟩ := h
    rw [List.mem_singleton.1 hy] at hv
    exact ⟨nofun, by rintro _ ⟨⟩; exact hv⟩
  | x :: y :: t => exact ⟨by rintro _ ⟨⟩; exact h, nofun⟩

theorem collect_lists {n : SchemaNode} {x : JVal} {l : List JVal} (h : collectEnumValues n = some l) (hx : x ∈ l) : Lists n x := by
  unfold collectEnumValues at h
  unfold Lists
  cases he : n.enum with
  | some l' => rw [he] at h; cases h; exact .inl ⟨_, rfl, hx⟩
  | none =>
    rw [he] at h
    cases hc : n.const with
    | none => rw [hc] at h; cases h
    | some y => rw [hc] at h; cases h; rw [List.mem_singleton.1 hx]; exact .inr rfl

theorem setAllowed_lists (m : SchemaNode) {l : List JVal} {v : JVal} (h : v ∈ l) : Lists (setAllowed m l) v := by
  match l with
  | [] => cases h
  | [x] => rw [List.mem_singleton.1 h]; exact .inr rfl
  | x :: y :: t => exact .inl ⟨_, rfl, h⟩

/-- What the lists of values become. -/
structure MergedValues (m n : SchemaNode) (e : Option (List JVal)) (k : Option JVal) : Prop where
  oneList : e = none ∨ k = none
  someValue : ∀ l, e = some l → l ≠ []
  pick : ∀ v, (∃ l, e = some l ∧ v ∈ l) ∨ k = some v → Lists m v ∨ Lists n v
  none : m.enum = .none → m.const = .none → n.enum = .none → n.const = .none → e = .none ∧ k = .none
  /-- a value on the list is on both lists -/
  below : ∀ v, (∀ l, e = some l → ∃ x ∈ l, SameJson x v) → (∀ x, k = some x → SameJson x v) →
    ((∀ l, m.enum = some l → ∃ x ∈ l, SameJson x v) ∧ ∀ x, m.const = some x → SameJson x v) ∧
    ((∀ l, n.enum = some l → ∃ x ∈ l, SameJson x v) ∧ ∀ x, n.const = some x → SameJson x v)
  /-- a value on both lists is on the list -/
  above : ∀ v, OnLists m v → OnLists n v → (∀ l, e = some l → ∃ x ∈ l, SameJson x v) ∧ ∀ x, k = some x → SameJson x v
  /-- the same for the value as it is written -/
  stays : ∀ v, v.WF → Lists m v ∨ Lists n v → (m.enum ≠ .none ∨ m.const ≠ .none → Lists m v) →
    (n.enum ≠ .none ∨ n.const ≠ .none → Lists n v) → (∃ l, e = some l ∧ v ∈ l) ∨ k = some v

/-- The values as one list. -/
theorem collect_spec {n : SchemaNode} (h : n.enum = none ∨ n.const = none) (hs : ∀ l, n.enum = some l → l ≠ []) :
    match collectEnumValues n with
    | none => n.enum = none ∧ n.const = none
    | some l => l ≠ [] ∧ (∀ v, v ∈ l ↔ Lists n v) ∧
      ∀ v, (∃ x ∈ l, SameJson x v) →
        ((∀ l, n.enum = some l → ∃ x ∈ l, SameJson x v) ∧ ∀ x, n.const = some x → SameJson x v) := by
  unfold collectEnumValues Lists
  cases he : n.enum with
  | some l =>
    have hc : n.const = none := h.resolve_left (by rw [he]; nofun)
    rw [hc]
    refine ⟨hs l he, fun v => by simp, fun v hv => ⟨?_, nofun⟩⟩
    rintro l' ⟨⟩; exact hv
  | none =>
    cases hc : n.const with
    | none => exact ⟨rfl, rfl⟩
    | some x =>
      refine ⟨by simp, fun v => by simp [eq_comm], fun v hv => ⟨nofun, ?_⟩⟩
      rintro y ⟨⟩
      obtain ⟨y, hy, h⟩ := hv
      rw [List.mem_singleton] at hy
      exact hy ▸ h

/-- Writing one list back. -/
theorem setAllowed_spec (m : SchemaNode) {l : List JVal} (hl : l ≠ []) :
    ∃ e k, setAllowed m l = { m with enum := e, const := k } ∧ (e = none ∨ k = none) ∧ (∀ l', e = some l' → l' ≠ []) ∧
      (∀ v, (∃ l', e = some l' ∧ v ∈ l') ∨ k = some v → v ∈ l) ∧
      ∀ v, (∀ l', e = some l' → ∃ x ∈ l', SameJson x v) → (∀ x, k = some x → SameJson x v) → ∃ x ∈ l, SameJson x v := by
  have many : ∀ l : List JVal, l ≠ [] → setAllowed m l = { m with enum := some l, const := none } →
      ∃ e k, setAllowed m l = { m with enum := e, const := k } ∧ (e = none ∨ k = none) ∧ (∀ l', e = some l' → l' ≠ []) ∧
      (∀ v, (∃ l', e = some l' ∧ v ∈ l') ∨ k = some v → v ∈ l) ∧
      ∀ v, (∀ l', e = some l' → ∃ x ∈ l', SameJson x v) → (∀ x, k = some x → SameJson x v) → ∃ x ∈ l, SameJson x v := by
    intro l hl h
    refine ⟨some l, none, h, .inr rfl, ?_, ?_, fun v h1 _ => h1 l rfl⟩
    · rintro l' ⟨⟩; exact hl
    · rintro v (⟨l', ⟨⟩, hv⟩ | hv)
      · exact hv
      · cases hv
  match l, hl with
  | [x], _ =>
    refine ⟨none, some x, rfl, .inl rfl, nofun, ?_, fun v _ h2 => ⟨x, by simp, h2 x rfl⟩⟩
    rintro v (⟨l', hl, _⟩ | hv)
    · cases hl
    · cases hv; simp
  | x :: y :: t, h => exact many _ h rfl

theorem mergeEnum_quiet {m m0 n r : SchemaNode} {s s' : PSt} (hm : m.enum = none ∨ m.const = none) (hn : n.enum = none ∨ n.const = none)
    (hm' : ∀ l, m.enum = some l → l ≠ []) (hn' : ∀ l, n.enum = some l → l ≠ [])
    (wm : ∀ v, Lists m v → v.WF) (wn : ∀ v, Lists n v → v.WF)
    (h : mergeEnumAndConst m0 n s = .ok r s') (he : s'.errors = [])
    (h0 : m0.enum = m.enum ∧ m0.const = m.const := by exact ⟨rfl, rfl⟩) :
    ∃ e k, r = { m0 with enum := e, const := k } ∧ s' = s ∧ MergedValues m n e k := by
  have hcm : collectEnumValues m0 = collectEnumValues m := by unfold collectEnumValues; rw [h0.1, h0.2]
  unfold mergeEnumAndConst at h
  rw [hcm] at h
  have sm := collect_spec hm hm'
  have sn := collect_spec hn hn'
  cases hl : collectEnumValues m with
  | none =>
    rw [hl] at h sm
    cases hr : collectEnumValues n with
    | none =>
      rw [hr] at h sn
      obtain ⟨rfl, rfl⟩ := pure_ok.1 h
      refine ⟨none, none, ?_, rfl, .inl rfl, nofun, ?_, fun _ _ _ _ => ⟨rfl, rfl⟩, ?_, ?_, ?_⟩
      · have h1 := h0.1.trans sm.1
        have h2 := h0.2.trans sm.2
        cases m0 with | mk nb => cases nb; simp_all
      · rintro v (⟨l, h, _⟩ | h) <;> cases h
      · intro v _ _
        rw [sm.1, sm.2, sn.1, sn.2]
        exact ⟨⟨nofun, nofun⟩, nofun, nofun⟩
      · exact fun v _ _ => ⟨nofun, nofun⟩
      · rintro v - (hv | hv) - -
        · obtain ⟨l, hl, _⟩ | hc := hv
          · rw [sm.1] at hl; cases hl
          · rw [sm.2] at hc; cases hc
        · obtain ⟨l, hl, _⟩ | hc := hv
          · rw [sn.1] at hl; cases hl
          · rw [sn.2] at hc; cases hc
    | some l =>
      rw [hr] at h sn
      obtain ⟨rfl, rfl⟩ := pure_ok.1 h
      obtain ⟨e, k, h1, h2, h3, h4, h5⟩ := setAllowed_spec m0 sn.1
      refine ⟨e, k, h1, rfl, h2, h3, fun v hv => .inr ((sn.2.1 v).1 (h4 v hv)), ?_, ?_, ?_, ?_⟩
      · intro _ _ e1 e2
        unfold collectEnumValues at hr
        rw [e1, e2] at hr
        cases hr
      · intro v a b
        rw [sm.1, sm.2]
        exact ⟨⟨nofun, nofun⟩, sn.2.2 v (h5 v a b)⟩
      · intro v _ hv
        have := setAllowed_above m0 (collect_above hr hv)
        rw [h1] at this
        exact this
      · intro v _ _ _ hv
        have hlist : Lists n v := hv (by
          obtain ⟨x, hx⟩ := List.exists_mem_of_ne_nil _ sn.1
          rcases (sn.2.1 x).1 hx with ⟨l, h, _⟩ | h
          · rw [h]; exact .inl nofun
          · rw [h]; exact .inr nofun)
        have := setAllowed_lists m0 ((sn.2.1 v).2 hlist)
        rw [h1] at this
        exact this
  | some l =>
    rw [hl] at h sm
    have hne : ∀ {P : Prop}, m.enum = .none → m.const = .none → P := by
      intro P e1 e2
      unfold collectEnumValues at hl
      rw [e1, e2] at hl
      cases hl
    cases hr : collectEnumValues n with
    | none =>
      rw [hr] at h sn
      obtain ⟨rfl, rfl⟩ := pure_ok.1 h
      obtain ⟨e, k, h1, h2, h3, h4, h5⟩ := setAllowed_spec m0 sm.1
      refine ⟨e, k, h1, rfl, h2, h3, fun v hv => .inl ((sm.2.1 v).1 (h4 v hv)), fun a b _ _ => hne a b, ?_, ?_, ?_⟩
      · intro v a b
        rw [sn.1, sn.2]
        exact ⟨sm.2.2 v (h5 v a b), nofun, nofun⟩
      · intro v hv _
        have := setAllowed_above m0 (collect_above hl hv)
        rw [h1] at this
        exact this
      · intro v _ _ hv _
        have hlist : Lists m v := hv (by
          obtain ⟨x, hx⟩ := List.exists_mem_of_ne_nil _ sm.1
          rcases (sm.2.1 x).1 hx with ⟨l, h, _⟩ | h
          · rw [h]; exact .inl nofun
          · rw [h]; exact .inr nofun)
        have := setAllowed_lists m0 ((sm.2.1 v).2 hlist)
        rw [h1] at this
        exact this
    | some l' =>
      rw [hr] at h sn
      dsimp only at h
      split at h
      · obtain ⟨u, s1, h1, w1⟩ := bind_ok.1 h
        obtain ⟨-, rfl⟩ := pure_ok.1 w1
        have := warnMerge_grow h1
        rw [he] at this
        simp at this
      · rename_i hi
        obtain ⟨rfl, rfl⟩ := pure_ok.1 h
        obtain ⟨e, k, h1, h2, h3, h4, h5⟩ := setAllowed_spec m0 (l := intersectEnum l l') (by
          intro h; rw [h] at hi; exact hi rfl)
        have hin : ∀ x ∈ intersectEnum l l', x ∈ l ∧ ∃ y ∈ l', SameJson x y := by
          intro x hx
          unfold intersectEnum at hx
          obtain ⟨a, b⟩ := List.mem_filter.1 hx
          obtain ⟨y, hy, hxy⟩ := List.any_eq_true.1 b
          exact ⟨a, y, hy, sameJson_of_jeq _ _ (wm x ((sm.2.1 x).1 a)) (wn y ((sn.2.1 y).1 hy)) hxy⟩
        refine ⟨e, k, h1, rfl, h2, h3, fun v hv => .inl ((sm.2.1 v).1 (hin v (h4 v hv)).1), fun a b _ _ => hne a b, ?_, ?_, ?_⟩
        · intro v a b
          obtain ⟨x, hx, hxv⟩ := h5 v a b
          obtain ⟨hx1, y, hy, hxy⟩ := hin x hx
          exact ⟨sm.2.2 v ⟨x, hx1, hxv⟩, sn.2.2 v ⟨y, hy, hxy.symm.trans hxv⟩⟩
        · intro v hv hv'
          obtain ⟨x, hx, hxv⟩ := collect_above hl hv
          obtain ⟨y, hy, hyv⟩ := collect_above hr hv'
          have := setAllowed_above m0 (l := intersectEnum l l') (v := v) ⟨x, List.mem_filter.2 ⟨hx, List.any_eq_true.2
            ⟨y, hy, (hxv.trans hyv.symm).jeq (wm x (collect_lists hl hx))⟩⟩, hxv⟩
          rw [h1] at this
          exact this
        · intro v hwf _ hv hv'
          have i1 : Lists m v := hv (by
            obtain ⟨x, hx⟩ := List.exists_mem_of_ne_nil _ sm.1
            rcases (sm.2.1 x).1 hx with ⟨l, h, _⟩ | h
            · rw [h]; exact .inl nofun
            · rw [h]; exact .inr nofun)
          have i2 : Lists n v := hv' (by
            obtain ⟨x, hx⟩ := List.exists_mem_of_ne_nil _ sn.1
            rcases (sn.2.1 x).1 hx with ⟨l, h, _⟩ | h
            · rw [h]; exact .inl nofun
            · rw [h]; exact .inr nofun)
          have := setAllowed_lists m0 (l := intersectEnum l l') (v := v) (List.mem_filter.2 ⟨(sm.2.1 v).2 i1,
            List.any_eq_true.2 ⟨v, (sn.2.1 v).2 i2, (SameJson.refl v).jeq hwf⟩⟩)
          rw [h1] at this
          exact this

theorem mergeFields_simple {F : FP} {rec : MergeRec} {t : Kind} {m n r : SchemaNode} {s s' : PSt}
    (hm : Mergeable c o t (bare m)) (hn : Mergeable c o t (bare n)) (hk : ∀ l, Keeps c (rec l))
    (h : mergeFields F rec m n s = .ok r s') (he : s'.errors = []) :
    ∃ e k pr it s1 s2, mergeMap rec m.properties n.properties s = .ok pr s1 ∧ mergeItems rec m.items n.items s1 = .ok it s2 ∧
      (∃ u m', m'.pattern = m.pattern ∧ m'.format = m.format ∧ m'.uniqueItems = m.uniqueItems ∧
        warnSimple m' n s2 = .ok u s') ∧ MergedValues m n e k ∧
      r = mergeSimple F { m with
        type := mergeTypes m.type n.type, enum := e, const := k, properties := pr, items := it
        oneOf := mergeSlicePtrs [m.oneOf, n.oneOf], anyOf := mergeSlicePtrs [m.anyOf, n.anyOf]
        allOf := mergeSlicePtrs [m.allOf, n.allOf] } n := by
  unfold mergeFields at h
  obtain ⟨m1, s1, h1, w1⟩ := bind_ok.1 h
  obtain ⟨m2, s2, h2, w2⟩ := bind_ok.1 w1
  obtain ⟨p, s3, h3, w3⟩ := bind_ok.1 w2
  have hs3 : s3 = s2 := by unfold gets at h3; injection h3 with _ h3'; exact h3'.symm
  obtain ⟨u, s4, h4, w4⟩ := bind_ok.1 w3
  obtain ⟨hr, hs4⟩ := pure_ok.1 w4
  have he1 : s1.errors = [] := by
    have k2 : Keeps c (mergeSubs rec m1 n) := keeps_mergeSubs hk _ _
    refine (k2 s1 m2 s2 h2).noErrors ?_
    have k4 : Keeps c (warnSimple (mergeIf p (mergeNot m2 n) n) n) := keeps_warnSimple _ _
    rw [← hs3]
    exact (k4 s3 u s4 h4).noErrors (by rw [hs4]; exact he)
  obtain ⟨e, k, rfl, rfl, hval⟩ := mergeEnum_quiet (hm.oneList) (hn.oneList) hm.someValue hn.someValue
    (fun v hv => (hm.listedValues v hv).1) (fun v hv => (hn.listedValues v hv).1) h1 he1
  have hval : MergedValues m n e k := ⟨hval.1, hval.2, hval.3, hval.4, hval.5, hval.6, hval.7⟩
  unfold mergeSubs at h2
  obtain ⟨a1, t1, g1, v1⟩ := bind_ok.1 h2
  obtain ⟨a2, t2, g2, v2⟩ := bind_ok.1 v1
  obtain ⟨a3, t3, g3, v3⟩ := bind_ok.1 v2
  obtain ⟨a4, t4, g4, v4⟩ := bind_ok.1 v3
  obtain ⟨a5, t5, g5, v5⟩ := bind_ok.1 v4
  obtain ⟨a6, t6, g6, v6⟩ := bind_ok.1 v5
  obtain ⟨a7, t7, g7, v7⟩ := bind_ok.1 v6
  obtain ⟨a8, t8, g8, v8⟩ := bind_ok.1 v7
  obtain ⟨hm2, e8⟩ := pure_ok.1 v8
  have q2 : a2 = none ∧ t2 = t1 := by
    have g : mergeNodeOrFalse rec m.additionalProperties n.additionalProperties t1 = .ok a2 t2 := g2
    rw [show m.additionalProperties = none from hm.additionalProperties,
      show n.additionalProperties = none from hn.additionalProperties] at g
    obtain ⟨a, b⟩ := pure_ok.1 g
    exact ⟨a.symm, b.symm⟩
  obtain ⟨rfl, rfl⟩ := q2
  have q3 : a3 = none ∧ t3 = t2 := by
    have g : mergeMap rec m.patternProperties n.patternProperties t2 = .ok a3 t3 := g3
    rw [show m.patternProperties = none from hm.patternProperties,
      show n.patternProperties = none from hn.patternProperties] at g
    obtain ⟨a, b⟩ := pure_ok.1 g
    exact ⟨a.symm, b.symm⟩
  obtain ⟨rfl, rfl⟩ := q3
  have q4 : a4 = none ∧ t4 = t3 := by
    have g : mergePrefixItems rec m.prefixItems n.prefixItems t3 = .ok a4 t4 := g4
    rw [show m.prefixItems = none from hm.prefixItems, show n.prefixItems = none from hn.prefixItems] at g
    obtain ⟨a, b⟩ := pure_ok.1 g
    exact ⟨a.symm, b.symm⟩
  obtain ⟨rfl, rfl⟩ := q4
  have q6 : a6 = none ∧ t6 = t5 := by
    have g : mergeNodeOrFalse rec m.additionalItems n.additionalItems t5 = .ok a6 t6 := g6
    rw [show m.additionalItems = none from hm.covered.additionalItems,
      show n.additionalItems = none from hn.covered.additionalItems] at g
    obtain ⟨a, b⟩ := pure_ok.1 g
    exact ⟨a.symm, b.symm⟩
  obtain ⟨rfl, rfl⟩ := q6
  have q7 : a7 = none ∧ t7 = t6 := by
    have g : mergeNodeOrFalse rec m.unevaluatedItems n.unevaluatedItems t6 = .ok a7 t7 := g7
    rw [show m.unevaluatedItems = none from hm.covered.unevaluatedItems,
      show n.unevaluatedItems = none from hn.covered.unevaluatedItems] at g
    obtain ⟨a, b⟩ := pure_ok.1 g
    exact ⟨a.symm, b.symm⟩
  obtain ⟨rfl, rfl⟩ := q7
  have q8 : a8 = none ∧ t8 = t7 := by
    have g : mergePtrs rec m.contains n.contains t7 = .ok a8 t8 := g8
    rw [show m.contains = none from hm.contains, show n.contains = none from hn.contains] at g
    obtain ⟨a, b⟩ := pure_ok.1 g
    exact ⟨a.symm, b.symm⟩
  obtain ⟨rfl, rfl⟩ := q8
  have hnot : ∀ x : SchemaNode, mergeNot x n = x := by
    intro x
    unfold mergeNot mergeNotOwn mergeNotCollected
    rw [show n.not = none from hn.covered.not, show n.mergedNot = [] from hn.covered.mergedNot]
    rfl
  have hif : ∀ x : SchemaNode, mergeIf p x n = x := by
    intro x
    unfold mergeIf
    rw [show n.ifN = none from hn.covered.ifN, show n.mergedIf = [] from hn.covered.mergedIf]
    cases x
    rfl
  have hcon : ∀ x : SchemaNode, ({ x with constraints := mergeConstraints x.constraints n.constraints } : SchemaNode) = x := by
    intro x
    rw [show n.constraints = none from hn.covered.constraints]
    cases x with | mk _ _ _ _ _ _ _ _ _ _ _ _ _ _ _ _ _ _ _ _ _ cc => cases cc <;> rfl
  rw [hnot, hif, hcon] at hr
  rw [show n.ref = none from hn.ref] at hr
  simp only [Option.isSome_none, Bool.false_eq_true, if_false] at hr
  rw [hnot, hif] at h4
  subst hs3 hs4 e8
  refine ⟨e, k, a1, a5, _, _, g1, g5, ⟨u, m2, ?_, ?_, ?_, h4⟩, hval, ?_⟩
  · rw [← hm2]
  · rw [← hm2]
  · rw [← hm2]
  · rw [← hr, ← hm2]
    congr 1
    rw [show m.additionalProperties = none from hm.additionalProperties,
      show m.patternProperties = none from hm.patternProperties, show m.prefixItems = none from hm.prefixItems,
      show m.additionalItems = none from hm.covered.additionalItems,
      show m.unevaluatedItems = none from hm.covered.unevaluatedItems, show m.contains = none from hm.contains]

/-! ## The parts -/

/-- What is known about the recursive calls. -/
def RecConcurs (c : PEnv) (o : Opts) (root : SchemaNode) (ty : ValuePath → Kind) (rec : MergeRec) : Prop :=
  ∀ b path nodes s r s', nodes ≠ [] → (∀ x ∈ nodes, Concurs c o ty b path x) → rec nodes s = .ok r s' → s'.errors = [] →
    s' = s ∧ Concurs c o ty b path r ∧ ∀ a ∈ nodes, Below c root r a

variable {rec : MergeRec} {b : Nat} {path : ValuePath} {A : SchemaNode → Prop}

theorem lookup_insert_same {β : Type} (m : List (String × β)) (k : String) (v : β) : lookupKV (insertKV m k v) k = some v := by
  induction m with
  | nil => simp [insertKV, lookupKV]
  | cons p t ih =>
    obtain ⟨k', v'⟩ := p
    unfold insertKV
    split
    · simp [lookupKV]
    · rename_i h
      simp [lookupKV, h, ih]

theorem lookup_insert_other {β : Type} (m : List (String × β)) {k j : String} (v : β) (h : j ≠ k) :
    lookupKV (insertKV m k v) j = lookupKV m j := by
  induction m with
  | nil => simp [insertKV, lookupKV, Ne.symm h]
  | cons p t ih =>
    obtain ⟨k', v'⟩ := p
    unfold insertKV
    split
    · rename_i hk
      subst hk
      simp [lookupKV, Ne.symm h]
    · simp [lookupKV, ih]

/-- Merging two maps. -/
theorem mapLoop_concurs (hk : ∀ l, Keeps c (rec l)) (hrec : RecConcurs c o root ty rec) :
    ∀ (l m r : List (String × SchemaNode)) (s s' : PSt), (keysKV l).Nodup → (keysKV m).Nodup →
      (∀ k x, (k, x) ∈ l → Concurs c o ty b (path ++ [some k]) x) →
      (∀ k x, (k, x) ∈ m → Concurs c o ty b (path ++ [some k]) x) → mergeMapLoop rec m l s = .ok r s' → s'.errors = [] →
      s' = s ∧ (keysKV r).Nodup ∧ (∀ k, k ∈ keysKV r ↔ k ∈ keysKV m ∨ k ∈ keysKV l) ∧
      (∀ k x, (k, x) ∈ r → Concurs c o ty b (path ++ [some k]) x) ∧
      (∀ k x, lookupKV m k = some x → ∃ y, lookupKV r k = some y ∧ Below c root y x) ∧
      (∀ k x, lookupKV l k = some x → ∃ y, lookupKV r k = some y ∧ Below c root y x) := by
  intro l
  induction l with
  | nil =>
    intro m r s s' _ hnm _ hm h he
    unfold mergeMapLoop at h
    obtain ⟨rfl, rfl⟩ := pure_ok.1 h
    refine ⟨rfl, hnm, fun k => by simp [keysKV], hm, fun k x hx => ⟨x, hx, .refl x⟩, fun k x hx => by simp [lookupKV] at hx⟩
  | cons p l ih =>
    obtain ⟨k, v⟩ := p
    intro m r s s' hnl hnm hl hm h he
    have hnl' : k ∉ keysKV l ∧ (keysKV l).Nodup := by simpa [keysKV] using hnl
    have hv := hl k v (by simp)
    have hl' : ∀ k x, (k, x) ∈ l → Concurs c o ty b (path ++ [some k]) x := fun k x hx => hl k x (by simp [hx])
    have key : ∀ x s1, Concurs c o ty b (path ++ [some k]) x → Below c root x v →
        (∀ y, lookupKV m k = some y → Below c root x y) → mergeMapLoop rec (insertKV m k x) l s1 = .ok r s' →
        s' = s1 ∧ (keysKV r).Nodup ∧ (∀ j, j ∈ keysKV r ↔ j ∈ keysKV m ∨ j ∈ keysKV ((k, v) :: l)) ∧
        (∀ k x, (k, x) ∈ r → Concurs c o ty b (path ++ [some k]) x) ∧
        (∀ k x, lookupKV m k = some x → ∃ y, lookupKV r k = some y ∧ Below c root y x) ∧
        (∀ j x, lookupKV ((k, v) :: l) j = some x → ∃ y, lookupKV r j = some y ∧ Below c root y x) := by
      intro x s1 hx hxv hxm hrun
      obtain ⟨i1, i2, i3, i4, i5, i6⟩ := ih (insertKV m k x) r s1 s' hnl'.2 (nodup_insertKV hnm) hl' (by
        intro j y hy
        rcases mem_insertKV hy with hy | hy
        · cases hy; exact hx
        · exact hm j y hy) hrun he
      refine ⟨i1, i2, ?_, i4, ?_, ?_⟩
      · intro j
        rw [i3, keys_insertKV]
        simp only [keysKV, List.map_cons, List.mem_cons]
        tauto
      · intro j y hy
        by_cases hj : j = k
        · subst hj
          obtain ⟨z, hz, hzx⟩ := i5 j x (lookup_insert_same m j x)
          exact ⟨z, hz, hzx.trans (hxm y hy)⟩
        · exact i5 j y (by rw [lookup_insert_other m x hj]; exact hy)
      · intro j y hy
        unfold lookupKV at hy
        split at hy
        · rename_i hj
          cases hy
          subst hj
          obtain ⟨z, hz, hzx⟩ := i5 k x (lookup_insert_same m k x)
          exact ⟨z, hz, hzx.trans hxv⟩
        · exact i6 j y hy
    unfold mergeMapLoop at h
    cases hex : lookupKV m k with
    | some existing =>
      rw [hex] at h
      simp only at h
      obtain ⟨x, s1, h1, h2⟩ := bind_ok.1 h
      have he1 : s1.errors = [] := ((keeps_mergeMapLoop hk l _) s1 r s' h2).noErrors he
      obtain ⟨rfl, hx, hbel⟩ := hrec b (path ++ [some k]) [existing, v] s x s1 (by simp) (by
        intro y hy
        rcases List.mem_cons.1 hy with rfl | hy
        · exact hm k _ (lookupKV_mem hex)
        · rw [List.mem_singleton.1 hy]; exact hv) h1 he1
      exact key x _ hx (hbel v (by simp)) (by
        intro y hy
        rw [hex] at hy
        cases hy
        exact hbel _ (by simp)) h2
    | none =>
      rw [hex] at h
      exact key v s hv (.refl v) (by intro y hy; rw [hex] at hy; cases hy) h

theorem map_concurs (hk : ∀ l, Keeps c (rec l)) (hrec : RecConcurs c o root ty rec)
    {m l r : Option (List (String × SchemaNode))} {s s' : PSt} {P : String → Prop}
    (hnl : ∀ p, l = some p → (keysKV p).Nodup ∧ ∀ k ∈ keysKV p, P k)
    (hnm : ∀ p, m = some p → (keysKV p).Nodup ∧ ∀ k ∈ keysKV p, P k)
    (hl : ∀ p k x, l = some p → (k, x) ∈ p → Concurs c o ty b (path ++ [some k]) x)
    (hm : ∀ p k x, m = some p → (k, x) ∈ p → Concurs c o ty b (path ++ [some k]) x)
    (h : mergeMap rec m l s = .ok r s') (he : s'.errors = []) :
    s' = s ∧ (∀ p, r = some p → (keysKV p).Nodup ∧ ∀ k ∈ keysKV p, P k) ∧
    (∀ p k x, r = some p → (k, x) ∈ p → Concurs c o ty b (path ++ [some k]) x) ∧
    (∀ p k x, m = some p → lookupKV p k = some x → ∃ q y, r = some q ∧ lookupKV q k = some y ∧ Below c root y x) ∧
    (∀ p k x, l = some p → lookupKV p k = some x → ∃ q y, r = some q ∧ lookupKV q k = some y ∧ Below c root y x) := by
  unfold mergeMap at h
  cases l with
  | none =>
    obtain ⟨rfl, rfl⟩ := pure_ok.1 h
    exact ⟨rfl, hnm, hm, fun p k x hp hx => ⟨p, x, hp, hx, .refl x⟩, fun p k x hp => by cases hp⟩
  | some l =>
    simp only at h
    obtain ⟨r', s1, h1, h2⟩ := bind_ok.1 h
    obtain ⟨rfl, rfl⟩ := pure_ok.1 h2
    obtain ⟨i1, i2, i3, i4, i5, i6⟩ := mapLoop_concurs hk hrec l (getZeroIfNil m []) r' s s1 (hnl l rfl).1 (by
      cases m with
      | none => simp [getZeroIfNil, keysKV]
      | some m => exact (hnm m rfl).1) (fun k x hx => hl l k x rfl hx) (by
      intro k x hx
      cases m with
      | none => simp [getZeroIfNil] at hx
      | some m => exact hm m k x rfl hx) h1 he
    refine ⟨i1, ?_, ?_, ?_, ?_⟩
    · rintro p ⟨⟩
      refine ⟨i2, fun k hk => ?_⟩
      rcases (i3 k).1 hk with hk | hk
      · cases m with
        | none => simp [getZeroIfNil, keysKV] at hk
        | some m => exact (hnm m rfl).2 k hk
      · exact (hnl l rfl).2 k hk
    · rintro p k x ⟨⟩ hx; exact i4 k x hx
    · rintro p k x rfl hx
      obtain ⟨y, hy, hb⟩ := i5 k x hx
      exact ⟨r', y, rfl, hy, hb⟩
    · rintro p k x ⟨⟩ hx
      obtain ⟨y, hy, hb⟩ := i6 k x hx
      exact ⟨r', y, rfl, hy, hb⟩

/-- Merging `items`. -/
theorem items_concurs (hrec : RecConcurs c o root ty rec)
    {m l r : Option (ItemsData SchemaNode)} {s s' : PSt}
    (hdl : ∀ d, l = some d → d.disallow = false ∧ d.nodes.getD [] = [])
    (hdm : ∀ d, m = some d → d.disallow = false ∧ d.nodes.getD [] = [])
    (hl : ∀ d x, l = some d → d.node = some x → Concurs c o ty b (path ++ [none]) x)
    (hm : ∀ d x, m = some d → d.node = some x → Concurs c o ty b (path ++ [none]) x)
    (h : mergeItems rec m l s = .ok r s') (he : s'.errors = []) :
    s' = s ∧ (∀ d, r = some d → d.disallow = false ∧ d.nodes.getD [] = []) ∧
    (∀ d x, r = some d → d.node = some x → Concurs c o ty b (path ++ [none]) x) ∧
    (∀ d x, m = some d → d.node = some x → ∃ q y, r = some q ∧ q.node = some y ∧ Below c root y x) ∧
    (∀ d x, l = some d → d.node = some x → ∃ q y, r = some q ∧ q.node = some y ∧ Below c root y x) := by
  have keep : r = m → s' = s → (∀ d x, l = some d → d.node ≠ some x) → _ := fun e1 e2 hn =>
    (⟨e2, by rw [e1]; exact hdm, by rw [e1]; exact hm, fun d x hd hx => ⟨d, x, by rw [e1, hd], hx, .refl x⟩,
      fun d x hd hx => (hn d x hd hx).elim⟩ :
      s' = s ∧ (∀ d, r = some d → d.disallow = false ∧ d.nodes.getD [] = []) ∧
      (∀ d x, r = some d → d.node = some x → Concurs c o ty b (path ++ [none]) x) ∧
      (∀ d x, m = some d → d.node = some x → ∃ q y, r = some q ∧ q.node = some y ∧ Below c root y x) ∧
      (∀ d x, l = some d → d.node = some x → ∃ q y, r = some q ∧ q.node = some y ∧ Below c root y x))
  unfold mergeItems at h
  cases l with
  | none =>
    obtain ⟨rfl, rfl⟩ := pure_ok.1 h
    exact keep rfl rfl (fun _ _ h => by cases h)
  | some d =>
    simp only at h
    cases hd : d.node with
    | none =>
      rw [hd] at h
      obtain ⟨rfl, rfl⟩ := pure_ok.1 h
      refine keep rfl rfl ?_
      rintro _ x ⟨⟩ hx
      rw [hd] at hx
      cases hx
    | some x =>
      rw [hd] at h
      simp only at h
      have hz : (getZeroIfNil m {}).disallow = false ∧ (getZeroIfNil m {}).nodes.getD [] = [] := by
        cases m with
        | none => exact ⟨rfl, rfl⟩
        | some m => exact hdm m rfl
      rw [if_neg (by rw [hz.1, (hdl d rfl).1]; simp)] at h
      cases hmn : (getZeroIfNil m {}).node with
      | none =>
        rw [hmn] at h
        obtain ⟨rfl, rfl⟩ := pure_ok.1 h
        refine ⟨rfl, ?_, ?_, ?_, ?_⟩
        · rintro _ ⟨⟩; exact hz
        · rintro _ y ⟨⟩ hy; cases hy; exact hl d x rfl hd
        · rintro d' y rfl hy
          rw [show (getZeroIfNil (some d') {} : ItemsData SchemaNode) = d' from rfl, hy] at hmn
          cases hmn
        · rintro _ y ⟨⟩ hy
          rw [hd] at hy
          cases hy
          exact ⟨_, x, rfl, rfl, .refl x⟩
      | some y =>
        rw [hmn] at h
        simp only at h
        obtain ⟨z, s1, h1, h2⟩ := bind_ok.1 h
        obtain ⟨rfl, rfl⟩ := pure_ok.1 h2
        have hmy : ∃ d', m = some d' ∧ d'.node = some y := by
          cases m with
          | none => simp [getZeroIfNil] at hmn
          | some d' => exact ⟨d', rfl, hmn⟩
        obtain ⟨d', hd', hy'⟩ := hmy
        obtain ⟨rfl, ha, hb⟩ := hrec b (path ++ [none]) [y, x] s z s1 (by simp) (by
          intro w hw
          rcases List.mem_cons.1 hw with rfl | hw
          · exact hm d' _ hd' hy'
          · rw [List.mem_singleton.1 hw]; exact hl d x rfl hd) h1 he
        refine ⟨rfl, ?_, ?_, ?_, ?_⟩
        · rintro _ ⟨⟩; exact hz
        · rintro _ w ⟨⟩ hw; cases hw; exact ha
        · rintro d2 w hd2 hw
          rw [hd'] at hd2
          cases hd2
          rw [hy'] at hw
          cases hw
          exact ⟨_, z, rfl, rfl, hb _ (by simp)⟩
        · rintro _ w ⟨⟩ hw
          rw [hd] at hw
          cases hw
          exact ⟨_, z, rfl, rfl, hb _ (by simp)⟩


/-! ## The merged schema -/

theorem mergeTypes_same {t : String} (ht : t ∈ jsonTypes) {m n : Option MultipleType}
    (hm : ∀ x, m = some x → x = { single := t }) (hn : ∀ x, n = some x → x = { single := t }) :
    (∀ x, mergeTypes m n = some x → x = { single := t }) ∧ (∀ x, m = some x → mergeTypes m n = some x) ∧
      (∀ x, n = some x → mergeTypes m n = some x) := by
  have hne : t ≠ "" := by rintro rfl; exact absurd ht (by decide)
  cases n with
  | none => exact ⟨hm, fun x hx => hx, fun x hx => by cases hx⟩
  | some y =>
    have hy := hn y rfl
    subst hy
    have : mergeTypes m (some { single := t }) = some { single := t } := by
      unfold mergeTypes
      simp [hne]
    rw [this]
    exact ⟨fun x hx => by cases hx; rfl, fun x hx => by rw [hm x hx], fun x hx => hx⟩

/-- The schema that one iteration yields. -/
abbrev joined (F : FP) (m n : SchemaNode) (e : Option (List JVal)) (k : Option JVal) (pr : Option (List (String × SchemaNode))) (it : Option (ItemsData SchemaNode)) :
    SchemaNode :=
  mergeSimple F { m with
    type := mergeTypes m.type n.type, enum := e, const := k, properties := pr, items := it
    oneOf := mergeSlicePtrs [m.oneOf, n.oneOf], anyOf := mergeSlicePtrs [m.anyOf, n.anyOf]
    allOf := mergeSlicePtrs [m.allOf, n.allOf] } n

theorem getPtr_pick {α : Type} {a b : Option α} {x : α} (h : getPtr [a, b] = some x) : a = some x ∨ b = some x := by
  cases a with
  | some a => exact .inl h
  | none => cases b with
    | some b => exact .inr h
    | none => cases h

theorem joined_mergeable {t : Kind} {m n : SchemaNode} {pr : Option (List (String × SchemaNode))}
    {it : Option (ItemsData SchemaNode)} (hm : Mergeable c o t (bare m)) (hn : Mergeable c o t (bare n))
    (hval : MergedValues m n e k) (hpr1 : m.properties = none → n.properties = none → pr = none)
    (hit1 : m.items = none → n.items = none → it = none)
    (hpr : ∀ p, pr = some p → (keysKV p).Nodup ∧ ∀ k ∈ keysKV p, PlainName k ∧ ¬ Invented k)
    (hit : ∀ d, it = some d → d.disallow = false ∧ d.nodes.getD [] = []) :
    Mergeable c o t (bare (joined c.fp m n e k pr it)) where
  covered :=
    { not := hm.covered.not
      oneOf := by
        show mergeSlicePtrs [m.oneOf, n.oneOf] = none
        rw [show m.oneOf = none from hm.covered.oneOf, show n.oneOf = none from hn.covered.oneOf]
        rfl
      ifN := hm.covered.ifN
      dependentRequired := hm.covered.dependentRequired
      dependentSchemas := hm.covered.dependentSchemas
      additionalItems := hm.covered.additionalItems
      unevaluatedItems := hm.covered.unevaluatedItems
      maxContains := by
        show minPtr [n.maxContains, m.maxContains] = none
        rw [show m.maxContains = none from hm.covered.maxContains, show n.maxContains = none from hn.covered.maxContains]
        rfl
      itemsList := fun x hx => (hit x hx).2
      id := hm.covered.id
      mergedIf := hm.covered.mergedIf
      mergedNot := hm.covered.mergedNot
      constraints := hm.covered.constraints }
  ref := hm.ref
  anyOf := rfl
  definitions := rfl
  defs := rfl
  unlisted := fun h =>
    hval.none (hm.unlisted h).1 (hm.unlisted h).2 (hn.unlisted h).1 (hn.unlisted h).2
  listed := fun h => by
    have a := hm.listed h
    have b := hn.listed h
    have two : ∀ {α : Type} (f : List (Option α) → Option α), f [none, none] = none → ∀ {x y : Option α}, x = none → y = none →
        f [x, y] = none := by
      intro α f hf x y hx hy
      rw [hx, hy, hf]
    exact
      { minimum := by
          show maxPtr [n.minimum, m.minimum] = none
          exact two _ rfl b.minimum a.minimum
        maximum := by
          show minPtr [n.maximum, m.maximum] = none
          exact two _ rfl b.maximum a.maximum
        exclusiveMinimum := by
          show maxPtr [n.exclusiveMinimum, m.exclusiveMinimum] = none
          exact two _ rfl b.exclusiveMinimum a.exclusiveMinimum
        exclusiveMaximum := by
          show minPtr [n.exclusiveMaximum, m.exclusiveMaximum] = none
          exact two _ rfl b.exclusiveMaximum a.exclusiveMaximum
        minLength := by
          show maxPtr [n.minLength, m.minLength] = none
          exact two _ rfl b.minLength a.minLength
        maxLength := by
          show minPtr [n.maxLength, m.maxLength] = none
          exact two _ rfl b.maxLength a.maxLength
        pattern := by
          show getPtr [n.pattern, m.pattern] = none
          exact two _ rfl b.pattern a.pattern
        items := hit1 a.items b.items
        minItems := by
          show maxPtr [n.minItems, m.minItems] = none
          exact two _ rfl b.minItems a.minItems
        maxItems := by
          show minPtr [n.maxItems, m.maxItems] = none
          exact two _ rfl b.maxItems a.maxItems
        uniqueItems := by
          show getPtr [n.uniqueItems, m.uniqueItems] = none
          exact two _ rfl b.uniqueItems a.uniqueItems
        properties := hpr1 a.properties b.properties
        required := by
          show mergeSlicePtrs [m.required, n.required] = none
          exact two _ rfl a.required b.required
        minProperties := by
          show maxPtr [n.minProperties, m.minProperties] = none
          exact two _ rfl b.minProperties a.minProperties
        maxProperties := by
          show minPtr [n.maxProperties, m.maxProperties] = none
          exact two _ rfl b.maxProperties a.maxProperties }
  listedValues := fun v hv => (hval.pick v hv).elim (hm.listedValues v) (hn.listedValues v)
  someValue := hval.someValue
  oneList := hval.oneList
  additionalProperties := hm.additionalProperties
  patternProperties := hm.patternProperties
  prefixItems := hm.prefixItems
  contains := hm.contains
  minContains := by
    show maxPtr [n.minContains, m.minContains] = none
    rw [show m.minContains = none from hm.minContains, show n.minContains = none from hn.minContains]
    rfl
  multipleOf := by
    show findHcf c.fp n.multipleOf m.multipleOf = none
    rw [show m.multipleOf = none from hm.multipleOf, show n.multipleOf = none from hn.multipleOf]
    rfl
  known := hm.known
  type := (mergeTypes_same hm.known hm.type hn.type).1
  items := fun x hx => (hit x hx).1
  names := hpr
  requiredNames := by
    intro l hl k hk
    rcases (mem_mergeSlicePtrs hl k).1 hk with ⟨p, hp, hk⟩ | ⟨p, hp, hk⟩
    · exact hm.requiredNames p hp k hk
    · exact hn.requiredNames p hp k hk
  minProperties := by
    intro k hk
    rcases maxPtr_pick hk with hk | hk
    · exact hn.minProperties k hk
    · exact hm.minProperties k hk
  maxProperties := by
    intro k hk
    have key : ∀ x : SchemaNode, Mergeable c o t (bare x) → x.maxProperties = some k →
        (∀ y, x.minProperties = some y → ∃ z, maxPtr [n.minProperties, m.minProperties] = some z ∧ y ≤ z) →
        0 < k ∧ ((maxPtr [n.minProperties, m.minProperties]).getD 0 = 0 → o.defaultObjectMinProperties ≤ k) := by
      intro x hx hk hmin
      obtain ⟨h1, h2⟩ := hx.maxProperties k hk
      refine ⟨h1, fun h0 => h2 ?_⟩
      show x.minProperties.getD 0 = 0
      cases hy : x.minProperties with
      | none => rfl
      | some y =>
        obtain ⟨z, hz, hyz⟩ := hmin y hy
        rw [hz] at h0
        have := hx.minProperties y hy
        simp only [Option.getD_some] at h0 ⊢
        omega
    rcases minPtr_pick hk with hk | hk
    · exact key n hn hk fun y hy => maxPtr_left hy
    · exact key m hm hk fun y hy => maxPtr_right hy
  minItems := by
    intro k hk
    rcases maxPtr_pick hk with hk | hk
    · exact hn.minItems k hk
    · exact hm.minItems k hk
  maxItems := by
    intro k hk
    have key : ∀ x : SchemaNode, Mergeable c o t (bare x) → x.maxItems = some k →
        (∀ y, x.minItems = some y → ∃ z, maxPtr [n.minItems, m.minItems] = some z ∧ y ≤ z) →
        0 < k ∧ ((maxPtr [n.minItems, m.minItems]).getD 0 = 0 → o.defaultArrayMinItems ≤ k) := by
      intro x hx hk hmin
      obtain ⟨h1, h2⟩ := hx.maxItems k hk
      refine ⟨h1, fun h0 => h2 ?_⟩
      show x.minItems.getD 0 = 0
      cases hy : x.minItems with
      | none => rfl
      | some y =>
        obtain ⟨z, hz, hyz⟩ := hmin y hy
        rw [hz] at h0
        have := hx.minItems y hy
        simp only [Option.getD_some] at h0 ⊢
        omega
    rcases minPtr_pick hk with hk | hk
    · exact key n hn hk fun y hy => maxPtr_left hy
    · exact key m hm hk fun y hy => maxPtr_right hy
  string :=
    { maximum := by
        intro k hk
        rcases minPtr_pick hk with hk | hk
        · exact hn.string.maximum k hk
        · exact hm.string.maximum k hk
      pattern := by
        intro p hp
        rcases getPtr_pick hp with hp | hp
        · exact hn.string.pattern p hp
        · exact hm.string.pattern p hp }
  arithmetic := hm.arithmetic
  magnitude :=
    { minimum := by
        intro x hx
        rcases maxPtr_pick hx with hx | hx
        · exact hn.magnitude.minimum x hx
        · exact hm.magnitude.minimum x hx
      maximum := by
        intro x hx
        rcases minPtr_pick hx with hx | hx
        · exact hn.magnitude.maximum x hx
        · exact hm.magnitude.maximum x hx
      exclusiveMinimum := by
        intro x hx
        rcases maxPtr_pick hx with hx | hx
        · exact hn.magnitude.exclusiveMinimum x hx
        · exact hm.magnitude.exclusiveMinimum x hx
      exclusiveMaximum := by
        intro x hx
        rcases minPtr_pick hx with hx | hx
        · exact hn.magnitude.exclusiveMaximum x hx
        · exact hm.magnitude.exclusiveMaximum x hx
      multipleOf := by
        intro x hx
        have hx : findHcf c.fp n.multipleOf m.multipleOf = some x := hx
        rw [show m.multipleOf = none from hm.multipleOf, show n.multipleOf = none from hn.multipleOf] at hx
        cases hx }
  doubles := by
    intro hf
    obtain ⟨_, t1, t2⟩ := mergeTypes_same hm.known hm.type hn.type
    rcases hm.doubles hf with h | ⟨a1, a2, a3, a4⟩
    · exact .inl (t1 _ h)
    rcases hn.doubles hf with h | ⟨b1, b2, b3, b4⟩
    · exact .inl (t2 _ h)
    refine .inr ⟨?_, ?_, ?_, ?_⟩
    · intro x hx
      rcases maxPtr_pick hx with hx | hx
      · exact b1 x hx
      · exact a1 x hx
    · intro x hx
      rcases minPtr_pick hx with hx | hx
      · exact b2 x hx
      · exact a2 x hx
    · intro x hx
      rcases maxPtr_pick hx with hx | hx
      · exact b3 x hx
      · exact a3 x hx
    · intro x hx
      rcases minPtr_pick hx with hx | hx
      · exact b4 x hx
      · exact a4 x hx

/-- How a value passes from the merged schema to one of the two. -/
theorem joined_below {t : Kind} {r x : SchemaNode} (hx : Mergeable c o t (bare x)) {v : JVal}
    (hv : Valid (patternMeaning c) root r v)
    (type : ∀ y, x.type = some y → r.type = some y)
    (values : (∀ l, r.enum = some l → ∃ y ∈ l, SameJson y v) → (∀ y, r.const = some y → SameJson y v) →
      (∀ l, x.enum = some l → ∃ y ∈ l, SameJson y v) ∧ ∀ y, x.const = some y → SameJson y v)
    (minimum : ∀ y, x.minimum = some y → ∃ z, r.minimum = some z ∧ y ≤ z)
    (maximum : ∀ y, x.maximum = some y → ∃ z, r.maximum = some z ∧ z ≤ y)
    (exclusiveMinimum : ∀ y, x.exclusiveMinimum = some y → ∃ z, r.exclusiveMinimum = some z ∧ y ≤ z)
    (exclusiveMaximum : ∀ y, x.exclusiveMaximum = some y → ∃ z, r.exclusiveMaximum = some z ∧ z ≤ y)
    (minLength : ∀ y, x.minLength = some y → ∃ z, r.minLength = some z ∧ y ≤ z)
    (maxLength : ∀ y, x.maxLength = some y → ∃ z, r.maxLength = some z ∧ z ≤ y)
    (minItems : ∀ y, x.minItems = some y → ∃ z, r.minItems = some z ∧ y ≤ z)
    (maxItems : ∀ y, x.maxItems = some y → ∃ z, r.maxItems = some z ∧ z ≤ y)
    (minProperties : ∀ y, x.minProperties = some y → ∃ z, r.minProperties = some z ∧ y ≤ z)
    (maxProperties : ∀ y, x.maxProperties = some y → ∃ z, r.maxProperties = some z ∧ z ≤ y)
    (pattern : ∀ y, x.pattern = some y → r.pattern = some y)
    (uniqueItems : ∀ y, x.uniqueItems = some y → r.uniqueItems = some y)
    (required : ∀ l k, x.required = some l → k ∈ l → ∃ l', r.required = some l' ∧ k ∈ l')
    (allOf : ∀ l y, x.allOf = some l → y ∈ l → ∃ l', r.allOf = some l' ∧ y ∈ l')
    (anyOf : ∀ l, x.anyOf = some l → r.anyOf = some l)
    (properties : ∀ p k y, x.properties = some p → lookupKV p k = some y →
      ∃ q z, r.properties = some q ∧ lookupKV q k = some z ∧ Below c root z y)
    (prefixItems : r.prefixItems = none)
    (items : ∀ d y, x.items = some d → d.node = some y → ∃ q z, r.items = some q ∧ q.node = some z ∧ Below c root z y) :
    Valid (patternMeaning c) root x v := by
  obtain ⟨_, _, target, alternative, found, hcov, hl, h1, h2, h3, h4, h5, h6, h7, h8, h9, h10, h11, h12⟩ := hv
  have hpl : prefixLength r = prefixLength x := by
    unfold prefixLength
    rw [prefixItems, show x.prefixItems = none from hx.prefixItems]
  refine .basic x v target alternative found ⟨hx.covered.1, hx.covered.2, hx.covered.3, hx.covered.4, hx.covered.5, hx.covered.6, hx.covered.7, hx.covered.8, hx.covered.9, hx.covered.10, hx.covered.11, hx.covered.12, hx.covered.13⟩ ?_ ?_ ?_ ?_ ?_ ?_ ?_ ?_ ?_ ?_ ?_ ?_ ?_
  · exact
      { type := fun y hy => hl.type y (type y hy)
        enum := (values hl.enum hl.const).1
        const := (values hl.enum hl.const).2
        number := by
          intro q hq
          obtain ⟨n1, n2, n3, n4, _⟩ := hl.number q hq
          refine ⟨?_, ?_, ?_, ?_, ?_⟩
          · intro y hy
            obtain ⟨z, hz, hyz⟩ := minimum y hy
            exact hyz.trans (n1 z hz)
          · intro y hy
            obtain ⟨z, hz, hyz⟩ := maximum y hy
            exact (n2 z hz).trans hyz
          · intro y hy
            obtain ⟨z, hz, hyz⟩ := exclusiveMinimum y hy
            exact lt_of_le_of_lt hyz (n3 z hz)
          · intro y hy
            obtain ⟨z, hz, hyz⟩ := exclusiveMaximum y hy
            exact lt_of_lt_of_le (n4 z hz) hyz
          · intro y hy
            have hy : x.multipleOf = some y := hy
            rw [show x.multipleOf = none from hx.multipleOf] at hy
            cases hy
        minLength := by
          intro t y ht hy
          obtain ⟨z, hz, hyz⟩ := minLength y hy
          exact hyz.trans (hl.minLength t z ht hz)
        maxLength := by
          intro t y ht hy
          obtain ⟨z, hz, hyz⟩ := maxLength y hy
          exact (hl.maxLength t z ht hz).trans hyz
        pattern := fun t p ht hp => hl.pattern t p ht (pattern p hp)
        minItems := by
          intro t y ht hy
          obtain ⟨z, hz, hyz⟩ := minItems y hy
          exact hyz.trans (hl.minItems t z ht hz)
        maxItems := by
          intro t y ht hy
          obtain ⟨z, hz, hyz⟩ := maxItems y hy
          exact (hl.maxItems t z ht hz).trans hyz
        uniqueItems := fun l hv hu => hl.uniqueItems l hv (uniqueItems _ hu)
        itemsFalse := by
          intro l d _ hd hf
          rw [hx.items d hd] at hf
          cases hf
        minProperties := by
          intro t y ht hy
          obtain ⟨z, hz, hyz⟩ := minProperties y hy
          exact hyz.trans (hl.minProperties t z ht hz)
        maxProperties := by
          intro t y ht hy
          obtain ⟨z, hz, hyz⟩ := maxProperties y hy
          exact (hl.maxProperties t z ht hz).trans hyz
        required := by
          intro mm l k hv hr hk
          obtain ⟨l', hl', hk'⟩ := required l k hr hk
          exact hl.required mm l' k hv hl' hk'
        additionalFalse := by
          intro mm d k y _ hd
          rw [show x.additionalProperties = none from hx.additionalProperties] at hd
          cases hd }
  · intro r hr; rw [show x.ref = none from hx.ref] at hr; cases hr
  · intro r hr; rw [show x.ref = none from hx.ref] at hr; cases hr
  · intro l y hy hm
    obtain ⟨l', hl', hm'⟩ := allOf l y hy hm
    exact h3 l' y hl' hm'
  · exact fun l h => h4 l (anyOf l h)
  · exact fun l h => h5 l (anyOf l h)
  · intro mm p k y sub hv hp hk hs
    obtain ⟨q, z, hq, hz, hb⟩ := properties p k sub hp hs
    exact hb y (h6 mm q k y z hv hq hk hz)
  · intro mm p _ _ _ _ _ hp
    rw [show x.patternProperties = none from hx.patternProperties] at hp
    cases hp
  · intro mm p _ _ _ _ hp
    rw [show x.additionalProperties = none from hx.additionalProperties] at hp
    cases hp
  · intro l p _ _ _ _ hp
    rw [show x.prefixItems = none from hx.prefixItems] at hp
    cases hp
  · intro l d i y sub hv hd hn hi hl
    obtain ⟨q, z, hq, hz, hb⟩ := items d sub hd hn
    exact hb y (h10 l q i y z hv hq hz (by rw [hpl]; exact hi) hl)
  · intro l p _ hp
    rw [show x.contains = none from hx.contains] at hp
    cases hp
  · intro l p _ _ hp
    rw [show x.contains = none from hx.contains] at hp
    cases hp

/-- One iteration: an agreeing schema is merged with another one, which may have alternatives. -/
theorem fields_concur (hk : ∀ l, Keeps c (rec l)) (hrec : RecConcurs c o root ty rec) {m n r : SchemaNode} {s s' : PSt}
    (hm : Concurs c o ty b path m) (hn : Combines c o ty A b path n) (h : mergeFields c.fp rec m n s = .ok r s')
    (he : s'.errors = []) :
    s' = s ∧ Combines c o ty A b path r ∧ r.defs = none ∧ r.definitions = none ∧ r.anyOf = n.anyOf ∧ Below c root r m ∧
      Below c root r n := by
  obtain ⟨hn0, hany0, hany⟩ := hn
  obtain ⟨hmm, ms, mall, mprops, mitems⟩ := hm
  generalize hn' : ({ n with anyOf := none, defs := none, definitions := none } : SchemaNode) = n' at hn0
  obtain ⟨hnn, ns, nall, nprops, nitems⟩ := hn0
  subst hn'
  rename_i b
  have hmb : bare m = m := by
    unfold bare
    have h1 := hmm.anyOf; have h2 := hmm.defs; have h3 := hmm.definitions
    cases m
    simp_all
  have hmm' : Mergeable c o (ty path) (bare m) := by rw [hmb]; exact hmm
  have hnn' : Mergeable c o (ty path) (bare n) := hnn
  obtain ⟨e, k, pr, it, s1, s2, g1, g2, ⟨u, m', w1, w2, w3, g3⟩, hval, rfl⟩ := mergeFields_simple hmm' hnn' hk h he
  obtain ⟨rfl, p1, p2, p3⟩ := warnSimple_quiet g3 he
  have k2 : Keeps c (mergeItems rec m.items n.items) := keeps_mergeItems hk _ _
  have he1 : s1.errors = [] := (k2 s1 it s' g2).noErrors he
  obtain ⟨rfl, i1, i2, i3, i4⟩ := items_concurs (b := b) (path := path) hrec
    (fun d hd => ⟨hnn'.items d hd, hnn'.covered.itemsList d hd⟩)
    (fun d hd => ⟨hmm.items d hd, hmm.covered.itemsList d hd⟩) nitems mitems g2 he
  obtain ⟨rfl, m1, m2, m3, m4⟩ := map_concurs (b := b) (path := path) hk hrec hnn'.names hmm.names nprops mprops g1 he
  have hpr1 : m.properties = none → n.properties = none → pr = none := by
    intro e1 e2
    rw [e1, e2] at g1
    exact (pure_ok.1 g1).1.symm
  have hit1 : m.items = none → n.items = none → it = none := by
    intro e1 e2
    rw [e1, e2] at g2
    exact (pure_ok.1 g2).1.symm
  have hj := joined_mergeable (pr := pr) (it := it) hmm' hnn' hval hpr1 hit1 m1 i1
  have hanyR : (joined c.fp m n e k pr it).anyOf = n.anyOf := by
    show mergeSlicePtrs [m.anyOf, n.anyOf] = n.anyOf
    rw [hmm.anyOf]
    exact mergeSlice_none_left hany0
  obtain ⟨_, t1, t2⟩ := mergeTypes_same hmm.known hmm.type hnn'.type
  refine ⟨rfl, ⟨?_, ?_, ?_⟩, hmm.defs, hmm.definitions, hanyR, ?_, ?_⟩
  · refine .intro hj ?_ ?_ m2 i2
    · intro l hl
      exact mergeSlice_ne (show mergeSlicePtrs [m.allOf, n.allOf] = some l from hl)
    · intro l x hl hx
      rcases (mem_mergeSlicePtrs (show mergeSlicePtrs [m.allOf, n.allOf] = some l from hl) x).1 hx with ⟨p, hp, hx⟩ | ⟨p, hp, hx⟩
      · exact mall p x hp hx
      · exact nall p x hp hx
  · intro l hl
    exact hany0 l (hanyR ▸ hl)
  · intro l x hl hx
    exact hany l x (hanyR ▸ hl) hx
  · intro v hv
    refine joined_below hmm' hv t1 (fun a b => (hval.below v a b).1) (fun y hy => maxPtr_right hy) (fun y hy => minPtr_right hy)
      (fun y hy => maxPtr_right hy) (fun y hy => minPtr_right hy) (fun y hy => maxPtr_right hy) (fun y hy => minPtr_right hy)
      (fun y hy => maxPtr_right hy) (fun y hy => minPtr_right hy) (fun y hy => maxPtr_right hy) (fun y hy => minPtr_right hy)
      ?_ ?_ (fun l k hl hk => mergeSlice_left hl hk) (fun l y hl hy => mergeSlice_left hl hy) ?_ m3 ?_ i3
    · intro y hy
      show getPtr [n.pattern, m.pattern] = some y
      cases hp : n.pattern with
      | none => rw [hy]; rfl
      | some z => rw [p1 y z (w1.trans hy) hp]; rfl
    · intro y hy
      show getPtr [n.uniqueItems, m.uniqueItems] = some y
      cases hp : n.uniqueItems with
      | none => rw [hy]; rfl
      | some z => rw [p3 y z (w3.trans hy) hp]; rfl
    · intro l hl
      rw [hmm.anyOf] at hl
      cases hl
    · exact hmm.prefixItems
  · intro v hv
    refine joined_below hnn' hv t2 (fun a b => (hval.below v a b).2) (fun y hy => maxPtr_left hy) (fun y hy => minPtr_left hy)
      (fun y hy => maxPtr_left hy) (fun y hy => minPtr_left hy) (fun y hy => maxPtr_left hy) (fun y hy => minPtr_left hy)
      (fun y hy => maxPtr_left hy) (fun y hy => minPtr_left hy) (fun y hy => maxPtr_left hy) (fun y hy => minPtr_left hy)
      ?_ ?_ (fun l k hl hk => mergeSlice_right hl hk) (fun l y hl hy => mergeSlice_right hl hy) ?_ m4 ?_ i4
    · intro y hy
      show getPtr [n.pattern, m.pattern] = some y
      rw [hy]; rfl
    · intro y hy
      show getPtr [n.uniqueItems, m.uniqueItems] = some y
      rw [hy]; rfl
    · intro l hl
      exact hanyR.trans hl
    · exact hmm.prefixItems

/-! ## Whole merges -/

theorem Concurs.mergeable {n : SchemaNode} (h : Concurs c o ty b path n) : Mergeable c o (ty path) n := by
  cases h; assumption

theorem Concurs.bare_eq {n : SchemaNode} (h : Concurs c o ty b path n) : bare n = n := by
  have hm := h.mergeable
  unfold bare
  have h1 := hm.anyOf; have h2 := hm.defs; have h3 := hm.definitions
  cases n
  simp_all

theorem Concurs.combines {n : SchemaNode} (h : Concurs c o ty b path n) : Combines c o ty A b path n := by
  have hb := h.bare_eq
  have ha := h.mergeable.anyOf
  refine ⟨?_, ?_, ?_⟩
  · show Concurs c o ty b path (bare n)
    rw [hb]
    exact h
  · intro l hl; rw [ha] at hl; cases hl
  · intro l x hl; rw [ha] at hl; cases hl

theorem Combines.concurs {n : SchemaNode} (h : Combines c o ty A b path n) (h1 : n.anyOf = none) (h2 : n.defs = none)
    (h3 : n.definitions = none) : Concurs c o ty b path n := by
  have : bare n = n := by
    unfold bare
    cases n
    simp_all
  have h' : Concurs c o ty b path (bare n) := h.own
  rwa [this] at h'

/-- The empty schema agrees with everything. -/
theorem Combines.empty {n : SchemaNode} (h : Combines c o ty A b path n) : Concurs c o ty b path emptyNode := by
  generalize hb : ({ n with anyOf := none, defs := none, definitions := none } : SchemaNode) = x at *
  have ho := h.own
  rw [hb] at ho
  obtain ⟨hm, _⟩ := ho
  refine .intro ?_ nofun nofun nofun nofun
  exact
    { covered := ⟨rfl, rfl, rfl, rfl, rfl, rfl, rfl, rfl, nofun, rfl, rfl, rfl, rfl⟩
      ref := rfl, anyOf := rfl, definitions := rfl, defs := rfl, unlisted := fun _ => ⟨rfl, rfl⟩
      listed := fun _ => ⟨rfl, rfl, rfl, rfl, rfl, rfl, rfl, rfl, rfl, rfl, rfl, rfl, rfl, rfl, rfl⟩
      listedValues := by rintro v (⟨l, h, _⟩ | h) <;> cases h
      someValue := nofun, oneList := .inl rfl, additionalProperties := rfl
      patternProperties := rfl, prefixItems := rfl, contains := rfl, minContains := rfl, multipleOf := rfl
      known := hm.known, type := nofun, items := nofun, names := nofun, requiredNames := nofun
      minProperties := nofun, maxProperties := nofun, minItems := nofun, maxItems := nofun
      string := ⟨nofun, nofun⟩, arithmetic := hm.arithmetic, magnitude := ⟨nofun, nofun, nofun, nofun, nofun⟩
      doubles := fun _ => .inr ⟨nofun, nofun, nofun, nofun⟩ }

theorem Mergeable.noAllOf {t : Kind} {n : SchemaNode} (h : Mergeable c o t n) : Mergeable c o t { n with allOf := none } :=
  ⟨⟨h.covered.1, h.covered.2, h.covered.3, h.covered.4, h.covered.5, h.covered.6, h.covered.7, h.covered.8, h.covered.9,
    h.covered.10, h.covered.11, h.covered.12, h.covered.13⟩, h.2, h.3, h.4, h.5, h.6,
    fun e => ⟨(h.7 e).1, (h.7 e).2, (h.7 e).3, (h.7 e).4, (h.7 e).5, (h.7 e).6, (h.7 e).7, (h.7 e).8, (h.7 e).9, (h.7 e).10,
      (h.7 e).11, (h.7 e).12, (h.7 e).13, (h.7 e).14, (h.7 e).15⟩, h.8, h.9, h.10, h.11, h.12, h.13,
    h.14, h.15, h.16, h.17, h.18, h.19, h.20, h.21, h.22, h.23, h.24, h.25, ⟨h.string.1, h.string.2⟩, h.27,
    ⟨h.magnitude.1, h.magnitude.2, h.magnitude.3, h.magnitude.4, h.magnitude.5⟩, h.29⟩

theorem Combines.noAllOf {n : SchemaNode} (h : Combines c o ty A b path n) : Combines c o ty A b path { n with allOf := none } := by
  obtain ⟨ho, h1, h2⟩ := h
  refine ⟨?_, h1, h2⟩
  generalize hb : ({ n with anyOf := none, defs := none, definitions := none } : SchemaNode) = x at ho
  obtain ⟨hm, _, _, hp, hi⟩ := ho
  subst hb
  exact .intro hm.noAllOf nofun nofun hp hi

theorem Combines.members {n : SchemaNode} (h : Combines c o ty A b path n) {l : List SchemaNode} (hl : n.allOf = some l) :
    ∀ x ∈ l, Concurs c o ty b path x := by
  have ho := h.own
  generalize hb : ({ n with anyOf := none, defs := none, definitions := none } : SchemaNode) = x at ho
  obtain ⟨hm, _, ha, _⟩ := ho
  subst hb
  exact fun x hx => ha l x hl hx

theorem Combines.mergeable {n : SchemaNode} (h : Combines c o ty A b path n) : Mergeable c o (ty path) (bare n) :=
  Concurs.mergeable h.own

/-- A value that is valid without `allOf` and for its members. -/
theorem valid_allOf {pat : String → String → Prop} {n : SchemaNode} {v : JVal}
    (h : Valid pat root { n with allOf := none } v) (hm : ∀ l x, n.allOf = some l → x ∈ l → Valid pat root x v) :
    Valid pat root n v := by
  obtain ⟨_, _, target, alternative, found, hc, hl, h1, h2, h3, h4, h5, h6, h7, h8, h9, h10, h11, h12, chosen, o1, o2, o3, holds, i1, i2, i3, i4, ng⟩ := h
  exact .intro n v target alternative found ⟨hc.1, hc.2, hc.3, hc.4, hc.5, hc.6, hc.7, hc.8, hc.9, hc.10, hc.11, hc.12, hc.13⟩
    ⟨hl.1, hl.2, hl.3, fun q hq => ⟨(hl.4 q hq).1, (hl.4 q hq).2, (hl.4 q hq).3, (hl.4 q hq).4, (hl.4 q hq).5⟩, hl.5, hl.6, hl.7,
      hl.8, hl.9, hl.10, hl.11, hl.12, hl.13, hl.14, hl.15⟩ h1 h2 hm h4 h5 h6 h7 h8 h9 h10 h11 h12
    chosen o1 o2 o3 holds i1 i2 i3 i4 ng

/-- What a merge of agreeing schemas, the last of which may have alternatives, gives. -/
structure Merged (c : PEnv) (o : Opts) (root : SchemaNode) (ty : ValuePath → Kind) (A : SchemaNode → Prop) (b : Nat)
    (path : ValuePath) (l : List SchemaNode) (z r : SchemaNode) : Prop where
  combines : Combines c o ty A b path r
  defs : r.defs = none
  definitions : r.definitions = none
  anyOf : r.anyOf = z.anyOf
  members : ∀ a ∈ l, Below c root r a
  last : Below c root r z

/-- What is known about the recursive calls, including those with alternatives. -/
def RecCombines (c : PEnv) (o : Opts) (root : SchemaNode) (ty : ValuePath → Kind) (rec : MergeRec) : Prop :=
  ∀ A b path l z s r s', (∀ x ∈ l, Concurs c o ty b path x) → Combines c o ty A b path z → rec (l ++ [z]) s = .ok r s' →
    s'.errors = [] → s' = s ∧ Merged c o root ty A b path l z r ∧ (s.depth + 1 ≤ c.maxParseDepth → r.allOf = none)

theorem RecCombines.concurs (h : RecCombines c o root ty rec) : RecConcurs c o root ty rec := by
  intro b path nodes s r s' hne hn hr he
  obtain ⟨l, z, rfl⟩ : ∃ l z, nodes = l ++ [z] := ⟨_, _, (List.dropLast_append_getLast hne).symm⟩
  have hz := hn z (by simp)
  obtain ⟨h1, h2, _⟩ := h (fun _ => True) b path l z s r s' (fun x hx => hn x (by simp [hx])) hz.combines hr he
  refine ⟨h1, h2.combines.concurs (h2.anyOf.trans hz.mergeable.anyOf) h2.defs h2.definitions, ?_⟩
  intro a ha
  rcases List.mem_append.1 ha with ha | ha
  · exact h2.members a ha
  · rw [List.mem_singleton.1 ha]; exact h2.last

/-- One schema without a reference. -/
theorem mergeOne_plain {k : Nat} {m n : SchemaNode} {s : PSt} (h : n.ref = none) :
    mergeOne c k rec m n s = mergeFields c.fp rec m n s := by
  have e1 : mergeResolveNodeRef c k n = pure (n, false) := by
    unfold mergeResolveNodeRef
    rw [h]
  have e2 : flattenResolved rec n false = pure n := by
    unfold flattenResolved
    cases n.allOf <;> rfl
  unfold mergeOne
  rw [e1]
  show (do
    let n ← flattenResolved rec n false
    let m ← mergeFields c.fp rec m n
    leaveRef false
    pure m : P SchemaNode) s = _
  rw [e2]
  show (do
    let m ← mergeFields c.fp rec m n
    leaveRef false
    pure m : P SchemaNode) s = _
  rw [bind_apply]
  cases mergeFields c.fp rec m n s <;> rfl

theorem loop_concur (hk : ∀ l, Keeps c (rec l)) (hrec : RecConcurs c o root ty rec) {k : Nat} {z : SchemaNode} :
    ∀ (l : List SchemaNode) (m : SchemaNode) (s : PSt) (r : SchemaNode) (s' : PSt), Concurs c o ty b path m →
      (∀ x ∈ l, Concurs c o ty b path x) → Combines c o ty A b path z → mergeLoop c k rec m (l ++ [z]) s = .ok r s' →
      s'.errors = [] → s' = s ∧ Merged c o root ty A b path (m :: l) z r := by
  intro l
  induction l with
  | nil =>
    intro m s r s' hm _ hz h he
    rw [List.nil_append] at h
    unfold mergeLoop at h
    obtain ⟨x, s1, h1, h2⟩ := bind_ok.1 h
    unfold mergeLoop at h2
    obtain ⟨rfl, rfl⟩ := pure_ok.1 h2
    rw [mergeOne_plain (n := z) hz.mergeable.ref] at h1
    obtain ⟨g1, g2, g3, g4, g5, g6, g7⟩ := fields_concur hk hrec hm hz h1 he
    exact ⟨g1, g2, g3, g4, g5, fun a ha => by rw [List.mem_singleton.1 ha]; exact g6, g7⟩
  | cons n l ih =>
    intro m s r s' hm hl hz h he
    rw [List.cons_append] at h
    unfold mergeLoop at h
    obtain ⟨x, s1, h1, h2⟩ := bind_ok.1 h
    have he1 := ((keeps_mergeLoop hk _ _) s1 r s' h2).noErrors he
    have hn := hl n (by simp)
    rw [mergeOne_plain hn.mergeable.ref] at h1
    obtain ⟨rfl, g2, g3, g4, g5, g6, g7⟩ := fields_concur hk hrec hm (hn.combines (A := A)) h1 he1
    have hx := g2.concurs (g5.trans hn.mergeable.anyOf) g3 g4
    obtain ⟨i1, i2⟩ := ih x s1 r s' hx (fun y hy => hl y (by simp [hy])) hz h2 he
    refine ⟨i1, i2.combines, i2.defs, i2.definitions, i2.anyOf, ?_, i2.last⟩
    intro a ha
    have hbx := i2.members x (by simp)
    rcases List.mem_cons.1 ha with rfl | ha
    · exact hbx.trans g6
    rcases List.mem_cons.1 ha with rfl | ha
    · exact hbx.trans g7
    · exact i2.members a (by simp [ha])

theorem residual_concur (hk : ∀ l, Keeps c (rec l)) (hrec : RecCombines c o root ty rec) :
    ∀ (k : Nat) (m : SchemaNode) (s : PSt) (r : SchemaNode) (s' : PSt), Combines c o ty A b path m → m.defs = none →
      m.definitions = none → flattenResidual c rec k m s = .ok r s' → s'.errors = [] →
      s' = s ∧ Merged c o root ty A b path [] m r ∧ (s.depth + 1 ≤ c.maxParseDepth → r.allOf = none) := by
  intro k
  induction k with
  | zero => intro m s r s' _ _ _ h; simp [flattenResidual] at h
  | succ k ih =>
    intro m s r s' hm hd1 hd2 h he
    have stop : ∀ x : SchemaNode, (pure x : P SchemaNode) s = Res.ok r s' → x = m → (s.depth + 1 ≤ c.maxParseDepth → m.allOf = none) →
        s' = s ∧ Merged c o root ty A b path [] m r ∧ (s.depth + 1 ≤ c.maxParseDepth → r.allOf = none) := by
      rintro x hx rfl hdep
      obtain ⟨rfl, rfl⟩ := pure_ok.1 hx
      exact ⟨rfl, ⟨hm, hd1, hd2, rfl, nofun, .refl _⟩, hdep⟩
    unfold flattenResidual at h
    cases hal : m.allOf with
    | none => rw [hal] at h; exact stop _ h rfl fun _ => hal
    | some l =>
      rw [hal] at h
      simp only at h
      have hne : l ≠ [] := by
        have ho := hm.own
        generalize hb : ({ m with anyOf := none, defs := none, definitions := none } : SchemaNode) = x at ho
        obtain ⟨_, hs, _⟩ := ho
        subst hb
        exact hs l hal
      rw [if_neg (by simpa using hne)] at h
      obtain ⟨dd, s1, h1, h2⟩ := bind_ok.1 h
      cases h1
      by_cases hdep : s.depth + 1 > c.maxParseDepth
      · rw [if_pos hdep] at h2
        exact stop _ h2 rfl fun h => by omega
      · rw [if_neg hdep] at h2
        obtain ⟨_, s2, h3, h4⟩ := bind_ok.1 h2
        obtain ⟨m', s3, h5, h6⟩ := bind_ok.1 h4
        obtain ⟨_, s4, h7, h8⟩ := bind_ok.1 h6
        rw [modS_apply] at h3 h7
        injection h3 with _ h3
        injection h7 with _ h7
        have e4 := ((keeps_flattenResidual hk k m') s4 r s' h8).noErrors he
        have e3 : s3.errors = [] := by rw [← h7] at e4; exact e4
        obtain ⟨e, g1, _⟩ := hrec A b path l { m with allOf := none } s2 m' s3 (hm.members hal) hm.noAllOf h5 e3
        have hs4 : s4 = s := by
          rw [← h7, e, ← h3]
          cases s
          simp
        obtain ⟨i1, i2, i3⟩ := ih m' s4 r s' g1.combines g1.defs g1.definitions h8 he
        rw [hs4] at i1 i3
        refine ⟨i1, ⟨i2.combines, i2.defs, i2.definitions, i2.anyOf.trans g1.anyOf, nofun, ?_⟩, i3⟩
        intro v hv
        have hv' := i2.last v hv
        refine valid_allOf (g1.last v hv') ?_
        intro l' x hl' hx
        rw [hal] at hl'
        cases hl'
        exact g1.members x hx v hv'

/-- A merge of agreeing schemas. -/
theorem merge_concur : ∀ k : Nat, RecCombines c o root ty (mergeNodes c k) := by
  intro k
  induction k with
  | zero => intro A b path l z s r s' _ _ h; simp [mergeNodes] at h
  | succ k ih =>
    intro A b path l z s r s' hl hz h he
    have hk := fun l => keeps_mergeNodes (c := c) k l
    unfold mergeNodes mergeStep at h
    obtain ⟨m, s1, h1, h2⟩ := bind_ok.1 h
    have he1 := ((keeps_flattenResidual hk k m) s1 r s' h2).noErrors he
    obtain ⟨rfl, g⟩ := loop_concur hk ih.concurs l emptyNode s m s1 hz.empty hl hz h1 he1
    obtain ⟨i1, i2, i3⟩ := residual_concur hk ih k m s1 r s' g.combines g.defs g.definitions h2 he
    exact ⟨i1, ⟨i2.combines, i2.defs, i2.definitions, i2.anyOf.trans g.anyOf,
      fun a ha => i2.last.trans (g.members a (by simp [ha])), i2.last.trans g.last⟩, i3⟩

end Chaff
