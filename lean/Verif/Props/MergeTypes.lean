import Verif.Props.Merge
import Verif.Lemmas.Concurs
/-!
# C65: which type a merge keeps

For schemas without references and nested `allOf` the outcome of merging the `type` keywords is determined exactly.
-/

namespace Chaff
open Comp

variable {c : PEnv} {k : Nat} {nodes : List SchemaNode} {r : SchemaNode} {s s' : PSt}

/-- What the schema's `type` keyword allows, if it has one. -/
def TypeAllowed (n : SchemaNode) (t : String) : Prop := ∀ l, declaredTypes n = some l → t ∈ l

theorem declared_merge {m n r : SchemaNode} (h : r.type = mergeTypes m.type n.type) :
    declaredTypes r = (declaredTypes n).or (declaredTypes m) := by
  unfold declaredTypes
  rw [h]
  unfold mergeTypes
  rcases hn : n.type with _ | ⟨u, l⟩
  · simp
  · dsimp only
    by_cases hu : u = ""
    · subst hu
      rcases l with _ | _ | ⟨a, l⟩
      · rcases m.type with _ | t <;> simp [getZeroIfNil]
      · rcases m.type with _ | t <;> simp [getZeroIfNil]
      · simp
    · simp [hu]

theorem declared_loop {rec : MergeRec} (hr : ∀ n ∈ nodes, n.ref = none ∧ n.allOf = none) :
    ∀ {m : SchemaNode} {s : PSt}, m.allOf = none → mergeLoop c k rec m nodes s = .ok r s' →
      r.allOf = none ∧ declaredTypes r = ((nodes.filterMap declaredTypes).getLast?).or (declaredTypes m) := by
  induction nodes with
  | nil =>
    intro m s hm h
    obtain ⟨rfl, -⟩ := pure_ok.1 h
    exact ⟨hm, by simp⟩
  | cons n t ih =>
    intro m s hm h
    obtain ⟨m1, s1, h1, h2⟩ := bind_ok.1 h
    obtain ⟨hn1, hn2⟩ := hr n List.mem_cons_self
    rw [mergeOne_plain hn1] at h1
    obtain ⟨f, -⟩ := mergeFields_inv (c := c) h1
    have ha : m1.allOf = none := by rw [f.allOf, hm, hn2]; rfl
    obtain ⟨g1, g2⟩ := ih (fun x hx => hr x (List.mem_cons_of_mem _ hx)) ha h2
    refine ⟨g1, ?_⟩
    rw [g2, declared_merge f.type, List.filterMap_cons]
    cases hd : declaredTypes n with
    | none => simp
    | some l =>
      rw [List.getLast?_cons]
      cases (t.filterMap declaredTypes).getLast? <;> simp

/-- **C65 (exact).** The merge declares the types that the last schema with a `type` declares, whatever the others say. -/
theorem C65_last_type_wins (hr : ∀ n ∈ nodes, n.ref = none ∧ n.allOf = none) (h : mergeNodes c k nodes s = .ok r s') :
    declaredTypes r = (nodes.filterMap declaredTypes).getLast? := by
  cases k with
  | zero => cases h
  | succ k =>
    obtain ⟨m, s1, h1, h2⟩ := bind_ok.1 h
    obtain ⟨g1, g2⟩ := declared_loop hr (m := emptyNode) rfl h1
    have : r = m := by
      cases k with
      | zero => cases h2
      | succ k => unfold flattenResidual at h2; rw [g1] at h2; exact (pure_ok.1 h2).1.symm
    rw [this, g2]
    simp [declaredTypes, emptyNode]

/-- **C65 (exactly when it holds).** The merge allows exactly the types that every merged schema allows if and only if the
last schema with a `type` allows no more than each of the others.  Types are compared by name: `integer` does not count
as a `number` here. -/
theorem C65_intersection_iff_last_strictest (hr : ∀ n ∈ nodes, n.ref = none ∧ n.allOf = none)
    (h : mergeNodes c k nodes s = .ok r s') :
    (∀ t, TypeAllowed r t ↔ ∀ n ∈ nodes, TypeAllowed n t) ↔
      ∀ l, (nodes.filterMap declaredTypes).getLast? = some l → ∀ n ∈ nodes, ∀ t ∈ l, TypeAllowed n t := by
  have e := C65_last_type_wins hr h
  constructor
  · intro H l hl n hn t ht
    refine (H t).1 (fun l' hl' => ?_) n hn
    rw [e, hl] at hl'
    cases hl'
    exact ht
  · intro H t
    constructor
    · intro hrt n hn l' hl'
      cases hl : (nodes.filterMap declaredTypes).getLast? with
      | none =>
        rw [List.getLast?_eq_none_iff] at hl
        have : l' ∈ nodes.filterMap declaredTypes := List.mem_filterMap.2 ⟨n, hn, hl'⟩
        rw [hl] at this
        cases this
      | some l => exact H l hl n hn t (hrt l (e.trans hl)) l' hl'
    · intro ha l hl
      rw [e] at hl
      obtain ⟨n, hn, hnl⟩ := List.mem_filterMap.1 (List.mem_of_getLast? hl)
      exact ha n hn l hnl

/-- Three schemas, the last of which says nothing about types: the second one wins, and the types are intersected because
it is the strictest; in the other order they are not. -/
def typeLists : List SchemaNode :=
  [{ type := some { multiple := some ["string", "null"] } }, { type := some { single := "string" } }, { minLength := some 2 }]

example : ∃ r s', mergeNodes demoEnv 5 typeLists emptyPSt = .ok r s' ∧
    decide (declaredTypes r = some ["string"]) = true := Res.witness (by decide +kernel)

example : ∃ r s', mergeNodes demoEnv 5 typeLists emptyPSt = .ok r s' ∧ ∀ t, TypeAllowed r t ↔ ∀ n ∈ typeLists, TypeAllowed n t := by
  obtain ⟨r, s', h, -⟩ : ∃ r s', mergeNodes demoEnv 5 typeLists emptyPSt = .ok r s' ∧ decide (declaredTypes r = some ["string"]) = true :=
    Res.witness (by decide +kernel)
  have hr : ∀ n ∈ typeLists, n.ref = none ∧ n.allOf = none := by
    intro n hn
    simp only [typeLists, List.mem_cons, List.mem_nil_iff, or_false] at hn
    rcases hn with rfl | rfl | rfl <;> exact ⟨rfl, rfl⟩
  refine ⟨r, s', h, (C65_intersection_iff_last_strictest hr h).2 ?_⟩
  intro l hl n hn t ht
  have hl : l = ["string"] := by cases hl; rfl
  rw [hl, List.mem_singleton] at ht
  subst ht
  simp only [typeLists, List.mem_cons, List.mem_nil_iff, or_false] at hn
  rcases hn with rfl | rfl | rfl <;> (intro l hl; cases hl <;> simp)

end Chaff
