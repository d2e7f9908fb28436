import Verif.Model.Parse
import Verif.Lemmas.Comp
/-!
# C43, C44: reference text and cycle-check keys
-/

namespace Chaff
open Comp

/-- Specification: some newline comes after a `#`. -/
def NewlineAfterHash (ref : String) : Prop := ∃ a b, ref.toList = a ++ '#' :: b ∧ '\n' ∈ b

/-- Specification: `doc` and `frag` are the two parts of a reference: nothing is lost, the document part has no
`#`, and the fragment is empty or starts with the first `#`. -/
def SplitsInto (ref doc frag : String) : Prop :=
  doc ++ frag = ref ∧ '#' ∉ doc.toList ∧ (frag = "" ∨ frag.toList.head? = some '#')

theorem splitHash_append (l : List Char) : (splitHash l).1 ++ (splitHash l).2 = l := by
  induction l with
  | nil => rfl
  | cons c t ih =>
    unfold splitHash
    split
    · rfl
    · simp [ih]

theorem splitHash_fst (l : List Char) : '#' ∉ (splitHash l).1 := by
  induction l with
  | nil => simp [splitHash]
  | cons c t ih =>
    unfold splitHash
    split
    · simp
    · rename_i h
      simp only [List.mem_cons, not_or]
      exact ⟨fun h' => h h'.symm, ih⟩

theorem splitHash_snd (l : List Char) : (splitHash l).2 = [] ∨ (splitHash l).2.head? = some '#' := by
  induction l with
  | nil => simp [splitHash]
  | cons c t ih =>
    unfold splitHash
    split
    · rename_i h; right; simp [h]
    · exact ih

theorem splitHash_snd_eq (l a b : List Char) (ha : '#' ∉ a) (h : l = a ++ '#' :: b) : splitHash l = (a, '#' :: b) := by
  subst h
  induction a with
  | nil => simp [splitHash]
  | cons x t ih =>
    simp only [List.mem_cons, not_or] at ha
    simp only [List.cons_append, splitHash, if_neg (fun h => ha.1 (Eq.symm h)), ih ha.2]

theorem splitHash_none (l : List Char) (h : '#' ∉ l) : splitHash l = (l, []) := by
  induction l with
  | nil => rfl
  | cons x t ih =>
    simp only [List.mem_cons, not_or] at h
    simp only [splitHash, if_neg (fun h' => h.1 (Eq.symm h')), ih h.2]

theorem newline_iff (ref : String) : '\n' ∈ (splitHash ref.toList).2 ↔ NewlineAfterHash ref := by
  constructor
  · intro h
    rcases splitHash_snd ref.toList with h' | h'
    · rw [h'] at h; simp at h
    · cases hs : (splitHash ref.toList).2 with
      | nil => rw [hs] at h; simp at h
      | cons x t =>
        rw [hs] at h h'
        simp at h'
        subst h'
        refine ⟨(splitHash ref.toList).1, t, ?_, ?_⟩
        · rw [← hs, splitHash_append]
        · simpa using h
  · rintro ⟨a, b, h, hb⟩
    have key : ∀ (l a b : List Char), l = a ++ '#' :: b → '\n' ∈ b → '\n' ∈ (splitHash l).2 := by
      intro l
      induction l with
      | nil => intro a b h; simp at h
      | cons x t ih =>
        intro a b h hb
        unfold splitHash
        split
        · cases a with
          | nil => simp at h; simp [h.2, hb]
          | cons y a' => simp at h; simp [h.2, hb]
        · rename_i hx
          cases a with
          | nil => simp at h; exact (hx h.1).elim
          | cons y a' =>
            simp at h
            exact ih a' b h.2 hb
    exact key _ a b h hb

theorem ofList_append (a b : List Char) : String.ofList a ++ String.ofList b = String.ofList (a ++ b) := by
  apply String.toList_injective
  simp

theorem splitsInto_split (ref : String) :
    SplitsInto ref (String.ofList (splitHash ref.toList).1) (String.ofList (splitHash ref.toList).2) := by
  refine ⟨?_, ?_, ?_⟩
  · rw [ofList_append, splitHash_append]; simp
  · simpa using splitHash_fst ref.toList
  · rcases splitHash_snd ref.toList with h | h
    · left; rw [h]
    · right; simpa using h

/-- Specification is deterministic: a reference has only one such split. -/
theorem splitsInto_unique {ref d f d' f' : String} (h : SplitsInto ref d f) (h' : SplitsInto ref d' f') :
    d = d' ∧ f = f' := by
  have key : ∀ {d f : String}, SplitsInto ref d f → splitHash ref.toList = (d.toList, f.toList) := by
    intro d f ⟨h1, h2, h3⟩
    have e : ref.toList = d.toList ++ f.toList := by rw [← h1]; simp
    rcases h3 with h3 | h3
    · subst h3
      simp at e
      rw [e]
      exact splitHash_none _ h2
    · cases hf : f.toList with
      | nil => rw [hf] at h3; simp at h3
      | cons x t =>
        rw [hf] at h3 e
        simp at h3
        subst h3
        exact splitHash_snd_eq _ _ _ h2 e
  have a := key h
  have b := key h'
  rw [a] at b
  injection b with b1 b2
  exact ⟨String.toList_injective b1, String.toList_injective b2⟩

/-- C43: splitting the text of a reference leaves the parser state alone; it panics exactly when a newline
comes after a `#`, and otherwise yields the one split of the text into a document and a fragment. -/
theorem C43_reference_text (ref : String) (s : PSt) :
    (NewlineAfterHash ref ∧ ∃ e, matchDocumentRegex ref s = .panic e) ∨
    (¬ NewlineAfterHash ref ∧ ∃ doc frag, SplitsInto ref doc frag ∧
      matchDocumentRegex ref s = .ok (doc, frag) s) := by
  unfold matchDocumentRegex
  by_cases h : '\n' ∈ (splitHash ref.toList).2
  · left
    refine ⟨(newline_iff ref).1 h, "index out of range", ?_⟩
    simp [h]
  · right
    refine ⟨fun h' => h ((newline_iff ref).2 h'), _, _, splitsInto_split ref, ?_⟩
    simp [h]

example : SplitsInto "https://a/b#/c" "https://a/b" "#/c" := by
  refine ⟨rfl, by decide +kernel, Or.inr (by decide +kernel)⟩
example : NewlineAfterHash "a#b\nc" := ⟨['a'], ['b', '\n', 'c'], by decide +kernel, by decide +kernel⟩

/-- C43, at the level of a schema: parsing a node that holds only a reference with a newline after a `#`
panics, whatever the configuration and the state. -/
theorem C43_newline_reference_panics (c : PEnv) (ref : String) (s : PSt) (h : NewlineAfterHash ref)
    (hall : hasAllOfStep ref.toList = false) : ∃ e, parseReference c ref s = .panic e := by
  rcases C43_reference_text ref s with ⟨_, e, he⟩ | ⟨h', _⟩
  · refine ⟨e, ?_⟩
    unfold parseReference
    simp only [hall]
    unfold handleDeferred
    simp [Comp.bind_apply, he]
  · exact (h' h).elim

example : NewlineAfterHash "#\n" ∧ hasAllOfStep "#\n".toList = false :=
  ⟨⟨[], ['\n'], by decide +kernel, by decide +kernel⟩, by decide +kernel⟩

/-! ## C44 -/

theorem splitBar_append (a b : List Char) (h : '|' ∉ a) : splitBar (a ++ '|' :: b) = (a, b) := by
  induction a with
  | nil => simp [splitBar]
  | cons x t ih =>
    simp only [List.mem_cons, not_or] at h
    simp only [List.cons_append, splitBar, if_neg (fun h' => h.1 (Eq.symm h')), ih h.2]

theorem resKey_toList (d r : String) : (resKey d r).toList = d.toList ++ '|' :: r.toList := by
  simp [resKey]

/-- C44: among documents whose names contain no `|`, the cycle check confuses no two references. -/
theorem C44_cycle_keys (d r d' r' : String) (h : '|' ∉ d.toList) (h' : '|' ∉ d'.toList) :
    resKey d r = resKey d' r' ↔ d = d' ∧ r = r' := by
  constructor
  · intro e
    have e1 : splitBar (resKey d r).toList = splitBar (resKey d' r').toList := by rw [e]
    rw [resKey_toList, resKey_toList, splitBar_append _ _ h, splitBar_append _ _ h'] at e1
    injection e1 with e1 e2
    exact ⟨String.toList_injective e1, String.toList_injective e2⟩
  · rintro ⟨rfl, rfl⟩; rfl

/-- C44: a reference is reported as already being resolved exactly when it was pushed and not popped: the stack
`l` of pushed references is any list of documents and paths. -/
theorem C44_has_resolved (d r : String) (l : List (String × String)) (s : PSt) (h : '|' ∉ d.toList)
    (hl : ∀ p ∈ l, '|' ∉ p.1.toList) (hs : s.resolutions = l.map (fun p => resKey p.1 p.2)) :
    hasRes d r s = .ok (decide ((d, r) ∈ l)) s := by
  unfold hasRes gets
  show Res.ok (decide (resKey d r ∈ s.resolutions)) s = _
  rw [hs]
  congr 1
  apply decide_eq_decide.2
  constructor
  · intro hm
    obtain ⟨p, hp, e⟩ := List.mem_map.1 hm
    obtain ⟨e1, e2⟩ := (C44_cycle_keys _ _ _ _ (hl p hp) h).1 e
    rw [← e1, ← e2]; exact hp
  · intro hm
    exact List.mem_map.2 ⟨_, hm, rfl⟩

/-- C44: after pushing a reference, the scope read back is the one pushed. -/
theorem C44_current_scope (d r : String) (s : PSt) (h : '|' ∉ d.toList) :
    ∃ s', pushRes d r s = .ok () s' ∧ currentResolution s'.resolutions = (d, r) := by
  refine ⟨_, rfl, ?_⟩
  simp only [currentResolution]
  rw [resKey_toList, splitBar_append _ _ h]
  simp

/-- C44: popping undoes pushing. -/
theorem C44_push_pop (d r : String) (s : PSt) : (do pushRes d r; popRes) s = .ok () s := by
  simp [Comp.bind_apply, pushRes, popRes]

example : ('|' ∉ "https://a/b.json".toList) ∧ ('|' ∉ "file:///w/b.json".toList) := by decide +kernel

/-- C44 fails for document names with a `|`: two different references with the same key. -/
theorem C44_bar_violation : ∃ d r d' r', (d, r) ≠ (d', r') ∧ resKey d r = resKey d' r' :=
  ⟨"a|b", "c", "a", "b|c", by decide +kernel, by decide +kernel⟩

end Chaff
