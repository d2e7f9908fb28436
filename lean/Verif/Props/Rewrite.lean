import Verif.Model.Parse
import Verif.Spec.Refs
import Verif.Props.SchemaJson
import Verif.Props.RefText
import Verif.Props.Not
import Verif.Lemmas.DemoEnv
/-!
# C54: rewriting references changes only references
-/

namespace Chaff
open Comp

/-- Resolving the text of a reference reads the state only. -/
theorem rewriteRef_state {c : PEnv} {r : String} {s s' : PSt} {x : Except Err String} (h : rewriteRef c r s = .ok x s') :
    s' = s := by
  unfold rewriteRef at h
  obtain ⟨p, s1, h1, h⟩ := bind_ok.1 h
  have hs1 : s1 = s := by
    unfold resolveIdAndPath at h1
    obtain ⟨m, s2, h2, h9⟩ := bind_ok.1 h1
    clear h1
    have hs2 : s2 = s := by
      unfold matchDocumentRegex at h2
      split at h2
      · cases h2
      · exact (pure_ok.1 h2).2.symm
    subst hs2
    split at h9
    · obtain ⟨sc, s3, h3, h9⟩ := bind_ok.1 h9
      unfold currentScope gets at h3
      injection h3 with _ h3
      rw [← (pure_ok.1 h9).2, h3]
    · unfold resolveDocumentRef at h9
      dsimp only at h9
      split at h9
      · injection h9 with _ h9; exact h9.symm
      · split at h9
        · injection h9 with _ h9; exact h9.symm
        · split at h9
          · injection h9 with _ h9; exact h9.symm
          · split at h9
            · injection h9 with _ h9; exact h9.symm
            · injection h9 with _ h9; exact h9.symm
  subst hs1
  cases p with
  | error e => exact (pure_ok.1 h).2.symm
  | ok p => exact (pure_ok.1 h).2.symm

/-- What rewriting a member, a list of members, an item or a list of items does. -/
structure Rewritten (c : PEnv) (s : PSt) (erased : Prop) (strings : Bool) (a b : List String) : Prop where
  erased : erased
  refs : strings = true → List.Forall₂ (fun x y => rewriteRef c x s = .ok (.ok y) s) a b

mutual
theorem rewriteObj_post (c : PEnv) : ∀ (m : List (String × JVal)) (s s' : PSt) (x : Except Err (List (String × JVal))),
    rewriteObj c m s = .ok x s' → s' = s ∧ ∀ m', x = .ok m' →
      Rewritten c s (eraseRefsObj m' = eraseRefsObj m) (refsAreStringsObj m) (refTextsObj m) (refTextsObj m')
  | [], s, s', x, h => by
    rw [rewriteObj] at h
    obtain ⟨rfl, rfl⟩ := pure_ok.1 h
    refine ⟨rfl, fun m' e => ?_⟩
    injection e with e
    subst e
    exact ⟨rfl, fun _ => .nil⟩
  | p :: t, s, s', x, h => by
    rw [rewriteObj] at h
    obtain ⟨r, s1, h1, h⟩ := bind_ok.1 h
    obtain ⟨rfl, hm⟩ := rewriteMember_post c p s s1 r h1
    cases r with
    | error e =>
      obtain ⟨rfl, rfl⟩ := pure_ok.1 h
      exact ⟨rfl, fun m' e => by cases e⟩
    | ok o =>
      cases o with
      | none =>
        obtain ⟨rfl, rfl⟩ := pure_ok.1 h
        refine ⟨rfl, fun m' e => ?_⟩
        injection e with e
        subst e
        refine ⟨rfl, fun hs => ?_⟩
        rw [refsAreStringsObj, Bool.and_eq_true] at hs
        have := hm.1 rfl
        rw [this] at hs
        cases hs.1
      | some q =>
        dsimp only at h
        obtain ⟨rest, s2, h2, h⟩ := bind_ok.1 h
        obtain ⟨rfl, ht⟩ := rewriteObj_post c t s1 s2 rest h2
        cases rest with
        | error e =>
          obtain ⟨rfl, rfl⟩ := pure_ok.1 h
          exact ⟨rfl, fun m' e => by cases e⟩
        | ok l =>
          obtain ⟨rfl, rfl⟩ := pure_ok.1 h
          refine ⟨rfl, fun m' e => ?_⟩
          injection e with e
          subst e
          have hq := hm.2 q rfl
          have hl := ht l rfl
          refine ⟨by rw [eraseRefsObj, eraseRefsObj, hq.erased, hl.erased], fun hs => ?_⟩
          rw [refsAreStringsObj, Bool.and_eq_true] at hs
          rw [refTextsObj, refTextsObj]
          exact List.rel_append (hq.refs hs.1) (hl.refs hs.2)
termination_by structural l => l
theorem rewriteMember_post (c : PEnv) : ∀ (p : String × JVal) (s s' : PSt) (x : Except Err (Option (String × JVal))),
    rewriteMember c p s = .ok x s' → s' = s ∧ (x = .ok none → refsAreStringsField p = false) ∧ ∀ q, x = .ok (some q) →
      Rewritten c s (eraseRefsField q = eraseRefsField p) (refsAreStringsField p) (refTextsField p) (refTextsField q)
  | (k, v), s, s', x, h => by
    rw [rewriteMember] at h
    obtain ⟨hs, h1, h2⟩ := rewriteValue_post c k v s s' x h
    refine ⟨hs, h1, fun q e => ?_⟩
    obtain ⟨w, rfl, hw⟩ := h2 q e
    refine ⟨?_, hw.refs⟩
    rw [eraseRefsField, eraseRefsField, hw.erased]
termination_by structural p => p
theorem rewriteValue_post (c : PEnv) (k : String) : ∀ (v : JVal) (s s' : PSt) (x : Except Err (Option (String × JVal))),
    rewriteValue c k v s = .ok x s' → s' = s ∧ (x = .ok none → refsAreStringsMember k v = false) ∧
      ∀ q, x = .ok (some q) → ∃ w, q = (k, w) ∧
        Rewritten c s (eraseRefsMember k w = eraseRefsMember k v) (refsAreStringsMember k v) (refTextsMember k v)
          (refTextsMember k w)
  | .str t, s, s', x, h => by
    rw [rewriteValue] at h
    by_cases hk : k = "$ref"
    · rw [if_pos hk] at h
      obtain ⟨r, s1, h1, h⟩ := bind_ok.1 h
      obtain rfl := rewriteRef_state h1
      cases r with
      | error e =>
        obtain ⟨rfl, rfl⟩ := pure_ok.1 h
        exact ⟨rfl, (by intro e; cases e), (by intro q e; cases e)⟩
      | ok u =>
        obtain ⟨rfl, rfl⟩ := pure_ok.1 h
        refine ⟨rfl, (by intro e; cases e), fun q e => ?_⟩
        injection e with e
        injection e with e
        subst e
        refine ⟨_, rfl, ?_, fun _ => ?_⟩
        · rw [eraseRefsMember, eraseRefsMember, if_pos hk, if_pos hk]
        · rw [refTextsMember, refTextsMember, if_pos hk, if_pos hk]
          exact .cons h1 .nil
    · rw [if_neg hk] at h
      obtain ⟨rfl, rfl⟩ := pure_ok.1 h
      refine ⟨rfl, (by intro e; cases e), fun q e => ?_⟩
      injection e with e
      injection e with e
      subst e
      refine ⟨_, rfl, rfl, fun _ => ?_⟩
      rw [refTextsMember, if_neg hk]
      exact .nil
  | .obj m, s, s', x, h => by
    rw [rewriteValue] at h
    by_cases hk : k = "$ref"
    · rw [if_pos hk] at h
      obtain ⟨rfl, rfl⟩ := pure_ok.1 h
      refine ⟨rfl, fun _ => by rw [refsAreStringsMember, hk]; rfl, (by intro q e; cases e)⟩
    · rw [if_neg hk] at h
      obtain ⟨r, s1, h1, h⟩ := bind_ok.1 h
      obtain ⟨rfl, hm⟩ := rewriteObj_post c m s s1 r h1
      cases r with
      | error e =>
        obtain ⟨rfl, rfl⟩ := pure_ok.1 h
        exact ⟨rfl, (by intro e; cases e), (by intro q e; cases e)⟩
      | ok u =>
        obtain ⟨rfl, rfl⟩ := pure_ok.1 h
        refine ⟨rfl, (by intro e; cases e), fun q e => ?_⟩
        injection e with e
        injection e with e
        subst e
        have := hm u rfl
        refine ⟨_, rfl, by rw [eraseRefsMember, eraseRefsMember, this.erased], fun hs => ?_⟩
        rw [refsAreStringsMember, Bool.and_eq_true] at hs
        rw [refTextsMember, refTextsMember]
        exact this.refs hs.2
  | .arr l, s, s', x, h => by
    rw [rewriteValue] at h
    by_cases hk : k = "$ref"
    · rw [if_pos hk] at h
      obtain ⟨rfl, rfl⟩ := pure_ok.1 h
      refine ⟨rfl, fun _ => by rw [refsAreStringsMember, hk]; rfl, (by intro q e; cases e)⟩
    · rw [if_neg hk] at h
      obtain ⟨r, s1, h1, h⟩ := bind_ok.1 h
      obtain ⟨rfl, hm⟩ := rewriteItems_post c l s s1 r h1
      cases r with
      | error e =>
        obtain ⟨rfl, rfl⟩ := pure_ok.1 h
        exact ⟨rfl, (by intro e; cases e), (by intro q e; cases e)⟩
      | ok u =>
        obtain ⟨rfl, rfl⟩ := pure_ok.1 h
        refine ⟨rfl, (by intro e; cases e), fun q e => ?_⟩
        injection e with e
        injection e with e
        subst e
        have := hm u rfl
        refine ⟨_, rfl, by rw [eraseRefsMember, eraseRefsMember, this.erased], fun hs => ?_⟩
        rw [refsAreStringsMember, Bool.and_eq_true] at hs
        rw [refTextsMember, refTextsMember]
        exact this.refs hs.2
  | .null, s, s', x, h => by
    rw [rewriteValue] at h
    by_cases hk : k = "$ref"
    · rw [if_pos hk] at h
      obtain ⟨rfl, rfl⟩ := pure_ok.1 h
      exact ⟨rfl, fun _ => by rw [refsAreStringsMember, hk]; rfl, (by intro q e; cases e)⟩
    · rw [if_neg hk] at h
      obtain ⟨rfl, rfl⟩ := pure_ok.1 h
      refine ⟨rfl, (by intro e; cases e), fun q e => ?_⟩
      injection e with e
      injection e with e
      subst e
      exact ⟨_, rfl, rfl, fun _ => .nil⟩
  | .bool b, s, s', x, h => by
    rw [rewriteValue] at h
    by_cases hk : k = "$ref"
    · rw [if_pos hk] at h
      obtain ⟨rfl, rfl⟩ := pure_ok.1 h
      exact ⟨rfl, fun _ => by rw [refsAreStringsMember, hk]; rfl, (by intro q e; cases e)⟩
    · rw [if_neg hk] at h
      obtain ⟨rfl, rfl⟩ := pure_ok.1 h
      refine ⟨rfl, (by intro e; cases e), fun q e => ?_⟩
      injection e with e
      injection e with e
      subst e
      exact ⟨_, rfl, rfl, fun _ => .nil⟩
  | .num b, s, s', x, h => by
    rw [rewriteValue] at h
    by_cases hk : k = "$ref"
    · rw [if_pos hk] at h
      obtain ⟨rfl, rfl⟩ := pure_ok.1 h
      exact ⟨rfl, fun _ => by rw [refsAreStringsMember, hk]; rfl, (by intro q e; cases e)⟩
    · rw [if_neg hk] at h
      obtain ⟨rfl, rfl⟩ := pure_ok.1 h
      refine ⟨rfl, (by intro e; cases e), fun q e => ?_⟩
      injection e with e
      injection e with e
      subst e
      exact ⟨_, rfl, rfl, fun _ => .nil⟩
termination_by structural v => v
theorem rewriteItems_post (c : PEnv) : ∀ (l : List JVal) (s s' : PSt) (x : Except Err (List JVal)),
    rewriteItems c l s = .ok x s' → s' = s ∧ ∀ l', x = .ok l' →
      Rewritten c s (eraseRefsArr l' = eraseRefsArr l) (refsAreStringsArr l) (refTextsArr l) (refTextsArr l')
  | [], s, s', x, h => by
    rw [rewriteItems] at h
    obtain ⟨rfl, rfl⟩ := pure_ok.1 h
    refine ⟨rfl, fun m' e => ?_⟩
    injection e with e
    subst e
    exact ⟨rfl, fun _ => .nil⟩
  | v :: t, s, s', x, h => by
    rw [rewriteItems] at h
    obtain ⟨r, s1, h1, h⟩ := bind_ok.1 h
    obtain ⟨rfl, hm⟩ := rewriteItem_post c v s s1 r h1
    cases r with
    | error e =>
      obtain ⟨rfl, rfl⟩ := pure_ok.1 h
      exact ⟨rfl, fun m' e => by cases e⟩
    | ok w =>
      dsimp only at h
      obtain ⟨rest, s2, h2, h⟩ := bind_ok.1 h
      obtain ⟨rfl, ht⟩ := rewriteItems_post c t s1 s2 rest h2
      cases rest with
      | error e =>
        obtain ⟨rfl, rfl⟩ := pure_ok.1 h
        exact ⟨rfl, fun m' e => by cases e⟩
      | ok l =>
        obtain ⟨rfl, rfl⟩ := pure_ok.1 h
        refine ⟨rfl, fun m' e => ?_⟩
        injection e with e
        subst e
        have hq := hm w rfl
        have hl := ht l rfl
        refine ⟨by rw [eraseRefsArr, eraseRefsArr, hq.erased, hl.erased], fun hs => ?_⟩
        rw [refsAreStringsArr, Bool.and_eq_true] at hs
        rw [refTextsArr, refTextsArr]
        exact List.rel_append (hq.refs hs.1) (hl.refs hs.2)
termination_by structural l => l
theorem rewriteItem_post (c : PEnv) : ∀ (v : JVal) (s s' : PSt) (x : Except Err JVal),
    rewriteItem c v s = .ok x s' → s' = s ∧ ∀ v', x = .ok v' →
      Rewritten c s (eraseRefs v' = eraseRefs v) (refsAreStrings v) (refTexts v) (refTexts v')
  | .obj m, s, s', x, h => by
    rw [rewriteItem] at h
    obtain ⟨r, s1, h1, h⟩ := bind_ok.1 h
    obtain ⟨rfl, hm⟩ := rewriteObj_post c m s s1 r h1
    cases r with
    | error e =>
      obtain ⟨rfl, rfl⟩ := pure_ok.1 h
      exact ⟨rfl, fun m' e => by cases e⟩
    | ok u =>
      obtain ⟨rfl, rfl⟩ := pure_ok.1 h
      refine ⟨rfl, fun q e => ?_⟩
      injection e with e
      subst e
      have := hm u rfl
      refine ⟨by rw [eraseRefs, eraseRefs, this.erased], fun hs => ?_⟩
      rw [refsAreStrings] at hs
      rw [refTexts, refTexts]
      exact this.refs hs
  | .arr l, s, s', x, h => by
    rw [rewriteItem] at h
    obtain ⟨rfl, rfl⟩ := pure_ok.1 h
    refine ⟨rfl, fun q e => ?_⟩
    injection e with e
    subst e
    exact ⟨rfl, fun _ => .nil⟩
  | .null, s, s', x, h => by
    rw [rewriteItem] at h
    obtain ⟨rfl, rfl⟩ := pure_ok.1 h
    refine ⟨rfl, fun q e => ?_⟩
    injection e with e
    subst e
    exact ⟨rfl, fun _ => .nil⟩
  | .bool b, s, s', x, h => by
    rw [rewriteItem] at h
    obtain ⟨rfl, rfl⟩ := pure_ok.1 h
    refine ⟨rfl, fun q e => ?_⟩
    injection e with e
    subst e
    exact ⟨rfl, fun _ => .nil⟩
  | .num b, s, s', x, h => by
    rw [rewriteItem] at h
    obtain ⟨rfl, rfl⟩ := pure_ok.1 h
    refine ⟨rfl, fun q e => ?_⟩
    injection e with e
    subst e
    exact ⟨rfl, fun _ => .nil⟩
  | .str b, s, s', x, h => by
    rw [rewriteItem] at h
    obtain ⟨rfl, rfl⟩ := pure_ok.1 h
    refine ⟨rfl, fun q e => ?_⟩
    injection e with e
    subst e
    exact ⟨rfl, fun _ => .nil⟩
termination_by structural v => v
end

/-- **C54.** The schema after rewriting is read from a text that equals the text of the original schema in everything
but its references, and nothing else in the parser changes. -/
theorem C54_only_references_change (c : PEnv) (n n' : SchemaNode) (s s' : PSt)
    (h : rewriteReferences c n s = .ok (.ok n') s') :
    s' = s ∧ ∃ v, decodeNode v = some n' ∧ eraseRefs v = eraseRefs (encodeNode n) := by
  unfold rewriteReferences at h
  obtain ⟨r, s1, h1, h⟩ := bind_ok.1 h
  obtain ⟨rfl, hr⟩ := rewriteItem_post c _ _ _ _ h1
  cases r with
  | error e => cases (pure_ok.1 h).1
  | ok v =>
    dsimp only at h
    cases hd : decodeNode v with
    | none => rw [hd] at h; cases (pure_ok.1 h).1
    | some w =>
      rw [hd] at h
      obtain ⟨e, rfl⟩ := pure_ok.1 h
      injection e with e
      subst e
      exact ⟨rfl, v, hd, (hr v rfl).erased⟩

/-- A reference into the same document is rewritten to the current document followed by the reference. -/
theorem rewriteRef_local {c : PEnv} {r t : String} {s : PSt} (hl : LocalRef r) (h : rewriteRef c r s = .ok (.ok t) s) :
    t = (if s.resolvingId ≠ "" then s.resolvingId else s.parsingId) ++ r := by
  obtain ⟨hh, hn⟩ := hl
  obtain ⟨u, hu⟩ : ∃ u, r.toList = '#' :: u := by
    cases hx : r.toList with
    | nil => rw [hx] at hh; cases hh
    | cons a b => rw [hx] at hh; injection hh with hh; exact ⟨b, by rw [hh]⟩
  have hsp : splitHash r.toList = ([], r.toList) := by rw [hu]; rfl
  have hr : r ≠ "" := by rintro rfl; cases hu
  unfold rewriteRef at h
  obtain ⟨p, s1, h1, h⟩ := bind_ok.1 h
  unfold resolveIdAndPath at h1
  obtain ⟨m, s2, h2, h1⟩ := bind_ok.1 h1
  unfold matchDocumentRegex at h2
  rw [hsp] at h2
  dsimp only at h2
  rw [if_neg hn, String.ofList_toList] at h2
  obtain ⟨rfl, rfl⟩ := pure_ok.1 h2
  have hz : (String.ofList [], r).1 = "" := rfl
  rw [if_pos hz] at h1
  obtain ⟨sc, s3, h3, h1⟩ := bind_ok.1 h1
  unfold currentScope gets at h3
  injection h3 with h3 h4
  obtain ⟨rfl, rfl⟩ := pure_ok.1 h1
  obtain ⟨h5, _⟩ := pure_ok.1 h
  injection h5 with h5
  rw [← h5, ← h3]
  dsimp only
  unfold orRoot
  rw [if_neg hr]

/-- **C54, every reference is rewritten.** If every `$ref` in the text is a string and points into its own document, the
references of the rewritten text are the original ones, in order, each prefixed with the document they belong to. -/
theorem C54_references_made_absolute (c : PEnv) (n n' : SchemaNode) (s s' : PSt)
    (h : rewriteReferences c n s = .ok (.ok n') s') (hs : refsAreStrings (encodeNode n) = true)
    (hl : ∀ r ∈ refTexts (encodeNode n), LocalRef r) :
    ∃ v, decodeNode v = some n' ∧ eraseRefs v = eraseRefs (encodeNode n) ∧
      refTexts v = (refTexts (encodeNode n)).map
        (fun r => (if s.resolvingId ≠ "" then s.resolvingId else s.parsingId) ++ r) := by
  unfold rewriteReferences at h
  obtain ⟨r, s1, h1, h⟩ := bind_ok.1 h
  obtain ⟨rfl, hr⟩ := rewriteItem_post c _ _ _ _ h1
  cases r with
  | error e => cases (pure_ok.1 h).1
  | ok v =>
    dsimp only at h
    cases hd : decodeNode v with
    | none => rw [hd] at h; cases (pure_ok.1 h).1
    | some w =>
      rw [hd] at h
      obtain ⟨e, rfl⟩ := pure_ok.1 h
      injection e with e
      subst e
      refine ⟨v, hd, (hr v rfl).erased, ?_⟩
      have := (hr v rfl).refs hs
      clear hr hs hd h1 h
      generalize refTexts (encodeNode n) = a at this hl
      generalize refTexts v = b at this
      induction this with
      | nil => rfl
      | cons h1 _ ih =>
        rw [List.map_cons, ih (fun r hr => hl r (List.mem_cons_of_mem _ hr)), rewriteRef_local (hl _ List.mem_cons_self) h1]

mutual
theorem rewriteObj_same (c : PEnv) : ∀ (m : List (String × JVal)) (s : PSt), refsAreStringsObj m = true →
    refTextsObj m = [] → rewriteObj c m s = .ok (.ok m) s
  | [], s, _, _ => by rw [rewriteObj]; rfl
  | p :: t, s, hs, hr => by
    rw [refsAreStringsObj, Bool.and_eq_true] at hs
    rw [refTextsObj, List.append_eq_nil_iff] at hr
    rw [rewriteObj]
    refine bind_ok.2 ⟨_, s, rewriteMember_same c p s hs.1 hr.1, ?_⟩
    exact bind_ok.2 ⟨_, s, rewriteObj_same c t s hs.2 hr.2, rfl⟩
termination_by structural l => l
theorem rewriteMember_same (c : PEnv) : ∀ (p : String × JVal) (s : PSt), refsAreStringsField p = true →
    refTextsField p = [] → rewriteMember c p s = .ok (.ok (some p)) s
  | (k, v), s, hs, hr => by
    rw [rewriteMember]
    exact rewriteValue_same c k v s hs hr
termination_by structural p => p
theorem rewriteValue_same (c : PEnv) (k : String) : ∀ (v : JVal) (s : PSt), refsAreStringsMember k v = true →
    refTextsMember k v = [] → rewriteValue c k v s = .ok (.ok (some (k, v))) s
  | .str t, s, hs, hr => by
    rw [rewriteValue]
    by_cases hk : k = "$ref"
    · rw [refTextsMember, if_pos hk] at hr; cases hr
    · rw [if_neg hk]; rfl
  | .obj m, s, hs, hr => by
    rw [refsAreStringsMember, Bool.and_eq_true] at hs
    rw [refTextsMember] at hr
    have hk : k ≠ "$ref" := by simpa using hs.1
    rw [rewriteValue, if_neg hk]
    exact bind_ok.2 ⟨_, s, rewriteObj_same c m s hs.2 hr, rfl⟩
  | .arr m, s, hs, hr => by
    rw [refsAreStringsMember, Bool.and_eq_true] at hs
    rw [refTextsMember] at hr
    have hk : k ≠ "$ref" := by simpa using hs.1
    rw [rewriteValue, if_neg hk]
    exact bind_ok.2 ⟨_, s, rewriteItems_same c m s hs.2 hr, rfl⟩
  | .null, s, hs, hr => by
    rw [rewriteValue]
    by_cases hk : k = "$ref"
    · rw [refsAreStringsMember, hk] at hs; cases hs
    · rw [if_neg hk]; rfl
  | .bool b, s, hs, hr => by
    rw [rewriteValue]
    by_cases hk : k = "$ref"
    · rw [refsAreStringsMember, hk] at hs; cases hs
    · rw [if_neg hk]; rfl
  | .num b, s, hs, hr => by
    rw [rewriteValue]
    by_cases hk : k = "$ref"
    · rw [refsAreStringsMember, hk] at hs; cases hs
    · rw [if_neg hk]; rfl
termination_by structural v => v
theorem rewriteItems_same (c : PEnv) : ∀ (l : List JVal) (s : PSt), refsAreStringsArr l = true →
    refTextsArr l = [] → rewriteItems c l s = .ok (.ok l) s
  | [], s, _, _ => by rw [rewriteItems]; rfl
  | v :: t, s, hs, hr => by
    rw [refsAreStringsArr, Bool.and_eq_true] at hs
    rw [refTextsArr, List.append_eq_nil_iff] at hr
    rw [rewriteItems]
    refine bind_ok.2 ⟨_, s, rewriteItem_same c v s hs.1 hr.1, ?_⟩
    exact bind_ok.2 ⟨_, s, rewriteItems_same c t s hs.2 hr.2, rfl⟩
termination_by structural l => l
theorem rewriteItem_same (c : PEnv) : ∀ (v : JVal) (s : PSt), refsAreStrings v = true →
    refTexts v = [] → rewriteItem c v s = .ok (.ok v) s
  | .obj m, s, hs, hr => by
    rw [refsAreStrings] at hs
    rw [refTexts] at hr
    rw [rewriteItem]
    exact bind_ok.2 ⟨_, s, rewriteObj_same c m s hs hr, rfl⟩
  | .arr l, s, _, _ => by rw [rewriteItem]; rfl
  | .null, s, _, _ => by rw [rewriteItem]; rfl
  | .bool b, s, _, _ => by rw [rewriteItem]; rfl
  | .num b, s, _, _ => by rw [rewriteItem]; rfl
  | .str b, s, _, _ => by rw [rewriteItem]; rfl
termination_by structural v => v
end

/-- **C54, without references.** A schema without references (and with a faithful textual form, see C53) is returned as
it is. -/
theorem C54_no_references_unchanged (c : PEnv) (n : SchemaNode) (s : PSt) (hf : Faithful n)
    (hs : refsAreStrings (encodeNode n) = true) (hr : refTexts (encodeNode n) = []) :
    rewriteReferences c n s = .ok (.ok n) s := by
  unfold rewriteReferences
  refine bind_ok.2 ⟨_, s, rewriteItem_same c _ s hs hr, ?_⟩
  dsimp only
  rw [C53_roundtrip n hf]
  rfl

mutual
theorem replaceRefs_same (scope : String) : ∀ v : JVal, refTextsDeep v = [] → replaceRefs scope v = v
  | .obj m, h => by rw [refTextsDeep] at h; rw [replaceRefs, replaceRefsObj_same scope m h]
  | .arr l, h => by rw [refTextsDeep] at h; rw [replaceRefs, replaceRefsArr_same scope l h]
  | .null, _ => by rw [replaceRefs]
  | .bool b, _ => by rw [replaceRefs]
  | .num q, _ => by rw [replaceRefs]
  | .str s, _ => by rw [replaceRefs]
termination_by structural v => v
theorem replaceRefsObj_same (scope : String) : ∀ m : List (String × JVal), refTextsDeepObj m = [] → replaceRefsObj scope m = m
  | [], _ => by rw [replaceRefsObj]
  | p :: t, h => by
    rw [refTextsDeepObj, List.append_eq_nil_iff] at h
    rw [replaceRefsObj, replaceRefsField_same scope p h.1, replaceRefsObj_same scope t h.2]
    rfl
termination_by structural l => l
theorem replaceRefsField_same (scope : String) : ∀ p : String × JVal, refTextsDeepField p = [] → replaceRefsField scope p = [p]
  | (k, v), h => by rw [replaceRefsField]; exact replaceRefsMember_same scope k v h
termination_by structural p => p
theorem replaceRefsMember_same (scope : String) (k : String) : ∀ v : JVal, refTextsDeepMember k v = [] →
    replaceRefsMember scope k v = [(k, v)]
  | .obj m, h => by rw [refTextsDeepMember] at h; rw [replaceRefsMember, replaceRefsObj_same scope m h]
  | .arr l, h => by rw [refTextsDeepMember] at h; rw [replaceRefsMember, replaceRefsArr_same scope l h]
  | .str s, h => by
    rw [replaceRefsMember]
    by_cases hk : k = "$ref"
    · rw [refTextsDeepMember, if_pos hk] at h; cases h
    · rw [if_neg hk]
  | .null, _ => by rw [replaceRefsMember]
  | .bool b, _ => by rw [replaceRefsMember]
  | .num q, _ => by rw [replaceRefsMember]
termination_by structural v => v
theorem replaceRefsArr_same (scope : String) : ∀ l : List JVal, refTextsDeepArr l = [] → replaceRefsArr scope l = l
  | [], _ => by rw [replaceRefsArr]
  | v :: t, h => by
    rw [refTextsDeepArr, List.append_eq_nil_iff] at h
    rw [replaceRefsArr, replaceRefs_same scope v h.1, replaceRefsArr_same scope t h.2]
termination_by structural l => l
end

mutual
theorem replaceRefs_local (scope : String) : ∀ v : JVal, (∀ r ∈ refTextsDeep v, hasSchemeSep r.toList = false) →
    eraseRefs (replaceRefs scope v) = eraseRefs v ∧
      refTextsDeep (replaceRefs scope v) = (refTextsDeep v).map (scope ++ ·)
  | .obj m, h => by
    rw [refTextsDeep] at h
    obtain ⟨h1, h2⟩ := replaceRefsObj_local scope m h
    rw [replaceRefs, eraseRefs, eraseRefs, refTextsDeep, refTextsDeep, h1, h2]
    exact ⟨rfl, rfl⟩
  | .arr l, h => by
    rw [refTextsDeep] at h
    obtain ⟨h1, h2⟩ := replaceRefsArr_local scope l h
    rw [replaceRefs, eraseRefs, eraseRefs, refTextsDeep, refTextsDeep, h1, h2]
    exact ⟨rfl, rfl⟩
  | .null, _ => by rw [replaceRefs]; exact ⟨rfl, rfl⟩
  | .bool b, _ => by rw [replaceRefs]; exact ⟨rfl, rfl⟩
  | .num q, _ => by rw [replaceRefs]; exact ⟨rfl, rfl⟩
  | .str s, _ => by rw [replaceRefs]; exact ⟨rfl, rfl⟩
termination_by structural v => v
theorem replaceRefsObj_local (scope : String) : ∀ m : List (String × JVal),
    (∀ r ∈ refTextsDeepObj m, hasSchemeSep r.toList = false) →
    eraseRefsObj (replaceRefsObj scope m) = eraseRefsObj m ∧
      refTextsDeepObj (replaceRefsObj scope m) = (refTextsDeepObj m).map (scope ++ ·)
  | [], _ => by rw [replaceRefsObj]; exact ⟨rfl, rfl⟩
  | p :: t, h => by
    rw [refTextsDeepObj] at h
    obtain ⟨q, hq, h1, h2⟩ := replaceRefsField_local scope p (fun r hr => h r (List.mem_append_left _ hr))
    obtain ⟨h3, h4⟩ := replaceRefsObj_local scope t (fun r hr => h r (List.mem_append_right _ hr))
    rw [replaceRefsObj, hq, List.cons_append, List.nil_append, eraseRefsObj, eraseRefsObj, h1, h3, refTextsDeepObj,
      refTextsDeepObj, h2, h4, List.map_append]
    exact ⟨rfl, rfl⟩
termination_by structural l => l
theorem replaceRefsField_local (scope : String) : ∀ p : String × JVal,
    (∀ r ∈ refTextsDeepField p, hasSchemeSep r.toList = false) →
    ∃ q, replaceRefsField scope p = [q] ∧ eraseRefsField q = eraseRefsField p ∧
      refTextsDeepField q = (refTextsDeepField p).map (scope ++ ·)
  | (k, v), h => by
    rw [refTextsDeepField] at h
    obtain ⟨w, h1, h2, h3⟩ := replaceRefsMember_local scope k v h
    refine ⟨(k, w), ?_, ?_, ?_⟩
    · rw [replaceRefsField, h1]
    · rw [eraseRefsField, eraseRefsField, h2]
    · rw [refTextsDeepField, refTextsDeepField, h3]
termination_by structural p => p
theorem replaceRefsMember_local (scope : String) (k : String) : ∀ v : JVal,
    (∀ r ∈ refTextsDeepMember k v, hasSchemeSep r.toList = false) →
    ∃ w, replaceRefsMember scope k v = [(k, w)] ∧ eraseRefsMember k w = eraseRefsMember k v ∧
      refTextsDeepMember k w = (refTextsDeepMember k v).map (scope ++ ·)
  | .obj m, h => by
    rw [refTextsDeepMember] at h
    obtain ⟨h1, h2⟩ := replaceRefsObj_local scope m h
    refine ⟨_, by rw [replaceRefsMember], ?_, ?_⟩
    · rw [eraseRefsMember, eraseRefsMember, h1]
    · rw [refTextsDeepMember, refTextsDeepMember, h2]
  | .arr l, h => by
    rw [refTextsDeepMember] at h
    obtain ⟨h1, h2⟩ := replaceRefsArr_local scope l h
    refine ⟨_, by rw [replaceRefsMember], ?_, ?_⟩
    · rw [eraseRefsMember, eraseRefsMember, h1]
    · rw [refTextsDeepMember, refTextsDeepMember, h2]
  | .str s, h => by
    by_cases hk : k = "$ref"
    · rw [refTextsDeepMember, if_pos hk] at h
      have := h s (by simp)
      refine ⟨.str (scope ++ s), by rw [replaceRefsMember, if_pos hk, this]; rfl, ?_, ?_⟩
      · rw [eraseRefsMember, eraseRefsMember, if_pos hk, if_pos hk]
      · rw [refTextsDeepMember, refTextsDeepMember, if_pos hk, if_pos hk]; rfl
    · refine ⟨.str s, by rw [replaceRefsMember, if_neg hk], rfl, ?_⟩
      rw [refTextsDeepMember, if_neg hk]; rfl
  | .null, _ => ⟨_, by rw [replaceRefsMember], rfl, rfl⟩
  | .bool b, _ => ⟨_, by rw [replaceRefsMember], rfl, rfl⟩
  | .num q, _ => ⟨_, by rw [replaceRefsMember], rfl, rfl⟩
termination_by structural v => v
theorem replaceRefsArr_local (scope : String) : ∀ l : List JVal,
    (∀ r ∈ refTextsDeepArr l, hasSchemeSep r.toList = false) →
    eraseRefsArr (replaceRefsArr scope l) = eraseRefsArr l ∧
      refTextsDeepArr (replaceRefsArr scope l) = (refTextsDeepArr l).map (scope ++ ·)
  | [], _ => by rw [replaceRefsArr]; exact ⟨rfl, rfl⟩
  | v :: t, h => by
    rw [refTextsDeepArr] at h
    obtain ⟨h1, h2⟩ := replaceRefs_local scope v (fun r hr => h r (List.mem_append_left _ hr))
    obtain ⟨h3, h4⟩ := replaceRefsArr_local scope t (fun r hr => h r (List.mem_append_right _ hr))
    rw [replaceRefsArr, eraseRefsArr, eraseRefsArr, h1, h3, refTextsDeepArr, refTextsDeepArr, h2, h4, List.map_append]
    exact ⟨rfl, rfl⟩
termination_by structural l => l
end

/-- **C54, validator texts.** The text handed to the validator for a schema equals the schema's text in everything but its
references; each reference (none of which contains `://`) is prefixed with the current document. -/
theorem C54_validator_text (scope : String) (v : JVal) (h : ∀ r ∈ refTextsDeep v, hasSchemeSep r.toList = false) :
    eraseRefs (replaceRefs scope v) = eraseRefs v ∧
      refTextsDeep (replaceRefs scope v) = (refTextsDeep v).map (scope ++ ·) := replaceRefs_local scope v h

/-- … and is that very text when there are no references. -/
theorem C54_validator_text_same (scope : String) (v : JVal) (h : refTextsDeep v = []) : replaceRefs scope v = v :=
  replaceRefs_same scope v h

/-! ## Concrete cases and exceptions -/

/-- What a rewriting returned, written as JSON again. -/
def rewrittenText (r : Res PSt (Except Err SchemaNode)) : JVal :=
  match r with
  | .ok (.ok n) _ => encodeNode n
  | _ => .null

/-- `{"minLength": 2, "not": {"$ref": "#/$defs/a"}, "allOf": [{"$ref": "#/$defs/b"}]}`. -/
def refsDemo : SchemaNode :=
  { minLength := some 2, not := some { ref := some "#/$defs/a" }, allOf := some [{ ref := some "#/$defs/b" }] }

/-- The state of a parser that is reading `file:///x.json`. -/
def rewriteSt : PSt := { emptyPSt with parsingId := "file:///x.json" }

example : JVal.jeq (rewrittenText (rewriteReferences demoEnv refsDemo rewriteSt)) (.obj [("minLength", .num 2),
    ("not", .obj [("$ref", .str "file:///x.json#/$defs/a")]),
    ("allOf", .arr [.obj [("$ref", .str "file:///x.json#/$defs/b")]])]) = true := by decide +kernel

example : refsAreStrings (encodeNode refsDemo) = true ∧ refTexts (encodeNode refsDemo) = ["#/$defs/a", "#/$defs/b"] := by
  decide +kernel

example : LocalRef "#/$defs/a" := by unfold LocalRef; decide

/-- A `const` (or `enum`) value is data, but its `$ref` key is rewritten as well: `{"const": {"$ref": "#/a"}}` then
generates a different value. -/
theorem C54_const_altered_violation :
    JVal.jeq (rewrittenText (rewriteReferences demoEnv { const := some (.obj [("$ref", .str "#/a")]) } rewriteSt))
      (.obj [("const", .obj [("$ref", .str "file:///x.json#/a")])]) = true := by decide +kernel

/-- A property that is called `$ref` stops the rewriting of its siblings that come later in the (random) order of the map:
the reference in `x` is rewritten or not depending on that order. -/
theorem C54_property_called_ref_violation :
    JVal.jeq (rewrittenText (rewriteReferences demoEnv
        { properties := some [("$ref", {}), ("x", { ref := some "#/a" })] } rewriteSt))
      (.obj [("properties", .obj [("$ref", .obj []), ("x", .obj [("$ref", .str "#/a")])])]) = true ∧
    JVal.jeq (rewrittenText (rewriteReferences demoEnv
        { properties := some [("x", { ref := some "#/a" }), ("$ref", {})] } rewriteSt))
      (.obj [("properties", .obj [("$ref", .obj []), ("x", .obj [("$ref", .str "file:///x.json#/a")])])]) = true := by
  decide +kernel

/-- A reference to another site is removed from the text given to the validator, which then accepts more. -/
theorem C54_external_reference_dropped_violation : JVal.jeq (replaceRefs "d" (.obj [("$ref", .str "https://x/y")])) (.obj []) =
    true := by decide +kernel

end Chaff
