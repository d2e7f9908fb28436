import Verif.Props.RefCombine
/-!
# C70: without a base location no reference in a combination is followed

`C70_default_base_violation` (Props/RefCombine.lean) shows one schema for which the default options lose a reference in a
combination.  Here: for every schema, every working directory and every local reference.
-/

namespace Chaff
open Comp

/-- The pieces of a text that ends in `/` and a name. -/
theorem splitSlash_last (a b : List Char) (hb : '/' ∉ b) : ∃ l, splitSlash (a ++ '/' :: b) = l ++ [b] := by
  have hfree : ∀ b : List Char, '/' ∉ b → splitSlash b = [b] := by
    intro b
    induction b with
    | nil => intro _; rfl
    | cons x t ih =>
      intro hb
      rw [List.mem_cons, not_or] at hb
      unfold splitSlash
      rw [if_neg (fun h => hb.1 h.symm), ih hb.2]
  induction a with
  | nil =>
    refine ⟨[[]], ?_⟩
    rw [List.nil_append, splitSlash, if_pos rfl, hfree b hb]
    rfl
  | cons x t ih =>
    obtain ⟨l, hl⟩ := ih
    rw [List.cons_append, splitSlash, hl]
    split
    · exact ⟨[] :: l, rfl⟩
    · cases l with
      | nil => exact absurd hl (by
          intro h
          have hlen : ∀ (a : List Char), 2 ≤ (splitSlash (a ++ '/' :: b)).length := by
            intro a
            induction a with
            | nil => rw [List.nil_append, splitSlash, if_pos rfl, hfree b hb]; simp
            | cons y u ihu =>
              rw [List.cons_append, splitSlash]
              split
              · simp only [List.length_cons]; omega
              · cases hs : splitSlash (u ++ '/' :: b) with
                | nil => rw [hs] at ihu; simp at ihu
                | cons p q => rw [hs] at ihu; exact ihu
          have := hlen t
          rw [h] at this
          simp at this)
      | cons p q => exact ⟨(x :: p) :: q, rfl⟩

/-- A joined path ends in the name that was joined. -/
theorem joinPath_ends (a b : String) (hb : '/' ∉ b.toList) (h0 : b.toList ≠ []) (h1 : b.toList ≠ ['.'])
    (h2 : b.toList ≠ ['.', '.']) : ∃ l, (joinPath a b).toList = l ++ b.toList := by
  unfold joinPath cleanRel
  obtain ⟨l, hl⟩ := splitSlash_last a.toList b.toList hb
  rw [hl, List.foldl_append, List.foldl_cons, List.foldl_nil]
  have hstep : ∀ st, cleanStep st b.toList = b.toList :: st := by
    intro st
    unfold cleanStep
    rw [if_neg (not_or.2 ⟨h0, h1⟩), if_neg h2]
  rw [hstep, List.reverse_cons]
  cases hr : (List.foldl cleanStep [] l).reverse with
  | nil => exact ⟨[], by simp⟩
  | cons p q => exact ⟨p ++ (q.map (fun x => '/' :: x)).flatten ++ ['/'], by simp⟩

/-- Without a base location the document is registered under another name than the one its references are resolved
against, whatever the working directory is. -/
theorem base_not_registered (c : PEnv) (h : c.relativeTo = "") : (rootIds c).1 ≠ (rootIds c).2 := by
  unfold rootIds
  rw [if_pos h]
  dsimp only
  intro he
  have key : ∀ base : String, base.toList.getLast? = some '/' → base ≠ joinPath base rootDocumentId := by
    intro base hb he
    obtain ⟨l, hl⟩ := joinPath_ends base rootDocumentId (by decide) (by decide) (by decide) (by decide)
    rw [← he] at hl
    rw [hl, List.getLast?_append, show rootDocumentId.toList.getLast? = some 'n' from by decide] at hb
    cases hb
  have hlast : ∀ x : List String, ("file://" ++ pathText x ++ "/").toList.getLast? = some '/' := by
    intro x
    rw [String.toList_append, show "/".toList = ['/'] from rfl, List.getLast?_append]
    rfl
  revert he
  cases c.fs.cwd with
  | none => exact key _ (by decide)
  | some cwd => exact key _ (hlast cwd)

/-- When the base location is not registered and nothing can be fetched, no reference can be resolved to a schema. -/
theorem resolvePath_unregistered {c : PEnv} {s s' : PSt} {r : Except Err (SchemaNode × String)} {ref scope : String}
    (hscope : (if s.resolvingId ≠ "" then s.resolvingId else s.parsingId) = scope)
    (hd : lookupKV s.docs scope = none) (ha : s.aliases = []) (hf : hasNoFetchers s = true)
    (h : resolvePath c ref s = .ok r s') : s' = s ∧ ∃ e, r = .error e := by
  unfold resolvePath at h
  obtain ⟨m, s1, h1, h2⟩ := bind_ok.1 h
  obtain ⟨rfl, -, -⟩ := match_ok h1
  split at h2
  · obtain ⟨x, s2, h3, h4⟩ := bind_ok.1 h2
    cases h3
    beta_reduce at h4
    rw [hscope] at h4
    obtain ⟨x, s2, h5, h6⟩ := bind_ok.1 h4
    cases h5
    beta_reduce at h6
    rw [hd] at h6
    cases h6
    exact ⟨rfl, _, rfl⟩
  · have hres : resolveDocumentRef c m.1 (orRoot m.2) s1 = .ok (.ok (scope, orRoot m.2)) s1 := by
      unfold resolveDocumentRef
      have hl : ∀ x : String, (if x ≠ "" then lookupKV s1.aliases x else none) = none := by
        intro x; rw [ha]; split <;> rfl
      dsimp only
      rw [hl, hscope]
      dsimp only
      rw [if_pos hf]
    obtain ⟨x, s2, h3, h4⟩ := bind_ok.1 h2
    rw [hres] at h3
    cases h3
    dsimp only at h4
    obtain ⟨x, s2, h5, h6⟩ := bind_ok.1 h4
    unfold loadDocument at h5
    obtain ⟨y, s3, h7, h8⟩ := bind_ok.1 h5
    cases h7
    beta_reduce at h8
    rw [hd] at h8
    dsimp only at h8
    unfold resolveDocument at h8
    obtain ⟨y, s3, h9, h10⟩ := bind_ok.1 h8
    obtain ⟨rfl, -, -⟩ := match_ok h9
    obtain ⟨z, s4, h11, h12⟩ := bind_ok.1 h10
    cases h11
    rw [if_pos (Or.inr hf)] at h12
    cases h12
    cases h6
    exact ⟨rfl, _, rfl⟩

/-- **C70** is violated for every schema without identifiers and every working directory when no base location is given and
no fetcher is enabled, which is the default: a local reference that is a member of a combination is never replaced by the
schema it denotes.  It is dropped and an error is recorded, unless it is kept because it is already being followed. -/
theorem C70_default_base_always_violation (c : PEnv) (root : SchemaNode) (s0 : PSt) (hi : initState c root = .ok s0)
    (hbase : c.relativeTo = "") (s : PSt) (hdocs : s.docs = s0.docs) (hp : s.parsingId = s0.parsingId)
    (hr : s.resolvingId = "" ∨ s.resolvingId = s0.parsingId) (ha : s.aliases = []) (hf : hasNoFetchers s = true)
    (n : SchemaNode) (t : String) (hn : n.ref = some ("#" ++ t)) (fuel : Nat) (m : SchemaNode) (b : Bool) (s' : PSt)
    (h : mergeResolveNodeRef c (fuel + 1) n s = .ok (m, b) s') :
    b = false ∧ (m = n ∨ (m = { n with ref := none } ∧ s.errors.length < s'.errors.length)) := by
  have hids : s0.docs = [((rootIds c).2, root)] ∧ s0.parsingId = (rootIds c).1 := by
    unfold initState at hi
    cases hm : makeFileFetcher c with
    | error e => rw [hm] at hi; cases hi
    | ok ff => rw [hm] at hi; cases hi; exact ⟨rfl, rfl⟩
  have hscope : (if s.resolvingId ≠ "" then s.resolvingId else s.parsingId) = (rootIds c).1 := by
    rcases hr with hr | hr
    · rw [if_neg (by simp [hr]), hp, hids.2]
    · split
      · rw [hr, hids.2]
      · rw [hp, hids.2]
  have hd : lookupKV s.docs (rootIds c).1 = none := by
    rw [hdocs, hids.1]
    simp only [lookupKV]
    rw [if_neg (fun he => base_not_registered c hbase he.symm)]
  unfold mergeResolveNodeRef at h
  rw [hn] at h
  dsimp only at h
  obtain ⟨r, s1, h1, h2⟩ := bind_ok.1 h
  have h1' : r = .ok ((rootIds c).1, orRoot ("#" ++ t)) ∧ s1 = s := by
    unfold resolveIdAndPath at h1
    obtain ⟨m, s2, h3, h4⟩ := bind_ok.1 h1
    obtain ⟨rfl, rfl⟩ := matchDocument_local h3
    rw [if_pos rfl] at h4
    obtain ⟨x, s3, h5, h6⟩ := bind_ok.1 h4
    cases h5
    beta_reduce at h6
    rw [hscope] at h6
    cases h6
    exact ⟨rfl, rfl⟩
  obtain ⟨rfl, rfl⟩ := h1'
  dsimp only at h2
  obtain ⟨seen, s2, h3, h4⟩ := bind_ok.1 h2
  cases h3
  split at h4
  · cases h4
    exact ⟨rfl, Or.inl rfl⟩
  obtain ⟨r, s3, h5, h6⟩ := bind_ok.1 h4
  unfold mergeResolveReference at h5
  obtain ⟨r1, s4, h7, h8⟩ := bind_ok.1 h5
  obtain ⟨x, s5, h9, h10⟩ := bind_ok.1 h8
  cases h9
  obtain ⟨x, s5, h11, h12⟩ := bind_ok.1 h10
  cases h11
  cases h12
  unfold resolveRefBody at h7
  obtain ⟨r2, s6, h13, h14⟩ := bind_ok.1 h7
  rw [resolveRefLoop] at h13
  dsimp only at h13
  obtain ⟨r3, s7, h15, h16⟩ := bind_ok.1 h13
  obtain ⟨rfl, e, rfl⟩ := resolvePath_unregistered hscope hd ha hf h15
  dsimp only at h16
  cases h16
  cases h14
  dsimp only at h6
  cases h6
  refine ⟨rfl, Or.inr ⟨rfl, ?_⟩⟩
  simp only [List.length_cons]
  omega

/-- The hypotheses are met: the default options, the state in which parsing starts, and a reference of `aliasSchema`. -/
example : ∃ s0, initState baselessEnv aliasRoot = .ok s0 ∧ baselessEnv.relativeTo = "" ∧ s0.aliases = [] ∧
    hasNoFetchers s0 = true ∧ s0.resolvingId = "" ∧
    ∃ s' , mergeResolveNodeRef baselessEnv 3 { emptyNode with ref := some ("#" ++ "/$defs/a") } s0 = .ok (emptyNode, false) s' :=
  ⟨_, rfl, rfl, rfl, rfl, rfl, _, rfl⟩

end Chaff
