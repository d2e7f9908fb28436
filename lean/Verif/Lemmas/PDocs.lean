import Verif.Lemmas.PEvol
import Verif.Props.RefText
/-!
# Documents: which names are accepted, loaded and fetched
-/

namespace Chaff
open Comp

/-- A document name that may be loaded in state `s`: a fetcher has accepted it, and a name without a scheme is
only possible while parsing an HTTP document. -/
def Accept (c : PEnv) (s : PSt) (id : String) : Prop :=
  (∃ f scheme, s.httpFetcher = some f ∧ HttpOk c f id scheme ∧
    (scheme = "http" ∨ scheme = "https" ∨
      (scheme = "" ∧ ∃ base, c.url.parse s.parsingId = some base ∧ (base.scheme = "http" ∨ base.scheme = "https")))) ∨
  (∃ f p, s.fileFetcher = some f ∧ id = "file://" ++ pathText p ∧ FileOk c f p)

theorem Accept.auth {c : PEnv} {s : PSt} {id : String} (h : Accept c s id) :
    AuthId c s.httpFetcher s.fileFetcher id := by
  rcases h with ⟨f, sc, h1, h2, h3⟩ | h
  · refine Or.inl ⟨f, sc, h1, h2, ?_⟩
    rcases h3 with h3 | h3 | h3
    · exact Or.inl h3
    · exact Or.inr (Or.inl h3)
    · exact Or.inr (Or.inr h3.1)
  · exact Or.inr h

theorem trimFile_file (t : String) : trimFile ("file://" ++ t) = t := by
  unfold trimFile
  have h : ("file://" ++ t).toList = "file://".toList ++ t.toList := by simp
  have hp : "file://".toList.isPrefixOf ("file://" ++ t).toList = true := by
    rw [h]; simp
  rw [if_pos hp, h]
  have : List.drop 7 ("file://".toList ++ t.toList) = t.toList := by
    have : (7 : Nat) = "file://".toList.length := by decide +kernel
    rw [this, List.drop_left]
  rw [this]; simp

theorem http_accept {c : PEnv} (L : UrlLaws c.url) {s : PSt} {f : HttpOpts} {rel ref id : String}
    (hf : s.httpFetcher = some f) (hk : getFetcherForRef c.url s ref = .ok .http)
    (h : httpResolveId c.url f rel ref = .ok id) : Accept c s id := by
  unfold httpResolveId at h
  cases hp : c.url.parse ref with
  | none => rw [hp] at h; cases h
  | some y =>
    rw [hp] at h
    dsimp only at h
    cases hb : c.url.parse rel with
    | none => rw [hb] at h; cases h
    | some x =>
      rw [hb] at h
      dsimp only at h
      generalize hr : (if x.scheme = "http" ∨ x.scheme = "https" then c.url.resolve x y else y) = r at h
      by_cases h1 : ¬ f.allowInsecure = true ∧ r.scheme ≠ "https"
      · rw [if_pos h1] at h; cases h
      · rw [if_neg h1] at h
        by_cases h2 : 0 < f.allowedHosts.length ∧ r.host ∉ f.allowedHosts
        · rw [if_pos h2] at h; cases h
        · rw [if_neg h2] at h
          injection h with h
          subst h
          -- the fetcher was chosen by scheme
          have hs : (y.scheme = "http" ∨ y.scheme = "https") ∨
              (y.scheme = "" ∧ ∃ base, c.url.parse s.parsingId = some base ∧
                (base.scheme = "http" ∨ base.scheme = "https")) := by
            unfold getFetcherForRef at hk
            rw [hp] at hk
            dsimp only at hk
            have key : ∀ sc, fetcherForScheme s sc = .ok .http → sc = "http" ∨ sc = "https" := by
              intro sc hsc
              unfold fetcherForScheme at hsc
              split at hsc
              · rename_i hx; exact hx.1
              · split at hsc <;> cases hsc
            by_cases he : y.scheme = ""
            · rw [if_pos he] at hk
              right
              refine ⟨he, ?_⟩
              cases hbp : c.url.parse s.parsingId with
              | none => rw [hbp] at hk; cases hk
              | some b =>
                rw [hbp] at hk
                dsimp only at hk
                by_cases hb' : b.scheme = ""
                · rw [if_pos hb'] at hk; cases hk
                · rw [if_neg hb'] at hk
                  exact ⟨b, rfl, key _ hk⟩
            · rw [if_neg he] at hk
              exact Or.inl (key _ hk)
          have hz : ∃ z, c.url.parse (c.url.str r) = some z ∧ z.scheme = r.scheme ∧ z.host = r.host := by
            subst hr
            split
            · exact L.str_resolve _ _ _ _ hp hb
            · exact L.str_str _ _ hp
          obtain ⟨z, hz1, hz2, hz3⟩ := hz
          refine Or.inl ⟨f, r.scheme, hf, ⟨z, hz1, hz2, ?_, ?_⟩, ?_⟩
          · by_cases ha : f.allowInsecure = true
            · exact Or.inl ha
            · right
              rw [hz2]
              by_contra hne
              exact h1 ⟨ha, hne⟩
          · by_cases hl : f.allowedHosts = []
            · exact Or.inl hl
            · right
              rw [hz3]
              by_contra hne
              exact h2 ⟨List.length_pos_iff.2 hl, hne⟩
          · subst hr
            split
            · rename_i hx
              have := L.resolve_scheme x y
              rw [this]
              split
              · rename_i hy
                rcases hs with hs | hs
                · rcases hs with hs | hs <;> simp [hs]
                · exact (hy hs.1).elim
              · rcases hx with hx | hx <;> simp [hx]
            · rcases hs with hs | hs
              · rcases hs with hs | hs <;> simp [hs]
              · exact Or.inr (Or.inr hs)

theorem file_accept {c : PEnv} {s : PSt} {f : List (List String) × Bool} {rel ref id : String}
    (hf : s.fileFetcher = some f) (h : fileResolveId c.url c.fs f rel ref = .ok id) : Accept c s id := by
  unfold fileResolveId at h
  cases hp : c.url.parse ref with
  | none => rw [hp] at h; cases h
  | some y =>
    rw [hp] at h
    dsimp only at h
    by_cases h1 : y.scheme ≠ "file" ∧ y.scheme ≠ ""
    · rw [if_pos h1] at h; cases h
    · rw [if_neg h1] at h
      generalize hq : (if (trimFile ref).toList.head? = some '/' then trimFile ref
        else joinDir (trimFile rel) (trimFile ref)) = q at h
      cases hr : c.fs.realPath q with
      | none => rw [hr] at h; cases h
      | some p =>
        rw [hr] at h
        dsimp only at h
        refine Or.inr ⟨f, p, hf, ?_⟩
        by_cases h2 : f.2 = true
        · rw [if_pos h2] at h
          dsimp only at h
          by_cases h3 : isOutsideOfAllowedPaths p f.1 = true
          · rw [if_pos h3] at h; cases h
          · rw [if_neg h3] at h
            injection h with h
            exact ⟨h.symm, ⟨q, hr⟩, Or.inl h2, by simpa using h3⟩
        · rw [if_neg h2] at h
          cases hc : c.fs.cwd with
          | none => rw [hc] at h; cases h
          | some cwd =>
            rw [hc] at h
            dsimp only at h
            cases ho : isOutsideOfCwd cwd p with
            | true => rw [ho] at h; cases h
            | false =>
              rw [ho] at h
              dsimp only at h
              by_cases h3 : isOutsideOfAllowedPaths p f.1 = true
              · rw [if_pos h3] at h; cases h
              · rw [if_neg h3] at h
                injection h with h
                exact ⟨h.symm, ⟨q, hr⟩, Or.inr ⟨cwd, hc, ho⟩, by simpa using h3⟩

theorem lookupKV_some_key {β : Type} {m : List (String × β)} {k : String} (h : (lookupKV m k).isSome = true) :
    k ∈ keysKV m := by
  by_contra hn
  rw [lookupKV_none.2 hn] at h
  simp at h

/-- `resolveDocumentRef` leaves the state alone, and what it names is loaded, or accepted, or there is no
fetcher at all. -/
theorem resolveDocumentRef_ok {c : PEnv} {id path : String} {s s' : PSt} {r : Except Err (String × String)}
    (h : resolveDocumentRef c id path s = .ok r s') :
    s' = s ∧ ∀ p, r = .ok p → EnvLaws c → s.Inv c →
      p.1 ∈ keysKV s.docs ∨ hasNoFetchers s = true ∨ Accept c s p.1 := by
  unfold resolveDocumentRef at h
  dsimp only at h
  generalize (if s.resolvingId ≠ "" then s.resolvingId else s.parsingId) = scope at h
  generalize resolveRelativeURI c.url scope id = resolved at h
  split at h
  · rename_i a ha
    injection h with h1 h2
    refine ⟨h2.symm, ?_⟩
    rintro p hp L I
    rw [← h1] at hp
    injection hp with hp
    subst hp
    left
    split at ha
    · exact I.aliasesOk _ (lookupKV_mem ha)
    · cases ha
  · by_cases hn : hasNoFetchers s = true
    · rw [if_pos hn] at h
      injection h with h1 h2
      exact ⟨h2.symm, fun p _ _ _ => Or.inr (Or.inl hn)⟩
    · rw [if_neg hn] at h
      cases hg : getFetcherForRef c.url s id with
      | error e =>
        rw [hg] at h
        injection h with h1 h2
        refine ⟨h2.symm, ?_⟩
        intro p hp; rw [← h1] at hp; cases hp
      | ok k =>
        rw [hg] at h
        dsimp only at h
        cases hr : fetcherResolveId c s k scope id with
        | error e =>
          rw [hr] at h
          injection h with h1 h2
          refine ⟨h2.symm, ?_⟩
          intro p hp; rw [← h1] at hp; cases hp
        | ok id' =>
          rw [hr] at h
          injection h with h1 h2
          refine ⟨h2.symm, ?_⟩
          intro p hp L I
          rw [← h1] at hp
          injection hp with hp
          subst hp
          right; right
          unfold fetcherResolveId at hr
          cases k with
          | http =>
            dsimp only at hr
            cases hf : s.httpFetcher with
            | none => rw [hf] at hr; cases hr
            | some f => rw [hf] at hr; exact http_accept L.url hf hg hr
          | file =>
            dsimp only at hr
            cases hf : s.fileFetcher with
            | none => rw [hf] at hr; cases hr
            | some f => rw [hf] at hr; exact file_accept hf hr

theorem keeps_resolveDocumentRef (c : PEnv) (id path : String) : Keeps c (resolveDocumentRef c id path) := by
  intro s a s' h
  rw [(resolveDocumentRef_ok h).1]
  exact Ev.refl c s

theorem keeps_resolveIdAndPath (c : PEnv) (ref : String) : Keeps c (resolveIdAndPath c ref) := by
  unfold resolveIdAndPath
  refine Keeps.bind (keeps_match c ref) fun m => Keeps.ite ?_ (keeps_resolveDocumentRef _ _ _)
  exact Keeps.bind (keeps_currentScope c) fun _ => Keeps.pure _

theorem match_ok {ref : String} {s s' : PSt} {p : String × String} (h : matchDocumentRegex ref s = .ok p s') :
    s' = s ∧ p.1 = String.ofList (splitHash ref.toList).1 ∧ p.2 = String.ofList (splitHash ref.toList).2 := by
  unfold matchDocumentRegex at h
  split at h
  · simp at h
  · obtain ⟨rfl, rfl⟩ := pure_ok.1 h
    exact ⟨rfl, rfl, rfl⟩

/-! ## Queueing -/

theorem ev_queueDocument {c : PEnv} {doc : String} {s s' : PSt} {a : Unit} (h : queueDocument doc s = .ok a s')
    (hd : EnvLaws c → s.Inv c → doc ∈ keysKV s.docs ∨ hasNoFetchers s = true ∨ Accept c s doc) : Ev c s s' := by
  unfold queueDocument at h
  simp only [modS_apply, Res.ok.injEq] at h
  obtain ⟨_, h⟩ := h
  split at h
  · rename_i hq
    subst h
    have hnt : lookupKV s.parsed doc ≠ some true := by
      intro e
      have := hq.2
      rw [e] at this
      simp at this
    refine { Ev.refl c s with queue := ⟨[doc], rfl⟩, inv := ?_, queueOk := ?_ }
    · intro L I
      refine ⟨I.docsOk, I.aliasesOk, ?_⟩
      intro d hd'
      rcases List.mem_append.1 hd' with hd' | hd'
      · exact I.queueOk d hd'
      · simp at hd'
        subst hd'
        rcases hd L I with h1 | h1 | h1
        · rcases I.docsOk _ h1 with h2 | h2
          · exact Or.inl h2
          · exact (hnt h2).elim
        · right
          unfold hasNoFetchers at h1
          simp at h1
          exact h1
        · exact Or.inl h1.auth
    · rintro _ ⟨q1, q2⟩
      refine ⟨?_, ?_⟩
      · rw [List.nodup_append]
        refine ⟨q1, by simp, ?_⟩
        intro x hx y hy
        simp at hy
        subst hy
        rintro rfl
        exact hq.1 hx
      · intro d hd'
        rcases List.mem_append.1 hd' with hd' | hd'
        · exact q2 d hd'
        · simp at hd'
          subst hd'
          exact hnt
  · subst h
    exact Ev.refl c s

theorem keeps_handleDeferred (c : PEnv) (ref : String) : Keeps c (handleDeferred c ref) := by
  unfold handleDeferred
  refine Keeps.bind (keeps_match c ref) fun m => Keeps.ite ?_ ?_
  · exact Keeps.bind (keeps_currentScope c) fun _ => Keeps.pure _
  · intro s a s' h
    obtain ⟨r, s1, h1, hrest⟩ := bind_ok.1 h
    clear h
    obtain ⟨hs, hr⟩ := resolveDocumentRef_ok h1
    subst hs
    have h := hrest
    cases r with
    | error e => exact Keeps.pure _ _ _ _ h
    | ok p =>
      obtain ⟨u, s2, h2, h⟩ := bind_ok.1 h
      exact (ev_queueDocument h2 (hr p rfl)).trans (Keeps.pure _ _ _ _ h)

/-! ## Loading -/

theorem addAliases_spec (old new : List (String × (String × String))) :
    ∃ l, addAliases old new = old ++ l ∧ ∀ p ∈ l, p ∈ new := by
  unfold addAliases
  induction new generalizing old with
  | nil => exact ⟨[], by simp, by simp⟩
  | cons x t ih =>
    simp only [List.foldl_cons]
    split
    · obtain ⟨l, h1, h2⟩ := ih old
      exact ⟨l, h1, fun p hp => List.mem_cons_of_mem _ (h2 p hp)⟩
    · obtain ⟨l, h1, h2⟩ := ih (old ++ [x])
      refine ⟨x :: l, by rw [h1]; simp, ?_⟩
      intro p hp
      rcases List.mem_cons.1 hp with rfl | hp
      · simp
      · exact List.mem_cons_of_mem _ (h2 p hp)

/-- Every id found in a document belongs to that document. -/
def FoundIn (id : String) (w : IdWalk) : Prop := ∀ p ∈ w.found, p.2.1 = id

theorem visitId_found {u : UrlSys} {id : String} {n : List (String × JVal)} {path : String} {w : IdWalk}
    (h : FoundIn id w) : FoundIn id (visitId u id n path w) := by
  unfold visitId
  split
  · split
    · exact h
    · dsimp only
      split
      · exact h
      · split
        · exact h
        · split
          · exact h
          · intro p hp
            rcases mem_insertKV hp with rfl | hp
            · rfl
            · exact h p hp
  · exact h

mutual
theorem walkIds_found (u : UrlSys) (id : String) : ∀ (v : JVal) (path : String) (w : IdWalk), FoundIn id w →
    FoundIn id (walkIds u id v path w)
  | .obj m, path, w, h => by
    unfold walkIds
    exact walkIdFields_found u id m path _ (visitId_found h)
  | .null, _, _, h => by unfold walkIds; exact h
  | .bool _, _, _, h => by unfold walkIds; exact h
  | .num _, _, _, h => by unfold walkIds; exact h
  | .str _, _, _, h => by unfold walkIds; exact h
  | .arr _, _, _, h => by unfold walkIds; exact h
termination_by structural v => v
theorem walkIdFields_found (u : UrlSys) (id : String) : ∀ (l : List (String × JVal)) (path : String) (w : IdWalk),
    FoundIn id w → FoundIn id (walkIdFields u id l path w)
  | [], _, _, h => by unfold walkIdFields; exact h
  | p :: t, path, w, h => by
    unfold walkIdFields
    exact walkIdFields_found u id t path _ (walkIdField_found u id p path w h)
termination_by structural l => l
theorem walkIdField_found (u : UrlSys) (id : String) : ∀ (p : String × JVal) (path : String) (w : IdWalk),
    FoundIn id w → FoundIn id (walkIdField u id p path w)
  | (k, v), path, w, h => by
    unfold walkIdField
    exact walkIdMember_found u id v _ w h
termination_by structural p => p
theorem walkIdMember_found (u : UrlSys) (id : String) : ∀ (v : JVal) (path : String) (w : IdWalk), FoundIn id w →
    FoundIn id (walkIdMember u id v path w)
  | .obj m, path, w, h => by
    unfold walkIdMember
    exact walkIdFields_found u id m path _ (visitId_found h)
  | .arr l, path, w, h => by
    unfold walkIdMember
    exact walkIdItems_found u id l path 0 w h
  | .null, _, _, h => by unfold walkIdMember; exact h
  | .bool _, _, _, h => by unfold walkIdMember; exact h
  | .num _, _, _, h => by unfold walkIdMember; exact h
  | .str _, _, _, h => by unfold walkIdMember; exact h
termination_by structural v => v
theorem walkIdItems_found (u : UrlSys) (id : String) : ∀ (l : List JVal) (path : String) (i : Nat) (w : IdWalk),
    FoundIn id w → FoundIn id (walkIdItems u id l path i w)
  | [], _, _, _, h => by unfold walkIdItems; exact h
  | v :: t, path, i, w, h => by
    unfold walkIdItems
    exact walkIdItems_found u id t path (i + 1) _ (walkIds_found u id v _ w h)
termination_by structural l => l
end

theorem collect_found (u : UrlSys) (base id : String) (n : SchemaNode) :
    ∀ p ∈ collectSubSchemaIds u base id n, p.2.1 = id := by
  unfold collectSubSchemaIds
  exact walkIds_found u id _ _ _ (by intro p hp; simp at hp)

theorem ev_addDocument {c : PEnv} {id : String} {node : SchemaNode} {s s' : PSt} {a : Unit}
    (h : addDocument c id node s = .ok a s') (hh : '#' ∉ id.toList)
    (hd : EnvLaws c → s.Inv c → AuthId c s.httpFetcher s.fileFetcher id) : Ev c s s' := by
  unfold addDocument at h
  simp only [modS_apply, Res.ok.injEq] at h
  obtain ⟨_, h⟩ := h
  split at h
  · subst h; exact Ev.refl c s
  · rename_i hn
    have hk : id ∉ keysKV s.docs := by
      intro hk
      apply hn
      cases hl : lookupKV s.docs id with
      | none => exact (lookupKV_none.1 hl hk).elim
      | some x => rfl
    obtain ⟨l, hl1, hl2⟩ := addAliases_spec s.aliases (collectSubSchemaIds c.url (baseURIOf c.url id node) id node)
    have hpar : ∀ d, d ≠ id → lookupKV ((id, false) :: s.parsed) d = lookupKV s.parsed d := by
      intro d hd'
      show (if id = d then some false else lookupKV s.parsed d) = _
      rw [if_neg (fun e => hd' e.symm)]
    have hself : lookupKV ((id, false) :: s.parsed) id = some false := by
      show (if id = id then some false else lookupKV s.parsed id) = _
      rw [if_pos rfl]
    have hnot : ParsedLoaded s.docs s.parsed → lookupKV s.parsed id ≠ some true := by
      intro p e
      rcases p id e with h1 | h1
      · exact hk h1
      · exact hh h1
    subst h
    refine { Ev.refl c s with docs := ⟨[(id, node)], rfl⟩, aliases := ?_, inv := ?_, parsed := ?_, queueOk := ?_ }
    · exact ⟨l, hl1⟩
    · intro L I
      refine ⟨?_, ?_, I.queueOk⟩
      · intro k hk'
        simp only [keysKV, List.map_cons, List.mem_cons] at hk'
        by_cases e : k = id
        · subst e; exact Or.inl (hd L I)
        · rcases hk' with hk' | hk'
          · exact (e hk').elim
          · show _ ∨ lookupKV ((id, false) :: s.parsed) k = some true
            rw [hpar k e]
            exact I.docsOk k hk'
      · intro p hp
        show p.2.1 ∈ keysKV ((id, node) :: s.docs)
        simp only [keysKV, List.map_cons, List.mem_cons]
        change p ∈ addAliases s.aliases _ at hp
        rw [hl1] at hp
        rcases List.mem_append.1 hp with hp | hp
        · exact Or.inr (I.aliasesOk p hp)
        · exact Or.inl (collect_found _ _ _ _ p (hl2 p hp))
    · intro pl
      have hiff : ∀ d, lookupKV ((id, false) :: s.parsed) d = some true ↔ lookupKV s.parsed d = some true := by
        intro d
        by_cases e : d = id
        · subst e
          rw [hself]
          constructor
          · intro h'; cases h'
          · intro h'; exact (hnot pl h').elim
        · rw [hpar d e]
      refine ⟨?_, hiff⟩
      intro d hd'
      rcases pl d ((hiff d).1 hd') with h1 | h1
      · left
        simp only [keysKV, List.map_cons, List.mem_cons]
        exact Or.inr h1
      · exact Or.inr h1
    · rintro pl ⟨q1, q2⟩
      refine ⟨q1, ?_⟩
      intro d hd'
      show lookupKV ((id, false) :: s.parsed) d ≠ some true
      by_cases e : d = id
      · subst e; rw [hself]; simp
      · rw [hpar d e]; exact q2 d hd'

theorem ofList_cut {t : String} (h : '#' ∉ t.toList) : String.ofList (splitHash t.toList).1 = t := by
  rw [splitHash_none _ h]; simp

/-- Cutting off a fragment keeps a name acceptable, and tells which fetcher will be used. -/
theorem accept_cut {c : PEnv} (L : EnvLaws c) {s : PSt} {id : String} (h : Accept c s id) {k : FetcherKind}
    (hk : getFetcherForRef c.url s (String.ofList (splitHash id.toList).1) = .ok k) :
    AuthId c s.httpFetcher s.fileFetcher (String.ofList (splitHash id.toList).1) ∧
    ((k = .http ∧ ∃ f sc, s.httpFetcher = some f ∧ HttpOk c f (String.ofList (splitHash id.toList).1) sc) ∨
     (k = .file ∧ ∃ f p, s.fileFetcher = some f ∧ trimFile (String.ofList (splitHash id.toList).1) = pathText p ∧
       FileOk c f p)) := by
  rcases h with ⟨f, sc, hf, ⟨y, hy, hys, hyi, hyh⟩, hsc⟩ | ⟨f, p, hf, hid, hok⟩
  · obtain ⟨z, hz, hzs, hzh⟩ := L.url.cut id y hy
    have hok : HttpOk c f (String.ofList (splitHash id.toList).1) sc := by
      refine ⟨z, hz, hzs.trans hys, ?_, ?_⟩
      · rw [hzs]; exact hyi
      · rw [hzh]; exact hyh
    refine ⟨Or.inl ⟨f, sc, hf, hok, ?_⟩, Or.inl ⟨?_, f, sc, hf, hok⟩⟩
    · rcases hsc with h | h | h
      · exact Or.inl h
      · exact Or.inr (Or.inl h)
      · exact Or.inr (Or.inr h.1)
    · have key : ∀ x, x = "http" ∨ x = "https" → fetcherForScheme s x = .ok k → k = .http := by
        intro x hx hfk
        unfold fetcherForScheme at hfk
        rw [if_pos ⟨hx, by rw [hf]; rfl⟩] at hfk
        injection hfk with hfk
        exact hfk.symm
      unfold getFetcherForRef at hk
      rw [hz] at hk
      dsimp only at hk
      rcases hsc with h | h | ⟨h, b, hb, hbs⟩
      · have e : z.scheme = "http" := by rw [hzs, hys, h]
        rw [if_neg (by rw [e]; decide +kernel)] at hk
        exact key _ (Or.inl e) hk
      · have e : z.scheme = "https" := by rw [hzs, hys, h]
        rw [if_neg (by rw [e]; decide +kernel)] at hk
        exact key _ (Or.inr e) hk
      · have e : z.scheme = "" := by rw [hzs, hys, h]
        rw [if_pos e, hb] at hk
        dsimp only at hk
        have hne : b.scheme ≠ "" := by rcases hbs with h | h <;> rw [h] <;> decide +kernel
        rw [if_neg hne] at hk
        exact key _ hbs hk
  · obtain ⟨q, hq⟩ := hok.1
    have hno : '#' ∉ id.toList := by
      rw [hid]
      have := L.paths q p hq
      simp only [String.toList_append, List.mem_append, not_or]
      exact ⟨by decide +kernel, this⟩
    rw [ofList_cut hno] at hk ⊢
    refine ⟨Or.inr ⟨f, p, hf, hid, hok⟩, Or.inr ⟨?_, f, p, hf, ?_, hok⟩⟩
    · unfold getFetcherForRef at hk
      cases hz : c.url.parse id with
      | none => rw [hz] at hk; cases hk
      | some z =>
        rw [hz] at hk
        dsimp only at hk
        have e : z.scheme = "file" := by rw [hid] at hz; exact L.url.file_scheme _ _ hz
        rw [if_neg (by rw [e]; decide +kernel), e] at hk
        unfold fetcherForScheme at hk
        rw [if_neg (by intro h; rcases h.1 with h | h <;> revert h <;> decide +kernel)] at hk
        rw [if_pos ⟨rfl, by rw [hf]; rfl⟩] at hk
        injection hk with hk
        exact hk.symm
    · rw [hid]; exact trimFile_file _

theorem ev_fetchDocument {c : PEnv} {k : FetcherKind} {id : String} {s s' : PSt} {r : Except Err SchemaNode}
    (h : fetchDocument c k id s = .ok r s')
    (hd : EnvLaws c → s.Inv c →
      (k = .http ∧ ∃ f sc, s.httpFetcher = some f ∧ HttpOk c f id sc) ∨
      (k = .file ∧ ∃ f p, s.fileFetcher = some f ∧ trimFile id = pathText p ∧ FileOk c f p)) :
    Ev c s s' ∧ s'.docs = s.docs ∧ s'.parsed = s.parsed ∧ s'.httpFetcher = s.httpFetcher ∧
      s'.fileFetcher = s.fileFetcher := by
  unfold fetchDocument at h
  cases k with
  | http =>
    dsimp only at h
    have key : s' = { s with fetches := (c.redirects id).map .http ++ .http id :: s.fetches } := by
      split at h
      · injection h with _ h; exact h.symm
      · split at h <;> (injection h with _ h; exact h.symm)
    subst key
    refine ⟨{ Ev.refl c s with fetches := ⟨(c.redirects id).map .http ++ [.http id], by simp, ?_⟩ }, rfl, rfl, rfl, rfl⟩
    intro L I x hx
    rcases hd L I with ⟨_, f, sc, hf, hok⟩ | ⟨h', _⟩
    · rcases List.mem_append.1 hx with hx | hx
      · obtain ⟨u, hu, rfl⟩ := List.mem_map.1 hx
        exact ⟨f, id, sc, hf, hok, Or.inr hu⟩
      · simp at hx
        subst hx
        exact ⟨f, id, sc, hf, hok, Or.inl rfl⟩
    · cases h'
  | file =>
    dsimp only at h
    have key : s' = { s with fetches := .file (trimFile id) :: s.fetches } := by
      split at h
      · injection h with _ h; exact h.symm
      · split at h <;> (injection h with _ h; exact h.symm)
    subst key
    refine ⟨{ Ev.refl c s with fetches := ⟨[.file (trimFile id)], rfl, ?_⟩ }, rfl, rfl, rfl, rfl⟩
    intro L I x hx
    simp at hx
    subst hx
    rcases hd L I with ⟨h', _⟩ | ⟨_, f, p, hf, hp, hok⟩
    · cases h'
    · exact ⟨f, p, hf, hp, hok⟩

theorem ev_resolveDocument {c : PEnv} {ref : String} {s s' : PSt} {r : Except Err SchemaNode}
    (h : resolveDocument c ref s = .ok r s')
    (hd : EnvLaws c → s.Inv c → (∃ k, getFetcherForRef c.url s (String.ofList (splitHash ref.toList).1) = .ok k) →
      hasNoFetchers s = true ∨ Accept c s ref) : Ev c s s' := by
  unfold resolveDocument at h
  obtain ⟨m, s1, h1, hrest⟩ := bind_ok.1 h
  clear h
  obtain ⟨hs, hm1, hm2⟩ := match_ok h1
  subst hs
  obtain ⟨s2, s3, h2, h⟩ := bind_ok.1 hrest
  rw [getS_apply] at h2
  injection h2 with h2 h2'
  subst h2
  subst h2'
  split at h
  · exact Keeps.pure _ _ _ _ h
  · rename_i hn
    rw [not_or] at hn
    cases hg : getFetcherForRef c.url s1 m.1 with
    | error e => rw [hg] at h; exact Keeps.pure _ _ _ _ h
    | ok k =>
      rw [hg] at h
      obtain ⟨d, s4, h4, h⟩ := bind_ok.1 h
      have hg' := hg
      rw [hm1] at hg'
      have hacc0 : EnvLaws c → s1.Inv c → Accept c s1 ref := fun L I => by
        rcases hd L I ⟨_, hg'⟩ with h' | h'
        · exact (hn.2 h').elim
        · exact h'
      have hacc := fun (L : EnvLaws c) (I : s1.Inv c) => accept_cut L (hacc0 L I) hg'
      obtain ⟨E, _, _, e3, e4⟩ := ev_fetchDocument h4 (fun L I => by
        have := (hacc L I).2
        rwa [← hm1] at this)
      cases d with
      | error e => exact E.trans (Keeps.pure _ _ _ _ h)
      | ok node =>
        obtain ⟨u, s5, h5, h⟩ := bind_ok.1 h
        obtain ⟨_, h6⟩ := pure_ok.1 h
        subst h6
        -- the invariant of the intermediate state is that of the first one
        have hh : '#' ∉ m.1.toList := by rw [hm1]; simpa using splitHash_fst ref.toList
        have I0 : EnvLaws c → s4.Inv c → s1.Inv c := by
          intro L I4
          have : s4.Inv c ↔ s1.Inv c := by
            have h4' := h4
            unfold fetchDocument at h4'
            cases k with
            | http =>
              dsimp only at h4'
              have key : s4 = { s1 with fetches := (c.redirects m.1).map .http ++ .http m.1 :: s1.fetches } := by
                split at h4'
                · injection h4' with _ h4'; exact h4'.symm
                · split at h4' <;> (injection h4' with _ h4'; exact h4'.symm)
              subst key
              exact Iff.rfl
            | file =>
              dsimp only at h4'
              have key : s4 = { s1 with fetches := .file (trimFile m.1) :: s1.fetches } := by
                split at h4'
                · injection h4' with _ h4'; exact h4'.symm
                · split at h4' <;> (injection h4' with _ h4'; exact h4'.symm)
              subst key
              exact Iff.rfl
          exact this.1 I4
        refine E.trans (ev_addDocument h5 hh (fun L I4 => ?_))
        rw [e3, e4, hm1]
        exact (hacc L (I0 L I4)).1

theorem keeps_resolvePath (c : PEnv) (ref : String) (hsub : ∀ n p, Keeps c (resolveSubReferencePath n p)) :
    Keeps c (resolvePath c ref) := by
  unfold resolvePath
  refine Keeps.bind (keeps_match c ref) fun m => Keeps.ite ?_ ?_
  · refine Keeps.bind (keeps_currentScope c) fun scope => Keeps.bind (Keeps.gets _) fun doc =>
      Keeps.bind (hsub _ _) fun r => ?_
    cases r <;> exact Keeps.pure _
  · intro s a s' h
    obtain ⟨r, s1, h1, hrest⟩ := bind_ok.1 h
    clear h
    obtain ⟨hs, hr⟩ := resolveDocumentRef_ok h1
    subst hs
    have h := hrest
    cases r with
    | error e => exact Keeps.pure _ _ _ _ h
    | ok p =>
      obtain ⟨d, s2, h2, h⟩ := bind_ok.1 h
      have E : Ev c s1 s2 := by
        unfold loadDocument at h2
        obtain ⟨ld, s3, h3, h2⟩ := bind_ok.1 h2
        unfold gets at h3
        injection h3 with h3 h3'
        subst h3'
        dsimp only at h3
        cases hl : lookupKV s1.docs p.1 with
        | some x =>
          rw [hl] at h3
          subst h3
          exact Keeps.pure _ _ _ _ h2
        | none =>
          rw [hl] at h3
          subst h3
          refine ev_resolveDocument h2 (fun L I _ => ?_)
          rcases hr p rfl L I with h' | h' | h'
          · exact (lookupKV_none.1 hl h').elim
          · exact Or.inl h'
          · exact Or.inr h'
      refine E.trans ?_
      cases d with
      | error e => exact Keeps.pure _ _ _ _ h
      | ok document =>
        refine Keeps.bind (hsub _ _) (fun r => ?_) _ _ _ h
        cases r with
        | error e => exact Keeps.pure _
        | ok n => exact Keeps.bind (keeps_setResolving c _) fun _ => Keeps.pure _

end Chaff
