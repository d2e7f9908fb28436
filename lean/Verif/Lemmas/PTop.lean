import Verif.Lemmas.PKeeps
/-!
# How the parser state evolves over the queue of documents
-/

namespace Chaff
open Comp

/-- What the loop over documents maintains besides `Inv`: nothing is parsed twice. -/
structure Once (s : PSt) : Prop where
  loaded : ParsedLoaded s.docs s.parsed
  queueOk : QueueOk s.queue s.parsed
  nodup : s.parsedDocs.Nodup
  marked : ∀ d ∈ s.parsedDocs, lookupKV s.parsed d = some true

/-- The state after, compared with the state before, at the level of documents. -/
structure Top (c : PEnv) (s s' : PSt) : Prop where
  path : s'.path = s.path
  depth : s'.depth = s.depth
  res : s'.resolutions = s.resolutions
  http : s'.httpFetcher = s.httpFetcher
  file : s'.fileFetcher = s.fileFetcher
  errors : ∃ l, s'.errors = l ++ s.errors
  refs : ∃ l, s'.refs = l ++ s.refs
  docs : ∃ l, s'.docs = l ++ s.docs
  resources : ∃ l, s'.resources = s.resources ++ l
  parsedDocs : ∃ l, s'.parsedDocs = l ++ s.parsedDocs
  inv : EnvLaws c → s.Inv c → s'.Inv c
  once : Once s → Once s' ∧ ∀ d, lookupKV s.parsed d = some true → lookupKV s'.parsed d = some true
  fetches : ∃ l, s'.fetches = l ++ s.fetches ∧
    (EnvLaws c → s.Inv c → ∀ f ∈ l, AllowedFetch c s.httpFetcher s.fileFetcher f)
  fresh : Once s → ∀ l, s'.parsedDocs = l ++ s.parsedDocs → ∀ d ∈ l, lookupKV s.parsed d ≠ some true

theorem Ev.top {c : PEnv} {s s' : PSt} (h : Ev c s s') : Top c s s' where
  path := h.path
  depth := h.depth
  res := h.res
  http := h.http
  file := h.file
  errors := by obtain ⟨l, e, _⟩ := h.errors; exact ⟨l, e⟩
  refs := by obtain ⟨l, e, _⟩ := h.refs; exact ⟨l, e⟩
  docs := h.docs
  resources := h.resources
  parsedDocs := ⟨[], by rw [h.parsedDocs]; rfl⟩
  inv := h.inv
  once o := by
    have hp := h.parsed o.loaded
    exact ⟨⟨hp.1, h.queueOk o.loaded o.queueOk, by rw [h.parsedDocs]; exact o.nodup,
      fun d hd => (hp.2 d).2 (o.marked d (by rw [h.parsedDocs] at hd; exact hd))⟩, fun d hd => (hp.2 d).2 hd⟩
  fetches := h.fetches
  fresh o l e d hd := by
    rw [h.parsedDocs] at e
    have : l = [] := List.self_eq_append_left.1 e
    rw [this] at hd
    cases hd

theorem Top.trans {c : PEnv} {s s1 s2 : PSt} (h : Top c s s1) (h' : Top c s1 s2) : Top c s s2 where
  path := h'.path.trans h.path
  depth := h'.depth.trans h.depth
  res := h'.res.trans h.res
  http := h'.http.trans h.http
  file := h'.file.trans h.file
  errors := by
    obtain ⟨l, e⟩ := h.errors
    obtain ⟨l', e'⟩ := h'.errors
    exact ⟨l' ++ l, by rw [e', e, List.append_assoc]⟩
  refs := by
    obtain ⟨l, e⟩ := h.refs
    obtain ⟨l', e'⟩ := h'.refs
    exact ⟨l' ++ l, by rw [e', e, List.append_assoc]⟩
  docs := by
    obtain ⟨l, e⟩ := h.docs
    obtain ⟨l', e'⟩ := h'.docs
    exact ⟨l' ++ l, by rw [e', e, List.append_assoc]⟩
  resources := by
    obtain ⟨l, e⟩ := h.resources
    obtain ⟨l', e'⟩ := h'.resources
    exact ⟨l ++ l', by rw [e', e, List.append_assoc]⟩
  parsedDocs := by
    obtain ⟨l, e⟩ := h.parsedDocs
    obtain ⟨l', e'⟩ := h'.parsedDocs
    exact ⟨l' ++ l, by rw [e', e, List.append_assoc]⟩
  inv L i := h'.inv L (h.inv L i)
  once o := ⟨(h'.once (h.once o).1).1, fun d hd => (h'.once (h.once o).1).2 d ((h.once o).2 d hd)⟩
  fetches := by
    obtain ⟨l, e, q⟩ := h.fetches
    obtain ⟨l', e', q'⟩ := h'.fetches
    refine ⟨l' ++ l, by rw [e', e, List.append_assoc], ?_⟩
    intro L i x hx
    rcases List.mem_append.1 hx with hx | hx
    · have := q' L (h.inv L i) x hx
      rw [h.http, h.file] at this
      exact this
    · exact q L i x hx
  fresh o l e d hd := by
    obtain ⟨l1, e1⟩ := h.parsedDocs
    obtain ⟨l2, e2⟩ := h'.parsedDocs
    have : l = l2 ++ l1 := by
      rw [e2, e1, ← List.append_assoc] at e
      exact (List.append_cancel_right e).symm
    subst this
    rcases List.mem_append.1 hd with hd | hd
    · intro hp
      exact h'.fresh (h.once o).1 l2 e2 d hd ((h.once o).2 d hp)
    · exact h.fresh o l1 e1 d hd

theorem addDocument_mem {c : PEnv} {id : String} {node : SchemaNode} {s s' : PSt} {a : Unit}
    (h : addDocument c id node s = .ok a s') : id ∈ keysKV s'.docs := by
  unfold addDocument at h
  simp only [modS_apply, Res.ok.injEq] at h
  obtain ⟨_, h⟩ := h
  split at h
  · rename_i hk
    subst h
    by_contra hn
    rw [lookupKV_none.2 hn] at hk
    cases hk
  · subst h
    simp [keysKV]

theorem resolveDocument_loads {c : PEnv} {ref : String} {s s' : PSt} {n : SchemaNode}
    (h : resolveDocument c ref s = .ok (.ok n) s') : ref ∈ keysKV s'.docs ∨ '#' ∈ ref.toList := by
  by_cases hh : '#' ∈ ref.toList
  · exact Or.inr hh
  · left
    unfold resolveDocument at h
    obtain ⟨m, s1, h1, hrest⟩ := bind_ok.1 h
    clear h
    obtain ⟨hs, hm1, hm2⟩ := match_ok h1
    subst hs
    obtain ⟨s2, s3, h2, h⟩ := bind_ok.1 hrest
    rw [getS_apply] at h2
    injection h2 with h2 h2'
    subst h2
    subst h2'
    rw [ofList_cut hh] at hm1
    rw [hm1] at h
    split at h
    · obtain ⟨h, _⟩ := pure_ok.1 h; cases h
    · cases hg : getFetcherForRef c.url s1 ref with
      | error e => rw [hg] at h; obtain ⟨h, _⟩ := pure_ok.1 h; cases h
      | ok k =>
        rw [hg] at h
        obtain ⟨d, s4, h4, h⟩ := bind_ok.1 h
        cases d with
        | error e => obtain ⟨h, _⟩ := pure_ok.1 h; cases h
        | ok node =>
          obtain ⟨u, s5, h5, h⟩ := bind_ok.1 h
          obtain ⟨_, h6⟩ := pure_ok.1 h
          subst h6
          exact addDocument_mem h5

/-- A document that was accepted at some time and is now taken as the base: its fetcher still accepts it. -/
theorem accept_self {c : PEnv} {s : PSt} {doc : String} (L : EnvLaws c) (hp : s.parsingId = doc)
    (ha : AuthId c s.httpFetcher s.fileFetcher doc)
    (hk : ∃ k, getFetcherForRef c.url s (String.ofList (splitHash doc.toList).1) = .ok k) : Accept c s doc := by
  rcases ha with ⟨f, sc, hf, hok, hs⟩ | h
  · rcases hs with hs | hs | hs
    · exact Or.inl ⟨f, sc, hf, hok, Or.inl hs⟩
    · exact Or.inl ⟨f, sc, hf, hok, Or.inr (Or.inl hs)⟩
    · exfalso
      obtain ⟨u, hu, hsc, _⟩ := hok
      obtain ⟨k, hk⟩ := hk
      obtain ⟨z, hz, hzs, _⟩ := L.url.cut _ _ hu
      unfold getFetcherForRef at hk
      rw [hz] at hk
      dsimp only at hk
      rw [if_pos (by rw [hzs, hsc, hs]), hp, hu] at hk
      dsimp only at hk
      rw [if_pos (by rw [hsc, hs])] at hk
      cases hk
  · exact Or.inr h

theorem lookupKV_insertKV {m : List (String × Bool)} {d k : String} {v : Bool} :
    lookupKV (insertKV m d v) k = if k = d then some v else lookupKV m k := by
  induction m with
  | nil =>
    by_cases e : k = d
    · subst e; simp [insertKV, lookupKV]
    · have : ¬ d = k := fun h => e h.symm
      simp [insertKV, lookupKV, e, this]
  | cons p t ih =>
    obtain ⟨a, b⟩ := p
    unfold insertKV
    by_cases h : a = d
    · subst h
      by_cases e : k = a
      · subst e; simp [lookupKV]
      · have : ¬ a = k := fun h => e h.symm
        simp [lookupKV, e, this]
    · by_cases e : k = a
      · subst e
        simp [lookupKV, h]
      · have h' : ¬ a = k := fun h => e h.symm
        simp [lookupKV, h, h', ih]

/-- Resolving a document does not look at the queue. -/
theorem resolveDocument_queue {c : PEnv} {ref : String} {s s' : PSt} {q : List String} {r : Except Err SchemaNode}
    (h : resolveDocument c ref s = .ok r s') :
    s'.queue = s.queue ∧ resolveDocument c ref { s with queue := q } = .ok r { s' with queue := q } := by
  unfold resolveDocument at h ⊢
  obtain ⟨m, s1, h1, hrest⟩ := bind_ok.1 h
  clear h
  have hm : matchDocumentRegex ref { s with queue := q } = .ok m { s with queue := q } := by
    unfold matchDocumentRegex at h1 ⊢
    split at h1
    · cases h1
    · rename_i hn
      rw [if_neg hn]
      obtain ⟨h1, _⟩ := pure_ok.1 h1
      rw [h1]
      rfl
  obtain ⟨hs, _, _⟩ := match_ok h1
  subst hs
  obtain ⟨s2, s3, h2, h⟩ := bind_ok.1 hrest
  rw [getS_apply] at h2
  injection h2 with h2 h2'
  subst h2
  subst h2'
  rw [Comp.bind_apply, hm]
  dsimp only
  rw [Comp.bind_apply, getS_apply]
  dsimp only
  have hnf : hasNoFetchers ({ s1 with queue := q } : PSt) = hasNoFetchers s1 := rfl
  have hgf : ∀ d, getFetcherForRef c.url ({ s1 with queue := q } : PSt) d = getFetcherForRef c.url s1 d := fun _ => rfl
  rw [hnf, hgf]
  split at h
  · rename_i hn
    rw [if_pos hn]
    obtain ⟨e, rfl⟩ := pure_ok.1 h
    exact ⟨rfl, by rw [← e]; rfl⟩
  · rename_i hn
    rw [if_neg hn]
    cases hg : getFetcherForRef c.url s1 m.1 with
    | error e =>
      rw [hg] at h
      obtain ⟨e', rfl⟩ := pure_ok.1 h
      exact ⟨rfl, by rw [← e']; rfl⟩
    | ok k =>
      rw [hg] at h
      obtain ⟨d, s4, h4, h⟩ := bind_ok.1 h
      have hf : s4.queue = s1.queue ∧
          fetchDocument c k m.1 { s1 with queue := q } = .ok d { s4 with queue := q } := by
        unfold fetchDocument at h4 ⊢
        cases k with
        | http =>
          dsimp only at h4 ⊢
          cases hv : c.httpGet m.1 with
          | none => rw [hv] at h4; injection h4 with h4 h4'; subst h4'; exact ⟨rfl, by rw [← h4]⟩
          | some v =>
            rw [hv] at h4
            dsimp only at h4 ⊢
            cases hd : decodeNode v with
            | none => rw [hd] at h4; injection h4 with h4 h4'; subst h4'; exact ⟨rfl, by rw [← h4]⟩
            | some n => rw [hd] at h4; injection h4 with h4 h4'; subst h4'; exact ⟨rfl, by rw [← h4]⟩
        | file =>
          dsimp only at h4 ⊢
          cases hv : c.fs.read (trimFile m.1) with
          | none => rw [hv] at h4; injection h4 with h4 h4'; subst h4'; exact ⟨rfl, by rw [← h4]⟩
          | some v =>
            rw [hv] at h4
            dsimp only at h4 ⊢
            cases hd : decodeNode v with
            | none => rw [hd] at h4; injection h4 with h4 h4'; subst h4'; exact ⟨rfl, by rw [← h4]⟩
            | some n => rw [hd] at h4; injection h4 with h4 h4'; subst h4'; exact ⟨rfl, by rw [← h4]⟩
      dsimp only
      rw [Comp.bind_apply, hf.2]
      dsimp only
      cases d with
      | error e =>
        obtain ⟨e', rfl⟩ := pure_ok.1 h
        exact ⟨hf.1, by rw [← e']; rfl⟩
      | ok node =>
        obtain ⟨u, s5, h5, h⟩ := bind_ok.1 h
        obtain ⟨e', h6⟩ := pure_ok.1 h
        subst h6
        unfold addDocument at h5
        rw [modS_apply] at h5
        injection h5 with _ h5
        dsimp only
        rw [Comp.bind_apply]
        unfold addDocument
        rw [modS_apply]
        dsimp only
        by_cases hk : (lookupKV s4.docs m.1).isSome
        · rw [if_pos hk] at h5
          subst h5
          refine ⟨hf.1, ?_⟩
          rw [if_pos hk, ← e']
          rfl
        · rw [if_neg hk] at h5
          subst h5
          refine ⟨hf.1, ?_⟩
          rw [if_neg hk, ← e']
          rfl

/-- Parsing one document taken from the queue. -/
theorem top_parseDocument {c : PEnv} {r : PRec} (hr : KeepsRec c r) {doc : String} {t : List String} {s s' : PSt}
    {e : Option Err} (hq : s.queue = doc :: t)
    (h : parseDocument c r doc { s with queue := t } = .ok e s') :
    Top c s s' ∧ s'.parsingId = doc ∧ (s'.queue = t ∨ doc ∈ s'.parsedDocs) := by
  unfold parseDocument at h
  obtain ⟨_, s1, h1, h2⟩ := bind_ok.1 h
  rw [modS_apply] at h1
  injection h1 with _ h1
  obtain ⟨d, s2, h3, h4⟩ := bind_ok.1 h2
  obtain ⟨hsq, h3'⟩ := resolveDocument_queue (q := doc :: t) h3
  have E0 : Top c s { s1 with queue := doc :: t } := by
    subst h1
    exact {
      path := rfl
      depth := rfl
      res := rfl
      http := rfl
      file := rfl
      errors := ⟨[], rfl⟩
      refs := ⟨[], rfl⟩
      docs := ⟨[], rfl⟩
      resources := ⟨[], by simp⟩
      parsedDocs := ⟨[], rfl⟩
      inv := fun _ I => ⟨I.docsOk, I.aliasesOk, fun d hd => I.queueOk d (by rw [hq]; exact hd)⟩
      once := fun o => ⟨⟨o.loaded, by have := o.queueOk; rw [hq] at this; exact this, o.nodup, o.marked⟩, fun d hd => hd⟩
      fetches := ⟨[], rfl, by simp⟩
      fresh := fun o l e d hd => by
        have : l = [] := List.self_eq_append_left.1 e
        rw [this] at hd
        cases hd }
  have hpid : s1.parsingId = doc := by rw [← h1]
  have hs1q : s1.queue = t := by rw [← h1]
  have hsq' : s2.queue = t := by rw [hsq, hs1q]
  have E1 : Ev c { s1 with queue := doc :: t } { s2 with queue := doc :: t } := by
    refine ev_resolveDocument h3' (fun L I1 hk => ?_)
    have hqq := I1.queueOk doc List.mem_cons_self
    rcases hqq with h' | ⟨h1, h2⟩
    · exact Or.inr (accept_self L hpid h' hk)
    · left
      unfold hasNoFetchers
      rw [h1, h2]
      rfl
  have E01 := E0.trans E1.top
  have hpid2 : s2.parsingId = doc := by
    have := E1.parsing
    rw [← hpid]; exact this
  cases d with
  | error er =>
    obtain ⟨_, rfl⟩ := pure_ok.1 h4
    refine ⟨E01.trans ?_, hpid2, Or.inl hsq'⟩
    exact {
      path := rfl
      depth := rfl
      res := rfl
      http := rfl
      file := rfl
      errors := ⟨[], rfl⟩
      refs := ⟨[], rfl⟩
      docs := ⟨[], rfl⟩
      resources := ⟨[], by simp⟩
      parsedDocs := ⟨[], rfl⟩
      inv := fun _ I => ⟨I.docsOk, I.aliasesOk, fun d hd => I.queueOk d (by
        rw [hsq'] at hd; exact List.mem_cons_of_mem _ hd)⟩
      once := fun o => by
        have ho := o.queueOk
        exact ⟨⟨o.loaded, ⟨by rw [hsq']; exact (List.nodup_cons.1 ho.1).2,
          fun d hd => ho.2 d (List.mem_cons_of_mem _ (by rw [hsq'] at hd; exact hd))⟩,
          o.nodup, o.marked⟩, fun d hd => hd⟩
      fetches := ⟨[], rfl, by simp⟩
      fresh := fun o l e d hd => by
        have : l = [] := List.self_eq_append_left.1 e
        rw [this] at hd
        cases hd }
  | ok n =>
    obtain ⟨_, s3, h5, h6⟩ := bind_ok.1 h4
    rw [modS_apply] at h5
    injection h5 with _ h5
    obtain ⟨g, s4, h7, h8⟩ := bind_ok.1 h6
    obtain ⟨_, rfl⟩ := pure_ok.1 h8
    have E3 := keeps_parseRoot hr _ _ _ _ h7
    have hl := resolveDocument_loads h3
    refine ⟨(E01.trans ?_).trans E3.top, by rw [E3.parsing, ← h5]; exact hpid2,
      Or.inr (by rw [E3.parsedDocs, ← h5]; exact List.mem_cons_self)⟩
    subst h5
    exact {
      path := rfl
      depth := rfl
      res := rfl
      http := rfl
      file := rfl
      errors := ⟨[], rfl⟩
      refs := ⟨[], rfl⟩
      docs := ⟨[], rfl⟩
      resources := ⟨[], by simp⟩
      parsedDocs := ⟨[doc], rfl⟩
      inv := fun _ I => ⟨fun k hk => by
          rcases I.docsOk k hk with h | h
          · exact Or.inl h
          · right
            show lookupKV (insertKV s2.parsed doc true) k = some true
            rw [lookupKV_insertKV]
            by_cases e : k = doc
            · rw [if_pos e]
            · rw [if_neg e]; exact h,
        I.aliasesOk, fun d hd => I.queueOk d (by
        have hd' : d ∈ s2.queue := hd
        rw [hsq'] at hd'; exact List.mem_cons_of_mem _ hd')⟩
      once := fun o => by
        have ho := o.queueOk
        have hmono : ∀ d, lookupKV s2.parsed d = some true → lookupKV (insertKV s2.parsed doc true) d = some true := by
          intro d hd
          rw [lookupKV_insertKV]
          by_cases e : d = doc
          · rw [if_pos e]
          · rw [if_neg e]; exact hd
        refine ⟨⟨?_, ⟨?_, ?_⟩, ?_, ?_⟩, hmono⟩
        · intro d hd
          have hd' : lookupKV (insertKV s2.parsed doc true) d = some true := hd
          rw [lookupKV_insertKV] at hd'
          by_cases e : d = doc
          · subst e; exact hl
          · rw [if_neg e] at hd'; exact o.loaded d hd'
        · show s2.queue.Nodup
          rw [hsq']; exact (List.nodup_cons.1 ho.1).2
        · intro d hd
          have hd' : d ∈ s2.queue := hd
          rw [hsq'] at hd'
          show lookupKV (insertKV s2.parsed doc true) d ≠ some true
          have hne : d ≠ doc := fun e => by
            subst e
            exact (List.nodup_cons.1 ho.1).1 hd'
          rw [lookupKV_insertKV, if_neg hne]
          exact ho.2 d (List.mem_cons_of_mem _ hd')
        · refine List.nodup_cons.2 ⟨fun hd => ?_, o.nodup⟩
          exact ho.2 doc List.mem_cons_self (o.marked doc hd)
        · intro d hd
          show lookupKV (insertKV s2.parsed doc true) d = some true
          rcases List.mem_cons.1 hd with rfl | hd
          · rw [lookupKV_insertKV, if_pos rfl]
          · exact hmono d (o.marked d hd)
      fetches := ⟨[], rfl, by simp⟩
      fresh := fun o l e d hd => by
        have e' : doc :: s2.parsedDocs = l ++ s2.parsedDocs := e
        have : [doc] = l := List.append_cancel_right (bs := s2.parsedDocs) e'
        rw [← this] at hd
        rw [List.mem_singleton.1 hd]
        exact o.queueOk.2 doc List.mem_cons_self }

theorem top_parseQueue {c : PEnv} {r : PRec} (hr : KeepsRec c r) : ∀ (k : Nat) {s s' : PSt} {u : Unit},
    parseQueue c r k s = .ok u s' → Top c s s' ∧ s'.queue = [] := by
  intro k
  induction k with
  | zero => intro s s' u h; simp [parseQueue] at h
  | succ k ih =>
    intro s s' u h
    unfold parseQueue at h
    obtain ⟨q, s1, h1, h2⟩ := bind_ok.1 h
    unfold gets at h1
    injection h1 with h1 h1'
    subst h1'
    dsimp only at h1
    clear h
    cases hq : s.queue with
    | nil =>
      rw [hq] at h1
      subst h1
      obtain ⟨_, rfl⟩ := pure_ok.1 h2
      exact ⟨(Ev.refl c s).top, hq⟩
    | cons doc t =>
      rw [hq] at h1
      subst h1
      obtain ⟨_, s2, h3, h4⟩ := bind_ok.1 h2
      rw [modS_apply] at h3
      injection h3 with _ h3
      subst h3
      obtain ⟨e, s3, h5, h6⟩ := bind_ok.1 h4
      obtain ⟨_, s4, h7, h8⟩ := bind_ok.1 h6
      have E1 := (top_parseDocument hr hq h5).1
      have E2 : Ev c s3 s4 := by
        cases e with
        | none => exact Keeps.pure _ _ _ _ h7
        | some e => exact keeps_addErrorSub c _ _ _ _ _ h7
      have E3 := ih h8
      exact ⟨(E1.trans E2.top).trans E3.1, E3.2⟩

theorem top_parseBody {c : PEnv} {fuel : Nat} {root : SchemaNode} {s s' : PSt} {r : Gen × Option Err}
    (h : parseBody c fuel root s = .ok r s') : Top c s s' ∧ s'.queue = [] := by
  unfold parseBody at h
  obtain ⟨g, s1, h1, h2⟩ := bind_ok.1 h
  obtain ⟨u, s2, h3, h4⟩ := bind_ok.1 h2
  obtain ⟨_, rfl⟩ := pure_ok.1 h4
  have E1 := (keeps_parseRoot (keeps_parseRec fuel) _ _ _ _ h1).top
  have E2 := top_parseQueue (keeps_parseRec fuel) _ h3
  exact ⟨E1.trans E2.1, E2.2⟩

/-! ## The initial state -/

theorem initState_inv {c : PEnv} {root : SchemaNode} {s : PSt} (h : initState c root = .ok s) :
    s.Inv c ∧ Once s ∧ s.fetches = [] ∧ s.parsedDocs = [] ∧ s.errors = [] ∧ s.path = "#" ∧ s.depth = 0 ∧
      s.resolutions = [] ∧ (∃ rootKey, s.docs = [(rootKey, root)] ∧ lookupKV s.parsed rootKey = some true) ∧
      (s.httpFetcher = if c.httpOpts.enabled then some c.httpOpts else none) ∧
      makeFileFetcher c = .ok s.fileFetcher := by
  unfold initState at h
  cases hf : makeFileFetcher c with
  | error e => rw [hf] at h; cases h
  | ok ff =>
    rw [hf] at h
    dsimp only at h
    injection h with h
    subst h
    refine ⟨⟨?_, ?_, ?_⟩, ⟨?_, ⟨?_, ?_⟩, ?_, ?_⟩, rfl, rfl, rfl, rfl, rfl, rfl, ⟨_, rfl, ?_⟩, rfl, rfl⟩
    · intro k hk
      right
      simp [keysKV] at hk
      simp [lookupKV, hk]
    · intro p hp
      obtain ⟨l, hl, hl'⟩ := addAliases_spec [] (collectSubSchemaIds c.url (baseURIOf c.url (rootIds c).2 root) (rootIds c).2 root)
      have hp' : p ∈ l := by
        have : p ∈ ([] ++ l) := by rw [← hl]; exact hp
        simpa using this
      rw [collect_found _ _ _ _ p (hl' p hp')]
      simp [keysKV]
    · intro d hd; cases hd
    · intro d hd
      left
      simp [lookupKV] at hd
      simp [keysKV, hd]
    · exact List.nodup_nil
    · intro d hd; cases hd
    · exact List.nodup_nil
    · intro d hd; cases hd
    · simp [lookupKV]

end Chaff
