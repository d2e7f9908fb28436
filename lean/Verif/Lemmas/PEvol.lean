import Verif.Model.Parse
import Verif.Lemmas.Comp
import Verif.Lemmas.KV
/-!
# How the parser state evolves

`Ev c s s'` collects everything that is true of the states before and after any part of the parser below
`parseRoot`.  `Keeps c m` says that `m` evolves the state in this way whenever it returns.
-/

namespace Chaff
open Comp

/-- Facts about Go's `net/url` that the code relies on.  `cut`: a fragment changes neither scheme nor host
(`url.Parse` cuts the fragment off first).  `str_str`, `str_resolve`: printing a URL and parsing it again keeps
scheme and host.  `resolve_scheme`: a reference with a scheme keeps it, otherwise it takes that of the base.
`file_scheme`: a text starting with `file://` has the scheme `file`. -/
structure UrlLaws (u : UrlSys) : Prop where
  cut : ∀ t y, u.parse t = some y → ∃ z, u.parse (String.ofList (splitHash t.toList).1) = some z ∧
    z.scheme = y.scheme ∧ z.host = y.host
  str_str : ∀ t y, u.parse t = some y → ∃ z, u.parse (u.str y) = some z ∧ z.scheme = y.scheme ∧ z.host = y.host
  str_resolve : ∀ t y b x, u.parse t = some y → u.parse b = some x → ∃ z, u.parse (u.str (u.resolve x y)) = some z ∧
    z.scheme = (u.resolve x y).scheme ∧ z.host = (u.resolve x y).host
  resolve_scheme : ∀ x y : Url, (u.resolve x y).scheme = if y.scheme ≠ "" then y.scheme else x.scheme
  file_scheme : ∀ t y, u.parse ("file://" ++ t) = some y → y.scheme = "file"

/-- What the file-system theorems need: real paths contain no `#`. -/
def NoHashPaths (fs : FileSys) : Prop := ∀ q p, fs.realPath q = some p → '#' ∉ (pathText p).toList

/-- The laws assumed of the outside world. -/
structure EnvLaws (c : PEnv) : Prop where
  url : UrlLaws c.url
  paths : NoHashPaths c.fs

/-- A URL text that the HTTP options permit. -/
def HttpOk (c : PEnv) (f : HttpOpts) (id : String) (scheme : String) : Prop :=
  ∃ u, c.url.parse id = some u ∧ u.scheme = scheme ∧ (f.allowInsecure = true ∨ u.scheme = "https") ∧
    (f.allowedHosts = [] ∨ u.host ∈ f.allowedHosts)

/-- A file that the file options permit. -/
def FileOk (c : PEnv) (f : List (List String) × Bool) (p : List String) : Prop :=
  (∃ q, c.fs.realPath q = some p) ∧
  (f.2 = true ∨ ∃ cwd, c.fs.cwd = some cwd ∧ isOutsideOfCwd cwd p = false) ∧ isOutsideOfAllowedPaths p f.1 = false

/-- A document name that a fetcher has accepted. -/
def AuthId (c : PEnv) (hf : Option HttpOpts) (ff : Option (List (List String) × Bool)) (id : String) : Prop :=
  (∃ f scheme, hf = some f ∧ HttpOk c f id scheme ∧ (scheme = "http" ∨ scheme = "https" ∨ scheme = "")) ∨
  (∃ f p, ff = some f ∧ id = "file://" ++ pathText p ∧ FileOk c f p)

/-- An access to the outside that the options permit: direct, or a redirect of a permitted one. -/
def AllowedFetch (c : PEnv) (hf : Option HttpOpts) (ff : Option (List (List String) × Bool)) : Fetch → Prop
  | .http u => ∃ f id scheme, hf = some f ∧ HttpOk c f id scheme ∧ (u = id ∨ u ∈ c.redirects id)
  | .file path => ∃ f p, ff = some f ∧ path = pathText p ∧ FileOk c f p

/-- What holds of the tables of documents throughout a parse. -/
structure Inv (c : PEnv) (docs : List (String × SchemaNode)) (parsed : List (String × Bool))
    (aliases : List (String × (String × String))) (queue : List String) (hf : Option HttpOpts)
    (ff : Option (List (List String) × Bool)) : Prop where
  docsOk : ∀ k ∈ keysKV docs, AuthId c hf ff k ∨ lookupKV parsed k = some true
  aliasesOk : ∀ p ∈ aliases, p.2.1 ∈ keysKV docs
  queueOk : ∀ d ∈ queue, AuthId c hf ff d ∨ (hf = none ∧ ff = none)

/-- `Inv` of a state. -/
def PSt.Inv (c : PEnv) (s : PSt) : Prop :=
  Chaff.Inv c s.docs s.parsed s.aliases s.queue s.httpFetcher s.fileFetcher

/-- Every document marked as parsed is loaded, unless its name contains a `#`. -/
def ParsedLoaded (docs : List (String × SchemaNode)) (parsed : List (String × Bool)) : Prop :=
  ∀ d, lookupKV parsed d = some true → d ∈ keysKV docs ∨ '#' ∈ d.toList

/-- Nothing waiting is already parsed, and nothing waits twice. -/
def QueueOk (queue : List String) (parsed : List (String × Bool)) : Prop :=
  queue.Nodup ∧ ∀ d ∈ queue, lookupKV parsed d ≠ some true

/-- The state after, compared with the state before. -/
structure Ev (c : PEnv) (s s' : PSt) : Prop where
  path : s'.path = s.path
  depth : s'.depth = s.depth
  res : s'.resolutions = s.resolutions
  parsing : s'.parsingId = s.parsingId
  http : s'.httpFetcher = s.httpFetcher
  file : s'.fileFetcher = s.fileFetcher
  parsedDocs : s'.parsedDocs = s.parsedDocs
  errors : ∃ l, s'.errors = l ++ s.errors ∧
    ∀ e ∈ l, e.1.1 = s.parsingId ∧ ∃ sub, e.1.2 = s.path ++ sub
  refs : ∃ l, s'.refs = l ++ s.refs ∧ ∀ e ∈ l, e.1.1 = s.parsingId
  docs : ∃ l, s'.docs = l ++ s.docs
  aliases : ∃ l, s'.aliases = s.aliases ++ l
  queue : ∃ l, s'.queue = s.queue ++ l
  resources : ∃ l, s'.resources = s.resources ++ l
  inv : EnvLaws c → s.Inv c → s'.Inv c
  parsed : ParsedLoaded s.docs s.parsed → ParsedLoaded s'.docs s'.parsed ∧
    ∀ d, lookupKV s'.parsed d = some true ↔ lookupKV s.parsed d = some true
  queueOk : ParsedLoaded s.docs s.parsed → QueueOk s.queue s.parsed → QueueOk s'.queue s'.parsed
  fetches : ∃ l, s'.fetches = l ++ s.fetches ∧
    (EnvLaws c → s.Inv c → ∀ f ∈ l, AllowedFetch c s.httpFetcher s.fileFetcher f)

theorem Ev.refl (c : PEnv) (s : PSt) : Ev c s s where
  path := rfl
  depth := rfl
  res := rfl
  parsing := rfl
  http := rfl
  file := rfl
  parsedDocs := rfl
  errors := ⟨[], rfl, by simp⟩
  refs := ⟨[], rfl, by simp⟩
  docs := ⟨[], rfl⟩
  aliases := ⟨[], by simp⟩
  queue := ⟨[], by simp⟩
  resources := ⟨[], by simp⟩
  inv _ h := h
  parsed h := ⟨h, fun _ => Iff.rfl⟩
  queueOk _ h := h
  fetches := ⟨[], rfl, by simp⟩

/-- Composition, where the first step may also have moved the path, the depth or the stack of resolutions. -/
theorem Ev.trans {c : PEnv} {s s1 s2 : PSt} (h : Ev c s s1) (h' : Ev c s1 s2) : Ev c s s2 where
  path := h'.path.trans h.path
  depth := h'.depth.trans h.depth
  res := h'.res.trans h.res
  parsing := h'.parsing.trans h.parsing
  http := h'.http.trans h.http
  file := h'.file.trans h.file
  parsedDocs := h'.parsedDocs.trans h.parsedDocs
  errors := by
    obtain ⟨l, e, q⟩ := h.errors
    obtain ⟨l', e', q'⟩ := h'.errors
    refine ⟨l' ++ l, by rw [e', e, List.append_assoc], ?_⟩
    intro x hx
    rcases List.mem_append.1 hx with hx | hx
    · have := q' x hx
      rw [h.parsing, h.path] at this
      exact this
    · exact q x hx
  refs := by
    obtain ⟨l, e, q⟩ := h.refs
    obtain ⟨l', e', q'⟩ := h'.refs
    refine ⟨l' ++ l, by rw [e', e, List.append_assoc], ?_⟩
    intro x hx
    rcases List.mem_append.1 hx with hx | hx
    · rw [q' x hx, h.parsing]
    · exact q x hx
  docs := by
    obtain ⟨l, e⟩ := h.docs
    obtain ⟨l', e'⟩ := h'.docs
    exact ⟨l' ++ l, by rw [e', e, List.append_assoc]⟩
  aliases := by
    obtain ⟨l, e⟩ := h.aliases
    obtain ⟨l', e'⟩ := h'.aliases
    exact ⟨l ++ l', by rw [e', e, List.append_assoc]⟩
  queue := by
    obtain ⟨l, e⟩ := h.queue
    obtain ⟨l', e'⟩ := h'.queue
    exact ⟨l ++ l', by rw [e', e, List.append_assoc]⟩
  resources := by
    obtain ⟨l, e⟩ := h.resources
    obtain ⟨l', e'⟩ := h'.resources
    exact ⟨l ++ l', by rw [e', e, List.append_assoc]⟩
  inv L i := h'.inv L (h.inv L i)
  parsed p := ⟨(h'.parsed (h.parsed p).1).1, fun d => ((h'.parsed (h.parsed p).1).2 d).trans ((h.parsed p).2 d)⟩
  queueOk p q := h'.queueOk (h.parsed p).1 (h.queueOk p q)
  fetches := by
    obtain ⟨l, e, q⟩ := h.fetches
    obtain ⟨l', e', q'⟩ := h'.fetches
    refine ⟨l' ++ l, by rw [e', e, List.append_assoc], ?_⟩
    intro L i x hx
    rcases List.mem_append.1 hx with hx | hx
    · have := q' L (h.inv L i) x hx
      rw [h.http, h.file] at this
      exact this
    · exact q L i x hx

/-- Whenever `m` returns, the state has evolved as described. -/
def Keeps {α : Type} (c : PEnv) (m : P α) : Prop := ∀ s a s', m s = .ok a s' → Ev c s s'

section
variable {α β : Type} {c : PEnv}

theorem Keeps.pure (a : α) : Keeps c (pure a : P α) := by
  intro s b s' h
  obtain ⟨rfl, rfl⟩ := pure_ok.1 h
  exact Ev.refl c s

theorem Keeps.bind {m : P α} {f : α → P β} (hm : Keeps c m) (hf : ∀ a, Keeps c (f a)) : Keeps c (m >>= f) := by
  intro s b s' h
  obtain ⟨a, s1, h1, h2⟩ := bind_ok.1 h
  exact (hm s a s1 h1).trans (hf a s1 b s' h2)

theorem Keeps.fail (e : String) : Keeps c (Comp.fail e : P α) := by intro s a s' h; simp at h
theorem Keeps.oom : Keeps c (Comp.outOfFuel : P α) := by intro s a s' h; simp at h

theorem Keeps.gets (f : PSt → α) : Keeps c (gets f) := by
  intro s a s' h
  unfold Chaff.gets at h
  cases h
  exact Ev.refl c s

theorem Keeps.getS : Keeps c (Comp.getS : P PSt) := by
  intro s a s' h
  simp at h
  obtain ⟨_, rfl⟩ := h
  exact Ev.refl c s

theorem Keeps.ite {p : Prop} [Decidable p] {m m' : P α} (h : Keeps c m) (h' : Keeps c m') :
    Keeps c (if p then m else m') := by
  split
  · exact h
  · exact h'

end

/-! ## Primitive actions -/

theorem keeps_addErrorSub (c : PEnv) (sub : String) (e : Err) : Keeps c (addErrorSub sub e) := by
  intro s a s' h
  unfold addErrorSub at h
  simp at h
  subst h
  exact { Ev.refl c s with errors := ⟨[((s.parsingId, s.path ++ sub), e)], rfl, by simp⟩ }

theorem keeps_addError (c : PEnv) (e : Err) : Keeps c (addError e) := keeps_addErrorSub c "" e
theorem keeps_warnMerge (c : PEnv) (f e : String) : Keeps c (warnMerge f e) := keeps_addErrorSub c _ _
theorem keeps_warnField (c : PEnv) (f e : String) : Keeps c (warnField f e) := keeps_addErrorSub c _ _

theorem keeps_setResolving (c : PEnv) (d : String) : Keeps c (setResolving d) := by
  intro s a s' h
  unfold setResolving at h
  simp at h
  subst h
  exact { Ev.refl c s with }

theorem keeps_addIdReference (c : PEnv) (i : String) (g : Gen) : Keeps c (addIdReference i g) := by
  intro s a s' h
  unfold addIdReference at h
  simp at h
  subst h
  exact { Ev.refl c s with refs := ⟨[((s.parsingId, i), g)], rfl, by simp⟩ }

theorem keeps_addReference (c : PEnv) (g : Gen) : Keeps c (addReference g) := by
  intro s a s' h
  unfold addReference at h
  simp at h
  subst h
  exact { Ev.refl c s with refs := ⟨[((s.parsingId, s.path), g)], rfl, by simp⟩ }

theorem keeps_hasRes (c : PEnv) (d r : String) : Keeps c (hasRes d r) := Keeps.gets _
theorem keeps_currentScope (c : PEnv) : Keeps c currentScope := Keeps.gets _

theorem keeps_match (c : PEnv) (ref : String) : Keeps c (matchDocumentRegex ref) := by
  unfold matchDocumentRegex
  dsimp only
  split
  · exact Keeps.fail _
  · exact Keeps.pure _

theorem keeps_validatorFor (c : PEnv) (n : SchemaNode) (f : String) : Keeps c (validatorFor c n f) := by
  intro s a s' h
  unfold validatorFor at h
  simp only [Res.ok.injEq] at h
  obtain ⟨_, h⟩ := h
  subst h
  refine { Ev.refl c s with resources := ?_ }
  dsimp only
  split
  · exact ⟨[], by simp⟩
  · exact ⟨_, rfl⟩

/-! ## Brackets -/

theorem take_append_length (a b : List Char) : (a ++ b).take ((a ++ b).length - b.length) = a := by
  have : (a ++ b).length - b.length = a.length := by simp
  rw [this]
  simp

/-- Pushing a path segment, evolving, and popping it. -/
theorem keeps_scope {α : Type} {c : PEnv} {part : String} {m : P α} (hm : Keeps c m) :
    Keeps c (do pushPath part; let a ← m; popPath part; pure a) := by
  intro s b s' h
  obtain ⟨_, s1, h1, h⟩ := bind_ok.1 h
  unfold pushPath at h1
  simp at h1
  obtain ⟨a, s2, h2, h⟩ := bind_ok.1 h
  obtain ⟨_, s3, h3, h⟩ := bind_ok.1 h
  obtain ⟨rfl, rfl⟩ := pure_ok.1 h
  have E := hm _ _ _ h2
  subst h1
  unfold popPath at h3
  split at h3
  · simp only [Res.ok.injEq, true_and] at h3
    subst h3
    have hp : s2.path = s.path ++ part := E.path
    refine
      { path := ?_
        depth := E.depth
        res := E.res
        parsing := E.parsing
        http := E.http
        file := E.file
        parsedDocs := E.parsedDocs
        errors := ?_
        refs := E.refs
        docs := E.docs
        aliases := E.aliases
        queue := E.queue
        resources := E.resources
        inv := E.inv
        parsed := E.parsed
        queueOk := E.queueOk
        fetches := E.fetches }
    · apply String.toList_injective
      have e : s.path.length = s.path.toList.length := String.length_toList.symm
      simp only [String.toList_ofList, hp, String.toList_append, String.length_append, Nat.add_sub_cancel, e,
        List.take_left']
    · obtain ⟨l, e, q⟩ := E.errors
      refine ⟨l, e, ?_⟩
      intro x hx
      obtain ⟨q1, sub, q2⟩ := q x hx
      refine ⟨q1, part ++ sub, ?_⟩
      rw [q2]
      simp [String.append_assoc]
  · simp at h3

/-- Entering and leaving one level of depth. -/
theorem Ev.level {c : PEnv} {s s2 : PSt} (E : Ev c { s with depth := s.depth + 1 } s2) :
    Ev c s { s2 with depth := s2.depth - 1 } where
  path := E.path
  depth := by have := E.depth; simp only at this ⊢; omega
  res := E.res
  parsing := E.parsing
  http := E.http
  file := E.file
  parsedDocs := E.parsedDocs
  errors := E.errors
  refs := E.refs
  docs := E.docs
  aliases := E.aliases
  queue := E.queue
  resources := E.resources
  inv := E.inv
  parsed := E.parsed
  queueOk := E.queueOk
  fetches := E.fetches

theorem Ev.resPush {c : PEnv} {s s2 : PSt} {k : String} (E : Ev c { s with resolutions := k :: s.resolutions } s2) :
    s2.resolutions = k :: s.resolutions ∧ Ev c s { s2 with resolutions := s.resolutions } :=
  ⟨E.res,
    { path := E.path
      depth := E.depth
      res := rfl
      parsing := E.parsing
      http := E.http
      file := E.file
      parsedDocs := E.parsedDocs
      errors := E.errors
      refs := E.refs
      docs := E.docs
      aliases := E.aliases
      queue := E.queue
      resources := E.resources
      inv := E.inv
      parsed := E.parsed
      queueOk := E.queueOk
      fetches := E.fetches }⟩

end Chaff
