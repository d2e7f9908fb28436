import Verif.Lemmas.DemoEnv
/-!
# C49, C50, C51: which documents a parse may read
-/

namespace Chaff
open Comp

/-! ## Specification -/

/-- A URL that the options let through: its scheme is `https` unless insecure access is allowed, and its host is on
the list of allowed hosts unless the list is empty. -/
def MayContact (c : PEnv) (id : String) : Prop :=
  ∃ u, c.url.parse id = some u ∧ (c.httpOpts.allowInsecure = true ∨ u.scheme = "https") ∧
    (c.httpOpts.allowedHosts = [] ∨ u.host ∈ c.httpOpts.allowedHosts)

/-- A parse that returned. -/
def Parsed (c : PEnv) (schema : JVal) (s : PSt) : Prop :=
  ∃ fuel r, parseSchema c fuel schema = .done (.ok r s)

theorem parse_fetches {c : PEnv} (L : EnvLaws c) {schema : JVal} {s' : PSt} (h : Parsed c schema s') :
    ∃ ff, makeFileFetcher c = .ok ff ∧
      ∀ f ∈ s'.fetches, AllowedFetch c (if c.httpOpts.enabled then some c.httpOpts else none) ff f := by
  obtain ⟨fuel, r, h⟩ := h
  unfold parseSchema at h
  cases hd : decodeNode schema with
  | none => rw [hd] at h; cases h
  | some root =>
    rw [hd] at h
    dsimp only at h
    cases hi : initState c root with
    | error e => rw [hi] at h; cases h
    | ok s =>
      rw [hi] at h
      dsimp only at h
      split at h
      · injection h with h
        obtain ⟨T, hq⟩ := top_parseBody h
        obtain ⟨I, _, hf, _, _, _, _, _, _, hh, hff⟩ := initState_inv hi
        obtain ⟨l, hl, hal⟩ := T.fetches
        refine ⟨s.fileFetcher, hff, fun f hm => ?_⟩
        have hl' : s'.fetches = l ++ s.fetches := hl
        rw [hl', hf, List.append_nil] at hm
        have := hal L I f hm
        have e : ({ s with resources := [(s.parsingId, schema)] } : PSt).httpFetcher =
          (if c.httpOpts.enabled then some c.httpOpts else none) := hh
        rw [e] at this
        exact this
      · cases h

/-! ## C49 -/

/-- C49: every URL contacted was let through by the options, or is the target of a redirect answered by such a
URL. -/
theorem C49_http_authorised (c : PEnv) (L : EnvLaws c) (schema : JVal) (s : PSt) (h : Parsed c schema s) (u : String)
    (hu : Fetch.http u ∈ s.fetches) :
    c.httpOpts.enabled = true ∧ ∃ id, MayContact c id ∧ (u = id ∨ u ∈ c.redirects id) := by
  obtain ⟨ff, _, hall⟩ := parse_fetches L h
  obtain ⟨f, id, sc, hf, ⟨url, hp, _, hsec, hhost⟩, hu⟩ := hall _ hu
  split at hf
  · rename_i he
    injection hf with hf
    subst hf
    exact ⟨he, id, ⟨url, hp, hsec, hhost⟩, hu⟩
  · cases hf

/-- C49: without redirects every URL contacted is itself let through. -/
theorem C49_http_direct (c : PEnv) (L : EnvLaws c) (hr : ∀ u, c.redirects u = []) (schema : JVal) (s : PSt)
    (h : Parsed c schema s) (u : String) (hu : Fetch.http u ∈ s.fetches) : MayContact c u := by
  obtain ⟨_, id, hid, h1 | h1⟩ := C49_http_authorised c L schema s h u hu
  · rw [h1]; exact hid
  · rw [hr] at h1; cases h1

/-- C49: a disabled HTTP fetcher contacts nothing. -/
theorem C49_http_disabled (c : PEnv) (L : EnvLaws c) (hd : c.httpOpts.enabled = false) (schema : JVal) (s : PSt)
    (h : Parsed c schema s) (u : String) : Fetch.http u ∉ s.fetches := by
  intro hu
  have := (C49_http_authorised c L schema s h u hu).1
  rw [hd] at this
  cases this

/-- C49: a disabled file fetcher reads nothing. -/
theorem C49_file_disabled (c : PEnv) (L : EnvLaws c) (hd : c.fileOpts.enabled = false) (schema : JVal) (s : PSt)
    (h : Parsed c schema s) (p : String) : Fetch.file p ∉ s.fetches := by
  intro hu
  obtain ⟨ff, hff, hall⟩ := parse_fetches L h
  obtain ⟨f, q, hf, _⟩ := hall _ hu
  unfold makeFileFetcher at hff
  rw [hd] at hff
  injection hff with hff
  rw [← hff] at hf
  cases hf

/-- C49: with both fetchers disabled, as by default, a parse reads nothing at all. -/
theorem C49_none_enabled (c : PEnv) (L : EnvLaws c) (hd : c.httpOpts.enabled = false) (hf : c.fileOpts.enabled = false)
    (schema : JVal) (s : PSt) (h : Parsed c schema s) : s.fetches = [] := by
  apply List.eq_nil_iff_forall_not_mem.2
  intro f
  cases f with
  | http u => exact C49_http_disabled c L hd schema s h u
  | file p => exact C49_file_disabled c L hf schema s h p

/-- References to an allowed host, to another host and to a file. -/
def threeRefs : JVal := .obj [("type", .str "object"), ("properties", .obj [("p", .obj [("$ref", .str "https://a.org/x")]),
  ("q", .obj [("$ref", .str "https://evil.org/x")]), ("r", .obj [("$ref", .str "file:///w/a.json")])])]

/-- The hypotheses are met by a run that fetches a document. -/
example : EnvLaws demoEnv ∧
    (∃ s, Parsed demoEnv threeRefs s ∧ s.fetches = [.http "https://a.org/x"]) := by
  refine ⟨demoEnv_laws, ?_⟩
  have hr : ((parseSchema demoEnv 20 threeRefs).state.map (fun s => s.fetches)) = some [.http "https://a.org/x"] := by
    decide +kernel
  generalize hp : parseSchema demoEnv 20 threeRefs = o at hr
  cases o with
  | rejected e => simp [ParseOutcome.state] at hr
  | done res =>
    cases res with
    | ok r s => exact ⟨s, ⟨20, r, hp⟩, by simpa [ParseOutcome.state] using hr⟩
    | panic e => simp [ParseOutcome.state] at hr
    | oom => simp [ParseOutcome.state] at hr

/-- A web server on the allowed host that redirects elsewhere. -/
def redirectEnv : PEnv := { demoEnv with redirects := fun u => if u = "https://a.org/x" then ["https://evil.org/x"] else [] }

/-- C49 as stated is violated by the code: redirects are followed without checking the list of allowed hosts. -/
theorem C49_redirect_violation :
    ∃ s, Parsed redirectEnv threeRefs s ∧ Fetch.http "https://evil.org/x" ∈ s.fetches ∧
      ¬ MayContact redirectEnv "https://evil.org/x" := by
  have hr : ((parseSchema redirectEnv 20 threeRefs).state.map (fun s => s.fetches)) =
      some [.http "https://evil.org/x", .http "https://a.org/x"] := by
    decide +kernel
  generalize hp : parseSchema redirectEnv 20 threeRefs = o at hr
  cases o with
  | rejected e => simp [ParseOutcome.state] at hr
  | done res =>
    cases res with
    | panic e => simp [ParseOutcome.state] at hr
    | oom => simp [ParseOutcome.state] at hr
    | ok r s =>
      refine ⟨s, ⟨20, r, hp⟩, ?_, ?_⟩
      · have : s.fetches = [.http "https://evil.org/x", .http "https://a.org/x"] := by
          simpa [ParseOutcome.state] using hr
        rw [this]
        simp
      · rintro ⟨u, hu, _, h | h⟩
        · revert h; decide +kernel
        · have e : redirectEnv.url.parse "https://evil.org/x" = some ⟨"https", "evil.org", "/x"⟩ := by decide +kernel
          rw [e] at hu
          injection hu with hu
          subst hu
          revert h
          decide +kernel

/-! ## C50 -/

theorem hasDotDot_dots : hasDotDot "..".toList = true := by decide +kernel

/-- A relative path without `..` in it goes down only. -/
theorem inside_of_rel : ∀ (cwd p : List String), isOutsideOfCwd cwd p = false → cwd <+: p := by
  intro cwd
  induction cwd with
  | nil => intro p _; exact List.nil_prefix
  | cons b bs ih =>
    intro p h
    unfold isOutsideOfCwd at h
    cases p with
    | nil =>
      simp only [relPath, List.length_cons, List.replicate_succ, List.any_cons, hasDotDot_dots, Bool.true_or] at h
      cases h
    | cons t ts =>
      by_cases e : b = t
      · subst e
        simp only [relPath, if_pos] at h
        exact List.cons_prefix_cons.2 ⟨rfl, ih ts h⟩
      · simp only [relPath, if_neg e, List.length_cons, List.replicate_succ, List.cons_append, List.any_cons,
          hasDotDot_dots, Bool.true_or] at h
        cases h

/-- C50: unless files outside the working directory are allowed, every file read is a real path (links resolved)
inside the working directory.  `EnvLaws` includes that no real path contains a `#`; see `C50_hash_violation`. -/
theorem C50_files_inside_cwd (c : PEnv) (L : EnvLaws c) (ho : c.fileOpts.allowOutsideCwd = false) (schema : JVal)
    (s : PSt) (h : Parsed c schema s) (path : String) (hp : Fetch.file path ∈ s.fetches) :
    ∃ cwd real q, c.fs.cwd = some cwd ∧ c.fs.realPath q = some real ∧ path = pathText real ∧ cwd <+: real := by
  obtain ⟨ff, hff, hall⟩ := parse_fetches L h
  obtain ⟨f, p, hf, hpt, ⟨q, hq⟩, hcwd, _⟩ := hall _ hp
  have hf2 : f.2 = false := by
    unfold makeFileFetcher at hff
    subst hf
    split at hff
    · cases hr : realPaths c.fs c.fileOpts.allowedPaths with
      | error e => rw [hr] at hff; cases hff
      | ok l =>
        rw [hr] at hff
        injection hff with hff
        injection hff with hff
        rw [← hff]
        exact ho
    · injection hff with hff
      cases hff
  rcases hcwd with h' | ⟨cwd, hc, hout⟩
  · rw [hf2] at h'; cases h'
  · exact ⟨cwd, p, q, hc, hq, hpt, inside_of_rel cwd p hout⟩

/-- File access with an allowed path that does not match. -/
def fileEnv : PEnv := { demoEnv with fileOpts := { enabled := true, allowedPaths := ["/z"] } }

/-- References to a file in the working directory and to a link that leads out of it. -/
def fileRefs : JVal := .obj [("type", .str "object"), ("properties", .obj [("p", .obj [("$ref", .str "file:///w/a.json")]),
  ("q", .obj [("$ref", .str "file:///w/l.json")])])]

/-- The hypotheses are met by a run that reads a file; the link is refused. -/
example : EnvLaws fileEnv ∧ ((parseSchema fileEnv 20 fileRefs).state.map (fun s => (s.fetches, s.errors.map (·.2)))) =
    some ([.file "/w/a.json"], ["outside of current working directory"]) :=
  ⟨⟨demoUrl_laws, demoFs_paths⟩, by decide +kernel⟩

/-- A working directory whose name contains a `#`. -/
def hashEnv : PEnv :=
  { fileEnv with fs := {
      cwd := some ["a", "b#c"]
      realPath := fun p => if p = "/a/b#c/./x.json" ∨ p = "/a/b#c/x.json" then some ["a", "b#c", "x.json"]
        else if p = "/z" then some ["z"] else none
      read := fun p => if p = "/a/b" then some (.obj [("type", .str "integer")]) else none } }

/-- C50 is violated by the code when the working directory has a `#` in its name: the reference `./x.json` to a file
inside it makes the parser read `/a/b`, which is outside. -/
theorem C50_hash_violation :
    ((parseSchema hashEnv 20 (.obj [("$ref", .str "./x.json")])).state.map (fun s => s.fetches)) = some [.file "/a/b"] ∧
    ¬ (["a", "b#c"] <+: ["a", "b"]) := by
  refine ⟨by decide +kernel, by decide⟩

/-- The check refuses more than it must: a file inside the working directory whose name contains two dots. -/
theorem C50_refuses_dots_in_names : isOutsideOfCwd ["w"] ["w", "a..json"] = true ∧ ["w"] <+: ["w", "a..json"] := by
  refine ⟨by decide +kernel, by decide⟩

/-! ## C51 -/

/-- Specification: the file lies directly inside the directory. -/
def DirectlyIn (dir file : List String) : Prop := ∃ name, file = dir ++ [name]

theorem globChild_iff (dir file : List String) : globChild dir file = true ↔ DirectlyIn dir file := by
  unfold globChild DirectlyIn
  simp only [Bool.and_eq_true, decide_eq_true_eq]
  constructor
  · rintro ⟨h1, h2⟩
    have h3 : (file.drop dir.length).length = 1 := by simp [h1]
    obtain ⟨x, hx⟩ := List.length_eq_one_iff.1 h3
    refine ⟨x, ?_⟩
    conv_lhs => rw [← List.take_append_drop dir.length file, h2, hx]
  · rintro ⟨x, rfl⟩
    simp

/-- C51, what the code does instead: a file passes the check exactly when it is *not* directly inside at least one of
the allowed directories. -/
theorem C51_check_is_inverted (allowed : List (List String)) (file : List String) :
    isOutsideOfAllowedPaths file allowed = false ↔ ∃ dir ∈ allowed, ¬ DirectlyIn dir file := by
  induction allowed with
  | nil => simp [isOutsideOfAllowedPaths]
  | cons a t ih =>
    unfold isOutsideOfAllowedPaths
    by_cases h : globChild a file = true
    · rw [if_neg (by simpa using h), ih]
      simp only [List.mem_cons, exists_eq_or_imp]
      constructor
      · exact Or.inr
      · rintro (h' | h')
        · exact (h' ((globChild_iff a file).1 h)).elim
        · exact h'
    · rw [if_pos (by simpa using h)]
      simp only [List.mem_cons, exists_eq_or_imp, true_iff]
      exact Or.inl (fun h' => h ((globChild_iff a file).2 h'))

/-- C51: with a single allowed directory, the files read during a parse are exactly ones that are not directly in it. -/
theorem C51_only_files_not_in_allowed (c : PEnv) (L : EnvLaws c) (dir : String) (real : List String)
    (hdir : c.fs.realPath dir = some real) (ha : c.fileOpts.allowedPaths = [dir]) (schema : JVal) (s : PSt)
    (h : Parsed c schema s) (path : String) (hp : Fetch.file path ∈ s.fetches) :
    ∃ p, path = pathText p ∧ ¬ DirectlyIn real p := by
  obtain ⟨ff, hff, hall⟩ := parse_fetches L h
  obtain ⟨f, p, hf, hpt, _, _, hal⟩ := hall _ hp
  refine ⟨p, hpt, ?_⟩
  have hf1 : f.1 = [real] := by
    unfold makeFileFetcher at hff
    subst hf
    split at hff
    · rw [ha] at hff
      simp only [realPaths, hdir] at hff
      injection hff with hff
      injection hff with hff
      rw [← hff]
    · injection hff with hff
      cases hff
  rw [hf1, C51_check_is_inverted] at hal
  obtain ⟨d, hd, hn⟩ := hal
  rw [List.mem_singleton.1 hd] at hn
  exact hn

/-- C51: an empty list of allowed paths, the default, refuses every file. -/
theorem C51_empty_refuses_all (c : PEnv) (L : EnvLaws c) (ha : c.fileOpts.allowedPaths = []) (schema : JVal) (s : PSt)
    (h : Parsed c schema s) (path : String) : Fetch.file path ∉ s.fetches := by
  intro hp
  obtain ⟨ff, hff, hall⟩ := parse_fetches L h
  obtain ⟨f, p, hf, hpt, _, _, hal⟩ := hall _ hp
  have hf1 : f.1 = [] := by
    unfold makeFileFetcher at hff
    subst hf
    split at hff
    · rw [ha] at hff
      simp only [realPaths] at hff
      injection hff with hff
      injection hff with hff
      rw [← hff]
    · injection hff with hff
      cases hff
  rw [hf1] at hal
  cases hal

/-- C51 as stated is violated by the code: with `/z` as the only allowed path the file `/w/a.json` is read, and with
`/w` as the only allowed path it is refused. -/
theorem C51_allowed_paths_violation :
    ((parseSchema fileEnv 20 fileRefs).state.map (fun s => s.fetches)) = some [.file "/w/a.json"] ∧
    ((parseSchema { fileEnv with fileOpts := { enabled := true, allowedPaths := ["/w"] } } 20 fileRefs).state.map
      (fun s => s.fetches)) = some [] := by
  decide +kernel

end Chaff
