import Verif.Model.Cli
import Verif.Props.Fetch
import Verif.Props.Termination
/-!
# The command line tool (C57, C58)
-/

namespace Chaff
open Comp

/-! ## Specification -/

/-- `name` is an entry of a comma separated list. -/
def ListedIn (text name : String) : Prop :=
  ∃ l : List (List Char), text.toList = List.intercalate [','] l ∧ (∀ x ∈ l, ',' ∉ x) ∧ name.toList ∈ l

/-- A run of the tool that ended. -/
def RunsTo (c : PEnv) (w : World) (os : Os) (f : CliFlags) (stdin : Option JVal) (d : Disk) (e : CliEnd) : Prop :=
  ∃ texts marshal fuel, cliMain c w os texts marshal fuel f stdin d = some e

/-- The parser's environment with the options that the flags stand for. -/
def flagEnv (c : PEnv) (f : CliFlags) (rel : String) : PEnv :=
  { c with httpOpts := httpOptsOf f.allowedHosts f.allowInsecure
           fileOpts := fileOptsOf f.allowOutsideCwd f.allowedPaths
           relativeTo := rel }

/-! ## Lists -/

theorem splitComma_ne : ∀ l, splitComma l ≠ []
  | [] => by simp [splitComma]
  | c :: t => by
    unfold splitComma
    split
    · simp
    · split <;> simp

theorem splitComma_join : ∀ l, List.intercalate [','] (splitComma l) = l
  | [] => by simp [splitComma, List.intercalate]
  | c :: t => by
    have ih := splitComma_join t
    have hne := splitComma_ne t
    unfold splitComma
    split
    · rename_i hc
      subst hc
      cases hs : splitComma t with
      | nil => exact (hne hs).elim
      | cons a r =>
        rw [hs] at ih
        rw [List.intercalate, List.intersperse_cons₂]
        simp only [List.flatten_cons, List.nil_append]
        rw [List.intercalate] at ih
        rw [ih]
        rfl
    · cases hs : splitComma t with
      | nil => exact (hne hs).elim
      | cons a r =>
        rw [hs] at ih
        dsimp only
        cases r with
        | nil =>
          simp only [List.intercalate, List.intersperse_singleton, List.flatten_cons, List.flatten_nil,
            List.append_nil] at ih ⊢
          rw [ih]
        | cons b r' =>
          simp only [List.intercalate, List.intersperse_cons₂, List.flatten_cons] at ih ⊢
          rw [List.cons_append, ih]

theorem splitComma_no_comma : ∀ l, ∀ x ∈ splitComma l, ',' ∉ x
  | [], x, hx => by
    simp only [splitComma, List.mem_singleton] at hx
    subst hx
    simp
  | c :: t, x, hx => by
    have ih := splitComma_no_comma t
    unfold splitComma at hx
    split at hx
    · rcases List.mem_cons.1 hx with rfl | hx
      · simp
      · exact ih x hx
    · rename_i hc
      cases hs : splitComma t with
      | nil => exact (splitComma_ne t hs).elim
      | cons a r =>
        rw [hs] at hx ih
        rcases List.mem_cons.1 hx with rfl | hx
        · intro hm
          rcases List.mem_cons.1 hm with h | h
          · exact hc h.symm
          · exact ih a List.mem_cons_self h
        · exact ih x (List.mem_cons_of_mem _ hx)

theorem listed_of_mem {text name : String} (h : name ∈ parseCommaSeparatedList text) : ListedIn text name := by
  unfold parseCommaSeparatedList at h
  split at h
  · cases h
  · obtain ⟨x, hx, rfl⟩ := List.mem_map.1 h
    exact ⟨_, (splitComma_join _).symm, splitComma_no_comma _, by rw [String.toList_ofList]; exact hx⟩

theorem parseCommaSeparatedList_nil {text : String} : parseCommaSeparatedList text = [] ↔ text = "" := by
  unfold parseCommaSeparatedList
  split
  · rename_i h; simp [h]
  · rename_i h
    simp [h, splitComma_ne]

/-! ## C57: which documents are read -/

/-- The parser behind a run that read something: it was given the options of the flags and a file. -/
theorem cli_fetches {c : PEnv} {w : World} {os : Os} {f : CliFlags} {stdin : Option JVal} {d : Disk} {e : CliEnd}
    (L : EnvLaws c) (h : RunsTo c w os f stdin d e) (x : Fetch) (hx : x ∈ e.fetches) :
    f.file ≠ "" ∧ ∃ rel schema s, Parsed (flagEnv c f rel) schema s ∧ x ∈ s.fetches := by
  obtain ⟨texts, marshal, fuel, h⟩ := h
  have key : ∀ g s, cliParse c fuel f stdin = some (.done (.ok g s)) → x ∈ s.fetches →
      f.file ≠ "" ∧ ∃ rel schema s, Parsed (flagEnv c f rel) schema s ∧ x ∈ s.fetches := by
    intro g s hp hm
    unfold cliParse at hp
    by_cases hf : f.file ≠ ""
    · simp only [if_pos hf] at hp
      refine ⟨hf, ?_⟩
      injection hp with hp
      unfold parseSchemaFile at hp
      split at hp
      · cases hp
      · split at hp
        · cases hp
        · exact ⟨_, _, s, ⟨fuel, g, hp⟩, hm⟩
    · simp only [if_neg hf] at hp
      split at hp
      · injection hp with hp
        unfold parseSchemaWithDefaults at hp
        have := C49_none_enabled { c with httpOpts := {}, fileOpts := {}, relativeTo := "" } ⟨L.url, L.paths⟩ rfl rfl _ s
          ⟨fuel, g, hp⟩
        rw [this] at hm
        cases hm
      · cases hp
  unfold cliMain at h
  split at h
  · injection h with h; subst h; cases hx
  split at h
  · injection h with h; subst h; cases hx
  · split at h
    · injection h with h; subst h; cases hx
    · injection h with h; subst h; cases hx
    · cases h
    · injection h with h; subst h; cases hx
    · rename_i hp
      injection h with h; subst h
      exact key _ _ hp hx
    · rename_i hp
      split at h
      · cases h
      · injection h with h; subst h
        exact key _ _ hp hx
      · split at h
        · injection h with h; subst h
          exact key _ _ hp hx
        · split at h
          · injection h with h; subst h
            exact key _ _ hp hx
          · injection h with h; subst h
            exact key _ _ hp hx

/-- C57: without any of the four fetch flags a run reads no other document, whatever the schema, the remaining flags
and the outside world. -/
theorem C57_no_flags_no_access (c : PEnv) (L : EnvLaws c) (w : World) (os : Os) (f : CliFlags) (stdin : Option JVal)
    (d : Disk) (e : CliEnd) (hh : f.allowedHosts = "") (hi : f.allowInsecure = false) (ho : f.allowOutsideCwd = false)
    (hp : f.allowedPaths = "") (h : RunsTo c w os f stdin d e) : e.fetches = [] := by
  apply List.eq_nil_iff_forall_not_mem.2
  intro x hx
  obtain ⟨_, rel, schema, s, hs, hm⟩ := cli_fetches L h x hx
  have := C49_none_enabled (flagEnv c f rel) ⟨L.url, L.paths⟩ (by simp [flagEnv, httpOptsOf, hh, hi]) (by simp [flagEnv, fileOptsOf, ho, hp]) _ s hs
  rw [this] at hm
  cases hm

/-- C57: a schema from standard input never leads to another document, whatever the flags: there they are ignored. -/
theorem C57_stdin_no_access (c : PEnv) (L : EnvLaws c) (w : World) (os : Os) (f : CliFlags) (stdin : Option JVal)
    (d : Disk) (e : CliEnd) (hf : f.file = "") (h : RunsTo c w os f stdin d e) : e.fetches = [] := by
  apply List.eq_nil_iff_forall_not_mem.2
  intro x hx
  exact (cli_fetches L h x hx).1 hf

/-- C57: a URL is contacted only if one of the two HTTP flags is given.  It is on an `https` URL unless
`allow-insecure` is given, on a host listed in `allowed-hosts` unless that flag is empty, or a redirect from there. -/
theorem C57_http_needs_flag (c : PEnv) (L : EnvLaws c) (w : World) (os : Os) (f : CliFlags) (stdin : Option JVal)
    (d : Disk) (e : CliEnd) (h : RunsTo c w os f stdin d e) (u : String) (hu : Fetch.http u ∈ e.fetches) :
    (f.allowedHosts ≠ "" ∨ f.allowInsecure = true) ∧
    ∃ id url, c.url.parse id = some url ∧ (f.allowInsecure = true ∨ url.scheme = "https") ∧
      (f.allowedHosts = "" ∨ ListedIn f.allowedHosts url.host) ∧ (u = id ∨ u ∈ c.redirects id) := by
  obtain ⟨_, rel, schema, s, hs, hm⟩ := cli_fetches L h _ hu
  obtain ⟨he, id, ⟨url, hp, hsec, hhost⟩, hid⟩ := C49_http_authorised (flagEnv c f rel) ⟨L.url, L.paths⟩ _ s hs u hm
  have hflag : ¬ (f.allowedHosts = "" ∧ f.allowInsecure = false) := by
    intro hn
    change (httpOptsOf f.allowedHosts f.allowInsecure).enabled = true at he
    rw [show (httpOptsOf f.allowedHosts f.allowInsecure) = {} from if_pos hn] at he
    cases he
  have ho : httpOptsOf f.allowedHosts f.allowInsecure =
      ⟨true, parseCommaSeparatedList f.allowedHosts, f.allowInsecure⟩ := if_neg hflag
  simp only [flagEnv, ho] at hsec hhost
  refine ⟨?_, id, url, hp, hsec, ?_, hid⟩
  · by_cases hh : f.allowedHosts = ""
    · right
      cases hb : f.allowInsecure with
      | true => rfl
      | false => exact (hflag ⟨hh, hb⟩).elim
    · exact Or.inl hh
  · rcases hhost with hn | hm'
    · exact Or.inl (parseCommaSeparatedList_nil.1 hn)
    · exact Or.inr (listed_of_mem hm')

/-- C57: a file is read only if `allowed-paths` is given, and outside the working directory only if
`allow-outside-cwd` is given too. -/
theorem C57_file_needs_flag (c : PEnv) (L : EnvLaws c) (w : World) (os : Os) (f : CliFlags) (stdin : Option JVal)
    (d : Disk) (e : CliEnd) (h : RunsTo c w os f stdin d e) (path : String) (hu : Fetch.file path ∈ e.fetches) :
    f.allowedPaths ≠ "" ∧ (f.allowOutsideCwd = true ∨
      ∃ cwd real, c.fs.cwd = some cwd ∧ path = pathText real ∧ cwd <+: real) := by
  obtain ⟨_, rel, schema, s, hs, hm⟩ := cli_fetches L h _ hu
  have hp : f.allowedPaths ≠ "" := by
    intro hn
    refine C51_empty_refuses_all (flagEnv c f rel) ⟨L.url, L.paths⟩ ?_ _ s hs path hm
    show (fileOptsOf f.allowOutsideCwd f.allowedPaths).allowedPaths = []
    unfold fileOptsOf
    split
    · rfl
    · exact parseCommaSeparatedList_nil.2 hn
  refine ⟨hp, ?_⟩
  cases ho : f.allowOutsideCwd with
  | true => exact Or.inl rfl
  | false =>
    right
    obtain ⟨cwd, real, q, h1, _, h3, h4⟩ := C50_files_inside_cwd (flagEnv c f rel) ⟨L.url, L.paths⟩
      (by simp [flagEnv, fileOptsOf, ho, hp]) _ s hs path hm
    exact ⟨cwd, real, h1, h3, h4⟩

/-- C57: `allow-outside-cwd` alone turns the file fetcher on, but no file is ever read. -/
theorem C57_outside_cwd_alone (c : PEnv) (L : EnvLaws c) (w : World) (os : Os) (f : CliFlags) (stdin : Option JVal)
    (d : Disk) (e : CliEnd) (hp : f.allowedPaths = "") (h : RunsTo c w os f stdin d e) (path : String) :
    Fetch.file path ∉ e.fetches :=
  fun hu => (C57_file_needs_flag c L w os f stdin d e h path hu).1 hp

/-- C57: `allow-insecure` alone lets every host through, over `http` too: the fetcher that the flags stand for accepts
every reference whose text is a URL, whatever its scheme and host. -/
theorem C57_allow_insecure_alone (c : PEnv) (f : CliFlags) (hh : f.allowedHosts = "") (hi : f.allowInsecure = true)
    (relativeTo ref : String) (hr : (c.url.parse ref).isSome) (hb : (c.url.parse relativeTo).isSome) :
    (httpOptsOf f.allowedHosts f.allowInsecure).enabled = true ∧
    ∃ id, httpResolveId c.url (httpOptsOf f.allowedHosts f.allowInsecure) relativeTo ref = .ok id := by
  rw [hh, hi, show httpOptsOf "" true = { enabled := true, allowedHosts := [], allowInsecure := true } from rfl]
  refine ⟨rfl, ?_⟩
  unfold httpResolveId
  obtain ⟨a, ha⟩ := Option.isSome_iff_exists.1 hr
  obtain ⟨b, hb⟩ := Option.isSome_iff_exists.1 hb
  rw [ha, hb]
  simp

/-! ### Runs -/

/-- A file system with a schema that refers to two web documents and a file. -/
def cliEnv : PEnv := { demoEnv with
  fs := { demoEnv.fs with
    realPath := fun q => if q = "s.json" then some ["w", "s.json"] else demoEnv.fs.realPath q
    read := fun q => if q = "/w/s.json" then some threeRefs else demoEnv.fs.read q } }

/-- The end of a run: code and accesses. -/
def cliTrace (f : CliFlags) (stdin : Option JVal) : Option (Nat × List Fetch) :=
  (cliMain cliEnv demoWorld {} {} (fun _ _ => some "out") 30 f stdin (fun _ => none)).map (fun e => (e.code, e.fetches))

/-- Without flags nothing is read; with `allow-insecure` alone every host is contacted, the listed one and the other;
with `allowed-hosts` only the listed one. -/
example : cliTrace { file := "s.json" } none = some (0, []) ∧
    cliTrace { file := "s.json", allowInsecure := true } none =
      some (0, [.http "https://evil.org/x", .http "https://a.org/x"]) ∧
    cliTrace { file := "s.json", allowedHosts := "b.org,a.org" } none = some (0, [.http "https://a.org/x"]) := by
  decide +kernel

/-- Spaces in the list are part of the host: with `b.org, a.org` the host `a.org` is not contacted. -/
theorem C57_space_in_list :
    cliTrace { file := "s.json", allowedHosts := "b.org, a.org" } none = some (0, []) := by decide +kernel

/-- A violation of what the flags promise: for a schema on standard input `allowed-hosts` has no effect. -/
theorem C57_stdin_ignores_flags :
    cliTrace { allowedHosts := "a.org" } (some threeRefs) = some (0, []) := by decide +kernel

/-! ## C58: writing the result -/

/-- Nobody else touches the files while the tool writes. -/
def Os.Alone (os : Os) : Prop := ∀ n d, os.others n d = d

theorem alone_eq {os : Os} (ha : os.Alone) : os.others = fun _ d => d := by
  funext n d
  exact ha n d

theorem writeFile_exists {os : Os} (ha : os.Alone) {data path : String} {d : Disk}
    (h : os.statFails = true ∨ d path ≠ none) : writeFile os data path d = (1, d) := by
  unfold writeFile
  simp only [alone_eq ha]
  rw [if_pos]
  rcases h with h | h
  · exact Or.inl h
  · exact Or.inr (Option.isSome_iff_ne_none.2 h)

theorem writeFile_other {os : Os} (ha : os.Alone) {data path q : String} {d : Disk} (hq : q ≠ path) :
    (writeFile os data path d).2 q = d q := by
  unfold writeFile
  simp only [alone_eq ha]
  split
  · rfl
  · split
    · rfl
    · split
      · simp [Disk.set, hq]
      · split <;> simp [Disk.set, hq]

theorem overwrite_nil (l : List Char) : overwrite [] l = l := by simp [overwrite]

theorem writeFile_success {os : Os} (ha : os.Alone) {data path : String} {d : Disk}
    (h : (writeFile os data path d).1 = 0) : d path = none ∧ (writeFile os data path d).2 = d.set path data := by
  unfold writeFile at h ⊢
  simp only [alone_eq ha] at h ⊢
  split at h
  · cases h
  · rename_i h1
    rw [if_neg h1]
    split at h
    · cases h
    · rename_i h2
      rw [if_neg h2]
      split at h
      · cases h
      · rename_i h3
        split at h
        · cases h
        · rename_i h4
          refine ⟨?_, ?_⟩
          · cases hd : d path with
            | none => rfl
            | some v => exact (h1 (Or.inr (by rw [hd]; rfl))).elim
          · rw [if_neg h4]
            funext q
            simp only [Disk.set]
            split
            · simp [overwrite_nil]
            · rfl

/-- The end of a run: the files are untouched, or the result was written. -/
theorem cli_disk {c : PEnv} {w : World} {os : Os} {f : CliFlags} {stdin : Option JVal} {d : Disk} {e : CliEnd}
    (h : RunsTo c w os f stdin d e) :
    e.disk = d ∨ (f.output ≠ "" ∧ ∃ data, e.code = (writeFile os data f.output d).1 ∧
      e.disk = (writeFile os data f.output d).2) := by
  obtain ⟨texts, marshal, fuel, h⟩ := h
  unfold cliMain at h
  split at h
  · injection h with h; subst h; exact Or.inl rfl
  split at h
  · injection h with h; subst h; exact Or.inl rfl
  · split at h
    · injection h with h; subst h; exact Or.inl rfl
    · injection h with h; subst h; exact Or.inl rfl
    · cases h
    · injection h with h; subst h; exact Or.inl rfl
    · injection h with h; subst h; exact Or.inl rfl
    · split at h
      · cases h
      · injection h with h; subst h; exact Or.inl rfl
      · split at h
        · injection h with h; subst h; exact Or.inl rfl
        · split at h
          · rename_i ho
            injection h with h; subst h
            exact Or.inr ⟨ho, _, rfl, rfl⟩
          · injection h with h; subst h; exact Or.inl rfl

/-- C58: if the output path exists, or the call that should tell fails, no file changes: not that one and no other. -/
theorem C58_existing_untouched (c : PEnv) (w : World) (os : Os) (ha : os.Alone) (f : CliFlags) (stdin : Option JVal)
    (d : Disk) (e : CliEnd) (hx : os.statFails = true ∨ d f.output ≠ none) (h : RunsTo c w os f stdin d e) :
    e.disk = d := by
  rcases cli_disk h with h1 | ⟨_, data, _, h2⟩
  · exact h1
  · rw [h2, writeFile_exists ha hx]

/-- C58: no run changes or removes a file that was there before, and every other path than the output path stays as it
was, also when a call fails half way. -/
theorem C58_no_file_changes (c : PEnv) (w : World) (os : Os) (ha : os.Alone) (f : CliFlags) (stdin : Option JVal)
    (d : Disk) (e : CliEnd) (h : RunsTo c w os f stdin d e) (q : String) (hq : d q ≠ none ∨ q ≠ f.output) :
    e.disk q = d q := by
  by_cases he : q = f.output
  · subst he
    rcases hq with hq | hq
    · rw [C58_existing_untouched c w os ha f stdin d e (Or.inr hq) h]
    · exact (hq rfl).elim
  · rcases cli_disk h with h1 | ⟨_, data, _, h2⟩
    · rw [h1]
    · rw [h2, writeFile_other ha he]

/-- C58: a run that reports success and has an output path did write its whole result there, to a new file, or it is
a help or version run. -/
theorem C58_success_writes_result (c : PEnv) (w : World) (os : Os) (ha : os.Alone)
    (texts : CliTexts) (marshal : Bool → JVal → Option String)
    (fuel : Nat) (f : CliFlags) (stdin : Option JVal) (d : Disk) (e : CliEnd) (ho : f.output ≠ "")
    (hh : f.showHelp = false) (hv : f.showVersion = false)
    (h : cliMain c w os texts marshal fuel f stdin d = some e) (hc : e.code = 0) :
    d f.output = none ∧ ∃ g s v t res, cliParse c fuel f stdin = some (.done (.ok (g, none) s)) ∧
      rootGenerate w (cliOpts f) (refEnv s) fuel g = .ok v t ∧ marshal f.formatted v = some res ∧
      e.disk f.output = some res := by
  unfold cliMain at h
  rw [if_neg (by simp [hh]), if_neg (by simp [hv])] at h
  split at h
  · injection h with h; subst h; cases hc
  · injection h with h; subst h; cases hc
  · cases h
  · injection h with h; subst h; cases hc
  · injection h with h; subst h; cases hc
  · rename_i g s hp
    split at h
    · cases h
    · injection h with h; subst h; cases hc
    · rename_i v t hg
      split at h
      · injection h with h; subst h; cases hc
      · rename_i res hm
        simp only [if_pos ho] at h
        injection h with h
        subst h
        obtain ⟨h1, h2⟩ := writeFile_success ha hc
        refine ⟨h1, g, s, v, t, res, hp, hg, hm, ?_⟩
        show (writeFile os res f.output d).2 f.output = some res
        rw [h2]
        simp [Disk.set]

/-- A run that writes a file, and one that refuses to. -/
example :
    ((cliMain cliEnv demoWorld {} {} (fun _ _ => some "out") 30 { file := "s.json", output := "o" } none (fun _ => none)).map
      (fun e => (e.code, e.disk "o"))) = some (0, some "out") ∧
    ((cliMain cliEnv demoWorld {} {} (fun _ _ => some "out") 30 { file := "s.json", output := "o" } none
      (fun q => if q = "o" then some "old" else none)).map (fun e => (e.code, e.disk "o"))) = some (1, some "old") ∧
    Os.Alone {} := by
  refine ⟨by decide +kernel, by decide +kernel, fun _ _ => rfl⟩

/-- Another process creates the output file between the two calls. -/
def racing : Os := { others := fun n d => if n = 1 then d.set "o" "theirs" else d }

/-- C58 as stated is violated if other processes are at work: a file created between the check and the creation is
overwritten, and the run reports success. -/
theorem C58_race_violation :
    ((cliMain cliEnv demoWorld racing {} (fun _ _ => some "out") 30 { file := "s.json", output := "o" } none
      (fun _ => none)).map (fun e => (e.code, e.disk "o"))) = some (0, some "out") := by
  decide +kernel

/-- When writing fails half way, the truncated file stays, and a second run refuses to replace it. -/
theorem C58_truncated_file_stays :
    ((cliMain cliEnv demoWorld { writeStops := some 2 } {} (fun _ _ => some "out") 30 { file := "s.json", output := "o" } none
      (fun _ => none)).map (fun e => (e.code, e.disk "o"))) = some (1, some "ou") := by
  decide +kernel

end Chaff
