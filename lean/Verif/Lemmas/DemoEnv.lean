import Verif.Lemmas.PTop
/-!
# A small outside world for examples

A URL system that satisfies the laws assumed of `net/url`, and an environment with two web documents and one
file.  It is used only to show that the hypotheses of the theorems about the parser are met by real runs.
-/

namespace Chaff
open Comp

/-- The host of what follows `https://`. -/
def demoHost (l : List Char) : List Char := l.takeWhile (fun c => c ≠ '/')

/-- Parses the texts `file://…`, `https://host/…` and relative references; a fragment is dropped. -/
def demoParse (t : String) : Option Url :=
  let l := (splitHash t.toList).1
  if "file://".toList.isPrefixOf l then some ⟨"file", "", String.ofList (l.drop 7)⟩
  else if "https://".toList.isPrefixOf l then
    some ⟨"https", String.ofList (demoHost (l.drop 8)), String.ofList ((l.drop 8).dropWhile (fun c => c ≠ '/'))⟩
  else some ⟨"", "", String.ofList l⟩

/-- A reference without a scheme replaces the path of the base. -/
def demoResolve (x y : Url) : Url := if y.scheme ≠ "" then y else { x with rest := "/" ++ y.rest }

/-- Prints a URL. -/
def demoStr (u : Url) : String := if u.scheme = "" then u.rest else u.scheme ++ "://" ++ u.host ++ u.rest

/-- The URL system for examples. -/
def demoUrl : UrlSys := ⟨demoParse, demoResolve, demoStr⟩

theorem demoParse_file (l : List Char) (h : '#' ∉ l) :
    demoParse (String.ofList ("file://".toList ++ l)) = some ⟨"file", "", String.ofList l⟩ := by
  unfold demoParse
  have h' : '#' ∉ "file://".toList ++ l := by
    rw [List.mem_append, not_or]
    exact ⟨by decide +kernel, h⟩
  simp only [String.toList_ofList]
  rw [splitHash_none _ h']
  dsimp only
  rw [if_pos (by rw [List.isPrefixOf_iff_prefix]; exact List.prefix_append _ _)]
  rw [show 7 = "file://".toList.length from by decide +kernel, List.drop_left]

theorem demoParse_https (l : List Char) (h : '#' ∉ l) :
    demoParse (String.ofList ("https://".toList ++ l)) =
      some ⟨"https", String.ofList (demoHost l), String.ofList (l.dropWhile (fun c => c ≠ '/'))⟩ := by
  unfold demoParse
  have h' : '#' ∉ "https://".toList ++ l := by
    rw [List.mem_append, not_or]
    exact ⟨by decide +kernel, h⟩
  simp only [String.toList_ofList]
  rw [splitHash_none _ h']
  dsimp only
  have hf : ¬ ("file://".toList.isPrefixOf ("https://".toList ++ l) = true) := by
    rw [show "file://".toList = 'f' :: "ile://".toList from by decide +kernel,
      show "https://".toList = 'h' :: "ttps://".toList from by decide +kernel]
    simp [List.isPrefixOf]
  rw [if_neg hf, if_pos (by rw [List.isPrefixOf_iff_prefix]; exact List.prefix_append _ _)]
  rw [show 8 = "https://".toList.length from by decide +kernel, List.drop_left]

/-- Every parsed URL has one of three forms. -/
theorem demoParse_cases {t : String} {y : Url} (h : demoParse t = some y) :
    (∃ l, '#' ∉ l ∧ y = ⟨"file", "", String.ofList l⟩) ∨
    (∃ l, '#' ∉ l ∧ y = ⟨"https", String.ofList (demoHost l), String.ofList (l.dropWhile (fun c => c ≠ '/'))⟩) ∨
    (∃ l, '#' ∉ l ∧ ¬ ("file://".toList.isPrefixOf l = true) ∧ ¬ ("https://".toList.isPrefixOf l = true) ∧
      y = ⟨"", "", String.ofList l⟩) := by
  unfold demoParse at h
  have hh := splitHash_fst t.toList
  dsimp only at h
  split at h
  · injection h with h
    exact Or.inl ⟨_, fun hm => hh (List.mem_of_mem_drop hm), h.symm⟩
  · split at h
    · injection h with h
      exact Or.inr (Or.inl ⟨_, fun hm => hh (List.mem_of_mem_drop hm), h.symm⟩)
    · rename_i h1 h2
      injection h with h
      exact Or.inr (Or.inr ⟨_, hh, h1, h2, h.symm⟩)

theorem demoParse_plain (l : List Char) (h : '#' ∉ l) (h1 : ¬ ("file://".toList.isPrefixOf l = true))
    (h2 : ¬ ("https://".toList.isPrefixOf l = true)) :
    demoParse (String.ofList l) = some ⟨"", "", String.ofList l⟩ := by
  unfold demoParse
  simp only [String.toList_ofList]
  rw [splitHash_none _ h]
  dsimp only
  rw [if_neg h1, if_neg h2]

theorem demoStr_file (l : List Char) : demoStr ⟨"file", "", String.ofList l⟩ = String.ofList ("file://".toList ++ l) := by
  unfold demoStr
  rw [if_neg (by simp)]
  apply String.ext
  simp

theorem demoStr_https (a b : List Char) :
    demoStr ⟨"https", String.ofList a, String.ofList b⟩ = String.ofList ("https://".toList ++ (a ++ b)) := by
  unfold demoStr
  rw [if_neg (by simp)]
  apply String.ext
  simp

theorem demoHost_idem (l r : List Char) : demoHost (demoHost l ++ '/' :: r) = demoHost l := by
  unfold demoHost
  induction l with
  | nil => simp
  | cons x t ih =>
    by_cases hx : x = '/'
    · simp [hx]
    · simp [hx] at ih ⊢
      exact ih

theorem demoUrl_laws : UrlLaws demoUrl where
  cut t y h := by
    refine ⟨y, ?_, rfl, rfl⟩
    show demoParse _ = some y
    rw [← h]
    show demoParse _ = demoParse t
    unfold demoParse
    simp only [String.toList_ofList]
    rw [splitHash_none _ (splitHash_fst t.toList)]
  str_str t y h := by
    refine ⟨y, ?_, rfl, rfl⟩
    show demoParse (demoStr y) = some y
    rcases demoParse_cases h with ⟨l, hl, rfl⟩ | ⟨l, hl, rfl⟩ | ⟨l, hl, h1, h2, rfl⟩
    · rw [demoStr_file, demoParse_file l hl]
    · rw [demoStr_https, show demoHost l ++ l.dropWhile (fun c => c ≠ '/') = l from List.takeWhile_append_dropWhile,
        demoParse_https l hl]
    · show demoParse (if ("" : String) = "" then _ else _) = _
      rw [if_pos rfl, demoParse_plain l hl h1 h2]
  str_resolve t y b x h hb := by
    show ∃ z, demoParse (demoStr (demoResolve x y)) = some z ∧ z.scheme = (demoResolve x y).scheme ∧
      z.host = (demoResolve x y).host
    unfold demoResolve
    rcases demoParse_cases h with ⟨l, hl, rfl⟩ | ⟨l, hl, rfl⟩ | ⟨l, hl, h1, h2, rfl⟩
    · rw [if_pos (by simp), demoStr_file, demoParse_file l hl]
      exact ⟨_, rfl, rfl, rfl⟩
    · rw [if_pos (by simp), demoStr_https,
        show demoHost l ++ l.dropWhile (fun c => c ≠ '/') = l from List.takeWhile_append_dropWhile,
        demoParse_https l hl]
      exact ⟨_, rfl, rfl, rfl⟩
    · rw [if_neg (by simp)]
      have hsl : '#' ∉ '/' :: l := by
        rw [List.mem_cons, not_or]
        exact ⟨by decide, hl⟩
      have hrest : "/" ++ String.ofList l = String.ofList ('/' :: l) := by apply String.ext; simp
      dsimp only
      rw [hrest]
      rcases demoParse_cases hb with ⟨m, hm, rfl⟩ | ⟨m, hm, rfl⟩ | ⟨m, hm, h3, h4, rfl⟩
      · dsimp only
        rw [demoStr_file, demoParse_file _ hsl]
        exact ⟨_, rfl, rfl, rfl⟩
      · dsimp only
        have hmm : '#' ∉ demoHost m ++ '/' :: l := by
          rw [List.mem_append, not_or]
          exact ⟨fun h => hm ((List.takeWhile_prefix _).subset h), hsl⟩
        rw [demoStr_https, demoParse_https _ hmm, demoHost_idem]
        exact ⟨_, rfl, rfl, rfl⟩
      · dsimp only
        have e : demoStr ⟨"", "", String.ofList ('/' :: l)⟩ = String.ofList ('/' :: l) := by
          unfold demoStr; rw [if_pos rfl]
        rw [e, demoParse_plain _ hsl ?_ ?_]
        · exact ⟨_, rfl, rfl, rfl⟩
        · rw [show "file://".toList = 'f' :: "ile://".toList from by decide +kernel]
          simp [List.isPrefixOf]
        · rw [show "https://".toList = 'h' :: "ttps://".toList from by decide +kernel]
          simp [List.isPrefixOf]
  resolve_scheme x y := by
    show (demoResolve x y).scheme = _
    unfold demoResolve
    split <;> rfl
  file_scheme t y h := by
    have h' : demoParse ("file://" ++ t) = some y := h
    unfold demoParse at h'
    have e : (splitHash ("file://" ++ t).toList).1 = "file://".toList ++ (splitHash t.toList).1 := by
      rw [String.toList_append]
      rw [show "file://".toList = ['f', 'i', 'l', 'e', ':', '/', '/'] from by decide +kernel]
      simp [splitHash]
    rw [e] at h'
    dsimp only at h'
    rw [if_pos (by rw [List.isPrefixOf_iff_prefix]; exact List.prefix_append _ _)] at h'
    injection h' with h'
    rw [← h']

/-- Files: the working directory is `/w`; `/w/a.json` is a schema; `/w/l.json` is a link to `/s/x.json`. -/
def demoFs : FileSys where
  cwd := some ["w"]
  realPath p :=
    if p = "/w/a.json" then some ["w", "a.json"]
    else if p = "/w/l.json" then some ["s", "x.json"]
    else if p = "/w" then some ["w"]
    else if p = "/z" then some ["z"]
    else none
  read p := if p = "/w/a.json" ∨ p = "/s/x.json" then some (.obj [("type", .str "integer")]) else none

/-- An environment with two web documents. -/
def demoEnv : PEnv where
  url := demoUrl
  fs := demoFs
  httpGet u :=
    if u = "https://a.org/x" then some (.obj [("type", .str "string")])
    else if u = "https://evil.org/x" then some (.obj [("type", .str "boolean")])
    else none
  redirects _ := []
  rxParse _ := none
  rxCompile _ := none
  formats _ := none
  compile _ _ := some (fun _ => true)
  rootResourceOk _ := true
  fp := .exact
  plat := .amd64
  httpOpts := { enabled := true, allowedHosts := ["a.org"] }
  fileOpts := { enabled := false }
  relativeTo := ""
  maxParseDepth := 100
  rxString := defaultRxArgs
  rxPattern := defaultRxArgs

theorem demoFs_paths : NoHashPaths demoFs := by
  intro q p h
  unfold demoFs at h
  dsimp only at h
  split at h
  · injection h with h; subst h; decide +kernel
  · split at h
    · injection h with h; subst h; decide +kernel
    · split at h
      · injection h with h; subst h; decide +kernel
      · split at h
        · injection h with h; subst h; decide +kernel
        · cases h

theorem demoEnv_laws : EnvLaws demoEnv := ⟨demoUrl_laws, demoFs_paths⟩

/-- The state after a finished parse. -/
def ParseOutcome.state : ParseOutcome → Option PSt
  | .done (.ok _ s) => some s
  | _ => none

/-- The result of a finished parse. -/
def ParseOutcome.result : ParseOutcome → Option (Gen × Option Err)
  | .done (.ok r _) => some r
  | _ => none

end Chaff
