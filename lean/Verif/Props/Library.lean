import Verif.Spec.Library
import Verif.Props.SchemaParts
import Verif.Props.Valid
import Verif.Props.Report
import Verif.Props.Parser
/-!
# C77, C78, C79: the options of the parser, one record for several calls, and the flags of the tool
-/

namespace Chaff
open Comp

/-! ## Limited repetitions -/

mutual
theorem newRxGen_limited (a : RxArgs) : ∀ r, newRxGen a (limited a.minUnbounded a.maxUnbounded r) = newRxGen a r
  | .star r => by simp only [limited, newRxGen]; rw [newRxGen_limited a r, if_neg (by omega), if_neg (by omega)]
  | .plus r => by simp only [limited, newRxGen]; rw [newRxGen_limited a r, if_neg (by omega), if_neg (by omega)]
  | .repeat r mn mx => by
    simp only [limited, newRxGen]
    rw [newRxGen_limited a r]
    congr 1
    · split <;> simp_all
    · split <;> simp_all
  | .quest r => by simp only [limited, newRxGen]; rw [newRxGen_limited a r]
  | .capture r => by simp only [limited, newRxGen]; rw [newRxGen_limited a r]
  | .concat rs => by simp only [limited, newRxGen]; rw [newRxGens_limited a rs]
  | .alternate rs => by simp only [limited, newRxGen]; rw [newRxGens_limited a rs]
  | .emptyMatch => rfl
  | .literal rs => rfl
  | .anyCharNotNL => rfl
  | .anyChar => rfl
  | .charClass rs => rfl
  | .beginLine => rfl
  | .endLine => rfl
  | .beginText => rfl
  | .endText => rfl
  | .wordBoundary => rfl
  | .noWordBoundary => rfl
  | .other => rfl
theorem newRxGens_limited (a : RxArgs) : ∀ rs, newRxGens a (limiteds a.minUnbounded a.maxUnbounded rs) = newRxGens a rs
  | [] => rfl
  | r :: rs => by
    unfold limiteds newRxGens
    rw [newRxGen_limited a r, newRxGens_limited a rs]
end

variable {lo hi : Nat}

theorem limiteds_map (rs : List Rx) : limiteds lo hi rs = rs.map (limited lo hi) := by
  induction rs with
  | nil => rfl
  | cons r t ih => unfold limiteds; rw [ih]; rfl

mutual
theorem noAssert_limited : ∀ r, NoAssert r → NoAssert (limited lo hi r)
  | .star r, h => by simp only [limited, NoAssert] at h ⊢; exact noAssert_limited r h
  | .plus r, h => by simp only [limited, NoAssert] at h ⊢; exact noAssert_limited r h
  | .repeat r _ _, h => by simp only [limited, NoAssert] at h ⊢; exact noAssert_limited r h
  | .quest r, h => by simp only [limited, NoAssert] at h ⊢; exact noAssert_limited r h
  | .capture r, h => by simp only [limited, NoAssert] at h ⊢; exact noAssert_limited r h
  | .concat rs, h => by simp only [limited, NoAssert] at h ⊢; exact noAsserts_limited rs h
  | .alternate rs, h => by simp only [limited, NoAssert] at h ⊢; exact noAsserts_limited rs h
  | .emptyMatch, h | .literal _, h | .anyCharNotNL, h | .anyChar, h | .charClass _, h | .beginLine, h | .endLine, h
  | .beginText, h | .endText, h | .wordBoundary, h | .noWordBoundary, h | .other, h => h
theorem noAsserts_limited : ∀ rs, NoAsserts rs → NoAsserts (limiteds lo hi rs)
  | [], h => h
  | r :: rs, h => by
    simp only [limiteds, NoAsserts] at h ⊢
    exact ⟨noAssert_limited r h.1, noAsserts_limited rs h.2⟩
end

mutual
theorem runesOk_limited : ∀ r, RunesOk r → RunesOk (limited lo hi r)
  | .star r, h => by simp only [limited, RunesOk] at h ⊢; exact ⟨Or.inr (by omega), runesOk_limited r h⟩
  | .plus r, h => by simp only [limited, RunesOk] at h ⊢; exact ⟨Or.inr (by omega), runesOk_limited r h⟩
  | .repeat r _ mx, h => by
    simp only [limited, RunesOk] at h ⊢
    refine ⟨?_, runesOk_limited r h.2⟩
    split
    · right; omega
    · exact h.1
  | .quest r, h => by simp only [limited, RunesOk] at h ⊢; exact runesOk_limited r h
  | .capture r, h => by simp only [limited, RunesOk] at h ⊢; exact runesOk_limited r h
  | .concat rs, h => by simp only [limited, RunesOk] at h ⊢; exact runesOks_limited rs h
  | .alternate rs, h => by simp only [limited, RunesOk] at h ⊢; exact runesOks_limited rs h
  | .emptyMatch, h | .literal _, h | .anyCharNotNL, h | .anyChar, h | .charClass _, h | .beginLine, h | .endLine, h
  | .beginText, h | .endText, h | .wordBoundary, h | .noWordBoundary, h | .other, h => h
theorem runesOks_limited : ∀ rs, RunesOks rs → RunesOks (limiteds lo hi rs)
  | [], h => h
  | r :: rs, h => by
    simp only [limiteds, RunesOks] at h ⊢
    exact ⟨runesOk_limited r h.1, runesOks_limited rs h.2⟩
end

theorem limited_same {r : Rx} (h : r = .beginText ∨ r = .beginLine ∨ r = .endText ∨ r = .endLine) :
    limited lo hi r = r := by
  rcases h with rfl | rfl | rfl | rfl <;> rfl

theorem anchored_limited {r : Rx} (h : Anchored r) : Anchored (limited lo hi r) := by
  induction h with
  | plain h => exact .plain (noAssert_limited _ h)
  | anchors b m e hb hm he =>
    have e1 : ∀ l : List Rx, (∀ x ∈ l, limited lo hi x = x) → limiteds lo hi l = l := by
      intro l hl
      rw [limiteds_map]
      exact (List.map_congr_left hl).trans (List.map_id l)
    simp only [limited, limiteds_map, List.map_append]
    rw [← limiteds_map (lo := lo) (hi := hi) b, ← limiteds_map (lo := lo) (hi := hi) m, ← limiteds_map (lo := lo) (hi := hi) e,
      e1 b fun x hx => limited_same (by rcases hb x hx with h | h <;> simp [h]),
      e1 e fun x hx => limited_same (by rcases he x hx with h | h <;> simp [h])]
    exact .anchors b _ e hb (noAsserts_limited m hm) he
  | alternate _ ih =>
    simp only [limited, limiteds_map]
    refine .alternate fun x hx => ?_
    obtain ⟨y, hy, rfl⟩ := List.mem_map.1 hx
    exact ih y hy
  | capture _ ih => exact .capture ih
  | single h => rw [limited_same h]; exact .single h

theorem initialize_ok {a b : RxArgs} (h : a.initialize = .ok b) :
    b.minUnbounded = a.minUnbounded ∧ b.maxUnbounded = if a.maxUnbounded = 0 then 4096 else a.maxUnbounded := by
  unfold RxArgs.initialize at h
  by_cases h0 : a.maxUnbounded < 1
  · simp only [if_pos h0] at h
    by_cases h1 : a.minUnbounded > 4096
    · rw [if_pos h1] at h; cases h
    · rw [if_neg h1] at h
      injection h with h
      subst h
      rw [if_pos (by omega)]
      exact ⟨rfl, rfl⟩
  · simp only [if_neg h0] at h
    by_cases h1 : a.minUnbounded > a.maxUnbounded
    · rw [if_pos h1] at h; cases h
    · rw [if_neg h1] at h
      injection h with h
      subst h
      rw [if_neg (by omega)]
      exact ⟨rfl, rfl⟩

/-- Strings for a pattern, with the options that were meant. -/
theorem pattern_limited (w : World) (parse : List Char → Option Rx) (a : Option RxArgs) (pattern : List Char) (g : RxGen)
    (hb : newRegexGenerator parse (a.getD defaultRxArgs) pattern = .ok g)
    (hp : dotsReplaced a = false ∨ ('.' ∉ pattern ∧ '~' ∉ pattern)) (r : Rx) (hr : parse pattern = some r)
    (ha : Anchored r) (hok : RunesOk r) (s : GSt) (cs : List Char) (s' : GSt) (h : rxGenerate w g s = .ok cs s') :
    Matches [] (limited (repetitionLimits a).1 (repetitionLimits a).2 r) cs [] := by
  unfold newRegexGenerator at hb
  have hpat : (if (a.getD defaultRxArgs).suppressRandomBytes then suppressDots pattern else pattern) = pattern := by
    rcases hp with h | ⟨h, h2⟩
    · cases a with
      | none => cases h
      | some a => simp only [dotsReplaced] at h; simp [h]
    · split
      · exact suppressDots_id _ h h2
      · rfl
  simp only [hpat, hr] at hb
  cases hi : (a.getD defaultRxArgs).initialize with
  | error e => rw [hi] at hb; cases hb
  | ok b =>
    rw [hi] at hb
    dsimp only at hb
    have e : (repetitionLimits a).1 = b.minUnbounded ∧ (repetitionLimits a).2 = b.maxUnbounded := by
      obtain ⟨e1, e2⟩ := initialize_ok hi
      rw [e1, e2]
      cases a <;> exact ⟨rfl, rfl⟩
    rw [e.1, e.2]
    rw [← newRxGen_limited] at hb
    exact C25_generated_matches w _ _ g hb (anchored_limited ha) (runesOk_limited _ hok) s cs s' h

/-! ## C77 -/

theorem libEnv_rxString (host : PEnv) (o : LibOpts) : (libEnv host o).rxString = o.rxString.getD defaultRxArgs := by
  unfold libEnv withParseDefaults
  cases o.rxString <;> rfl

theorem libEnv_rxPattern (host : PEnv) (o : LibOpts) : (libEnv host o).rxPattern = o.rxString.getD defaultRxArgs := by
  unfold libEnv withParseDefaults
  cases o.rxString <;> rfl

/-- **C77.** A string generated for a string schema with a pattern is matched by the pattern with all its unlimited
repetitions limited as `RegexStringOptions` says, or to ten when no options are given. -/
theorem C77_string_repetitions (host : PEnv) (o : LibOpts) (k : Nat) (n : SchemaNode) (s s' : PSt) (g : Gen)
    (hn : OfType n "string") (p : String) (hp : n.pattern = some p) (hne : p ≠ "") (r : Rx)
    (hr : host.rxParse p.toList = some r) (ha : Anchored r) (hok : RunesOk r)
    (hd : dotsReplaced o.rxString = false ∨ ('.' ∉ p.toList ∧ '~' ∉ p.toList))
    (h : (parseRec (libEnv host o) (k + 1)).schema n s = .ok (g, none) s') (ctx : Ctx) (j : Nat) (st st' : GSt) (v : JVal)
    (hg : generate ctx j g st = .ok v st') :
    ∃ t : String, v = .str t ∧
      Matches [] (limited (repetitionLimits o.rxString).1 (repetitionLimits o.rxString).2 r) t.toList [] := by
  have h := ofType_parse hn (by decide) (by decide) h
  rw [parseType_string] at h
  unfold parseString at h
  cases hk : checkString n with
  | some e => rw [hk] at h; exact absurd h nullErr_ok
  | none =>
    rw [hk, hp] at h
    dsimp only at h
    obtain ⟨x, s1, h1, h⟩ := bind_ok.1 h
    unfold buildRegex at h1
    rw [libEnv_rxString, show (libEnv host o).rxParse = host.rxParse from rfl] at h1
    cases hrx : newRegexGenerator host.rxParse (o.rxString.getD defaultRxArgs) p.toList with
    | ok rx =>
      rw [hrx] at h1
      obtain ⟨rfl, rfl⟩ := pure_ok.1 h1
      dsimp only at h
      obtain ⟨rfl, _⟩ := okGen_ok h
      obtain ⟨i, hg⟩ := generate_succ hg
      change stringGenerate ctx _ st = _ at hg
      unfold stringGenerate at hg
      obtain ⟨_, s2, _, hg⟩ := bind_ok.1 hg
      have hf : n.format = none := by
        unfold checkString at hk
        dsimp only at hk
        rw [hp] at hk
        split at hk
        · cases hk
        · rename_i hx
          cases hf : n.format with
          | none => rfl
          | some f => rw [hf] at hx; simp at hx
      rw [if_neg (by rw [hf]; simp [getZeroIfNil]), if_pos (by simpa [getZeroIfNil] using hne)] at hg
      obtain ⟨cs, s3, h3, hg⟩ := bind_ok.1 hg
      obtain ⟨rfl, _⟩ := pure_ok.1 hg
      exact ⟨_, rfl, by
        rw [String.toList_ofList]
        exact pattern_limited ctx.w host.rxParse o.rxString p.toList rx hrx hd r hr ha hok s2 cs s3 h3⟩
    | err e =>
      rw [hrx] at h1
      obtain ⟨rfl, rfl⟩ := pure_ok.1 h1
      exact absurd h nullErr_ok
    | panic e => rw [hrx] at h1; cases h1

/-- **C77** for the names made from `patternProperties`, when both regex options are the same: every generated name is
declared, required, one of the names made up by the generator, or matched by one of the patterns with its unlimited
repetitions limited as the options say.  The full claim has `RegexPatternPropertyOptions` of its own in place of the
hypothesis `same`; it is refuted below. -/
theorem C77_name_repetitions_partial (host : PEnv) (o : LibOpts) (same : o.rxPattern = o.rxString) (k : Nat) (n : SchemaNode)
    (s s' : PSt) (g : Gen) (hn : OfType n "object")
    (hp : ∀ p x, (p, x) ∈ n.patterns → ∃ r, host.rxParse p.toList = some r ∧ Anchored r ∧ RunesOk r ∧
      (dotsReplaced o.rxPattern = false ∨ ('.' ∉ p.toList ∧ '~' ∉ p.toList)))
    (h : (parseRec (libEnv host o) (k + 1)).schema n s = .ok (g, none) s') (ctx : Ctx) (j : Nat) (st st' : GSt)
    (fields : List (String × JVal)) (hg : generate ctx j g st = .ok (.obj fields) st') (name : String) (v : JVal)
    (hm : (name, v) ∈ fields) :
    (lookupKV n.declared name).isSome ∨ name ∈ n.requiredNames ∨
    (∃ i : Nat, name = s!"additional_{i}" ∨ name = s!"fallback_{i}" ∨ name = s!"min_filler_{i}") ∨
    (∃ p x e, (p, x) ∈ n.patterns ∧ newRegexGenerator host.rxParse (o.rxPattern.getD defaultRxArgs) p.toList = .err e) ∨
    ∃ p x r, (p, x) ∈ n.patterns ∧ host.rxParse p.toList = some r ∧
      Matches [] (limited (repetitionLimits o.rxPattern).1 (repetitionLimits o.rxPattern).2 r) name.toList [] := by
  rw [same] at hp ⊢
  cases C13_schema_entries _ k n s s' g hn h ctx j st st' fields hg name v hm with
  | declared h1 _ => left; rw [h1]; rfl
  | undeclared _ _ h1 _ _ => exact Or.inr (Or.inl h1)
  | @pattern _ _ p x h1 h2 _ =>
    obtain ⟨rg, h3, cs, st1, st2, h4, rfl⟩ := h2
    obtain ⟨r, h5, h6, h7, h8⟩ := hp p x h1
    rw [libEnv_rxPattern] at h3
    refine Or.inr (Or.inr (Or.inr (Or.inr ⟨p, x, r, h1, h5, ?_⟩)))
    rw [String.toList_ofList]
    exact pattern_limited ctx.w host.rxParse o.rxString p.toList rg h3 h8 r h5 h6 h7 st1 cs st2 h4
  | @badPattern p x e h1 h2 =>
    rw [libEnv_rxPattern] at h2
    exact Or.inr (Or.inr (Or.inr (Or.inl ⟨p, x, e, h1, h2⟩)))
  | additional i _ _ h1 _ => exact Or.inr (Or.inr (Or.inl ⟨i, Or.inl h1⟩))
  | fallback i _ _ _ _ h1 _ => exact Or.inr (Or.inr (Or.inl ⟨i, Or.inr (Or.inl h1)⟩))
  | filler i _ h1 _ => exact Or.inr (Or.inr (Or.inl ⟨i, Or.inr (Or.inr h1)⟩))

/-- **C77**, `MaxParseDepth`: a schema nested at least as deep as the option, or 100 when it is zero, is not looked at. -/
theorem C77_parse_depth (host : PEnv) (o : LibOpts) (fuel : Nat) (n : SchemaNode) (s : PSt)
    (h : (if o.maxParseDepth = 0 then 100 else o.maxParseDepth) ≤ s.depth) :
    (parseRec (libEnv host o) (fuel + 1)).node n s = .ok (.null, some "maximum parse depth exceeded") s := by
  refine C47_too_deep _ fuel n s ?_
  refine le_trans (le_of_eq ?_) h
  show getInt [o.maxParseDepth, 100] = _
  unfold getInt
  by_cases h0 : o.maxParseDepth = 0
  · simp [h0, getInt]
  · simp [h0]

/-- **C77**, defaults: leaving the regex options and the depth open is asking for ten repetitions without random bytes and
for depth 100. -/
theorem C77_defaults (host : PEnv) (o : LibOpts) (fuel : Nat) (schema : JVal) :
    (libParse host fuel schema { o with rxString := none, maxParseDepth := 0 }).1 =
      (libParse host fuel schema { o with rxString := some { maxUnbounded := 10, suppressRandomBytes := true },
                                          maxParseDepth := 100 }).1 := rfl

/-- C77 is violated for `RegexPatternPropertyOptions`: setting it changes nothing. -/
theorem C77_name_options_violation (host : PEnv) (o : LibOpts) (a : Option RxArgs) (fuel : Nat) (schema : JVal) :
    (libParse host fuel schema { o with rxPattern := a }).1 = (libParse host fuel schema o).1 := rfl

/-- An environment in which `^a+$` and `^b*$` parse. -/
def repeatEnv : PEnv := { demoEnv with rxParse := fun p =>
  if p = "^a+$".toList then Option.some (Rx.concat [.beginText, .plus (.literal [97]), .endText])
  else if p = "^b*$".toList then Option.some (Rx.concat [.beginText, .star (.literal [98]), .endText]) else none }

/-- `{"type": "object", "patternProperties": {"^a+$": {"type": "string", "pattern": "^b*$"}}, "minProperties": 1}` -/
def repeatSchema : JVal := .obj [("type", .str "object"),
  ("patternProperties", .obj [("^a+$", .obj [("type", .str "string"), ("pattern", .str "^b*$")])]), ("minProperties", .num 1)]

/-- A run of the library: no error, and this value. -/
def libYields (host : PEnv) (w : World) (o : LibOpts) (schema v : JVal) : Bool :=
  match (libParse host 20 schema o).1 with
  | .done (.ok (g, none) s) => s.errors.length = 0 &&
    match rootGenerate w {} (refEnv s) 20 g with
    | .ok x _ => JVal.jeq v x
    | _ => false
  | _ => false
/-- C77: with at most two repetitions asked for. -/
example : libYields repeatEnv demoWorld { rxString := some { maxUnbounded := 2 } } repeatSchema
    (.obj [("a", .str "bb"), ("aa", .str "bb")]) = true := by decide +kernel

/-- The expressions meet the conditions. -/
example : Anchored (.concat [.beginText, .plus (.literal [97]), .endText]) ∧
    RunesOk (.concat [.beginText, .plus (.literal [97]), .endText]) :=
  ⟨.anchors [.beginText] [.plus (.literal [97])] [.endText] (by simp) (by simp [NoAsserts, NoAssert]) (by simp),
    by simp [RunesOk, RunesOks]; decide⟩

/-- A name of six letters although `RegexPatternPropertyOptions` asks for one. -/
example : libYields repeatEnv noteWorld { rxPattern := some { maxUnbounded := 1 } } repeatSchema
    (.obj [("aaaaaa", .str "b")]) = true := by decide +kernel

/-! ## C78: one options record for several calls -/

/-- **C78.** When `RelativeTo` is set, every call of a sequence returns what it would return alone, and the record is not
changed. -/
theorem C78_base_given (host : PEnv) (fuel : Nat) (o : LibOpts) (h : o.relativeTo ≠ "") (calls : List LibCall) :
    libRun host fuel calls o = (calls.map (alone host fuel o), o) := by
  have one : ∀ k, (libCall host fuel k o).2 = o := by
    intro k
    cases k with
    | file path =>
      unfold libCall
      dsimp only
      unfold libParseFile
      split
      · rfl
      · split
        · rfl
        · dsimp only
          rw [if_neg h]
    | _ => rfl
  induction calls with
  | nil => rfl
  | cons k t ih =>
    unfold libRun
    dsimp only
    rw [one k, ih]
    cases k <;> rfl

/-- The call reads a file with the caller's record, and the file is there. -/
def ReadsFile (host : PEnv) (k : LibCall) (p : List String) : Prop :=
  ∃ path v, k = .file path ∧ host.fs.realPath path = some p ∧ host.fs.read (pathText p) = some v

theorem call_keeps {host : PEnv} {fuel : Nat} {k : LibCall} (h : ∀ p, ¬ ReadsFile host k p) (o : LibOpts) :
    (libCall host fuel k o).2 = o := by
  cases k with
  | file path =>
    unfold libCall
    dsimp only
    unfold libParseFile
    split
    · rfl
    · rename_i p h1
      split
      · rfl
      · rename_i v h2
        exact (h p ⟨path, v, rfl, h1, h2⟩).elim
  | _ => rfl

/-- **C78.** Up to and including the first call that reads a file with the record, every call returns what it would return
alone. -/
theorem C78_up_to_first_file (host : PEnv) (fuel : Nat) (o : LibOpts) (calls : List LibCall)
    (h : ∀ k ∈ calls, ∀ p, ¬ ReadsFile host k p) (last : LibCall) :
    (libRun host fuel (calls ++ [last]) o).1 = (calls ++ [last]).map (alone host fuel o) := by
  induction calls with
  | nil => cases last <;> rfl
  | cons k t ih =>
    rw [List.cons_append]
    unfold libRun
    dsimp only
    rw [call_keeps (h k (by simp)), ih fun x hx => h x (by simp [hx])]
    cases k <;> rfl

/-- **C78**, partial: after a file has been read with a record whose `RelativeTo` is empty, all further calls return what
they would return with `RelativeTo` set to that file.  The full claim, that they return what they would return alone, is
refuted below. -/
theorem C78_after_file_partial (host : PEnv) (fuel : Nat) (o : LibOpts) (he : o.relativeTo = "") (calls : List LibCall)
    (h : ∀ k ∈ calls, ∀ p, ¬ ReadsFile host k p) (k : LibCall) (p : List String) (hk : ReadsFile host k p)
    (rest : List LibCall) :
    (libRun host fuel (calls ++ k :: rest) o).1 = calls.map (alone host fuel o) ++ alone host fuel o k ::
      rest.map (alone host fuel { o with relativeTo := "file://" ++ pathText p }) := by
  induction calls with
  | nil =>
    obtain ⟨path, v, rfl, h1, h2⟩ := hk
    rw [List.nil_append]
    unfold libRun
    dsimp only
    have e : (libCall host fuel (.file path) o).2 = { o with relativeTo := "file://" ++ pathText p } := by
      unfold libCall
      dsimp only
      unfold libParseFile
      split
      · rename_i hn; rw [h1] at hn; cases hn
      · rename_i p' hp
        rw [h1] at hp
        injection hp with hp
        subst hp
        rw [h2]
        dsimp only
        rw [if_pos he]
    rw [e, C78_base_given host fuel _ (fun hh => by
      have := congrArg String.toList hh
      rw [String.toList_append, show "file://".toList = 'f' :: "ile://".toList from by decide +kernel] at this
      simp at this)]
    rfl
  | cons x t ih =>
    rw [List.cons_append]
    unfold libRun
    dsimp only
    rw [call_keeps (h x (by simp)), ih fun y hy => h y (by simp [hy])]
    cases x <;> rfl

/-- Two directories with a schema each that refers to `part.json`, which exists in both. -/
def twoDirs : FileSys where
  cwd := some ["w"]
  realPath p :=
    if p = "a/one.json" then some ["w", "a", "one.json"]
    else if p = "b/two.json" then some ["w", "b", "two.json"]
    else if p = "/w/a/part.json" then some ["w", "a", "part.json"]
    else if p = "/w/b/part.json" then some ["w", "b", "part.json"]
    else if p = "/x" then some ["x"] else none
  read p :=
    if p = "/w/a/one.json" ∨ p = "/w/b/two.json" then some (.obj [("$ref", .str "part.json")])
    else if p = "/w/a/part.json" then some (.obj [("type", .str "boolean")])
    else if p = "/w/b/part.json" then some (.obj [("type", .str "null")]) else none

/-- The files that a parse read. -/
def filesRead : ParseOutcome → List Fetch
  | .done (.ok _ s) => s.fetches
  | _ => []

/-- C78 is violated: the second of two files parsed with the same options refers to a file next to the first. -/
theorem C78_reused_options_violation : ∃ host o,
    (libRun host 20 [.file "a/one.json", .file "b/two.json"] o).1.map filesRead =
      [[.file "/w/a/part.json"], [.file "/w/a/part.json"]] ∧
    filesRead (alone host 20 o (.file "b/two.json")) = [.file "/w/b/part.json"] :=
  ⟨{ demoEnv with fs := twoDirs }, { file := { enabled := true, allowedPaths := ["/x"] } }, by decide +kernel, by decide +kernel⟩

theorem dirPrefix_append {a b : List Char} (hb : '/' ∉ b) : dirPrefix (a ++ '/' :: b) = a ++ ['/'] := by
  have h0 : ∀ l : List Char, '/' ∉ l → dirPrefix l = [] := by
    intro l hl
    cases l with
    | nil => rfl
    | cons c t => unfold dirPrefix; rw [if_neg hl]
  induction a with
  | nil =>
    rw [List.nil_append]
    unfold dirPrefix
    rw [if_pos (by simp), h0 b hb]
    rfl
  | cons c t ih =>
    rw [List.cons_append]
    unfold dirPrefix
    rw [if_pos (by simp), ih]
    rfl

theorem splitHash_noHash : ∀ l : List Char, '#' ∉ l → splitHash l = (l, [])
  | [], _ => rfl
  | c :: t, h => by
    unfold splitHash
    rw [if_neg (fun e => h (by simp [e])), splitHash_noHash t (fun hh => h (by simp [hh]))]

/-- **C78.** A relative reference in a schema file stands for the file of that name in the directory of the schema file:
the schema came from the file `dir/name`, files may be fetched, and `ref` is the name of no embedded schema.  Resolving the
reference either fails or names that file, which is queued for parsing. -/
theorem C78_references_beside_file (host : PEnv) (L : EnvLaws host) (o : LibOpts) (dir name : String)
    (hn : '/' ∉ name.toList) (ho : o.relativeTo = "file://" ++ (dir ++ "/" ++ name)) (hf : o.file.enabled = true)
    (root : SchemaNode) (s : PSt) (hs : initState (libEnv host o) root = .ok s) (ref : String) (u : Url)
    (hu : host.url.parse ref = some u) (hscheme : u.scheme = "") (hslash : ref.toList.head? ≠ some '/')
    (hprefix : ¬ "file://".toList <+: ref.toList) (hhash : '#' ∉ ref.toList) (hne : ref ≠ "")
    (hal : lookupKV s.aliases (resolveRelativeURI host.url o.relativeTo ref) = none) (r : Except Err (String × String))
    (s' : PSt) (h : handleDeferred (libEnv host o) ref s = .ok r s') :
    (∃ e, r = .error e) ∨ ∃ q, host.fs.realPath (dir ++ "/" ++ ref) = some q ∧ r = .ok ("file://" ++ pathText q, "#") ∧
      ("file://" ++ pathText q ∈ s'.queue ∨ lookupKV s.parsed ("file://" ++ pathText q) = some true) := by
  have hbase : (rootIds (libEnv host o)) = (o.relativeTo, o.relativeTo) := by
    unfold rootIds
    rw [if_neg]
    · rfl
    · show o.relativeTo ≠ ""
      rw [ho]
      intro hh
      have := congrArg String.toList hh
      rw [String.toList_append, show "file://".toList = 'f' :: "ile://".toList from by decide +kernel] at this
      simp at this
  have hs' : s.parsingId = o.relativeTo ∧ s.resolvingId = "" ∧ s.fileFetcher.isSome := by
    unfold initState at hs
    cases hm : makeFileFetcher (libEnv host o) with
    | error e => rw [hm] at hs; cases hs
    | ok ff =>
      rw [hm] at hs
      dsimp only at hs
      injection hs with hs
      subst hs
      refine ⟨?_, rfl, ?_⟩
      · dsimp only; rw [hbase]
      · dsimp only
        unfold makeFileFetcher at hm
        rw [if_pos (show (libEnv host o).fileOpts.enabled = true from hf)] at hm
        split at hm
        · cases hm
        · injection hm with hm; subst hm; rfl
  obtain ⟨hp, hr, hff⟩ := hs'
  unfold handleDeferred at h
  obtain ⟨m, s1, hm, hb⟩ := bind_ok.1 h
  clear h
  rename' hb => h
  obtain ⟨rfl, hm1, hm2⟩ := match_ok hm
  rw [splitHash_noHash _ hhash] at hm1 hm2
  dsimp only at hm1 hm2
  rw [String.ofList_toList] at hm1
  rw [if_neg (by rw [hm1]; exact hne), hm1, hm2] at h
  obtain ⟨x, s2, hx, h⟩ := bind_ok.1 h
  have hroot : orRoot (String.ofList []) = "#" := rfl
  rw [hroot] at hx
  unfold resolveDocumentRef at hx
  dsimp only at hx
  rw [show (if s1.resolvingId ≠ "" then s1.resolvingId else s1.parsingId) = o.relativeTo from by
    rw [if_neg (by simp [hr]), hp], show (libEnv host o).url = host.url from rfl] at hx
  rw [show (if resolveRelativeURI host.url o.relativeTo ref ≠ "" then
      lookupKV s1.aliases (resolveRelativeURI host.url o.relativeTo ref) else none) = none from by
    split
    · exact hal
    · rfl] at hx
  dsimp only at hx
  rw [if_neg (by
    unfold hasNoFetchers
    obtain ⟨f, hf⟩ := Option.isSome_iff_exists.1 hff
    rw [hf]
    simp)] at hx
  cases hg : getFetcherForRef host.url s1 ref with
  | error e =>
    rw [hg] at hx
    injection hx with hx _
    subst hx
    obtain ⟨rfl, rfl⟩ := pure_ok.1 h
    exact Or.inl ⟨_, rfl⟩
  | ok k =>
    have hk : k = .file := by
      unfold getFetcherForRef at hg
      rw [hu] at hg
      dsimp only at hg
      rw [if_pos hscheme, hp] at hg
      cases hb : host.url.parse o.relativeTo with
      | none => rw [hb] at hg; cases hg
      | some b =>
        rw [hb] at hg
        dsimp only at hg
        have hbs := L.url.file_scheme (dir ++ "/" ++ name) b (by rw [← ho]; exact hb)
        rw [hbs] at hg
        rw [if_neg (by decide)] at hg
        unfold fetcherForScheme at hg
        rw [if_neg (by simp), if_pos ⟨rfl, hff⟩] at hg
        injection hg with hg
        exact hg.symm
    subst hk
    rw [hg] at hx
    dsimp only at hx
    cases hi : fetcherResolveId (libEnv host o) s1 .file o.relativeTo ref with
    | error e =>
      rw [hi] at hx
      injection hx with hx _
      subst hx
      obtain ⟨rfl, rfl⟩ := pure_ok.1 h
      exact Or.inl ⟨_, rfl⟩
    | ok id =>
      rw [hi] at hx
      injection hx with hx hst
      subst hx hst
      dsimp only at h
      obtain ⟨_, s3, hq, h⟩ := bind_ok.1 h
      obtain ⟨rfl, rfl⟩ := pure_ok.1 h
      refine Or.inr ?_
      obtain ⟨f, hf⟩ := Option.isSome_iff_exists.1 hff
      unfold fetcherResolveId at hi
      rw [hf] at hi
      dsimp only at hi
      unfold fileResolveId at hi
      rw [show (libEnv host o).url = host.url from rfl, hu] at hi
      dsimp only at hi
      rw [if_neg (by simp [hscheme])] at hi
      have ht : trimFile ref = ref := by
        unfold trimFile
        rw [if_neg]
        intro hh
        exact hprefix (List.isPrefixOf_iff_prefix.1 hh)
      have hj : joinDir (trimFile o.relativeTo) ref = dir ++ "/" ++ ref := by
        unfold joinDir
        rw [ho, trimFile_file]
        have : (dir ++ "/" ++ name).toList = dir.toList ++ '/' :: name.toList := by simp
        rw [this, dirPrefix_append hn]
        apply String.ext
        simp
      rw [ht, if_neg hslash, hj] at hi
      cases hq1 : host.fs.realPath (dir ++ "/" ++ ref) with
      | none => rw [show (libEnv host o).fs = host.fs from rfl, hq1] at hi; cases hi
      | some q =>
        rw [show (libEnv host o).fs = host.fs from rfl, hq1] at hi
        dsimp only at hi
        have hid : id = "file://" ++ pathText q := by
          split at hi
          · cases hi
          · cases hi
          · split at hi
            · cases hi
            · injection hi with hi; exact hi.symm
        subst hid
        refine ⟨q, rfl, rfl, ?_⟩
        unfold queueDocument at hq
        simp only [modS_apply, Res.ok.injEq] at hq
        obtain ⟨_, hq⟩ := hq
        split at hq
        · subst hq; left; simp
        · rename_i hc
          subst hq
          rw [not_and_or] at hc
          rcases hc with hc | hc
          · left; exact not_not.1 hc
          · right
            cases hl : lookupKV s1.parsed ("file://" ++ pathText q) with
            | none => rw [hl] at hc; simp at hc
            | some b => rw [hl] at hc; simp at hc; rw [hc]

/-- The host of the example. -/
def twoDirsEnv : PEnv := { demoEnv with fs := twoDirs }

theorem twoDirs_laws : EnvLaws twoDirsEnv := ⟨demoEnv_laws.url, by
  intro q p h
  show '#' ∉ (pathText p).toList
  have h : twoDirs.realPath q = some p := h
  unfold twoDirs at h
  dsimp only at h
  repeat' split at h
  all_goals first | cases h; done | (injection h with h; subst h; decide +kernel)⟩

/-- The options of a parse of `a/one.json` that may read files. -/
def oneOpts : LibOpts := { relativeTo := "file:///w/a/one.json", file := { enabled := true, allowedPaths := ["/x"] } }

/-- The reference of `a/one.json`, in the state in which its parse starts, leads to `a/part.json`. -/
example : (match initState (libEnv twoDirsEnv oneOpts) {} with
    | .ok s => (lookupKV s.aliases (resolveRelativeURI twoDirsEnv.url "file:///w/a/one.json" "part.json")).isNone &&
        (match handleDeferred (libEnv twoDirsEnv oneOpts) "part.json" s with
          | .ok (.ok p) _ => decide (p = ("file:///w/a/part.json", "#"))
          | _ => false)
    | .error _ => false) = true ∧
    twoDirsEnv.url.parse "part.json" = some ⟨"", "", "part.json"⟩ := by decide +kernel

/-! ## C79: the command line tool -/

/-- The library options of the flags. -/
def flagOpts (f : CliFlags) : LibOpts :=
  if f.file ≠ "" then
    { http := httpOptsOf f.allowedHosts f.allowInsecure, file := fileOptsOf f.allowOutsideCwd f.allowedPaths }
  else {}

theorem asks_flagOpts (f : CliFlags) : AsksFor f (flagOpts f) (cliOpts f) := by
  have listed : ∀ (l : List String) (t : String), l = parseCommaSeparatedList t → CommaList t l := by
    rintro l t rfl
    unfold parseCommaSeparatedList CommaList
    split
    · rename_i h; simp [h]
    · rename_i h
      refine ⟨fun e => (h e).elim, fun _ => ⟨?_, ?_⟩⟩
      · rw [List.map_map]
        conv_lhs => rw [← splitComma_join t.toList]
        congr 1
        conv_lhs => rw [← List.map_id (splitComma t.toList)]
        exact List.map_congr_left fun x _ => by simp
      · intro x hx
        obtain ⟨y, hy, rfl⟩ := List.mem_map.1 hx
        rw [String.toList_ofList]
        exact splitComma_no_comma _ y hy
  by_cases hf : f.file = ""
  · have e : flagOpts f = {} := by unfold flagOpts; rw [if_neg (by simp [hf])]
    rw [e]
    exact { regexStrings := rfl, regexNames := rfl, depth := rfl, base := rfl,
            web := ⟨fun h => (Bool.noConfusion h), fun h => (h.1 hf).elim⟩, insecure := fun h => Bool.noConfusion h,
            hosts := fun h => Bool.noConfusion h, files := ⟨fun h => (Bool.noConfusion h), fun h => (h.1 hf).elim⟩,
            outside := fun h => Bool.noConfusion h, folders := fun h => Bool.noConfusion h,
            references := rfl, cycles := rfl, ifAttempts := rfl, oneOfAttempts := rfl, steps := rfl, cutoff := rfl,
            others := ⟨rfl, rfl, rfl, rfl, rfl, rfl, rfl, rfl, rfl, rfl⟩ }
  · have e : flagOpts f = { http := httpOptsOf f.allowedHosts f.allowInsecure
                            file := fileOptsOf f.allowOutsideCwd f.allowedPaths } := by
      unfold flagOpts; rw [if_pos hf]
    rw [e]
    have hw : (httpOptsOf f.allowedHosts f.allowInsecure = {} ∧ f.allowedHosts = "" ∧ f.allowInsecure = false) ∨
        (httpOptsOf f.allowedHosts f.allowInsecure =
          { enabled := true, allowedHosts := parseCommaSeparatedList f.allowedHosts, allowInsecure := f.allowInsecure } ∧
          (f.allowedHosts ≠ "" ∨ f.allowInsecure = true)) := by
      unfold httpOptsOf
      split
      · rename_i h; exact Or.inl ⟨rfl, h⟩
      · rename_i h
        refine Or.inr ⟨rfl, ?_⟩
        by_cases h1 : f.allowedHosts = ""
        · right
          cases hi : f.allowInsecure with
          | true => rfl
          | false => exact (h ⟨h1, hi⟩).elim
        · exact Or.inl h1
    have hd : (fileOptsOf f.allowOutsideCwd f.allowedPaths = {} ∧ f.allowedPaths = "" ∧ f.allowOutsideCwd = false) ∨
        (fileOptsOf f.allowOutsideCwd f.allowedPaths =
          { enabled := true, allowOutsideCwd := f.allowOutsideCwd, allowedPaths := parseCommaSeparatedList f.allowedPaths } ∧
          (f.allowedPaths ≠ "" ∨ f.allowOutsideCwd = true)) := by
      unfold fileOptsOf
      split
      · rename_i h; exact Or.inl ⟨rfl, h.2, h.1⟩
      · rename_i h
        refine Or.inr ⟨rfl, ?_⟩
        by_cases h1 : f.allowedPaths = ""
        · right
          cases hi : f.allowOutsideCwd with
          | true => rfl
          | false => exact (h ⟨hi, h1⟩).elim
        · exact Or.inl h1
    constructor
    case web =>
      rcases hw with ⟨h1, h2, h3⟩ | ⟨h1, h2⟩
      · dsimp only; rw [h1]; simp [h2, h3]
      · dsimp only; rw [h1]; exact ⟨fun _ => ⟨hf, h2⟩, fun _ => rfl⟩
    case files =>
      rcases hd with ⟨h1, h2, h3⟩ | ⟨h1, h2⟩
      · dsimp only; rw [h1]; simp [h2, h3]
      · dsimp only; rw [h1]; exact ⟨fun _ => ⟨hf, h2⟩, fun _ => rfl⟩
    case insecure =>
      intro h
      rcases hw with ⟨h1, _⟩ | ⟨h1, _⟩
      · dsimp only at h; rw [h1] at h; cases h
      · dsimp only; rw [h1]
    case hosts =>
      intro h
      rcases hw with ⟨h1, _⟩ | ⟨h1, _⟩
      · dsimp only at h; rw [h1] at h; cases h
      · dsimp only; rw [h1]; exact listed _ _ rfl
    case outside =>
      intro h
      rcases hd with ⟨h1, _⟩ | ⟨h1, _⟩
      · dsimp only at h; rw [h1] at h; cases h
      · dsimp only; rw [h1]
    case folders =>
      intro h
      rcases hd with ⟨h1, _⟩ | ⟨h1, _⟩
      · dsimp only at h; rw [h1] at h; cases h
      · dsimp only; rw [h1]; exact listed _ _ rfl
    case others => exact ⟨rfl, rfl, rfl, rfl, rfl, rfl, rfl, rfl, rfl, rfl⟩
    all_goals rfl

/-- The tool parses as the library does with the options of the flags. -/
theorem cliParse_lib (host : PEnv) (fuel : Nat) (f : CliFlags) (stdin : Option JVal) :
    cliParse (libEnv host {}) fuel f stdin =
      if f.file ≠ "" then some (libParseFile host fuel f.file (flagOpts f)).1
      else stdin.map fun schema => (libParse host fuel schema (flagOpts f)).1 := by
  unfold cliParse flagOpts
  by_cases hf : f.file ≠ ""
  · rw [if_pos hf, if_pos hf, if_pos hf]
    unfold parseSchemaFile libParseFile
    congr 1
    show (match host.fs.realPath f.file with
      | none => _
      | some p => match host.fs.read (pathText p) with
        | none => _
        | some schema => _) = _
    cases host.fs.realPath f.file with
    | none => rfl
    | some p =>
      dsimp only
      cases host.fs.read (pathText p) with
      | none => rfl
      | some v => rfl
  · rw [if_neg hf, if_neg hf, if_neg hf]
    cases stdin with
    | none => rfl
    | some v => rfl

/-- **C79.** The command line tool is the library called with the options of its flags: a run that prints a value parsed
the file, or standard input, with options that the flags ask for, and generated the value with the limits of the flags. -/
theorem C79_tool_is_library (host : PEnv) (w : World) (os : Os) (texts : CliTexts) (marshal : Bool → JVal → Option String)
    (fuel : Nat) (f : CliFlags) (stdin : Option JVal) (d : Disk) (e : CliEnd) (hh : f.showHelp = false)
    (hv : f.showVersion = false) (h : cliMain (libEnv host {}) w os texts marshal fuel f stdin d = some e) (hc : e.code = 0)
    (hout : f.output = "") :
    ∃ o g, AsksFor f o g ∧ ∃ gen s v st text said,
      (f.file ≠ "" → (libParseFile host fuel f.file o).1 = .done (.ok (gen, none) s)) ∧
      (f.file = "" → ∃ schema, stdin = some schema ∧ (libParse host fuel schema o).1 = .done (.ok (gen, none) s)) ∧
      rootGenerate w g (refEnv s) fuel gen = .ok v st ∧ marshal f.formatted v = some text ∧
      e.stdout = said ++ text ∧ (f.verbose = false → said = "") := by
  refine ⟨flagOpts f, cliOpts f, asks_flagOpts f, ?_⟩
  rcases cli_prints hh hv h with ⟨h1, _⟩ | ⟨gen, s, hp, h2⟩
  · exact (h1 hc).elim
  · rcases h2 with ⟨_, h3 | h3⟩ | ⟨_, _, v, t, res, hg, hm, he⟩
    · exact (h3 hc).elim
    · exact (h3 hout).elim
    · rw [cliParse_lib] at hp
      refine ⟨gen, s, v, t, res, verboseText texts f gen s, ?_, ?_, hg, hm, he, ?_⟩
      · intro hf
        rw [if_pos hf] at hp
        injection hp
      · intro hf
        rw [if_neg (by simp [hf])] at hp
        cases stdin with
        | none => cases hp
        | some schema => exact ⟨schema, rfl, by injection hp⟩
      · intro hvb
        unfold verboseText
        rw [if_neg (by simp [hvb])]

/-- C79: what the library rejects, the tool rejects, with an exit code other than zero and no output. -/
theorem C79_rejections (host : PEnv) (w : World) (os : Os) (texts : CliTexts) (marshal : Bool → JVal → Option String)
    (fuel : Nat) (f : CliFlags) (stdin : Option JVal) (d : Disk) (hh : f.showHelp = false) (hv : f.showVersion = false)
    (hf : f.file ≠ "") : ∃ o g, AsksFor f o g ∧ ∀ err, (libParseFile host fuel f.file o).1 = .rejected err →
      ∃ e, cliMain (libEnv host {}) w os texts marshal fuel f stdin d = some e ∧ e.code ≠ 0 ∧ e.stdout = "" ∧ e.disk = d := by
  refine ⟨flagOpts f, cliOpts f, asks_flagOpts f, fun err he => ?_⟩
  have hp := cliParse_lib host fuel f stdin
  rw [if_pos hf, he] at hp
  unfold cliMain
  rw [if_neg (by simp [hh]), if_neg (by simp [hv]), hp]
  exact ⟨_, rfl, by simp, rfl, rfl⟩

/-- A run of the tool in an environment with the default options. -/
example : (cliMain (libEnv cliEnv {}) demoWorld {} {} (fun _ _ => some "out") 30 { file := "s.json", allowInsecure := true }
    none (fun _ => none)).map (fun e => (e.code, e.stdout)) = some (0, "out") := by decide +kernel

/-- A file that does not exist is rejected. -/
example : ∃ err, (libParseFile cliEnv 30 "nowhere" (flagOpts { file := "nowhere" })).1 = .rejected err :=
  ⟨"failed to resolve file path", by
    unfold libParseFile
    rw [show cliEnv.fs.realPath "nowhere" = none from by decide +kernel]⟩

end Chaff
