import Verif.Lemmas.TameParse
import Verif.Props.Valid
/-!
# C02 end to end and C68: parsing and generating without a panic

`TameText` (Spec/Tame.lean) is a condition on the JSON text of a schema, read keyword by keyword.
-/

namespace Chaff
open Comp

/-- Every generator that a parse of tame schemas leaves behind is well shaped. -/
theorem parse_shapes {c : PEnv} {K : Care} {schema : JVal} (hs : TameText c K schema) (hw : WorldOk c K) {fuel : Nat} {g : Gen}
    {err : Option Err} {s : PSt} (h : parseSchema c fuel schema = .done (.ok (g, err) s)) :
    Shape c K g ∧ ∀ p ∈ s.refs, Shape c K p.2 := by
  unfold parseSchema at h
  split at h
  · cases h
  · rename_i root hroot
    split at h
    · cases h
    · rename_i s0 hs0
      split at h
      · injection h with h
        have hn := decode_every hs hroot
        obtain ⟨h1, h2⟩ := (runs_parseBody hw fuel hn _ (initState_st hn hs0 hw _)).2 _ _ h
        exact ⟨h1, h2.refs⟩
      · cases h

/-- C02 from the schema text to the value: when a schema without `multipleOf`, without an empty list of types and without
unsafe patterns has been parsed (with or without reported errors; documents it fetches are subject to the same
conditions), a call of `Generate` on the result never panics, whatever the options, as long as the object size is not
negative, and the random streams. -/
theorem C02_parsed_schema_no_panic (c : PEnv) (schema : JVal) (hs : TameText c ⟨True, False, False⟩ schema)
    (hw : TameWorld c ⟨True, False, False⟩) (fuel : Nat) (g : Gen) (err : Option Err) (s : PSt)
    (h : parseSchema c fuel schema = .done (.ok (g, err) s)) (w : World) (o : Opts) (ho : 0 ≤ o.defaultObjectMaxProperties)
    (n : Nat) (e : String) : rootGenerate w o (refEnv s) n g ≠ .panic e := by
  obtain ⟨h1, h2⟩ := parse_shapes hs ⟨hw, fun hc => hc.elim⟩ h
  have safe : ∀ g', Shape c ⟨True, False, False⟩ g' → GenSafe w.fp w.plat g' := fun g' hg => hg.safe fun ng _ hm hne =>
    absurd (hm.2 trivial) hne
  refine C02_root_no_panic w o ho _ (fun d p g' hg => ?_) n g (safe g h1) e
  exact safe _ (h2 _ (lookupRef_mem hg))

/-- C02 from the schema text to the value, with `multipleOf`: the same, provided that for every number generator that the
parse has built the bounds divided by `multipleOf` stay below 2^61 in size (beyond that the count of multiples overflows,
see `C02_multipleOf_overflow_violation`) and the rounding of the platform is lawful. -/
theorem C02_parsed_schema_with_multiples_no_panic (c : PEnv) (hF : c.fp.Lawful) (schema : JVal)
    (hs : TameText c ⟨False, False, False⟩ schema) (hw : TameWorld c ⟨False, False, False⟩) (fuel : Nat) (g : Gen)
    (err : Option Err) (s : PSt) (h : parseSchema c fuel schema = .done (.ok (g, err) s))
    (hq : ∀ g' ∈ g :: s.refs.map Prod.snd, ∀ ng, Occurs (.num ng) g' → ng.multipleOf ≠ 0 →
      |c.fp.div ng.min ng.multipleOf| ≤ 2 ^ 61 ∧ |c.fp.div ng.max ng.multipleOf| ≤ 2 ^ 61)
    (w : World) (hfp : w.fp = c.fp) (hpl : w.plat = c.plat) (o : Opts) (ho : 0 ≤ o.defaultObjectMaxProperties) (n : Nat)
    (e : String) : rootGenerate w o (refEnv s) n g ≠ .panic e := by
  obtain ⟨h1, h2⟩ := parse_shapes hs ⟨hw, fun hc => hc.elim⟩ h
  have safe : ∀ g' ∈ g :: s.refs.map Prod.snd, Shape c ⟨False, False, False⟩ g' → GenSafe w.fp w.plat g' := by
    intro g' hm hg
    refine hg.safe fun ng ho hmade hne => ?_
    rw [hfp, hpl]
    obtain ⟨⟨spec, isInt, hp⟩, _⟩ := hmade
    have hb := hq g' hm ng ho hne
    have hmul : ∀ m, spec.multipleOf = some m → ng.multipleOf = m := by
      intro m hm
      unfold parseNumber at hp
      split at hp
      · cases hp
      · split at hp
        · cases hp
        · injection hp with hp
          injection hp with hp
          rw [← hp]
          show getZeroIfNil spec.multipleOf 0 = m
          rw [hm]
          rfl
    have := C02_number_safe c.fp hF c.plat spec isInt _ hp (by
      intro g1 m hg1 hm1 hm0
      injection hg1 with hg1
      subst hg1
      rw [← hmul m hm1]
      exact hb)
    cases this with
    | num _ h => exact h hne
  refine C02_root_no_panic w o ho _ (fun d p g' hg => ?_) n g (safe g (List.mem_cons_self ..) h1) e
  have hq := lookupRef_mem hg
  exact safe _ (List.mem_cons_of_mem _ (List.mem_map.2 ⟨_, hq, rfl⟩)) (h2 _ hq)

/-- C68 (partial: the schemas of `TameText` with the conditions for a calm parse).  Parsing such a schema never panics: it
is rejected, it returns a generator, possibly with recorded errors, or it does not end within the fuel of the model.  This
holds for every such schema of any size and nesting, with any references between its parts and to other documents, and
every outside world whose documents are of the same kind. -/
theorem C68_parsing_never_panics_partial (c : PEnv) (noNegations : Prop) (schema : JVal)
    (hs : TameText c ⟨False, True, noNegations⟩ schema) (ht : TameWorld c ⟨False, True, noNegations⟩) (hc : CalmWorld c)
    (fuel : Nat) (e : String) : parseSchema c fuel schema ≠ .done (.panic e) := by
  have hw : WorldOk c ⟨False, True, noNegations⟩ := ⟨ht, fun _ => hc⟩
  intro h
  unfold parseSchema at h
  split at h
  · cases h
  · rename_i root hroot
    split at h
    · cases h
    · rename_i s0 hs0
      split at h
      · injection h with h
        have hn := decode_every hs hroot
        exact (runs_parseBody hw fuel hn _ (initState_st hn hs0 hw _)).1 trivial e h
      · cases h

/-! ## The conditions can be met

A checker for the conditions on a text, apart from those on patterns, is used for the examples only. -/

instance (r : String) : Decidable (RefOk r) := by unfold RefOk; infer_instance

/-- Checks `Clean`. -/
def cleanB : Nat → JVal → Bool
  | 0, _ => false
  | n + 1, .arr l => l.all (cleanB n)
  | n + 1, .obj m => m.all fun p => (p.1 != "$id" || (match p.2 with | .str _ => false | _ => true)) &&
      (p.1 != "$ref" || (match p.2 with | .str r => decide (RefOk r) | _ => true)) && cleanB n p.2
  | _ + 1, _ => true

theorem cleanB_sound : ∀ n v, cleanB n v = true → Clean v := by
  intro n
  induction n with
  | zero => intro v h; simp [cleanB] at h
  | succ n ih =>
    intro v h
    cases v with
    | arr l =>
      simp only [cleanB, List.all_eq_true] at h
      exact .arr fun v hv => ih v (h v hv)
    | obj m =>
      simp only [cleanB, List.all_eq_true, Bool.and_eq_true, Bool.or_eq_true, bne_iff_ne] at h
      refine .obj (fun p hp hk t ht => ?_) (fun p hp hk r hr => ?_) fun p hp => ih _ (h p hp).2
      · have := (h p hp).1.1
        rw [ht] at this
        simp [hk] at this
      · have := (h p hp).1.2
        rw [hr] at this
        simpa [hk] using this
    | null => exact .atom (by simp) (by simp)
    | bool b => exact .atom (by simp) (by simp)
    | num q => exact .atom (by simp) (by simp)
    | str t => exact .atom (by simp) (by simp)

/-- Checks the conditions on a member of a schema object. -/
def memberB (noMultiples calm noNegations : Bool) (k : String) (v : JVal) : Bool :=
  !(noMultiples && k == "multipleOf" && (match v with | .num _ => true | _ => false)) &&
  !(k == "type" && (match v with | .arr [] => true | _ => false)) &&
  (!calm || (
    (k != "$ref" || (match v with | .str r => decide (RefOk r) | _ => true)) &&
    (k != "$id" || (match v with | .str _ => false | _ => true)) &&
    (!(k == "enum" || k == "const") || cleanB 40 v) &&
    (!(k == "$defs" || k == "definitions") ||
      (match v with | .obj m => m.all (fun p => decide ('\n' ∉ p.1.toList)) | _ => true)) &&
    (!noNegations || k != "not" || (match v with | .obj _ => false | _ => true)) &&
    (noNegations || k != "uniqueItems" || (match v with | .bool _ => false | _ => true))))

/-- Checks the conditions on a text. -/
def tameB (noMultiples calm noNegations : Bool) : Nat → JVal → Bool
  | 0, _ => false
  | n + 1, .obj m => m.all fun p => memberB noMultiples calm noNegations p.1 p.2 &&
      (schemasIn p.1 p.2).all (tameB noMultiples calm noNegations n)
  | _ + 1, _ => true

theorem memberB_ok {c : PEnv} (hp : ∀ a p, PatternOk c a p) {a b d : Bool} {k : String} {v : JVal} (h : memberB a b d k v = true) :
    MemberOk c ⟨a, b, d⟩ k v := by
  unfold memberB at h
  simp only [Bool.and_eq_true, Bool.not_eq_true'] at h
  obtain ⟨⟨h1, h2⟩, _⟩ := h
  refine ⟨fun ha hk q hv => ?_, fun hk hv => ?_, fun _ p _ => hp _ _, fun _ m _ p _ => hp _ _⟩
  · subst hk; subst hv
    have ha : a = true := ha
    simp [ha] at h1
  · subst hk; subst hv
    simp at h2

theorem memberB_calm {a b d : Bool} {k : String} {v : JVal} (h : memberB a b d k v = true) (hb : b = true) :
    MemberCalm ⟨a, b, d⟩ k v := by
  unfold memberB at h
  subst hb
  simp only [Bool.and_eq_true, Bool.not_true, Bool.false_or] at h
  obtain ⟨_, ⟨⟨⟨⟨h1, h2⟩, h3⟩, h4⟩, h5⟩, h6⟩ := h
  refine ⟨fun hk r hv => ?_, fun hk t hv => ?_, fun hk => ?_, fun hk m hv => ?_, fun hd hk m hv => ?_, fun hd hk b hv => ?_⟩
  · subst hk; subst hv
    simpa using h1
  · subst hk; subst hv
    simp at h2
  · refine cleanB_sound 40 v ?_
    rcases hk with hk | hk <;> subst hk <;> simpa using h3
  · subst hv
    rcases hk with hk | hk <;> subst hk <;> simpa using h4
  · subst hk; subst hv
    have hd : d = true := hd
    simp [hd] at h5
  · subst hk; subst hv
    have hd : d = false := by simpa using hd
    simp [hd] at h6

theorem tameB_sound {c : PEnv} (hp : ∀ a p, PatternOk c a p) {a b d : Bool} : ∀ n v, tameB a b d n v = true →
    TameText c ⟨a, b, d⟩ v := by
  intro n
  induction n with
  | zero => intro v h; simp [tameB] at h
  | succ n ih =>
    intro v h
    cases v with
    | obj m =>
      simp only [tameB, List.all_eq_true, Bool.and_eq_true] at h
      exact .obj (fun p hm => memberB_ok hp (h p hm).1) (fun p hm hb => memberB_calm (h p hm).1 hb)
        fun p hm v hv => ih v ((h p hm).2 v hv)
    | null => exact .other (by simp)
    | bool b => exact .other (by simp)
    | num q => exact .other (by simp)
    | str t => exact .other (by simp)
    | arr l => exact .other (by simp)

/-- An environment in which every pattern is read as `[a-c]{2}x*`. -/
def patternEnv : PEnv :=
  { demoEnv with rxParse := fun _ => some (.concat [.repeat (.charClass [97, 99]) 2 2, .star (.literal [120])]) }

theorem patternEnv_patterns (a : RxArgs) (p : String) : PatternOk patternEnv a p := by
  intro a' r ha hr
  injection hr with hr
  subst hr
  refine ⟨⟨by simp, ?_⟩, ⟨?_, trivial⟩, trivial⟩
  · show RangesOk [97, 99] ∧ 2 ≤ 2
    exact ⟨by simp [RangesOk], Nat.le_refl _⟩
  · unfold RxArgs.initialize at ha
    generalize (if a.maxUnbounded < 1 then { a with maxUnbounded := 4096 } else a : RxArgs) = b at ha
    dsimp only at ha
    split at ha
    · cases ha
    · injection ha with ha
      rename_i hle
      subst ha
      simpa using hle

theorem demoEnv_texts (a b d : Bool) : TameWorld patternEnv ⟨a, b, d⟩ := by
  refine ⟨fun u v h => ?_, fun p v h => ?_⟩
  · have h : (if u = "https://a.org/x" then some (JVal.obj [("type", .str "string")])
      else if u = "https://evil.org/x" then some (.obj [("type", .str "boolean")]) else none) = some v := h
    split at h
    · injection h with h
      subst h
      exact tameB_sound patternEnv_patterns 3 _ (by cases a <;> cases b <;> cases d <;> decide +kernel)
    · split at h
      · injection h with h
        subst h
        exact tameB_sound patternEnv_patterns 3 _ (by cases a <;> cases b <;> cases d <;> decide +kernel)
      · cases h
  · have h : (if p = "/w/a.json" ∨ p = "/s/x.json" then some (JVal.obj [("type", .str "integer")]) else none) = some v := h
    split at h
    · injection h with h
      subst h
      exact tameB_sound patternEnv_patterns 3 _ (by cases a <;> cases b <;> cases d <;> decide +kernel)
    · cases h

theorem demoStr_clean {y : Url} (h1 : '#' ∉ y.scheme.toList) (h2 : '#' ∉ y.host.toList) (h3 : '#' ∉ y.rest.toList) :
    '#' ∉ (demoStr y).toList := by
  unfold demoStr
  split
  · exact h3
  · simp only [String.toList_append, List.mem_append, not_or]
    exact ⟨⟨⟨h1, by decide +kernel⟩, h2⟩, h3⟩

theorem demoParse_clean {t : String} {y : Url} (h : demoParse t = some y) :
    '#' ∉ y.scheme.toList ∧ '#' ∉ y.host.toList ∧ '#' ∉ y.rest.toList := by
  rcases demoParse_cases h with ⟨l, hl, rfl⟩ | ⟨l, hl, rfl⟩ | ⟨l, hl, _, _, rfl⟩
  · exact ⟨by dsimp only; decide +kernel, by dsimp only; decide +kernel, by simpa using hl⟩
  · refine ⟨by dsimp only; decide +kernel, ?_, ?_⟩
    · rw [String.toList_ofList]
      exact fun h => hl ((List.takeWhile_prefix _).subset h)
    · rw [String.toList_ofList]
      exact fun h => hl ((List.dropWhile_sublist _).subset h)
  · exact ⟨by dsimp only; decide +kernel, by dsimp only; decide +kernel, by simpa using hl⟩

theorem patternEnv_calm : CalmWorld patternEnv where
  rxString := ⟨defaultRxArgs, rfl⟩
  rxPattern := ⟨defaultRxArgs, rfl⟩
  relativeTo := by show '#' ∉ "".toList; decide +kernel
  cwd p h := by
    have h : some ["w"] = some p := h
    injection h with h
    subst h
    decide +kernel
  paths := demoFs_paths
  urls b r x y hx hy _ _ := by
    have hx := demoParse_clean hx
    have hy := demoParse_clean hy
    refine ⟨demoStr_clean hy.1 hy.2.1 hy.2.2, ?_⟩
    show '#' ∉ (demoStr (demoResolve x y)).toList
    unfold demoResolve
    split
    · exact demoStr_clean hy.1 hy.2.1 hy.2.2
    · refine demoStr_clean hx.1 hx.2.1 ?_
      simp only [String.toList_append, List.mem_append, not_or]
      exact ⟨by decide +kernel, hy.2.2⟩

/-- A schema with a recursive reference, a fetched document, patterns, alternatives, a conditional and a negation. -/
def busySchema : JVal := .obj [("type", .str "object"), ("additionalProperties", .bool false),
  ("$defs", .obj [("code", .obj [("type", .str "string"), ("pattern", .str "[a-c]{2}x*")])]),
  ("properties", .obj [("code", .obj [("$ref", .str "#/$defs/code")]),
    ("far", .obj [("$ref", .str "https://a.org/x")]),
    ("next", .obj [("allOf", .arr [.obj [("$ref", .str "#")], .obj [("maxProperties", .num 3)]])]),
    ("kind", .obj [("anyOf", .arr [.obj [("type", .str "integer")], .obj [("enum", .arr [.str "a", .str "b"])]]),
      ("not", .obj [("const", .num 3)])]),
    ("tags", .obj [("type", .str "array"), ("items", .obj [("type", .arr [.str "string", .str "null"])]),
      ("if", .obj [("minItems", .num 1)]), ("then", .obj [("maxItems", .num 2)])])]),
  ("patternProperties", .obj [("^x", .obj [("type", .str "boolean")])])]

/-- The parse of `busySchema` returns. -/
def busyParses : Bool :=
  match parseSchema patternEnv 30 busySchema with
  | .done (.ok _ _) => true
  | _ => false

/-- The hypotheses of the theorems hold for this schema, and its parse returns. -/
example : TameText patternEnv ⟨True, False, False⟩ busySchema ∧ TameWorld patternEnv ⟨True, False, False⟩ ∧
    TameText patternEnv ⟨False, True, False⟩ busySchema ∧ TameWorld patternEnv ⟨False, True, False⟩ ∧ CalmWorld patternEnv ∧
    busyParses = true := by
  have h1 := tameB_sound patternEnv_patterns (a := true) (b := false) (d := false) 6 busySchema (by decide +kernel)
  have h2 := tameB_sound patternEnv_patterns (a := false) (b := true) (d := false) 6 busySchema (by decide +kernel)
  have h3 := demoEnv_texts true false false
  have h4 := demoEnv_texts false true false
  simp only [Bool.false_eq_true, eq_self] at h1 h2 h3 h4
  exact ⟨h1, h3, h2, h4, patternEnv_calm, by decide +kernel⟩

/-- Whether generating from a parsed schema panics. -/
def generatePanics (c : PEnv) (w : World) (schema : JVal) : Bool :=
  match parseSchema c 20 schema with
  | .done (.ok (g, none) s) => isPanic (rootGenerate w {} (refEnv s) 20 g)
  | _ => false

/-- C02 fails for `{"type": []}`, from the text on: the schema is parsed without an error and generating panics. -/
theorem C02_empty_type_list_violation : generatePanics demoEnv demoWorld (.obj [("type", .arr [])]) = true := by decide +kernel

/-! ## Texts on which the parser panics -/

/-- Whether the parse of a schema panics. -/
def parsePanics (c : PEnv) (schema : JVal) : Bool :=
  match parseSchema c 20 schema with
  | .done (.panic _) => true
  | _ => false

theorem exists_of_parsePanics {c : PEnv} {schema : JVal} (h : parsePanics c schema = true) :
    ∃ e, parseSchema c 20 schema = .done (.panic e) := by
  unfold parsePanics at h
  split at h
  · rename_i e he
    exact ⟨e, he⟩
  · cases h

/-- C68 fails for `{"$defs": {"a\nb": {}}}`: a newline in the name of a definition. -/
theorem C68_newline_in_definition_name_violation :
    ∃ e, parseSchema demoEnv 20 (.obj [("$defs", .obj [("a\nb", .obj [])])]) = .done (.panic e) :=
  exists_of_parsePanics (by decide +kernel)

/-- C68 fails for `{"type": "array", "uniqueItems": true, "not": {"uniqueItems": true}}`. -/
theorem C68_negated_uniqueItems_violation :
    ∃ e, parseSchema demoEnv 20 (.obj [("type", .str "array"), ("uniqueItems", .bool true),
      ("not", .obj [("uniqueItems", .bool true)])]) = .done (.panic e) :=
  exists_of_parsePanics (by decide +kernel)

/-- C68 fails for a pattern whose expression has a class of just the NUL character. -/
theorem C68_nul_class_violation :
    ∃ e, parseSchema { demoEnv with rxParse := fun _ => some (.charClass [0, 0]) } 20
      (.obj [("type", .str "string"), ("pattern", .str "[\x00]")]) = .done (.panic e) :=
  exists_of_parsePanics (by decide +kernel)

/-- The example environment with a name for the root document. -/
def namedEnv : PEnv := { demoEnv with relativeTo := "https://a.org/root" }

/-- C68 fails for `{"allOf": [{"$ref": "#/items/not"}]}`: a reference through a keyword that is not there. -/
theorem C68_reference_through_missing_items_violation :
    ∃ e, parseSchema namedEnv 20 (.obj [("allOf", .arr [.obj [("$ref", .str "#/items/not")]])]) = .done (.panic e) :=
  exists_of_parsePanics (by decide +kernel)

/-- C68 fails for `{"allOf": [{"$ref": "#/allOf/7"}]}`: a reference to an entry beyond the end of a list. -/
theorem C68_reference_beyond_list_violation :
    ∃ e, parseSchema namedEnv 20 (.obj [("allOf", .arr [.obj [("$ref", .str "#/allOf/7")]])]) = .done (.panic e) :=
  exists_of_parsePanics (by decide +kernel)

/-- The same references elsewhere are only recorded as errors. -/
example : parsePanics namedEnv (.obj [("allOf", .arr [.obj [("$ref", .str "#/properties/x")]])]) = false := by decide +kernel

end Chaff
