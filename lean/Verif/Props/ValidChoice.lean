import Verif.Props.Valid
import Verif.Props.SchemaJson
/-!
# C56: choices and conditions

The hypotheses of C56 are met by a schema with `oneOf` and with `if`, `then` and `else`.

    {"type": "object", "required": ["grade", "mark"], "properties": {
      "grade": {"type": "integer", "minimum": 1, "maximum": 9, "oneOf": [{"maximum": 5}, {"minimum": 3}]},
      "mark": {"type": "integer", "minimum": 1, "maximum": 9, "if": {"minimum": 5}, "then": {"minimum": 7},
               "else": {"maximum": 2}}}}
-/

namespace Chaff
open Comp

/-- The schema as JSON. -/
def marksSchema : JVal := .obj [("type", .str "object"), ("required", .arr [.str "grade", .str "mark"]),
  ("properties", .obj [
    ("grade", .obj [("type", .str "integer"), ("minimum", .num 1), ("maximum", .num 9),
      ("oneOf", .arr [.obj [("maximum", .num 5)], .obj [("minimum", .num 3)]])]),
    ("mark", .obj [("type", .str "integer"), ("minimum", .num 1), ("maximum", .num 9),
      ("if", .obj [("minimum", .num 5)]), ("then", .obj [("minimum", .num 7)]), ("else", .obj [("maximum", .num 2)])])])]

/-- `{"minimum": a, "maximum": b}`, either of which may be absent. -/
def rangeNode (a b : Option Rat) : SchemaNode := { emptyNode with minimum := a, maximum := b }

def gradeNode : SchemaNode :=
  { emptyNode with
    type := some { single := "integer" }, minimum := some 1, maximum := some 9
    oneOf := some [rangeNode none (some 5), rangeNode (some 3) none] }

def markNode : SchemaNode :=
  { emptyNode with
    type := some { single := "integer" }, minimum := some 1, maximum := some 9
    ifN := some (rangeNode (some 5) none), thenN := some (rangeNode (some 7) none), elseN := some (rangeNode none (some 2)) }

/-- The whole schema, decoded. -/
def marksRoot : SchemaNode :=
  { emptyNode with
    type := some { single := "object" }, required := some ["grade", "mark"]
    properties := some [("grade", gradeNode), ("mark", markNode)] }

set_option maxHeartbeats 4000000 in
theorem marks_decodes : decodeNode marksSchema = some marksRoot := by rfl

/-- A validator that looks at `minimum` and `maximum`. -/
def rangeValidator : JVal → JVal → Bool
  | .obj m, .num q =>
    (match lookupKV m "minimum" with | some (.num x) => decide (x ≤ q) | _ => true) &&
    (match lookupKV m "maximum" with | some (.num x) => decide (q ≤ x) | _ => true)
  | _, _ => true

/-- The validation library, as far as these schemas need it. -/
def rangeEnv : PEnv := { demoEnv with compile := fun resources key => (lookupKV resources key).map rangeValidator }

theorem range_valid {root : SchemaNode} {a b : Option Rat} {v : JVal}
    (h : ∀ q, v = .num q → (∀ x, a = some x → x ≤ q) ∧ ∀ x, b = some x → q ≤ x) :
    Valid (patternMeaning rangeEnv) root (rangeNode a b) v := by
  refine .basic _ _ emptyNode emptyNode [] ⟨rfl, rfl, rfl, rfl, rfl, rfl, rfl, rfl, nofun, rfl, rfl, rfl, rfl⟩ ?_ nofun nofun nofun
    nofun nofun nofun nofun nofun nofun nofun nofun nofun
  refine ⟨nofun, nofun, nofun, ?_, nofun, nofun, nofun, nofun, nofun, nofun, nofun, nofun, nofun, nofun, nofun⟩
  intro q hq
  exact ⟨(h q hq).1, (h q hq).2, nofun, nofun, nofun⟩

theorem range_invalid {root : SchemaNode} {a b : Option Rat} {q : Rat}
    (h : ¬ ((∀ x, a = some x → x ≤ q) ∧ ∀ x, b = some x → q ≤ x)) :
    Invalid (patternMeaning rangeEnv) root (rangeNode a b) (.num q) :=
  .alone fun hl => h ⟨(hl.number q rfl).minimum, (hl.number q rfl).maximum⟩

/-- The text of such a schema. -/
theorem range_encoded (a b : Option Rat) :
    encodeNode (rangeNode a b) = .obj (member "minimum" JVal.num a ++ member "maximum" JVal.num b) := by
  rw [encodeNode_eq]
  have h : encBase (rangeNode a b).toNodeBase = member "minimum" JVal.num a ++ member "maximum" JVal.num b := by
    have e : (rangeNode a b).type = none ∧ (rangeNode a b).length = none ∧ (rangeNode a b).minProperties = none ∧
      (rangeNode a b).maxProperties = none ∧ (rangeNode a b).required = none ∧ (rangeNode a b).pattern = none ∧
      (rangeNode a b).format = none ∧ (rangeNode a b).minLength = none ∧ (rangeNode a b).maxLength = none ∧
      (rangeNode a b).minimum = a ∧ (rangeNode a b).maximum = b ∧ (rangeNode a b).exclusiveMinimum = none ∧
      (rangeNode a b).exclusiveMaximum = none ∧ (rangeNode a b).multipleOf = none ∧ (rangeNode a b).minItems = none ∧
      (rangeNode a b).maxItems = none ∧ (rangeNode a b).minContains = none ∧ (rangeNode a b).maxContains = none ∧
      (rangeNode a b).uniqueItems = none ∧ (rangeNode a b).enum = none ∧ (rangeNode a b).const = none ∧
      (rangeNode a b).ref = none ∧ (rangeNode a b).id = none ∧ (rangeNode a b).dependentRequired = [] :=
      ⟨rfl, rfl, rfl, rfl, rfl, rfl, rfl, rfl, rfl, rfl, rfl, rfl, rfl, rfl, rfl, rfl, rfl, rfl, rfl, rfl, rfl, rfl, rfl, rfl⟩
    generalize rangeNode a b = n at e ⊢
    delta encBase
    simp only [e, member, List.nil_append, List.append_nil, List.isEmpty_nil, if_true]
  rw [h]
  have e : (rangeNode a b).properties = none ∧ (rangeNode a b).additionalProperties = none ∧ (rangeNode a b).patternProperties = none ∧
    (rangeNode a b).items = none ∧ (rangeNode a b).contains = none ∧ (rangeNode a b).prefixItems = none ∧
    (rangeNode a b).additionalItems = none ∧ (rangeNode a b).unevaluatedItems = none ∧ (rangeNode a b).not = none ∧
    (rangeNode a b).allOf = none ∧ (rangeNode a b).anyOf = none ∧ (rangeNode a b).oneOf = none ∧ (rangeNode a b).defs = none ∧
    (rangeNode a b).definitions = none ∧ (rangeNode a b).ifN = none ∧ (rangeNode a b).thenN = none ∧ (rangeNode a b).elseN = none ∧
    (rangeNode a b).dependentSchemas = [] := ⟨rfl, rfl, rfl, rfl, rfl, rfl, rfl, rfl, rfl, rfl, rfl, rfl, rfl, rfl, rfl, rfl, rfl, rfl⟩
  generalize rangeNode a b = n at e ⊢
  simp [e, encOptMap, encMap, encOptNode, encOptList, encOptOrFalse, encOptItems]
theorem range_text (scope : String) (a b : Option Rat) :
    replaceRefs scope (encodeNode (rangeNode a b)) =
      .obj ((a.map fun x => ("minimum", JVal.num x)).toList ++ (b.map fun x => ("maximum", JVal.num x)).toList) := by
  rw [range_encoded]
  cases a <;> cases b <;> rfl

theorem range_judged (root : SchemaNode) (a b : Option Rat) : Judged rangeEnv root (rangeNode a b) := by
  intro resources key scope accepts hl hc v
  have hf : rangeValidator (replaceRefs scope (encodeNode (rangeNode a b))) = accepts := by
    have : rangeEnv.compile resources key = (lookupKV resources key).map rangeValidator := rfl
    rw [this, hl] at hc
    exact Option.some.inj hc
  subst hf
  rw [range_text]
  cases v with
  | num q =>
    have hiff : rangeValidator (.obj ((a.map fun x => ("minimum", JVal.num x)).toList ++
        (b.map fun x => ("maximum", JVal.num x)).toList)) (.num q) = true ↔
        ((∀ x, a = some x → x ≤ q) ∧ ∀ x, b = some x → q ≤ x) := by
      cases a <;> cases b <;> simp [rangeValidator, lookupKV]
    refine ⟨fun ha => range_valid ?_, fun ha => range_invalid ?_⟩
    · rintro q' ⟨⟩
      exact hiff.1 ha
    · intro hh
      rw [hiff.2 hh] at ha
      cases ha
  | _ => exact ⟨fun _ => range_valid nofun, nofun⟩

/-- Every place in the schema. -/
theorem marks_places {d : Nat} {ts : List String} {m : SchemaNode} (h : Inside marksRoot d ts m) :
    (m = marksRoot ∧ d = 0 ∧ ts = []) ∨ (m = gradeNode ∧ d = 1 ∧ ts = ["properties", "grade"]) ∨
      (m = markNode ∧ d = 1 ∧ ts = ["properties", "mark"]) := by
  induction h with
  | root => exact .inl ⟨rfl, rfl, rfl⟩
  | named _ hn ih =>
    rcases ih with ⟨rfl, rfl, rfl⟩ | ⟨rfl, rfl, rfl⟩ | ⟨rfl, rfl, rfl⟩
    · cases hn with
      | properties p hp hl =>
        cases hp
        have := lookupKV_mem hl
        simp only [List.mem_cons, List.mem_nil_iff, or_false, Prod.mk.injEq] at this
        rcases this with ⟨rfl, rfl⟩ | ⟨rfl, rfl⟩
        · exact .inr (.inl ⟨rfl, rfl, rfl⟩)
        · exact .inr (.inr ⟨rfl, rfl, rfl⟩)
      | _ p hp _ => cases hp
    · cases hn with
      | _ p hp _ => cases hp
    · cases hn with
      | _ p hp _ => cases hp
  | sub _ hn hkw ih =>
    rcases ih with ⟨rfl, rfl, rfl⟩ | ⟨rfl, rfl, rfl⟩ | ⟨rfl, rfl, rfl⟩ <;> cases hn <;>
      first | (rename_i hp; cases hp; done) | (rename_i hp _ _; cases hp; done) | exact absurd (by simp) hkw
  | items _ hi _ _ ih => rcases ih with ⟨rfl, rfl, rfl⟩ | ⟨rfl, rfl, rfl⟩ | ⟨rfl, rfl, rfl⟩ <;> cases hi
  | prefixItems _ hi _ ih => rcases ih with ⟨rfl, rfl, rfl⟩ | ⟨rfl, rfl, rfl⟩ | ⟨rfl, rfl, rfl⟩ <;> cases hi

/-- The schemas that are handed to the validation library. -/
theorem marks_asked {ts : List String} {f : String} {x : SchemaNode} (h : Asked marksRoot ts f x) :
    (pointerText ts ++ "/" ++ f, x) ∈ [("#/properties/grade/oneOf/0", rangeNode none (some 5)),
      ("#/properties/grade/oneOf/1", rangeNode (some 3) none),
      ("#/properties/mark/#/properties/mark//if/0", rangeNode (some 5) none)] := by
  cases h with
  | alternative hi ho hx =>
    rename_i l i
    rcases marks_places hi with ⟨rfl, rfl, rfl⟩ | ⟨rfl, rfl, rfl⟩ | ⟨rfl, rfl, rfl⟩
    · cases ho
    · cases ho
      match i with
      | 0 => cases hx; rw [show pointerText ["properties", "grade"] ++ "/" ++ s!"oneOf/{0}" = "#/properties/grade/oneOf/0" by decide +kernel]; simp
      | 1 => cases hx; rw [show pointerText ["properties", "grade"] ++ "/" ++ s!"oneOf/{1}" = "#/properties/grade/oneOf/1" by decide +kernel]; simp
      | k + 2 => simp at hx
    · cases ho
  | condition hi ho =>
    rcases marks_places hi with ⟨rfl, rfl, rfl⟩ | ⟨rfl, rfl, rfl⟩ | ⟨rfl, rfl, rfl⟩
    · cases ho
    · cases ho
    · cases ho
      rw [show pointerText ["properties", "mark"] ++ "/" ++ s!"{pointerText ["properties", "mark"]}//if/0" =
        "#/properties/mark/#/properties/mark//if/0" by decide +kernel]
      simp

theorem marks_apart : NamesApart marksRoot := by
  intro ts f x ts' f' x' h h' he
  have h1 := marks_asked h
  have h2 := marks_asked h'
  generalize pointerText ts ++ "/" ++ f = a at *
  generalize pointerText ts' ++ "/" ++ f' = b at *
  simp only [List.mem_cons, List.mem_nil_iff, or_false, Prod.mk.injEq] at h1 h2
  rcases h1 with ⟨rfl, rfl⟩ | ⟨rfl, rfl⟩ | ⟨rfl, rfl⟩ <;> rcases h2 with ⟨rfl, rfl⟩ | ⟨rfl, rfl⟩ | ⟨rfl, rfl⟩ <;>
    first | rfl | (exfalso; revert he; decide +kernel)

/-- All places have integers. -/
def marksType : ValuePath → Kind := fun _ => "integer"

theorem range_concurs (o : Opts) {type : Option String} {a b : Option Rat} (ht : ∀ x, type = some x → x = "integer")
    (ha : ∀ x, a = some x → |x| ≤ 2 ^ 50) (hb : ∀ x, b = some x → |x| ≤ 2 ^ 50) :
    Concurs rangeEnv o marksType 1 [] (partSchema type none none (none, none) (a, b) none none none none) :=
  .intro (part_mergeable rfl (by decide) ht nofun nofun nofun ha hb nofun nofun) nofun nofun nofun nofun

theorem range_asWritten (a b : Option Rat) : AsWritten (rangeNode a b) := ⟨rfl, rfl, rfl, nofun, nofun, nofun⟩

theorem grade_choice (o : Opts) : Choice rangeEnv o marksRoot marksType 1 gradeNode where
  has := nofun
  own := range_concurs o (type := some "integer") (a := some 1) (b := some 9) (by rintro x ⟨⟩; rfl)
    (by rintro x ⟨⟩; norm_num) (by rintro x ⟨⟩; norm_num)
  written := ⟨rfl, rfl, rfl, nofun, nofun, nofun⟩
  someAlternative := nofun
  alternatives := by
    rintro l x ⟨⟩ hx
    simp only [List.mem_cons, List.mem_nil_iff, or_false] at hx
    rcases hx with rfl | rfl
    · exact ⟨range_concurs o (type := none) (a := none) (b := some 5) nofun nofun (by rintro x ⟨⟩; norm_num),
        range_asWritten .., range_judged _ _ _⟩
    · exact ⟨range_concurs o (type := none) (a := some 3) (b := none) nofun (by rintro x ⟨⟩; norm_num) nofun,
        range_asWritten .., range_judged _ _ _⟩
  names := marks_apart

theorem mark_condition (o : Opts) : Condition rangeEnv o marksRoot marksType 1 markNode where
  has := nofun
  own := range_concurs o (type := some "integer") (a := some 1) (b := some 9) (by rintro x ⟨⟩; rfl)
    (by rintro x ⟨⟩; norm_num) (by rintro x ⟨⟩; norm_num)
  allOf := rfl
  condition := by
    rintro x ⟨⟩
    exact range_judged _ _ _
  thenN := by
    rintro x ⟨⟩
    exact range_concurs o (type := none) (a := some 7) (b := none) nofun (by rintro x ⟨⟩; norm_num) nofun
  elseN := by
    rintro x ⟨⟩
    exact range_concurs o (type := none) (a := none) (b := some 2) nofun nofun (by rintro x ⟨⟩; norm_num)
  names := marks_apart

theorem marks_ok (o : Opts) {d : Nat} {ts : List String} {m : SchemaNode}
    (h : Inside marksRoot d ts m) : PlaceOk rangeEnv o marksRoot d ts m := by
  have h100 : rangeEnv.maxParseDepth = 100 := rfl
  have hno : ∀ F : Prop, FP.exact = FP.binary64 → F := fun F hf =>
    absurd (congrFun (congrArg FP.rnd hf) (1 / 3)) (by decide +kernel)
  rcases marks_places h with ⟨rfl, rfl, rfl⟩ | ⟨rfl, rfl, rfl⟩ | ⟨rfl, rfl, rfl⟩
  · refine .plain ?_ (by rw [h100]; decide)
    exact {
      covered := ⟨rfl, rfl, rfl, rfl, rfl, rfl, rfl, rfl, nofun, rfl, rfl, rfl, rfl⟩
      allOf := rfl, anyOf := rfl, ref := nofun, definitions := nofun, defs := nofun
      enum := nofun, const := nofun
      types := ⟨by rintro t ⟨⟩ _; decide, by rintro t l ⟨⟩ ⟨⟩⟩
      object := {
        patterns := nofun
        names := by
          rintro p ⟨⟩
          refine ⟨by decide, fun k hk => ?_⟩
          have hk : k = "grade" ∨ k = "mark" := by simpa [keysKV] using hk
          rcases hk with rfl | rfl <;> exact ⟨by unfold PlainName; decide, short_not_invented (by decide)⟩
        requiredNames := by
          rintro l ⟨⟩ k hk
          have hk : k = "grade" ∨ k = "mark" := by simpa [keysKV] using hk
          rcases hk with rfl | rfl <;> exact short_not_invented (by decide)
        requiredDeclared := nofun, maximum := nofun, closedMinimum := nofun }
      array := ⟨nofun, nofun, nofun, fun _ => rfl, nofun, nofun⟩
      string := ⟨nofun, nofun⟩
      number := ⟨.inl rfl, ⟨nofun, nofun, nofun, nofun, nofun⟩, nofun, fun hf => hno _ hf⟩ }
  · exact .choice marksType 1 (grade_choice o) (by rw [h100]; decide) nofun nofun
  · exact .condition marksType 1 (mark_condition o) (by rw [h100]; decide)

/-- The value generated for it. -/
def marksValue : JVal := .obj [("grade", .num 1), ("mark", .num 1)]

/-- The schema parses without errors, and this value is generated without a diagnostic. -/
def marksRun : Bool :=
  match parseSchema rangeEnv 30 marksSchema with
  | .done (.ok (g, none) s) => s.errors.length = 0 &&
    match rootGenerate noteWorld {} (refEnv s) 40 g with
    | .ok v st => st.diags.length = 0 && JVal.jeq v marksValue
    | _ => false
  | _ => false

/-- The hypotheses of C56 are met by this schema and this run; the conclusion follows for it. -/
example : marksRun = true ∧
    ∃ v, JVal.jeq v marksValue = true ∧ Valid (patternMeaning rangeEnv) marksRoot marksRoot v := by
  have hrun : marksRun = true := by decide +kernel
  refine ⟨hrun, ?_⟩
  unfold marksRun at hrun
  split at hrun
  · rename_i g s hparse
    rw [Bool.and_eq_true] at hrun
    obtain ⟨h1, h2⟩ := hrun
    split at h2
    · rename_i v st hgen
      rw [Bool.and_eq_true] at h2
      refine ⟨v, h2.2, ?_⟩
      exact C56_generated_values_are_valid_partial rangeEnv 30 40 marksSchema marksRoot marks_decodes noteWorld {} rfl rfl
        (fun d ts m hm => marks_ok _ hm) g s hparse (by simpa using h1) v st hgen (by simpa using h2.1)
    · cases h2
  · cases hrun

/-! ## Why the names must differ

The code names the schemas that it hands to the validation library after their places, with `-`, `/`, `.` and other
characters replaced by `_`.  A name that is taken keeps its schema, so a choice can be checked against the alternatives of
another one. -/

/-- `{"type": "object", "required": ["a-b", "a_b"], "properties": {
  "a-b": {"type": "integer", "minimum": 1, "maximum": 9, "oneOf": [{"maximum": 5}, {"minimum": 3}]},
  "a_b": {"type": "integer", "minimum": 1, "maximum": 9, "oneOf": [{"minimum": 6}, {"minimum": 2}]}}}`. -/
def clashSchema : JVal := .obj [("type", .str "object"), ("required", .arr [.str "a-b", .str "a_b"]),
  ("properties", .obj [
    ("a-b", .obj [("type", .str "integer"), ("minimum", .num 1), ("maximum", .num 9),
      ("oneOf", .arr [.obj [("maximum", .num 5)], .obj [("minimum", .num 3)]])]),
    ("a_b", .obj [("type", .str "integer"), ("minimum", .num 1), ("maximum", .num 9),
      ("oneOf", .arr [.obj [("minimum", .num 6)], .obj [("minimum", .num 2)]])])])]

def clashNode : SchemaNode :=
  { emptyNode with
    type := some { single := "integer" }, minimum := some 1, maximum := some 9
    oneOf := some [rangeNode (some 6) none, rangeNode (some 2) none] }

def clashRoot : SchemaNode :=
  { emptyNode with
    type := some { single := "object" }, required := some ["a-b", "a_b"]
    properties := some [("a-b", gradeNode), ("a_b", clashNode)] }

/-- The schema parses without an error, with a validation library that judges every alternative correctly, and this
value is generated without a diagnostic. -/
def clashRun (v : JVal) : Bool :=
  match parseSchema rangeEnv 30 clashSchema with
  | .done (.ok (g, none) s) => s.errors.length = 0 &&
    match rootGenerate noteWorld {} (refEnv s) 40 g with
    | .ok x st => st.diags.length = 0 && JVal.jeq x v
    | _ => false
  | _ => false

set_option maxHeartbeats 4000000 in
/-- 6 fits both alternatives of `a_b`. -/
theorem C56_same_names_violation : ∃ root v, decodeNode clashSchema = some root ∧
    (∀ a b, Judged rangeEnv root (rangeNode a b)) ∧ clashRun v = true ∧ ¬ Valid (patternMeaning rangeEnv) root root v := by
  refine ⟨clashRoot, .obj [("a-b", .num 1), ("a_b", .num 6)], rfl, range_judged _, by decide +kernel, ?_⟩
  intro h
  cases h with
  | intro _ _ _ _ _ _ _ _ _ _ _ _ hp =>
    have h := hp _ _ "a_b" (.num 6) clashNode rfl rfl (by simp) rfl
    have hv : ∀ x, x ∈ [rangeNode (some 6) none, rangeNode (some 2) none] →
        ¬ Invalid (patternMeaning rangeEnv) clashRoot x (.num 6) := by
      intro x hx
      refine Valid.not_invalid ?_
      simp only [List.mem_cons, List.mem_nil_iff, or_false] at hx
      rcases hx with rfl | rfl
      · refine range_valid ?_
        rintro q ⟨⟩
        exact ⟨by rintro x ⟨⟩; norm_num, nofun⟩
      · refine range_valid ?_
        rintro q ⟨⟩
        exact ⟨by rintro x ⟨⟩; norm_num, nofun⟩
    cases h with
    | intro _ _ _ _ _ _ _ _ _ _ _ _ _ _ _ _ _ _ _ chosen _ _ hoth =>
      by_cases hc : chosen = 0
      · exact hv _ (by simp) (hoth _ _ 1 rfl rfl (by omega))
      · exact hv _ (by simp) (hoth _ _ 0 rfl rfl (by omega))

end Chaff
