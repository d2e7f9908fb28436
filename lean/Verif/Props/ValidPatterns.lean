import Verif.Props.Valid
/-!
# C56 with `patternProperties`

A schema with pattern properties that meets the conditions of C56 (`PatternsSupported`), and two that do not and for
which a value that is not valid is generated.
-/

namespace Chaff
open Comp

/-- What the patterns mean. -/
def markRx (p : List Char) : Option Rx :=
  bif p = "^x$".toList then some (.concat [.beginText, .literal [120], .endText])
  else bif p = "^y$".toList then some (.concat [.beginText, .literal [121], .endText])
  else bif p = "x".toList then some (.literal [120]) else none

/-- An environment in which the patterns `^x$`, `^y$` and `x` parse. -/
def markEnv : PEnv := { demoEnv with rxParse := markRx }

/-- A closed object with one declared name and two patterns. -/
def markSchema : JVal := .obj [("type", .str "object"),
  ("properties", .obj [("a", .obj [("type", .str "null")])]), ("required", .arr [.str "a"]),
  ("patternProperties", .obj [("^x$", .obj [("type", .str "boolean")]),
    ("^y$", .obj [("type", .str "array"), ("items", .obj [("$ref", .str "#/patternProperties/^x$")])])]),
  ("additionalProperties", .bool false)]

def markA : SchemaNode := { emptyNode with type := some { single := "null" } }
def markX : SchemaNode := { emptyNode with type := some { single := "boolean" } }
def markItem : SchemaNode := { emptyNode with ref := some "#/patternProperties/^x$" }
def markY : SchemaNode := { emptyNode with type := some { single := "array" }, items := some { node := some markItem, nodes := some [] } }

/-- The schema decoded. -/
def markRoot : SchemaNode :=
  { emptyNode with
    type := some { single := "object" }
    properties := some [("a", markA)]
    required := some ["a"]
    patternProperties := some [("^x$", markX), ("^y$", markY)]
    additionalProperties := some { isFalse := true } }

theorem mark_decodes : decodeNode markSchema = some markRoot := by rfl

/-- Every place in the schema. -/
theorem mark_places {d : Nat} {ts : List String} {m : SchemaNode} (h : Inside markRoot d ts m) :
    d ≤ 2 ∧ (m = markRoot ∧ d = 0 ∨ m = markY ∧ d = 1 ∨ m = markA ∨ m = markX ∨ m = markItem) := by
  refine Inside.places (P := fun d m => d ≤ 2 ∧ (m = markRoot ∧ d = 0 ∨ m = markY ∧ d = 1 ∨ m = markA ∨ m = markX ∨
    m = markItem)) (by simp) ?_ h
  intro d n m hn hm
  have e1 : markRoot.children = [markA, markX, markY] := rfl
  have e2 : markY.children = [markItem] := rfl
  have e3 : markA.children = [] := rfl
  have e4 : markX.children = [] := rfl
  have e5 : markItem.children = [] := rfl
  rcases hn.2 with ⟨rfl, rfl⟩ | ⟨rfl, rfl⟩ | rfl | rfl | rfl
  · rw [e1] at hm
    simp only [List.mem_cons, List.mem_nil_iff, or_false] at hm
    rcases hm with hm | hm | hm
    · exact ⟨by omega, .inr (.inr (.inl hm))⟩
    · exact ⟨by omega, .inr (.inr (.inr (.inl hm)))⟩
    · exact ⟨by omega, .inr (.inl ⟨hm, rfl⟩)⟩
  · rw [e2] at hm
    exact ⟨by omega, .inr (.inr (.inr (.inr (List.mem_singleton.1 hm))))⟩
  · rw [e3] at hm; cases hm
  · rw [e4] at hm; cases hm
  · rw [e5] at hm; cases hm

/-- A text that matches `^c$` is `c`. -/
theorem anchored_literal {a m b : List Char} {k : Nat} {ch : Char} (hk : k = ch.toNat) {r : Rx}
    (hr : r = .concat [.beginText, .literal [k], .endText]) (h : Matches a r m b) : a ++ m ++ b = [ch] := by
  cases h with
  | concatCons h1 h2 =>
    injection hr with hr
    injection hr with hr1 hr2
    subst hr1
    subst hr2
    cases h1
    generalize hr : Rx.concat [.literal [k], .endText] = r at h2
    cases h2 with
    | concatCons h3 h4 =>
      injection hr with hr
      injection hr with hr1 hr2
      subst hr1
      subst hr2
      generalize hr : Rx.concat [.endText] = r at h4
      cases h4 with
      | concatCons h5 h6 =>
        injection hr with hr
        injection hr with hr1 hr2
        subst hr1
        subst hr2
        obtain ⟨pp, h6⟩ : ∃ pp, Matches pp (.concat []) _ _ := ⟨_, h6⟩
        generalize hr : Rx.concat [] = r at h6
        cases h6 with
        | concatNil =>
          generalize hr : Rx.endText = r at h5
          generalize hq : [] ++ b = q at h5
          cases h5 with
          | endText =>
            generalize hr : Rx.literal [k] = r at h3
            cases h3 with
            | literal =>
              injection hr with hr
              rename_i cs _ _
              cases cs with
              | nil => cases hr
              | cons x cs =>
                simp only [List.map_cons] at hr
                injection hr with hx ht
                have : cs = [] := by simpa using ht.symm
                subst this
                have hxc : x = ch := Char.ext (UInt32.toNat_inj.1 (by rw [hk] at hx; exact hx.symm))
                subst hxc
                simp_all
            | _ => cases hr
          | _ => cases hr
        | _ => cases hr
      | _ => cases hr
    | _ => cases hr
  | _ => cases hr

theorem mark_x {t : String} (h : patternMeaning markEnv "^x$" t) : t = "x" := by
  obtain ⟨r, hr, a, m, b, ht, hm⟩ := h
  injection (show some _ = some r from hr) with hr
  subst hr
  have := anchored_literal (ch := 'x') rfl rfl hm
  rw [← ht] at this
  exact String.toList_inj.1 this

theorem mark_y {t : String} (h : patternMeaning markEnv "^y$" t) : t = "y" := by
  obtain ⟨r, hr, a, m, b, ht, hm⟩ := h
  injection (show some _ = some r from hr) with hr
  subst hr
  have := anchored_literal (ch := 'y') rfl rfl hm
  rw [← ht] at this
  exact String.toList_inj.1 this

theorem mark_short {q t : String} (hq : q ∈ keysKV [("^x$", markX), ("^y$", markY)]) (h : patternMeaning markEnv q t) :
    q = "^x$" ∧ t = "x" ∨ q = "^y$" ∧ t = "y" := by
  simp only [keysKV, List.map_cons, List.map_nil, List.mem_cons, List.mem_nil_iff, or_false] at hq
  rcases hq with rfl | rfl
  · exact .inl ⟨rfl, mark_x h⟩
  · exact .inr ⟨rfl, mark_y h⟩

theorem mark_supported (o : Opts) (ho : o.defaultObjectMinProperties = 0) {d : Nat} {ts : List String} {m : SchemaNode}
    (h : Inside markRoot d ts m) : Supported markEnv o markRoot m := by
  have hp := (mark_places h).2
  have hnum : ∀ n : SchemaNode, n.multipleOf = none → n.exclusiveMinimum = none → n.exclusiveMaximum = none →
      n.minimum = none → n.maximum = none → NumberSupported FP.exact n := by
    intro n h1 h2 h3 h4 h5
    refine ⟨.inl rfl, ⟨?_, ?_, ?_, ?_, ?_⟩, ?_, ?_⟩
    · intro x hx; rw [show (numKeywords n).minimum = n.minimum from rfl, h4] at hx; cases hx
    · intro x hx; rw [show (numKeywords n).maximum = n.maximum from rfl, h5] at hx; cases hx
    · intro x hx; rw [show (numKeywords n).exclusiveMinimum = n.exclusiveMinimum from rfl, h2] at hx; cases hx
    · intro x hx; rw [show (numKeywords n).exclusiveMaximum = n.exclusiveMaximum from rfl, h3] at hx; cases hx
    · intro x hx; rw [show (numKeywords n).multipleOf = n.multipleOf from rfl, h1] at hx; cases hx
    · intro _ _ x hx; rw [h1] at hx; cases hx
    · intro hf
      exact absurd (congrFun (congrArg FP.rnd hf) (1 / 3)) (by decide +kernel)
  have hcov : Covered m := by
    rcases hp with ⟨rfl, _⟩ | ⟨rfl, _⟩ | rfl | rfl | rfl <;> 
      exact ⟨rfl, rfl, rfl, rfl, rfl, rfl, rfl, rfl, (by intro x hx; cases hx; try rfl), rfl, rfl, rfl, rfl⟩
  have hpat : ∀ q ∈ keysKV [("^x$", markX), ("^y$", markY)], ∀ k, k ≠ "x" → k ≠ "y" → ¬ patternMeaning markEnv q k := by
    intro q hq k h1 h2 hk
    rcases mark_short hq hk with ⟨_, h⟩ | ⟨_, h⟩
    · exact h1 h
    · exact h2 h
  rcases hp with ⟨rfl, _⟩ | ⟨rfl, _⟩ | rfl | rfl | rfl
  · exact {
      covered := hcov, allOf := rfl, anyOf := rfl, ref := nofun, definitions := nofun, defs := nofun
      enum := nofun, const := nofun
      types := ⟨by intro t ht _; cases ht; decide, by intro t l ht hl; cases ht; cases hl⟩
      object := {
        patterns := by
          intro p hp
          cases hp
          refine ⟨⟨by decide, ?_⟩, ?_, ?_, ?_, ?_, fun _ _ _ => ⟨rfl, ho⟩⟩
          · intro q hq
            have hq : q = "^x$" ∨ q = "^y$" := by simpa [keysKV] using hq
            rcases hq with rfl | rfl
            · exact ⟨by unfold PlainName; decide, by decide, .inr (by decide), _, rfl,
                .anchors [.beginText] [.literal [120]] [.endText] (by simp) ⟨trivial, trivial⟩ (by simp),
                trivial, (by intro n hn; cases hn with | head => decide | tail _ h => cases h), trivial, trivial⟩
            · exact ⟨by unfold PlainName; decide, by decide, .inr (by decide), _, rfl,
                .anchors [.beginText] [.literal [121]] [.endText] (by simp) ⟨trivial, trivial⟩ (by simp),
                trivial, (by intro n hn; cases hn with | head => decide | tail _ h => cases h), trivial, trivial⟩
          · intro q hq q' hq' t h h'
            rcases mark_short hq h with ⟨rfl, rfl⟩ | ⟨rfl, rfl⟩ <;>
              rcases mark_short hq' h' with ⟨rfl, hh⟩ | ⟨rfl, hh⟩ <;>
              first | rfl | exact absurd hh (by decide)
          · intro q hq k hk
            rw [show k = "a" by simpa [keysKV, markRoot] using hk]
            exact hpat q hq _ (by decide) (by decide)
          · intro q hq k hk
            rw [show k = "a" by simpa [markRoot] using hk]
            exact hpat q hq _ (by decide) (by decide)
          · intro q hq k hk
            refine hpat q hq k ?_ ?_
            · rintro rfl; exact short_not_invented (by decide) hk
            · rintro rfl; exact short_not_invented (by decide) hk
        names := by
          intro p hp
          cases hp
          refine ⟨by decide, ?_⟩
          intro k hk
          rw [show k = "a" by simpa [keysKV] using hk]
          exact ⟨by unfold PlainName; decide, short_not_invented (by decide)⟩
        requiredNames := by
          intro l hl
          cases hl
          intro k hk
          rw [show k = "a" by simpa using hk]
          exact short_not_invented (by decide)
        requiredDeclared := by
          intro d l _ _ hl k hk
          cases hl
          exact hk
        maximum := nofun, closedMinimum := nofun }
      array := ⟨nofun, nofun, nofun, fun _ => rfl, nofun, nofun⟩
      string := ⟨nofun, nofun⟩
      number := hnum _ rfl rfl rfl rfl rfl }
  · exact {
      covered := hcov, allOf := rfl, anyOf := rfl, ref := nofun, definitions := nofun, defs := nofun, enum := nofun
      const := nofun
      types := ⟨by intro t ht _; cases ht; decide, by intro t l ht hl; cases ht; cases hl⟩
      object := ⟨nofun, nofun, nofun, nofun, nofun, nofun⟩
      array := {
        maximum := nofun, closedMinimum := nofun, minimum := nofun, containsAlone := fun h => absurd rfl h
        minContains := nofun, unique := nofun }
      string := ⟨nofun, nofun⟩
      number := hnum _ rfl rfl rfl rfl rfl }
  · exact {
      covered := hcov, allOf := rfl, anyOf := rfl, ref := nofun, definitions := nofun, defs := nofun, enum := nofun
      const := nofun
      types := ⟨by intro t ht _; cases ht; decide, by intro t l ht hl; cases ht; cases hl⟩
      object := ⟨nofun, nofun, nofun, nofun, nofun, nofun⟩
      array := ⟨nofun, nofun, nofun, fun _ => rfl, nofun, nofun⟩
      string := ⟨nofun, nofun⟩
      number := hnum _ rfl rfl rfl rfl rfl }
  · exact {
      covered := hcov, allOf := rfl, anyOf := rfl, ref := nofun, definitions := nofun, defs := nofun, enum := nofun
      const := nofun
      types := ⟨by intro t ht _; cases ht; decide, by intro t l ht hl; cases ht; cases hl⟩
      object := ⟨nofun, nofun, nofun, nofun, nofun, nofun⟩
      array := ⟨nofun, nofun, nofun, fun _ => rfl, nofun, nofun⟩
      string := ⟨nofun, nofun⟩
      number := hnum _ rfl rfl rfl rfl rfl }
  · exact {
      covered := hcov, allOf := rfl, anyOf := rfl
      ref := by
        intro r hr
        cases hr
        refine ⟨rfl, markX, 1, ["patternProperties", "^x$"], ?_, by decide +kernel, .named .root (.patternProperties _ rfl rfl)⟩
        unfold PlainTokens
        decide
      definitions := nofun, defs := nofun, enum := nofun, const := nofun, types := ⟨nofun, nofun⟩
      object := ⟨nofun, nofun, nofun, nofun, nofun, nofun⟩
      array := ⟨nofun, nofun, nofun, fun _ => rfl, nofun, nofun⟩
      string := ⟨nofun, nofun⟩
      number := hnum _ rfl rfl rfl rfl rfl }

/-- The value generated. -/
def markValue : JVal := .obj [("a", .null),
  ("y", .arr [.bool false, .bool true, .bool false, .bool true, .bool false, .bool true, .bool false]), ("x", .bool false)]

/-- The schema parses without errors, and this value is generated without a diagnostic. -/
def markRun (schema v : JVal) : Bool :=
  match parseSchema markEnv 20 schema with
  | .done (.ok (g, none) s) => s.errors.length = 0 &&
    match rootGenerate demoWorld {} (refEnv s) 40 g with
    | .ok v' st => st.diags.length = 0 && JVal.jeq v' v
    | _ => false
  | _ => false

/-- The hypotheses of C56 are met by this schema and this run; the conclusion follows for it. -/
example : markRun markSchema markValue = true ∧
    ∃ v, JVal.jeq v markValue = true ∧ Valid (patternMeaning markEnv) markRoot markRoot v := by
  have hrun : markRun markSchema markValue = true := by decide +kernel
  refine ⟨hrun, ?_⟩
  unfold markRun at hrun
  split at hrun
  · rename_i g s hparse
    rw [Bool.and_eq_true] at hrun
    obtain ⟨h1, h2⟩ := hrun
    split at h2
    · rename_i v st hgen
      rw [Bool.and_eq_true] at h2
      refine ⟨v, h2.2, ?_⟩
      refine C56_generated_values_are_valid_partial markEnv 20 40 markSchema markRoot mark_decodes demoWorld {} rfl rfl ?_ g s
        hparse (by simpa using h1) v st hgen (by simpa using h2.1)
      intro d ts m hm
      refine .plain (mark_supported _ (by decide) hm) ?_
      have := (mark_places hm).1
      have h100 : markEnv.maxParseDepth = 100 := rfl
      rw [h100]
      omega
    · cases h2
  · cases hrun

/-! ### What the conditions exclude -/

/-- The text `x` matches the pattern `^x$`. -/
theorem mark_anchored_x : patternMeaning markEnv "^x$" "x" :=
  ⟨_, rfl, [], ['x'], [], rfl, .concatCons (u := []) (v := ['x']) .beginText
    (.concatCons (u := ['x']) (v := []) (.literal ['x']) (.concatCons (u := []) (v := []) .endText .concatNil))⟩

/-- `{"type": "object", "properties": {"x": {"enum": [false]}}, "patternProperties": {"x": {"type": "boolean"}},
"required": ["x"], "additionalProperties": false}`: the value of a declared name can be replaced by one from the schema of
a pattern that the name matches. -/
def declaredAndPattern : JVal := .obj [("type", .str "object"),
  ("properties", .obj [("x", .obj [("enum", .arr [.bool false])])]), ("required", .arr [.str "x"]),
  ("patternProperties", .obj [("x", .obj [("type", .str "boolean")])]), ("additionalProperties", .bool false)]

theorem C56_pattern_on_declared_violation : ∃ root v, decodeNode declaredAndPattern = some root ∧
    markRun declaredAndPattern v = true ∧ ¬ Valid (patternMeaning markEnv) root root v := by
  refine ⟨_, .obj [("x", .bool true)], rfl, by decide +kernel, ?_⟩
  rintro ⟨_, _, _, _, _, _, hl, _, _, _, _, _, hprop, _⟩
  obtain ⟨_, _, _, _, _, _, hl⟩ := hprop _ _ "x" (.bool true) { emptyNode with enum := some [.bool false] } rfl rfl
    (List.mem_singleton.2 rfl) rfl
  obtain ⟨y, hy, he⟩ := hl.enum _ rfl
  rw [List.mem_singleton.1 hy] at he
  exact absurd (he.jeq (.bool _)) (by decide)

/-- `{"type": "object", "patternProperties": {"x": {"type": "boolean"}, "^x$": {"type": "null"}},
"additionalProperties": false}`: a name that matches two patterns gets a value from the schema of one of them. -/
def twoPatterns : JVal := .obj [("type", .str "object"),
  ("patternProperties", .obj [("x", .obj [("type", .str "boolean")]), ("^x$", .obj [("type", .str "null")])]),
  ("additionalProperties", .bool false)]

theorem C56_overlapping_patterns_violation : ∃ root v, decodeNode twoPatterns = some root ∧
    markRun twoPatterns v = true ∧ ¬ Valid (patternMeaning markEnv) root root v := by
  refine ⟨_, .obj [("x", .bool false)], rfl, by decide +kernel, ?_⟩
  rintro ⟨_, _, _, _, _, _, hl, _, _, _, _, _, _, hpat, _⟩
  obtain ⟨_, _, _, _, _, _, hl⟩ := hpat _ _ "x" (.bool false) "^x$" { emptyNode with type := some { single := "null" } } rfl
    rfl (List.mem_singleton.2 rfl) (List.mem_cons_of_mem _ (List.mem_singleton.2 rfl)) mark_anchored_x
  have ht : HasType "null" (.bool false) := hl.type _ rfl
  have key : ∀ t v, HasType t v → t = "null" → v ≠ .bool false := by
    intro t v h
    cases h <;> intro ht <;> first | (exact absurd ht (by decide)) | nofun
  exact key _ _ ht rfl rfl

end Chaff
