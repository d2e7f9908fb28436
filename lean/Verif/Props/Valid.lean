import Verif.Lemmas.Region
import Verif.Lemmas.Schema
import Verif.Props.Types
/-!
# C56: generated values validate against the schema

The meaning of a schema is `Valid` (Spec/Valid.lean), written keyword by keyword after the JSON Schema vocabulary and
independent of the generators.  The theorem covers the schemas that are, at every place, `Supported` (no combinators) or
a `Combination` (`allOf` and `anyOf` of schemas, or of references to schemas, that agree on types), a `Choice` (`oneOf`), a
`Condition` (`if`, `then`, `else`) or an `Exclusion` (`not` with values, a pattern or required names beside other keywords),
or that have nothing but `anyOf` or nothing but `oneOf`, with alternatives of any types (`FreeOk`).
For choices and conditions the code asks a validation library, which is assumed to judge the alternatives and the condition
correctly (`Judged`).  What the conditions exclude is either not covered by the theorem (`oneOf`, `if` and `not` beside
`allOf` or `anyOf`, other negated schemas, `patternProperties` and deeper references inside combinations, references to
other documents) or a case in which the code generates values that are not valid; examples of the latter are below and in
`Verif.Props.ValidChoice`.
-/

namespace Chaff
open Comp

/-- C56 (partial: the schemas of `PlaceOk`).  If the schema decodes and every place in it is supported, or a combination,
a choice or a condition of agreeing schemas or an exclusion, and not too deep, the parse reports no error, and the
generation returns without a diagnostic, then the value is valid against the schema.  This holds for every such schema of
any size and nesting, every option record, every random stream and every environment whose arithmetic is that of the
parser. -/
theorem C56_generated_values_are_valid_partial (c : PEnv) (fuel gfuel : Nat) (schema : JVal) (root : SchemaNode)
    (hroot : decodeNode schema = some root) (w : World) (o : Opts) (hfp : w.fp = c.fp) (hpl : w.plat = c.plat)
    (hsup : ∀ d ts m, Inside root d ts m → PlaceOk c (withGeneratorOptionsDefaults o) root d ts m)
    (g : Gen) (s : PSt) (hparse : parseSchema c fuel schema = .done (.ok (g, none) s)) (herr : s.errors = [])
    (v : JVal) (st : GSt) (hgen : rootGenerate w o (refEnv s) gfuel g = .ok v st) (hquiet : st.diags = []) :
    Valid (patternMeaning c) root root v := by
  obtain ⟨pid, hc, henv⟩ := parse_compiled hroot hsup hparse herr
  exact (compiled_valid (ctx := { w := w, o := withGeneratorOptionsDefaults o, env := refEnv s }) hfp hpl
    (visited_region hsup) (fun path g' hg => henv path g' hg) gfuel fuel 0 [] root g {} st v (.inl .root) hc hgen
    hquiet).2

/-! ## The hypotheses are met

A schema with a recursive reference, a reference to a definition, an array, an enumeration and bounds. -/

/-- The schema as JSON. -/
def noteSchema : JVal := .obj [("type", .str "object"),
  ("properties", .obj [("name", .obj [("type", .str "string"), ("minLength", .num 1), ("maxLength", .num 5)]),
    ("size", .obj [("type", .str "integer"), ("minimum", .num 1), ("maximum", .num 9)]),
    ("tags", .obj [("type", .str "array"), ("items", .obj [("$ref", .str "#/$defs/tag")]), ("maxItems", .num 3)]),
    ("next", .obj [("$ref", .str "#")])]),
  ("required", .arr [.str "name", .str "size", .str "tags"]),
  ("$defs", .obj [("tag", .obj [("enum", .arr [.str "a", .str "b"])])])]

/-- `{"type": "string", "minLength": 1, "maxLength": 5}`. -/
def noteName : SchemaNode :=
  { emptyNode with type := some { single := "string" }, minLength := some 1, maxLength := some 5 }

/-- `{"type": "integer", "minimum": 1, "maximum": 9}`. -/
def noteSize : SchemaNode :=
  { emptyNode with type := some { single := "integer" }, minimum := some 1, maximum := some 9 }

/-- `{"$ref": "#/$defs/tag"}`. -/
def noteTagRef : SchemaNode := { emptyNode with ref := some "#/$defs/tag" }

/-- `{"$ref": "#"}`. -/
def noteNext : SchemaNode := { emptyNode with ref := some "#" }

/-- `{"type": "array", "items": {"$ref": "#/$defs/tag"}, "maxItems": 3}`. -/
def noteTags : SchemaNode :=
  { emptyNode with type := some { single := "array" }, items := some { node := some noteTagRef, nodes := some [] }, maxItems := some 3 }

/-- `{"enum": ["a", "b"]}`. -/
def noteTag : SchemaNode := { emptyNode with enum := some [.str "a", .str "b"] }

/-- The whole schema, decoded. -/
def noteRoot : SchemaNode :=
  { emptyNode with
    type := some { single := "object" }
    properties := some [("name", noteName), ("size", noteSize), ("tags", noteTags), ("next", noteNext)]
    required := some ["name", "size", "tags"]
    defs := some [("tag", noteTag)] }

set_option maxHeartbeats 4000000 in
theorem note_decodes : decodeNode noteSchema = some noteRoot := by rfl

theorem HasNamed.child {n m : SchemaNode} {name kw : String} (h : HasNamed n name m kw) : m ∈ n.children := by
  have key : ∀ p : List (String × SchemaNode), lookupKV p name = some m → m ∈ p.map Prod.snd :=
    fun p hl => List.mem_map.2 ⟨_, lookupKV_mem hl, rfl⟩
  unfold SchemaNode.children
  simp only [List.mem_append]
  cases h with
  | properties p h hl => rw [h]; have := key p hl; simp only [Option.getD_some]; tauto
  | patternProperties p h hl => rw [h]; have := key p hl; simp only [Option.getD_some]; tauto
  | definitions p h hl => rw [h]; have := key p hl; simp only [Option.getD_some]; tauto
  | defs p h hl => rw [h]; have := key p hl; simp only [Option.getD_some]; tauto

theorem HasSub.child {n m : SchemaNode} {kw : String} (h : HasSub n m kw) : m ∈ n.children := by
  unfold SchemaNode.children
  simp only [List.mem_append]
  cases h <;> simp_all

/-- Places are reached by going from a schema to its parts. -/
theorem Inside.places {root : SchemaNode} {P : Nat → SchemaNode → Prop} (h0 : P 0 root)
    (hs : ∀ d n m, P d n → m ∈ n.children → P (d + 1) m) {d : Nat} {ts : List String} {m : SchemaNode}
    (h : Inside root d ts m) : P d m := by
  induction h with
  | root => exact h0
  | named _ hn ih => exact hs _ _ _ ih hn.child
  | sub _ hn _ ih => exact hs _ _ _ ih hn.child
  | items _ hi hd hn ih =>
    refine hs _ _ _ ih ?_
    unfold SchemaNode.children
    simp [hi, hn]
  | prefixItems _ hp hi ih =>
    refine hs _ _ _ ih ?_
    unfold SchemaNode.children
    simp [hp, List.mem_of_getElem? hi]

/-- Every place in the schema. -/
theorem note_places {d : Nat} {ts : List String} {m : SchemaNode} (h : Inside noteRoot d ts m) :
    d ≤ 2 ∧ (m = noteRoot ∧ d = 0 ∨ m = noteTags ∧ d = 1 ∨ m = noteName ∨ m = noteSize ∨ m = noteTagRef ∨ m = noteNext ∨
      m = noteTag) := by
  refine Inside.places (P := fun d m => d ≤ 2 ∧ (m = noteRoot ∧ d = 0 ∨ m = noteTags ∧ d = 1 ∨ m = noteName ∨ m = noteSize ∨
    m = noteTagRef ∨ m = noteNext ∨ m = noteTag)) (by simp) ?_ h
  intro d n m hn hm
  have e1 : noteRoot.children = [noteName, noteSize, noteTags, noteNext, noteTag] := rfl
  have e2 : noteTags.children = [noteTagRef] := rfl
  have e3 : noteName.children = [] := rfl
  have e4 : noteSize.children = [] := rfl
  have e5 : noteTagRef.children = [] := rfl
  have e6 : noteNext.children = [] := rfl
  have e7 : noteTag.children = [] := rfl
  rcases hn.2 with ⟨rfl, rfl⟩ | ⟨rfl, rfl⟩ | rfl | rfl | rfl | rfl | rfl
  · rw [e1] at hm
    simp only [List.mem_cons, List.mem_nil_iff, or_false] at hm
    rcases hm with hm | hm | hm | hm | hm
    · exact ⟨by omega, .inr (.inr (.inl hm))⟩
    · exact ⟨by omega, .inr (.inr (.inr (.inl hm)))⟩
    · exact ⟨by omega, .inr (.inl ⟨hm, rfl⟩)⟩
    · exact ⟨by omega, .inr (.inr (.inr (.inr (.inr (.inl hm)))))⟩
    · exact ⟨by omega, .inr (.inr (.inr (.inr (.inr (.inr hm)))))⟩
  · rw [e2] at hm
    exact ⟨by omega, .inr (.inr (.inr (.inr (.inl (List.mem_singleton.1 hm)))))⟩
  · rw [e3] at hm; cases hm
  · rw [e4] at hm; cases hm
  · rw [e5] at hm; cases hm
  · rw [e6] at hm; cases hm
  · rw [e7] at hm; cases hm

theorem note_covered {m : SchemaNode} (h : m = noteRoot ∨ m = noteTags ∨ m = noteName ∨ m = noteSize ∨ m = noteTagRef ∨
    m = noteNext ∨ m = noteTag) : Covered m := by
  rcases h with rfl | rfl | rfl | rfl | rfl | rfl | rfl <;>
    exact ⟨rfl, rfl, rfl, rfl, rfl, rfl, rfl, rfl, (by intro x hx; cases hx; try rfl), rfl, rfl, rfl, rfl⟩

/-- No made-up name has fewer than nine letters. -/
theorem short_not_invented {k : String} (h : k.toList.length < 9) : ¬ Invented k := by
  rintro ⟨i, hi⟩
  have key : ∀ p : String, 9 ≤ p.toList.length → k = s!"{p}{i}" → False := by
    rintro p hp rfl
    have : (s!"{p}{i}").toList = p.toList ++ (toString i).toList := by
      show (p ++ toString i).toList = _
      rw [String.toList_append]
    rw [this, List.length_append] at h
    omega
  rcases hi with hi | hi | hi
  · exact key "min_filler_" (by decide) hi
  · exact key "additional_" (by decide) hi
  · exact key "fallback_" (by decide) hi

theorem note_tag_refers : Refers noteRoot "#/$defs/tag" noteTag := by
  refine ⟨1, ["$defs", "tag"], ?_, by decide, .named .root (.defs _ rfl rfl)⟩
  unfold PlainTokens
  decide

/-- Keywords that are absent ask for nothing: a schema whose other keywords are fine is supported. -/
theorem note_supported (o : Opts) (ho : o.defaultArrayMinItems ≤ 3) {d : Nat} {ts : List String} {m : SchemaNode}
    (h : Inside noteRoot d ts m) : Supported demoEnv o noteRoot m := by
  have hp := (note_places h).2
  have hcov : Covered m := note_covered (by tauto)
  have hnum : ∀ n : SchemaNode, n.multipleOf = none → n.exclusiveMinimum = none → n.exclusiveMaximum = none →
      (∀ x, n.minimum = some x → x = 1) → (∀ x, n.maximum = some x → x = 9) → NumberSupported FP.exact n := by
    intro n h1 h2 h3 h4 h5
    refine ⟨.inl rfl, ⟨?_, ?_, ?_, ?_, ?_⟩, ?_, ?_⟩
    · intro x hx; rw [h4 x hx]; norm_num
    · intro x hx; rw [h5 x hx]; norm_num
    · intro x hx; rw [show (numKeywords n).exclusiveMinimum = n.exclusiveMinimum from rfl, h2] at hx; cases hx
    · intro x hx; rw [show (numKeywords n).exclusiveMaximum = n.exclusiveMaximum from rfl, h3] at hx; cases hx
    · intro x hx; rw [show (numKeywords n).multipleOf = n.multipleOf from rfl, h1] at hx; cases hx
    · intro _ _ x hx; rw [h1] at hx; cases hx
    · intro hf
      exact absurd (congrFun (congrArg FP.rnd hf) (1 / 3)) (by decide +kernel)
  rcases hp with ⟨rfl, _⟩ | ⟨rfl, _⟩ | rfl | rfl | rfl | rfl | rfl
  · exact {
      covered := hcov, allOf := rfl, anyOf := rfl, ref := nofun, definitions := nofun
      defs := by
        intro p hp
        cases hp
        refine ⟨by decide, ?_⟩
        intro k hk
        rw [show k = "tag" by simpa [keysKV] using hk]
        unfold PlainName
        decide
      enum := nofun, const := nofun
      types := ⟨by intro t ht _; cases ht; decide, by intro t l ht hl; cases ht; cases hl⟩
      object := {
        patterns := nofun
        names := by
          intro p hp
          cases hp
          refine ⟨by decide, ?_⟩
          intro k hk
          have hk : k = "name" ∨ k = "size" ∨ k = "tags" ∨ k = "next" := by simpa [keysKV] using hk
          rcases hk with rfl | rfl | rfl | rfl <;>
            exact ⟨by unfold PlainName; decide, short_not_invented (by decide)⟩
        requiredNames := by
          intro l hl
          cases hl
          intro k hk
          have hk : k = "name" ∨ k = "size" ∨ k = "tags" := by simpa using hk
          rcases hk with rfl | rfl | rfl <;> exact short_not_invented (by decide)
        requiredDeclared := nofun, maximum := nofun, closedMinimum := nofun }
      array := ⟨nofun, nofun, nofun, fun _ => rfl, nofun, nofun⟩
      string := ⟨nofun, nofun⟩
      number := hnum _ rfl rfl rfl nofun nofun }
  · exact {
      covered := hcov, allOf := rfl, anyOf := rfl, ref := nofun, definitions := nofun, defs := nofun, enum := nofun
      const := nofun
      types := ⟨by intro t ht _; cases ht; decide, by intro t l ht hl; cases ht; cases hl⟩
      object := ⟨nofun, nofun, nofun, nofun, nofun, nofun⟩
      array := {
        maximum := by intro k hk; cases hk; exact ⟨by decide, fun _ => ho⟩
        closedMinimum := nofun, minimum := nofun, containsAlone := fun h => absurd rfl h, minContains := nofun
        unique := nofun }
      string := ⟨nofun, nofun⟩
      number := hnum _ rfl rfl rfl nofun nofun }
  · exact {
      covered := hcov, allOf := rfl, anyOf := rfl, ref := nofun, definitions := nofun, defs := nofun, enum := nofun
      const := nofun
      types := ⟨by intro t ht _; cases ht; decide, by intro t l ht hl; cases ht; cases hl⟩
      object := ⟨nofun, nofun, nofun, nofun, nofun, nofun⟩
      array := ⟨nofun, nofun, nofun, fun _ => rfl, nofun, nofun⟩
      string := ⟨by intro k hk; cases hk; decide, nofun⟩
      number := hnum _ rfl rfl rfl nofun nofun }
  · exact {
      covered := hcov, allOf := rfl, anyOf := rfl, ref := nofun, definitions := nofun, defs := nofun, enum := nofun
      const := nofun
      types := ⟨by intro t ht _; cases ht; decide, by intro t l ht hl; cases ht; cases hl⟩
      object := ⟨nofun, nofun, nofun, nofun, nofun, nofun⟩
      array := ⟨nofun, nofun, nofun, fun _ => rfl, nofun, nofun⟩
      string := ⟨nofun, nofun⟩
      number := hnum _ rfl rfl rfl (by intro x hx; cases hx; rfl) (by intro x hx; cases hx; rfl) }
  · exact {
      covered := hcov, allOf := rfl, anyOf := rfl
      ref := by intro r hr; cases hr; exact ⟨rfl, _, note_tag_refers⟩
      definitions := nofun, defs := nofun, enum := nofun, const := nofun, types := ⟨nofun, nofun⟩
      object := ⟨nofun, nofun, nofun, nofun, nofun, nofun⟩
      array := ⟨nofun, nofun, nofun, fun _ => rfl, nofun, nofun⟩
      string := ⟨nofun, nofun⟩
      number := hnum _ rfl rfl rfl nofun nofun }
  · exact {
      covered := hcov, allOf := rfl, anyOf := rfl
      ref := by intro r hr; cases hr; exact ⟨rfl, noteRoot, 0, [], nofun, rfl, .root⟩
      definitions := nofun, defs := nofun, enum := nofun, const := nofun, types := ⟨nofun, nofun⟩
      object := ⟨nofun, nofun, nofun, nofun, nofun, nofun⟩
      array := ⟨nofun, nofun, nofun, fun _ => rfl, nofun, nofun⟩
      string := ⟨nofun, nofun⟩
      number := hnum _ rfl rfl rfl nofun nofun }
  · exact {
      covered := hcov, allOf := rfl, anyOf := rfl, ref := nofun, definitions := nofun, defs := nofun
      enum := by
        intro l hl
        cases hl
        refine ⟨by simp, ?_⟩
        intro x hx
        have hstr : ∃ t, x = .str t := by
          simp only [List.mem_cons, List.mem_nil_iff, or_false] at hx
          rcases hx with rfl | rfl <;> exact ⟨_, rfl⟩
        obtain ⟨t, rfl⟩ := hstr
        refine ⟨.str t, .basic _ _ noteTag noteTag [] hcov ?_ nofun nofun nofun nofun nofun nofun nofun nofun nofun nofun
          nofun nofun⟩
        exact ⟨nofun, (by intro l hl; cases hl; exact ⟨_, hx, .refl _⟩), nofun, nofun, nofun, nofun, nofun, nofun, nofun, nofun, nofun, nofun,
          nofun, nofun, nofun⟩
      const := nofun, types := ⟨nofun, nofun⟩
      object := ⟨nofun, nofun, nofun, nofun, nofun, nofun⟩
      array := ⟨nofun, nofun, nofun, fun _ => rfl, nofun, nofun⟩
      string := ⟨nofun, nofun⟩
      number := hnum _ rfl rfl rfl nofun nofun }

/-- A random stream. -/
def noteWorld : World :=
  { demoWorld with seeded := fun i => i * 4 + (i * i) % 5, ambient := fun i => i * 4 + (i * i) % 7 }

/-- The value generated with it. -/
def noteValue : JVal := .obj [("name", .str "Lorem"), ("size", .num 1), ("tags", .arr [.str "a", .str "a"]),
  ("next", .obj [("name", .str "Lorem"), ("size", .num 1), ("tags", .arr [.str "a"])])]

/-- The schema parses without errors, and this value is generated without a diagnostic. -/
def noteRun : Bool :=
  match parseSchema demoEnv 20 noteSchema with
  | .done (.ok (g, none) s) => s.errors.length = 0 &&
    match rootGenerate noteWorld {} (refEnv s) 40 g with
    | .ok v st => st.diags.length = 0 && JVal.jeq v noteValue
    | _ => false
  | _ => false

/-- The hypotheses of C56 are met by this schema and this run; the conclusion follows for it. -/
example : noteRun = true ∧ ∃ v, JVal.jeq v noteValue = true ∧ Valid (patternMeaning demoEnv) noteRoot noteRoot v := by
  have hrun : noteRun = true := by decide +kernel
  refine ⟨hrun, ?_⟩
  unfold noteRun at hrun
  split at hrun
  · rename_i g s hparse
    rw [Bool.and_eq_true] at hrun
    obtain ⟨h1, h2⟩ := hrun
    split at h2
    · rename_i v st hgen
      rw [Bool.and_eq_true] at h2
      refine ⟨v, h2.2, ?_⟩
      refine C56_generated_values_are_valid_partial demoEnv 20 40 noteSchema noteRoot note_decodes noteWorld {} rfl rfl ?_ g s
        hparse (by simpa using h1) v st hgen (by simpa using h2.1)
      intro d ts m hm
      refine .plain (note_supported _ (by decide) hm) ?_
      have := (note_places hm).1
      have h100 : demoEnv.maxParseDepth = 100 := rfl
      rw [h100]
      omega
    · cases h2
  · cases hrun

/-! ### With `allOf` and `anyOf`

A schema that refers to a definition which combines two object schemas with `allOf`, gives two alternatives with `anyOf`,
and has another `allOf` below a property. -/

/-- The schema as JSON. -/
def personSchema : JVal := .obj [("type", .str "object"),
  ("properties", .obj [("who", .obj [("$ref", .str "#/$defs/person")])]), ("required", .arr [.str "who"]),
  ("$defs", .obj [("person", .obj [
    ("allOf", .arr [
      .obj [("type", .str "object"), ("properties", .obj [("name", .obj [("type", .str "string"), ("minLength", .num 1)])]),
        ("required", .arr [.str "name"])],
      .obj [("properties", .obj [("name", .obj [("maxLength", .num 5)]), ("tags", .obj [("type", .str "array"),
        ("items", .obj [("allOf", .arr [.obj [("minimum", .num 1)], .obj [("type", .str "integer"), ("maximum", .num 9)]])]),
        ("maxItems", .num 3)])])]]),
    ("anyOf", .arr [.obj [("required", .arr [.str "tags"])], .obj [("minProperties", .num 3)]])])])]

/-- A schema with these keywords only. -/
def partSchema (type : Option String) (properties : Option (List (String × SchemaNode))) (required : Option (List String))
    (bounds : Option Int × Option Int) (range : Option Rat × Option Rat) (items : Option SchemaNode) (maxItems : Option Int)
    (minProperties : Option Int) (allOf : Option (List SchemaNode)) : SchemaNode :=
  { emptyNode with
    type := type.map fun t => { single := t }
    properties := properties
    required := required
    minLength := bounds.1
    maxLength := bounds.2
    minimum := range.1
    maximum := range.2
    items := items.map fun x => { node := some x, nodes := some [] }
    maxItems := maxItems
    minProperties := minProperties
    allOf := allOf }

/-- The schema of a name, twice, and of a tag. -/
def nameLower : SchemaNode := partSchema "string" none none (some 1, none) (none, none) none none none none
def nameUpper : SchemaNode := partSchema none none none (none, some 5) (none, none) none none none none
def tagLower : SchemaNode := partSchema none none none (none, none) (some 1, none) none none none none
def tagUpper : SchemaNode := partSchema "integer" none none (none, none) (none, some 9) none none none none
def tagBoth : SchemaNode := partSchema none none none (none, none) (none, none) none none none (some [tagLower, tagUpper])
def tagList : SchemaNode := partSchema "array" none none (none, none) (none, none) (some tagBoth) (some 3) none none
def personBase : SchemaNode :=
  partSchema "object" (some [("name", nameLower)]) (some ["name"]) (none, none) (none, none) none none none none
def personMore : SchemaNode :=
  partSchema none (some [("name", nameUpper), ("tags", tagList)]) none (none, none) (none, none) none none none none
def personTagged : SchemaNode := partSchema none none (some ["tags"]) (none, none) (none, none) none none none none
def personLarge : SchemaNode := partSchema none none none (none, none) (none, none) none none (some 3) none

/-- The combined schema. -/
def person : SchemaNode :=
  { emptyNode with allOf := some [personBase, personMore], anyOf := some [personTagged, personLarge] }

/-- `{"$ref": "#/$defs/person"}`. -/
def personRef : SchemaNode := { emptyNode with ref := some "#/$defs/person" }

/-- The whole schema, decoded. -/
def personRoot : SchemaNode :=
  { emptyNode with
    type := some { single := "object" }, properties := some [("who", personRef)], required := some ["who"]
    defs := some [("person", person)] }

set_option maxHeartbeats 4000000 in
theorem person_decodes : decodeNode personSchema = some personRoot := by rfl

/-- The types at the places of a person. -/
def personType : ValuePath → Kind
  | [] => "object"
  | [some "name"] => "string"
  | [some "tags"] => "array"
  | _ => "integer"

/-- Such a schema may be merged with others. -/
theorem part_mergeable {c : PEnv} (hc : c.fp = FP.exact) {o : Opts} {t : Kind} {type : Option String} {properties : Option (List (String × SchemaNode))}
    {required : Option (List String)} {bounds : Option Int × Option Int} {range : Option Rat × Option Rat}
    {items : Option SchemaNode} {maxItems minProperties : Option Int} {allOf : Option (List SchemaNode)}
    (ht : t.type ∈ jsonTypes) (h1 : ∀ x, type = some x → x = t.type)
    (h2 : ∀ p, properties = some p → (keysKV p).Nodup ∧ ∀ k ∈ keysKV p, PlainName k ∧ ¬ Invented k)
    (h3 : ∀ l, required = some l → ∀ k ∈ l, ¬ Invented k) (h4 : ∀ k, bounds.2 = some k → k ≠ 0)
    (h5 : ∀ q, range.1 = some q → |q| ≤ 2 ^ 50) (h6 : ∀ q, range.2 = some q → |q| ≤ 2 ^ 50)
    (h7 : ∀ k, maxItems = some k → 0 < k ∧ o.defaultArrayMinItems ≤ k) (h8 : ∀ k, minProperties = some k → 0 ≤ k)
    (h9 : t.listed = false := by first | rfl | simp only [*]) :
    Mergeable c o t
      (partSchema type properties required bounds range items maxItems minProperties allOf) where
  covered := ⟨rfl, rfl, rfl, rfl, rfl, rfl, rfl, rfl, by
    intro x hx
    cases items with
    | none => cases hx
    | some y => cases hx; rfl, rfl, rfl, rfl, rfl⟩
  ref := rfl
  anyOf := rfl
  definitions := rfl
  defs := rfl
  unlisted := fun _ => ⟨rfl, rfl⟩
  listed := fun h => by rw [h9] at h; cases h
  listedValues := by rintro v (⟨l, h, _⟩ | h) <;> cases h
  someValue := nofun
  oneList := .inl rfl
  additionalProperties := rfl
  patternProperties := rfl
  prefixItems := rfl
  contains := rfl
  minContains := rfl
  multipleOf := rfl
  known := ht
  type := by
    intro x hx
    cases type with
    | none => cases hx
    | some y => cases hx; rw [h1 y rfl]
  items := by
    intro x hx
    cases items with
    | none => cases hx
    | some y => cases hx; rfl
  names := h2
  requiredNames := h3
  minProperties := h8
  maxProperties := nofun
  minItems := nofun
  maxItems := fun k hk => ⟨(h7 k hk).1, fun _ => (h7 k hk).2⟩
  string := ⟨h4, nofun⟩
  arithmetic := .inl hc
  magnitude := ⟨h5, h6, nofun, nofun, nofun⟩
  doubles := by
    intro hf
    rw [hc] at hf
    exact absurd (congrFun (congrArg FP.rnd hf) (1 / 3)) (by decide +kernel)

theorem small_rat {q : Rat} (h : q = 1 ∨ q = 9) : |q| ≤ 2 ^ 50 := by
  rcases h with rfl | rfl <;> norm_num

theorem person_tag {o : Opts} {path : ValuePath} (hp : personType path = "integer") {b : Nat} :
    Concurs demoEnv o personType (b + 1) path tagBoth := by
  have hl : Concurs demoEnv o personType (b + 1) path tagLower := by
    refine .intro (part_mergeable rfl (by rw [hp]; decide) nofun nofun nofun nofun ?_ nofun nofun nofun) nofun nofun nofun nofun
    rintro q ⟨⟩; exact small_rat (.inl rfl)
  have hu : Concurs demoEnv o personType (b + 1) path tagUpper := by
    refine .intro (part_mergeable rfl (by rw [hp]; decide) ?_ nofun nofun nofun nofun ?_ nofun nofun) nofun nofun nofun nofun
    · rintro x ⟨⟩; rw [hp]
    · rintro q ⟨⟩; exact small_rat (.inr rfl)
  refine .intro (part_mergeable rfl (by rw [hp]; decide) nofun nofun nofun nofun nofun nofun nofun nofun) ?_ ?_ nofun nofun
  · rintro l ⟨⟩; simp
  · rintro l x ⟨⟩ hx
    simp only [List.mem_cons, List.mem_nil_iff, or_false] at hx
    rcases hx with rfl | rfl
    · exact hl
    · exact hu

theorem person_combines (o : Opts) (ho : o.defaultArrayMinItems ≤ 3) {ts : List String} :
    Combination demoEnv o personRoot personType 3 ts person := by
  have hname : ∀ {x : SchemaNode}, x = nameLower ∨ x = nameUpper → Concurs demoEnv o personType 2 [some "name"] x := by
    rintro x (rfl | rfl)
    · refine .intro (part_mergeable rfl (by decide) ?_ nofun nofun nofun nofun nofun nofun nofun) nofun nofun nofun nofun
      rintro x ⟨⟩; rfl
    · refine .intro (part_mergeable rfl (by decide) nofun nofun nofun ?_ nofun nofun nofun nofun) nofun nofun nofun nofun
      rintro k ⟨⟩; decide
  have htags : Concurs demoEnv o personType 2 [some "tags"] tagList := by
    refine .intro (part_mergeable rfl (by decide) ?_ nofun nofun nofun nofun nofun ?_ nofun) nofun nofun nofun ?_
    · rintro x ⟨⟩; rfl
    · rintro k ⟨⟩; exact ⟨by decide, ho⟩
    · rintro x y ⟨⟩ ⟨⟩; exact person_tag rfl
  have hplain : ∀ k, k = "name" ∨ k = "tags" → PlainName k ∧ ¬ Invented k := by
    rintro k (rfl | rfl) <;> exact ⟨by unfold PlainName; decide, short_not_invented (by decide)⟩
  have hbase : Concurs demoEnv o personType 3 [] personBase := by
    refine .intro (part_mergeable rfl (by decide) ?_ ?_ ?_ nofun nofun nofun nofun nofun) nofun nofun ?_ nofun
    · rintro x ⟨⟩; rfl
    · rintro p ⟨⟩
      refine ⟨by decide, fun k hk => hplain k (.inl (by simpa [keysKV] using hk))⟩
    · rintro l ⟨⟩ k hk
      exact (hplain k (.inl (by simpa using hk))).2
    · rintro p k x ⟨⟩ hx
      simp only [List.mem_cons, List.mem_nil_iff, or_false, Prod.mk.injEq] at hx
      obtain ⟨rfl, rfl⟩ := hx
      exact hname (.inl rfl)
  have hmore : Concurs demoEnv o personType 3 [] personMore := by
    refine .intro (part_mergeable rfl (by decide) nofun ?_ nofun nofun nofun nofun nofun nofun) nofun nofun ?_ nofun
    · rintro p ⟨⟩
      refine ⟨by decide, fun k hk => hplain k (by simpa [keysKV] using hk)⟩
    · rintro p k x ⟨⟩ hx
      simp only [List.mem_cons, List.mem_nil_iff, or_false, Prod.mk.injEq] at hx
      rcases hx with ⟨rfl, rfl⟩ | ⟨rfl, rfl⟩
      · exact hname (.inr rfl)
      · exact htags
  refine ⟨?_, ?_, ?_, ?_, ?_⟩
  · exact .intro (part_mergeable rfl (type := none) (properties := none) (required := none) (bounds := (none, none))
      (range := (none, none)) (items := none) (maxItems := none) (minProperties := none)
      (allOf := none) (by decide) nofun nofun nofun nofun nofun nofun nofun nofun) nofun nofun nofun nofun
  · rintro l ⟨⟩; simp
  · rintro l x ⟨⟩ hx
    simp only [List.mem_cons, List.mem_nil_iff, or_false] at hx
    rcases hx with rfl | rfl
    · exact .own hbase
    · exact .own hmore
  · rintro l ⟨⟩; simp
  · rintro l x ⟨⟩ hx
    left
    simp only [List.mem_cons, List.mem_nil_iff, or_false] at hx
    rcases hx with rfl | rfl
    · refine .intro (part_mergeable rfl (by decide) nofun nofun ?_ nofun nofun nofun nofun nofun) nofun nofun nofun nofun
      rintro l ⟨⟩ k hk
      exact (hplain k (.inr (by simpa using hk))).2
    · refine .intro (part_mergeable rfl (by decide) nofun nofun nofun nofun nofun nofun nofun ?_) nofun nofun nofun nofun
      rintro k ⟨⟩; decide

/-- Every place in the schema. -/
theorem person_places {d : Nat} {ts : List String} {m : SchemaNode} (h : Inside personRoot d ts m) :
    m = personRoot ∧ d = 0 ∨ (m = personRef ∨ m = person) ∧ d = 1 := by
  induction h with
  | root => exact .inl ⟨rfl, rfl⟩
  | named _ hn ih =>
    rcases ih with ⟨rfl, rfl⟩ | ⟨rfl | rfl, rfl⟩
    · refine .inr ⟨?_, rfl⟩
      cases hn with
      | properties p hp hl =>
        cases hp
        have := lookupKV_mem hl
        simp only [List.mem_cons, List.mem_nil_iff, or_false, Prod.mk.injEq] at this
        exact .inl this.2
      | patternProperties p hp _ => cases hp
      | definitions p hp _ => cases hp
      | defs p hp hl =>
        cases hp
        have := lookupKV_mem hl
        simp only [List.mem_cons, List.mem_nil_iff, or_false, Prod.mk.injEq] at this
        exact .inr this.2
    · cases hn with
      | _ p hp _ => cases hp
    · cases hn with
      | _ p hp _ => cases hp
  | sub _ hn hkw ih => clear hkw; rcases ih with ⟨rfl, rfl⟩ | ⟨rfl | rfl, rfl⟩ <;> cases hn <;>
      first | (rename_i hp; cases hp; done) | (rename_i hp _ _; cases hp; done)
  | items _ hi _ _ ih => rcases ih with ⟨rfl, rfl⟩ | ⟨rfl | rfl, rfl⟩ <;> cases hi
  | prefixItems _ hi _ ih => rcases ih with ⟨rfl, rfl⟩ | ⟨rfl | rfl, rfl⟩ <;> cases hi

theorem person_ok (o : Opts) (ho : o.defaultArrayMinItems ≤ 3) {d : Nat} {ts : List String} {m : SchemaNode}
    (h : Inside personRoot d ts m) : PlaceOk demoEnv o personRoot d ts m := by
  have h100 : demoEnv.maxParseDepth = 100 := rfl
  have hno : ∀ F : Prop, FP.exact = FP.binary64 → F := fun F hf =>
    absurd (congrFun (congrArg FP.rnd hf) (1 / 3)) (by decide +kernel)
  rcases person_places h with ⟨rfl, rfl⟩ | ⟨rfl | rfl, rfl⟩
  · refine .plain ?_ (by rw [h100]; decide)
    exact {
      covered := ⟨rfl, rfl, rfl, rfl, rfl, rfl, rfl, rfl, nofun, rfl, rfl, rfl, rfl⟩
      allOf := rfl, anyOf := rfl, ref := nofun, definitions := nofun
      defs := by
        rintro p ⟨⟩
        refine ⟨by decide, fun k hk => ?_⟩
        rw [show k = "person" by simpa [keysKV] using hk]
        unfold PlainName
        decide
      enum := nofun, const := nofun
      types := ⟨by rintro t ⟨⟩ _; decide, by rintro t l ⟨⟩ ⟨⟩⟩
      object := {
        patterns := nofun
        names := by
          rintro p ⟨⟩
          refine ⟨by decide, fun k hk => ?_⟩
          rw [show k = "who" by simpa [keysKV] using hk]
          exact ⟨by unfold PlainName; decide, short_not_invented (by decide)⟩
        requiredNames := by
          rintro l ⟨⟩ k hk
          rw [show k = "who" by simpa using hk]
          exact short_not_invented (by decide)
        requiredDeclared := nofun, maximum := nofun, closedMinimum := nofun }
      array := ⟨nofun, nofun, nofun, fun _ => rfl, nofun, nofun⟩
      string := ⟨nofun, nofun⟩
      number := ⟨.inl rfl, ⟨nofun, nofun, nofun, nofun, nofun⟩, nofun, fun hf => hno _ hf⟩ }
  · refine .plain ?_ (by rw [h100]; decide)
    exact {
      covered := ⟨rfl, rfl, rfl, rfl, rfl, rfl, rfl, rfl, nofun, rfl, rfl, rfl, rfl⟩
      allOf := rfl, anyOf := rfl
      ref := by
        rintro r ⟨⟩
        refine ⟨rfl, person, 1, ["$defs", "person"], ?_, by decide, .named .root (.defs _ rfl rfl)⟩
        unfold PlainTokens
        decide
      definitions := nofun, defs := nofun, enum := nofun, const := nofun, types := ⟨nofun, nofun⟩
      object := ⟨nofun, nofun, nofun, nofun, nofun, nofun⟩
      array := ⟨nofun, nofun, nofun, fun _ => rfl, nofun, nofun⟩
      string := ⟨nofun, nofun⟩
      number := ⟨.inl rfl, ⟨nofun, nofun, nofun, nofun, nofun⟩, nofun, fun hf => hno _ hf⟩ }
  · exact .combined personType 3 (person_combines o ho) (by rw [h100]; decide) nofun nofun

/-- The value generated for it. -/
def personValue : JVal :=
  .obj [("who", .obj [("name", .str "Lorem"), ("tags", .arr [.num 1, .num 1])])]

/-- The schema parses without errors, and this value is generated without a diagnostic. -/
def personRun : Bool :=
  match parseSchema demoEnv 30 personSchema with
  | .done (.ok (g, none) s) => s.errors.length = 0 &&
    match rootGenerate noteWorld {} (refEnv s) 40 g with
    | .ok v st => st.diags.length = 0 && JVal.jeq v personValue
    | _ => false
  | _ => false

/-- The hypotheses of C56 are met by this schema and this run; the conclusion follows for it. -/
example : personRun = true ∧
    ∃ v, JVal.jeq v personValue = true ∧ Valid (patternMeaning demoEnv) personRoot personRoot v := by
  have hrun : personRun = true := by decide +kernel
  refine ⟨hrun, ?_⟩
  unfold personRun at hrun
  split at hrun
  · rename_i g s hparse
    rw [Bool.and_eq_true] at hrun
    obtain ⟨h1, h2⟩ := hrun
    split at h2
    · rename_i v st hgen
      rw [Bool.and_eq_true] at h2
      refine ⟨v, h2.2, ?_⟩
      exact C56_generated_values_are_valid_partial demoEnv 30 40 personSchema personRoot person_decodes noteWorld {} rfl rfl
        (fun d ts m hm => person_ok _ (by decide) hm) g s hparse (by simpa using h1) v st hgen (by simpa using h2.1)
    · cases h2
  · cases hrun

/-! ## What the conditions exclude

Each of these schemas parses without an error, and a value that is not valid is generated without a diagnostic. -/

/-- The schema parses without an error and this value is generated without a diagnostic. -/
def quietlyYields (schema v : JVal) : Bool :=
  match parseSchema demoEnv 20 schema with
  | .done (.ok (g, none) s) => s.errors.length = 0 &&
    match rootGenerate demoWorld {} (refEnv s) 40 g with
    | .ok v' st => st.diags.length = 0 && JVal.jeq v' v
    | _ => false
  | _ => false

/-- `{"type": "array", "items": {"type": "null"}, "maxItems": 0}`: the bound is ignored. -/
def maxItemsZero : JVal := .obj [("type", .str "array"), ("items", .obj [("type", .str "null")]), ("maxItems", .num 0)]

theorem C56_max_items_zero_violation : ∃ root v, decodeNode maxItemsZero = some root ∧
    quietlyYields maxItemsZero v = true ∧ ¬ Valid (patternMeaning demoEnv) root root v := by
  refine ⟨_, .arr [.null, .null, .null], rfl, by decide +kernel, ?_⟩
  rintro ⟨_, _, _, _, _, _, hl⟩
  exact absurd (hl.maxItems _ 0 rfl rfl) (by decide)

/-- `{"type": "object", "required": ["a"], "additionalProperties": {"type": "integer"}}`: a name that is required but
not declared gets a made-up string, whatever `additionalProperties` says. -/
def requiredUndeclared : JVal := .obj [("type", .str "object"), ("required", .arr [.str "a"]),
  ("additionalProperties", .obj [("type", .str "integer")])]

theorem C56_required_undeclared_violation : ∃ root v, decodeNode requiredUndeclared = some root ∧
    quietlyYields requiredUndeclared v = true ∧ ¬ Valid (patternMeaning demoEnv) root root v := by
  refine ⟨_, .obj [("a", .str "optional_a_17")], rfl, by decide +kernel, ?_⟩
  rintro ⟨_, _, _, _, _, _, hl, _, _, _, _, _, _, _, hadd⟩
  have h := hadd [("a", .str "optional_a_17")] _ "a" (.str "optional_a_17")
    { emptyNode with type := some { single := "integer" } } rfl rfl rfl (List.mem_singleton.2 rfl) ⟨nofun, nofun⟩
  obtain ⟨_, _, _, _, _, _, hl⟩ := h
  have ht : HasType "integer" (.str "optional_a_17") := hl.type _ rfl
  have key : ∀ t v, HasType t v → t = "integer" → v ≠ .str "optional_a_17" := by
    intro t v h
    cases h <;> intro ht <;> first | (exact absurd ht (by decide)) | nofun
  exact key _ _ ht rfl rfl

/-- `{"$ref": "#/$defs/a", "minimum": 5, "$defs": {"a": {"type": "integer", "minimum": 0, "maximum": 9}}}`: keywords
beside a reference are ignored. -/
def refSibling : JVal := .obj [("$ref", .str "#/$defs/a"), ("minimum", .num 5),
  ("$defs", .obj [("a", .obj [("type", .str "integer"), ("minimum", .num 0), ("maximum", .num 9)])])]

theorem C56_ref_sibling_violation : ∃ root v, decodeNode refSibling = some root ∧
    quietlyYields refSibling v = true ∧ ¬ Valid (patternMeaning demoEnv) root root v := by
  refine ⟨_, .num 0, rfl, by decide +kernel, ?_⟩
  rintro ⟨_, _, _, _, _, _, hl⟩
  exact absurd ((hl.number 0 rfl).1 5 rfl) (by norm_num)

/-- `{"type": "array", "prefixItems": [{"enum": [0, 1]}, {"enum": [1, 2]}], "items": false, "uniqueItems": true}`: the items of a tuple are not compared. -/
def uniqueTuple : JVal := .obj [("type", .str "array"),
  ("prefixItems", .arr [.obj [("enum", .arr [.num 0, .num 1])], .obj [("enum", .arr [.num 1, .num 2])]]), ("items", .bool false),
  ("uniqueItems", .bool true)]

theorem C56_unique_tuple_violation : ∃ root v, decodeNode uniqueTuple = some root ∧
    quietlyYields uniqueTuple v = true ∧ ¬ Valid (patternMeaning demoEnv) root root v := by
  refine ⟨_, .arr [.num 1, .num 1], rfl, by decide +kernel, ?_⟩
  rintro ⟨_, _, _, _, _, _, hl⟩
  have h := hl.uniqueItems _ rfl rfl
  simp only [List.pairwise_cons, List.mem_singleton] at h
  exact h.1 _ rfl (.refl _)

/-- `{"type": "object", "allOf": [{"properties": {"a": {"type": "null"}}, "additionalProperties": false},
{"properties": {"b": {"type": "null"}}}]}`: after merging, the closed member allows the properties of the others. -/
def closedMember : JVal := .obj [("type", .str "object"), ("allOf", .arr [
  .obj [("properties", .obj [("a", .obj [("type", .str "null")])]), ("additionalProperties", .bool false)],
  .obj [("properties", .obj [("b", .obj [("type", .str "null")])])]])]

theorem C56_allOf_closed_violation : ∃ root v, decodeNode closedMember = some root ∧
    quietlyYields closedMember v = true ∧ ¬ Valid (patternMeaning demoEnv) root root v := by
  refine ⟨_, .obj [("a", .null), ("b", .null)], rfl, by decide +kernel, ?_⟩
  rintro ⟨_, _, _, _, _, _, _, _, _, hall⟩
  have h := hall _ _ rfl (List.mem_cons_self ..)
  obtain ⟨_, _, _, _, _, _, hl⟩ := h
  refine hl.additionalFalse _ _ "b" .null rfl rfl rfl (by simp) ⟨?_, nofun⟩
  rintro p ⟨⟩
  decide

/-- `{"allOf": [{"type": "integer"}, {"type": "number"}]}`: the type of the last member is taken. -/
def twoTypes : JVal := .obj [("allOf", .arr [.obj [("type", .str "integer")], .obj [("type", .str "number")]])]

theorem C56_allOf_types_violation : ∃ root v, decodeNode twoTypes = some root ∧
    quietlyYields twoTypes v = true ∧ ¬ Valid (patternMeaning demoEnv) root root v := by
  refine ⟨_, .num (15 / 4503599627370496), rfl, by decide +kernel, ?_⟩
  rintro ⟨_, _, _, _, _, _, _, _, _, hall⟩
  have h := hall _ _ rfl (List.mem_cons_self ..)
  obtain ⟨_, _, _, _, _, _, hl⟩ := h
  have ht : HasType "integer" (.num (15 / 4503599627370496)) := hl.type _ rfl
  have key : ∀ t v, HasType t v → t = "integer" → ∃ i : Int, v = .num i := by
    intro t v h
    cases h <;> intro ht <;> first | (exact absurd ht (by decide)) | exact ⟨_, rfl⟩
  obtain ⟨i, hi⟩ := key _ _ ht rfl
  injection hi with hi
  have : (15 / 4503599627370496 : Rat).den = 1 := by rw [hi]; rfl
  exact absurd this (by decide +kernel)

/-- `{"type": "array", "allOf": [{"prefixItems": [{"type": "null"}]}, {"items": {"type": "boolean"}}]}`: after merging,
`items` of one member no longer speaks about the items in `prefixItems` of the other. -/
def tupleAndItems : JVal := .obj [("type", .str "array"), ("allOf", .arr [
  .obj [("prefixItems", .arr [.obj [("type", .str "null")]])], .obj [("items", .obj [("type", .str "boolean")])]])]

theorem C56_allOf_tuple_violation : ∃ root v, decodeNode tupleAndItems = some root ∧
    quietlyYields tupleAndItems v = true ∧ ¬ Valid (patternMeaning demoEnv) root root v := by
  refine ⟨_, .arr [.null, .bool false, .bool true, .bool false], rfl, by decide +kernel, ?_⟩
  rintro ⟨_, _, _, _, _, _, _, _, _, hall⟩
  have h := hall _ _ rfl (List.mem_cons_of_mem _ (List.mem_cons_self ..))
  obtain ⟨_, _, _, _, _, _, _, _, _, _, _, _, _, _, _, _, hitems⟩ := h
  have h := hitems _ _ 0 .null _ rfl rfl rfl (Nat.zero_le _) rfl
  obtain ⟨_, _, _, _, _, _, hl⟩ := h
  have ht : HasType "boolean" .null := hl.type _ rfl
  have key : ∀ t v, HasType t v → t = "boolean" → v ≠ .null := by
    intro t v h
    cases h <;> intro ht <;> first | (exact absurd ht (by decide)) | nofun
  exact key _ _ ht rfl rfl

end Chaff
