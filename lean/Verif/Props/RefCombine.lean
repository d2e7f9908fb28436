import Verif.Props.Valid
import Verif.Props.ParseEnds
/-!
# C70, C71: references as members of combinations

A reference to a schema of the same document, used as a member of `allOf` or as an alternative of `anyOf`, should stand
for that schema.
-/

namespace Chaff
open Comp

/-! ## A schema that refers to a definition from a combination -/

/-- `{"type": "object", "required": ["who", "size"], "properties": {
      "who": {"allOf": [{"$ref": "#/$defs/base"}, {"properties": {"name": {"maxLength": 5}}}]},
      "size": {"anyOf": [{"$ref": "#/$defs/small"}, {"minimum": 1}], "type": "integer", "maximum": 9}},
    "$defs": {"base": {"type": "object", "properties": {"name": {"type": "string", "minLength": 1}}, "required": ["name"]},
      "small": {"minimum": 1, "maximum": 9}}}`. -/
def linkSchema : JVal := .obj [("type", .str "object"),
  ("properties", .obj [
    ("who", .obj [("allOf", .arr [.obj [("$ref", .str "#/$defs/base")],
      .obj [("properties", .obj [("name", .obj [("maxLength", .num 5)])])]])]),
    ("size", .obj [("anyOf", .arr [.obj [("$ref", .str "#/$defs/small")], .obj [("minimum", .num 1)]]), ("type", .str "integer"),
      ("maximum", .num 9)])]),
  ("required", .arr [.str "who", .str "size"]),
  ("$defs", .obj [("base", .obj [("type", .str "object"), ("properties", .obj [("name", .obj [("type", .str "string"),
      ("minLength", .num 1)])]), ("required", .arr [.str "name"])]),
    ("small", .obj [("minimum", .num 1), ("maximum", .num 9)])])]

/-- The parts of the schema. -/
def linkMore : SchemaNode :=
  partSchema none (some [("name", nameUpper)]) none (none, none) (none, none) none none none none
def linkSmall : SchemaNode := partSchema none none none (none, none) (some 1, some 9) none none none none
def linkOwn : SchemaNode := partSchema "integer" none none (none, none) (none, some 9) none none none none
def baseRef : SchemaNode := { emptyNode with ref := some (pointerText ["$defs", "base"]) }
def smallRef : SchemaNode := { emptyNode with ref := some (pointerText ["$defs", "small"]) }
def linkWho : SchemaNode := { emptyNode with allOf := some [baseRef, linkMore] }
def linkSize : SchemaNode := { linkOwn with anyOf := some [smallRef, tagLower] }

/-- The whole schema, decoded. -/
def linkRoot : SchemaNode :=
  { emptyNode with
    type := some { single := "object" }, properties := some [("who", linkWho), ("size", linkSize)], required := some ["who", "size"]
    defs := some [("base", personBase), ("small", linkSmall)] }

set_option maxHeartbeats 4000000 in
theorem link_decodes : decodeNode linkSchema = some linkRoot := by rfl

/-- Every place in the schema. -/
theorem link_places {d : Nat} {ts : List String} {m : SchemaNode} (h : Inside linkRoot d ts m) :
    m = linkRoot ∧ d = 0 ∧ ts = [] ∨ m = linkWho ∧ d = 1 ∧ ts = ["properties", "who"] ∨
      m = linkSize ∧ d = 1 ∧ ts = ["properties", "size"] ∨ m = personBase ∧ d = 1 ∨ m = linkSmall ∧ d = 1 ∨
      m = nameLower ∧ d = 2 := by
  induction h with
  | root => exact .inl ⟨rfl, rfl, rfl⟩
  | named _ hn ih =>
    rcases ih with ⟨rfl, rfl, rfl⟩ | ⟨rfl, rfl, rfl⟩ | ⟨rfl, rfl, rfl⟩ | ⟨rfl, rfl⟩ | ⟨rfl, rfl⟩ | ⟨rfl, rfl⟩
    · cases hn with
      | properties p hp hl =>
        cases hp
        have := lookupKV_mem hl
        simp only [List.mem_cons, List.mem_nil_iff, or_false, Prod.mk.injEq] at this
        rcases this with ⟨rfl, rfl⟩ | ⟨rfl, rfl⟩
        · exact .inr (.inl ⟨rfl, rfl, rfl⟩)
        · exact .inr (.inr (.inl ⟨rfl, rfl, rfl⟩))
      | patternProperties p hp _ => cases hp
      | definitions p hp _ => cases hp
      | defs p hp hl =>
        cases hp
        have := lookupKV_mem hl
        simp only [List.mem_cons, List.mem_nil_iff, or_false, Prod.mk.injEq] at this
        rcases this with ⟨rfl, rfl⟩ | ⟨rfl, rfl⟩
        · exact .inr (.inr (.inr (.inl ⟨rfl, rfl⟩)))
        · exact .inr (.inr (.inr (.inr (.inl ⟨rfl, rfl⟩))))
    · cases hn with
      | _ p hp _ => cases hp
    · cases hn with
      | _ p hp _ => cases hp
    · cases hn with
      | properties p hp hl =>
        cases hp
        have := lookupKV_mem hl
        simp only [List.mem_cons, List.mem_nil_iff, or_false, Prod.mk.injEq] at this
        exact .inr (.inr (.inr (.inr (.inr ⟨this.2, rfl⟩))))
      | patternProperties p hp _ => cases hp
      | definitions p hp _ => cases hp
      | defs p hp _ => cases hp
    · cases hn with
      | _ p hp _ => cases hp
    · cases hn with
      | _ p hp _ => cases hp
  | sub _ hn hkw ih =>
    rcases ih with ⟨rfl, rfl, rfl⟩ | ⟨rfl, rfl, rfl⟩ | ⟨rfl, rfl, rfl⟩ | ⟨rfl, rfl⟩ | ⟨rfl, rfl⟩ | ⟨rfl, rfl⟩ <;> cases hn <;>
      first | (rename_i hp; cases hp; done) | (rename_i hp _ _; cases hp; done)
  | items _ hi _ _ ih =>
    rcases ih with ⟨rfl, rfl, rfl⟩ | ⟨rfl, rfl, rfl⟩ | ⟨rfl, rfl, rfl⟩ | ⟨rfl, rfl⟩ | ⟨rfl, rfl⟩ | ⟨rfl, rfl⟩ <;> cases hi
  | prefixItems _ hi _ ih =>
    rcases ih with ⟨rfl, rfl, rfl⟩ | ⟨rfl, rfl, rfl⟩ | ⟨rfl, rfl, rfl⟩ | ⟨rfl, rfl⟩ | ⟨rfl, rfl⟩ | ⟨rfl, rfl⟩ <;> cases hi

/-- The types below `who`; the types at the other places are given directly. -/
def whoType : ValuePath → Kind
  | [] => "object"
  | _ => "string"

theorem link_followable : Followable offlineEnv linkRoot :=
  ⟨by decide, by decide, by decide, rfl, rfl, by decide +kernel⟩

theorem link_name {o : Opts} {ty : ValuePath → Kind} {path : ValuePath} {b : Nat} (ht : ty path = "string")
    {x : SchemaNode} (hx : x = nameLower ∨ x = nameUpper) : Concurs offlineEnv o ty (b + 1) path x := by
  rcases hx with rfl | rfl
  · refine .intro (part_mergeable rfl (by rw [ht]; decide) ?_ nofun nofun nofun nofun nofun nofun nofun) nofun nofun nofun nofun
    rintro x ⟨⟩; rw [ht]
  · refine .intro (part_mergeable rfl (by rw [ht]; decide) nofun nofun nofun ?_ nofun nofun nofun nofun) nofun nofun nofun nofun
    rintro k ⟨⟩; decide

theorem name_plain {k : String} (h : k = "name") : PlainName k ∧ ¬ Invented k := by
  subst h
  exact ⟨by unfold PlainName; decide, short_not_invented (by decide)⟩

theorem link_base (o : Opts) : Concurs offlineEnv o whoType 2 [] personBase := by
  refine .intro (part_mergeable rfl (by decide) ?_ ?_ ?_ nofun nofun nofun nofun nofun) nofun nofun ?_ nofun
  · rintro x ⟨⟩; rfl
  · rintro p ⟨⟩
    exact ⟨by decide, fun k hk => name_plain (by simpa [keysKV] using hk)⟩
  · rintro l ⟨⟩ k hk
    exact (name_plain (by simpa using hk)).2
  · rintro p k x ⟨⟩ hx
    simp only [List.mem_cons, List.mem_nil_iff, or_false, Prod.mk.injEq] at hx
    obtain ⟨rfl, rfl⟩ := hx
    exact link_name rfl (.inl rfl)

theorem link_more (o : Opts) : Concurs offlineEnv o whoType 2 [] linkMore := by
  refine .intro (part_mergeable rfl (by decide) nofun ?_ nofun nofun nofun nofun nofun nofun) nofun nofun ?_ nofun
  · rintro p ⟨⟩
    exact ⟨by decide, fun k hk => name_plain (by simpa [keysKV] using hk)⟩
  · rintro p k x ⟨⟩ hx
    simp only [List.mem_cons, List.mem_nil_iff, or_false, Prod.mk.injEq] at hx
    obtain ⟨rfl, rfl⟩ := hx
    exact link_name rfl (.inr rfl)

theorem link_range (o : Opts) {x : SchemaNode} (hx : x = linkSmall ∨ x = tagLower ∨ x = linkOwn) :
    Concurs offlineEnv o (fun _ => "integer") 1 [] x := by
  rcases hx with rfl | rfl | rfl
  · refine .intro (part_mergeable rfl (by decide) nofun nofun nofun nofun ?_ ?_ nofun nofun) nofun nofun nofun nofun
    · rintro q ⟨⟩; exact small_rat (.inl rfl)
    · rintro q ⟨⟩; exact small_rat (.inr rfl)
  · refine .intro (part_mergeable rfl (by decide) nofun nofun nofun nofun ?_ nofun nofun nofun) nofun nofun nofun nofun
    rintro q ⟨⟩; exact small_rat (.inl rfl)
  · refine .intro (part_mergeable rfl (by decide) ?_ nofun nofun nofun nofun ?_ nofun nofun) nofun nofun nofun nofun
    · rintro x ⟨⟩; rfl
    · rintro q ⟨⟩; exact small_rat (.inr rfl)

/-- A part without sub-schemas is written faithfully. -/
theorem part_faithful {n : SchemaNode} (hb : FaithfulBase n.toNodeBase) (h1 : n.additionalProperties = none)
    (h2 : n.additionalItems = none) (h3 : n.unevaluatedItems = none) (h4 : n.items = none) (h5 : n.mergedIf = [])
    (h6 : n.mergedNot = []) (h7 : n.constraints = none) (hs : ∀ x ∈ n.children, Faithful x) : Faithful n :=
  .mk n hb (by rw [h1]; exact nofun) (by rw [h2]; exact nofun) (by rw [h3]; exact nofun) (by rw [h4]; exact nofun) h5 h6 h7 hs

theorem name_faithful : Faithful nameLower :=
  part_faithful ⟨by rintro t ⟨⟩; exact .inl ⟨by decide, rfl⟩, nofun, nofun, nofun, by rintro i ⟨⟩; decide, nofun, nofun, nofun,
    nofun, nofun⟩ rfl rfl rfl rfl rfl rfl rfl (by rw [show nameLower.children = [] from rfl]; exact nofun)

theorem base_faithful : Faithful personBase :=
  part_faithful ⟨by rintro t ⟨⟩; exact .inl ⟨by decide, rfl⟩, nofun, nofun, nofun, nofun, nofun, nofun, nofun, nofun, nofun⟩
    rfl rfl rfl rfl rfl rfl rfl (by
      rw [show personBase.children = [nameLower] from rfl]
      rintro x hx
      rw [List.mem_singleton.1 hx]
      exact name_faithful)

theorem small_faithful : Faithful linkSmall :=
  part_faithful ⟨nofun, nofun, nofun, nofun, nofun, nofun, nofun, nofun, nofun, nofun⟩ rfl rfl rfl rfl rfl rfl rfl
    (by rw [show linkSmall.children = [] from rfl]; exact nofun)

theorem link_who (o : Opts) : Combination offlineEnv o linkRoot whoType 2 ["properties", "who"] linkWho := by
  refine ⟨?_, ?_, ?_, nofun, nofun⟩
  · exact .intro (part_mergeable rfl (type := none) (properties := none) (required := none) (bounds := (none, none))
      (range := (none, none)) (items := none) (maxItems := none) (minProperties := none)
      (allOf := none) (by decide) nofun nofun nofun nofun nofun nofun nofun nofun) nofun nofun nofun nofun
  · rintro l ⟨⟩; simp
  · rintro l x ⟨⟩ hx
    simp only [List.mem_cons, List.mem_nil_iff, or_false] at hx
    rcases hx with rfl | rfl
    · refine .refer (d := 1) ["$defs", "base"] personBase link_followable (by unfold PlainTokens; decide)
        (.named .root (.defs _ rfl rfl)) (.named _ _ _ _ _ _ (.defs _ rfl rfl) (.here _)) (by decide) ?_ (by decide +kernel)
        (by decide +kernel) (link_base o)
      exact base_faithful
    · exact .own (link_more o)

theorem link_size (o : Opts) : Combination offlineEnv o linkRoot (fun _ => "integer") 1 ["properties", "size"] linkSize := by
  refine ⟨link_range o (.inr (.inr rfl)), nofun, nofun, ?_, ?_⟩
  · rintro l ⟨⟩; simp
  · rintro l x ⟨⟩ hx
    simp only [List.mem_cons, List.mem_nil_iff, or_false] at hx
    rcases hx with rfl | rfl
    · refine .inr ⟨rfl, .refer (d := 1) ["$defs", "small"] linkSmall link_followable (by unfold PlainTokens; decide)
        (.named .root (.defs _ rfl rfl)) (.named _ _ _ _ _ _ (.defs _ rfl rfl) (.here _)) (by decide) ?_ (by decide +kernel)
        (by decide +kernel) (link_range o (.inl rfl))⟩
      exact small_faithful
    · exact .inl (link_range o (.inr (.inl rfl)))

/-- A schema that agrees with itself is a combination without members. -/
theorem Concurs.alone {c : PEnv} {o : Opts} {root n : SchemaNode} {ty : ValuePath → Kind} {b : Nat} {ts : List String}
    (h : Concurs c o ty b [] n) (h1 : n.allOf = none) (h2 : n.anyOf = none) (h3 : n.defs = none) (h4 : n.definitions = none) :
    Combination c o root ty b ts n := by
  refine ⟨?_, by rw [h1]; exact nofun, by rw [h1]; exact nofun, by rw [h2]; exact nofun, by rw [h2]; exact nofun⟩
  have : ({ n with allOf := none, anyOf := none, defs := none, definitions := none } : SchemaNode) = n := by
    cases n; simp_all
  rw [this]
  exact h

theorem link_ok (o : Opts) {d : Nat} {ts : List String} {m : SchemaNode} (h : Inside linkRoot d ts m) :
    PlaceOk offlineEnv o linkRoot d ts m := by
  have h100 : offlineEnv.maxParseDepth = 100 := rfl
  have hno : ∀ F : Prop, FP.exact = FP.binary64 → F := fun F hf =>
    absurd (congrFun (congrArg FP.rnd hf) (1 / 3)) (by decide +kernel)
  rcases link_places h with ⟨rfl, rfl, rfl⟩ | ⟨rfl, rfl, rfl⟩ | ⟨rfl, rfl, rfl⟩ | ⟨rfl, rfl⟩ | ⟨rfl, rfl⟩ | ⟨rfl, rfl⟩
  · refine .plain ?_ (by rw [h100]; decide)
    exact {
      covered := ⟨rfl, rfl, rfl, rfl, rfl, rfl, rfl, rfl, nofun, rfl, rfl, rfl, rfl⟩
      allOf := rfl, anyOf := rfl, ref := nofun, definitions := nofun
      defs := by
        rintro p ⟨⟩
        refine ⟨by decide, fun k hk => ?_⟩
        have hk : k = "base" ∨ k = "small" := by simpa [keysKV] using hk
        rcases hk with rfl | rfl <;> (unfold PlainName; decide)
      enum := nofun, const := nofun
      types := ⟨by rintro t ⟨⟩ _; decide, by rintro t l ⟨⟩ ⟨⟩⟩
      object := {
        patterns := nofun
        names := by
          rintro p ⟨⟩
          refine ⟨by decide, fun k hk => ?_⟩
          have hk : k = "who" ∨ k = "size" := by simpa [keysKV] using hk
          rcases hk with rfl | rfl <;> exact ⟨by unfold PlainName; decide, short_not_invented (by decide)⟩
        requiredNames := by
          rintro l ⟨⟩ k hk
          have hk : k = "who" ∨ k = "size" := by simpa using hk
          rcases hk with rfl | rfl <;> exact short_not_invented (by decide)
        requiredDeclared := nofun, maximum := nofun, closedMinimum := nofun }
      array := ⟨nofun, nofun, nofun, fun _ => rfl, nofun, nofun⟩
      string := ⟨nofun, nofun⟩
      number := ⟨.inl rfl, ⟨nofun, nofun, nofun, nofun, nofun⟩, nofun, fun hf => hno _ hf⟩ }
  · exact .combined whoType 2 (link_who o) (by rw [h100]; decide) nofun nofun
  · exact .combined _ 1 (link_size o) (by rw [h100]; decide) nofun nofun
  · exact .combined whoType 2 ((link_base o).alone rfl rfl rfl rfl) (by rw [h100]; decide) nofun nofun
  · exact .combined _ 1 ((link_range o (.inl rfl)).alone rfl rfl rfl rfl) (by rw [h100]; decide) nofun nofun
  · exact .combined (fun _ => "string") 1 ((link_name rfl (.inl rfl)).alone rfl rfl rfl rfl) (by rw [h100]; decide) nofun nofun

/-- `schema` parses without errors in the environment, and `value` is generated without a diagnostic. -/
def cleanRun (c : PEnv) (schema value : JVal) : Bool :=
  match parseSchema c 30 schema with
  | .done (.ok (g, none) s) => s.errors.length = 0 &&
    match rootGenerate noteWorld {} (refEnv s) 40 g with
    | .ok v st => st.diags.length = 0 && JVal.jeq v value
    | _ => false
  | _ => false

/-- What such a run consists of. -/
theorem cleanRun_spec {c : PEnv} {schema value : JVal} (h : cleanRun c schema value = true) :
    ∃ g s v st, parseSchema c 30 schema = .done (.ok (g, none) s) ∧ s.errors = [] ∧
      rootGenerate noteWorld {} (refEnv s) 40 g = .ok v st ∧ st.diags = [] ∧ JVal.jeq v value = true := by
  unfold cleanRun at h
  split at h
  · rename_i g s hparse
    rw [Bool.and_eq_true] at h
    obtain ⟨h1, h2⟩ := h
    split at h2
    · rename_i v st hgen
      rw [Bool.and_eq_true] at h2
      exact ⟨g, s, v, st, hparse, by simpa using h1, hgen, by simpa using h2.1, h2.2⟩
    · cases h2
  · cases h

/-- The value generated for the schema. -/
def linkValue : JVal := .obj [("who", .obj [("name", .str "Lorem")]), ("size", .num 1)]

/-- The hypotheses of C56 are met by this schema and this run; the conclusion follows for it. -/
example : ∃ v, JVal.jeq v linkValue = true ∧ Valid (patternMeaning offlineEnv) linkRoot linkRoot v := by
  obtain ⟨g, s, v, st, hparse, herr, hgen, hq, hv⟩ :=
    cleanRun_spec (c := offlineEnv) (schema := linkSchema) (value := linkValue) (by decide +kernel)
  exact ⟨v, hv, C56_generated_values_are_valid_partial offlineEnv 30 40 linkSchema linkRoot link_decodes noteWorld {} rfl rfl
    (fun d ts m hm => link_ok _ hm) g s hparse herr v st hgen hq⟩

/-! ## C70: a reference as a member stands for the schema it denotes -/

/-- With the conditions of C56 (the parser is told where the document is, references name definitions without further
references): whatever is generated satisfies the schema that a reference among the members of `allOf` denotes, at the
document itself and at each of its properties; and a reference that is the only alternative of `anyOf` likewise. -/
theorem C70_member_references_hold_partial (c : PEnv) (fuel gfuel : Nat) (schema : JVal) (root : SchemaNode)
    (hroot : decodeNode schema = some root) (w : World) (o : Opts) (hfp : w.fp = c.fp) (hpl : w.plat = c.plat)
    (hsup : ∀ d ts m, Inside root d ts m → PlaceOk c (withGeneratorOptionsDefaults o) root d ts m)
    (g : Gen) (s : PSt) (hparse : parseSchema c fuel schema = .done (.ok (g, none) s)) (herr : s.errors = [])
    (v : JVal) (st : GSt) (hgen : rootGenerate w o (refEnv s) gfuel g = .ok v st) (hquiet : st.diags = []) :
    (∀ l n r, root.allOf = some l → n ∈ l → n.ref = some r → ∃ t, Refers root r t ∧ Valid (patternMeaning c) root t v) ∧
    (∀ m p k x sub, v = .obj m → root.properties = some p → (k, x) ∈ m → lookupKV p k = some sub →
      (∀ l n r, sub.allOf = some l → n ∈ l → n.ref = some r → ∃ t, Refers root r t ∧ Valid (patternMeaning c) root t x) ∧
      (∀ n r, sub.anyOf = some [n] → n.ref = some r → ∃ t, Refers root r t ∧ Valid (patternMeaning c) root t x)) := by
  have follow : ∀ n r x, Valid (patternMeaning c) root n x → n.ref = some r →
      ∃ t, Refers root r t ∧ Valid (patternMeaning c) root t x := by
    rintro n r x ⟨_, _, t, _, _, _, _, ht, hv⟩ hr
    exact ⟨t, ht r hr, hv r hr⟩
  have hv := C56_generated_values_are_valid_partial c fuel gfuel schema root hroot w o hfp hpl hsup g s hparse herr v st hgen
    hquiet
  obtain ⟨_, _, _, _, _, _, _, _, _, hall, _, _, hprops⟩ := hv
  refine ⟨fun l n r hl hn hr => follow n r v (hall l n hl hn) hr, ?_⟩
  intro m p k x sub hm hp hk hs
  have hx := hprops m p k x sub hm hp hk hs
  obtain ⟨_, _, _, alt, _, _, _, _, _, hall, hmem, hany, _⟩ := hx
  refine ⟨fun l n r hl hn hr => follow n r x (hall l n hl hn) hr, ?_⟩
  intro n r hn hr
  have := List.mem_singleton.1 (hmem _ hn)
  subst this
  exact follow _ r x (hany _ hn) hr

/-- The hypotheses are met by the schema above: the value at `who` satisfies the definition `base`. -/
example : ∃ v m x t, JVal.jeq v linkValue = true ∧ v = .obj m ∧ ("who", x) ∈ m ∧ Refers linkRoot "#/$defs/base" t ∧
    Valid (patternMeaning offlineEnv) linkRoot t x := by
  obtain ⟨g, s, v, st, hparse, herr, hgen, hq, hv⟩ :=
    cleanRun_spec (c := offlineEnv) (schema := linkSchema) (value := linkValue) (by decide +kernel)
  have h56 := C56_generated_values_are_valid_partial offlineEnv 30 40 linkSchema linkRoot link_decodes noteWorld {} rfl rfl
    (fun d ts m hm => link_ok _ hm) g s hparse herr v st hgen hq
  have h := C70_member_references_hold_partial offlineEnv 30 40 linkSchema linkRoot link_decodes noteWorld {} rfl rfl
    (fun d ts m hm => link_ok _ hm) g s hparse herr v st hgen hq
  cases v with
  | obj m =>
    obtain ⟨_, _, _, _, _, _, hl, _⟩ := h56
    obtain ⟨x, hx⟩ := hl.required m _ "who" rfl rfl (List.mem_cons_self ..)
    obtain ⟨t, ht, htv⟩ := (h.2 m _ "who" x linkWho rfl rfl hx rfl).1 _ baseRef _ rfl (List.mem_cons_self ..) rfl
    exact ⟨_, m, x, t, hv, rfl, hx, ht, htv⟩
  | _ => exact absurd hv (by simp [linkValue, JVal.jeq])

/-- Without a base location, as with the default options. -/
def baselessEnv : PEnv := { offlineEnv with relativeTo := "" }

/-- `{"allOf": [{"$ref": "#/$defs/a"}], "$defs": {"a": {"type": "string"}}}`. -/
def aliasSchema : JVal := .obj [("allOf", .arr [.obj [("$ref", .str "#/$defs/a")]]),
  ("$defs", .obj [("a", .obj [("type", .str "string")])])]

/-- The schema, decoded. -/
def aliasDef : SchemaNode := { emptyNode with type := some { single := "string" } }
def aliasRoot : SchemaNode :=
  { emptyNode with allOf := some [{ emptyNode with ref := some (pointerText ["$defs", "a"]) }], defs := some [("a", aliasDef)] }

/-- Every place in the schema. -/
theorem alias_places {d : Nat} {ts : List String} {m : SchemaNode} (h : Inside aliasRoot d ts m) :
    m = aliasRoot ∧ ts = [] ∨ m = aliasDef := by
  induction h with
  | root => exact .inl ⟨rfl, rfl⟩
  | named _ hn ih =>
    rcases ih with ⟨rfl, rfl⟩ | rfl
    · cases hn with
      | defs p hp hl =>
        cases hp
        have := lookupKV_mem hl
        simp only [List.mem_cons, List.mem_nil_iff, or_false, Prod.mk.injEq] at this
        exact .inr this.2
      | _ p hp _ => cases hp
    · cases hn with
      | _ p hp _ => cases hp
  | sub _ hn hkw ih => rcases ih with ⟨rfl, rfl⟩ | rfl <;> cases hn <;>
      first | (rename_i hp; cases hp; done) | (rename_i hp _ _; cases hp; done)
  | items _ hi _ _ ih => rcases ih with ⟨rfl, rfl⟩ | rfl <;> cases hi
  | prefixItems _ hi _ ih => rcases ih with ⟨rfl, rfl⟩ | rfl <;> cases hi

/-- An error is recorded while parsing, and this value is generated nevertheless. -/
def faultyRun (c : PEnv) (schema value : JVal) : Bool :=
  match parseSchema c 30 schema with
  | .done (.ok (g, none) s) => s.errors.length ≠ 0 &&
    match rootGenerate noteWorld {} (refEnv s) 40 g with
    | .ok v _ => JVal.jeq v value
    | _ => false
  | _ => false

theorem string_type {v : JVal} (h : HasType "string" v) : ∃ t, v = .str t := by
  have key : ∀ t v, HasType t v → t = "string" → ∃ x, v = .str x := by
    intro t v h
    cases h <;> intro ht <;> first | (exact absurd ht (by decide)) | exact ⟨_, rfl⟩
  exact key _ _ h rfl

/-- With the default options (no base location) the document is not found under the name it is registered with: the
reference is reported as unresolvable and an object is generated where the definition asks for a string.  The same
schema works once a base location is given. -/
theorem C70_default_base_violation : decodeNode aliasSchema = some aliasRoot ∧
    faultyRun baselessEnv aliasSchema (.obj []) = true ∧
    ¬ Valid (patternMeaning baselessEnv) aliasRoot aliasRoot (.obj []) ∧
    cleanRun offlineEnv aliasSchema (.str "Lorem ipsum.") = true := by
  refine ⟨rfl, by decide +kernel, ?_, by decide +kernel⟩
  rintro ⟨_, _, _, _, _, _, _, _, _, hall⟩
  have h := hall _ _ rfl (List.mem_cons_self ..)
  obtain ⟨_, _, target, _, _, _, _, ht, hv, _⟩ := h
  obtain ⟨d, ts, hplain, htext, hin⟩ := ht _ rfl
  have hts := pointerText_inj (ts := ["$defs", "a"]) (by unfold PlainTokens; decide) hplain htext
  have hv := hv _ rfl
  rcases alias_places hin with ⟨_, h0⟩ | rfl
  · rw [h0] at hts; cases hts
  · obtain ⟨_, _, _, _, _, _, hl, _⟩ := hv
    obtain ⟨t, h⟩ := string_type (hl.type _ rfl)
    cases h

/-! ## C71: the same definition may be used in several combinations -/

/-- `{"allOf": [{"$ref": "#/$defs/a"}], "properties": {"child": {"allOf": [{"$ref": "#/$defs/a"}, {"required": ["z"]}]}},
"required": ["child"], "$defs": {"a": {"type": "object"}}}`. -/
def sharedSchema : JVal := .obj [("allOf", .arr [.obj [("$ref", .str "#/$defs/a")]]),
  ("properties", .obj [("child", .obj [("allOf", .arr [.obj [("$ref", .str "#/$defs/a")],
    .obj [("required", .arr [.str "z"])]])])]),
  ("required", .arr [.str "child"]), ("$defs", .obj [("a", .obj [("type", .str "object")])])]

/-- A definition used in a combination, and again in a combination below it, is taken for a circular reference
although it refers to nothing: the inner combination is dropped without an error or a diagnostic. -/
theorem C71_shared_definition_violation : ∃ root v, decodeNode sharedSchema = some root ∧
    cleanRun offlineEnv sharedSchema v = true ∧ ¬ Valid (patternMeaning offlineEnv) root root v := by
  refine ⟨_, .obj [("child", .obj [])], rfl, by decide +kernel, ?_⟩
  rintro ⟨_, _, _, _, _, _, _, _, _, _, _, _, hprops⟩
  have h := hprops _ _ "child" (.obj []) _ rfl rfl (List.mem_singleton.2 rfl) rfl
  obtain ⟨_, _, _, _, _, _, _, _, _, hall, _⟩ := h
  have h := hall _ _ rfl (List.mem_cons_of_mem _ (List.mem_cons_self ..))
  obtain ⟨_, _, _, _, _, _, hl, _⟩ := h
  obtain ⟨x, hx⟩ := hl.required _ _ "z" rfl rfl (List.mem_cons_self ..)
  cases hx

end Chaff
