import Verif.Props.RefCombine
/-!
# C56 with `enum` and `const` inside combinations

A discriminated object, written with `allOf` and `anyOf`: the members list the values of the same property with `enum`
and `const`.  It meets the conditions of C56.
-/

namespace Chaff
open Comp

/-- `{"allOf": [{"type": "object", "required": ["kind"],
        "properties": {"kind": {"type": "string", "enum": ["eel", "dog", "cat"]}}},
      {"properties": {"kind": {"enum": ["cat", "dog"]}}}],
    "anyOf": [{"required": ["tag"], "properties": {"kind": {"const": "cat"}, "tag": {"type": "integer", "minimum": 1, "maximum": 9}}},
      {"properties": {"kind": {"const": "dog"}}}]}`. -/
def petSchema : JVal := .obj [
  ("allOf", .arr [
    .obj [("type", .str "object"),
      ("properties", .obj [("kind", .obj [("type", .str "string"), ("enum", .arr [.str "eel", .str "dog", .str "cat"])])]),
      ("required", .arr [.str "kind"])],
    .obj [("properties", .obj [("kind", .obj [("enum", .arr [.str "cat", .str "dog"])])])]]),
  ("anyOf", .arr [
    .obj [("properties", .obj [("kind", .obj [("const", .str "cat")]),
        ("tag", .obj [("type", .str "integer"), ("minimum", .num 1), ("maximum", .num 9)])]), ("required", .arr [.str "tag"])],
    .obj [("properties", .obj [("kind", .obj [("const", .str "dog")])])]])]

/-- A schema that lists values. -/
def listSchema (type : Option String) (enum : Option (List JVal)) (const : Option JVal) : SchemaNode :=
  { emptyNode with type := type.map fun t => { single := t }, enum := enum, const := const }

/-- The parts of the schema. -/
def petKind : SchemaNode := listSchema "string" (some [.str "eel", .str "dog", .str "cat"]) none
def petFurry : SchemaNode := listSchema none (some [.str "cat", .str "dog"]) none
def petCat : SchemaNode := listSchema none none (some (.str "cat"))
def petDog : SchemaNode := listSchema none none (some (.str "dog"))
def petTag : SchemaNode := partSchema "integer" none none (none, none) (some 1, some 9) none none none none
def petBase : SchemaNode :=
  partSchema "object" (some [("kind", petKind)]) (some ["kind"]) (none, none) (none, none) none none none none
def petMore : SchemaNode := partSchema none (some [("kind", petFurry)]) none (none, none) (none, none) none none none none
def petIsCat : SchemaNode :=
  partSchema none (some [("kind", petCat), ("tag", petTag)]) (some ["tag"]) (none, none) (none, none) none none none none
def petIsDog : SchemaNode := partSchema none (some [("kind", petDog)]) none (none, none) (none, none) none none none none

/-- The whole schema, decoded. -/
def petRoot : SchemaNode :=
  { emptyNode with allOf := some [petBase, petMore], anyOf := some [petIsCat, petIsDog] }

set_option maxHeartbeats 4000000 in
theorem pet_decodes : decodeNode petSchema = some petRoot := by rfl

/-- What is agreed on at the places of the value. -/
def petType : ValuePath → Kind
  | [] => "object"
  | [some "kind"] => { type := "string", listed := true }
  | _ => "integer"

/-- Such a schema may be merged with others that list values. -/
theorem list_mergeable {c : PEnv} (hc : c.fp = FP.exact) {o : Opts} {t : Kind} {type : Option String} {enum : Option (List JVal)}
    {const : Option JVal} (ht : t.type ∈ jsonTypes) (h1 : ∀ x, type = some x → x = t.type)
    (h2 : ∀ l, enum = some l → l ≠ [] ∧ ∀ v ∈ l, v.WF ∧ HasType t.type v)
    (h3 : ∀ v, const = some v → enum = none ∧ v.WF ∧ HasType t.type v) (h9 : t.listed = true := by rfl) :
    Mergeable c o t (listSchema type enum const) where
  covered := ⟨rfl, rfl, rfl, rfl, rfl, rfl, rfl, rfl, nofun, rfl, rfl, rfl, rfl⟩
  ref := rfl
  anyOf := rfl
  definitions := rfl
  defs := rfl
  unlisted := fun h => by rw [h9] at h; cases h
  listed := fun _ => ⟨rfl, rfl, rfl, rfl, rfl, rfl, rfl, rfl, rfl, rfl, rfl, rfl, rfl, rfl, rfl⟩
  listedValues := by
    rintro v (⟨l, h, hv⟩ | h)
    · exact (h2 l h).2 v hv
    · exact (h3 v h).2
  someValue := fun l h => (h2 l h).1
  oneList := by
    cases const with
    | none => exact .inr rfl
    | some v => exact .inl (h3 v rfl).1
  additionalProperties := rfl
  patternProperties := rfl
  prefixItems := rfl
  contains := rfl
  minContains := rfl
  multipleOf := rfl
  known := ht
  type := by
    intro x hx
    cases type with
    | none => cases hx
    | some y => cases hx; rw [h1 y rfl]
  items := nofun
  names := nofun
  requiredNames := nofun
  minProperties := nofun
  maxProperties := nofun
  minItems := nofun
  maxItems := nofun
  string := ⟨nofun, nofun⟩
  arithmetic := .inl hc
  magnitude := ⟨nofun, nofun, nofun, nofun, nofun⟩
  doubles := by
    intro hf
    rw [hc] at hf
    exact absurd (congrFun (congrArg FP.rnd hf) (1 / 3)) (by decide +kernel)

theorem pet_kind {o : Opts} {b : Nat} {x : SchemaNode} (hx : x = petKind ∨ x = petFurry ∨ x = petCat ∨ x = petDog) :
    Concurs demoEnv o petType (b + 1) [some "kind"] x := by
  have hs : ∀ l : List String, ∀ v ∈ l.map JVal.str, v.WF ∧ HasType "string" v := by
    intro l v hv
    obtain ⟨t, _, rfl⟩ := List.mem_map.1 hv
    exact ⟨.str t, .string t⟩
  rcases hx with rfl | rfl | rfl | rfl
  · refine .intro (list_mergeable rfl (by decide) ?_ ?_ nofun) nofun nofun nofun nofun
    · rintro x ⟨⟩; rfl
    · rintro l ⟨⟩; exact ⟨by simp, hs ["eel", "dog", "cat"]⟩
  · refine .intro (list_mergeable rfl (by decide) nofun ?_ nofun) nofun nofun nofun nofun
    rintro l ⟨⟩; exact ⟨by simp, hs ["cat", "dog"]⟩
  · refine .intro (list_mergeable rfl (by decide) nofun nofun ?_) nofun nofun nofun nofun
    rintro l ⟨⟩; exact ⟨rfl, .str _, .string _⟩
  · refine .intro (list_mergeable rfl (by decide) nofun nofun ?_) nofun nofun nofun nofun
    rintro l ⟨⟩; exact ⟨rfl, .str _, .string _⟩

theorem pet_combines (o : Opts) {ts : List String} : Combination demoEnv o petRoot petType 2 ts petRoot := by
  have htag : Concurs demoEnv o petType 1 [some "tag"] petTag := by
    refine .intro (part_mergeable rfl (by decide) ?_ nofun nofun nofun ?_ ?_ nofun nofun) nofun nofun nofun nofun
    · rintro x ⟨⟩; rfl
    · rintro q ⟨⟩; exact small_rat (.inl rfl)
    · rintro q ⟨⟩; exact small_rat (.inr rfl)
  have hplain : ∀ k, k = "kind" ∨ k = "tag" → PlainName k ∧ ¬ Invented k := by
    rintro k (rfl | rfl) <;> exact ⟨by unfold PlainName; decide, short_not_invented (by decide)⟩
  have hbase : Concurs demoEnv o petType 2 [] petBase := by
    refine .intro (part_mergeable rfl (by decide) ?_ ?_ ?_ nofun nofun nofun nofun nofun) nofun nofun ?_ nofun
    · rintro x ⟨⟩; rfl
    · rintro p ⟨⟩
      exact ⟨by decide, fun k hk => hplain k (.inl (by simpa [keysKV] using hk))⟩
    · rintro l ⟨⟩ k hk
      exact (hplain k (.inl (by simpa using hk))).2
    · rintro p k x ⟨⟩ hx
      simp only [List.mem_cons, List.mem_nil_iff, or_false, Prod.mk.injEq] at hx
      obtain ⟨rfl, rfl⟩ := hx
      exact pet_kind (.inl rfl)
  have hone : ∀ x, x = petFurry ∨ x = petDog → Concurs demoEnv o petType 2 []
      (partSchema none (some [("kind", x)]) none (none, none) (none, none) none none none none) := by
    intro x hx
    refine .intro (part_mergeable rfl (by decide) nofun ?_ nofun nofun nofun nofun nofun nofun) nofun nofun ?_ nofun
    · rintro p ⟨⟩
      exact ⟨by simp [keysKV], fun k hk => hplain k (.inl (by simpa [keysKV] using hk))⟩
    · rintro p k y ⟨⟩ hy
      simp only [List.mem_cons, List.mem_nil_iff, or_false, Prod.mk.injEq] at hy
      obtain ⟨rfl, rfl⟩ := hy
      exact pet_kind (hx.elim (fun h => .inr (.inl h)) fun h => .inr (.inr (.inr h)))
  have hcat : Concurs demoEnv o petType 2 [] petIsCat := by
    refine .intro (part_mergeable rfl (by decide) nofun ?_ ?_ nofun nofun nofun nofun nofun) nofun nofun ?_ nofun
    · rintro p ⟨⟩
      exact ⟨by decide, fun k hk => hplain k (by simpa [keysKV] using hk)⟩
    · rintro l ⟨⟩ k hk
      exact (hplain k (.inr (by simpa using hk))).2
    · rintro p k x ⟨⟩ hx
      simp only [List.mem_cons, List.mem_nil_iff, or_false, Prod.mk.injEq] at hx
      rcases hx with ⟨rfl, rfl⟩ | ⟨rfl, rfl⟩
      · exact pet_kind (.inr (.inr (.inl rfl)))
      · exact htag
  refine ⟨?_, ?_, ?_, ?_, ?_⟩
  · exact .intro (part_mergeable rfl (type := none) (properties := none) (required := none) (bounds := (none, none))
      (range := (none, none)) (items := none) (maxItems := none) (minProperties := none)
      (allOf := none) (by decide) nofun nofun nofun nofun nofun nofun nofun nofun) nofun nofun nofun nofun
  · rintro l ⟨⟩; simp
  · rintro l x ⟨⟩ hx
    simp only [List.mem_cons, List.mem_nil_iff, or_false] at hx
    rcases hx with rfl | rfl
    · exact .own hbase
    · exact .own (hone _ (.inl rfl))
  · rintro l ⟨⟩; simp
  · rintro l x ⟨⟩ hx
    left
    simp only [List.mem_cons, List.mem_nil_iff, or_false] at hx
    rcases hx with rfl | rfl
    · exact hcat
    · exact hone _ (.inr rfl)

/-- The schema has one place: the members are parts of the combination. -/
theorem pet_places {d : Nat} {ts : List String} {m : SchemaNode} (h : Inside petRoot d ts m) : m = petRoot ∧ d = 0 := by
  induction h with
  | root => exact ⟨rfl, rfl⟩
  | named _ hn ih =>
    obtain ⟨rfl, rfl⟩ := ih
    cases hn with
    | _ p hp _ => cases hp
  | sub _ hn hkw ih =>
    obtain ⟨rfl, rfl⟩ := ih
    cases hn <;> first | (rename_i hp; cases hp; done) | (rename_i hp _ _; cases hp; done)
  | items _ hi _ _ ih =>
    obtain ⟨rfl, rfl⟩ := ih
    cases hi
  | prefixItems _ hi _ ih =>
    obtain ⟨rfl, rfl⟩ := ih
    cases hi

theorem pet_ok (o : Opts) {d : Nat} {ts : List String} {m : SchemaNode} (h : Inside petRoot d ts m) :
    PlaceOk demoEnv o petRoot d ts m := by
  obtain ⟨rfl, rfl⟩ := pet_places h
  exact .combined petType 2 (pet_combines o) (by rw [show demoEnv.maxParseDepth = 100 from rfl]; decide) nofun nofun

/-- The value generated for the schema. -/
def petValue : JVal := .obj [("kind", .str "cat"), ("tag", .num 1)]

/-- The hypotheses of C56 are met by this schema and this run; the conclusion follows for it. -/
example : ∃ v, JVal.jeq v petValue = true ∧ Valid (patternMeaning demoEnv) petRoot petRoot v := by
  obtain ⟨g, s, v, st, hparse, herr, hgen, hq, hv⟩ :=
    cleanRun_spec (c := demoEnv) (schema := petSchema) (value := petValue) (by decide +kernel)
  exact ⟨v, hv, C56_generated_values_are_valid_partial demoEnv 30 40 petSchema petRoot pet_decodes noteWorld {} rfl rfl
    (fun d ts m hm => pet_ok _ hm) g s hparse herr v st hgen hq⟩

end Chaff
