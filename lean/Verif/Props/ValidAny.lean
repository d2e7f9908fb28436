import Verif.Props.ReachMore
import Verif.Props.ValidListed
/-!
# C56 and C75 with alternatives of different types

A schema that has nothing but `anyOf`, with alternatives of three types, one of which contains another such schema and
one of which refers back to the whole.  It meets the hypotheses of `C56_generated_values_are_valid_partial` and, for a
value of each of two alternatives, of `C75_attainable_values_are_generated_partial`.
-/

namespace Chaff
open Comp

/-- `{"anyOf": [{"type": "object", "properties": {"n": {"anyOf": [{"type": "null"}, {"type": "integer", "minimum": 1,
"maximum": 9}]}}, "required": ["n"]}, {"type": "boolean"}, {"type": "array", "items": {"$ref": "#"}, "maxItems": 3}]}`. -/
def mixedSchema : JVal := .obj [("anyOf", .arr [
  .obj [("type", .str "object"),
    ("properties", .obj [("n", .obj [("anyOf", .arr [.obj [("type", .str "null")],
      .obj [("type", .str "integer"), ("minimum", .num 1), ("maximum", .num 9)]])])]),
    ("required", .arr [.str "n"])],
  .obj [("type", .str "boolean")],
  .obj [("type", .str "array"), ("items", .obj [("$ref", .str "#")]), ("maxItems", .num 3)]])]

def mixedFlag : SchemaNode := partSchema "boolean" none none (none, none) (none, none) none none none none
def mixedNull : SchemaNode := partSchema "null" none none (none, none) (none, none) none none none none
def mixedInt : SchemaNode := partSchema "integer" none none (none, none) (some 1, some 9) none none none none
def mixedSelf : SchemaNode := { emptyNode with ref := some "#" }
def mixedNumber : SchemaNode := { emptyNode with anyOf := some [mixedNull, mixedInt] }
def mixedArray : SchemaNode := partSchema "array" none none (none, none) (none, none) (some mixedSelf) (some 3) none none
def mixedObject : SchemaNode := partSchema "object" (some [("n", mixedNumber)]) (some ["n"]) (none, none) (none, none) none none none none
def mixedRoot : SchemaNode := { emptyNode with anyOf := some [mixedObject, mixedFlag, mixedArray] }

set_option maxHeartbeats 4000000 in
theorem mixed_decodes : decodeNode mixedSchema = some mixedRoot := rfl

theorem mixed_number {type : Option String} {properties required items maxItems} (lo hi : Option Rat)
    (hlo : ∀ x, lo = some x → x = 1) (hhi : ∀ x, hi = some x → x = 9) :
    NumberSupported FP.exact (partSchema type properties required (none, none) (lo, hi) items maxItems none none) := by
  refine ⟨.inl rfl, ⟨?_, ?_, nofun, nofun, nofun⟩, ?_, ?_⟩
  · intro x hx; rw [hlo x hx]; norm_num
  · intro x hx; rw [hhi x hx]; norm_num
  · intro _ _ x hx; cases hx
  · intro hf
    exact absurd (congrFun (congrArg FP.rnd hf) (1 / 3)) (by decide +kernel)

theorem mixed_supported {c : PEnv} {o : Opts} {root : SchemaNode} {t : String} {properties required items maxItems}
    (lo hi : Option Rat) (hfp : c.fp = FP.exact) (ht : t ∈ jsonTypes) (hlo : ∀ x, lo = some x → x = 1) (hhi : ∀ x, hi = some x → x = 9)
    (hobj : ObjectSupported c o (partSchema (some t) properties required (none, none) (lo, hi) items maxItems none none))
    (harr : ArraySupported o (partSchema (some t) properties required (none, none) (lo, hi) items maxItems none none)) :
    Supported c o root (partSchema (some t) properties required (none, none) (lo, hi) items maxItems none none) where
  covered := by
    refine ⟨rfl, rfl, rfl, rfl, rfl, rfl, rfl, rfl, ?_, rfl, rfl, rfl, rfl⟩
    intro x hx
    cases items with
    | none => cases hx
    | some i => cases hx; rfl
  allOf := rfl
  anyOf := rfl
  ref := nofun
  definitions := nofun
  defs := nofun
  enum := nofun
  const := nofun
  types := ⟨by intro t ht' _; cases ht'; exact ht, by intro t l ht hl; cases ht; cases hl⟩
  object := hobj
  array := harr
  string := ⟨nofun, nofun⟩
  number := by rw [hfp]; exact mixed_number lo hi hlo hhi

theorem mixed_kept {t : String} {properties required items maxItems} (range : Option Rat × Option Rat) (ht : t ≠ "")
    (hreq : required ≠ some []) :
    KeptByMerge (partSchema (some t) properties required (none, none) range items maxItems none none) where
  covered := by
    refine ⟨rfl, rfl, rfl, rfl, rfl, rfl, rfl, rfl, ?_, rfl, rfl, rfl, rfl⟩
    intro x hx
    cases items with
    | none => cases hx
    | some i => cases hx; rfl
  ref := rfl
  allOf := rfl
  anyOf := rfl
  thenN := rfl
  elseN := rfl
  enum := nofun
  someValue := nofun
  oneList := .inl rfl
  required := hreq
  items := by
    intro d hd
    cases items with
    | none => cases hd
    | some i => cases hd; exact ⟨rfl, nofun⟩
  multipleOf := nofun
  type := by intro t' ht'; cases ht'; exact .inl ⟨rfl, ht⟩

theorem mixed_kept_root {x : SchemaNode} (hx : x ∈ [mixedObject, mixedFlag, mixedArray]) : KeptByMerge x := by
  simp only [List.mem_cons, List.mem_nil_iff, or_false] at hx
  rcases hx with rfl | rfl | rfl
  · exact mixed_kept _ (by decide) (by decide)
  · exact mixed_kept _ (by decide) nofun
  · exact mixed_kept _ (by decide) nofun

theorem mixed_kept_number {x : SchemaNode} (hx : x ∈ [mixedNull, mixedInt]) : KeptByMerge x := by
  simp only [List.mem_cons, List.mem_nil_iff, or_false] at hx
  rcases hx with rfl | rfl
  · exact mixed_kept _ (by decide) nofun
  · exact mixed_kept _ (by decide) nofun

theorem no_arrays {o : Opts} {n : SchemaNode} (h1 : n.maxItems = none) (h2 : n.items = none) (h3 : n.minItems = none)
    (h4 : n.minContains = none) (h5 : n.uniqueItems = none) : ArraySupported o n :=
  ⟨by simp [h1], by simp [h2], by simp [h3], fun _ => h2, by simp [h4], by simp [h5]⟩

theorem no_objects {c : PEnv} {o : Opts} {n : SchemaNode} (h1 : n.patternProperties = none) (h2 : n.properties = none)
    (h3 : n.required = none) (h4 : n.maxProperties = none) (h5 : n.minProperties = none) : ObjectSupported c o n :=
  ⟨by simp [h1], by simp [h2], by simp [h3], by simp [h3], by simp [h4], by simp [h5]⟩

theorem mixed_leaf {c : PEnv} (hfp : c.fp = FP.exact) {o : Opts} {root n : SchemaNode}
    (hn : n = mixedFlag ∨ n = mixedNull ∨ n = mixedInt) : Supported c o root n := by
  rcases hn with rfl | rfl | rfl
  · exact mixed_supported _ _ hfp (by decide) nofun nofun (no_objects rfl rfl rfl rfl rfl) (no_arrays rfl rfl rfl rfl rfl)
  · exact mixed_supported _ _ hfp (by decide) nofun nofun (no_objects rfl rfl rfl rfl rfl) (no_arrays rfl rfl rfl rfl rfl)
  · exact mixed_supported _ _ hfp (by decide) (by intro x hx; cases hx; rfl) (by intro x hx; cases hx; rfl)
      (no_objects rfl rfl rfl rfl rfl) (no_arrays rfl rfl rfl rfl rfl)

theorem mixed_array {o : Opts} (ho : o.defaultArrayMinItems ≤ 3) {root : SchemaNode} : Supported demoEnv o root mixedArray :=
  mixed_supported _ _ rfl (by decide) nofun nofun (no_objects rfl rfl rfl rfl rfl)
    ⟨by intro k hk; cases hk; exact ⟨by decide, fun _ => ho⟩, nofun, nofun, nofun, nofun, nofun⟩

theorem mixed_object {o : Opts} {root : SchemaNode} : Supported demoEnv o root mixedObject := by
  refine mixed_supported _ _ rfl (by decide) nofun nofun ?_ (no_arrays rfl rfl rfl rfl rfl)
  refine ⟨nofun, ?_, ?_, nofun, nofun, nofun⟩
  · intro p hp
    cases hp
    refine ⟨by decide, ?_⟩
    intro k hk
    have hk : k = "n" := by simpa [keysKV] using hk
    subst hk
    exact ⟨by unfold PlainName; decide, short_not_invented (by decide)⟩
  · intro l hl k hk
    cases hl
    have hk : k = "n" := by simpa using hk
    subst hk
    exact short_not_invented (by decide)

theorem mixed_self {o : Opts} : Supported demoEnv o mixedRoot mixedSelf where
  covered := ⟨rfl, rfl, rfl, rfl, rfl, rfl, rfl, rfl, (by intro x hx; cases hx), rfl, rfl, rfl, rfl⟩
  allOf := rfl
  anyOf := rfl
  ref := by intro r hr; cases hr; exact ⟨rfl, mixedRoot, 0, [], nofun, by decide, .root⟩
  definitions := nofun
  defs := nofun
  enum := nofun
  const := nofun
  types := ⟨nofun, nofun⟩
  object := no_objects rfl rfl rfl rfl rfl
  array := no_arrays rfl rfl rfl rfl rfl
  string := ⟨nofun, nofun⟩
  number := by
    refine ⟨.inl rfl, ⟨nofun, nofun, nofun, nofun, nofun⟩, nofun, ?_⟩
    intro hf
    exact absurd (congrFun (congrArg FP.rnd hf) (1 / 3)) (by decide +kernel)

/-- The places inside an alternative. -/
theorem leaf_places {n m : SchemaNode} {d : Nat} {ts : List String} (hc : n.children = []) (h : Inside n d ts m) : m = n ∧ d = 0 := by
  refine Inside.places (P := fun d m => m = n ∧ d = 0) ⟨rfl, rfl⟩ ?_ h
  rintro d _ m ⟨rfl, -⟩ hm
  rw [hc] at hm
  cases hm

theorem mixed_number_ok {o : Opts} {d : Nat} (hd : d < 50) : FreeOk demoEnv o mixedRoot d mixedNumber := by
  refine .alternatives rfl rfl (by simp) (by show (d : Int) < 100; omega) (fun x => mixed_kept_number) ?_
  intro x hx e us m hm
  simp only [List.mem_cons, List.mem_nil_iff, or_false] at hx
  have hl : x.children = [] := by rcases hx with rfl | rfl <;> rfl
  obtain ⟨rfl, rfl⟩ := leaf_places hl hm
  exact .plain (mixed_leaf rfl (.inr hx)) (by show ((d + 1 + 0 : Nat) : Int) < 100; omega)

/-- Alternatives are not places. -/
theorem object_places {m : SchemaNode} {d : Nat} {ts : List String} (h : Inside mixedObject d ts m) :
    m = mixedObject ∧ d = 0 ∨ m = mixedNumber ∧ d = 1 := by
  induction h with
  | root => exact .inl ⟨rfl, rfl⟩
  | named _ hn ih =>
    rcases ih with ⟨rfl, rfl⟩ | ⟨rfl, rfl⟩
    · cases hn with
      | properties p hp hm =>
        cases hp
        have hm := lookupKV_mem hm
        simp only [List.mem_cons, List.mem_nil_iff, or_false, Prod.mk.injEq] at hm
        exact .inr ⟨hm.2, rfl⟩
      | _ p hp _ => cases hp
    · cases hn with
      | _ p hp _ => cases hp
  | sub _ hn hkw ih =>
    rcases ih with ⟨rfl, rfl⟩ | ⟨rfl, rfl⟩
    · cases hn <;> first | (rename_i hp; cases hp) | (rename_i hp _ _; cases hp)
    · cases hn <;> first | (rename_i hp; cases hp) | (rename_i hp _ _; cases hp)
  | items _ hi _ _ ih => rcases ih with ⟨rfl, rfl⟩ | ⟨rfl, rfl⟩ <;> cases hi
  | prefixItems _ hi _ ih => rcases ih with ⟨rfl, rfl⟩ | ⟨rfl, rfl⟩ <;> cases hi

theorem array_places {m : SchemaNode} {d : Nat} {ts : List String} (h : Inside mixedArray d ts m) :
    m = mixedArray ∧ d = 0 ∨ m = mixedSelf ∧ d = 1 := by
  refine Inside.places (P := fun d m => m = mixedArray ∧ d = 0 ∨ m = mixedSelf ∧ d = 1) (.inl ⟨rfl, rfl⟩) ?_ h
  have e1 : mixedArray.children = [mixedSelf] := rfl
  have e2 : mixedSelf.children = [] := rfl
  rintro d n m (⟨rfl, rfl⟩ | ⟨rfl, rfl⟩) hm
  · rw [e1] at hm; exact .inr ⟨List.mem_singleton.1 hm, rfl⟩
  · rw [e2] at hm; cases hm

theorem root_places {m : SchemaNode} {d : Nat} {ts : List String} (h : Inside mixedRoot d ts m) : m = mixedRoot ∧ d = 0 := by
  induction h with
  | root => exact ⟨rfl, rfl⟩
  | named _ hn ih =>
    obtain ⟨rfl, rfl⟩ := ih
    cases hn with
    | _ p hp _ => cases hp
  | sub _ hn hkw ih =>
    obtain ⟨rfl, rfl⟩ := ih
    cases hn <;> first | (rename_i hp; cases hp) | (rename_i hp _ _; cases hp)
  | items _ hi _ _ ih => obtain ⟨rfl, rfl⟩ := ih; cases hi
  | prefixItems _ hi _ ih => obtain ⟨rfl, rfl⟩ := ih; cases hi

theorem mixed_parts {o : Opts} (ho : o.defaultArrayMinItems ≤ 3) {x m : SchemaNode} (hx : x ∈ [mixedObject, mixedFlag, mixedArray])
    {e : Nat} {us : List String} (hm : Inside x e us m) : FreeOk demoEnv o mixedRoot (0 + 1 + e) m := by
  simp only [List.mem_cons, List.mem_nil_iff, or_false] at hx
  rcases hx with hx | hx | hx
  · rw [hx] at hm
    rcases object_places hm with ⟨hm, he⟩ | ⟨hm, he⟩ <;> rw [hm, he]
    · exact .plain mixed_object (by decide)
    · exact mixed_number_ok (by decide)
  · have hl : mixedFlag.children = [] := rfl
    rw [hx] at hm
    obtain ⟨hm, he⟩ := leaf_places hl hm
    rw [hm, he]
    exact .plain (mixed_leaf rfl (.inl rfl)) (by decide)
  · rw [hx] at hm
    rcases array_places hm with ⟨hm, he⟩ | ⟨hm, he⟩ <;> rw [hm, he]
    · exact .plain (mixed_array ho) (by decide)
    · exact .plain mixed_self (by decide)

theorem mixed_ok {o : Opts} (ho : o.defaultArrayMinItems ≤ 3) {d : Nat} {ts : List String} {m : SchemaNode}
    (h : Inside mixedRoot d ts m) : PlaceOk demoEnv o mixedRoot d ts m := by
  obtain ⟨rfl, rfl⟩ := root_places h
  exact .union _ rfl rfl (by simp) (by decide) (fun x hx => ⟨x, .own, mixed_kept_root hx, fun e us m hm => mixed_parts ho hx hm⟩)
    nofun nofun

/-- The value generated for the schema with `noteWorld`. -/
def mixedValue : JVal := .obj [("n", .num 1)]

/-- The hypotheses of C56 are met by this schema and this run; the conclusion follows for it. -/
example : ∃ v, JVal.jeq v mixedValue = true ∧ Valid (patternMeaning demoEnv) mixedRoot mixedRoot v := by
  obtain ⟨g, s, v, st, hparse, herr, hgen, hq, hv⟩ :=
    cleanRun_spec (c := demoEnv) (schema := mixedSchema) (value := mixedValue) (by decide +kernel)
  exact ⟨v, hv, C56_generated_values_are_valid_partial demoEnv 30 40 mixedSchema mixedRoot mixed_decodes noteWorld {} rfl rfl
    (fun d ts m hm => mixed_ok (by decide) hm) g s hparse herr v st hgen hq⟩

theorem mixed_comes_out {v : JVal}
    (hv : Attainable demoEnv mixedRoot demoWorld (withGeneratorOptionsDefaults {}) 3 [] 0 mixedRoot v) (hs : v.steps ≤ 20) :
    ComesOut mixedSchema v := by
  have hp : parsesCleanly mixedSchema = true := by decide +kernel
  unfold parsesCleanly at hp
  split at hp
  · rename_i g s hparse
    refine ⟨g, s, hparse, ?_⟩
    have h1 : (100 : Int) ≤ (withGeneratorOptionsDefaults {}).maximumGenerationSteps := by decide
    have h2 : (100 : Int) ≤ (withGeneratorOptionsDefaults {}).cutoffGenerationSteps := by decide
    exact C75_attainable_values_are_generated_partial demoEnv 20 mixedSchema mixedRoot mixed_decodes demoWorld {} rfl
      (fun d ts m hm => mixed_ok (by decide) hm) g s hparse (by simpa using hp) 3 _ hv (.inr (by omega)) (.inr (by omega))
  · cases hp

/-- An object with a number, through two choices. -/
example : ComesOut mixedSchema (.obj [("n", .num 7)]) := by
  refine mixed_comes_out ?_ (by decide)
  refine .anyOf mixedRoot _ mixedObject _ _ rfl rfl (by simp) .own (mixed_kept_root (by simp)) (by decide) ?_
  refine Attainable.asMerged (mixed_kept_root (by simp)) ?_
  refine .object mixedObject _ ⟨⟨rfl, rfl, rfl, rfl, rfl, rfl⟩, rfl, rfl, _, rfl, .inl ⟨rfl, rfl⟩⟩ (by decide) (by decide)
    (by decide) (by decide) (by decide) ⟨by decide, by decide, by decide⟩ ?_
  intro p k x sub hp hx hl
  cases hp
  simp only [List.mem_cons, Prod.mk.injEq, List.mem_nil_iff, or_false] at hx
  obtain ⟨rfl, rfl⟩ := hx
  cases hl
  refine .anyOf mixedNumber _ mixedInt _ _ rfl rfl (by simp) .own (mixed_kept_number (by simp)) (by decide) ?_
  refine Attainable.asMerged (mixed_kept_number (by simp)) ?_
  refine .integer mixedInt 7 ⟨⟨rfl, rfl, rfl, rfl, rfl, rfl⟩, rfl, rfl, _, rfl, .inl ⟨rfl, rfl⟩⟩ ?_
  refine ⟨⟨?_, ?_, nofun, nofun, nofun⟩, rfl, ⟨?_, ?_, nofun, nofun, nofun⟩, nofun, nofun, ?_, ?_⟩
  · intro x hx; cases hx; norm_num
  · intro x hx; cases hx; norm_num
  · intro x hx; cases hx; norm_num
  · intro x hx; cases hx; norm_num
  · intro h; exact absurd (.inl rfl) (h 9)
  · intro h; exact absurd (.inl rfl) (h 1)

/-- A list of flags, through a choice, a reference back to the whole and another choice. -/
example : ComesOut mixedSchema (.arr [.bool true, .bool false]) := by
  refine mixed_comes_out ?_ (by decide)
  refine .anyOf mixedRoot _ mixedArray _ _ rfl rfl (by simp) .own (mixed_kept_root (by simp)) (by decide) ?_
  refine Attainable.asMerged (mixed_kept_root (by simp)) ?_
  refine .array mixedArray _ ⟨⟨rfl, rfl, rfl, rfl, rfl, rfl⟩, rfl, rfl, _, rfl, .inl ⟨rfl, rfl⟩⟩ rfl rfl
    (fun _ => ⟨by decide, by decide, by decide⟩) nofun (fun _ _ _ _ => ⟨_, _, rfl, rfl⟩) nofun nofun ?_
  intro d i x sub hd hn _ hx
  cases hd
  cases hn
  refine .ref mixedSelf "#" mixedRoot _ rfl rfl rfl rfl rfl rfl rfl rfl .root (by decide) (.inl nofun) (by decide) ?_
  refine .anyOf mixedRoot _ mixedFlag _ _ rfl rfl (by simp) .own (mixed_kept_root (by simp)) (by decide) ?_
  refine Attainable.asMerged (mixed_kept_root (by simp)) ?_
  have hb : ∃ b, x = .bool b := by
    match i, hx with
    | 0, hx => cases hx; exact ⟨_, rfl⟩
    | 1, hx => cases hx; exact ⟨_, rfl⟩
  obtain ⟨b, rfl⟩ := hb
  exact .boolean mixedFlag b ⟨⟨rfl, rfl, rfl, rfl, rfl, rfl⟩, rfl, rfl, _, rfl, .inl ⟨rfl, rfl⟩⟩

/-! ## A reference or null -/

/-- `{"anyOf": [{"$ref": "#/$defs/point"}, {"type": "null"}], "$defs": {"point": {"type": "object", "properties": {"x":
{"type": "integer", "minimum": 1, "maximum": 9}}, "required": ["x"]}}}`. -/
def maybeSchema : JVal := .obj [
  ("anyOf", .arr [.obj [("$ref", .str "#/$defs/point")], .obj [("type", .str "null")]]),
  ("$defs", .obj [("point", .obj [("type", .str "object"),
    ("properties", .obj [("x", .obj [("type", .str "integer"), ("minimum", .num 1), ("maximum", .num 9)])]),
    ("required", .arr [.str "x"])])])]

def maybePoint : SchemaNode := partSchema "object" (some [("x", mixedInt)]) (some ["x"]) (none, none) (none, none) none none none none
def maybeRef : SchemaNode := { emptyNode with ref := some (pointerText ["$defs", "point"]) }
def maybeRoot : SchemaNode := { emptyNode with anyOf := some [maybeRef, mixedNull], defs := some [("point", maybePoint)] }

set_option maxHeartbeats 4000000 in
theorem maybe_decodes : decodeNode maybeSchema = some maybeRoot := rfl

theorem maybe_point {o : Opts} : Supported offlineEnv o maybeRoot maybePoint := by
  refine mixed_supported _ _ rfl (by decide) nofun nofun ?_ (no_arrays rfl rfl rfl rfl rfl)
  refine ⟨nofun, ?_, ?_, nofun, nofun, nofun⟩
  · rintro p ⟨⟩
    refine ⟨by decide, fun k hk => ?_⟩
    have hk : k = "x" := by simpa [keysKV] using hk
    subst hk
    exact ⟨by unfold PlainName; decide, short_not_invented (by decide)⟩
  · rintro l ⟨⟩ k hk
    have hk : k = "x" := by simpa using hk
    subst hk
    exact short_not_invented (by decide)

theorem point_faithful : Faithful maybePoint :=
  part_faithful ⟨by rintro t ⟨⟩; exact .inl ⟨by decide, rfl⟩, nofun, nofun, nofun, nofun, nofun, nofun, nofun, nofun, nofun⟩
    rfl rfl rfl rfl rfl rfl rfl (by
      rw [show maybePoint.children = [mixedInt] from rfl]
      rintro x hx
      rw [List.mem_singleton.1 hx]
      exact part_faithful ⟨by rintro t ⟨⟩; exact .inl ⟨by decide, rfl⟩, nofun, nofun, nofun, nofun, nofun, nofun, nofun, nofun,
        nofun⟩ rfl rfl rfl rfl rfl rfl rfl (by rw [show mixedInt.children = [] from rfl]; exact nofun))

theorem maybe_points : PointsTo maybeRoot ["$defs", "point"] maybePoint :=
  .named _ _ _ _ _ _ (.defs _ rfl rfl) (.here _)

theorem maybe_stands : StandsFor offlineEnv maybeRoot [] maybeRef maybePoint :=
  .refer (d := 1) ⟨by decide, by decide, by decide, rfl, rfl, by decide +kernel⟩ (by unfold PlainTokens; decide)
    (.named .root (.defs _ rfl rfl)) maybe_points (by decide) point_faithful (by decide +kernel) (by decide +kernel)

theorem point_places {m : SchemaNode} {d : Nat} {ts : List String} (h : Inside maybePoint d ts m) :
    m = maybePoint ∧ d = 0 ∨ m = mixedInt ∧ d = 1 := by
  refine Inside.places (P := fun d m => m = maybePoint ∧ d = 0 ∨ m = mixedInt ∧ d = 1) (.inl ⟨rfl, rfl⟩) ?_ h
  have e1 : maybePoint.children = [mixedInt] := rfl
  have e2 : mixedInt.children = [] := rfl
  rintro d n m (⟨rfl, rfl⟩ | ⟨rfl, rfl⟩) hm
  · rw [e1] at hm; exact .inr ⟨List.mem_singleton.1 hm, rfl⟩
  · rw [e2] at hm; cases hm

theorem maybe_places {m : SchemaNode} {d : Nat} {ts : List String} (h : Inside maybeRoot d ts m) :
    (m = maybeRoot ∧ d = 0 ∧ ts = []) ∨ (m = maybePoint ∧ d = 1) ∨ (m = mixedInt ∧ d = 2) := by
  induction h with
  | root => exact .inl ⟨rfl, rfl, rfl⟩
  | named _ hn ih =>
    rcases ih with ⟨rfl, rfl, _⟩ | ⟨rfl, rfl⟩ | ⟨rfl, rfl⟩
    · cases hn with
      | defs p hp hm =>
        cases hp
        have hm := lookupKV_mem hm
        simp only [List.mem_cons, List.mem_nil_iff, or_false, Prod.mk.injEq] at hm
        exact .inr (.inl ⟨hm.2, rfl⟩)
      | _ p hp _ => cases hp
    · cases hn with
      | properties p hp hm =>
        cases hp
        have hm := lookupKV_mem hm
        simp only [List.mem_cons, List.mem_nil_iff, or_false, Prod.mk.injEq] at hm
        exact .inr (.inr ⟨hm.2, rfl⟩)
      | _ p hp _ => cases hp
    · cases hn with
      | _ p hp _ => cases hp
  | sub _ hn hkw ih =>
    rcases ih with ⟨rfl, rfl, _⟩ | ⟨rfl, rfl⟩ | ⟨rfl, rfl⟩ <;>
      cases hn <;> first | (rename_i hp; cases hp) | (rename_i hp _ _; cases hp)
  | items _ hi _ _ ih => rcases ih with ⟨rfl, rfl, _⟩ | ⟨rfl, rfl⟩ | ⟨rfl, rfl⟩ <;> cases hi
  | prefixItems _ hi _ ih => rcases ih with ⟨rfl, rfl, _⟩ | ⟨rfl, rfl⟩ | ⟨rfl, rfl⟩ <;> cases hi

theorem maybe_ok {o : Opts} {d : Nat} {ts : List String} {m : SchemaNode} (h : Inside maybeRoot d ts m) :
    PlaceOk offlineEnv o maybeRoot d ts m := by
  have h100 : offlineEnv.maxParseDepth = 100 := rfl
  rcases maybe_places h with ⟨rfl, rfl, rfl⟩ | ⟨rfl, rfl⟩ | ⟨rfl, rfl⟩
  · refine .union _ rfl rfl (by simp) (by rw [h100]; decide) ?_ nofun ?_
    · intro x hx
      simp only [List.mem_cons, List.mem_nil_iff, or_false] at hx
      rcases hx with rfl | rfl
      · refine ⟨maybePoint, maybe_stands, mixed_kept _ (by decide) (by decide), fun e us m hm => ?_⟩
        rcases point_places hm with ⟨hm, he⟩ | ⟨hm, he⟩ <;> rw [hm, he]
        · exact .plain maybe_point (by rw [h100]; decide)
        · exact .plain (mixed_leaf rfl (.inr (.inr rfl))) (by rw [h100]; decide)
      · refine ⟨mixedNull, .own, mixed_kept _ (by decide) nofun, fun e us m hm => ?_⟩
        have hl : mixedNull.children = [] := rfl
        obtain ⟨hm, he⟩ := leaf_places hl hm
        rw [hm, he]
        exact .plain (mixed_leaf rfl (.inr (.inl rfl))) (by rw [h100]; decide)
    · rintro p ⟨⟩
      refine ⟨by decide, fun k hk => ?_⟩
      have hk : k = "point" := by simpa [keysKV] using hk
      subst hk
      unfold PlainName; decide
  · exact .plain maybe_point (by rw [h100]; decide)
  · exact .plain (mixed_leaf rfl (.inr (.inr rfl))) (by rw [h100]; decide)

/-- The hypotheses of C56 are met by this schema and this run; the conclusion follows for it. -/
example : ∃ v, JVal.jeq v (.obj [("x", .num 1)]) = true ∧ Valid (patternMeaning offlineEnv) maybeRoot maybeRoot v := by
  obtain ⟨g, s, v, st, hparse, herr, hgen, hq, hv⟩ :=
    cleanRun_spec (c := offlineEnv) (schema := maybeSchema) (value := .obj [("x", .num 1)]) (by decide +kernel)
  exact ⟨v, hv, C56_generated_values_are_valid_partial offlineEnv 30 40 maybeSchema maybeRoot maybe_decodes noteWorld {} rfl rfl
    (fun d ts m hm => maybe_ok hm) g s hparse herr v st hgen hq⟩

/-- The hypotheses of C75 are met as well: both the null and any of the points come out. -/
example (v : JVal) (hv : v = .null ∨ ∃ i : Int, 1 ≤ i ∧ i ≤ 9 ∧ v = .obj [("x", .num i)]) :
    ∃ g s, parseSchema offlineEnv 30 maybeSchema = .done (.ok (g, none) s) ∧
    ∃ (seeded ambient : Nat → Nat) (gfuel : Nat) (v' : JVal) (st : GSt),
      rootGenerate { noteWorld with seeded := seeded, ambient := ambient } {} (refEnv s) gfuel g = .ok v' st ∧
      SameJson v v' ∧ st.diags = [] := by
  obtain ⟨g, s, _, _, hparse, herr, -⟩ :=
    cleanRun_spec (c := offlineEnv) (schema := maybeSchema) (value := .obj [("x", .num 1)]) (by decide +kernel)
  refine ⟨g, s, hparse, ?_⟩
  have h1 : (100 : Int) ≤ (withGeneratorOptionsDefaults {}).maximumGenerationSteps := by decide
  have h2 : (100 : Int) ≤ (withGeneratorOptionsDefaults {}).cutoffGenerationSteps := by decide
  have hs : v.steps ≤ 2 := by
    rcases hv with rfl | ⟨i, _, _, rfl⟩
    · decide
    · show 2 ≤ 2; decide
  refine C75_attainable_values_are_generated_partial offlineEnv 30 maybeSchema maybeRoot maybe_decodes noteWorld {} rfl
    (fun d ts m hm => maybe_ok hm) g s hparse herr 1 _ ?_ (.inr (by omega)) (.inr (by omega))
  rcases hv with rfl | ⟨i, hi1, hi9, rfl⟩
  · have hk : KeptByMerge mixedNull := mixed_kept _ (by decide) nofun
    refine .anyOf maybeRoot _ mixedNull _ _ rfl rfl (by simp) .own hk (by decide) ?_
    exact Attainable.asMerged hk (.null mixedNull ⟨⟨rfl, rfl, rfl, rfl, rfl, rfl⟩, rfl, rfl, _, rfl, .inl ⟨rfl, rfl⟩⟩)
  · have hk : KeptByMerge maybePoint := mixed_kept _ (by decide) (by decide)
    refine .anyOf maybeRoot _ maybeRef _ _ rfl rfl (by simp) (.refer (by unfold PlainTokens; decide) maybe_points) hk (by decide) ?_
    refine Attainable.asMerged hk ?_
    refine .object maybePoint _ ⟨⟨rfl, rfl, rfl, rfl, rfl, rfl⟩, rfl, rfl, _, rfl, .inl ⟨rfl, rfl⟩⟩ (by decide) (by simp [keysKV])
      (by decide) (by simp [keysKV, maybePoint, partSchema]) (by simp [keysKV, maybePoint, partSchema])
      ⟨by simp [orDefault, maybePoint, partSchema, emptyNode]; decide, by simp [maybePoint, partSchema], .inl (by simp [orDefault, maybePoint, partSchema, emptyNode]; decide)⟩ ?_
    intro p k x sub hp hx hl
    cases hp
    simp only [List.mem_cons, Prod.mk.injEq, List.mem_nil_iff, or_false] at hx
    obtain ⟨rfl, rfl⟩ := hx
    cases hl
    refine .integer mixedInt i ⟨⟨rfl, rfl, rfl, rfl, rfl, rfl⟩, rfl, rfl, _, rfl, .inl ⟨rfl, rfl⟩⟩ ?_
    refine ⟨⟨?_, ?_, nofun, nofun, nofun⟩, rfl, ⟨?_, ?_, nofun, nofun, nofun⟩, nofun, nofun, ?_, ?_⟩
    · intro x hx; cases hx; exact_mod_cast hi1
    · intro x hx; cases hx; exact_mod_cast hi9
    · intro x hx; cases hx; norm_num
    · intro x hx; cases hx; norm_num
    · intro h; exact absurd (.inl rfl) (h 9)
    · intro h; exact absurd (.inl rfl) (h 1)

end Chaff
