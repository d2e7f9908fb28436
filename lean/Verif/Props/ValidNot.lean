import Verif.Props.ValidChoice
/-!
# C56: exclusions

The hypotheses of C56 are met by a schema with `not`.

    {"type": "object", "required": ["port", "user"], "properties": {
      "port": {"type": "integer", "minimum": 1, "maximum": 9, "not": {"enum": [3, 5]}},
      "user": {"type": "object", "properties": {"id": {"type": "integer"}, "root": {"type": "integer"}},
               "required": ["id"], "not": {"required": ["root"]}}}}
-/

namespace Chaff
open Comp

/-- The schema as JSON. -/
def loginSchema : JVal := .obj [("type", .str "object"), ("required", .arr [.str "port", .str "user"]),
  ("properties", .obj [
    ("port", .obj [("type", .str "integer"), ("minimum", .num 1), ("maximum", .num 9),
      ("not", .obj [("enum", .arr [.num 3, .num 5])])]),
    ("user", .obj [("type", .str "object"), ("properties", .obj [("id", .obj [("type", .str "integer")]),
      ("root", .obj [("type", .str "integer")])]), ("required", .arr [.str "id"]),
      ("not", .obj [("required", .arr [.str "root"])])])])]

def loginPort : SchemaNode :=
  { emptyNode with
    type := some { single := "integer" }, minimum := some 1, maximum := some 9
    not := some { emptyNode with enum := some [.num 3, .num 5] } }

def loginId : SchemaNode := partSchema (some "integer") none none (none, none) (none, none) none none none none

def loginUser : SchemaNode :=
  { emptyNode with
    type := some { single := "object" }, properties := some [("id", loginId), ("root", loginId)], required := some ["id"]
    not := some { emptyNode with required := some ["root"] } }

/-- The whole schema, decoded. -/
def loginRoot : SchemaNode :=
  { emptyNode with
    type := some { single := "object" }, required := some ["port", "user"]
    properties := some [("port", loginPort), ("user", loginUser)] }

set_option maxHeartbeats 4000000 in
theorem login_decodes : decodeNode loginSchema = some loginRoot := by rfl

/-- Every place in the schema. -/
theorem login_places {d : Nat} {ts : List String} {m : SchemaNode} (h : Inside loginRoot d ts m) :
    (m = loginRoot ∧ d = 0) ∨ (m = loginPort ∧ d = 1) ∨ (m = loginUser ∧ d = 1) ∨ (m = loginId ∧ d = 2) := by
  induction h with
  | root => exact .inl ⟨rfl, rfl⟩
  | named _ hn ih =>
    rcases ih with ⟨rfl, rfl⟩ | ⟨rfl, rfl⟩ | ⟨rfl, rfl⟩ | ⟨rfl, rfl⟩
    · cases hn with
      | properties p hp hl =>
        cases hp
        have := lookupKV_mem hl
        simp only [List.mem_cons, List.mem_nil_iff, or_false, Prod.mk.injEq] at this
        rcases this with ⟨rfl, rfl⟩ | ⟨rfl, rfl⟩
        · exact .inr (.inl ⟨rfl, rfl⟩)
        · exact .inr (.inr (.inl ⟨rfl, rfl⟩))
      | _ p hp _ => cases hp
    · cases hn with
      | _ p hp _ => cases hp
    · cases hn with
      | properties p hp hl =>
        cases hp
        have := lookupKV_mem hl
        simp only [List.mem_cons, List.mem_nil_iff, or_false, Prod.mk.injEq] at this
        rcases this with ⟨rfl, rfl⟩ | ⟨rfl, rfl⟩ <;> exact .inr (.inr (.inr ⟨rfl, rfl⟩))
      | _ p hp _ => cases hp
    · cases hn with
      | _ p hp _ => cases hp
  | sub _ hn hkw ih =>
    rcases ih with ⟨rfl, rfl⟩ | ⟨rfl, rfl⟩ | ⟨rfl, rfl⟩ | ⟨rfl, rfl⟩ <;> cases hn <;>
      first | (rename_i hp; cases hp; done) | (rename_i hp _ _; cases hp; done) | exact absurd (by simp) hkw
  | items _ hi _ _ ih => rcases ih with ⟨rfl, rfl⟩ | ⟨rfl, rfl⟩ | ⟨rfl, rfl⟩ | ⟨rfl, rfl⟩ <;> cases hi
  | prefixItems _ hi _ ih => rcases ih with ⟨rfl, rfl⟩ | ⟨rfl, rfl⟩ | ⟨rfl, rfl⟩ | ⟨rfl, rfl⟩ <;> cases hi

theorem port_exclusion (o : Opts) : Exclusion rangeEnv o marksType 1 loginPort where
  has := nofun
  own := range_concurs o (type := some "integer") (a := some 1) (b := some 9) (by rintro x ⟨⟩; rfl)
    (by rintro x ⟨⟩; norm_num) (by rintro x ⟨⟩; norm_num)
  written := ⟨rfl, rfl, rfl, nofun, nofun, nofun⟩
  type := rfl
  unlisted := ⟨rfl, rfl⟩
  exclusive := ⟨rfl, rfl⟩
  negated := by
    rintro x ⟨⟩
    refine .enum _ nofun ?_
    intro w hw
    simp only [List.mem_cons, List.mem_nil_iff, or_false] at hw
    rcases hw with rfl | rfl <;> exact .num _

/-- An object of integers. -/
def userType : ValuePath → Kind
  | [] => "object"
  | _ => "integer"

theorem user_exclusion (o : Opts) : Exclusion rangeEnv o userType 2 loginUser where
  has := nofun
  own := by
    refine .intro (part_mergeable (type := some "object") (properties := some [("id", loginId), ("root", loginId)])
      (required := some ["id"]) (bounds := (none, none)) (range := (none, none)) (items := none) (maxItems := none)
      (minProperties := none) (allOf := none) rfl (by decide) (by rintro x ⟨⟩; rfl) ?_ ?_ nofun nofun nofun nofun nofun)
      nofun nofun ?_ nofun
    · rintro p ⟨⟩
      refine ⟨by decide, fun k hk => ?_⟩
      have hk : k = "id" ∨ k = "root" := by simpa [keysKV] using hk
      rcases hk with rfl | rfl <;> exact ⟨by unfold PlainName; decide, short_not_invented (by decide)⟩
    · rintro l ⟨⟩ k hk
      have hk : k = "id" := by simpa using hk
      subst hk
      exact short_not_invented (by decide)
    · rintro p k x ⟨⟩ hm
      have hx : x = loginId := by
        simp only [List.mem_cons, List.mem_nil_iff, or_false, Prod.mk.injEq] at hm
        rcases hm with ⟨_, rfl⟩ | ⟨_, rfl⟩ <;> rfl
      subst hx
      exact .intro (part_mergeable rfl (show "integer" ∈ jsonTypes by decide) (by rintro x ⟨⟩; rfl) nofun nofun nofun nofun nofun nofun nofun)
        nofun nofun nofun nofun
  written := ⟨rfl, rfl, rfl, nofun, nofun, nofun⟩
  type := rfl
  unlisted := ⟨rfl, rfl⟩
  exclusive := ⟨rfl, rfl⟩
  negated := by
    rintro x ⟨⟩
    exact .required ["root"] rfl ⟨"root", by simp, by decide⟩

theorem login_ok (o : Opts) {d : Nat} {ts : List String} {m : SchemaNode}
    (h : Inside loginRoot d ts m) : PlaceOk rangeEnv o loginRoot d ts m := by
  have h100 : rangeEnv.maxParseDepth = 100 := rfl
  have hno : ∀ F : Prop, FP.exact = FP.binary64 → F := fun F hf =>
    absurd (congrFun (congrArg FP.rnd hf) (1 / 3)) (by decide +kernel)
  rcases login_places h with ⟨rfl, rfl⟩ | ⟨rfl, rfl⟩ | ⟨rfl, rfl⟩ | ⟨rfl, rfl⟩
  · refine .plain ?_ (by rw [h100]; decide)
    exact {
      covered := ⟨rfl, rfl, rfl, rfl, rfl, rfl, rfl, rfl, nofun, rfl, rfl, rfl, rfl⟩
      allOf := rfl, anyOf := rfl, ref := nofun, definitions := nofun, defs := nofun
      enum := nofun, const := nofun
      types := ⟨by rintro t ⟨⟩ _; decide, by rintro t l ⟨⟩ ⟨⟩⟩
      object := {
        patterns := nofun
        names := by
          rintro p ⟨⟩
          refine ⟨by decide, fun k hk => ?_⟩
          have hk : k = "port" ∨ k = "user" := by simpa [keysKV] using hk
          rcases hk with rfl | rfl <;> exact ⟨by unfold PlainName; decide, short_not_invented (by decide)⟩
        requiredNames := by
          rintro l ⟨⟩ k hk
          have hk : k = "port" ∨ k = "user" := by simpa [keysKV] using hk
          rcases hk with rfl | rfl <;> exact short_not_invented (by decide)
        requiredDeclared := nofun, maximum := nofun, closedMinimum := nofun }
      array := ⟨nofun, nofun, nofun, fun _ => rfl, nofun, nofun⟩
      string := ⟨nofun, nofun⟩
      number := ⟨.inl rfl, ⟨nofun, nofun, nofun, nofun, nofun⟩, nofun, fun hf => hno _ hf⟩ }
  · exact .exclusion marksType 1 (port_exclusion o) (by rw [h100]; decide) nofun nofun
  · exact .exclusion userType 2 (user_exclusion o) (by rw [h100]; decide) nofun nofun
  · refine .plain ?_ (by rw [h100]; decide)
    exact {
      covered := ⟨rfl, rfl, rfl, rfl, rfl, rfl, rfl, rfl, nofun, rfl, rfl, rfl, rfl⟩
      allOf := rfl, anyOf := rfl, ref := nofun, definitions := nofun, defs := nofun
      enum := nofun, const := nofun
      types := ⟨by rintro t ⟨⟩ _; decide, by rintro t l ⟨⟩ ⟨⟩⟩
      object := ⟨nofun, nofun, nofun, nofun, nofun, nofun⟩
      array := ⟨nofun, nofun, nofun, fun _ => rfl, nofun, nofun⟩
      string := ⟨nofun, nofun⟩
      number := ⟨.inl rfl, ⟨nofun, nofun, nofun, nofun, nofun⟩, nofun, fun hf => hno _ hf⟩ }

/-- The value generated for it. -/
def loginValue : JVal := .obj [("port", .num 1), ("user", .obj [("id", .num 0)])]

/-- The schema parses without errors, and this value is generated without a diagnostic. -/
def loginRun : Bool :=
  match parseSchema rangeEnv 30 loginSchema with
  | .done (.ok (g, none) s) => s.errors.length = 0 &&
    match rootGenerate noteWorld {} (refEnv s) 40 g with
    | .ok v st => st.diags.length = 0 && JVal.jeq v loginValue
    | _ => false
  | _ => false

/-- The hypotheses of C56 are met by this schema and this run; the conclusion follows for it. -/
example : loginRun = true ∧
    ∃ v, JVal.jeq v loginValue = true ∧ Valid (patternMeaning rangeEnv) loginRoot loginRoot v := by
  have hrun : loginRun = true := by decide +kernel
  refine ⟨hrun, ?_⟩
  unfold loginRun at hrun
  split at hrun
  · rename_i g s hparse
    rw [Bool.and_eq_true] at hrun
    obtain ⟨h1, h2⟩ := hrun
    split at h2
    · rename_i v st hgen
      rw [Bool.and_eq_true] at h2
      refine ⟨v, h2.2, ?_⟩
      exact C56_generated_values_are_valid_partial rangeEnv 30 40 loginSchema loginRoot login_decodes noteWorld {} rfl rfl
        (fun d ts m hm => login_ok _ hm) g s hparse (by simpa using h1) v st hgen (by simpa using h2.1)
    · cases h2
  · cases hrun

end Chaff
