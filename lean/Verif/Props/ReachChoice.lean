import Verif.Props.ReachNot
/-!
# C75: values of alternatives beside other keywords

Every value of a schema with `anyOf`, or `oneOf`, beside bounds comes out if the bounds allow it with those of an
alternative.
-/

namespace Chaff
open Comp

theorem same_num {a : Rat} {v : JVal} (h : SameJson (.num a) v) : v = .num a := by
  have := SameJson.jeq h (.num a)
  cases v <;> simp_all [JVal.jeq]

/-- An integer between all bounds is attainable for schemas taken together. -/
theorem gathered_integer {c : PEnv} {root : SchemaNode} {w : World} {o : Opts} {row k : Nat} {fol : List String} {ns : List SchemaNode}
    {m : SchemaNode} {z : Int} (hm : Gathers ns m)
    (hty : ∃ n ∈ ns, n.type = some { single := "integer" })
    (hns : ∀ n ∈ ns, n.enum = none ∧ n.const = none ∧ n.exclusiveMinimum = none ∧ n.exclusiveMaximum = none)
    (hlo : ∀ n ∈ ns, ∀ x, n.minimum = some x → x ≤ z ∧ |x| ≤ 2 ^ 48) (hhi : ∀ n ∈ ns, ∀ x, n.maximum = some x → (z : Rat) ≤ x ∧ |x| ≤ 2 ^ 48)
    (hmin : ∃ n ∈ ns, ∃ x, n.minimum = some x) (hmax : ∃ n ∈ ns, ∃ x, n.maximum = some x) :
    Attainable c root w o row fol k m (.num z) := by
  have hun := hm.unlisted fun n hn => ⟨(hns n hn).1, (hns n hn).2.1⟩
  have hemin : ∀ x, m.exclusiveMinimum ≠ some x := fun x hx => by
    obtain ⟨n, hn, h⟩ := hm.exclusiveMinimum.1 x hx
    have h : n.exclusiveMinimum = some x := h
    rw [(hns n hn).2.2.1] at h
    cases h
  have hemax : ∀ x, m.exclusiveMaximum ≠ some x := fun x hx => by
    obtain ⟨n, hn, h⟩ := hm.exclusiveMaximum.1 x hx
    have h : n.exclusiveMaximum = some x := h
    rw [(hns n hn).2.2.2] at h
    cases h
  have lo : ∀ x, m.minimum = some x → x ≤ z ∧ |x| ≤ 2 ^ 48 := fun x hx => by
    obtain ⟨n, hn, h⟩ := hm.minimum.1 x hx
    exact hlo n hn x h
  have hi : ∀ x, m.maximum = some x → (z : Rat) ≤ x ∧ |x| ≤ 2 ^ 48 := fun x hx => by
    obtain ⟨n, hn, h⟩ := hm.maximum.1 x hx
    exact hhi n hn x h
  obtain ⟨a, ha⟩ : ∃ a, m.minimum = some a := by
    obtain ⟨n, hn, x, hx⟩ := hmin
    obtain ⟨a, ha, -⟩ := hm.minimum.2 n hn x hx
    exact ⟨a, ha⟩
  obtain ⟨b, hb⟩ : ∃ b, m.maximum = some b := by
    obtain ⟨n, hn, x, hx⟩ := hmax
    obtain ⟨b, hb, -⟩ := hm.maximum.2 n hn x hx
    exact ⟨b, hb⟩
  refine .integer m z ⟨⟨hm.ref, hm.allOf, hm.anyOf, hm.oneOf, hm.ifN, hm.not⟩, hun.1, hun.2, _, (hm.type _).2 hty, .inl ⟨rfl, rfl⟩⟩ ?_
  refine ⟨⟨fun x hx => (lo x hx).1, fun x hx => (hi x hx).1, fun x hx => (hemin x hx).elim, fun x hx => (hemax x hx).elim, ?_⟩, hm.multipleOf,
    ⟨fun x hx => (lo x hx).2, fun x hx => (hi x hx).2, fun x hx => (hemin x hx).elim,
      fun x hx => (hemax x hx).elim, ?_⟩, fun x hx => (hemin x hx).elim, fun x hx => (hemax x hx).elim, ?_, ?_⟩
  · intro x hx; have : m.multipleOf = some x := hx; rw [hm.multipleOf] at this; cases this
  · intro x hx; have : m.multipleOf = some x := hx; rw [hm.multipleOf] at this; cases this
  · intro h; exact absurd (.inl hb) (h b)
  · intro h; exact absurd (.inl ha) (h a)

/-- The value comes out for suitable random numbers. -/
def Drawable (schema v : JVal) : Prop :=
  ∃ g s, parseSchema rangeEnv 30 schema = .done (.ok (g, none) s) ∧
    ∃ (seeded ambient : Nat → Nat) (gfuel : Nat) (v' : JVal) (st : GSt),
      rootGenerate { noteWorld with seeded := seeded, ambient := ambient } {} (refEnv s) gfuel g = .ok v' st ∧
      SameJson v v' ∧ st.diags = []

/-- Whether the schema parses without errors. -/
def rangeParses (schema : JVal) : Bool :=
  match parseSchema rangeEnv 30 schema with
  | .done (.ok (_, none) s) => s.errors.length = 0
  | _ => false

theorem drawable {schema : JVal} {root : SchemaNode} (hroot : decodeNode schema = some root) (hp : rangeParses schema = true)
    (hok : ∀ d ts m, Inside root d ts m → PlaceOk rangeEnv (withGeneratorOptionsDefaults {}) root d ts m) {z : Int} {row : Nat}
    (hrow : row ≤ 10) (hv : Attainable rangeEnv root noteWorld (withGeneratorOptionsDefaults {}) row [] 0 root (.num z)) :
    Drawable schema (.num z) := by
  unfold rangeParses at hp
  split at hp
  · rename_i g s hparse
    have e1 : (100 : Int) ≤ (withGeneratorOptionsDefaults {}).maximumGenerationSteps := by decide
    have e2 : (100 : Int) ≤ (withGeneratorOptionsDefaults {}).cutoffGenerationSteps := by decide
    have hs : (JVal.num z).steps = 1 := rfl
    exact ⟨g, s, hparse, C75_attainable_values_are_generated_partial rangeEnv 30 schema root hroot noteWorld {} rfl
      hok g s hparse (by simpa using hp) row _ hv (.inr (by rw [hs]; push_cast; omega)) (.inr (by rw [hs]; push_cast; omega))⟩
  · cases hp

/-- A schema whose only place is its root. -/
theorem lone_place {n m : SchemaNode} {d : Nat} {ts : List String} (h1 : n.properties = none) (h2 : n.patternProperties = none)
    (h3 : n.additionalProperties = none) (h4 : n.items = none) (h5 : n.prefixItems = none) (h6 : n.contains = none) (h10 : n.additionalItems = none) (h11 : n.unevaluatedItems = none)
    (h7 : n.defs = none) (h8 : n.definitions = none) (h9 : n.allOf = none) (h : Inside n d ts m) : m = n ∧ d = 0 ∧ ts = [] := by
  induction h with
  | root => exact ⟨rfl, rfl, rfl⟩
  | named _ hn ih =>
    obtain ⟨rfl, rfl, rfl⟩ := ih
    cases hn <;> (rename_i hp _; simp_all)
  | sub _ hn hkw ih =>
    obtain ⟨rfl, rfl, rfl⟩ := ih
    cases hn <;> simp_all
  | items _ hi _ _ ih => obtain ⟨rfl, rfl, rfl⟩ := ih; rw [h4] at hi; cases hi
  | prefixItems _ hi _ ih => obtain ⟨rfl, rfl, rfl⟩ := ih; rw [h5] at hi; cases hi

/-! ## `anyOf` -/

/-- Two ranges above a common lower bound. -/
def gapSchema : JVal := .obj [("type", .str "integer"), ("minimum", .num 1),
  ("anyOf", .arr [.obj [("maximum", .num 3)], .obj [("minimum", .num 7), ("maximum", .num 9)]])]

def gapNode : SchemaNode :=
  { emptyNode with
    type := some { single := "integer" }, minimum := some 1
    anyOf := some [rangeNode none (some 3), rangeNode (some 7) (some 9)] }

set_option maxHeartbeats 4000000 in
theorem gap_decodes : decodeNode gapSchema = some gapNode := by rfl

theorem gap_ok (o : Opts) {d : Nat} {ts : List String} {m : SchemaNode} (h : Inside gapNode d ts m) :
    PlaceOk rangeEnv o gapNode d ts m := by
  have h100 : rangeEnv.maxParseDepth = 100 := rfl
  obtain ⟨rfl, rfl, rfl⟩ := lone_place rfl rfl rfl rfl rfl rfl rfl rfl rfl rfl rfl h
  refine .combined marksType 1 ⟨?_, nofun, nofun, ?_, ?_⟩ (by rw [h100]; decide) nofun nofun
  · exact range_concurs o (type := some "integer") (a := some 1) (b := none) (by rintro x ⟨⟩; rfl)
      (by rintro x ⟨⟩; norm_num) nofun
  · rintro l ⟨⟩; simp
  · rintro l x ⟨⟩ hx
    simp only [List.mem_cons, List.mem_nil_iff, or_false] at hx
    rcases hx with rfl | rfl
    · exact .inl (range_concurs o (type := none) (a := none) (b := some 3) nofun nofun (by rintro x ⟨⟩; norm_num))
    · exact .inl (range_concurs o (type := none) (a := some 7) (b := some 9) nofun (by rintro x ⟨⟩; norm_num) (by rintro x ⟨⟩; norm_num))

/-- Exactly the values of the two ranges are wanted, and each of them comes out. -/
example (z : Int) (hz : (1 ≤ z ∧ z ≤ 3) ∨ (7 ≤ z ∧ z ≤ 9)) : Drawable gapSchema (.num z) := by
  refine drawable gap_decodes (by decide +kernel) (fun d ts m hm => gap_ok _ hm) (row := 1) (by decide) ?_
  have hno : ¬ OnlyAnyOf gapNode := fun h => by
    have := congrArg SchemaNode.toNodeBase h
    have := congrArg NodeBase.type this
    cases this
  have hk : KeptByMerge { gapNode with anyOf := none } :=
    ⟨⟨rfl, rfl, rfl, rfl, rfl, rfl, rfl, rfl, nofun, rfl, rfl, rfl, rfl⟩, rfl, rfl, rfl, rfl, rfl, nofun, nofun, .inl rfl, nofun, nofun, nofun,
      by rintro t ⟨⟩; exact .inl ⟨rfl, by decide⟩⟩
  rcases hz with hz | hz
  · refine .alternative gapNode _ (rangeNode none (some 3)) _ rfl (by simp) hno hk rfl rfl (by decide) fun m hm => ?_
    refine gathered_integer hm ⟨_, List.mem_cons_self, rfl⟩ ?_ ?_ ?_ ⟨_, List.mem_cons_self, _, rfl⟩ ⟨_, List.mem_cons_of_mem _ List.mem_cons_self, _, rfl⟩ <;>
      intro n hn <;> simp only [List.mem_cons, List.mem_nil_iff, or_false] at hn <;> rcases hn with rfl | rfl
    · exact ⟨rfl, rfl, rfl, rfl⟩
    · exact ⟨rfl, rfl, rfl, rfl⟩
    · rintro x ⟨⟩; exact ⟨by exact_mod_cast hz.1, by norm_num⟩
    · rintro x hx; cases hx
    · rintro x hx; cases hx
    · rintro x ⟨⟩; exact ⟨by exact_mod_cast hz.2, by norm_num⟩
  · refine .alternative gapNode _ (rangeNode (some 7) (some 9)) _ rfl (by simp) hno hk rfl rfl (by decide) fun m hm => ?_
    refine gathered_integer hm ⟨_, List.mem_cons_self, rfl⟩ ?_ ?_ ?_ ⟨_, List.mem_cons_self, _, rfl⟩ ⟨_, List.mem_cons_of_mem _ List.mem_cons_self, _, rfl⟩ <;>
      intro n hn <;> simp only [List.mem_cons, List.mem_nil_iff, or_false] at hn <;> rcases hn with rfl | rfl
    · exact ⟨rfl, rfl, rfl, rfl⟩
    · exact ⟨rfl, rfl, rfl, rfl⟩
    · rintro x ⟨⟩; exact ⟨by exact_mod_cast (show 1 ≤ z by omega), by norm_num⟩
    · rintro x ⟨⟩; exact ⟨by exact_mod_cast hz.1, by norm_num⟩
    · rintro x hx; cases hx
    · rintro x ⟨⟩; exact ⟨by exact_mod_cast hz.2, by norm_num⟩

/-! ## `oneOf` -/

/-- The schema of a grade of `Verif/Props/ValidChoice.lean` on its own. -/
def gradeSchema : JVal := .obj [("type", .str "integer"), ("minimum", .num 1), ("maximum", .num 9),
  ("oneOf", .arr [.obj [("maximum", .num 5)], .obj [("minimum", .num 3)]])]

set_option maxHeartbeats 4000000 in
theorem grade_decodes : decodeNode gradeSchema = some gradeNode := by rfl

theorem grade_asked {ts : List String} {f : String} {x : SchemaNode} (h : Asked gradeNode ts f x) :
    (pointerText ts ++ "/" ++ f, x) ∈ [("#/oneOf/0", rangeNode none (some 5)), ("#/oneOf/1", rangeNode (some 3) none)] := by
  cases h with
  | alternative hi ho hx =>
    rename_i l i
    obtain ⟨rfl, rfl, rfl⟩ := lone_place rfl rfl rfl rfl rfl rfl rfl rfl rfl rfl rfl hi
    cases ho
    match i with
    | 0 => cases hx; rw [show pointerText [] ++ "/" ++ s!"oneOf/{0}" = "#/oneOf/0" by decide +kernel]; simp
    | 1 => cases hx; rw [show pointerText [] ++ "/" ++ s!"oneOf/{1}" = "#/oneOf/1" by decide +kernel]; simp
    | k + 2 => simp at hx
  | condition hi ho =>
    obtain ⟨rfl, rfl, rfl⟩ := lone_place rfl rfl rfl rfl rfl rfl rfl rfl rfl rfl rfl hi
    cases ho

theorem grade_ok (o : Opts) {d : Nat} {ts : List String} {m : SchemaNode} (h : Inside gradeNode d ts m) :
    PlaceOk rangeEnv o gradeNode d ts m := by
  have h100 : rangeEnv.maxParseDepth = 100 := rfl
  obtain ⟨rfl, rfl, rfl⟩ := lone_place rfl rfl rfl rfl rfl rfl rfl rfl rfl rfl rfl h
  have hc := grade_choice o
  refine .choice marksType 1 ⟨hc.has, hc.own, hc.written, hc.someAlternative, ?_, ?_⟩ (by rw [h100]; decide) nofun nofun
  · intro l x hl hx
    obtain ⟨h1, h2, _⟩ := hc.alternatives l x hl hx
    cases hl
    simp only [List.mem_cons, List.mem_nil_iff, or_false] at hx
    rcases hx with rfl | rfl <;> exact ⟨h1, h2, range_judged _ _ _⟩
  · intro ts f x ts' f' x' h h' he
    have h1 := grade_asked h
    have h2 := grade_asked h'
    generalize pointerText ts ++ "/" ++ f = a at *
    generalize pointerText ts' ++ "/" ++ f' = b at *
    simp only [List.mem_cons, List.mem_nil_iff, or_false, Prod.mk.injEq] at h1 h2
    rcases h1 with ⟨rfl, rfl⟩ | ⟨rfl, rfl⟩ <;> rcases h2 with ⟨rfl, rfl⟩ | ⟨rfl, rfl⟩ <;>
      first | rfl | (exfalso; revert he; decide +kernel)

/-- Each grade that fits exactly one of the alternatives comes out. -/
example (z : Int) (hz : (1 ≤ z ∧ z < 3) ∨ (5 < z ∧ z ≤ 9)) : Drawable gradeSchema (.num z) := by
  refine drawable grade_decodes (by decide +kernel) (fun d ts m hm => grade_ok _ hm) (row := 3) (by decide) ?_
  have hno : ¬ OnlyOneOf gradeNode := fun h => by
    have := congrArg SchemaNode.toNodeBase h
    have := congrArg NodeBase.type this
    cases this
  rcases hz with hz | hz
  · refine .choice gradeNode _ 0 (rangeNode none (some 5)) _ rfl rfl hno rfl rfl rfl rfl rfl (by decide) ?_ fun m hm => ?_
    · intro v' hv'
      rw [same_num hv']
      refine ⟨range_valid ?_, fun j y hy hj => ?_⟩
      · rintro q ⟨⟩
        exact ⟨nofun, by rintro x ⟨⟩; exact_mod_cast (show z ≤ 5 by omega)⟩
      · match j with
        | 0 => exact (hj rfl).elim
        | 1 =>
          cases hy
          refine range_invalid fun h => ?_
          have : (3 : Int) ≤ z := by exact_mod_cast h.1 3 rfl
          omega
        | j + 2 => simp at hy
    · refine gathered_integer hm ⟨_, List.mem_cons_self, rfl⟩ ?_ ?_ ?_ ⟨_, List.mem_cons_self, _, rfl⟩ ⟨_, List.mem_cons_self, _, rfl⟩ <;>
        intro n hn <;> simp only [List.mem_cons, List.mem_nil_iff, or_false] at hn <;> rcases hn with rfl | rfl
      · exact ⟨rfl, rfl, rfl, rfl⟩
      · exact ⟨rfl, rfl, rfl, rfl⟩
      · rintro x ⟨⟩; exact ⟨by exact_mod_cast hz.1, by norm_num⟩
      · rintro x hx; cases hx
      · rintro x ⟨⟩; exact ⟨by exact_mod_cast (show z ≤ 9 by omega), by norm_num⟩
      · rintro x ⟨⟩; exact ⟨by exact_mod_cast (show z ≤ 5 by omega), by norm_num⟩
  · refine .choice gradeNode _ 1 (rangeNode (some 3) none) _ rfl rfl hno rfl rfl rfl rfl rfl (by decide) ?_ fun m hm => ?_
    · intro v' hv'
      rw [same_num hv']
      refine ⟨range_valid ?_, fun j y hy hj => ?_⟩
      · rintro q ⟨⟩
        exact ⟨by rintro x ⟨⟩; exact_mod_cast (show 3 ≤ z by omega), nofun⟩
      · match j with
        | 0 =>
          cases hy
          refine range_invalid fun h => ?_
          have : z ≤ (5 : Int) := by exact_mod_cast h.2 5 rfl
          omega
        | 1 => exact (hj rfl).elim
        | j + 2 => simp at hy
    · refine gathered_integer hm ⟨_, List.mem_cons_self, rfl⟩ ?_ ?_ ?_ ⟨_, List.mem_cons_self, _, rfl⟩ ⟨_, List.mem_cons_self, _, rfl⟩ <;>
        intro n hn <;> simp only [List.mem_cons, List.mem_nil_iff, or_false] at hn <;> rcases hn with rfl | rfl
      · exact ⟨rfl, rfl, rfl, rfl⟩
      · exact ⟨rfl, rfl, rfl, rfl⟩
      · rintro x ⟨⟩; exact ⟨by exact_mod_cast (show 1 ≤ z by omega), by norm_num⟩
      · rintro x ⟨⟩; exact ⟨by exact_mod_cast (show 3 ≤ z by omega), by norm_num⟩
      · rintro x ⟨⟩; exact ⟨by exact_mod_cast hz.2, by norm_num⟩
      · rintro x hx; cases hx

end Chaff
