import Verif.Props.NumberRange
/-!
# C56, C75: a factor in 64-bit arithmetic

A schema for numbers with `multipleOf` meets the hypotheses of `C56_generated_values_are_valid_partial` and of
`C75_attainable_values_are_generated_partial` in the arithmetic of the program.
-/

namespace Chaff
open Comp

/-- `{"type": "number", "minimum": 10, "maximum": 100, "multipleOf": 5}` -/
def priceSchema : JVal := .obj [("type", .str "number"), ("minimum", .num 10), ("maximum", .num 100), ("multipleOf", .num 5)]

/-- The same, decoded. -/
def priceNode : SchemaNode :=
  { emptyNode with type := some { single := "number" }, minimum := some 10, maximum := some 100, multipleOf := some 5 }

theorem price_decodes : decodeNode priceSchema = some priceNode := by rfl

theorem price_ok (o : Opts) {d : Nat} {ts : List String} {m : SchemaNode} (h : Inside priceNode d ts m) :
    PlaceOk doubleEnv o priceNode d ts m := by
  obtain ⟨rfl, rfl, rfl⟩ := lone_place rfl rfl rfl rfl rfl rfl rfl rfl rfl rfl rfl h
  exact .plain {
    covered := ⟨rfl, rfl, rfl, rfl, rfl, rfl, rfl, rfl, nofun, rfl, rfl, rfl, rfl⟩
    allOf := rfl, anyOf := rfl, ref := nofun, definitions := nofun, defs := nofun, enum := nofun, const := nofun
    types := ⟨by intro t ht _; cases ht; decide, by intro t l ht hl; cases ht; cases hl⟩
    object := by constructor <;> nofun
    array := by constructor <;> nofun
    string := by constructor <;> nofun
    number := {
      arithmetic := .inr rfl
      magnitude := ⟨by rintro x ⟨⟩; norm_num, by rintro x ⟨⟩; norm_num, fun x hx => (by cases hx), fun x hx => (by cases hx),
        by rintro x ⟨⟩; constructor <;> norm_num⟩
      exact := fun h => absurd (congrFun (congrArg FP.rnd h) (1 / 3)) (by decide +kernel)
      doubles := fun _ _ => .inr ⟨⟨5, rfl, by norm_num, by norm_num⟩, by rintro x ⟨⟩; exact ⟨10, by norm_num, by norm_num⟩,
        by rintro x ⟨⟩; exact ⟨100, by norm_num, by norm_num⟩, rfl, rfl⟩ } } (show ((0 : Nat) : Int) < 100 by decide)

/-- The schema parses without an error, and whatever is generated for it without a diagnostic is a multiple of 5 from 10 to 100. -/
example : ∃ g s, parseSchema doubleEnv 10 priceSchema = .done (.ok (g, none) s) ∧
    ∀ (w : World) (o : Opts) (gfuel : Nat) (v : JVal) (st : GSt), w.fp = FP.binary64 → w.plat = doubleEnv.plat →
      rootGenerate w o (refEnv s) gfuel g = .ok v st → st.diags = [] →
      Valid (patternMeaning doubleEnv) priceNode priceNode v := by
  have hp : (match parseSchema doubleEnv 10 priceSchema with
      | .done (.ok (_, none) s) => decide (s.errors.length = 0)
      | _ => false) = true := by decide +kernel
  split at hp
  · rename_i g s hparse
    exact ⟨g, s, hparse, fun w o gfuel v st hf hpl hg hq => C56_generated_values_are_valid_partial doubleEnv 10 gfuel priceSchema
      priceNode price_decodes w o hf hpl (fun d ts m hm => price_ok _ hm) g s hparse (by simpa using hp) v st hg hq⟩
  · cases hp

/-- And every multiple of 5 between 10 and 100 comes out. -/
example (j : Int) (h1 : 2 < j) (h2 : j < 20) : ∃ g s, parseSchema doubleEnv 10 priceSchema = .done (.ok (g, none) s) ∧
    ∃ (seeded ambient : Nat → Nat) (gfuel : Nat) (st : GSt),
      rootGenerate { demoWorld with fp := .binary64, seeded := seeded, ambient := ambient } {} (refEnv s) gfuel g =
        .ok (.num ((j * 5 : Int) : Rat)) st ∧ st.diags = [] := by
  have hp : (match parseSchema doubleEnv 10 priceSchema with
      | .done (.ok (_, none) s) => decide (s.errors.length = 0)
      | _ => false) = true := by decide +kernel
  split at hp
  · rename_i g s hparse
    have hlo : (10 : Rat) ≤ ((j * 5 : Int) : Rat) := by exact_mod_cast (by omega : (10 : Int) ≤ j * 5)
    have hhi : ((j * 5 : Int) : Rat) ≤ 100 := by exact_mod_cast (by omega : j * 5 ≤ (100 : Int))
    have hreach : MultipleReach (numKeywords priceNode) (j * 5) :=
      { accepts := ⟨by rintro x ⟨⟩; exact hlo, by rintro x ⟨⟩; exact hhi, fun x hx => (by cases hx), fun x hx => (by cases hx),
          by rintro x ⟨⟩; exact ⟨j, by push_cast; rfl⟩⟩
        exclusiveMinimum := rfl, exclusiveMaximum := rfl
        bounds := ⟨10, 100, 5, rfl, rfl, rfl, by norm_num, by norm_num, by norm_num, by norm_num, by omega, .inl (by omega)⟩ }
    obtain ⟨f1, f2, k, v', st, e1, e2, e3⟩ := C75_attainable_values_are_generated_partial doubleEnv 10 priceSchema priceNode
      price_decodes { demoWorld with fp := .binary64 } {} rfl (fun d ts m hm => price_ok _ hm) g s hparse (by simpa using hp) 0 _
      (.wholeMultiple priceNode (j * 5) ⟨⟨rfl, rfl, rfl, rfl, rfl, rfl⟩, rfl, rfl, _, rfl, .inl ⟨rfl, rfl⟩⟩ hreach
        (by rw [abs_le]; constructor <;> omega))
      (by simp only [JVal.steps]; omega) (by simp only [JVal.steps]; omega)
    rw [same_num e2] at e1
    exact ⟨g, s, hparse, f1, f2, k, st, e1, e3⟩
  · cases hp

/-- A run that meets the hypotheses. -/
example : (match parseSchema doubleEnv 10 priceSchema with
    | .done (.ok (g, none) s) =>
      (match rootGenerate { demoWorld with fp := .binary64 } {} (refEnv s) 10 g with
        | .ok (.num q) st => decide (q = 10 ∨ 10 < q) && st.diags.isEmpty
        | _ => false)
    | _ => false) = true := by decide +kernel

end Chaff
