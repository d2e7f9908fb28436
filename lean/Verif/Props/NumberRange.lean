import Verif.Props.ReachChoice
/-!
# C87: numbers from everywhere between the bounds

A test that draws enough numbers should come near every number that the schema allows.  In 64-bit arithmetic not every
number exists, so "near" allows for rounding errors.
-/

namespace Chaff
open Comp

/-- Rounding moves a number by at most one part in 2^53, or by half of the smallest positive number. -/
def FP.Near (F : FP) : Prop := ∀ q, |F.rnd q - q| ≤ |q| / 2 ^ 53 + 1 / 2 ^ 1075

theorem near_exact : FP.exact.Near := fun q => by
  show |q - q| ≤ _
  rw [sub_self, abs_zero]
  positivity

theorem near_double : FP.binary64.Near := fun q => by
  show |binary64Rnd q - q| ≤ _
  by_cases hq : q = 0
  · subst hq; rw [rnd64_zero, sub_self, abs_zero]; positivity
  have hp := pow2_pos (ulpExp q)
  have h1 : |binary64Rnd q - q| ≤ pow2 (ulpExp q) / 2 := by
    unfold binary64Rnd
    rw [if_neg hq]
    have h := abs_roundEven_sub (q / pow2 (ulpExp q))
    have e : (roundEven (q / pow2 (ulpExp q)) : Rat) * pow2 (ulpExp q) - q =
        ((roundEven (q / pow2 (ulpExp q)) : Rat) - q / pow2 (ulpExp q)) * pow2 (ulpExp q) := by
      field_simp
    rw [e, abs_mul, abs_of_pos hp]
    have := mul_le_mul_of_nonneg_right h hp.le
    linarith
  refine h1.trans ?_
  unfold ulpExp
  rcases max_choice (ilog2 q - 52) (-1074) with h | h <;> rw [h]
  · have h2 := (ilog2_spec hq).1
    have e : pow2 (ilog2 q - 52) = pow2 (ilog2 q) / 2 ^ 52 := by
      rw [pow2_eq, pow2_eq, zpow_sub₀ (by norm_num)]
      norm_num
    rw [e]
    have : (0 : Rat) ≤ 1 / 2 ^ 1075 := by positivity
    have h3 : pow2 (ilog2 q) / 2 ^ 52 / 2 = pow2 (ilog2 q) / 2 ^ 53 := by rw [div_div]; norm_num
    have h4 : pow2 (ilog2 q) / 2 ^ 53 ≤ |q| / 2 ^ 53 := by gcongr
    linarith
  · have e : pow2 (-1074) / 2 = 1 / 2 ^ 1075 := by
      rw [pow2_eq, zpow_neg, div_eq_iff (by norm_num), one_div]
      rw [show ((1074 : Int)) = ((1074 : Nat) : Int) from rfl, zpow_natCast, pow_succ (2 : Rat) 1074, mul_inv]
      rw [mul_assoc, inv_mul_cancel₀ (by norm_num), mul_one]
    rw [e]
    have : 0 ≤ |q| / 2 ^ 53 := by positivity
    linarith

/-- Some of the 2^53 steps from `a` to `b` comes near `x`. -/
theorem step_near {F : FP} (hF : F.Near) {a b x : Rat} (hab : a < b) (hax : a ≤ x) (hxb : x ≤ b) :
    ∃ j : Nat, j < 2 ^ 53 ∧
      |F.add (F.mul ((j : Rat) / 2 ^ 53) (F.sub b a)) a - x| ≤ (|a| + |b|) / 2 ^ 50 + 1 / 2 ^ 1000 := by
  have hD : 0 < b - a := by linarith
  obtain ⟨j, hj, hj1⟩ : ∃ j : Nat, j < 2 ^ 53 ∧ |(j : Rat) / 2 ^ 53 * (b - a) - (x - a)| ≤ (b - a) / 2 ^ 53 := by
    by_cases hx : x = b
    · refine ⟨2 ^ 53 - 1, by norm_num, ?_⟩
      rw [hx]
      have : (((2 ^ 53 - 1 : Nat) : Rat)) = 2 ^ 53 - 1 := by norm_num
      rw [this, show ((2 : Rat) ^ 53 - 1) / 2 ^ 53 * (b - a) - (b - a) = -((b - a) / 2 ^ 53) by ring, abs_neg,
        abs_of_nonneg (by positivity)]
    · have hlt : x < b := lt_of_le_of_ne hxb hx
      have hy0 : 0 ≤ (x - a) / (b - a) * 2 ^ 53 := by
        have : 0 ≤ x - a := by linarith
        positivity
      have hy1 : (x - a) / (b - a) * 2 ^ 53 < 2 ^ 53 := by
        have : (x - a) / (b - a) < 1 := by rw [div_lt_one hD]; linarith
        have := mul_lt_mul_of_pos_right this (show (0 : Rat) < 2 ^ 53 by norm_num)
        linarith
      have hye : x - a = (x - a) / (b - a) * 2 ^ 53 / 2 ^ 53 * (b - a) := by field_simp
      generalize (x - a) / (b - a) * 2 ^ 53 = y at hy0 hy1 hye
      refine ⟨⌊y⌋₊, ?_, ?_⟩
      · rw [Nat.floor_lt hy0]; exact_mod_cast hy1
      · have h1 := Nat.floor_le hy0
        have h2 := Nat.lt_floor_add_one y
        rw [hye, show ((⌊y⌋₊ : Nat) : Rat) / 2 ^ 53 * (b - a) - y / 2 ^ 53 * (b - a) = -((y - (⌊y⌋₊ : Rat)) * ((b - a) / 2 ^ 53)) by ring,
          abs_neg, abs_of_nonneg (mul_nonneg (by linarith) (by positivity))]
        have := mul_le_mul_of_nonneg_right (show y - (⌊y⌋₊ : Rat) ≤ 1 by linarith) (show 0 ≤ (b - a) / 2 ^ 53 by positivity)
        linarith
  refine ⟨j, hj, ?_⟩
  have hu0 : 0 ≤ (j : Rat) / 2 ^ 53 := by positivity
  have hu1 : (j : Rat) / 2 ^ 53 ≤ 1 := by
    rw [div_le_one (by norm_num)]
    exact_mod_cast hj.le
  generalize (j : Rat) / 2 ^ 53 = u at hj1 hu0 hu1 ⊢
  unfold FP.add FP.mul FP.sub
  have n1 := hF (b - a)
  have n2 := hF (u * F.rnd (b - a))
  have n3 := hF (F.rnd (u * F.rnd (b - a)) + a)
  have hη : (0 : Rat) ≤ 1 / 2 ^ 1075 := by positivity
  have hη' : (8 : Rat) * (1 / 2 ^ 1075) ≤ 1 / 2 ^ 1000 := by
    rw [mul_one_div, div_le_div_iff₀ (by positivity) (by positivity), one_mul]
    calc (8 : Rat) * 2 ^ 1000 = 2 ^ 1003 := by rw [show (8 : Rat) = 2 ^ 3 by norm_num, ← pow_add]
      _ ≤ 2 ^ 1075 := pow_le_pow_right₀ (by norm_num) (by norm_num)
  generalize (1 : Rat) / 2 ^ 1075 = η at n1 n2 n3 hη hη'
  generalize (1 : Rat) / 2 ^ 1000 = θ at hη' ⊢
  generalize F.rnd (b - a) = d at *
  rw [abs_of_pos hD] at n1
  have n1' := abs_le.1 n1
  -- the product
  have m1 : |u * d - u * (b - a)| ≤ (b - a) / 2 ^ 53 + η := by
    rw [← mul_sub, abs_mul, abs_of_nonneg hu0]
    exact (mul_le_of_le_one_left (abs_nonneg _) hu1).trans n1
  have hud : |u * d| ≤ (b - a) + ((b - a) / 2 ^ 53 + η) := by
    rw [abs_mul, abs_of_nonneg hu0]
    refine (mul_le_of_le_one_left (abs_nonneg _) hu1).trans ?_
    rw [abs_le]
    constructor <;> linarith [n1'.1, n1'.2]
  generalize u * d = p at *
  have n2' : |F.rnd p - p| ≤ ((b - a) + ((b - a) / 2 ^ 53 + η)) / 2 ^ 53 + η := n2.trans (by gcongr)
  generalize F.rnd p = p' at *
  have hp' : |p'| ≤ (b - a) + ((b - a) / 2 ^ 53 + η) + (((b - a) + ((b - a) / 2 ^ 53 + η)) / 2 ^ 53 + η) := by
    have := abs_add_le (p' - p) p
    rw [sub_add_cancel] at this
    linarith
  have n3' : |F.rnd (p' + a) - (p' + a)| ≤
      ((b - a) + ((b - a) / 2 ^ 53 + η) + (((b - a) + ((b - a) / 2 ^ 53 + η)) / 2 ^ 53 + η) + |a|) / 2 ^ 53 + η := by
    refine n3.trans ?_
    have := abs_add_le p' a
    gcongr
    linarith
  generalize F.rnd (p' + a) = q at *
  have hDs : b - a ≤ |a| + |b| := by linarith [neg_abs_le a, le_abs_self b]
  have ha0 := abs_nonneg a
  have hb0 := abs_nonneg b
  have a1 := abs_le.1 hj1
  have a2 := abs_le.1 m1
  have a3 := abs_le.1 n2'
  have a4 := abs_le.1 n3'
  generalize |a| = A at *
  generalize |b| = B at *
  norm_num at a1 a2 a3 a4 ⊢
  rw [abs_le]
  constructor <;> linarith [a1.1, a1.2, a2.1, a2.2, a3.1, a3.2, a4.1, a4.2]

/-- C87.  Let a schema for numbers parse without an error, and let `a` and `b` be its bounds, or what stands for a missing
bound (`NumRange`).  For every number `x` between them there are random numbers with which generation returns a number near `x`. -/
theorem C87_no_gap_between_bounds (c : PEnv) (fuel : Nat) (schema : JVal) (root : SchemaNode)
    (hroot : decodeNode schema = some root) (w : World) (o : Opts) (hfp : w.fp = c.fp)
    (hsup : ∀ d ts m, Inside root d ts m → PlaceOk c (withGeneratorOptionsDefaults o) root d ts m)
    (g : Gen) (s : PSt) (hparse : parseSchema c fuel schema = .done (.ok (g, none) s)) (herr : s.errors = [])
    (harith : c.fp = FP.exact ∨ c.fp = FP.binary64)
    (hty : Allows root "number") (a b : Rat) (hrange : NumRange c.fp root.minimum root.maximum a b) (hab : a < b)
    (hma : |a| ≤ 2 ^ 53) (hmb : |b| ≤ 2 ^ 53) (hmul : root.multipleOf = none) (he1 : root.exclusiveMinimum = none)
    (he2 : root.exclusiveMaximum = none)
    (x : Rat) (hax : a ≤ x) (hxb : x ≤ b) :
    ∃ (seeded ambient : Nat → Nat) (gfuel : Nat) (q : Rat) (st : GSt),
      rootGenerate { w with seeded := seeded, ambient := ambient } o (refEnv s) gfuel g = .ok (.num q) st ∧
      |q - x| ≤ (|a| + |b|) / 2 ^ 50 + 1 / 2 ^ 1000 ∧ st.diags = [] := by
  have hF : c.fp.Near := by
    rcases harith with h | h <;> rw [h]
    · exact near_exact
    · exact near_double
  obtain ⟨j, hj, hq⟩ := step_near hF hab hax hxb
  obtain ⟨f1, f2, k, v', st, h1, h2, h3⟩ := C75_attainable_values_are_generated_partial c fuel schema root hroot w o hfp hsup g s hparse
    herr 0 _ (.number root _ hty ⟨hmul, he1, he2, a, b, j, hrange, hab, hma, hmb, hj, rfl⟩)
    (by simp only [JVal.steps]; omega) (by simp only [JVal.steps]; omega)
  rw [same_num h2] at h1
  exact ⟨f1, f2, k, _, st, h1, hq, h3⟩

/-! ## A schema -/

/-- 64-bit arithmetic. -/
def doubleEnv : PEnv := { demoEnv with fp := .binary64 }

/-- `{"type": "number", "minimum": -1, "maximum": 2.5}` -/
def tempSchema : JVal := .obj [("type", .str "number"), ("minimum", .num (-1)), ("maximum", .num (5 / 2))]

/-- A schema for numbers with bounds. -/
def numberNode (a b : Option Rat) : SchemaNode :=
  { emptyNode with type := some { single := "number" }, minimum := a, maximum := b }

theorem temp_decodes : decodeNode tempSchema = some (numberNode (some (-1)) (some (5 / 2))) := by rfl

theorem numberNode_ok (o : Opts) {a b : Option Rat} (ha : ∀ x, a = some x → |x| ≤ 2 ^ 50 ∧ binary64Rnd x = x)
    (hb : ∀ x, b = some x → |x| ≤ 2 ^ 50 ∧ binary64Rnd x = x) {d : Nat} {ts : List String} {m : SchemaNode}
    (h : Inside (numberNode a b) d ts m) : PlaceOk doubleEnv o (numberNode a b) d ts m := by
  obtain ⟨rfl, rfl, rfl⟩ := lone_place rfl rfl rfl rfl rfl rfl rfl rfl rfl rfl rfl h
  exact .plain {
    covered := ⟨rfl, rfl, rfl, rfl, rfl, rfl, rfl, rfl, nofun, rfl, rfl, rfl, rfl⟩
    allOf := rfl, anyOf := rfl, ref := nofun, definitions := nofun, defs := nofun, enum := nofun, const := nofun
    types := ⟨by intro t ht _; cases ht; decide, by intro t l ht hl; cases ht; cases hl⟩
    object := by constructor <;> nofun
    array := by constructor <;> nofun
    string := by constructor <;> nofun
    number := {
      arithmetic := .inr rfl
      magnitude := ⟨fun x hx => (ha x hx).1, fun x hx => (hb x hx).1, fun x hx => (by cases hx), fun x hx => (by cases hx),
        fun x hx => (by cases hx)⟩
      exact := fun _ _ m hm => (by cases hm)
      doubles := fun _ _ => .inl ⟨rfl, fun x hx => (ha x hx).2, fun x hx => (hb x hx).2, fun x hx => (by cases hx),
        fun x hx => (by cases hx)⟩ } } (show ((0 : Nat) : Int) < 100 by decide)

/-- Near every number from -1 to 2.5 there is one that comes out. -/
example (x : Rat) (h1 : -1 ≤ x) (h2 : x ≤ 5 / 2) : ∃ g s, parseSchema doubleEnv 10 tempSchema = .done (.ok (g, none) s) ∧
    ∃ (seeded ambient : Nat → Nat) (gfuel : Nat) (q : Rat) (st : GSt),
      rootGenerate { demoWorld with fp := .binary64, seeded := seeded, ambient := ambient } {} (refEnv s) gfuel g = .ok (.num q) st ∧
      |q - x| ≤ 1 / 2 ^ 48 ∧ st.diags = [] := by
  have hp : (match parseSchema doubleEnv 10 tempSchema with
      | .done (.ok (_, none) s) => decide (s.errors.length = 0)
      | _ => false) = true := by decide +kernel
  split at hp
  · rename_i g s hparse
    obtain ⟨f1, f2, k, q, st, e1, e2, e3⟩ := C87_no_gap_between_bounds doubleEnv 10 tempSchema _ temp_decodes
      { demoWorld with fp := .binary64 } {} rfl (fun d ts m hm => numberNode_ok _
        (by rintro x ⟨⟩; exact ⟨by norm_num, by decide +kernel⟩) (by rintro x ⟨⟩; exact ⟨by norm_num, by decide +kernel⟩) hm) g s hparse (by simpa using hp) (.inr rfl)
      ⟨⟨rfl, rfl, rfl, rfl, rfl, rfl⟩, rfl, rfl, _, rfl, .inl ⟨rfl, rfl⟩⟩ (-1) (5 / 2) (.both _ _) (by norm_num) (by norm_num)
      (by norm_num) rfl rfl rfl x h1 h2
    refine ⟨g, s, hparse, f1, f2, k, q, st, e1, e2.trans ?_, e3⟩
    have h : (1 : Rat) / 2 ^ 1000 ≤ 1 / 2 ^ 60 :=
      one_div_le_one_div_of_le (by positivity) (pow_le_pow_right₀ (by norm_num) (by norm_num))
    refine (add_le_add_right h _).trans ?_
    norm_num [abs_of_pos]
  · cases hp

/-- Without bounds, near every number from 0 to 10 there is one that comes out. -/
example (x : Rat) (h1 : 0 ≤ x) (h2 : x ≤ 10) :
    ∃ g s, parseSchema doubleEnv 10 (.obj [("type", .str "number")]) = .done (.ok (g, none) s) ∧
    ∃ (seeded ambient : Nat → Nat) (gfuel : Nat) (q : Rat) (st : GSt),
      rootGenerate { demoWorld with fp := .binary64, seeded := seeded, ambient := ambient } {} (refEnv s) gfuel g = .ok (.num q) st ∧
      |q - x| ≤ (|0| + |10|) / 2 ^ 50 + 1 / 2 ^ 1000 ∧ st.diags = [] := by
  have hp : (match parseSchema doubleEnv 10 (.obj [("type", .str "number")]) with
      | .done (.ok (_, none) s) => decide (s.errors.length = 0)
      | _ => false) = true := by decide +kernel
  split at hp
  · rename_i g s hparse
    exact ⟨g, s, hparse, C87_no_gap_between_bounds doubleEnv 10 _ (numberNode none none) rfl
      { demoWorld with fp := .binary64 } {} rfl (fun d ts m hm => numberNode_ok _ (fun x hx => (by cases hx)) (fun x hx => (by cases hx)) hm)
      g s hparse (by simpa using hp) (.inr rfl) ⟨⟨rfl, rfl, rfl, rfl, rfl, rfl⟩, rfl, rfl, _, rfl, .inl ⟨rfl, rfl⟩⟩ 0 10 .free
      (by norm_num) (by norm_num) (by norm_num) rfl rfl rfl x h1 h2⟩
  · cases hp

/-! ## The maximum -/

/-- `{"type": "number", "minimum": 0, "maximum": 1}` -/
def shareSchema : JVal := .obj [("type", .str "number"), ("minimum", .num 0), ("maximum", .num 1)]

/-- Near is all there is: the maximum is allowed, and no run produces it. -/
theorem C87_maximum_missed_violation : ∃ root, decodeNode shareSchema = some root ∧
    Valid (patternMeaning demoEnv) root root (.num 1) ∧
    ∃ g, ParsesTo shareSchema g ∧ ∀ (w : World) (o : Opts) env gfuel v st, w.fp = FP.exact ∨ w.fp = FP.binary64 →
      rootGenerate w o env gfuel g = .ok v st → ∃ q : Rat, v = .num q ∧ q < 1 := by
  refine ⟨{ emptyNode with type := some { single := "number" }, minimum := some 0, maximum := some 1 }, rfl, ?_,
    .num { isInt := false, min := 0, max := 1, multipleOf := 0 }, ⟨by kernel_rfl, by kernel_rfl⟩, ?_⟩
  · refine number_valid (c := none) (d := none) (e := none) (.number 1) ⟨?_, ?_, nofun, nofun, nofun⟩
    · intro x hx; cases hx; norm_num
    · intro x hx; cases hx; norm_num
  · intro w o env gfuel v st hw h
    have hF : w.fp.Lawful := by
      rcases hw with h | h <;> rw [h]
      · exact FP.exact_lawful
      · exact FP.binary64_lawful
    have hlast : w.fp.rnd (1 - 1 / 2 ^ 53) = 1 - 1 / 2 ^ 53 := by
      rcases hw with h | h <;> rw [h]
      · rfl
      · decide +kernel
    cases gfuel with
    | zero => cases h
    | succ n =>
      have h : (do tick; numberGenerate w { isInt := false, min := 0, max := 1, multipleOf := 0 } : M JVal) {} = .ok v st := h
      obtain ⟨_, s1, _, h⟩ := bind_ok.1 h
      unfold numberGenerate at h
      obtain ⟨q, s2, h1, h⟩ := bind_ok.1 h
      have hq : q < 1 := by
        unfold numberRaw at h1
        simp only [Bool.false_eq_true, if_false, ne_eq, not_true_eq_false] at h1
        unfold randomFloat float64 at h1
        obtain ⟨u, s3, h2, h1⟩ := bind_ok.1 h1
        obtain ⟨x, s4, -, h2⟩ := bind_ok.1 h2
        obtain ⟨rfl, -⟩ := pure_ok.1 h2
        obtain ⟨e, -⟩ := pure_ok.1 h1
        have r1 : w.fp.rnd 1 = 1 := by simpa using hF.int 1 (by norm_num)
        have hu : (((x % 2 ^ 53 : Nat) : Rat) / 2 ^ 53) ≤ 1 - 1 / 2 ^ 53 := by
          have : x % 2 ^ 53 ≤ 2 ^ 53 - 1 := by omega
          have : ((x % 2 ^ 53 : Nat) : Rat) ≤ 2 ^ 53 - 1 := by
            have := (Nat.cast_le (α := Rat)).2 this
            norm_num at this ⊢
            exact this
          rw [div_le_iff₀ (by norm_num)]
          norm_num at this ⊢
          linarith
        have e1 : q ≤ 1 - 1 / 2 ^ 53 := by
          rw [← e]
          unfold FP.add FP.mul FP.sub
          rw [sub_zero, r1, mul_one, add_zero, hF.idem]
          have := hF.mono _ _ hu
          rwa [hlast] at this
        refine lt_of_le_of_lt e1 ?_
        norm_num
      split at h
      · obtain ⟨e, -⟩ := pure_ok.1 h
        exact ⟨0, e.symm, by norm_num⟩
      · simp only [Bool.false_eq_true, if_false, ne_eq, not_true_eq_false] at h
        obtain ⟨e, -⟩ := pure_ok.1 h
        exact ⟨q, e.symm, hq⟩

end Chaff
