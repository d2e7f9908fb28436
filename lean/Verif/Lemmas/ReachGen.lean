import Verif.Lemmas.Reach
import Verif.Lemmas.Binary64
/-!
# Which values the generators can be made to produce
-/

namespace Chaff
open Comp

variable {c : Ctx} {stk : List String}

/-- The recursive call in the world `w` with fuel `n`. -/
abbrev subGen (c : Ctx) (w : World) (n : Nat) : Gen → M JVal := generate { c with w := w } n

/-- A value that a generator can be made to produce. -/
def CanGen (stk : List String) (c : Ctx) (g : Gen) (cost : Nat) (v : JVal) : Prop := Can stk c (fun w n => subGen c w n g) cost v

theorem CanGen.step {g : Gen} {k : Nat} {v : JVal} (h : Can stk c (fun w n => genStep { c with w := w } (subGen c w n) g) k v) :
    CanGen stk c g k v := by
  obtain ⟨N, ds, as, h⟩ := h
  refine ⟨N + 1, ds, as, fun w n s hn hw hd ha hr hx => ?_⟩
  obtain ⟨n, rfl⟩ : ∃ m, n = m + 1 := ⟨n - 1, by omega⟩
  exact h w n s (by omega) hw hd ha hr hx

theorem canGen_const (v : JVal) : CanGen stk c (.const v) 0 v := .step (Can.pure v)

theorem canGen_null : CanGen stk c .null 1 .null := .step (Can.tick.bind (f := fun _ _ _ => (Pure.pure .null : M JVal)) (Can.pure _))

theorem canGen_bool (b : Bool) : CanGen stk c .bool 0 (.bool b) :=
  .step ((Can.randomBool b).bind (f := fun _ _ b => (Pure.pure (.bool b) : M JVal)) (Can.pure _))

theorem canGen_enum {vs : List JVal} {v : JVal} (h : v ∈ vs) : CanGen stk c (.enum vs) 1 v :=
  .step (Can.tick.bind (f := fun w _ _ => Chaff.choice w vs) (Can.choice h))

theorem canGen_multi {gs : List Gen} {g : Gen} {k : Nat} {v : JVal} (hg : g ∈ gs) (h : CanGen stk c g k v) :
    CanGen stk c (.multi gs) k v := .step (Can.pick (sub := subGen c) hg h)

theorem canGen_allOf {g : Gen} {k : Nat} {v : JVal} (h : CanGen stk c g k v) : CanGen stk c (.allOf g) k v := .step h

theorem canGen_comb {gs : List Gen} {g : Gen} {k : Nat} {v : JVal} (hg : g ∈ gs) (h : CanGen stk c g k v) :
    CanGen stk c (.comb gs) (1 + k) v := by
  refine .step (Can.tick.bind (f := fun w n _ => Chaff.cutoff { c with w := w } >>= fun b => if b = true then
      (do note .cutoff; pure .null) else do
        let i ← randomInt w 0 (goLen gs)
        let g ← indexAt gs i
        subGen c w n g) ?_)
  have := Can.cutoff.bind (f := fun w n b => if b = true then
      (do note .cutoff; pure .null : M JVal) else do
        let i ← randomInt w 0 (goLen gs)
        let g ← indexAt gs i
        subGen c w n g) (Can.pick (sub := subGen c) hg h)
  rw [Nat.zero_add] at this
  exact this

/-! ## Strings -/

theorem canGen_sentence (g : StrGen) (h1 : g.format = "") (h2 : g.pattern = "") (h3 : g.minLength = 0)
    (h4 : g.maxLength = 0) (k : Nat) : CanGen stk c (.str g) 1 (.str (c.w.sentence k)) := by
  have h := Can.tick.bind (f := fun w _ _ => drawAmbient w >>= fun x => (Pure.pure (.str (w.sentence x)) : M JVal))
    (Can.bind (Can.ambient (c := c) (stk := stk) k) (f := fun w _ x => (Pure.pure (.str (w.sentence x)) : M JVal)) (b := .str (c.w.sentence k)) (l := 0)
      ((Can.pure (JVal.str (c.w.sentence k))).congr 0 fun w _ s _ hw => by rw [hw.sentence]))
  refine .step (h.congr 0 fun w n s _ hw => ?_)
  show stringGenerate { c with w := w } g s = _
  unfold stringGenerate
  rw [h1, h2, h3, h4]
  simp only [ne_eq, not_true_eq_false, if_false, false_and]
  congr 1

/-- A text of a format that the text library knows. -/
theorem canGen_faker (g : StrGen) (h : g.format ∈ fakerFormats) (h0 : g.format ≠ "") (i : Nat) :
    CanGen stk c (.str g) 1 (.str (c.w.fakerFormat g.format i)) := by
  have hd := Can.tick.bind (f := fun w _ _ => drawAmbient w >>= fun x => (Pure.pure (.str (w.fakerFormat g.format x)) : M JVal))
    (Can.bind (Can.ambient (c := c) (stk := stk) i) (f := fun w _ x => (Pure.pure (.str (w.fakerFormat g.format x)) : M JVal))
      (b := .str (c.w.fakerFormat g.format i)) (l := 0)
      ((Can.pure (JVal.str (c.w.fakerFormat g.format i))).congr 0 fun w _ s _ hw => by rw [hw.fakerFormat]))
  refine .step (hd.congr 0 fun w n s _ hw => ?_)
  show stringGenerate { c with w := w } g s = _
  unfold stringGenerate generateFormat
  rw [if_pos h0, if_pos h]
  rfl

/-- A duration of up to 89 days. -/
theorem canGen_duration (g : StrGen) (h : g.format = "duration") (d : Nat) (hd : d < 90) :
    CanGen stk c (.str g) 1 (.str ("P" ++ toString (d : Int) ++ "D")) := by
  have hdraw := Can.tick.bind (f := fun w _ _ => randomInt w 0 90 >>= fun x => (Pure.pure (.str ("P" ++ toString x ++ "D")) : M JVal))
    (Can.bind (Can.randomInt (c := c) (stk := stk) (a := 0) (b := 90) (z := d) (.inr ⟨by omega, by omega⟩))
      (f := fun w _ x => (Pure.pure (.str ("P" ++ toString x ++ "D")) : M JVal)) (l := 0) (Can.pure _))
  refine .step (hdraw.congr 0 fun w n s _ hw => ?_)
  show stringGenerate { c with w := w } g s = _
  unfold stringGenerate generateFormat
  rw [h, if_pos (by decide), if_neg (by decide), if_pos rfl]
  rfl

theorem fillLoop_stop (c : Ctx) (mn : Int) (f : Nat) (sb : String) (h : mn ≤ (sb.length : Int)) : fillLoop c mn f sb = pure sb := by
  cases f with
  | zero => rw [fillLoop, if_neg (by omega)]
  | succ f => rw [fillLoop, if_neg (by omega)]

theorem sentences_append (w : World) (a b : List Nat) : sentences w (a ++ b) = sentences w a ++ sentences w b := by
  induction a with
  | nil => rfl
  | cons x t ih => rw [List.cons_append, sentences, sentences, ih, List.append_assoc]

/-- The loop appends the sentences that are drawn until the minimal length is reached. -/
theorem can_fillLoop (mn : Int) : ∀ (is : List Nat) (f : Nat) (sb : String), (∀ j ∈ is, c.w.sentence j ≠ "") →
    (∀ j, j < is.length → ((sb.toList ++ sentences c.w (is.take j)).length : Int) < mn) →
    mn ≤ (sb.toList ++ sentences c.w is).length → mn ≤ (sb.length : Int) + f →
    Can stk c (fun w _ => fillLoop { c with w := w } mn f sb) 0 (String.ofList (sb.toList ++ sentences c.w is))
  | [], f, sb, _, _, hlen, _ => by
    rw [sentences, List.append_nil] at hlen ⊢
    rw [String.ofList_toList]
    refine (Can.pure sb).congr 0 fun w n s _ hw => ?_
    rw [fillLoop_stop _ _ _ _ (by rwa [String.length_toList] at hlen)]
  | i :: is, 0, sb, _, hlt, _, hf => by
    have := hlt 0 (by simp)
    simp only [List.take_zero, sentences, List.append_nil, String.length_toList] at this
    omega
  | i :: is, f + 1, sb, hne, hlt, hlen, hf => by
    have h0 := hlt 0 (by simp)
    simp only [List.take_zero, sentences, List.append_nil, String.length_toList] at h0
    have hi : (c.w.sentence i).length ≠ 0 := by
      intro h
      exact hne i (by simp) (String.length_eq_zero_iff.1 h)
    have h := can_fillLoop mn is f (sb ++ c.w.sentence i) (fun j hj => hne j (by simp [hj]))
      (by
        intro j hj
        have := hlt (j + 1) (by simpa using hj)
        rw [List.take_succ_cons, sentences, ← List.append_assoc] at this
        rwa [String.toList_append])
      (by rw [String.toList_append, List.append_assoc]; exact hlen)
      (by rw [String.length_append]; push_cast; omega)
    rw [String.toList_append, List.append_assoc] at h
    have h2 := Can.bind (Can.ambient (c := c) (stk := stk) i)
      (f := fun w _ x => fillLoop { c with w := w } mn f (sb ++ w.sentence x)) (l := 0)
      (h.congr 0 fun w n s _ hw => by rw [hw.sentence])
    refine h2.congr 0 fun w n s _ hw => ?_
    rw [fillLoop, if_pos h0]

/-- A text of the size that the keywords ask for. -/
theorem canGen_sized (g : StrGen) (h1 : g.format = "") (h2 : g.pattern = "") (i : Nat) (is : List Nat)
    (hne : ∀ j ∈ i :: is, c.w.sentence j ≠ "")
    (hlt : ∀ j, j < is.length → ((sentences c.w (i :: is.take j)).length : Int) < g.minLength)
    (hlen : g.minLength ≤ (sentences c.w (i :: is)).length) (hmax : 0 ≤ g.maxLength) :
    CanGen stk c (.str g) 1 (.str (String.ofList (if g.maxLength = 0 then sentences c.w (i :: is)
      else (sentences c.w (i :: is)).take g.maxLength.toNat))) := by
  have hloop := can_fillLoop (stk := stk) (c := c) g.minLength is g.minLength.toNat (c.w.sentence i)
    (fun j hj => hne j (by simp [hj])) hlt hlen (by omega)
  have hend := Can.bind hloop (f := fun w _ sb => (if g.maxLength ≠ 0 ∧ (sb.length : Int) > g.maxLength then
      if g.maxLength < 0 then Comp.fail "slice bounds out of range"
      else pure (.str (String.ofList (sb.toList.take g.maxLength.toNat)))
    else pure (.str sb) : M JVal)) (l := 0) (b := (.str (String.ofList (if g.maxLength = 0 then sentences c.w (i :: is)
      else (sentences c.w (i :: is)).take g.maxLength.toNat)))) (by
      refine (Can.pure _).congr 0 fun w n s _ hw => ?_
      show _ = (Pure.pure (f := M) _ ) s
      rw [show (c.w.sentence i).toList ++ sentences c.w is = sentences c.w (i :: is) from rfl]
      by_cases h0 : g.maxLength = 0
      · rw [if_neg (by simp [h0]), if_pos h0]
      · rw [if_neg h0]
        split
        · rw [if_neg (by omega), String.toList_ofList]
        · rename_i hn
          rw [List.take_of_length_le]
          rw [String.length_ofList] at hn
          have : ¬ ((sentences c.w (i :: is)).length : Int) > g.maxLength := fun h => hn ⟨h0, h⟩
          omega)
  have hdraw := Can.bind (Can.ambient (c := c) (stk := stk) i)
    (f := fun w _ x => fillLoop { c with w := w } g.minLength g.minLength.toNat (w.sentence x) >>= fun sb =>
      (if g.maxLength ≠ 0 ∧ (sb.length : Int) > g.maxLength then
      if g.maxLength < 0 then Comp.fail "slice bounds out of range"
      else pure (.str (String.ofList (sb.toList.take g.maxLength.toNat)))
    else pure (.str sb) : M JVal)) (hend.congr 0 fun w n s _ hw => by rw [hw.sentence])
  refine .step ((Can.tick.bind (f := fun w _ _ => drawAmbient w >>= fun x =>
    fillLoop { c with w := w } g.minLength g.minLength.toNat (w.sentence x) >>= fun sb =>
      (if g.maxLength ≠ 0 ∧ (sb.length : Int) > g.maxLength then
      if g.maxLength < 0 then Comp.fail "slice bounds out of range"
      else pure (.str (String.ofList (sb.toList.take g.maxLength.toNat)))
    else pure (.str sb) : M JVal)) hdraw).congr 0 fun w n s _ hw => ?_)
  show stringGenerate { c with w := w } g s = _
  unfold stringGenerate
  rw [h1, h2]
  simp only [ne_eq, not_true_eq_false, if_false]

/-! ## Integers -/

/-- Eighths of moderate size are represented exactly. -/
def Eighths (F : FP) : Prop := ∀ k : Int, |k| ≤ 2 ^ 53 → F.rnd ((k : Rat) / 8) = (k : Rat) / 8

theorem eighths_exact : Eighths FP.exact := fun _ _ => rfl

theorem eighths_double : Eighths FP.binary64 := by
  intro k hk
  have h := rnd64_exact k (-3) (by norm_num) hk
  rw [show pow2 (-3) = 1 / 8 by rw [pow2_eq]; norm_num] at h
  rw [show (k : Rat) / 8 = k * (1 / 8) by ring]
  exact h

theorem fRound_near {q : Rat} {z : Int} (h1 : (z : Rat) - 1 / 8 ≤ q) (h2 : q ≤ z) : fRound q = z := by
  unfold fRound
  split
  · rw [Int.floor_eq_iff]; constructor <;> linarith
  · have : ⌊-q + 1 / 2⌋ = -z := by
      rw [Int.floor_eq_iff]; push_cast; constructor <;> linarith
    omega

theorem Can.randomFloat_near (hF : c.w.fp.Lawful) (h8 : Eighths c.w.fp) {a b z : Int} (ha : |a| ≤ 2 ^ 49) (hb : |b| ≤ 2 ^ 49)
    (hab : a < b) (haz : a ≤ z) (hzb : z ≤ b) :
    ∃ q : Rat, (z : Rat) - 1 / 8 ≤ q ∧ q ≤ z ∧ Can stk c (fun w _ => randomFloat w a b) 0 q := by
  have ha' := abs_le.1 ha
  have hb' := abs_le.1 hb
  have hd : (0 : Rat) < (b : Rat) - a := by have : (a : Rat) < b := by exact_mod_cast hab
                                            linarith
  have hd50 : (b : Rat) - a ≤ 2 ^ 50 := by
    have : b - a ≤ 2 ^ 50 := by omega
    exact_mod_cast this
  -- the draw
  obtain ⟨k, hk, hk1, hk2⟩ : ∃ k : Nat, k < 2 ^ 53 ∧ (z : Rat) - a - 1 / 8 ≤ (k : Rat) / 2 ^ 53 * (b - a) ∧
      (k : Rat) / 2 ^ 53 * (b - a) ≤ z - a := by
    by_cases hz : z = b
    · subst hz
      refine ⟨2 ^ 53 - 1, by norm_num, ?_, ?_⟩
      · rw [show (((2 ^ 53 - 1 : Nat)) : Rat) / 2 ^ 53 = 1 - 1 / 2 ^ 53 by norm_num]
        have : ((z : Rat) - a) / 2 ^ 53 ≤ 1 / 8 := by
          rw [div_le_iff₀ (by positivity)]; norm_num at hd50 ⊢; linarith
        have e : (1 - 1 / 2 ^ 53) * ((z : Rat) - a) = (z - a) - (z - a) / 2 ^ 53 := by ring
        rw [e]; linarith
      · rw [show (((2 ^ 53 - 1 : Nat)) : Rat) / 2 ^ 53 = 1 - 1 / 2 ^ 53 by norm_num]
        have e : (1 - 1 / 2 ^ 53) * ((z : Rat) - a) = (z - a) - (z - a) / 2 ^ 53 := by ring
        rw [e]
        have : 0 ≤ ((z : Rat) - a) / 2 ^ 53 := by positivity
        linarith
    · have hzb' : (z : Rat) + 1 ≤ b := by
        have : z + 1 ≤ b := by omega
        exact_mod_cast this
      have hza : (0 : Rat) ≤ (z : Rat) - a := by
        have : (a : Rat) ≤ z := by exact_mod_cast haz
        linarith
      set x : Rat := ((z : Rat) - a) * 2 ^ 53 / (b - a) with hx
      have hx0 : 0 ≤ x := by positivity
      refine ⟨⌊x⌋.toNat, ?_, ?_, ?_⟩
      · have : x < 2 ^ 53 := by
          rw [hx, div_lt_iff₀ hd]
          have : (z : Rat) - a < b - a := by linarith
          have h53 : (0 : Rat) < 2 ^ 53 := by positivity
          nlinarith
        have h2 : ⌊x⌋ < (2 ^ 53 : Int) := by
          rw [Int.floor_lt]; push_cast; exact this
        have h3 : 0 ≤ ⌊x⌋ := Int.floor_nonneg.2 hx0
        omega
      all_goals
        have h3 : 0 ≤ ⌊x⌋ := Int.floor_nonneg.2 hx0
        have e : ((⌊x⌋.toNat : Nat) : Rat) = (⌊x⌋ : Rat) := by
          have : ((⌊x⌋.toNat : Nat) : Int) = ⌊x⌋ := Int.toNat_of_nonneg h3
          exact_mod_cast congrArg (fun i : Int => (i : Rat)) this
        rw [e]
        have hxe : x / 2 ^ 53 * (b - a) = z - a := by
          rw [hx]; field_simp
      · have h1 : x - 1 ≤ (⌊x⌋ : Rat) := (Int.sub_one_lt_floor x).le
        have h2 : (x - 1) / 2 ^ 53 * (b - a) ≤ (⌊x⌋ : Rat) / 2 ^ 53 * (b - a) := by gcongr
        have h4 : (x - 1) / 2 ^ 53 * ((b : Rat) - a) = (z - a) - (b - a) / 2 ^ 53 := by
          rw [← hxe]; ring
        have h5 : ((b : Rat) - a) / 2 ^ 53 ≤ 1 / 8 := by
          rw [div_le_iff₀ (by positivity)]; norm_num at hd50 ⊢; linarith
        linarith
      · rw [← hxe]
        have h1 : (⌊x⌋ : Rat) ≤ x := Int.floor_le x
        gcongr
  have hsub : c.w.fp.sub b a = (b : Rat) - a := by
    have := hF.int (b - a) (by rw [abs_le]; constructor <;> omega)
    unfold FP.sub
    push_cast at this
    exact this
  have r8 : ∀ y : Int, -(2 ^ 49) ≤ y → y ≤ 2 ^ 50 → c.w.fp.rnd ((y : Rat) - 1 / 8) = (y : Rat) - 1 / 8 := by
    intro y hy hy'
    have := h8 (8 * y - 1) (by rw [abs_le]; constructor <;> omega)
    rw [show ((8 * y - 1 : Int) : Rat) / 8 = (y : Rat) - 1 / 8 by push_cast; ring] at this
    exact this
  have hmul1 : (z : Rat) - a - 1 / 8 ≤ c.w.fp.mul ((k : Rat) / 2 ^ 53) (b - a) := by
    have h := hF.mono _ _ hk1
    have e := r8 (z - a) (by omega) (by omega)
    push_cast at e
    rw [e] at h
    exact h
  have hmul2 : c.w.fp.mul ((k : Rat) / 2 ^ 53) (b - a) ≤ z - a := by
    have h := hF.mono _ _ hk2
    have e := hF.int (z - a) (by rw [abs_le]; constructor <;> omega)
    push_cast at e
    rw [e] at h
    exact h
  refine ⟨c.w.fp.add (c.w.fp.mul ((k : Rat) / 2 ^ 53) (b - a)) a, ?_, ?_, ?_⟩
  · have h := hF.mono ((z : Rat) - 1 / 8) (c.w.fp.mul ((k : Rat) / 2 ^ 53) (b - a) + a) (by linarith)
    rw [r8 z (by omega) (by omega)] at h
    exact h
  · have h := hF.mono (c.w.fp.mul ((k : Rat) / 2 ^ 53) (b - a) + a) z (by linarith)
    rw [hF.int z (by rw [abs_le]; constructor <;> omega)] at h
    exact h
  · have h := Can.bind (Can.seeded (c := c) (stk := stk) k) (f := fun w _ (x : Nat) =>
      (Pure.pure (w.fp.add (w.fp.mul (((x % 2 ^ 53 : Nat) : Rat) / 2 ^ 53) (w.fp.sub b a)) a) : M Rat))
      (b := c.w.fp.add (c.w.fp.mul ((k : Rat) / 2 ^ 53) (b - a)) a) (l := 0)
      ((Can.pure _).congr 0 fun w _ s _ hw => by
        rw [hw.fp, hsub, Nat.mod_eq_of_lt hk])
    exact h

/-- Every integer of the range can be drawn. -/
theorem canGen_integer (hF : c.w.fp.Lawful) (h8 : Eighths c.w.fp) {a b z : Int} (ha : |a| ≤ 2 ^ 49) (hb : |b| ≤ 2 ^ 49)
    (hab : a < b) (haz : a ≤ z) (hzb : z ≤ b) :
    CanGen stk c (.num { isInt := true, min := a, max := b, multipleOf := 0 }) 1 (.num z) := by
  obtain ⟨q, h1, h2, hq⟩ := Can.randomFloat_near hF h8 ha hb hab haz hzb
  have ha' := abs_le.1 ha
  have hb' := abs_le.1 hb
  have h := Can.tick.bind (c := c) (stk := stk) (f := fun w _ _ => randomFloat w a b >>= fun f => (Pure.pure
      (if (fRound f : Rat) = 0 then .num 0 else .num (toInt64 w.plat (fRound f : Rat) : Rat)) : M JVal))
    (Can.bind hq (f := fun w _ f => (Pure.pure
      (if (fRound f : Rat) = 0 then .num 0 else .num (toInt64 w.plat (fRound f : Rat) : Rat)) : M JVal))
      (b := .num z) (l := 0) ((Can.pure (JVal.num (z : Rat))).congr 0 fun w _ s _ hw => by
        rw [fRound_near h1 h2, toInt64_int _ z (by rw [abs_le]; constructor <;> omega)]
        by_cases hz : (z : Rat) = 0
        · rw [if_pos hz, hz]
        · rw [if_neg hz]))
  refine .step (h.congr 0 fun w n s _ hw => ?_)
  show (tick >>= fun _ => numberGenerate w _) s = _
  rw [bind_apply, bind_apply]
  unfold numberGenerate numberRaw
  simp only [ne_eq, not_true_eq_false, if_false, if_true]
  cases tick s with
  | panic e => rfl
  | oom => rfl
  | ok u s1 =>
    simp only [bind_apply]
    cases randomFloat w a b s1 with
    | panic e => rfl
    | oom => rfl
    | ok q s2 =>
      simp only [pure_apply]
      by_cases h0 : (fRound q : Rat) = 0
      · rw [if_pos h0, if_pos h0]; rfl
      · rw [if_neg h0, if_neg h0]; rfl

theorem upperBound_large {F : FP} (hF : F.Lawful) : 2 ^ 53 ≤ upperBound F := by
  have := hF.mono ((2 ^ 53 : Int) : Rat) (maxFloat64 / 1000) (by unfold maxFloat64; exact (by decide +kernel : ((2 ^ 53 : Int) : Rat) ≤ (2 ^ 53 - 1) * 2 ^ 971 / 1000))
  rw [hF.int _ (by norm_num)] at this
  push_cast at this
  exact this

theorem maxPtr_lower {F : FP} (hF : F.Lawful) {n : NumSpec} {z : Int} (hr : IntReach n z) {lo : Rat}
    (h : maxPtr [n.minimum, addIfNotNil F n.exclusiveMinimum 1] = some lo) :
    lo ≤ z ∧ |lo| ≤ 2 ^ 48 + 1 ∧ ∀ x, n.Lower x → x ≤ lo := by
  have hexcl : ∀ x, n.exclusiveMinimum = some x → ∃ k : Int, x = k ∧ F.add x 1 = k + 1 := by
    intro x hx
    obtain ⟨k, rfl⟩ := hr.exclusiveMinimum x hx
    have hk := abs_le.1 (hr.magnitude.exclusiveMinimum _ hx)
    refine ⟨k, rfl, ?_⟩
    have := hF.int (k + 1) (by
      have h1 : -(2 ^ 48) ≤ k := by exact_mod_cast hk.1
      have h2 : k ≤ 2 ^ 48 := by exact_mod_cast hk.2
      rw [abs_le]; constructor <;> omega)
    push_cast at this
    exact this
  refine ⟨?_, ?_, ?_⟩
  · rcases maxPtr2_mem h with h | h
    · exact hr.accepts.minimum _ h
    · cases he : n.exclusiveMinimum with
      | none => rw [he] at h; cases h
      | some x =>
        obtain ⟨k, rfl, hk⟩ := hexcl x he
        rw [he] at h
        simp only [addIfNotNil, Option.some.injEq] at h
        have hz := hr.accepts.exclusiveMinimum _ he
        rw [← h, hk]
        have : k < z := by exact_mod_cast hz
        exact_mod_cast this
  · rcases maxPtr2_mem h with h | h
    · have := hr.magnitude.minimum _ h; linarith
    · cases he : n.exclusiveMinimum with
      | none => rw [he] at h; cases h
      | some x =>
        have hm := abs_le.1 (hr.magnitude.exclusiveMinimum _ he)
        obtain ⟨k, rfl, hk⟩ := hexcl x he
        rw [he] at h
        simp only [addIfNotNil, Option.some.injEq] at h
        rw [← h, hk, abs_le]
        constructor <;> linarith [hm.1, hm.2]
  · rintro x (hx | hx)
    · exact le_maxPtr2 h (.inl hx)
    · obtain ⟨k, rfl, hk⟩ := hexcl x hx
      have := le_maxPtr2 h (x := F.add k 1) (.inr (by rw [hx]; rfl))
      rw [hk] at this
      linarith

theorem minPtr_upper {F : FP} (hF : F.Lawful) {n : NumSpec} {z : Int} (hr : IntReach n z) {hi : Rat}
    (h : minPtr [n.maximum, addIfNotNil F n.exclusiveMaximum (-1)] = some hi) :
    z ≤ hi ∧ |hi| ≤ 2 ^ 48 + 1 ∧ ∀ x, n.Upper x → hi ≤ x := by
  have hexcl : ∀ x, n.exclusiveMaximum = some x → ∃ k : Int, x = k ∧ F.add x (-1) = k - 1 := by
    intro x hx
    obtain ⟨k, rfl⟩ := hr.exclusiveMaximum x hx
    have hk := abs_le.1 (hr.magnitude.exclusiveMaximum _ hx)
    refine ⟨k, rfl, ?_⟩
    have := hF.int (k + -1) (by
      have h1 : -(2 ^ 48) ≤ k := by exact_mod_cast hk.1
      have h2 : k ≤ 2 ^ 48 := by exact_mod_cast hk.2
      rw [abs_le]; constructor <;> omega)
    push_cast at this
    exact this.trans (by ring)
  refine ⟨?_, ?_, ?_⟩
  · rcases minPtr2_mem h with h | h
    · exact hr.accepts.maximum _ h
    · cases he : n.exclusiveMaximum with
      | none => rw [he] at h; cases h
      | some x =>
        obtain ⟨k, rfl, hk⟩ := hexcl x he
        rw [he] at h
        simp only [addIfNotNil, Option.some.injEq] at h
        have hz := hr.accepts.exclusiveMaximum _ he
        rw [← h, hk]
        have h1 : z < k := by exact_mod_cast hz
        have h2 : z ≤ k - 1 := by omega
        exact_mod_cast h2
  · rcases minPtr2_mem h with h | h
    · have := hr.magnitude.maximum _ h; linarith
    · cases he : n.exclusiveMaximum with
      | none => rw [he] at h; cases h
      | some x =>
        have hm := abs_le.1 (hr.magnitude.exclusiveMaximum _ he)
        obtain ⟨k, rfl, hk⟩ := hexcl x he
        rw [he] at h
        simp only [addIfNotNil, Option.some.injEq] at h
        rw [← h, hk, abs_le]
        constructor <;> linarith [hm.1, hm.2]
  · rintro x (hx | hx)
    · exact minPtr2_le h (.inl hx)
    · obtain ⟨k, rfl, hk⟩ := hexcl x hx
      have := minPtr2_le h (x := F.add k (-1)) (.inr (by rw [hx]; rfl))
      rw [hk] at this
      linarith

theorem bounds_reach {F : FP} (hF : F.Lawful) {n : NumSpec} {z : Int} (hr : IntReach n z) :
    (effectiveBounds F n true).1 ≤ z ∧ (z : Rat) ≤ (effectiveBounds F n true).2 ∧
    |(effectiveBounds F n true).1| ≤ 2 ^ 48 + 11 ∧ |(effectiveBounds F n true).2| ≤ 2 ^ 48 + 11 := by
  have hoff : getFloat [F.mul (getZeroIfNil n.multipleOf 0) 100, (defaultOffset : Rat)] = 10 := by
    rw [hr.noMultiple]
    have : F.mul (getZeroIfNil none 0) 100 = 0 := by
      have := hF.int 0 (by norm_num)
      unfold FP.mul getZeroIfNil
      simpa using this
    rw [this]
    norm_num [getFloat, defaultOffset]
  unfold effectiveBounds
  simp only [if_pos trivial, hoff]
  cases h1 : maxPtr [n.minimum, addIfNotNil F n.exclusiveMinimum 1] with
  | none =>
    have hno : ∀ x, ¬ n.Lower x := by
      obtain ⟨a, b⟩ := maxPtr2_none h1
      rintro x (h | h)
      · rw [a] at h; cases h
      · rw [h] at b; cases b
    cases h2 : minPtr [n.maximum, addIfNotNil F n.exclusiveMaximum (-1)] with
    | none =>
      have hno2 : ∀ x, ¬ n.Upper x := by
        obtain ⟨a, b⟩ := minPtr2_none h2
        rintro x (h | h)
        · rw [a] at h; cases h
        · rw [h] at b; cases b
      have ha : z ≤ 10 := by
        rcases hr.above hno2 with ⟨x, hx, -⟩ | h
        · exact (hno x hx).elim
        · exact h.2
      have hb : 0 ≤ z := by
        rcases hr.below hno with ⟨x, hx, -⟩ | h
        · exact (hno2 x hx).elim
        · exact h.2
      simp only
      refine ⟨by exact_mod_cast hb, by exact_mod_cast ha, by norm_num, by norm_num⟩
    | some hi =>
      obtain ⟨g1, g2, g3⟩ := minPtr_upper hF hr h2
      simp only
      have hlow : hi - 10 ≤ z := by
        rcases hr.below hno with ⟨x, hx, h⟩ | h
        · have := g3 x hx; linarith
        · exfalso
          rcases minPtr2_mem h2 with h' | h'
          · exact h.1 _ (.inl h')
          · cases he : n.exclusiveMaximum with
            | none => rw [he] at h'; cases h'
            | some x => exact h.1 x (.inr he)
      have g2' := abs_le.1 g2
      have hzz : F.rnd z = z := by
        refine hF.int z ?_
        have : |(z : Rat)| ≤ 2 ^ 53 := by rw [abs_le]; constructor <;> linarith [g2'.1, g2'.2]
        exact_mod_cast this
      refine ⟨?_, g1, ?_, by linarith⟩
      · have := hF.mono _ _ hlow
        rw [hzz] at this
        exact this
      · have := abs_rnd_le hF (x := hi - 10) (k := 2 ^ 48 + 11) (by norm_num)
          (by rw [abs_le]; push_cast; constructor <;> linarith [g2'.1, g2'.2])
        norm_num at this ⊢
        exact this
  | some lo =>
    obtain ⟨f1, f2, f3⟩ := maxPtr_lower hF hr h1
    have f2' := abs_le.1 f2
    cases h2 : minPtr [n.maximum, addIfNotNil F n.exclusiveMaximum (-1)] with
    | none =>
      have hno2 : ∀ x, ¬ n.Upper x := by
        obtain ⟨a, b⟩ := minPtr2_none h2
        rintro x (h | h)
        · rw [a] at h; cases h
        · rw [h] at b; cases b
      simp only
      have hup : (z : Rat) ≤ lo + 10 := by
        rcases hr.above hno2 with ⟨x, hx, h⟩ | h
        · have := f3 x hx; linarith
        · exfalso
          rcases maxPtr2_mem h1 with h' | h'
          · exact h.1 _ (.inl h')
          · cases he : n.exclusiveMinimum with
            | none => rw [he] at h'; cases h'
            | some x => exact h.1 x (.inr he)
      have hzz : F.rnd z = z := by
        refine hF.int z ?_
        have : |(z : Rat)| ≤ 2 ^ 53 := by rw [abs_le]; constructor <;> linarith [f2'.1, f2'.2]
        exact_mod_cast this
      refine ⟨f1, ?_, by linarith, ?_⟩
      · have := hF.mono _ _ hup
        rw [hzz] at this
        exact this
      · have := abs_rnd_le hF (x := lo + 10) (k := 2 ^ 48 + 11) (by norm_num)
          (by rw [abs_le]; push_cast; constructor <;> linarith [f2'.1, f2'.2])
        norm_num at this ⊢
        exact this
    | some hi =>
      obtain ⟨g1, g2, g3⟩ := minPtr_upper hF hr h2
      simp only
      exact ⟨f1, g1, by linarith, by linarith⟩

theorem canGen_parsedInteger (hF : c.w.fp.Lawful) (h8 : Eighths c.w.fp) {n : NumSpec} {P : Platform} {z : Int} {r : NumResult}
    (hr : IntReach n z) (h : parseNumber c.w.fp P n true = .ok r) : CanGen stk c r.toGen 1 (.num z) := by
  obtain ⟨b1, b2, b3, b4⟩ := bounds_reach hF hr
  have hub := upperBound_large hF
  have b3' := abs_le.1 b3
  have b4' := abs_le.1 b4
  have hcl : clampBounds c.w.fp (effectiveBounds c.w.fp n true) = effectiveBounds c.w.fp n true := by
    unfold clampBounds lowerBound
    rw [if_neg (by linarith [b3'.1]), if_neg (by linarith [b4'.2])]
  unfold parseNumber at h
  split at h
  · cases h
  rename_i mn mx hres
  obtain ⟨-, -, hmn, hmx⟩ := resolve_ok hres
  rw [if_pos rfl, hcl] at hmn hmx
  have ha : fCeil (effectiveBounds c.w.fp n true).1 ≤ z := Int.ceil_le.2 b1
  have hb : z ≤ fFloor (effectiveBounds c.w.fp n true).2 := Int.le_floor.2 b2
  have ha1 : (effectiveBounds c.w.fp n true).1 ≤ (fCeil (effectiveBounds c.w.fp n true).1 : Rat) := Int.le_ceil _
  have hb1 : (fFloor (effectiveBounds c.w.fp n true).2 : Rat) ≤ (effectiveBounds c.w.fp n true).2 := Int.floor_le _
  have ha' : ((fCeil (effectiveBounds c.w.fp n true).1 : Int) : Rat) ≤ z := by exact_mod_cast ha
  have hb' : (z : Rat) ≤ (fFloor (effectiveBounds c.w.fp n true).2 : Int) := by exact_mod_cast hb
  split at h
  · rename_i heq
    cases h
    have : mn = z := by
      rw [heq, hmx] at hmn
      rw [heq, hmx]
      exact le_antisymm (by rw [hmn]; exact ha') hb'
    rw [this]
    exact Can.mono (canGen_const _) (by omega)
  · rename_i hne
    cases h
    have hab : fCeil (effectiveBounds c.w.fp n true).1 < fFloor (effectiveBounds c.w.fp n true).2 := by
      refine lt_of_le_of_ne (ha.trans hb) fun e => hne ?_
      rw [hmn, hmx, e]
    have := canGen_integer (stk := stk) hF h8 (a := fCeil (effectiveBounds c.w.fp n true).1) (b := fFloor (effectiveBounds c.w.fp n true).2)
      (by
        have : |((fCeil (effectiveBounds c.w.fp n true).1 : Int) : Rat)| ≤ 2 ^ 49 := by
          rw [abs_le]; constructor <;> linarith [b3'.1, b4'.2]
        exact_mod_cast this) (by
        have : |((fFloor (effectiveBounds c.w.fp n true).2 : Int) : Rat)| ≤ 2 ^ 49 := by
          rw [abs_le]; constructor <;> linarith [b3'.1, b4'.2]
        exact_mod_cast this) hab ha hb
    rw [← hmn, ← hmx] at this
    rw [hr.noMultiple]
    exact this

/-- The numbers on the way from the minimum to the maximum can be drawn. -/
theorem canGen_parsedNumber (hF : c.w.fp.Lawful) {n : NumSpec} {P : Platform} {q : Rat} {r : NumResult}
    (hr : NumReach c.w.fp n q) (h : parseNumber c.w.fp P n false = .ok r) : CanGen stk c r.toGen 1 (.num q) := by
  obtain ⟨a, b, j, hrange, hab, ma, mb, hj, rfl⟩ := hr.drawn
  have hub := upperBound_large hF
  have ma' := abs_le.1 ma
  have mb' := abs_le.1 mb
  have heff : effectiveBounds c.w.fp n false = (a, b) := by
    have h0 : c.w.fp.mul (getZeroIfNil n.multipleOf 0) 100 = 0 := by
      rw [hr.noMultiple]
      unfold FP.mul
      simpa [getZeroIfNil] using hF.int 0 (by norm_num)
    unfold effectiveBounds
    rw [hr.exclusiveMinimum, hr.exclusiveMaximum, h0]
    generalize n.minimum = x at hrange
    generalize n.maximum = y at hrange
    cases hrange <;> rfl
  have hcl : clampBounds c.w.fp (effectiveBounds c.w.fp n false) = (a, b) := by
    rw [heff]
    unfold clampBounds lowerBound
    rw [if_neg (by linarith [ma'.1]), if_neg (by linarith [mb'.2])]
  unfold parseNumber at h
  split at h
  · cases h
  rename_i mn mx hres
  obtain ⟨-, -, hmn, hmx⟩ := resolve_ok hres
  rw [if_neg (by decide), hcl] at hmn hmx
  simp only at hmn hmx
  subst hmn hmx
  rw [if_neg hab.ne] at h
  cases h
  rw [hr.noMultiple]
  have hq := Can.bind (Can.seeded (c := c) (stk := stk) j) (f := fun w _ (x : Nat) =>
      (Pure.pure (w.fp.add (w.fp.mul (((x % 2 ^ 53 : Nat) : Rat) / 2 ^ 53) (w.fp.sub mx mn)) mn) : M Rat))
      (b := c.w.fp.add (c.w.fp.mul ((j : Rat) / 2 ^ 53) (c.w.fp.sub mx mn)) mn) (l := 0)
      ((Can.pure _).congr 0 fun w _ s _ hw => by
        rw [hw.fp, Nat.mod_eq_of_lt hj])
  generalize c.w.fp.add (c.w.fp.mul ((j : Rat) / 2 ^ 53) (c.w.fp.sub mx mn)) mn = q at hq ⊢
  have h := Can.tick.bind (c := c) (stk := stk) (f := fun w _ _ => randomFloat w mn mx >>= fun f => (Pure.pure (.num f) : M JVal))
    (Can.bind hq (f := fun _ _ f => (Pure.pure (.num f) : M JVal)) (b := .num q) (l := 0) (Can.pure (JVal.num q)))
  refine .step (h.congr 0 fun w n s _ hw => ?_)
  show (tick >>= fun _ => numberGenerate w _) s = _
  rw [bind_apply, bind_apply]
  unfold numberGenerate numberRaw
  simp only [ne_eq, not_true_eq_false, if_false, Bool.false_eq_true, getZeroIfNil]
  cases tick s with
  | panic e => rfl
  | oom => rfl
  | ok u s1 =>
    simp only [bind_apply]
    cases randomFloat w mn mx s1 with
    | panic e => rfl
    | oom => rfl
    | ok q s2 =>
      simp only [pure_apply]
      by_cases h0 : q = 0
      · rw [if_pos h0, h0]; rfl
      · rw [if_neg h0]; rfl

/-- Every multiple above the minimum and below the largest one can be drawn, and the only one. -/
theorem can_generateMultipleOf (hF : c.w.fp.Lawful) {a b m z j : Int} (ha : |a| ≤ 2 ^ 48) (hb : |b| ≤ 2 ^ 48) (hm : 0 < m)
    (hm' : m ≤ 2 ^ 42) (hz : z = j * m) (haz : a < z) (hzb : z ≤ b) (hlast : z + m ≤ b ∨ z - m ≤ a) :
    Can stk c (fun w _ => generateMultipleOf w a b m) 0 (z : Rat) := by
  have ha' := abs_le.1 ha
  have hb' := abs_le.1 hb
  have hmq : (0 : Rat) < m := by exact_mod_cast hm
  have hfl : ∀ x : Int, |x| ≤ 2 ^ 48 → ⌊c.w.fp.rnd ((x : Rat) / m)⌋ = ⌊(x : Rat) / m⌋ := fun x hx =>
    hF.floorDiv x m (hx.trans (by norm_num)) hm (hm'.trans (by norm_num))
  have hdiv : ∀ x : Int, ⌊(x : Rat) / m⌋ = x / m := fun x => by
    obtain ⟨k, rfl⟩ : ∃ k : Nat, m = k := ⟨m.toNat, by omega⟩
    exact Rat.floor_intCast_div_natCast x k
  have hlt : a / m < j := by
    rw [Int.ediv_lt_iff_lt_mul hm, ← hz]; exact haz
  have hjb : j ≤ b / m := by
    rw [Int.le_ediv_iff_mul_le hm, ← hz]; exact hzb
  have hq : ∀ x : Int, |x| ≤ 2 ^ 48 → |x / m| ≤ 2 ^ 48 ∧ x - m < x / m * m ∧ x / m * m ≤ x := by
    intro x hx
    have hx' := abs_le.1 hx
    have e1 := Int.ediv_mul_le x hm.ne'
    have e2 := Int.lt_ediv_add_one_mul_self x hm
    refine ⟨?_, by linarith, e1⟩
    rw [abs_le]
    constructor
    · rw [Int.le_ediv_iff_mul_le hm]; nlinarith
    · have : x / m ≤ x ∨ x / m ≤ 0 := by
        rcases le_total 0 x with h | h
        · exact .inl (Int.ediv_le_self _ h)
        · exact .inr (Int.ediv_nonpos_of_nonpos_of_neg h (by omega))
      rcases this with h | h <;> omega
  obtain ⟨qa1, qa2, qa3⟩ := hq a ha
  obtain ⟨qb1, qb2, qb3⟩ := hq b hb
  have hcount : countMultiplesInRange c.w.fp c.w.plat a b m = b / m - a / m := by
    rw [countMultiples_eq hmq.ne' (hfl a ha) (hfl b hb), hdiv, hdiv]
    · rw [hdiv]; exact qa1.trans (by norm_num)
    · rw [hdiv]; exact qb1.trans (by norm_num)
  have hk : (j - a / m = 1 ∧ 1 = b / m - a / m) ∨ (1 ≤ j - a / m ∧ j - a / m < b / m - a / m) := by
    rcases hlast with h | h
    · refine .inr ⟨by omega, ?_⟩
      have : j + 1 ≤ b / m := by
        rw [Int.le_ediv_iff_mul_le hm]; linarith
      omega
    · have : j - 1 ≤ a / m := by
        rw [Int.le_ediv_iff_mul_le hm]; linarith
      rcases eq_or_lt_of_le hjb with h' | h'
      · exact .inl ⟨by omega, by omega⟩
      · exact .inr ⟨by omega, by omega⟩
  have ea : (fFloor (c.w.fp.div a m) : Rat) = ((a / m : Int) : Rat) := by
    unfold fFloor FP.div
    rw [hfl a ha, hdiv]
  have hlow : c.w.fp.mul (fFloor (c.w.fp.div a m) : Rat) m = ((a / m * m : Int) : Rat) := by
    rw [ea]
    have := hF.int (a / m * m) (by rw [abs_le]; constructor <;> omega)
    unfold FP.mul
    push_cast at this ⊢
    exact this
  have hval : c.w.fp.add (c.w.fp.mul (fFloor (c.w.fp.div a m) : Rat) m) (c.w.fp.mul (c.w.fp.rnd ((j - a / m : Int) : Rat)) m) = z := by
    rw [hlow]
    have qa1' := abs_le.1 qa1
    have qb1' := abs_le.1 qb1
    have h1 := hF.int (j - a / m) (by rw [abs_le]; constructor <;> omega)
    rw [h1]
    have h2 := hF.int ((j - a / m) * m) (by
      have : (j - a / m) * m = z - a / m * m := by rw [hz]; ring
      rw [this, abs_le]; constructor <;> omega)
    have h3 : c.w.fp.mul ((j - a / m : Int) : Rat) m = (((j - a / m) * m : Int) : Rat) := by
      unfold FP.mul
      push_cast at h2 ⊢
      exact h2
    rw [h3]
    unfold FP.add
    have h4 := hF.int z (by rw [abs_le]; constructor <;> omega)
    have h5 : ((a / m * m : Int) : Rat) + (((j - a / m) * m : Int) : Rat) = z := by
      rw [hz]; push_cast; ring
    rw [h5, h4]
  have := Can.bind (Can.randomInt (c := c) (stk := stk) hk) (f := fun w _ (k : Int) =>
    (Pure.pure (w.fp.add (w.fp.mul (fFloor (w.fp.div a m) : Rat) m) (w.fp.mul (w.fp.rnd (k : Rat)) m)) : M Rat))
    (b := (z : Rat)) (l := 0) ((Can.pure (z : Rat)).congr 0 fun w _ s _ hw => by rw [hw.fp, hval])
  refine this.congr 0 fun w n s _ hw => ?_
  unfold generateMultipleOf
  rw [hw.fp, hw.plat, hcount]
  simp only
  rw [if_neg (by omega)]

theorem canGen_multipleOf (hF : c.w.fp.Lawful) {a b m z j : Int} (ha : |a| ≤ 2 ^ 48) (hb : |b| ≤ 2 ^ 48) (hm : 0 < m)
    (hm' : m ≤ 2 ^ 42) (hz : z = j * m) (haz : a < z) (hzb : z ≤ b) (hlast : z + m ≤ b ∨ z - m ≤ a) :
    CanGen stk c (.num { isInt := true, min := a, max := b, multipleOf := m }) 1 (.num z) := by
  have hraw := can_generateMultipleOf (c := c) (stk := stk) hF ha hb hm hm' hz haz hzb hlast
  have ha' := abs_le.1 ha
  have hb' := abs_le.1 hb
  have hmq : (0 : Rat) < m := by exact_mod_cast hm
  have h := Can.tick.bind (c := c) (stk := stk) (f := fun w _ _ => generateMultipleOf w a b m >>= fun f => (Pure.pure
      (if f = 0 then .num 0 else .num (toInt64 w.plat f : Rat)) : M JVal))
    (Can.bind hraw (f := fun w _ f => (Pure.pure (if f = 0 then .num 0 else .num (toInt64 w.plat f : Rat)) : M JVal))
      (b := .num z) (l := 0) ((Can.pure (JVal.num (z : Rat))).congr 0 fun w _ s _ hw => by
        rw [toInt64_int _ z (by rw [abs_le]; constructor <;> omega)]
        by_cases hz : (z : Rat) = 0
        · rw [if_pos hz, hz]
        · rw [if_neg hz]))
  refine .step (h.congr 0 fun w n s _ hw => ?_)
  show (tick >>= fun _ => numberGenerate w _) s = _
  rw [bind_apply, bind_apply]
  unfold numberGenerate numberRaw
  simp only [ne_eq, hmq.ne', not_false_eq_true, if_true]
  cases tick s with
  | panic e => rfl
  | oom => rfl
  | ok u s1 =>
    simp only [bind_apply]
    cases generateMultipleOf w a b m s1 with
    | panic e => rfl
    | oom => rfl
    | ok q s2 =>
      simp only [pure_apply]
      by_cases h0 : q = 0
      · rw [if_pos h0, if_pos h0]; rfl
      · rw [if_neg h0, if_neg h0]; rfl

/-- Multiples that the last steps of generation keep can be drawn as numbers, too. -/
theorem canGen_wholeMultiple (hF : c.w.fp.Lawful) {a b m z j : Int} (ha : |a| ≤ 2 ^ 48) (hb : |b| ≤ 2 ^ 48) (hm : 0 < m)
    (hm' : m ≤ 2 ^ 42) (hz : z = j * m) (haz : a < z) (hzb : z ≤ b) (hlast : z + m ≤ b ∨ z - m ≤ a)
    (hr : utilRound c.w.fp (z : Rat) m = z) (hsn : roundToInfinitesimal c.w.fp (z : Rat) = z) :
    CanGen stk c (.num { isInt := false, min := a, max := b, multipleOf := m }) 1 (.num z) := by
  have hraw := can_generateMultipleOf (c := c) (stk := stk) hF ha hb hm hm' hz haz hzb hlast
  have hmq : (0 : Rat) < m := by exact_mod_cast hm
  have h := Can.tick.bind (c := c) (stk := stk) (f := fun w _ _ => generateMultipleOf w a b m >>= fun f => (Pure.pure
      (if utilRound w.fp f m = 0 then .num 0 else .num (roundToInfinitesimal w.fp (utilRound w.fp f m))) : M JVal))
    (Can.bind hraw (f := fun w _ f => (Pure.pure (if utilRound w.fp f m = 0 then .num 0
        else .num (roundToInfinitesimal w.fp (utilRound w.fp f m))) : M JVal))
      (b := .num z) (l := 0) ((Can.pure (JVal.num (z : Rat))).congr 0 fun w _ s _ hw => by
        rw [hw.fp, hr, hsn]
        by_cases hz : (z : Rat) = 0
        · rw [if_pos hz, hz]
        · rw [if_neg hz]))
  refine .step (h.congr 0 fun w n s _ hw => ?_)
  show (tick >>= fun _ => numberGenerate w _) s = _
  rw [bind_apply, bind_apply]
  unfold numberGenerate numberRaw
  simp only [ne_eq, hmq.ne', not_false_eq_true, if_true, Bool.false_eq_true, if_false]
  cases tick s with
  | panic e => rfl
  | oom => rfl
  | ok u s1 =>
    simp only [bind_apply]
    cases generateMultipleOf w a b m s1 with
    | panic e => rfl
    | oom => rfl
    | ok q s2 =>
      simp only [pure_apply]
      by_cases h0 : utilRound w.fp q m = 0
      · rw [if_pos h0, if_pos h0]; rfl
      · rw [if_neg h0, if_neg h0]; rfl

theorem canGen_parsedMultiple (hF : c.w.fp.Lawful) {n : NumSpec} {P : Platform} {z : Int} {r : NumResult}
    (hr : MultipleReach n z) (h : parseNumber c.w.fp P n true = .ok r) : CanGen stk c r.toGen 1 (.num z) := by
  obtain ⟨a, b, m, h1, h2, h3, hm, hm', ha, hb, haz, hlast⟩ := hr.bounds
  obtain ⟨j, hj⟩ := hr.accepts.multipleOf _ h3
  have hz : z = j * m := by exact_mod_cast hj
  have hzb : z ≤ b := by exact_mod_cast hr.accepts.maximum _ h2
  have hub := upperBound_large hF
  have ha' := abs_le.1 ha
  have hb' := abs_le.1 hb
  have ha1 : -(2 ^ 48) ≤ (a : Rat) := by exact_mod_cast ha'.1
  have hb1 : (b : Rat) ≤ 2 ^ 48 := by exact_mod_cast hb'.2
  have heff : effectiveBounds c.w.fp n true = ((a : Rat), (b : Rat)) := by
    unfold effectiveBounds
    rw [h1, h2, hr.exclusiveMinimum, hr.exclusiveMaximum]
    rfl
  have hcl : clampBounds c.w.fp (effectiveBounds c.w.fp n true) = ((a : Rat), (b : Rat)) := by
    rw [heff]
    unfold clampBounds lowerBound
    rw [if_neg (by simp only; linarith), if_neg (by simp only; linarith)]
  unfold parseNumber at h
  split at h
  · cases h
  rename_i mn mx hres
  obtain ⟨-, -, hmn, hmx⟩ := resolve_ok hres
  rw [if_pos rfl, hcl] at hmn hmx
  have hmn : mn = a := by rw [hmn]; unfold fCeil; simp
  have hmx : mx = b := by rw [hmx]; unfold fFloor; simp
  rw [if_neg (by
    rw [hmn, hmx]
    intro e
    have e : a = b := by exact_mod_cast e
    omega)] at h
  cases h
  rw [h3, hmn, hmx]
  exact canGen_multipleOf hF ha hb hm hm' hz haz hzb hlast

/-- In exact arithmetic and in binary64 the last steps of generation keep whole multiples. -/
theorem kept_multiple {F : FP} (hF : F = FP.exact ∨ F = FP.binary64) {j m : Int} (hm : 0 < m) (hz : |j * m| ≤ 1475739) :
    utilRound F ((j * m : Int) : Rat) m = ((j * m : Int) : Rat) ∧
    roundToInfinitesimal F ((j * m : Int) : Rat) = ((j * m : Int) : Rat) := by
  rcases hF with rfl | rfl
  · have hmq : (0 : Rat) < m := by exact_mod_cast hm
    constructor
    · have hprec : decimalPrecision .exact (m : Rat) = 0 := by
        unfold decimalPrecision
        rw [if_neg (not_lt.2 hmq.le)]
        unfold decimalPrecision.go
        rw [if_pos (by unfold fFloor; simp)]
      have hd : FP.exact.div ((j * m : Int) : Rat) m = j := by
        show ((j * m : Int) : Rat) / m = j
        push_cast; field_simp
      have hmul : FP.exact.mul (j : Rat) m = ((j * m : Int) : Rat) := by
        show (j : Rat) * m = _
        push_cast; rfl
      have h1 : FP.exact.mul ((j * m : Int) : Rat) 1 = ((j * m : Int) : Rat) := mul_one _
      unfold utilRound
      simp only [hd, fRound_int, hmul, hprec, pow_zero, if_pos hmq.ne', ne_eq, h1]
      exact div_one _
    · unfold roundToInfinitesimal
      generalize (if ((j * m : Int) : Rat) < 0 then -((j * m : Int) : Rat) else ((j * m : Int) : Rat)) = y
      split
      · rfl
      · have e1 : FP.exact.div ((j * m : Int) : Rat) (infinitesimal .exact) = ((j * m * 10 ^ 14 : Int) : Rat) := by
          show ((j * m : Int) : Rat) / (1 / 10 ^ 14) = _
          push_cast; ring
        rw [e1, fRound_int]
        show ((j * m * 10 ^ 14 : Int) : Rat) * (1 / 10 ^ 14) = _
        push_cast; ring
  · exact ⟨utilRound_int hm (hz.trans (by norm_num)), snap_int hz⟩

theorem canGen_parsedWholeMultiple (hF : c.w.fp = FP.exact ∨ c.w.fp = FP.binary64) {n : NumSpec} {P : Platform} {z : Int} {r : NumResult}
    (hr : MultipleReach n z) (hzl : |z| ≤ 1475739) (h : parseNumber c.w.fp P n false = .ok r) : CanGen stk c r.toGen 1 (.num z) := by
  have hL : c.w.fp.Lawful := by
    rcases hF with h | h <;> rw [h]
    · exact FP.exact_lawful
    · exact FP.binary64_lawful
  obtain ⟨a, b, m, h1, h2, h3, hm, hm', ha, hb, haz, hlast⟩ := hr.bounds
  obtain ⟨j, hj⟩ := hr.accepts.multipleOf _ h3
  have hz : z = j * m := by exact_mod_cast hj
  have hzb : z ≤ b := by exact_mod_cast hr.accepts.maximum _ h2
  have hub := upperBound_large hL
  have ha' := abs_le.1 ha
  have hb' := abs_le.1 hb
  have ha1 : -(2 ^ 48) ≤ (a : Rat) := by exact_mod_cast ha'.1
  have hb1 : (b : Rat) ≤ 2 ^ 48 := by exact_mod_cast hb'.2
  have heff : effectiveBounds c.w.fp n false = ((a : Rat), (b : Rat)) := by
    unfold effectiveBounds
    rw [h1, h2, hr.exclusiveMinimum, hr.exclusiveMaximum]
    rfl
  have hcl : clampBounds c.w.fp (effectiveBounds c.w.fp n false) = ((a : Rat), (b : Rat)) := by
    rw [heff]
    unfold clampBounds lowerBound
    rw [if_neg (by simp only; linarith), if_neg (by simp only; linarith)]
  unfold parseNumber at h
  split at h
  · cases h
  rename_i mn mx hres
  obtain ⟨-, -, hmn, hmx⟩ := resolve_ok hres
  rw [if_neg (by decide), hcl] at hmn hmx
  replace hmn : mn = (a : Rat) := hmn
  replace hmx : mx = (b : Rat) := hmx
  rw [if_neg (by
    rw [hmn, hmx]
    intro e
    have e : a = b := by exact_mod_cast e
    omega)] at h
  cases h
  rw [h3, hmn, hmx]
  obtain ⟨k1, k2⟩ := kept_multiple hF (j := j) hm (by rw [← hz]; exact hzl)
  rw [← hz] at k1 k2
  exact canGen_wholeMultiple hL ha hb hm hm' hz haz hzb hlast k1 k2

/-! ## Arrays -/

/-- The sum of the costs. -/
def costs (l : List (Nat × JVal)) : Nat := (l.map Prod.fst).sum

theorem can_genTuple {gs : List Gen} {ps : List (Nat × JVal)} (h : List.Forall₂ (fun g p => CanGen stk c g p.1 p.2) gs ps) :
    Can stk c (fun w n => genTuple (subGen c w n) gs) (costs ps) (ps.map Prod.snd) := by
  induction h with
  | nil => exact Can.pure []
  | @cons g p gs ps h _ ih =>
    have := Can.bind h (f := fun w n v => genTuple (subGen c w n) gs >>= fun vs => (Pure.pure (v :: vs) : M (List JVal)))
      (Can.bind ih (f := fun w n vs => (Pure.pure (p.2 :: vs) : M (List JVal))) (Can.pure _))
    exact this

theorem can_genUnique {unique : Bool} {g : Gen} {acc : List JVal} {k : Nat} {v : JVal} (h : CanGen stk c g k v)
    (hu : unique = true → 0 < c.o.maximumUniqueGeneratorAttempts ∧ ∀ x ∈ acc, x.jeq v = false) :
    Can stk c (fun w n => genUnique { c with w := w } (subGen c w n) unique g acc) k (v, true) := by
  cases unique with
  | false =>
    have := Can.bind h (f := fun w n v => (Pure.pure (v, true) : M (JVal × Bool))) (Can.pure _)
    exact this
  | true =>
    obtain ⟨h0, hne⟩ := hu rfl
    obtain ⟨a, ha⟩ : ∃ a, c.o.maximumUniqueGeneratorAttempts.toNat = a + 1 :=
      ⟨c.o.maximumUniqueGeneratorAttempts.toNat - 1, by omega⟩
    have hany : acc.any (fun x => x.jeq v) = false := by
      rw [List.any_eq_false]
      intro x hx
      rw [hne x hx]
      simp
    have h1 : Can stk c (fun w n => uniqueLoop (subGen c w n) g acc (a + 1)) k (some v) := by
      have := Can.bind h (f := fun w n item => if acc.any (fun x => x.jeq item) then uniqueLoop (subGen c w n) g acc a
        else (Pure.pure (some item) : M (Option JVal))) (b := some v) (l := 0) (by
          rw [hany]
          exact Can.pure (some v))
      exact this
    have h2 := Can.bind h1 (f := fun w n r => (match r with
      | some item => (Pure.pure (item, true) : M (JVal × Bool))
      | none => do
        note .notUnique
        Pure.pure (.str (uniqueWarning c.o.maximumUniqueGeneratorAttempts), false))) (b := (v, true)) (l := 0) (Can.pure (v, true))
    refine h2.congr 0 fun w n s _ _ => ?_
    unfold genUnique
    rw [if_neg (by simp), ha]
    rfl

theorem can_itemsLoop {unique : Bool} {g : Gen} {target lo : Int} (ps : List (Nat × JVal)) :
    ∀ (fuel : Nat) (i : Int) (acc : List JVal), ps.length ≤ fuel → (∀ p ∈ ps, CanGen stk c g p.1 p.2) →
    (unique = true → 0 < c.o.maximumUniqueGeneratorAttempts ∧
      (acc ++ ps.map Prod.snd).Pairwise (fun x y => x.jeq y = false)) →
    (∀ j < ps.length, i + (j : Int) < target ∨ lo > goLen acc + (j : Int)) →
    (¬ (i + (ps.length : Int) < target ∨ lo > goLen acc + (ps.length : Int))) →
    Can stk c (fun w n => itemsLoop { c with w := w } (subGen c w n) unique g target lo fuel i acc) (costs ps)
      (acc ++ ps.map Prod.snd) := by
  induction ps with
  | nil =>
    intro fuel i acc _ _ _ _ hend
    simp only [List.length_nil, Nat.cast_zero, add_zero] at hend
    refine (Can.pure (acc ++ [])).congr 0 fun w n s _ _ => ?_
    cases fuel with
    | zero => unfold itemsLoop; rw [if_neg hend, List.append_nil]
    | succ f => unfold itemsLoop; rw [if_neg hend, List.append_nil]
  | cons p ps ih =>
    intro fuel i acc hf hps hu hgo hend
    obtain ⟨f, rfl⟩ : ∃ f, fuel = f + 1 := ⟨fuel - 1, by rw [List.length_cons] at hf; omega⟩
    have hp := hps p (by simp)
    have h1 : Can stk c (fun w n => genUnique { c with w := w } (subGen c w n) unique g acc) p.1 (p.2, true) := by
      refine can_genUnique hp fun h => ⟨(hu h).1, ?_⟩
      have := (hu h).2
      rw [List.map_cons, List.pairwise_append] at this
      exact fun x hx => this.2.2 x hx p.2 (by simp)
    have hlen : goLen (acc ++ [p.2]) = goLen acc + 1 := by unfold goLen; simp
    have h2 := ih f (i + 1) (acc ++ [p.2]) (by rw [List.length_cons] at hf; omega) (fun q hq => hps q (by simp [hq]))
      (fun h => ⟨(hu h).1, by
        have := (hu h).2
        rw [List.map_cons] at this
        rw [List.append_assoc]
        exact this⟩) (by
        intro j hj
        have := hgo (j + 1) (by rw [List.length_cons]; omega)
        rw [hlen]
        push_cast at this ⊢
        omega) (by
        rw [List.length_cons] at hend
        rw [hlen]
        push_cast at hend ⊢
        omega)
    have h3 := Can.bind h1 (f := fun w n r => if r.2 = false ∧ i > lo then (Pure.pure acc : M (List JVal))
        else itemsLoop { c with w := w } (subGen c w n) unique g target lo f (i + 1) (acc ++ [r.1]))
      (b := acc ++ (p :: ps).map Prod.snd) (l := costs ps) (by
        simp only [Bool.true_eq_false, false_and, if_false]
        rw [List.append_assoc] at h2
        exact h2)
    refine h3.congr 0 fun w n s _ _ => ?_
    conv_lhs => unfold itemsLoop
    have := hgo 0 (by simp)
    simp only [Nat.cast_zero, add_zero] at this
    rw [if_pos this]

theorem canGen_tupleOnly {g : ArrGen Gen} (hd : g.disallowAdditional = true) {ps : List (Nat × JVal)}
    (h : List.Forall₂ (fun g p => CanGen stk c g p.1 p.2) g.tuple ps) :
    CanGen stk c (.arr g) (1 + costs ps) (.arr (ps.map Prod.snd)) := by
  have h1 := Can.bind (can_genTuple h) (f := fun w n t => (Pure.pure (.arr t) : M JVal)) (Can.pure _)
  have h2 := Can.tick.bind (f := fun w n _ => Chaff.cutoff { c with w := w } >>= fun b => if b = true then
      (do note .cutoff; pure .null : M JVal) else genTuple (subGen c w n) g.tuple >>= fun t => pure (.arr t))
    (Can.cutoff.bind (f := fun w n b => if b = true then
      (do note .cutoff; pure .null : M JVal) else genTuple (subGen c w n) g.tuple >>= fun t => pure (.arr t)) h1)
  rw [Nat.zero_add, Nat.add_zero] at h2
  refine .step (h2.congr 0 fun w n s _ _ => ?_)
  show arrayGenerate { c with w := w } (subGen c w n) g s = _
  unfold arrayGenerate
  rw [hd]
  rfl

theorem canGen_array {g : ArrGen Gen} (hd : g.disallowAdditional = false) (hdu : g.disallowUnevaluated = false)
    (hc : g.contains = none) (hmc : g.minContains = 0) {ps qs : List (Nat × JVal)}
    (ht : List.Forall₂ (fun g p => CanGen stk c g p.1 p.2) g.tuple ps) (hq : ∀ p ∈ qs, CanGen stk c (itemGenOf g) p.1 p.2)
    (hu : g.unique = true → 0 < c.o.maximumUniqueGeneratorAttempts ∧
      ((ps ++ qs).map Prod.snd).Pairwise (fun x y => x.jeq y = false))
    (hlo : (arrBounds c g).1 ≤ (ps.length : Int) + qs.length)
    (hhi : (ps.length : Int) + qs.length = max (arrBounds c g).1 ps.length ∨
      (ps.length : Int) + qs.length < (arrBounds c g).2) :
    CanGen stk c (.arr g) (1 + (costs ps + costs qs)) (.arr ((ps ++ qs).map Prod.snd)) := by
  have hlen : g.tuple.length = ps.length := ht.length_eq
  obtain ⟨k, hk, hk1, hk2⟩ : ∃ k : Int, (k = 0 ∧ (0 : Int) = maxInt 0 ((arrBounds c g).2 - (goLen g.tuple + g.minContains)) ∨
      (0 : Int) ≤ k ∧ k < maxInt 0 ((arrBounds c g).2 - (goLen g.tuple + g.minContains))) ∧ 0 ≤ k ∧
      ((k = 0 ∧ (qs = [] ∨ (arrBounds c g).1 = (ps.length : Int) + qs.length)) ∨ k = qs.length) := by
    rw [hmc]
    unfold goLen
    rw [hlen]
    unfold maxInt
    rcases hhi with h | h
    · refine ⟨0, ?_, le_refl _, .inl ⟨rfl, ?_⟩⟩
      · split <;> omega
      · cases qs with
        | nil => exact .inl rfl
        | cons q qs =>
          right
          rw [List.length_cons] at h ⊢
          push_cast at h ⊢
          omega
    · refine ⟨qs.length, ?_, by omega, .inr rfl⟩
      split <;> omega
  have hacc : goLen (ps.map Prod.snd) = (ps.length : Int) := by unfold goLen; simp
  have h1 : Can stk c (fun w n => itemsStage { c with w := w } (subGen c w n) g k (ps.map Prod.snd)) (costs qs)
      (ps.map Prod.snd ++ qs.map Prod.snd) := by
    refine can_itemsLoop (unique := g.unique) (target := k) (lo := (arrBounds c g).1) qs
      (max k ((arrBounds c g).1 - goLen (ps.map Prod.snd))).toNat 0 (ps.map Prod.snd) ?_ hq ?_ ?_ ?_
    · show qs.length ≤ (max k ((arrBounds c g).1 - goLen (ps.map Prod.snd))).toNat
      rw [hacc]
      rcases hk2 with ⟨rfl, rfl | h⟩ | rfl
      · simp
      · omega
      · omega
    · intro h
      rw [← List.map_append]
      exact hu h
    · intro j hj
      show 0 + (j : Int) < k ∨ (arrBounds c g).1 > _
      rw [hacc]
      rcases hk2 with ⟨rfl, rfl | h⟩ | rfl
      · simp at hj
      · right; omega
      · left; omega
    · show ¬ (0 + (qs.length : Int) < k ∨ (arrBounds c g).1 > _)
      rw [hacc]
      rcases hk2 with ⟨rfl, rfl | h⟩ | rfl
      · simp at hlo ⊢; omega
      · omega
      · omega
  have h2 : Can stk c (fun w n => itemsTarget { c with w := w } g) 0 k := by
    have := Can.bind (Can.randomInt (c := c) (stk := stk) hk) (f := fun w n k => Chaff.minimize { c with w := w } >>= fun m =>
      (Pure.pure (if g.disallowUnevaluated || m then 0 else k) : M Int)) (b := k) (l := 0)
      (Can.bind Can.minimize (f := fun w n m => (Pure.pure (if g.disallowUnevaluated || m then 0 else k) : M Int))
        (b := k) (l := 0) (by rw [hdu]; exact Can.pure k))
    exact this
  have h3 : Can stk c (fun w n => containsStage { c with w := w } (subGen c w n) g (ps.map Prod.snd)) 0 (ps.map Prod.snd) := by
    refine (Can.pure (ps.map Prod.snd)).congr 0 fun w n s _ _ => ?_
    unfold containsStage
    rw [hc]
  have h4 := Can.bind (can_genTuple ht) (f := fun w n t => containsStage { c with w := w } (subGen c w n) g t >>= fun acc =>
      itemsTarget { c with w := w } g >>= fun target => itemsStage { c with w := w } (subGen c w n) g target acc >>= fun r =>
      (Pure.pure (.arr r) : M JVal))
    (Can.bind h3 (f := fun w n acc => itemsTarget { c with w := w } g >>= fun target =>
        itemsStage { c with w := w } (subGen c w n) g target acc >>= fun r => (Pure.pure (.arr r) : M JVal))
      (Can.bind h2 (f := fun w n target => itemsStage { c with w := w } (subGen c w n) g target (ps.map Prod.snd) >>= fun r =>
          (Pure.pure (.arr r) : M JVal))
        (Can.bind h1 (f := fun w n r => (Pure.pure (.arr r) : M JVal)) (Can.pure _))))
  have h5 := Can.tick.bind (f := fun w n _ => Chaff.cutoff { c with w := w } >>= fun b => if b = true then
      (do note .cutoff; pure .null : M JVal) else genTuple (subGen c w n) g.tuple >>= fun t =>
      containsStage { c with w := w } (subGen c w n) g t >>= fun acc =>
      itemsTarget { c with w := w } g >>= fun target => itemsStage { c with w := w } (subGen c w n) g target acc >>= fun r =>
      (Pure.pure (.arr r) : M JVal))
    (Can.cutoff.bind (f := fun w n b => if b = true then
      (do note .cutoff; pure .null : M JVal) else genTuple (subGen c w n) g.tuple >>= fun t =>
      containsStage { c with w := w } (subGen c w n) g t >>= fun acc =>
      itemsTarget { c with w := w } g >>= fun target => itemsStage { c with w := w } (subGen c w n) g target acc >>= fun r =>
      (Pure.pure (.arr r) : M JVal)) h4)
  simp only [Nat.zero_add, Nat.add_zero] at h5
  rw [List.map_append]
  refine .step (h5.congr 0 fun w n s _ _ => ?_)
  show arrayGenerate { c with w := w } (subGen c w n) g s = _
  unfold arrayGenerate
  rw [hd]
  rfl

/-! ## Closed objects -/

theorem insertKV_new {m : List (String × JVal)} {k : String} {v : JVal} (h : k ∉ keysKV m) : insertKV m k v = m ++ [(k, v)] := by
  induction m with
  | nil => rfl
  | cons p m ih =>
    obtain ⟨k', v'⟩ := p
    simp only [keysKV, List.map_cons, List.mem_cons, not_or] at h
    unfold insertKV
    rw [if_neg (fun e => h.1 e.symm)]
    rw [ih h.2]
    rfl

theorem can_genKeys {g : ObjGen Gen} {pre : String} (ps : List (String × (Nat × JVal))) : ∀ acc : ObjMap,
    (∀ p ∈ ps, ∃ pg, lookupKV g.props p.1 = some pg ∧ CanGen stk c pg p.2.1 p.2.2) →
    (keysKV acc ++ keysKV ps).Nodup →
    Can stk c (fun w n => genKeys { c with w := w } (subGen c w n) g pre (keysKV ps) acc) (costs (ps.map Prod.snd))
      (acc ++ ps.map fun p => (p.1, p.2.2)) := by
  induction ps with
  | nil => intro acc _ _; show Can stk c _ _ (acc ++ []); rw [List.append_nil]; exact Can.pure acc
  | cons p ps ih =>
    intro acc hp hnd
    obtain ⟨pg, hpg, hcan⟩ := hp p (by simp)
    have hk : keysKV (p :: ps) = p.1 :: keysKV ps := rfl
    rw [hk] at hnd ⊢
    have hnew : p.1 ∉ keysKV acc := by
      intro hm
      have := (List.nodup_append.1 hnd).2.2 p.1 hm p.1 (by simp)
      exact this rfl
    have hins := insertKV_new (v := p.2.2) hnew
    have hkeys : keysKV (acc ++ [(p.1, p.2.2)]) = keysKV acc ++ [p.1] := by simp [keysKV]
    have h2 := ih (acc ++ [(p.1, p.2.2)]) (fun q hq => hp q (by simp [hq])) (by
      rw [hkeys, List.append_assoc]
      exact hnd)
    have h1 : Can stk c (fun w n => genKey { c with w := w } (subGen c w n) g pre p.1) p.2.1 p.2.2 := by
      refine Can.congr 0 hcan fun w n s _ _ => ?_
      unfold genKey
      rw [hpg]
    have h3 := Can.bind h1 (f := fun w n v => genKeys { c with w := w } (subGen c w n) g pre (keysKV ps) (insertKV acc p.1 v))
      (b := acc ++ (p :: ps).map fun p => (p.1, p.2.2)) (l := costs (ps.map Prod.snd)) (by
        simp only [hins]
        rw [List.append_assoc] at h2
        exact h2)
    exact h3

theorem canGen_declared {g : ObjGen Gen} {rs qs : List (String × (Nat × JVal))} (hr : keysKV rs = g.required)
    (hprops : ∀ p ∈ rs ++ qs, ∃ pg, lookupKV g.props p.1 = some pg ∧ CanGen stk c pg p.2.1 p.2.2)
    (hnd : (keysKV rs ++ keysKV qs).Nodup)
    (hle : (objBounds c g).1 ≤ (objBounds c g).2) (hlo : (objBounds c g).1 ≤ (rs.length : Int) + qs.length)
    (hhi : (rs.length : Int) + qs.length = max (objBounds c g).1 rs.length ∨
      (rs.length : Int) + qs.length < (objBounds c g).2) :
    CanGen stk c (.obj g) (1 + (costs (rs.map Prod.snd) + costs (qs.map Prod.snd)))
      (.obj ((rs ++ qs).map fun p => (p.1, p.2.2))) := by
  have hrl : (goLen g.required) = rs.length := by rw [← hr]; unfold goLen; rw [length_keysKV]
  have h1 : Can stk c (fun w n => genKeys { c with w := w } (subGen c w n) g "required" g.required []) (costs (rs.map Prod.snd))
      (rs.map fun p => (p.1, p.2.2)) := by
    rw [← hr]
    have := can_genKeys (c := c) (stk := stk) (g := g) (pre := "required") rs [] (fun p hp => hprops p (by simp [hp])) (by
      simpa [keysKV] using (List.nodup_append.1 hnd).1)
    exact this
  have hacc : keysKV (rs.map fun p => (p.1, p.2.2)) = keysKV rs := by simp [keysKV]
  have h2 : Can stk c (fun w n => genKeys { c with w := w } (subGen c w n) g "optional" (keysKV qs) (rs.map fun p => (p.1, p.2.2)))
      (costs (qs.map Prod.snd)) ((rs ++ qs).map fun p => (p.1, p.2.2)) := by
    have := can_genKeys (c := c) (stk := stk) (g := g) (pre := "optional") qs (rs.map fun p => (p.1, p.2.2))
      (fun p hp => hprops p (by simp [hp])) (by rw [hacc]; exact hnd)
    rw [List.map_append]
    exact this
  have hkeys : Can stk c (fun w _ => funkKeys w g.props) 0 (keysKV g.props) := Can.shuffle (.refl _)
  have htarget : Can stk c (fun w _ => objTarget { c with w := w } g) 0 (qs.length : Int) := by
    have hb : ∀ w, objBounds { c with w := w } g = objBounds c g := fun _ => rfl
    have hz : ((qs.length : Int) = maxInt 0 ((objBounds c g).1 - goLen g.required) ∧
          maxInt 0 ((objBounds c g).1 - goLen g.required) = maxInt 0 ((objBounds c g).2 - goLen g.required)) ∨
        (maxInt 0 ((objBounds c g).1 - goLen g.required) ≤ (qs.length : Int) ∧
          (qs.length : Int) < maxInt 0 ((objBounds c g).2 - goLen g.required)) := by
      rw [hrl]
      unfold maxInt
      rcases hhi with h | h
      · split <;> split <;> omega
      · right
        split <;> split <;> omega
    have := Can.bind (Can.randomInt (c := c) (stk := stk) hz) (f := fun w n t => Chaff.minimize { c with w := w } >>= fun m =>
      (Pure.pure (if m then maxInt 0 ((objBounds c g).1 - goLen g.required) else t) : M Int)) (b := (qs.length : Int)) (l := 0)
      (Can.bind Can.minimize (f := fun w n m => (Pure.pure (if m then maxInt 0 ((objBounds c g).1 - goLen g.required)
        else (qs.length : Int)) : M Int)) (b := (qs.length : Int)) (l := 0) (Can.pure _))
    exact this
  have hq : ∃ r, (uniqString (g.required ++ keysKV g.props)).Perm (keysKV qs ++ r) := by
    have hsub : (keysKV qs).Subperm (uniqString (g.required ++ keysKV g.props)) := by
      refine List.subperm_of_subset (List.nodup_append.1 hnd).2.1 fun k hk => ?_
      rw [mem_uniqString]
      obtain ⟨p, hp, rfl⟩ := List.mem_map.1 hk
      obtain ⟨pg, hpg, -⟩ := hprops p (by simp [hp])
      exact List.mem_append_right _ (List.mem_map.2 ⟨_, lookupKV_mem hpg, rfl⟩)
    obtain ⟨l, hl1, hl2⟩ := hsub
    obtain ⟨r, hr⟩ := hl2.exists_perm_append
    exact ⟨r, hr.trans (hl1.append_right r)⟩
  have hmin : minInt (goLen (uniqString (g.required ++ keysKV g.props))) (qs.length : Int) = goLen (keysKV qs) := by
    obtain ⟨r, hr⟩ := hq
    have := hr.length_eq
    rw [List.length_append, length_keysKV] at this
    unfold minInt goLen
    rw [length_keysKV]
    split <;> omega
  have hextra : Can stk c (fun w n => objExtras { c with w := w } (subGen c w n) g ((qs.length : Int) - goLen (keysKV qs))
      ((rs ++ qs).map fun p => (p.1, p.2.2))) 0 (.obj ((rs ++ qs).map fun p => (p.1, p.2.2))) := by
    refine (Can.pure (JVal.obj _)).congr 0 fun w n s _ _ => ?_
    have h0 : ((qs.length : Int) - goLen (keysKV qs)).toNat = 0 := by unfold goLen; rw [length_keysKV]; omega
    have hfill : objFill (subGen c w n) g (objBounds c g).1 ((rs ++ qs).map fun p => (p.1, p.2.2)) =
        pure (.obj ((rs ++ qs).map fun p => (p.1, p.2.2))) := by
      unfold objFill
      rw [if_neg]
      unfold goLen
      rw [List.length_map, List.length_append]
      push_cast
      omega
    unfold objExtras
    rw [show (objBounds { c with w := w } g).1 = (objBounds c g).1 from rfl, h0]
    split
    · exact congrFun hfill s
    · split
      · rfl
      · cases g.additional with
        | some a => exact congrFun hfill s
        | none => exact congrFun hfill s
  have h3 := Can.bind h1 (f := fun w n acc => funkKeys w g.props >>= fun ks => objTarget { c with w := w } g >>= fun target =>
      Chaff.stringChoiceMultiple w (uniqString (g.required ++ ks)) (minInt (goLen (uniqString (g.required ++ ks))) target) >>= fun chosen =>
      genKeys { c with w := w } (subGen c w n) g "optional" chosen acc >>= fun acc =>
      objExtras { c with w := w } (subGen c w n) g (target - goLen chosen) acc)
    (Can.bind hkeys (f := fun w n ks => objTarget { c with w := w } g >>= fun target =>
      Chaff.stringChoiceMultiple w (uniqString (g.required ++ ks)) (minInt (goLen (uniqString (g.required ++ ks))) target) >>= fun chosen =>
      genKeys { c with w := w } (subGen c w n) g "optional" chosen (rs.map fun p => (p.1, p.2.2)) >>= fun acc =>
      objExtras { c with w := w } (subGen c w n) g (target - goLen chosen) acc)
    (Can.bind htarget (f := fun w n target =>
      Chaff.stringChoiceMultiple w (uniqString (g.required ++ keysKV g.props))
        (minInt (goLen (uniqString (g.required ++ keysKV g.props))) target) >>= fun chosen =>
      genKeys { c with w := w } (subGen c w n) g "optional" chosen (rs.map fun p => (p.1, p.2.2)) >>= fun acc =>
      objExtras { c with w := w } (subGen c w n) g (target - goLen chosen) acc)
    (Can.bind (by rw [hmin]; exact Can.stringChoiceMultiple hq) (f := fun w n chosen =>
      genKeys { c with w := w } (subGen c w n) g "optional" chosen (rs.map fun p => (p.1, p.2.2)) >>= fun acc =>
      objExtras { c with w := w } (subGen c w n) g ((qs.length : Int) - goLen chosen) acc)
    (Can.bind h2 (f := fun w n acc =>
      objExtras { c with w := w } (subGen c w n) g ((qs.length : Int) - goLen (keysKV qs)) acc) hextra))))
  have h5 := Can.tick.bind (f := fun w n _ => Chaff.cutoff { c with w := w } >>= fun b => if b = true then
      (do note .cutoff; pure .null : M JVal) else genKeys { c with w := w } (subGen c w n) g "required" g.required [] >>= fun acc =>
      funkKeys w g.props >>= fun ks => objTarget { c with w := w } g >>= fun target =>
      Chaff.stringChoiceMultiple w (uniqString (g.required ++ ks)) (minInt (goLen (uniqString (g.required ++ ks))) target) >>= fun chosen =>
      genKeys { c with w := w } (subGen c w n) g "optional" chosen acc >>= fun acc =>
      objExtras { c with w := w } (subGen c w n) g (target - goLen chosen) acc)
    (Can.cutoff.bind (f := fun w n b => if b = true then
      (do note .cutoff; pure .null : M JVal) else genKeys { c with w := w } (subGen c w n) g "required" g.required [] >>= fun acc =>
      funkKeys w g.props >>= fun ks => objTarget { c with w := w } g >>= fun target =>
      Chaff.stringChoiceMultiple w (uniqString (g.required ++ ks)) (minInt (goLen (uniqString (g.required ++ ks))) target) >>= fun chosen =>
      genKeys { c with w := w } (subGen c w n) g "optional" chosen acc >>= fun acc =>
      objExtras { c with w := w } (subGen c w n) g (target - goLen chosen) acc) h3)
  simp only [Nat.zero_add, Nat.add_zero] at h5
  refine .step (h5.congr 0 fun w n s _ _ => ?_)
  show objectGenerate { c with w := w } (subGen c w n) g s = _
  rfl

end Chaff
