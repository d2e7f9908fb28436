import Verif.Lemmas.ReachRegex
import Verif.Props.Reach
/-!
# C82: every text that matches a pattern can be drawn

A pattern generator is used to explore what a pattern admits.  The repetition limits of the options restrict that on
purpose (`limited`, Spec/Library.lean); apart from that no matching text should be out of reach.
-/

namespace Chaff
open Comp

theorem drawAmbient_ambient {w w' : World} (h : w'.ambient = w.ambient) : drawAmbient w' = drawAmbient w := by
  unfold drawAmbient
  rw [h]

theorem intnAmbient_ambient {w w' : World} (h : w'.ambient = w.ambient) (n : Int) : intnAmbient w' n = intnAmbient w n := by
  unfold intnAmbient
  rw [drawAmbient_ambient h]

mutual
/-- Only one of the streams is read. -/
theorem rxGenerate_ambient {w w' : World} (h : w'.ambient = w.ambient) : ∀ g, rxGenerate w' g = rxGenerate w g
  | .empty => by simp only [rxGenerate]
  | .lit rs => by simp only [rxGenerate]
  | .any true => by simp only [rxGenerate, intnAmbient_ambient h]
  | .any false => by simp only [rxGenerate, intnAmbient_ambient h]
  | .cls k => by simp only [rxGenerate, clsIndex, intnAmbient_ambient h]
  | .rep g mn mx => by simp only [rxGenerate, intnAmbient_ambient h, rxGenerate_ambient h g]
  | .cat gs => by simp only [rxGenerate, rxCat_ambient h gs]
  | .alt gs => by simp only [rxGenerate, intnAmbient_ambient h, fun i => rxNth_ambient h gs i]
theorem rxCat_ambient {w w' : World} (h : w'.ambient = w.ambient) : ∀ gs, rxCat w' gs = rxCat w gs
  | [] => by simp only [rxCat]
  | g :: gs => by simp only [rxCat, rxGenerate_ambient h g, rxCat_ambient h gs]
theorem rxNth_ambient {w w' : World} (h : w'.ambient = w.ambient) : ∀ gs i, rxNth w' gs i = rxNth w gs i
  | [], _ => by simp only [rxNth]
  | g :: _, 0 => by simp only [rxNth, rxGenerate_ambient h g]
  | _ :: gs, n + 1 => by simp only [rxNth, rxNth_ambient h gs n]
end

/-- C82 (partial: the expressions of `Exhaustive`; the theorems below show that the others lack texts).  For every
expression, every text that matches it within the repetition limits and every state there is a continuation of the
stream of random numbers with which the generator returns the text. -/
theorem C82_every_match_can_be_drawn_partial (a : RxArgs) (r : Rx) (g : RxGen) (hb : newRxGen a r = .ok g)
    (he : Exhaustive a r) (text : List Char) (h : Matches [] (limited a.minUnbounded a.maxUnbounded r) text [])
    (w : World) (s : GSt) :
    ∃ f : Nat → Nat, (∀ i < s.apos, f i = w.ambient i) ∧
      ∃ s', rxGenerate { w with ambient := f } g s = .ok text s' := by
  obtain ⟨N, ds, as, hc⟩ := can_rx (stk := s.refs) (c := { w := w, o := {}, env := fun _ _ => none }) a r g hb he _ _ _ h
  let f : Nat → Nat := fun i => if i < s.apos then w.ambient i else as.getD (i - s.apos) 0
  let f' : Nat → Nat := fun i => ds.getD (i - s.spos) 0
  have hr : Room ({} : Opts) (s.complexity + (0 : Nat)) := fun i _ => by
    constructor <;> simp [shouldCutoff, shouldMinimize]
  obtain ⟨s', e, _⟩ := hc { w with ambient := f, seeded := f' } N s le_rfl ⟨rfl, rfl, rfl, rfl⟩ (by
    intro i x hx
    show ds.getD (s.spos + i - s.spos) 0 = x
    rw [Nat.add_sub_cancel_left, List.getD_eq_getElem?_getD, hx]; rfl) (by
    intro i x hx
    show (if s.apos + i < s.apos then w.ambient (s.apos + i) else as.getD (s.apos + i - s.apos) 0) = x
    rw [if_neg (by omega), Nat.add_sub_cancel_left, List.getD_eq_getElem?_getD, hx]; rfl) hr rfl
  refine ⟨f, fun i hi => if_pos hi, s', ?_⟩
  rw [← e]
  exact congrFun (rxGenerate_ambient (w := { w with ambient := f, seeded := f' }) (w' := { w with ambient := f }) rfl g) s

/-! ## The hypotheses are met -/

/-- `xabzc` matches `^(ab|[x-z])+c?$` with three repetitions. -/
theorem demoRx_text : Matches [] (limited defaultRx.minUnbounded defaultRx.maxUnbounded demoRx) "xabzc".toList [] := by
  have hx : ∀ {p q : List Char} (n : Nat) (x : Char), x.toNat = n → 120 ≤ n → n ≤ 122 →
      Matches p (.capture (.alternate [.literal [97, 98], .charClass [120, 122]])) [x] q := by
    intro p q n x hn h1 h2
    refine .capture (.alternate (r := .charClass [120, 122]) (by simp) (.charClass ?_))
    left
    omega
  have hab : ∀ {p q : List Char}, Matches p (.capture (.alternate [.literal [97, 98], .charClass [120, 122]])) "ab".toList q :=
    .capture (.alternate (r := .literal [97, 98]) (by simp) (.literal ['a', 'b']))
  refine .concatCons (u := []) .beginText (.concatCons (u := "xabz".toList) (v := "c".toList) ?_ (.concatCons (u := "c".toList) (v := []) ?_
    (.concatCons (u := []) (v := []) .endText .concatNil)))
  · refine .repeat 3 (by decide) (.inr (by decide)) ?_
    exact .concatCons (u := ['x']) (v := "abz".toList) (hx _ 'x' rfl (by decide) (by decide)) (.concatCons (u := "ab".toList) (v := ['z']) hab
      (.concatCons (u := ['z']) (v := []) (hx _ 'z' rfl (by decide) (by decide)) .concatNil))
  · exact .quest 1 le_rfl (.concatCons (u := ['c']) (v := []) (.literal ['c']) .concatNil)

theorem demoRx_exhaustive : Exhaustive defaultRx demoRx := by
  simp only [demoRx, Exhaustive, Exhaustives, and_true, true_and, classSize, InClass]
  decide

/-- The theorem applies to `xabzc` and `^(ab|[x-z])+c?$`. -/
example (w : World) (s : GSt) : ∃ g, newRxGen defaultRx demoRx = .ok g ∧ ∃ f : Nat → Nat, (∀ i < s.apos, f i = w.ambient i) ∧
    ∃ s', rxGenerate { w with ambient := f } g s = .ok "xabzc".toList s' :=
  ⟨_, rfl, C82_every_match_can_be_drawn_partial _ _ _ rfl demoRx_exhaustive _ demoRx_text w s⟩

/-- An environment in which the pattern `^(ab|[x-z])+c?$` is known. -/
def codeEnv : PEnv := { demoEnv with rxParse := fun p => if p = "^(ab|[x-z])+c?$".toList then some demoRx else none }

/-- `{"type": "string", "pattern": "^(ab|[x-z])+c?$"}`. -/
def codeSchema : JVal := .obj [("type", .str "string"), ("pattern", .str "^(ab|[x-z])+c?$")]
def codeNode : SchemaNode := { emptyNode with type := some { single := "string" }, pattern := some "^(ab|[x-z])+c?$" }

/-- The schema parses without errors. -/
def codeParses : Bool :=
  match parseSchema codeEnv 20 codeSchema with
  | .done (.ok (_, none) s) => s.errors.length = 0
  | _ => false

theorem code_supported : Supported codeEnv (withGeneratorOptionsDefaults {}) codeNode codeNode := {
  covered := ⟨rfl, rfl, rfl, rfl, rfl, rfl, rfl, rfl, (by intro x hx; cases hx), rfl, rfl, rfl, rfl⟩
  allOf := rfl, anyOf := rfl, ref := nofun, definitions := nofun, defs := nofun, enum := nofun
  const := nofun
  types := ⟨by intro t ht _; cases ht; decide, by intro t l ht hl; cases ht; cases hl⟩
  object := ⟨nofun, nofun, nofun, nofun, nofun, nofun⟩
  array := ⟨nofun, nofun, nofun, fun _ => rfl, nofun, nofun⟩
  string := ⟨nofun, by
    intro p hp
    cases hp
    exact ⟨by decide, .inr (by decide), demoRx, rfl, demoRx_anchored, demoRx_ok⟩⟩
  number := by
    refine ⟨.inl rfl, ⟨nofun, nofun, nofun, nofun, nofun⟩, nofun, ?_⟩
    intro hf
    exact absurd (congrFun (congrArg FP.rnd hf) (1 / 3)) (by decide +kernel) }

/-- The library generates `xabzc` for this schema and suitable random numbers (by C75). -/
example : ∃ g s, parseSchema codeEnv 20 codeSchema = .done (.ok (g, none) s) ∧
    ∃ (seeded ambient : Nat → Nat) (gfuel : Nat) (v' : JVal) (st : GSt),
      rootGenerate { demoWorld with seeded := seeded, ambient := ambient } {} (refEnv s) gfuel g = .ok v' st ∧
      SameJson (.str (String.ofList "xabzc".toList)) v' ∧ st.diags = [] := by
  have hp : codeParses = true := by decide +kernel
  unfold codeParses at hp
  split at hp
  · rename_i g s hparse
    refine ⟨g, s, hparse, ?_⟩
    refine C75_attainable_values_are_generated_partial codeEnv 20 codeSchema codeNode rfl demoWorld {} rfl ?_ g s
      hparse (by simpa using hp) 0 _ ?_ (.inr (by decide)) (.inr (by decide))
    · intro d ts m hm
      have : m = codeNode ∧ d = 0 := by
        refine Inside.places (P := fun d m => m = codeNode ∧ d = 0) ⟨rfl, rfl⟩ ?_ hm
        intro d n m hn hm
        rw [hn.1] at hm
        cases hm
      rw [this.1, this.2]
      refine .plain code_supported ?_
      decide
    · refine .pattern codeNode "^(ab|[x-z])+c?$" demoRx _ ⟨⟨rfl, rfl, rfl, rfl, rfl, rfl⟩, rfl, rfl, _, rfl, .inl ⟨rfl, rfl⟩⟩ rfl rfl (by decide)
        (.inr (by decide)) rfl ?_ demoRx_text
      simp only [demoRx, Exhaustive, Exhaustives, and_true, true_and, classSize, InClass]
      decide
  · cases hp

/-! ## Texts out of reach -/

/-- `.` with the restriction to ASCII stands for the characters from the blank to `]`: no lower case letter is ever
drawn. -/
theorem C82_dot_violation (a : RxArgs) (ha : a.limitToAscii = true) : ∃ g, newRxGen a .anyCharNotNL = .ok g ∧
    Matches [] .anyCharNotNL ['a'] [] ∧ ∀ w s s', rxGenerate w g s ≠ .ok ['a'] s' := by
  refine ⟨.cls ⟨[(32, 62)], 62⟩, by simp [newRxGen, ha, newCharClass, newCharClassRange], .anyCharNotNL (by decide), ?_⟩
  intro w s s' h
  simp only [rxGenerate] at h
  obtain ⟨k, s1, h1, h⟩ := bind_ok.1 h
  have hk := intnWith_post _ _ _ k s1 h1
  obtain ⟨j, s2, h2, h⟩ := bind_ok.1 h
  obtain ⟨rfl, rfl⟩ := pure_ok.1 h2
  simp only [getRuneAt] at h
  rw [if_pos (by omega)] at h
  obtain ⟨h, _⟩ := pure_ok.1 h
  have h := congrArg Char.toNat (List.cons.inj h).1
  rw [runeToChar_toNat (.inl (by omega))] at h
  have : 'a'.toNat = 97 := rfl
  omega

/-- `(?s).` with the restriction to ASCII never yields a tilde. -/
theorem C82_any_violation (a : RxArgs) (ha : a.limitToAscii = true) : ∃ g, newRxGen a .anyChar = .ok g ∧
    Matches [] .anyChar ['~'] [] ∧ ∀ w s s', rxGenerate w g s ≠ .ok ['~'] s' := by
  refine ⟨.any true, by simp [newRxGen, ha], .anyChar, ?_⟩
  intro w s s' h
  simp only [rxGenerate] at h
  obtain ⟨k, s1, h1, h⟩ := bind_ok.1 h
  have hk := intnWith_post _ _ _ k s1 h1
  obtain ⟨h, _⟩ := pure_ok.1 h
  have h := congrArg Char.toNat (List.cons.inj h).1
  rw [runeToChar_toNat (.inl (by omega))] at h
  have : '~'.toNat = 126 := rfl
  omega

/-- `[^,]`, as the parser writes it. -/
def notComma : Rx := .charClass [0, 43, 45, 1114111]

/-- `[^,]` never yields a blank, whatever the options: classes of more than 100000 characters are drawn from 93 of
them. -/
theorem C82_large_class_violation (a : RxArgs) : ∃ g, newRxGen a notComma = .ok g ∧
    Matches [] notComma [' '] [] ∧ ∀ w s s', rxGenerate w g s ≠ .ok [' '] s' := by
  refine ⟨.cls ⟨[(1, 43), (45, 1114067)], 1114110⟩, rfl, .charClass (.inl (by decide)), ?_⟩
  intro w s s' h
  simp only [rxGenerate, clsIndex] at h
  obtain ⟨k, s1, h1, h⟩ := bind_ok.1 h
  rw [if_pos (by decide)] at h
  obtain ⟨j, s2, h2, h⟩ := bind_ok.1 h
  obtain ⟨i, s3, h3, h2⟩ := bind_ok.1 h2
  obtain ⟨rfl, rfl⟩ := pure_ok.1 h2
  have hi := intnWith_post _ _ _ i s3 h3
  have hsp : ' '.toNat = 32 := rfl
  cases hr : getRuneAt [(1, 43), (45, 1114067)] (i + 32).toNat with
  | some r =>
    rw [hr] at h
    simp only [getRuneAt] at hr
    obtain ⟨h, _⟩ := pure_ok.1 h
    have h := congrArg Char.toNat (List.cons.inj h).1
    split at hr
    · cases hr
      rw [runeToChar_toNat (.inl (by omega))] at h
      omega
    · rw [if_pos (by omega)] at hr
      cases hr
      rw [runeToChar_toNat (.inl (by omega))] at h
      omega
  | none =>
    rw [hr] at h
    cases h

/-- `[\x00-\x09]` never yields its first character: classes that begin with NUL are drawn without it. -/
theorem C82_nul_violation (a : RxArgs) : ∃ g, newRxGen a (.charClass [0, 9]) = .ok g ∧
    Matches [] (.charClass [0, 9]) [Char.ofNat 0] [] ∧ ∀ w s s', rxGenerate w g s ≠ .ok [Char.ofNat 0] s' := by
  refine ⟨.cls ⟨[(1, 9)], 9⟩, rfl, .charClass (.inl (by decide)), ?_⟩
  intro w s s' h
  simp only [rxGenerate, clsIndex] at h
  obtain ⟨k, s1, h1, h⟩ := bind_ok.1 h
  have hk := intnWith_post _ _ _ k s1 h1
  rw [if_neg (by decide)] at h
  obtain ⟨j, s2, h2, h⟩ := bind_ok.1 h
  obtain ⟨rfl, rfl⟩ := pure_ok.1 h2
  simp only [getRuneAt] at h
  rw [if_pos (by omega)] at h
  obtain ⟨h, _⟩ := pure_ok.1 h
  have h := congrArg Char.toNat (List.cons.inj h).1
  rw [runeToChar_toNat (.inl (by omega))] at h
  have : (Char.ofNat 0).toNat = 0 := rfl
  omega

end Chaff
