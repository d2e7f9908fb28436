import Verif.Model.Rand
import Verif.Props.Number
import Mathlib.Tactic.Linarith
/-!
# C84: a seed text selects its own sequence

`NewRandUtilFromString` turns a text into the number that seeds the random source.  Different texts should start different
sequences.  That is false in general (`C84_collision_violation`); it holds for texts that differ in one character and for a
text and its continuations.
-/

namespace Chaff

/-- The number of bytes of a text. -/
def byteCount (s : List Char) : Nat := (s.map Char.utf8Size).sum

/-- What the text contributes when it starts `offset` bytes into the whole: each code point, times the position of its first
byte counted from one. -/
def textWeight (offset : Nat) : List Char → Nat
  | [] => 0
  | c :: t => c.toNat * (offset + 1) + textWeight (offset + c.utf8Size) t

theorem textWeight_append (a b : List Char) (k : Nat) :
    textWeight k (a ++ b) = textWeight k a + textWeight (k + byteCount a) b := by
  induction a generalizing k with
  | nil => simp [textWeight, byteCount]
  | cons c t ih =>
    have : k + c.utf8Size + byteCount t = k + byteCount (c :: t) := by simp [byteCount]; omega
    simp only [List.cons_append, textWeight]
    rw [ih, this]
    omega

theorem seed_go (s : List Char) (k : Nat) (acc : Int) : seedFromString.go s k acc = acc + textWeight k s := by
  induction s generalizing k acc with
  | nil => simp [seedFromString.go, textWeight]
  | cons c t ih =>
    rw [seedFromString.go, ih]
    simp only [textWeight]
    push_cast
    ring

/-- **C84.** The seed of a text is the sum of its code points, each times the position of its first byte, as a 64-bit number. -/
theorem C84_seed_of_text (s : List Char) : seedFromString s = wrap64 (textWeight 0 s) := by
  unfold seedFromString
  rw [seed_go]
  simp

theorem char_small (c : Char) : c.toNat ≤ 1114111 := by
  have := c.valid
  have h : c.toNat = c.val.toNat := rfl
  rw [h]
  rcases this with h | h
  · have := h; omega
  · exact Nat.le_of_lt_succ h.2

theorem length_le_bytes (s : List Char) : s.length ≤ byteCount s := by
  induction s with
  | nil => simp [byteCount]
  | cons c t ih =>
    have := Char.utf8Size_pos c
    simp only [byteCount, List.map_cons, List.sum_cons, List.length_cons] at ih ⊢
    omega

theorem textWeight_le (s : List Char) (k : Nat) : textWeight k s ≤ 1114111 * (s.length * (k + byteCount s)) := by
  induction s generalizing k with
  | nil => simp [textWeight]
  | cons c t ih =>
    have hc := char_small c
    have hp := Char.utf8Size_pos c
    have h := ih (k + c.utf8Size)
    have hb : byteCount (c :: t) = c.utf8Size + byteCount t := by simp [byteCount]
    simp only [textWeight, List.length_cons]
    have e : k + c.utf8Size + byteCount t = k + byteCount (c :: t) := by omega
    rw [e] at h
    have h1 : c.toNat * (k + 1) ≤ 1114111 * (k + byteCount (c :: t)) := Nat.mul_le_mul hc (by omega)
    nlinarith

/-- A text of at most a million bytes has a seed that does not overflow. -/
theorem seed_exact (s : List Char) (h : byteCount s ≤ 2 ^ 20) : seedFromString s = textWeight 0 s := by
  rw [C84_seed_of_text]
  refine wrap64_small _ ?_
  have h1 := textWeight_le s 0
  have h2 := length_le_bytes s
  have h3 : s.length * (0 + byteCount s) ≤ 2 ^ 20 * 2 ^ 20 := Nat.mul_le_mul (by omega) (by omega)
  have h4 : textWeight 0 s ≤ 1114111 * (2 ^ 20 * 2 ^ 20) := le_trans h1 (Nat.mul_le_mul_left _ h3)
  rw [abs_of_nonneg (by positivity)]
  have : ((textWeight 0 s : Nat) : Int) ≤ ((1114111 * (2 ^ 20 * 2 ^ 20) : Nat) : Int) := by exact_mod_cast h4
  refine le_trans this ?_
  norm_num

/-- **C84.** Two texts that differ in one character, of as many bytes, in the first kilobyte have different seeds.  They stay
different when the random source of Go takes them modulo `2^31 - 1`. -/
theorem C84_one_character_partial (before after : List Char) (a b : Char) (hne : a ≠ b) (hsize : a.utf8Size = b.utf8Size)
    (hbefore : byteCount before < 1024) (hall : byteCount (before ++ a :: after) ≤ 2 ^ 20) :
    seedFromString (before ++ a :: after) % (2 ^ 31 - 1) ≠ seedFromString (before ++ b :: after) % (2 ^ 31 - 1) := by
  have hall' : byteCount (before ++ b :: after) ≤ 2 ^ 20 := by
    simp only [byteCount, List.map_append, List.map_cons] at hall ⊢
    rw [← hsize]
    exact hall
  rw [seed_exact _ hall, seed_exact _ hall', textWeight_append, textWeight_append]
  simp only [textWeight]
  rw [hsize]
  intro h
  have hd : ((2 : Int) ^ 31 - 1) ∣ ((a.toNat : Int) - b.toNat) * (byteCount before + 1) := by
    have h' := Int.emod_eq_emod_iff_emod_sub_eq_zero.1 h
    have := Int.dvd_of_emod_eq_zero h'
    push_cast at this
    have e : ((textWeight 0 before : Int) + ((a.toNat : Int) * (0 + byteCount before + 1) +
        textWeight (0 + byteCount before + b.utf8Size) after) - ((textWeight 0 before : Int) +
        ((b.toNat : Int) * (0 + byteCount before + 1) + textWeight (0 + byteCount before + b.utf8Size) after))) =
        ((a.toNat : Int) - b.toNat) * (byteCount before + 1) := by ring
    rw [← e]
    exact this
  have hz : ((a.toNat : Int) - b.toNat) * (byteCount before + 1) = 0 := by
    refine Int.eq_zero_of_abs_lt_dvd hd ?_
    rw [abs_mul]
    have h1 : |(a.toNat : Int) - b.toNat| ≤ 1114111 := by
      have := char_small a
      have := char_small b
      rw [abs_le]
      omega
    have h2 : |(byteCount before : Int) + 1| ≤ 1024 := by
      rw [abs_of_nonneg (by positivity)]
      omega
    calc |(a.toNat : Int) - b.toNat| * |(byteCount before : Int) + 1| ≤ 1114111 * 1024 :=
          mul_le_mul h1 h2 (abs_nonneg _) (by norm_num)
      _ < 2 ^ 31 - 1 := by norm_num
  rcases mul_eq_zero.1 hz with h | h
  · apply hne
    have : a.toNat = b.toNat := by omega
    exact Char.toNat_inj.1 this
  · have : (0 : Int) ≤ byteCount before := by positivity
    omega

/-- **C84.** Continuing a text, with anything but NUL characters, changes its seed. -/
theorem C84_continuation_partial (s t : List Char) (c : Char) (hc : c ∈ t) (hnul : c.toNat ≠ 0)
    (hall : byteCount (s ++ t) ≤ 2 ^ 20) : seedFromString (s ++ t) ≠ seedFromString s := by
  have hs : byteCount s ≤ 2 ^ 20 := by
    simp only [byteCount, List.map_append, List.sum_append] at hall ⊢
    omega
  rw [seed_exact _ hall, seed_exact _ hs, textWeight_append]
  have hpos : ∀ k, 0 < textWeight k t := by
    clear hall hs
    induction t with
    | nil => cases hc
    | cons x t ih =>
      intro k
      simp only [textWeight]
      rcases List.mem_cons.1 hc with rfl | hc
      · have : 0 < c.toNat * (k + 1) := Nat.mul_pos (Nat.pos_of_ne_zero hnul) (by omega)
        omega
      · have := ih hc (k + x.utf8Size)
        omega
  have := hpos (0 + byteCount s)
  omega

/-- The hypotheses are met by ordinary texts. -/
example : seedFromString "seed one".toList % (2 ^ 31 - 1) ≠ seedFromString "seed two".toList % (2 ^ 31 - 1) := by decide
example : seedFromString ("caf".toList ++ 'é' :: "!".toList) % (2 ^ 31 - 1) ≠
    seedFromString ("caf".toList ++ 'à' :: "!".toList) % (2 ^ 31 - 1) :=
  C84_one_character_partial _ _ _ _ (by decide) (by decide) (by decide) (by decide)
example : seedFromString ("run".toList ++ "2".toList) ≠ seedFromString "run".toList :=
  C84_continuation_partial _ _ '2' (by decide) (by decide) (by decide)

/-- The full claim is false: these two texts have the same seed, hence start the same sequence, whatever the source does with
its seed. -/
theorem C84_collision_violation : "ac" ≠ "cb" ∧ seedFromString "ac".toList = seedFromString "cb".toList := by decide

end Chaff
