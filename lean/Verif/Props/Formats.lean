import Verif.Lemmas.Formats
import Verif.Props.Types

/-!
# Format checkers (C59, C66)

Which texts the checkers of internal/jsonschema/formats.go accept, compared with the grammars in `Spec/Formats.lean`, and
whether the texts generated for a format pass its checker.
-/

namespace Chaff

theorem isDigitB_iff {c : Char} : isDigitB c = true ↔ Digit c := by
  simp [isDigitB, Digit]

/-! ## UUID -/

theorem isHexB_iff {c : Char} : isHexB c = true ↔ HexDigit c := by
  simp [isHexB, HexDigit, isDigitB_iff, or_assoc]

theorem parseHex_iff {n : Nat} {s r : Bytes} : parseHex n s = some r ↔ ∃ a, HexRun n a ∧ s = a ++ r := by
  induction n generalizing s with
  | zero =>
    simp only [parseHex, Option.some.injEq, HexRun]
    constructor
    · rintro rfl; exact ⟨[], by simp, rfl⟩
    · rintro ⟨a, ⟨h1, _⟩, rfl⟩
      rw [List.length_eq_zero_iff] at h1
      subst h1; rfl
  | succ n ih =>
    cases s with
    | nil =>
      simp only [parseHex, reduceCtorEq, false_iff]
      rintro ⟨a, ⟨h1, _⟩, h2⟩
      cases a with
      | nil => cases h1
      | cons => cases h2
    | cons c t =>
      unfold parseHex
      constructor
      · intro h
        split at h
        · rename_i hc
          obtain ⟨a, ⟨h1, h2⟩, h3⟩ := ih.1 h
          refine ⟨c :: a, ⟨by simp [h1], ?_⟩, by rw [h3]; rfl⟩
          intro x hx
          rcases List.mem_cons.1 hx with rfl | hx
          · exact isHexB_iff.1 hc
          · exact h2 x hx
        · cases h
      · rintro ⟨a, ⟨h1, h2⟩, h3⟩
        cases a with
        | nil => cases h1
        | cons x a =>
          injection h3 with h3 h4
          subst h3
          rw [if_pos (isHexB_iff.2 (h2 _ List.mem_cons_self))]
          exact ih.2 ⟨a, ⟨by simpa using h1, fun y hy => h2 y (List.mem_cons_of_mem _ hy)⟩, h4⟩

theorem uuidGroups_last {n : Nat} {s : Bytes} : uuidGroups [n] s = true ↔ HexRun n s := by
  unfold uuidGroups
  constructor
  · intro h
    cases hp : parseHex n s with
    | none => rw [hp] at h; cases h
    | some r =>
      rw [hp] at h
      obtain ⟨a, ha, hs⟩ := parseHex_iff.1 hp
      simp only [if_true, decide_eq_true_eq, List.length_eq_zero_iff] at h
      subst h
      rw [List.append_nil] at hs
      rw [hs]; exact ha
  · intro h
    rw [parseHex_iff.2 ⟨s, h, (List.append_nil s).symm⟩]
    simp

theorem uuidGroups_cons {n k : Nat} {rest : List Nat} {s : Bytes} :
    uuidGroups (n :: k :: rest) s = true ↔ ∃ a t, HexRun n a ∧ s = a ++ '-' :: t ∧ uuidGroups (k :: rest) t = true := by
  rw [uuidGroups]
  constructor
  · intro h
    cases hp : parseHex n s with
    | none => rw [hp] at h; cases h
    | some r =>
      rw [hp] at h
      obtain ⟨a, ha, hs⟩ := parseHex_iff.1 hp
      simp only [reduceCtorEq, if_false] at h
      split at h
      · exact ⟨a, _, ha, hs, h⟩
      · cases h
  · rintro ⟨a, t, ha, hs, h⟩
    rw [parseHex_iff.2 ⟨a, ha, hs⟩]
    simpa using h

/-- C66: the UUID checker accepts exactly the UUIDs. -/
theorem C66_uuid_exact (s : Bytes) : isUUIDB s = some true ↔ UuidText s := by
  unfold isUUIDB UuidText
  simp only [Option.some.injEq, uuidGroups_cons, uuidGroups_last]
  constructor
  · rintro ⟨a, _, ha, rfl, b, _, hb, rfl, c, _, hc, rfl, d, e, hd, rfl, he⟩
    exact ⟨a, b, c, d, e, ha, hb, hc, hd, he, by simp⟩
  · rintro ⟨a, b, c, d, e, ha, hb, hc, hd, he, rfl⟩
    exact ⟨a, _, ha, by simp, b, _, hb, rfl, c, _, hc, rfl, d, e, hd, rfl, he⟩

/-! ## JSON pointers -/

theorem splitByte_ne (p : Char) : ∀ l, splitByte p l ≠ []
  | [] => by simp [splitByte]
  | c :: t => by
    unfold splitByte
    split
    · simp
    · split <;> simp

/-- Splitting at a separator undoes joining. -/
theorem splitByte_append (p : Char) (a : Bytes) (ha : p ∉ a) (r : Bytes) :
    splitByte p (a ++ p :: r) = a :: splitByte p r := by
  induction a with
  | nil => simp [splitByte]
  | cons c t ih =>
    have hc : c ≠ p := fun e => ha (by simp [e])
    have ht : p ∉ t := fun e => ha (List.mem_cons_of_mem _ e)
    rw [List.cons_append, splitByte, if_neg hc, ih ht]

theorem splitByte_none (p : Char) (a : Bytes) (ha : p ∉ a) : splitByte p a = [a] := by
  induction a with
  | nil => simp [splitByte]
  | cons c t ih =>
    have hc : c ≠ p := fun e => ha (by simp [e])
    have ht : p ∉ t := fun e => ha (List.mem_cons_of_mem _ e)
    rw [splitByte, if_neg hc, ih ht]

/-- The first occurrence of a byte. -/
theorem first_occurrence {p : Char} {s : Bytes} (h : p ∈ s) : ∃ a r, p ∉ a ∧ s = a ++ p :: r := by
  induction s with
  | nil => cases h
  | cons c t ih =>
    by_cases hc : c = p
    · exact ⟨[], t, by simp, by simp [hc]⟩
    · rcases List.mem_cons.1 h with h | h
      · exact (hc h.symm).elim
      · obtain ⟨a, r, ha, rfl⟩ := ih h
        refine ⟨c :: a, r, ?_, rfl⟩
        intro hm
        rcases List.mem_cons.1 hm with h | h
        · exact hc h.symm
        · exact ha h

/-- Every string is a token, or a token, the separator and the rest. -/
theorem splitByte_cases (p : Char) (s : Bytes) :
    (p ∉ s ∧ splitByte p s = [s]) ∨ ∃ a r, p ∉ a ∧ s = a ++ p :: r ∧ splitByte p s = a :: splitByte p r := by
  by_cases h : p ∈ s
  · right
    obtain ⟨a, r, ha, rfl⟩ := first_occurrence h
    exact ⟨a, r, ha, rfl, splitByte_append p a ha r⟩
  · exact Or.inl ⟨h, splitByte_none p s h⟩

/-- The escape check of a token. -/
def TildeOk : Bytes → Bool
  | [] => true
  | c :: t => (if c = '~' then decide (t.head? = some '0') || decide (t.head? = some '1') else true) && TildeOk t

theorem pointerToken_eq (pre t : Bytes) : pointerToken (pre ++ t) pre.length t.length = some (TildeOk t) := by
  induction t generalizing pre with
  | nil => rfl
  | cons c t ih =>
    have hc : byteAt (pre ++ c :: t) pre.length = some c := by simp [byteAt]
    have ih' := ih (pre ++ [c])
    simp only [List.append_assoc, List.singleton_append, List.length_append, List.length_cons, List.length_nil,
      Nat.zero_add] at ih'
    rw [List.length_cons, pointerToken]
    simp only [hc, Option.bind_eq_bind, Option.bind_some]
    by_cases h : c = '~'
    · subst h
      rw [if_pos rfl]
      cases t with
      | nil => simp [TildeOk]
      | cons d t =>
        have hd : byteAt (pre ++ '~' :: d :: t) (pre.length + 1) = some d := by simp [byteAt]
        rw [if_neg (by simp)]
        simp only [hd, Option.bind_some]
        by_cases h0 : d = '0' ∨ d = '1'
        · rw [if_pos h0, ih', TildeOk.eq_2 '~']
          rcases h0 with rfl | rfl <;> simp
        · rw [if_neg h0]
          rw [not_or] at h0
          simp [TildeOk, h0]
    · rw [if_neg h, ih']
      simp [TildeOk, h]

theorem tildeOk_iff (t : Bytes) (h : '/' ∉ t) : TildeOk t = true ↔ PtrToken t := by
  induction t with
  | nil => simp [TildeOk, PtrToken.nil]
  | cons c t ih =>
    have ht : '/' ∉ t := fun e => h (List.mem_cons_of_mem _ e)
    rw [TildeOk, Bool.and_eq_true, ih ht]
    by_cases hc : c = '~'
    · subst hc
      rw [if_pos rfl]
      constructor
      · rintro ⟨h1, h3⟩
        simp only [Bool.or_eq_true, decide_eq_true_eq] at h1
        cases t with
        | nil => simp at h1
        | cons d t =>
          simp only [List.head?_cons, Option.some.injEq] at h1
          rcases h1 with rfl | rfl
          · cases h3 with
            | plain _ _ _ _ h4 => exact .tilde _ h4
          · cases h3 with
            | plain _ _ _ _ h4 => exact .slash _ h4
      · intro h'
        cases h' with
        | plain _ _ _ h2 => exact (h2 rfl).elim
        | tilde t h3 => exact ⟨by simp, .plain _ _ (by decide) (by decide) h3⟩
        | slash t h3 => exact ⟨by simp, .plain _ _ (by decide) (by decide) h3⟩
    · rw [if_neg hc]
      constructor
      · exact fun h' => .plain _ _ (fun e => h (by simp [e])) hc h'.2
      · intro h'
        cases h' with
        | plain _ _ _ _ h4 => exact ⟨rfl, h4⟩
        | tilde => exact (hc rfl).elim
        | slash => exact (hc rfl).elim

theorem ptrToken_no_slash {t : List Char} (h : PtrToken t) : '/' ∉ t := by
  induction h with
  | nil => simp
  | plain c t h1 _ _ ih =>
    intro hm
    rcases List.mem_cons.1 hm with h | h
    · exact h1 h.symm
    · exact ih h
  | tilde t _ ih => simpa using ih
  | slash t _ ih => simpa using ih

theorem pointerTokens_cons (x : Bytes) (l : List Bytes) :
    pointerTokens (x :: l) = some true ↔ TildeOk x = true ∧ pointerTokens l = some true := by
  have h := pointerToken_eq [] x
  simp only [List.nil_append, List.length_nil] at h
  rw [pointerTokens]
  simp only [h, Option.bind_eq_bind, Option.bind_some]
  split
  · rename_i h; simp [h]
  · rename_i h; simp [h]

/-- The tokens of a pointer text after its first slash. -/
theorem pointer_iff (n : Nat) : ∀ r : Bytes, r.length ≤ n →
    (pointerTokens (splitByte '/' r) = some true ↔ PtrText ('/' :: r)) := by
  induction n with
  | zero =>
    intro r hr
    have : r = [] := List.length_eq_zero_iff.1 (by omega)
    subst this
    rw [splitByte, pointerTokens_cons]
    simp only [TildeOk, pointerTokens, and_self, true_iff]
    exact .cons [] [] .nil .nil
  | succ n ih =>
    intro r hr
    rcases splitByte_cases '/' r with ⟨h1, h2⟩ | ⟨a, r', h1, rfl, h2⟩
    · rw [h2, pointerTokens_cons, tildeOk_iff _ h1]
      simp only [pointerTokens, and_true]
      constructor
      · intro h
        have := PtrText.cons r [] h .nil
        rwa [List.append_nil] at this
      · intro h
        generalize hx : '/' :: r = x at h
        cases h with
        | nil => cases hx
        | cons t r' ht hr' =>
          injection hx with _ hx
          cases hr' with
          | nil => rw [hx, List.append_nil]; exact ht
          | cons u w => exact (h1 (by rw [hx]; simp)).elim
    · rw [h2, pointerTokens_cons, tildeOk_iff _ h1, ih r' (by simp at hr; omega)]
      constructor
      · rintro ⟨ha, hr'⟩
        exact .cons a _ ha hr'
      · intro h
        generalize hx : '/' :: (a ++ '/' :: r') = x at h
        cases h with
        | nil => cases hx
        | cons t r'' ht hr'' =>
          injection hx with _ hx
          have hts := ptrToken_no_slash ht
          cases hr'' with
          | nil =>
            rw [List.append_nil] at hx
            exact (hts (by rw [← hx]; simp)).elim
          | cons u w hu hw =>
            have he : a = t ∧ r' = u ++ w := by
              clear ih h2 hr ht hu hw
              induction a generalizing t with
              | nil =>
                cases t with
                | nil => simpa using hx
                | cons y t => injection hx with h _; exact (hts (by simp [← h])).elim
              | cons z a iha =>
                cases t with
                | nil => injection hx with h _; exact (h1 (by simp [h])).elim
                | cons y t =>
                  injection hx with h hx
                  have := iha (fun e => h1 (List.mem_cons_of_mem _ e)) t
                    (fun e => hts (List.mem_cons_of_mem _ e)) hx
                  exact ⟨by rw [h, this.1], this.2⟩
            refine ⟨by rw [he.1]; exact ht, ?_⟩
            rw [he.2]
            exact .cons u w hu hw

/-- C66: the JSON pointer checker accepts exactly the JSON pointers. -/
theorem C66_json_pointer_exact (s : Bytes) : isJSONPointerB s = some true ↔ PtrText s := by
  unfold isJSONPointerB
  cases s with
  | nil =>
    rw [if_neg (by simp), splitByte, pointerTokens_cons]
    simp only [TildeOk, pointerTokens, and_self, true_iff]
    exact .nil
  | cons c t =>
    by_cases hc : c = '/'
    · subst hc
      rw [if_neg (by simp), splitByte, if_pos rfl, pointerTokens_cons, pointer_iff t.length t (Nat.le_refl _)]
      simp [TildeOk]
    · rw [if_pos (by simp [List.isPrefixOf, Ne.symm hc])]
      simp only [Option.some.injEq, Bool.false_eq_true, false_iff]
      intro h
      cases h with
      | cons => exact hc rfl

theorem ptrText_head {s : List Char} (h : PtrText s) : s = [] ∨ s.head? = some '/' := by
  cases h with
  | nil => exact Or.inl rfl
  | cons => exact Or.inr rfl

theorem mem_takeWhile_digit {x : Char} {t : Bytes} (h : x ∈ t.takeWhile isDigitB) : isDigitB x = true := by
  induction t with
  | nil => cases h
  | cons c t ih =>
    rw [List.takeWhile_cons] at h
    split at h
    · rename_i hc
      rcases List.mem_cons.1 h with rfl | h
      · exact hc
      · exact ih h
    · cases h

/-- Where the digits end. -/
theorem dropWhile_digits (a r : Bytes) (ha : ∀ c ∈ a, Digit c) (hr : ∀ c, r.head? = some c → ¬ Digit c) :
    (a ++ r).dropWhile isDigitB = r := by
  induction a with
  | nil =>
    cases r with
    | nil => rfl
    | cons c t =>
      have : isDigitB c = false := by
        have := hr c rfl
        rw [← isDigitB_iff] at this
        simpa using this
      simp [this]
  | cons c t ih =>
    have : isDigitB c = true := isDigitB_iff.2 (ha c List.mem_cons_self)
    simp only [List.cons_append, List.dropWhile, this]
    exact ih (fun x hx => ha x (List.mem_cons_of_mem _ hx))

theorem relPtr_tail {r : Bytes} : (r = ['#'] ∨ PtrText r) → ∀ c, r.head? = some c → ¬ Digit c := by
  rintro (rfl | h) c hc
  · injection hc with hc; subst hc; exact (by unfold Digit; decide)
  · rcases ptrText_head h with rfl | h
    · cases hc
    · rw [h] at hc
      injection hc with hc; subst hc; exact (by unfold Digit; decide)

/-- C66: the relative JSON pointer checker accepts exactly the relative JSON pointers. -/
theorem C66_relative_pointer_exact (s : Bytes) : isRelativeJSONPointerB s = some true ↔ RelPtrText s := by
  unfold isRelativeJSONPointerB RelPtrText
  cases s with
  | nil =>
    simp only [Option.some.injEq, Bool.false_eq_true, false_iff]
    rintro ⟨n, r, h, hn, _⟩
    obtain ⟨rfl, _⟩ := List.append_eq_nil_iff.1 h.symm
    rcases hn with hn | ⟨⟨hn, _⟩, _⟩
    · cases hn
    · exact hn rfl
  | cons c t =>
    have tailIff : ∀ r : Bytes, ((if r = ['#'] then some true else isJSONPointerB r) = some true ↔
        (r = ['#'] ∨ PtrText r)) := by
      intro r
      split
      · rename_i h; simp [h]
      · rename_i h; simp [h, C66_json_pointer_exact]
    dsimp only
    by_cases h0 : c = '0'
    · subst h0
      rw [if_pos rfl, tailIff]
      constructor
      · intro h; exact ⟨['0'], t, rfl, Or.inl rfl, h⟩
      · rintro ⟨n, r, h, hn | ⟨⟨h1, _⟩, h2⟩, hr⟩
        · subst hn
          injection h with _ h
          rw [h]; exact hr
        · cases n with
          | nil => exact (h1 rfl).elim
          | cons d n =>
            injection h with h _
            subst h
            exact (h2 rfl).elim
    · rw [if_neg h0]
      split
      · rename_i hd
        rw [tailIff]
        have hd := isDigitB_iff.1 hd
        constructor
        · intro h
          refine ⟨c :: t.takeWhile isDigitB, t.dropWhile isDigitB, by simp, Or.inr ⟨⟨by simp, ?_⟩, by simpa using h0⟩, h⟩
          intro x hx
          rcases List.mem_cons.1 hx with rfl | hx
          · exact hd
          · exact isDigitB_iff.1 (mem_takeWhile_digit hx)
        · rintro ⟨n, r, h, hn, hr⟩
          cases n with
          | nil =>
            rcases hn with hn | ⟨⟨hn, _⟩, _⟩
            · cases hn
            · exact (hn rfl).elim
          | cons d n =>
            injection h with h1 h2
            subst h1
            rcases hn with hn | ⟨⟨_, hn⟩, _⟩
            · injection hn with hn; exact (h0 hn).elim
            · change t = n ++ r at h2
              rw [h2, dropWhile_digits n r (fun x hx => hn x (List.mem_cons_of_mem _ hx)) (relPtr_tail hr)]
              exact hr
      · rename_i hd
        simp only [Option.some.injEq, Bool.false_eq_true, false_iff]
        rintro ⟨n, r, h, hn, _⟩
        cases n with
        | nil =>
          rcases hn with hn | ⟨⟨hn, _⟩, _⟩
          · cases hn
          · exact (hn rfl).elim
        | cons d n =>
          injection h with h1 h2
          subst h1
          rcases hn with hn | ⟨⟨_, hn⟩, _⟩
          · injection hn with hn; exact (h0 hn).elim
          · exact hd (isDigitB_iff.2 (hn _ List.mem_cons_self))
/-! ## Durations -/

/-- A sequence of numbers, each followed by a unit. -/
inductive Parts : List Char → List Char → Prop where
  | nil : Parts [] []
  | cons (n : List Char) (u : Char) (us b : List Char) : Numeral n → ¬ Digit u → Parts us b →
      Parts (u :: us) (n ++ u :: b)

/-- The text ends here, or the time of day starts. -/
def AtEnd (r : List Char) : Prop := r = [] ∨ r.head? = some 'T'

theorem notDigit_T : isDigitB 'T' = false := by decide

theorem parseUnits_sound (s : Bytes) : ∀ (d : Bool) (u us rest : Bytes), parseUnits d u s = (us, rest, true) →
    ∃ new body, us = u ++ new ∧ s = body ++ rest ∧ AtEnd rest ∧
      (if d then ∃ ds c b us', body = ds ++ c :: b ∧ new = c :: us' ∧ (∀ x ∈ ds, Digit x) ∧ ¬ Digit c ∧ Parts us' b
       else Parts new body) := by
  induction s with
  | nil =>
    intro d u us rest h
    cases d with
    | true => simp [parseUnits] at h
    | false =>
      simp only [parseUnits, Bool.not_false, Prod.mk.injEq, and_true] at h
      obtain ⟨rfl, rfl⟩ := h
      exact ⟨[], [], by simp, by simp, Or.inl rfl, .nil⟩
  | cons c t ih =>
    intro d u us rest h
    cases d with
    | false =>
      rw [parseUnits] at h
      split at h
      · rename_i hc
        simp only [Prod.mk.injEq, and_true] at h
        obtain ⟨rfl, rfl⟩ := h
        exact ⟨[], [], by simp, by simp, Or.inr (by simp [hc]), .nil⟩
      · split at h
        · rename_i hd
          obtain ⟨new, body, h1, h2, h3, h4⟩ := ih true u us rest h
          simp only [if_true] at h4
          obtain ⟨ds, e, b, us', rfl, rfl, h5, h6, h7⟩ := h4
          refine ⟨e :: us', (c :: ds) ++ e :: b, h1, by rw [h2]; simp, h3, ?_⟩
          refine .cons (c :: ds) e us' b ⟨by simp, ?_⟩ h6 h7
          intro x hx
          rcases List.mem_cons.1 hx with rfl | hx
          · exact isDigitB_iff.1 hd
          · exact h5 x hx
        · simp at h
    | true =>
      rw [parseUnits] at h
      split at h
      · rename_i hd
        obtain ⟨new, body, h1, h2, h3, h4⟩ := ih true u us rest h
        simp only [if_true] at h4
        obtain ⟨ds, e, b, us', rfl, rfl, h5, h6, h7⟩ := h4
        refine ⟨e :: us', (c :: ds) ++ e :: b, h1, by rw [h2]; simp, h3, ?_⟩
        refine ⟨c :: ds, e, b, us', rfl, rfl, ?_, h6, h7⟩
        intro x hx
        rcases List.mem_cons.1 hx with rfl | hx
        · exact isDigitB_iff.1 hd
        · exact h5 x hx
      · rename_i hd
        obtain ⟨new, body, h1, h2, h3, h4⟩ := ih false (u ++ [c]) us rest h
        simp only [Bool.false_eq_true, if_false] at h4
        refine ⟨c :: new, c :: body, by rw [h1]; simp, by rw [h2]; simp, h3, ?_⟩
        exact ⟨[], c, body, new, rfl, rfl, by simp, fun h' => hd (isDigitB_iff.2 h'), h4⟩

theorem parseUnits_digits (n u r : Bytes) (hn : ∀ x ∈ n, Digit x) :
    parseUnits true u (n ++ r) = parseUnits true u r := by
  induction n with
  | nil => rfl
  | cons c t ih =>
    rw [List.cons_append, parseUnits, if_pos (isDigitB_iff.2 (hn c List.mem_cons_self))]
    exact ih (fun x hx => hn x (List.mem_cons_of_mem _ hx))

theorem parseUnits_complete {us body : Bytes} (h : Parts us body) : ∀ (u rest : Bytes), AtEnd rest →
    parseUnits false u (body ++ rest) = (u ++ us, rest, true) := by
  induction h with
  | nil =>
    intro u rest hr
    cases rest with
    | nil => simp [parseUnits]
    | cons c t =>
      rcases hr with hr | hr
      · cases hr
      · simp only [List.head?_cons, Option.some.injEq] at hr
        simp [parseUnits, hr]
  | cons n c us b hn hc _ ih =>
    intro u rest hr
    obtain ⟨hne, hd⟩ := hn
    cases n with
    | nil => exact (hne rfl).elim
    | cons d n =>
      have hdd : isDigitB d = true := isDigitB_iff.2 (hd d List.mem_cons_self)
      have hT : d ≠ 'T' := fun e => by rw [e, notDigit_T] at hdd; cases hdd
      rw [List.cons_append, List.cons_append, parseUnits, if_neg hT, if_pos hdd, List.append_assoc,
        parseUnits_digits n u _ (fun x hx => hd x (List.mem_cons_of_mem _ hx)), List.cons_append, parseUnits,
        if_neg (fun h' => hc (isDigitB_iff.1 h')), ih _ rest hr]
      simp

theorem notDigit {c : Char} (h : isDigitB c = false) : ¬ Digit c := by
  rw [← isDigitB_iff, h]; simp

theorem parts_nil {b : List Char} : Parts [] b ↔ b = [] := by
  constructor
  · intro h; cases h; rfl
  · rintro rfl; exact .nil

theorem parts_cons {u : Char} {us b : List Char} :
    Parts (u :: us) b ↔ ¬ Digit u ∧ ∃ a b', b = a ++ b' ∧ UnitPart u a ∧ Parts us b' := by
  constructor
  · intro h
    cases h with
    | cons n _ _ b' hn hu hb => exact ⟨hu, n ++ [u], b', by simp, ⟨n, hn, rfl⟩, hb⟩
  · rintro ⟨hu, a, b', rfl, ⟨n, hn, rfl⟩, hb⟩
    rw [List.append_assoc]
    exact .cons n u us b' hn hu hb

/-- The non-empty segments of a three letter text. -/
theorem contains_three {x y z : Char} {us : List Char} (h : us ≠ []) :
    containsB us [x, y, z] = true ↔
      us = [x] ∨ us = [x, y] ∨ us = [x, y, z] ∨ us = [y] ∨ us = [y, z] ∨ us = [z] := by
  cases us with
  | nil => exact (h rfl).elim
  | cons a t =>
    simp only [containsB, Bool.or_eq_true, List.isPrefixOf_iff_prefix, List.cons_prefix_cons, List.prefix_nil,
      List.cons.injEq]
    cases t with
    | nil => simp
    | cons b t =>
      simp only [List.cons_prefix_cons, List.cons.injEq, List.prefix_nil, reduceCtorEq, and_false, false_or, or_false]
      cases t with
      | nil => simp
      | cons c t => simp

theorem partThen_parts {u : Char} (hu : ¬ Digit u) {next : List Char → Prop} {l : List Char} {S : List (List Char)}
    (hn : ∀ b, next b ↔ ∃ us ∈ S, Parts us b) :
    PartThen u next l ↔ ∃ us ∈ [u] :: S.map (u :: ·), Parts us l := by
  unfold PartThen
  constructor
  · rintro ⟨a, b, rfl, ha, rfl | hb⟩
    · exact ⟨[u], by simp, parts_cons.2 ⟨hu, a, [], rfl, ha, .nil⟩⟩
    · obtain ⟨us, hm, hp⟩ := (hn b).1 hb
      exact ⟨u :: us, by simp [hm], parts_cons.2 ⟨hu, a, b, rfl, ha, hp⟩⟩
  · rintro ⟨us, hm, hp⟩
    rcases List.mem_cons.1 hm with rfl | hm
    · obtain ⟨_, a, b, rfl, ha, hb⟩ := parts_cons.1 hp
      exact ⟨a, b, rfl, ha, Or.inl (parts_nil.1 hb)⟩
    · obtain ⟨us', hm', rfl⟩ := List.mem_map.1 hm
      obtain ⟨_, a, b, rfl, ha, hb⟩ := parts_cons.1 hp
      exact ⟨a, b, rfl, ha, Or.inr ((hn b).2 ⟨us', hm', hb⟩)⟩

theorem unitPart_parts {u : Char} (hu : ¬ Digit u) {l : List Char} : UnitPart u l ↔ ∃ us ∈ [[u]], Parts us l := by
  constructor
  · intro h; exact ⟨[u], by simp, parts_cons.2 ⟨hu, l, [], by simp, h, .nil⟩⟩
  · rintro ⟨us, hm, hp⟩
    rw [List.mem_singleton.1 hm] at hp
    obtain ⟨_, a, b, rfl, ha, hb⟩ := parts_cons.1 hp
    rw [parts_nil.1 hb, List.append_nil]
    exact ha

/-- Three units in a row: the texts of the grammar are those whose units are a segment of the three letters. -/
theorem three_units {x y z : Char} (hx : ¬ Digit x) (hy : ¬ Digit y) (hz : ¬ Digit z) {l : List Char} :
    (UnitPart z l ∨ PartThen y (UnitPart z) l ∨ PartThen x (PartThen y (UnitPart z)) l) ↔
      ∃ us, us ≠ [] ∧ containsB us [x, y, z] = true ∧ Parts us l := by
  have h1 := fun b => unitPart_parts hz (l := b)
  have h2 := fun b => partThen_parts (l := b) hy h1
  have h3 := fun b => partThen_parts (l := b) hx h2
  rw [h1, h2, h3]
  constructor
  · have key : ∀ us, (us = [x] ∨ us = [x, y] ∨ us = [x, y, z] ∨ us = [y] ∨ us = [y, z] ∨ us = [z]) → Parts us l →
        ∃ us, us ≠ [] ∧ containsB us [x, y, z] = true ∧ Parts us l := by
      intro us h hp
      have hne : us ≠ [] := by
        rintro rfl
        simp at h
      exact ⟨us, hne, (contains_three hne).2 h, hp⟩
    rintro (⟨us, hm, hp⟩ | ⟨us, hm, hp⟩ | ⟨us, hm, hp⟩) <;> refine key us ?_ hp <;> simp at hm <;> tauto
  · rintro ⟨us, hne, hc, hp⟩
    rw [contains_three hne] at hc
    rcases hc with rfl | rfl | rfl | rfl | rfl | rfl
    · exact Or.inr (Or.inr ⟨_, by simp, hp⟩)
    · exact Or.inr (Or.inr ⟨_, by simp, hp⟩)
    · exact Or.inr (Or.inr ⟨_, by simp, hp⟩)
    · exact Or.inr (Or.inl ⟨_, by simp, hp⟩)
    · exact Or.inr (Or.inl ⟨_, by simp, hp⟩)
    · exact Or.inl ⟨_, by simp, hp⟩

theorem isDurationTime_T (s : Bytes) : isDurationTime ('T' :: s) =
    ((parseUnits false [] s).2.2 && decide ((parseUnits false [] s).2.1.length = 0) &&
      decide ((parseUnits false [] s).1.length > 0) && containsB (parseUnits false [] s).1 "HMS".toList) := rfl

theorem isDurationB_P (s : Bytes) : isDurationB ('P' :: s) =
    if ¬ (parseUnits false [] s).2.2 then some false
    else if (parseUnits false [] s).1 = ['W'] then some (decide ((parseUnits false [] s).2.1.length = 0))
    else if (parseUnits false [] s).1.length > 0 then
      if ¬ containsB (parseUnits false [] s).1 "YMD".toList then some false
      else if (parseUnits false [] s).2.1.length = 0 then some true
      else some (isDurationTime (parseUnits false [] s).2.1)
    else some (isDurationTime (parseUnits false [] s).2.1) := rfl

theorem isDurationTime_iff (s : Bytes) : isDurationTime s = true ↔ DurTime s := by
  unfold DurTime
  have h3 : ∀ t, (DurHour t ∨ DurMinute t ∨ DurSecond t) ↔
      ∃ us, us ≠ [] ∧ containsB us ['H', 'M', 'S'] = true ∧ Parts us t := by
    intro t
    have := three_units (x := 'H') (y := 'M') (z := 'S') (l := t) (notDigit (by decide)) (notDigit (by decide))
      (notDigit (by decide))
    rw [← this]
    unfold DurHour DurMinute DurSecond
    tauto
  simp only [h3]
  constructor
  · intro h
    unfold isDurationTime at h
    split at h
    · rename_i t
      refine ⟨t, rfl, ?_⟩
      generalize hp : parseUnits false [] t = r at h
      obtain ⟨us, rest, ok⟩ := r
      simp only [Bool.and_eq_true, decide_eq_true_eq] at h
      obtain ⟨⟨⟨rfl, h1⟩, h2⟩, h4⟩ := h
      obtain ⟨new, body, e1, e2, _, e3⟩ := parseUnits_sound t false [] us rest hp
      simp only [Bool.false_eq_true, if_false, List.nil_append] at e1 e3
      subst e1
      rw [List.length_eq_zero_iff.1 h1, List.append_nil] at e2
      subst e2
      exact ⟨us, List.length_pos_iff.1 h2, h4, e3⟩
    · cases h
  · rintro ⟨t, rfl, us, hne, hc, hp⟩
    have := parseUnits_complete hp [] [] (Or.inl rfl)
    rw [List.append_nil, List.nil_append] at this
    rw [isDurationTime_T, this]
    simp only [Bool.and_eq_true, decide_eq_true_eq]
    exact ⟨⟨⟨trivial, rfl⟩, List.length_pos_iff.2 hne⟩, hc⟩

/-- The first unit of a text determines the text's reading. -/
theorem parts_atEnd_unique {us us' b b' r r' : List Char} (h : Parts us b) (h' : Parts us' b') (hr : AtEnd r)
    (hr' : AtEnd r') (he : b ++ r = b' ++ r') : us = us' ∧ b = b' ∧ r = r' := by
  have h1 := parseUnits_complete h [] r hr
  have h2 := parseUnits_complete h' [] r' hr'
  rw [he, h2] at h1
  simp only [List.nil_append, Prod.mk.injEq, and_true] at h1
  obtain ⟨rfl, rfl⟩ := h1
  exact ⟨rfl, List.append_cancel_right he, rfl⟩

/-- C66: the duration checker accepts exactly the durations of RFC 3339. -/
theorem C66_duration_exact (s : Bytes) : isDurationB s = some true ↔ DurationText s := by
  unfold DurationText DurDate
  have hd : ∀ c ∈ ['D', 'M', 'Y', 'W'], ¬ Digit c := by
    intro c hc
    apply notDigit
    revert c
    decide
  have h3 : ∀ t, (DurDay t ∨ DurMonth t ∨ DurYear t) ↔
      ∃ us, us ≠ [] ∧ containsB us ['Y', 'M', 'D'] = true ∧ Parts us t := by
    intro t
    exact three_units (hd _ (by simp)) (hd _ (by simp)) (hd _ (by simp))
  have hw : ∀ t, UnitPart 'W' t ↔ Parts ['W'] t := by
    intro t
    rw [unitPart_parts (hd _ (by simp))]
    simp
  simp only [h3, hw]
  have hYW : containsB ['W'] ['Y', 'M', 'D'] = false := by decide
  have timeEnd : ∀ b, DurTime b → AtEnd b := by
    rintro b ⟨t, rfl, _⟩; exact Or.inr rfl
  constructor
  · intro h
    unfold isDurationB at h
    split at h
    · rename_i t
      refine ⟨t, rfl, ?_⟩
      generalize hp : parseUnits false [] t = r at h
      obtain ⟨us, rest, ok⟩ := r
      dsimp only at h
      split at h
      · cases h
      · rename_i hok
        have hok : ok = true := by simpa using hok
        subst hok
        obtain ⟨new, body, e1, e2, e4, e3⟩ := parseUnits_sound t false [] us rest hp
        simp only [Bool.false_eq_true, if_false, List.nil_append] at e1 e3
        subst e1
        subst e2
        split at h
        · rename_i hus
          subst hus
          simp only [Option.some.injEq, decide_eq_true_eq, List.length_eq_zero_iff] at h
          subst h
          rw [List.append_nil]
          exact Or.inr (Or.inr e3)
        · split at h
          · rename_i hlen
            split at h
            · cases h
            · rename_i hc
              have hc : containsB us ['Y', 'M', 'D'] = true := by simpa using hc
              refine Or.inl ⟨body, rest, rfl, ⟨us, List.length_pos_iff.1 hlen, hc, e3⟩, ?_⟩
              split at h
              · rename_i hr
                exact Or.inl (List.length_eq_zero_iff.1 hr)
              · exact Or.inr ((isDurationTime_iff _).1 (by simpa using h))
          · rename_i hlen
            have : us = [] := by
              cases us with
              | nil => rfl
              | cons => exact (hlen (by simp)).elim
            subst this
            rw [parts_nil.1 e3, List.nil_append]
            exact Or.inr (Or.inl ((isDurationTime_iff _).1 (by simpa using h)))
    · cases h
  · rintro ⟨t, rfl, h⟩
    rcases h with ⟨a, b, rfl, ⟨us, hne, hc, hp⟩, hb⟩ | h | h
    · have hb' : AtEnd b := by
        rcases hb with rfl | hb
        · exact Or.inl rfl
        · exact timeEnd b hb
      have hpu := parseUnits_complete hp [] b hb'
      rw [List.nil_append] at hpu
      rw [isDurationB_P, hpu]
      dsimp only
      rw [if_neg (by simp), if_neg (fun e => by rw [e, hYW] at hc; cases hc), if_pos (List.length_pos_iff.2 hne),
        if_neg (by simpa using hc)]
      rcases hb with rfl | hb
      · simp
      · split
        · rfl
        · rw [(isDurationTime_iff b).2 hb]
    · have hpu := parseUnits_complete .nil [] t (timeEnd t h)
      rw [List.nil_append, List.nil_append] at hpu
      rw [isDurationB_P, hpu]
      dsimp only
      rw [if_neg (by simp), if_neg (by simp), if_neg (by simp), (isDurationTime_iff t).2 h]
    · have hpu := parseUnits_complete h [] [] (Or.inl rfl)
      rw [List.append_nil, List.nil_append] at hpu
      rw [isDurationB_P, hpu]
      simp

/-! ## Host names -/

theorem splitByte_join (p : Char) : ∀ l, List.intercalate [p] (splitByte p l) = l
  | [] => by simp [splitByte, List.intercalate]
  | c :: t => by
    have ih := splitByte_join p t
    have hne := splitByte_ne p t
    unfold splitByte
    cases hs : splitByte p t with
    | nil => exact (hne hs).elim
    | cons a r =>
      rw [hs] at ih
      split
      · rename_i hc
        subst hc
        rw [List.intercalate, List.intersperse_cons_cons]
        simp only [List.flatten_cons, List.nil_append]
        rw [List.intercalate] at ih
        rw [ih]
        rfl
      · dsimp only
        cases r with
        | nil =>
          simp only [List.intercalate, List.intersperse_singleton, List.flatten_cons, List.flatten_nil,
            List.append_nil] at ih ⊢
          rw [ih]
        | cons b r' =>
          simp only [List.intercalate, List.intersperse_cons_cons, List.flatten_cons] at ih ⊢
          rw [List.cons_append, ih]

theorem splitByte_of_join (p : Char) (l : List Bytes) (hl : l ≠ []) (h : ∀ x ∈ l, p ∉ x) :
    splitByte p (List.intercalate [p] l) = l := by
  induction l with
  | nil => exact (hl rfl).elim
  | cons a r ih =>
    cases r with
    | nil =>
      simp only [List.intercalate, List.intersperse_singleton, List.flatten_cons, List.flatten_nil, List.append_nil]
      exact splitByte_none p a (h a List.mem_cons_self)
    | cons b r =>
      have ih' := ih (by simp) (fun x hx => h x (List.mem_cons_of_mem _ hx))
      rw [List.intercalate] at ih'
      rw [List.intercalate, List.intersperse_cons_cons]
      simp only [List.flatten_cons, List.singleton_append]
      rw [splitByte_append p a (h a List.mem_cons_self), ih']

theorem hostChar_iff {c : Char} : hostChar c = true ↔ HostLetter c := by
  simp [hostChar, HostLetter, isDigitB_iff, or_assoc]

theorem byteAt_last (l : Bytes) : byteAt l (l.length - 1) = l.getLast? := by
  rw [List.getLast?_eq_getElem?]; rfl

theorem hostLabels_iff (s : Bytes) (l : List Bytes) (hs : s ≠ []) : hostLabels s l = some true ↔
    ∀ x ∈ l, LabelBody x ∧ s.head? ≠ some '-' := by
  induction l with
  | nil => simp [hostLabels]
  | cons x t ih =>
    rw [hostLabels, List.forall_mem_cons, ← ih]
    unfold LabelBody
    split
    · rename_i hx
      simp only [Option.some.injEq, Bool.false_eq_true, false_iff]
      rintro ⟨⟨⟨h1, h2, _⟩, _⟩, _⟩
      omega
    · rename_i hx
      have hl : 1 ≤ x.length ∧ x.length ≤ 63 := by omega
      obtain ⟨c, s', rfl⟩ := List.exists_cons_of_ne_nil hs
      obtain ⟨d, hd, _⟩ := byteAt_some (s := x) (i := x.length - 1) (by omega)
      rw [← byteAt_last x, hd]
      have hc : byteAt (c :: s') 0 = some c := rfl
      simp only [hc, Option.bind_eq_bind, Option.bind_some, List.head?_cons, Option.some.injEq, ne_eq]
      have hall : x.all hostChar = true ↔ ∀ y ∈ x, HostLetter y := by
        simp [List.all_eq_true, hostChar_iff]
      split
      · rename_i h; simp [h]
      · rename_i h1
        split
        · rename_i h; simp [h]
        · rename_i h2
          split
          · rename_i h3
            have h4 := hall.1 h3
            simp only [hl, h1, h2, not_false_eq_true, and_true, true_and]
            exact ⟨fun h => ⟨h4, h⟩, fun h => h.2⟩
          · rename_i h3
            rw [hall] at h3
            simp [h3]

theorem label_no_dot {l : Bytes} (h : LabelBody l) : '.' ∉ l := by
  intro hm
  have := hostChar_iff.2 (h.2.2.1 _ hm)
  revert this
  decide

theorem join_last {l : List Bytes} (hl : l ≠ []) (h : ∀ x ∈ l, x ≠ []) :
    (List.intercalate ['.'] l).getLast? = (l.getLast hl).getLast? := by
  induction l with
  | nil => exact (hl rfl).elim
  | cons a r ih =>
    cases r with
    | nil => simp [List.intercalate]
    | cons b r =>
      have ih' := ih (by simp) (fun x hx => h x (List.mem_cons_of_mem _ hx))
      rw [List.getLast_cons (by simp), ← ih']
      rw [List.intercalate, List.intersperse_cons_cons]
      simp only [List.flatten_cons, List.singleton_append]
      have hne : ((b :: r).intersperse ['.']).flatten ≠ [] := by
        cases r with
        | nil => simpa using h b (by simp)
        | cons b' r => simp [List.intersperse_cons_cons]
      rw [List.getLast?_append, List.getLast?_cons_of_ne_nil hne]
      rw [List.intercalate]
      cases hq : ((b :: r).intersperse ['.']).flatten.getLast? with
      | none => rw [List.getLast?_eq_none_iff] at hq; exact (hne hq).elim
      | some v => rfl

theorem trimDot_name {s : Bytes} {labels : List Bytes} (h : NameOf s labels) (hl : ∀ l ∈ labels, LabelBody l) :
    trimDot s = List.intercalate ['.'] labels := by
  obtain ⟨hne, hs, _⟩ := h
  have hlast := join_last hne (fun x hx e => by
    have := (hl x hx).1
    rw [e] at this
    simp at this)
  have hd : (List.intercalate ['.'] labels).getLast? ≠ some '.' := by
    rw [hlast]
    intro hq
    exact label_no_dot (hl _ (List.getLast_mem hne)) (List.mem_of_getLast? hq)
  unfold trimDot
  rcases hs with rfl | rfl
  · rw [if_neg hd]
  · rw [if_pos (by simp), List.dropLast_concat]

/-- C66, host names: the checker accepts exactly the names whose labels are right except for the first character, and
which do not start with a hyphen as a whole.  Missing for the full claim: a later label may start with a hyphen. -/
theorem C66_hostname_partial (s : Bytes) : isHostnameB s = some true ↔
    ∃ labels, NameOf s labels ∧ (∀ l ∈ labels, LabelBody l) ∧ s.head? ≠ some '-' := by
  constructor
  · intro h
    unfold isHostnameB at h
    dsimp only at h
    split at h
    · cases h
    · rename_i hlen
      have hne : trimDot s ≠ [] := by
        intro e
        rw [e] at h
        revert h
        decide
      rw [hostLabels_iff _ _ hne] at h
      have hj := splitByte_join '.' (trimDot s)
      have hs : s = trimDot s ∨ s = trimDot s ++ ['.'] := by
        unfold trimDot
        split
        · rename_i hd
          right
          exact (List.dropLast_append_getLast? '.' hd).symm
        · exact Or.inl rfl
      refine ⟨splitByte '.' (trimDot s), ⟨splitByte_ne _ _, ?_, ?_⟩, fun l hl => (h l hl).1, ?_⟩
      · rw [hj]; exact hs
      · rw [hj]; omega
      · obtain ⟨a, r, hs'⟩ := List.exists_cons_of_ne_nil (splitByte_ne '.' (trimDot s))
        have := (h a (by rw [hs']; simp)).2
        rcases hs with e | e
        · rw [e]; exact this
        · rw [e]
          cases hq : trimDot s with
          | nil => exact (hne hq).elim
          | cons y z => rw [hq] at this; simpa using this
  · rintro ⟨labels, hn, hl, hh⟩
    have ht := trimDot_name hn hl
    obtain ⟨hne, hs, hlen⟩ := hn
    have hjne : List.intercalate ['.'] labels ≠ [] := by
      obtain ⟨a, r, rfl⟩ := List.exists_cons_of_ne_nil hne
      have ha : a ≠ [] := fun e => by have := (hl a (by simp)).1; rw [e] at this; simp at this
      cases r with
      | nil => simpa [List.intercalate] using ha
      | cons b r => simp [List.intercalate, List.intersperse_cons_cons]
    have hhead : (List.intercalate ['.'] labels).head? = s.head? := by
      rcases hs with rfl | rfl
      · rfl
      · obtain ⟨a, r, he⟩ := List.exists_cons_of_ne_nil hjne
        rw [he]; rfl
    unfold isHostnameB
    dsimp only
    rw [ht, if_neg (by omega), splitByte_of_join '.' labels hne (fun x hx => label_no_dot (hl x hx)),
      hostLabels_iff _ _ hjne]
    intro x hx
    rw [hhead]
    exact ⟨hl x hx, hh⟩

/-- C66: every host name is accepted. -/
theorem C66_hostname_complete (s : Bytes) (h : HostText s) : isHostnameB s = some true := by
  obtain ⟨labels, hn, hl⟩ := h
  refine (C66_hostname_partial s).2 ⟨labels, hn, fun l hl' => (hl l hl').1, ?_⟩
  obtain ⟨hne, hs, _⟩ := hn
  obtain ⟨a, r, rfl⟩ := List.exists_cons_of_ne_nil hne
  have ha := hl a (by simp)
  cases a with
  | nil => have := ha.1.1; simp at this
  | cons c t =>
    have hc : c ≠ '-' := fun e => ha.2 (by simp [e])
    cases r with
    | nil => rcases hs with rfl | rfl <;> simpa [List.intercalate] using hc
    | cons b r => rcases hs with rfl | rfl <;> simpa [List.intercalate, List.intersperse_cons_cons] using hc

/-- C66 is violated for host names: `a.-b` is accepted, because the first character of the whole name is looked at
instead of the first character of the label. -/
theorem C66_hostname_violation : isHostnameB "a.-b".toList = some true ∧ ¬ HostText "a.-b".toList := by
  refine ⟨by decide +kernel, ?_⟩
  rintro ⟨labels, hn, hl⟩
  have ht := trimDot_name hn (fun l hl' => (hl l hl').1)
  have hsp := splitByte_of_join '.' labels hn.1 (fun x hx => label_no_dot (hl x hx).1)
  rw [← ht, show splitByte '.' (trimDot "a.-b".toList) = [['a'], ['-', 'b']] from by decide +kernel] at hsp
  rw [← hsp] at hl
  exact (hl ['-', 'b'] (by simp)).2 rfl

/-! ## IPv4 -/

theorem decVal_eq (l : List Char) : decVal l = numVal l := rfl

theorem all_digit {l : Bytes} : l.all isDigitB = true ↔ ∀ c ∈ l, Digit c := by
  simp [List.all_eq_true, isDigitB_iff]

theorem atoi_numeral {l : Bytes} (h : Numeral l) (hv : numVal l ≤ 255) : goAtoi l = some (numVal l : Int) := by
  obtain ⟨hne, hd⟩ := h
  obtain ⟨c, t, rfl⟩ := List.exists_cons_of_ne_nil hne
  have hc := hd c (by simp)
  have h1 : c ≠ '-' := fun e => by rw [e] at hc; revert hc; unfold Digit; decide
  have h2 : c ≠ '+' := fun e => by rw [e] at hc; revert hc; unfold Digit; decide
  unfold goAtoi
  simp only [atoiSign, if_neg h1, if_neg h2]
  rw [if_pos ⟨by simp, all_digit.2 hd⟩]
  simp only [Bool.false_eq_true, if_false, decVal_eq]
  rw [if_pos (by omega)]

theorem goAtoi_sound {l : Bytes} {n : Int} (h : goAtoi l = some n) :
    ∃ sign ds, l = sign ++ ds ∧ (sign = [] ∨ sign = ['+'] ∨ sign = ['-']) ∧ Numeral ds ∧
      n = if sign = ['-'] then -(numVal ds : Int) else numVal ds := by
  have key : (atoiSign l).2 ≠ [] ∧ (atoiSign l).2.all isDigitB ∧
      n = if (atoiSign l).1 then -(decVal (atoiSign l).2 : Int) else decVal (atoiSign l).2 := by
    unfold goAtoi at h
    dsimp only at h
    split at h
    · rename_i hd
      generalize (if (atoiSign l).1 = true then -(decVal (atoiSign l).2 : Int) else decVal (atoiSign l).2) = k at h ⊢
      split at h
      · injection h with h
        exact ⟨hd.1, hd.2, h.symm⟩
      · cases h
    · cases h
  obtain ⟨k1, k2, k3⟩ := key
  cases l with
  | nil => exact (k1 rfl).elim
  | cons c t =>
    by_cases h1 : c = '-'
    · simp only [atoiSign, if_pos h1] at k1 k2 k3
      exact ⟨['-'], t, by rw [h1]; rfl, by simp, ⟨k1, all_digit.1 k2⟩, by simpa [decVal_eq] using k3⟩
    · by_cases h2 : c = '+'
      · simp only [atoiSign, if_neg h1, if_pos h2] at k1 k2 k3
        exact ⟨['+'], t, by rw [h2]; rfl, by simp, ⟨k1, all_digit.1 k2⟩, by simpa [decVal_eq] using k3⟩
      · simp only [atoiSign, if_neg h1, if_neg h2] at k1 k2 k3
        exact ⟨[], c :: t, rfl, by simp, ⟨k1, all_digit.1 k2⟩, by simpa [decVal_eq] using k3⟩

theorem octet_group {g : Bytes} (h : Octet g) (rest : List Bytes) : ipGroups (g :: rest) = ipGroups rest := by
  obtain ⟨hp, hv⟩ := h
  have hn : Numeral g := by
    rcases hp with rfl | ⟨h, _⟩
    · exact ⟨by simp, by simp [Digit]⟩
    · exact h
  rw [ipGroups, atoi_numeral hn hv]
  dsimp only
  rw [if_neg (by omega)]
  split
  · rename_i h0
    obtain ⟨c, t, rfl⟩ := List.exists_cons_of_ne_nil hn.1
    have hc : byteAt (c :: t) 0 = some c := rfl
    simp only [hc, Option.bind_eq_bind, Option.bind_some]
    rw [if_neg]
    rintro rfl
    rcases hp with hp | ⟨_, hp⟩
    · rw [hp] at h0
      exact h0 (by decide)
    · exact hp rfl
  · rfl

theorem octet_no_dot {g : Bytes} (h : Octet g) : '.' ∉ g := by
  intro hm
  have : Digit '.' := by
    rcases h.1 with rfl | ⟨h, _⟩
    · simp at hm
    · exact h.2 _ hm
  revert this
  unfold Digit
  decide

/-- C66: every dotted quad is accepted as an IPv4 address. -/
theorem C66_ipv4_complete (s : Bytes) (h : QuadText s) : isIPV4B s = some true := by
  obtain ⟨a, b, c, d, ha, hb, hc, hd, rfl⟩ := h
  have hs : splitByte '.' (a ++ ['.'] ++ b ++ ['.'] ++ c ++ ['.'] ++ d) = [a, b, c, d] := by
    simp only [List.append_assoc, List.cons_append, List.nil_append]
    rw [splitByte_append _ _ (octet_no_dot ha), splitByte_append _ _ (octet_no_dot hb),
      splitByte_append _ _ (octet_no_dot hc), splitByte_none _ _ (octet_no_dot hd)]
  unfold isIPV4B
  simp only [hs]
  rw [if_neg (by simp), octet_group ha, octet_group hb, octet_group hc, octet_group hd]
  rfl

theorem ipGroups_sound {l : List Bytes} (h : ipGroups l = some true) : ∀ g ∈ l, ∃ sign ds, g = sign ++ ds ∧
    (sign = [] ∨ sign = ['+'] ∨ sign = ['-']) ∧ Numeral ds ∧ numVal ds ≤ 255 := by
  induction l with
  | nil => simp
  | cons g t ih =>
    rw [ipGroups] at h
    split at h
    · cases h
    · rename_i n hn
      split at h
      · cases h
      · rename_i hr
        have ht : ipGroups t = some true := by
          split at h
          · cases hb : byteAt g 0 with
            | none => simp [hb] at h
            | some c =>
              simp only [hb, Option.bind_eq_bind, Option.bind_some] at h
              split at h
              · cases h
              · exact h
          · exact h
        intro x hx
        rcases List.mem_cons.1 hx with rfl | hx
        · obtain ⟨sign, ds, h1, h2, h3, h4⟩ := goAtoi_sound hn
          refine ⟨sign, ds, h1, h2, h3, ?_⟩
          split at h4 <;> omega
        · exact ih ht x hx

/-- C66, IPv4: whatever is accepted consists of four groups, each a number up to 255.  Missing for the full claim: a
group may have a sign, and several zeros are accepted as zero. -/
theorem C66_ipv4_partial (s : Bytes) (h : isIPV4B s = some true) : ∃ groups : List (List Char), groups.length = 4 ∧
    s = List.intercalate ['.'] groups ∧ ∀ g ∈ groups, ∃ sign ds, g = sign ++ ds ∧
      (sign = [] ∨ sign = ['+'] ∨ sign = ['-']) ∧ Numeral ds ∧ numVal ds ≤ 255 := by
  unfold isIPV4B at h
  dsimp only at h
  split at h
  · cases h
  · rename_i hl
    exact ⟨_, not_not.1 hl, (splitByte_join '.' s).symm, ipGroups_sound h⟩

/-- C66 is violated for IPv4: signs and repeated zeros are accepted. -/
theorem C66_ipv4_violation : isIPV4B "+1.2.3.4".toList = some true ∧ isIPV4B "1.2.3.-0".toList = some true ∧
    isIPV4B "1.2.3.00".toList = some true ∧ ¬ QuadText "+1.2.3.4".toList := by
  refine ⟨by decide +kernel, by decide +kernel, by decide +kernel, ?_⟩
  rintro ⟨a, b, c, d, ha, _, _, _, he⟩
  have hn : Numeral a := by
    rcases ha.1 with rfl | ⟨h, _⟩
    · exact ⟨by simp, by simp [Digit]⟩
    · exact h
  obtain ⟨x, t, rfl⟩ := List.exists_cons_of_ne_nil hn.1
  have : x = '+' := by
    have h1 : "+1.2.3.4".toList.head? = some '+' := by decide +kernel
    rw [he] at h1
    simpa using h1
  have hx := hn.2 x (by simp)
  rw [this] at hx
  revert hx
  unfold Digit
  decide

/-! ## Times -/

theorem goAtoi_two : ∀ n < 100, goAtoi (two n) = some (n : Int) := by decide +kernel

theorem two_cons (n : Nat) : ∃ a b, two n = [a, b] := ⟨_, _, rfl⟩

theorem digit_digitChar : ∀ n < 10, isDigitB (Nat.digitChar n) = true := by decide +kernel

theorem inRange_two {n : Nat} (hn : n < 100) (hi : Nat) :
    inRange (two n) 0 hi = if n ≤ hi then some (n : Int) else none := by
  unfold inRange
  rw [goAtoi_two n hn]
  dsimp only
  split
  · rw [if_neg (by omega)]
  · rw [if_pos (by omega)]

/-- The minute of the day in UTC, for a local time and an offset in minutes. -/
def utcMinute (h m : Nat) (offset : Int) : Int := (60 * h + m - offset) % 1440

/-- The offset in minutes. -/
def offsetMinutes (east : Bool) (zh zm : Nat) : Int := if east then 60 * zh + zm else -(60 * zh + zm)

theorem leapOk_iff (h m s : Int) : leapOk h m s = true ↔ (s = 60 → h = 23 ∧ m = 59) := by
  unfold leapOk
  split
  · split
    · rename_i h1 h2; simp [h1]; intro h3; omega
    · rename_i h1 h2; simp [h1]; omega
  · rename_i h1; simp [h1]

theorem zone_z (h m s : Int) (c : Char) (hc : c = 'Z' ∨ c = 'z') : isTimeZone h m s [c] = some (leapOk h m s) := by
  rcases hc with rfl | rfl <;> rfl

/-- The offset part of a time. -/
theorem zone_offset (h m s : Nat) (hh : h ≤ 23) (hm : m ≤ 59) (east : Bool) (zh zm : Nat) (h1 : zh < 100) (h2 : zm < 100) :
    isTimeZone h m s (offsetText east zh zm) = some (decide (zh ≤ 23 ∧ zm ≤ 59 ∧
      (s = 60 → utcMinute h m (offsetMinutes east zh zm) = 1439))) := by
  obtain ⟨a, b, hab⟩ := two_cons zh
  obtain ⟨d, e, hde⟩ := two_cons zm
  have r1 : inRange [a, b] 0 23 = if zh ≤ 23 then some (zh : Int) else none := by
    rw [← hab]; exact inRange_two h1 23
  have r2 : inRange [d, e] 0 59 = if zm ≤ 59 then some (zm : Int) else none := by
    rw [← hde]; exact inRange_two h2 59
  have key : ∀ (sign : Int), sign = (if east then -1 else 1) →
      (match inRange [a, b] 0 23 with
        | none => some false
        | some zh => match inRange [d, e] 0 59 with
          | none => some false
          | some zm =>
            some (leapOk ((if (h : Int) * 60 + m + sign * (zh * 60 + zm) < 0 then
              (h : Int) * 60 + m + sign * (zh * 60 + zm) + 24 * 60 else (h : Int) * 60 + m + sign * (zh * 60 + zm)).tdiv 60)
              ((if (h : Int) * 60 + m + sign * (zh * 60 + zm) < 0 then
              (h : Int) * 60 + m + sign * (zh * 60 + zm) + 24 * 60
              else (h : Int) * 60 + m + sign * (zh * 60 + zm)).tmod 60) s)) =
      some (decide (zh ≤ 23 ∧ zm ≤ 59 ∧ (s = 60 → utcMinute h m (offsetMinutes east zh zm) = 1439))) := by
    intro sign hsign
    rw [r1, r2]
    by_cases c1 : zh ≤ 23
    · rw [if_pos c1]
      by_cases c2 : zm ≤ 59
      · rw [if_pos c2]
        dsimp only
        congr 1
        rw [Bool.eq_iff_iff, leapOk_iff, decide_eq_true_eq]
        unfold utcMinute offsetMinutes
        have hv : ∃ v : Int, v = (if (h : Int) * 60 + m + sign * (zh * 60 + zm) < 0 then
              (h : Int) * 60 + m + sign * (zh * 60 + zm) + 24 * 60
              else (h : Int) * 60 + m + sign * (zh * 60 + zm)) := ⟨_, rfl⟩
        obtain ⟨v, hv⟩ := hv
        rw [← hv]
        have hv0 : 0 ≤ v := by
          cases east <;> simp at hsign <;> subst hsign <;> split at hv <;> omega
        rw [Int.tdiv_eq_ediv_of_nonneg hv0, Int.tmod_eq_emod_of_nonneg hv0]
        constructor
        · intro hx
          refine ⟨c1, c2, fun hs => ?_⟩
          have := hx (by omega)
          cases east <;> simp at hsign ⊢ <;> subst hsign <;> split at hv <;> omega
        · rintro ⟨_, _, hx⟩ hs
          have := hx (by omega)
          cases east <;> simp at hsign this <;> subst hsign <;> split at hv <;> omega
      · rw [if_neg c2]
        simp [c2]
    · rw [if_neg c1]
      simp [c1]
  unfold offsetText
  rw [hab, hde]
  cases east with
  | true => exact key (-1) (by simp)
  | false => exact key 1 (by simp)

theorem skipFraction_append (ds r : Bytes) (h : ∀ c ∈ ds, Digit c) (hr : ∀ c, r.head? = some c → ¬ Digit c) :
    skipFraction (ds ++ r) = (ds.length, r) := by
  induction ds with
  | nil =>
    cases r with
    | nil => rfl
    | cons c t =>
      have : isDigitB c = false := by
        have := hr c rfl
        rw [← isDigitB_iff] at this
        simpa using this
      simp [skipFraction, this]
  | cons c t ih =>
    have : isDigitB c = true := isDigitB_iff.2 (h c List.mem_cons_self)
    simp [skipFraction, this, ih (fun x hx => h x (List.mem_cons_of_mem _ hx))]

/-- An optional fraction of a second. -/
def Fraction (f : List Char) : Prop := f = [] ∨ ∃ ds, Numeral ds ∧ f = '.' :: ds

theorem isTimeB_clock (h m s : Nat) (hh : h < 100) (hm : m < 100) (hs : s < 100) (f z : List Char) (hf : Fraction f)
    (hz : ∃ c t, z = c :: t ∧ ¬ Digit c ∧ c ≠ '.') :
    isTimeB (clockText h m s ++ f ++ z) = if h ≤ 23 ∧ m ≤ 59 ∧ s ≤ 60 then isTimeZone h m s z else some false := by
  obtain ⟨a, b, hab⟩ := two_cons h
  obtain ⟨c, d, hcd⟩ := two_cons m
  obtain ⟨e, g, heg⟩ := two_cons s
  have r1 : inRange [a, b] 0 23 = if h ≤ 23 then some (h : Int) else none := by rw [← hab]; exact inRange_two hh 23
  have r2 : inRange [c, d] 0 59 = if m ≤ 59 then some (m : Int) else none := by rw [← hcd]; exact inRange_two hm 59
  have r3 : inRange [e, g] 0 60 = if s ≤ 60 then some (s : Int) else none := by rw [← heg]; exact inRange_two hs 60
  obtain ⟨x, t, rfl, hx, hdot⟩ := hz
  have htext : clockText h m s ++ f ++ x :: t = a :: b :: ':' :: c :: d :: ':' :: e :: g :: (f ++ x :: t) := by
    unfold clockText; rw [hab, hcd, heg]; simp
  rw [htext]
  have hrest : ∃ y r, f ++ x :: t = y :: r := by
    cases f with
    | nil => exact ⟨x, t, rfl⟩
    | cons y r => exact ⟨y, r ++ x :: t, rfl⟩
  obtain ⟨y, r, hy⟩ := hrest
  unfold isTimeB
  rw [if_neg (by rw [hy]; simp)]
  have b2 : byteAt (a :: b :: ':' :: c :: d :: ':' :: e :: g :: (f ++ x :: t)) 2 = some ':' := rfl
  have b5 : byteAt (a :: b :: ':' :: c :: d :: ':' :: e :: g :: (f ++ x :: t)) 5 = some ':' := rfl
  have s1 : slice (a :: b :: ':' :: c :: d :: ':' :: e :: g :: (f ++ x :: t)) 0 2 = some [a, b] := by simp [slice]
  have s2 : slice (a :: b :: ':' :: c :: d :: ':' :: e :: g :: (f ++ x :: t)) 3 5 = some [c, d] := by simp [slice]
  have s3 : slice (a :: b :: ':' :: c :: d :: ':' :: e :: g :: (f ++ x :: t)) 6 8 = some [e, g] := by simp [slice]
  have s4 : sliceFrom (a :: b :: ':' :: c :: d :: ':' :: e :: g :: (f ++ x :: t)) 8 = some (f ++ x :: t) := by
    unfold sliceFrom slice
    rw [if_pos (by simp)]
    rw [List.take_of_length_le (Nat.le_refl _)]
    rfl
  have b0 : byteAt (f ++ x :: t) 0 = some y := by rw [hy]; rfl
  have s5 : sliceFrom (f ++ x :: t) 1 = some r := by rw [hy]; simp [sliceFrom, slice]
  simp only [b2, b5, s1, s2, s3, s4, b0, s5, r1, r2, r3, Option.bind_eq_bind, Option.bind_some, ne_eq, not_true_eq_false,
    if_false]
  by_cases c1 : h ≤ 23
  · by_cases c2 : m ≤ 59
    · by_cases c3 : s ≤ 60
      · simp only [if_pos c1, if_pos c2, if_pos c3]
        refine Eq.trans ?_ (if_pos ⟨c1, c2, c3⟩).symm
        rcases hf with rfl | ⟨ds, hds, rfl⟩
        · simp only [List.nil_append, List.cons.injEq] at hy
          refine Eq.trans (if_neg (by rw [← hy.1]; exact hdot)) ?_
          rw [List.nil_append]
        · simp only [List.cons_append, List.cons.injEq] at hy
          obtain ⟨hy1, hy2⟩ := hy
          refine Eq.trans (if_pos hy1.symm) ?_
          rw [← hy2, skipFraction_append ds (x :: t) hds.2 (by
            intro c hc
            injection hc with hc
            rw [← hc]; exact hx)]
          dsimp only
          rw [if_neg (by
            intro h0
            exact hds.1 (List.length_eq_zero_iff.1 h0))]
      · simp [c1, c2, c3]
    · simp [c1, c2]
  · simp [c1]

/-- C66, times: on texts of the shape `hh:mm:ss`, optional fraction, offset, the checker decides exactly whether it is a
time: fields in range, and a leap second only at the last minute of a UTC day. -/
theorem C66_time_offset_exact (h m s zh zm : Nat) (hh : h < 100) (hm : m < 100) (hs : s < 100) (h1 : zh < 100)
    (h2 : zm < 100) (east : Bool) (f : List Char) (hf : Fraction f) :
    isTimeB (clockText h m s ++ f ++ offsetText east zh zm) = some (decide (h ≤ 23 ∧ m ≤ 59 ∧ s ≤ 60 ∧ zh ≤ 23 ∧
      zm ≤ 59 ∧ (s = 60 → utcMinute h m (offsetMinutes east zh zm) = 1439))) := by
  rw [isTimeB_clock h m s hh hm hs f _ hf (by
    cases east
    · exact ⟨'-', _, rfl, by unfold Digit; decide, by decide⟩
    · exact ⟨'+', _, rfl, by unfold Digit; decide, by decide⟩)]
  by_cases c : h ≤ 23 ∧ m ≤ 59 ∧ s ≤ 60
  · rw [if_pos c, zone_offset h m s c.1 c.2.1 east zh zm h1 h2]
    simp [c]
  · rw [if_neg c]
    have : ¬ (h ≤ 23 ∧ m ≤ 59 ∧ s ≤ 60 ∧ zh ≤ 23 ∧ zm ≤ 59 ∧
        (s = 60 → utcMinute h m (offsetMinutes east zh zm) = 1439)) := fun h' => c ⟨h'.1, h'.2.1, h'.2.2.1⟩
    simp only [this, decide_false]

/-- C66, times in UTC: the same for a `Z` at the end. -/
theorem C66_time_utc_exact (h m s : Nat) (hh : h < 100) (hm : m < 100) (hs : s < 100) (f : List Char) (hf : Fraction f)
    (z : Char) (hz : z = 'Z' ∨ z = 'z') :
    isTimeB (clockText h m s ++ f ++ [z]) =
      some (decide (h ≤ 23 ∧ m ≤ 59 ∧ s ≤ 60 ∧ (s = 60 → h = 23 ∧ m = 59))) := by
  rw [isTimeB_clock h m s hh hm hs f _ hf (by
    rcases hz with rfl | rfl
    · exact ⟨'Z', _, rfl, by unfold Digit; decide, by decide⟩
    · exact ⟨'z', _, rfl, by unfold Digit; decide, by decide⟩)]
  by_cases c : h ≤ 23 ∧ m ≤ 59 ∧ s ≤ 60
  · rw [if_pos c, zone_z _ _ _ z hz]
    congr 1
    rw [Bool.eq_iff_iff, leapOk_iff, decide_eq_true_eq]
    constructor
    · intro hx; exact ⟨c.1, c.2.1, c.2.2, fun e => by have := hx (by omega); omega⟩
    · rintro ⟨_, _, _, hx⟩ e
      have := hx (by omega)
      omega
  · rw [if_neg c]
    have : ¬ (h ≤ 23 ∧ m ≤ 59 ∧ s ≤ 60 ∧ (s = 60 → h = 23 ∧ m = 59)) := fun h' => c ⟨h'.1, h'.2.1, h'.2.2.1⟩
    simp only [this, decide_false]

/-- The hypotheses are met by leap seconds at the end of a UTC day, with and without an offset. -/
example : isTimeB "15:59:60.5-08:00".toList = some true ∧ isTimeB "23:59:60Z".toList = some true ∧
    isTimeB "15:59:60.5-07:00".toList = some false ∧ isTimeB "00:29:60+00:30".toList = some true := by decide +kernel

/-- C66 is violated for times: a sign passes for a digit. -/
theorem C66_time_violation : isTimeB "+1:-0:+3Z".toList = some true ∧
    ∀ h m s f z, "+1:-0:+3Z".toList ≠ clockText h m s ++ f ++ z ∨ 100 ≤ h := by
  refine ⟨by decide +kernel, fun h m s f z => ?_⟩
  by_cases hh : h < 100
  · left
    intro he
    have h1 : "+1:-0:+3Z".toList.head? = some '+' := by decide +kernel
    rw [he] at h1
    have h2 : Nat.digitChar (h / 10) = '+' := by simp [clockText, two] at h1
    have h3 := digit_digitChar (h / 10) (by omega)
    rw [h2] at h3
    revert h3
    decide
  · right; omega

/-! ## Generated texts -/

theorem utf8_ascii {c : Char} (h : c.toNat < 128) :
    (String.utf8EncodeChar c).map (fun b => Char.ofNat b.toNat) = [c] := by
  have h1 : c.val.toNat ≤ 127 := by have : c.toNat = c.val.toNat := rfl; omega
  unfold String.utf8EncodeChar
  simp only [h1, if_true, List.map_cons, List.map_nil]
  congr 1
  have : (c.val.toNat.toUInt8).toNat = c.toNat := by
    show c.val.toNat % 256 = c.toNat
    have : c.toNat = c.val.toNat := rfl
    omega
  rw [this, Char.ofNat_toNat]

theorem bytesOf_ascii {s : String} (h : ∀ c ∈ s.toList, c.toNat < 128) : bytesOf s = s.toList := by
  unfold bytesOf
  generalize s.toList = l at h
  induction l with
  | nil => rfl
  | cons c t ih =>
    rw [List.flatMap_cons, utf8_ascii (h c (by simp)), ih (fun x hx => h x (List.mem_cons_of_mem _ hx))]
    rfl
/-- C59: no checker panics. -/
theorem C59_checkers_never_panic (L : FormatLib) (format : String) (v : JVal) : formatCheck L format v ≠ some none := by
  unfold formatCheck
  cases hf : formatCheckB L format with
  | none => simp
  | some f =>
    have := formatCheckB_total L format f hf
    cases v with
    | str s =>
      obtain ⟨b, hb⟩ := some_of_isSome (this (bytesOf s))
      simp [hb]
    | _ => simp

theorem toString_digits (n : Nat) : (toString n).toList = Nat.toDigits 10 n := by
  simp [Nat.toString_eq_repr, Nat.repr]

theorem numeral_toString (n : Nat) : Numeral (toString n).toList := by
  rw [toString_digits]
  refine ⟨Nat.toDigits_ne_nil, fun c hc => ?_⟩
  have := Nat.isDigit_of_mem_toDigits (by omega) (by omega) hc
  exact isDigitB_iff.1 (by simpa [isDigitB, Char.isDigit, Char.le_def] using this)

theorem duration_text (n : Nat) : isDurationB (bytesOf s!"P{(n : Int)}D") = some true := by
  have ht : (s!"P{(n : Int)}D").toList = 'P' :: ((toString n).toList ++ ['D']) := by
    have : (toString (n : Int)) = toString n := rfl
    rw [this]
    show ("P" ++ toString n ++ "D").toList = _
    simp [String.toList_append]
  rw [bytesOf_ascii, C66_duration_exact, ht]
  · exact ⟨_, rfl, Or.inl ⟨(toString n).toList ++ ['D'], [], by simp, Or.inl ⟨_, numeral_toString n, rfl⟩, Or.inl rfl⟩⟩
  · rw [ht]
    intro c hc
    simp only [List.mem_cons, List.mem_append, List.not_mem_nil, or_false] at hc
    rcases hc with rfl | hc | rfl
    · decide
    · have := (numeral_toString n).2 c hc
      unfold Digit at this
      have h2 : c.toNat ≤ '9'.toNat := this.2
      have h3 : '9'.toNat = 57 := rfl
      omega
    · decide

theorem generateFormat_duration (c : Ctx) (s : GSt) :
    ∃ (n : Nat) (s' : GSt), generateFormat c "duration" s = .ok s!"P{(n : Int)}D" s' := by
  refine ⟨c.w.seeded s.spos % 90, { s with spos := s.spos + 1 }, ?_⟩
  have h1 : randomInt c.w 0 90 s = .ok ((c.w.seeded s.spos % 90 : Nat) : Int) { s with spos := s.spos + 1 } := by
    show Res.ok _ _ = _
    simp
  have h2 : ¬ ("duration" ∈ fakerFormats) := by decide
  unfold generateFormat
  rw [if_neg h2, if_pos rfl]
  exact Comp.bind_ok.2 ⟨_, _, h1, rfl⟩

/-- C59: whatever else a string schema with `format: "duration"` has, every value generated for it is a text that the
library's own duration checker accepts, and generating it neither panics nor runs on. -/
theorem C59_duration_accepted (L : FormatLib) (c : Ctx) (g : StrGen) (hg : g.format = "duration") (s : GSt) :
    ∃ v s', stringGenerate c g s = .ok v s' ∧ formatCheck L "duration" v = some (some true) := by
  obtain ⟨n, s', h⟩ := generateFormat_duration c { s with complexity := s.complexity + 1 }
  refine ⟨.str s!"P{(n : Int)}D", s', ?_, ?_⟩
  · unfold stringGenerate
    rw [hg, if_pos (by decide)]
    exact Comp.bind_ok.2 ⟨(), _, rfl, Comp.bind_ok.2 ⟨_, _, h, rfl⟩⟩
  · show some (isDurationB _) = _
    rw [duration_text]

/-- The hypotheses are met by a compiled schema. -/
example : yields (.str "P3D") (parseThenGenerate stringEnv demoWorld {}
    (.obj [("type", .str "string"), ("format", .str "duration")])) = true := by decide +kernel

/-- Pointers are a format the library checks but does not generate: what it generates is not a pointer. -/
theorem C59_pointer_violation :
    isJSONPointerB (bytesOf "Known but unsupported format: json-pointer") = some false ∧
    isRelativeJSONPointerB (bytesOf "Known but unsupported format: relative-json-pointer") = some false ∧
    yields (.str "Known but unsupported format: json-pointer") (parseThenGenerate stringEnv demoWorld {}
      (.obj [("type", .str "string"), ("format", .str "json-pointer")])) = true ∧
    yields (.str "Known but unsupported format: relative-json-pointer") (parseThenGenerate stringEnv demoWorld {}
      (.obj [("type", .str "string"), ("format", .str "relative-json-pointer")])) = true := by
  refine ⟨?_, ?_, ?_, ?_⟩ <;> decide +kernel

end Chaff
