import Verif.Model.Regen
/-!
# Specification: what it means for a string to match a regular expression

`Matches pre r w post` says that the expression `r` matches the word `w` when `w` is preceded by `pre` and
followed by `post` in the text.  The context is only used by assertions.
-/

namespace Chaff

/-- ASCII word characters, as used by `\b`. -/
def IsWordChar (c : Char) : Prop :=
  ('0' ≤ c ∧ c ≤ '9') ∨ ('A' ≤ c ∧ c ≤ 'Z') ∨ ('a' ≤ c ∧ c ≤ 'z') ∨ c = '_'

/-- There is a word boundary between the two parts of a text. -/
def WordBoundary (pre post : List Char) : Prop :=
  ¬ ((∃ c, pre.getLast? = some c ∧ IsWordChar c) ↔ (∃ c, post.head? = some c ∧ IsWordChar c))

/-- The ranges of a character class, written as a list of pairs of bounds, contain the code point. -/
def InClass : List Nat → Nat → Prop
  | lo :: hi :: rest, n => (lo ≤ n ∧ n ≤ hi) ∨ InClass rest n
  | _, _ => False

/-- Matching of a word in a context. -/
inductive Matches : List Char → Rx → List Char → List Char → Prop
  | emptyMatch {p q} : Matches p .emptyMatch [] q
  | literal {p q} (cs : List Char) : Matches p (.literal (cs.map Char.toNat)) cs q
  | anyCharNotNL {p q c} : c ≠ '\n' → Matches p .anyCharNotNL [c] q
  | anyChar {p q c} : Matches p .anyChar [c] q
  | quest {p q r w} (n : Nat) : n ≤ 1 → Matches p (.concat (List.replicate n r)) w q → Matches p (.quest r) w q
  | star {p q r w} (n : Nat) : Matches p (.concat (List.replicate n r)) w q → Matches p (.star r) w q
  | plus {p q r w} (n : Nat) : 1 ≤ n → Matches p (.concat (List.replicate n r)) w q → Matches p (.plus r) w q
  | repeat {p q r w} {mn mx : Int} (n : Nat) : mn ≤ n → mx = -1 ∨ (n : Int) ≤ mx →
      Matches p (.concat (List.replicate n r)) w q → Matches p (.repeat r mn mx) w q
  | charClass {p q rs c} : InClass rs c.toNat → Matches p (.charClass rs) [c] q
  | concatNil {p q} : Matches p (.concat []) [] q
  | concatCons {p q r rs u v} : Matches p r u (v ++ q) → Matches (p ++ u) (.concat rs) v q →
      Matches p (.concat (r :: rs)) (u ++ v) q
  | alternate {p q r rs w} : r ∈ rs → Matches p r w q → Matches p (.alternate rs) w q
  | capture {p q r w} : Matches p r w q → Matches p (.capture r) w q
  | beginText {q} : Matches [] .beginText [] q
  | endText {p} : Matches p .endText [] []
  | beginLine {p q} : p = [] ∨ p.getLast? = some '\n' → Matches p .beginLine [] q
  | endLine {p q} : q = [] ∨ q.head? = some '\n' → Matches p .endLine [] q
  | wordBoundary {p q} : WordBoundary p q → Matches p .wordBoundary [] q
  | noWordBoundary {p q} : ¬ WordBoundary p q → Matches p .noWordBoundary [] q

mutual
/-- No `^`, `$`, `\b` or `\B` occurs in the expression. -/
def NoAssert : Rx → Prop
  | .quest r | .star r | .plus r | .repeat r _ _ | .capture r => NoAssert r
  | .concat rs | .alternate rs => NoAsserts rs
  | .beginLine | .endLine | .beginText | .endText | .wordBoundary | .noWordBoundary => False
  | _ => True
/-- The same for a list of expressions. -/
def NoAsserts : List Rx → Prop
  | [] => True
  | r :: rs => NoAssert r ∧ NoAsserts rs
end

/-- Expressions whose only assertions are `^` at the very start and `$` at the very end of an alternative. -/
inductive Anchored : Rx → Prop
  | plain {r} : NoAssert r → Anchored r
  | anchors (b : List Rx) (m : List Rx) (e : List Rx) : (∀ x ∈ b, x = .beginText ∨ x = .beginLine) → NoAsserts m →
      (∀ x ∈ e, x = .endText ∨ x = .endLine) → Anchored (.concat (b ++ (m ++ e)))
  | alternate {rs} : (∀ r ∈ rs, Anchored r) → Anchored (.alternate rs)
  | capture {r} : Anchored r → Anchored (.capture r)
  | single {r} : r = .beginText ∨ r = .beginLine ∨ r = .endText ∨ r = .endLine → Anchored r

/-- Every code point the class may produce is a character, or the replacement character is in the class. -/
def ClassOk (rs : List Nat) : Prop :=
  InClass rs 0xFFFD ∨ ∀ n, InClass rs n → n.isValidChar

mutual
/-- All literals are characters, all classes are `ClassOk` and upper repetition bounds are -1 (none) or natural. -/
def RunesOk : Rx → Prop
  | .literal rs => ∀ n ∈ rs, n.isValidChar
  | .charClass rs => ClassOk rs
  | .repeat r _ mx => (mx = -1 ∨ 0 ≤ mx) ∧ RunesOk r
  | .quest r | .star r | .plus r | .capture r => RunesOk r
  | .concat rs | .alternate rs => RunesOks rs
  | _ => True
/-- The same for a list of expressions. -/
def RunesOks : List Rx → Prop
  | [] => True
  | r :: rs => RunesOk r ∧ RunesOks rs
end

/-- Ranges are ordered and end above NUL. -/
def RangesOk : List Nat → Prop
  | lo :: hi :: rest => (lo ≤ hi ∧ 1 ≤ hi) ∧ RangesOk rest
  | _ => True

mutual
/-- The expression can be turned into a generator that never panics: classes are non-empty and no range is just NUL,
alternatives exist, repetition bounds are ordered, and `.` only occurs when the generator is limited to ASCII. -/
def RxSafe (a : RxArgs) : Rx → Prop
  | .anyCharNotNL => a.limitToAscii = true
  | .quest r | .capture r => RxSafe a r
  | .star r => a.minUnbounded ≤ a.maxUnbounded ∧ RxSafe a r
  | .plus r => 1 ≤ a.maxUnbounded ∧ RxSafe a r
  | .repeat r mn mx =>
    (if mn = -1 then (a.minUnbounded : Int) else mn) ≤ (if mx = -1 then (a.maxUnbounded : Int) else mx) ∧ RxSafe a r
  | .charClass rs => RangesOk rs ∧ 2 ≤ rs.length
  | .concat rs => RxSafes a rs
  | .alternate rs => rs ≠ [] ∧ RxSafes a rs
  | _ => True
/-- The same for a list of expressions. -/
def RxSafes (a : RxArgs) : List Rx → Prop
  | [] => True
  | r :: rs => RxSafe a r ∧ RxSafes a rs
end

end Chaff
