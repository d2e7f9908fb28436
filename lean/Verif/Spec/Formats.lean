import Mathlib.Data.List.Basic
/-!
# Grammars of the string formats

RFC 3339 (appendix A for durations), RFC 4122, RFC 6901, the relative JSON pointer draft, RFC 1034/1123 and RFC 2673,
written down on lists of characters without reference to the model.
-/

namespace Chaff

/-- A decimal digit. -/
def Digit (c : Char) : Prop := '0' ≤ c ∧ c ≤ '9'

/-- One or more digits. -/
def Numeral (l : List Char) : Prop := l ≠ [] ∧ ∀ c ∈ l, Digit c

/-! ## Durations -/

/-- A number followed by a unit. -/
def UnitPart (u : Char) (l : List Char) : Prop := ∃ n, Numeral n ∧ l = n ++ [u]

/-- One part, optionally followed by something. -/
def PartThen (u : Char) (next : List Char → Prop) (l : List Char) : Prop :=
  ∃ a b, l = a ++ b ∧ UnitPart u a ∧ (b = [] ∨ next b)

def DurDay : List Char → Prop := UnitPart 'D'
def DurMonth : List Char → Prop := PartThen 'M' DurDay
def DurYear : List Char → Prop := PartThen 'Y' DurMonth
def DurSecond : List Char → Prop := UnitPart 'S'
def DurMinute : List Char → Prop := PartThen 'M' DurSecond
def DurHour : List Char → Prop := PartThen 'H' DurMinute

def DurTime (l : List Char) : Prop := ∃ t, l = 'T' :: t ∧ (DurHour t ∨ DurMinute t ∨ DurSecond t)
def DurDate (l : List Char) : Prop := ∃ a b, l = a ++ b ∧ (DurDay a ∨ DurMonth a ∨ DurYear a) ∧ (b = [] ∨ DurTime b)

/-- RFC 3339, appendix A. -/
def DurationText (s : List Char) : Prop := ∃ l, s = 'P' :: l ∧ (DurDate l ∨ DurTime l ∨ UnitPart 'W' l)

/-! ## JSON pointers -/

/-- A reference token in its escaped form. -/
inductive PtrToken : List Char → Prop where
  | nil : PtrToken []
  | plain (c : Char) (t : List Char) : c ≠ '/' → c ≠ '~' → PtrToken t → PtrToken (c :: t)
  | tilde (t : List Char) : PtrToken t → PtrToken ('~' :: '0' :: t)
  | slash (t : List Char) : PtrToken t → PtrToken ('~' :: '1' :: t)

/-- RFC 6901. -/
inductive PtrText : List Char → Prop where
  | nil : PtrText []
  | cons (t r : List Char) : PtrToken t → PtrText r → PtrText ('/' :: (t ++ r))

/-- A number without leading zeros. -/
def PlainNumber (n : List Char) : Prop := n = ['0'] ∨ (Numeral n ∧ n.head? ≠ some '0')

/-- Relative JSON pointer. -/
def RelPtrText (s : List Char) : Prop := ∃ n r, s = n ++ r ∧ PlainNumber n ∧ (r = ['#'] ∨ PtrText r)

/-! ## UUIDs -/

def HexDigit (c : Char) : Prop := Digit c ∨ ('a' ≤ c ∧ c ≤ 'f') ∨ ('A' ≤ c ∧ c ≤ 'F')

/-- Exactly `n` hexadecimal digits. -/
def HexRun (n : Nat) (l : List Char) : Prop := l.length = n ∧ ∀ c ∈ l, HexDigit c

/-- RFC 4122. -/
def UuidText (s : List Char) : Prop :=
  ∃ a b c d e, HexRun 8 a ∧ HexRun 4 b ∧ HexRun 4 c ∧ HexRun 4 d ∧ HexRun 12 e ∧
    s = a ++ ['-'] ++ b ++ ['-'] ++ c ++ ['-'] ++ d ++ ['-'] ++ e

/-! ## Host names and addresses -/

def HostLetter (c : Char) : Prop := ('a' ≤ c ∧ c ≤ 'z') ∨ ('A' ≤ c ∧ c ≤ 'Z') ∨ Digit c ∨ c = '-'

/-- A label without looking at its first character. -/
def LabelBody (l : List Char) : Prop :=
  1 ≤ l.length ∧ l.length ≤ 63 ∧ (∀ c ∈ l, HostLetter c) ∧ l.getLast? ≠ some '-'

/-- RFC 1123: a label neither starts nor ends with a hyphen. -/
def HostLabel (l : List Char) : Prop := LabelBody l ∧ l.head? ≠ some '-'

/-- The labels of a name, with or without a final dot. -/
def NameOf (s : List Char) (labels : List (List Char)) : Prop :=
  labels ≠ [] ∧ (s = List.intercalate ['.'] labels ∨ s = List.intercalate ['.'] labels ++ ['.']) ∧
    (List.intercalate ['.'] labels).length ≤ 253

/-- A host name. -/
def HostText (s : List Char) : Prop := ∃ labels, NameOf s labels ∧ ∀ l ∈ labels, HostLabel l

/-- The value of a numeral. -/
def numVal (l : List Char) : Nat := l.foldl (fun a c => 10 * a + (c.toNat - '0'.toNat)) 0

/-- A number from 0 to 255 without leading zeros. -/
def Octet (l : List Char) : Prop := PlainNumber l ∧ numVal l ≤ 255

/-- RFC 2673 dotted quad. -/
def QuadText (s : List Char) : Prop :=
  ∃ a b c d, Octet a ∧ Octet b ∧ Octet c ∧ Octet d ∧ s = a ++ ['.'] ++ b ++ ['.'] ++ c ++ ['.'] ++ d

/-! ## Times -/

/-- Two digits. -/
def two (n : Nat) : List Char := [Nat.digitChar (n / 10), Nat.digitChar (n % 10)]

/-- `+hh:mm` or `-hh:mm`. -/
def offsetText (east : Bool) (zh zm : Nat) : List Char := (if east then '+' else '-') :: (two zh ++ [':'] ++ two zm)

/-- `hh:mm:ss` -/
def clockText (h m s : Nat) : List Char := two h ++ [':'] ++ two m ++ [':'] ++ two s

end Chaff
