import Verif.Model.Options
/-!
# Model of internal/regen: random strings from a regular expression

The Go regexp parser and `Simplify` are external; the model starts from the simplified syntax tree.
Runes are naturals; `runeToChar` is Go's conversion of a rune to a string, which replaces surrogates and
out-of-range values by U+FFFD.
-/

namespace Chaff

/-- `syntax.Regexp` trees handled by the generator factories (internal/regen/internal_generator.go 34-55).
Flags that only affect matching (greediness, case folding) are dropped. -/
inductive Rx where
  | emptyMatch
  | literal (runes : List Nat)
  | anyCharNotNL
  | anyChar
  | quest (r : Rx)
  | star (r : Rx)
  | plus (r : Rx)
  | repeat (r : Rx) (min : Int) (max : Int)
  | charClass (runes : List Nat)
  | concat (rs : List Rx)
  | alternate (rs : List Rx)
  | capture (r : Rx)
  | beginLine | endLine | beginText | endText | wordBoundary | noWordBoundary
  /-- any operator without a factory, e.g. `OpNoMatch` -/
  | other

/-- `GeneratorArgs` after `initialize` (internal/regen/regen.go 149-178).  The capture group handler is the
default one. -/
structure RxArgs where
  maxUnbounded : Nat := 4096
  minUnbounded : Nat := 0
  limitToAscii : Bool := false
  suppressRandomBytes : Bool := false
deriving Inhabited

/-- `GeneratorArgs.initialize` (internal/regen/regen.go 149-178): default for the maximum; panics when the
minimum exceeds it. -/
def RxArgs.initialize (a : RxArgs) : Except String RxArgs :=
  let a := if a.maxUnbounded < 1 then { a with maxUnbounded := 4096 } else a
  if a.minUnbounded > a.maxUnbounded then .error "MinUnboundedRepeatCount > MaxUnboundedRepeatCount"
  else .ok a

/-- `string(rune)` via `runesToString` (internal/regen/regexp_format.go 86-97). -/
def runeToChar (r : Nat) : Char := if r.isValidChar then Char.ofNat r else Char.ofNat 0xFFFD

/-- `tCharClass` (internal/regen/char_class.go 25-34): ranges as (start, size) pairs and the total size. -/
structure CharClass where
  ranges : List (Nat × Nat)
  totalSize : Nat

/-- `newCharClassRange` (internal/regen/char_class.go 98-113); `error` is a panic. -/
def newCharClassRange (start stop : Nat) : Except String (Nat × Nat) :=
  if start < 1 then .error "char class range cannot contain runes less than 1"
  else
    let size : Int := (stop : Int) - start + 1
    if size < 1 then .error "char class range size must be at least 1"
    else .ok (start, size.toNat)

/-- `newCharClass` (internal/regen/char_class.go 37-43). -/
def newCharClass (start stop : Nat) : Except String CharClass :=
  match newCharClassRange start stop with
  | .error e => .error e
  | .ok r => .ok ⟨[r], r.2⟩

/-- The loop of `parseCharClass` (internal/regen/char_class.go 57-81): pairs of runes become ranges, a range
starting at NUL starts at 1 instead.  A trailing odd rune is ignored (`len(runes)/2`). -/
def parseCharClass : List Nat → Except String CharClass
  | start :: stop :: rest =>
    match newCharClassRange (if start = 0 then 1 else start) stop with
    | .error e => .error e
    | .ok r =>
      match parseCharClass rest with
      | .error e => .error e
      | .ok c => .ok ⟨r :: c.ranges, r.2 + c.totalSize⟩
  | _ => .ok ⟨[], 0⟩

/-- `GetRuneAt` (internal/regen/char_class.go 84-92); `none` is the panic "index out of bounds". -/
def getRuneAt : List (Nat × Nat) → Nat → Option Nat
  | [], _ => none
  | (start, size) :: rs, i => if i < size then some (start + i) else getRuneAt rs (i - size)

/-- A built generator (`internalGenerator`, internal/regen/internal_generator.go 57-60). -/
inductive RxGen where
  | empty
  | lit (runes : List Nat)
  | any (ascii : Bool)
  | cls (c : CharClass)
  | rep (g : RxGen) (min max : Int)
  | cat (gs : List RxGen)
  | alt (gs : List RxGen)

/-- Outcome of building a generator: built, an `error`, or a panic. -/
inductive Build (α : Type) where
  | ok (a : α)
  | err (msg : String)
  | panic (msg : String)

/-- `createRepeatingGenerator` (internal/regen/internal_generator.go 257-283), building part: wrap the
generator of the subexpression. -/
def wrapRep (b : Build RxGen) (mn mx : Int) : Build RxGen :=
  match b with
  | .ok g => .ok (.rep g mn mx)
  | .err e => .err e
  | .panic e => .panic e

mutual
/-- `newGenerator` and the factories (internal/regen/internal_generator.go 87-283).  The subexpression count
checks (`enforceSingleSub`) hold by construction of `Rx`. -/
def newRxGen (a : RxArgs) : Rx → Build RxGen
  | .emptyMatch => .ok .empty
  | .literal rs => .ok (.lit rs)
  | .anyChar => .ok (.any a.limitToAscii)
  | .anyCharNotNL =>
    match (if a.limitToAscii then newCharClass 32 93 else newCharClass 0 2147483647) with
    | .ok c => .ok (.cls c)
    | .error e => .panic e
  | .quest r => wrapRep (newRxGen a r) 0 1
  | .star r => wrapRep (newRxGen a r) a.minUnbounded a.maxUnbounded
  | .plus r => wrapRep (newRxGen a r) 1 a.maxUnbounded
  | .repeat r mn mx =>
    wrapRep (newRxGen a r) (if mn = -1 then (a.minUnbounded : Int) else mn) (if mx = -1 then (a.maxUnbounded : Int) else mx)
  | .charClass rs =>
    match parseCharClass rs with
    | .ok c => .ok (.cls c)
    | .error e => .panic e
  | .concat rs =>
    match newRxGens a rs with
    | .ok gs => .ok (.cat gs)
    | .err e => .err e
    | .panic e => .panic e
  | .alternate rs =>
    match newRxGens a rs with
    | .ok gs => .ok (.alt gs)
    | .err e => .err e
    | .panic e => .panic e
  | .capture r => newRxGen a r
  | .beginLine | .endLine | .beginText | .endText | .wordBoundary | .noWordBoundary => .ok .empty
  | .other => .err "invalid generator pattern"
/-- `newGenerators` (internal/regen/internal_generator.go 71-84). -/
def newRxGens (a : RxArgs) : List Rx → Build (List RxGen)
  | [] => .ok []
  | r :: rs =>
    match newRxGen a r with
    | .ok g =>
      match newRxGens a rs with
      | .ok gs => .ok (g :: gs)
      | .err e => .err e
      | .panic e => .panic e
    | .err e => .err e
    | .panic e => .panic e
end

/-- `n` repetitions, concatenated (internal/regen/internal_generator.go 277-281). -/
def repeatM (m : M (List Char)) : Nat → M (List Char)
  | 0 => pure []
  | n + 1 => do
    let a ← m
    let b ← repeatM m n
    pure (a ++ b)

/-- The index drawn for a character class (internal/regen/internal_generator.go 244-253): classes of more than
100000 runes use an index between 32 and 124 instead. -/
def clsIndex (w : World) (total : Nat) (i : Int) : M Int :=
  if total > 100000 then do
    let j ← intnAmbient w 93
    pure (j + 32)
  else pure i

mutual
/-- `internalGenerator.Generate` for every kind of generator
(internal/regen/internal_generator.go 100-283, the `GenerateFunc` closures). -/
def rxGenerate (w : World) : RxGen → M (List Char)
  | .empty => pure []
  | .lit rs => pure (rs.map runeToChar)
  | .any true => do
    let k ← intnAmbient w 92
    pure [runeToChar (k.toNat + 32)]
  | .any false => do
    let k ← intnAmbient w 2147483648
    pure [runeToChar k.toNat]
  | .cls c => do
    let i ← intnAmbient w c.totalSize
    let j ← clsIndex w c.totalSize i
    match getRuneAt c.ranges j.toNat with
    | some r => pure [runeToChar r]
    | none => Comp.fail "index out of bounds"
  | .rep g mn mx => do
    let k ← intnAmbient w (mx - mn + 1)
    repeatM (rxGenerate w g) (mn + k).toNat
  | .cat gs => rxCat w gs
  | .alt gs => do
    let i ← intnAmbient w (goLen gs)
    rxNth w gs i.toNat
/-- Concatenation of all generated parts (internal/regen/internal_generator.go 177-183). -/
def rxCat (w : World) : List RxGen → M (List Char)
  | [] => pure []
  | g :: gs => do
    let a ← rxGenerate w g
    let b ← rxCat w gs
    pure (a ++ b)
/-- `generators[i].Generate()` (internal/regen/internal_generator.go 196-200). -/
def rxNth (w : World) : List RxGen → Nat → M (List Char)
  | [], _ => Comp.fail "index out of range"
  | g :: _, 0 => rxGenerate w g
  | _ :: gs, n + 1 => rxNth w gs n
end

/-- `strings.ReplaceAll` with a non-empty `old` (Go standard library): non-overlapping occurrences from the left.
`skip` counts the characters of the current occurrence still to be dropped. -/
def replaceAllGo (old new : List Char) : Nat → List Char → List Char
  | _, [] => []
  | skip + 1, _ :: cs => replaceAllGo old new skip cs
  | 0, c :: cs =>
    if old.isPrefixOf (c :: cs) then new ++ replaceAllGo old new (old.length - 1) cs
    else c :: replaceAllGo old new 0 cs

/-- `strings.ReplaceAll(s, old, new)`. -/
def replaceAll (s old new : List Char) : List Char := replaceAllGo old new 0 s

/-- `fullStringLiteral` (regex.go 9). -/
def fullStop : List Char := "[~{FULL_STOP_LITERAL}~]".toList

/-- The rewriting of the pattern in `newRegexGenerator` (regex.go 12-16). -/
def suppressDots (p : List Char) : List Char :=
  replaceAll (replaceAll (replaceAll p "\\.".toList fullStop) ".".toList "\\w".toList) fullStop "\\.".toList

/-- `newRegexGenerator` (regex.go 11-19) and `regen.NewGenerator` (internal/regen/regen.go 212-236).  `parse` stands
for `syntax.Parse` with the flags in the arguments followed by `Simplify`.  The flag check of `initialize` is part of
`parse`. -/
def newRegexGenerator (parse : List Char → Option Rx) (a : RxArgs) (pattern : List Char) : Build RxGen :=
  let pattern := if a.suppressRandomBytes then suppressDots pattern else pattern
  match a.initialize with
  | .error e => .panic e
  | .ok a =>
    match parse pattern with
    | none => .err "invalid regexp"
    | some r => newRxGen a r

end Chaff
