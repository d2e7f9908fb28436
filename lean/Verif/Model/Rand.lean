import Verif.Model.Float
import Verif.Model.Json
/-!
# Model of rand/random.go and of the random sources

`opts.Rand` is an arbitrary stream of naturals (`World.seeded`); everything that uses the process-wide
source or an unspecified order (faker, regen, funk.Shuffle, funk.Keys) reads a second stream
(`World.ambient`).
-/

namespace Chaff

/-- Everything outside the program that a generation run depends on. -/
structure World where
  /-- Draws of `opts.Rand`. -/
  seeded : Nat → Nat
  /-- Draws of the global random source and map iteration order. -/
  ambient : Nat → Nat
  /-- `faker.Sentence()` for a given draw. -/
  sentence : Nat → String
  /-- The faker/time based value for a string format and a given draw (string.go 141-162). -/
  fakerFormat : String → Nat → String
  /-- Floating point format. -/
  fp : FP
  /-- Float to int conversion out of range. -/
  plat : Platform

/-- Diagnostics and truncations: instrumentation of the model (no Go counterpart) recording that a
value is a placeholder rather than a schema-conforming value. -/
inductive Diag where
  | cutoff | unresolvable | maxDepth | cyclic | notUnique | oneOfFailed | constraintsFailed | ifFailed
deriving DecidableEq, Repr

/-- Mutable part of `GeneratorOptions` (generator.go 16-84): `overallComplexity` and
`ReferenceResolver.resolutions` (newest first), plus positions in the random streams and the
instrumentation. -/
structure GSt where
  complexity : Int := 0
  refs : List String := []
  spos : Nat := 0
  apos : Nat := 0
  diags : List Diag := []

/-- A generation step. -/
abbrev M (α : Type) : Type := Comp GSt α

/-- Next number of `opts.Rand`. -/
def drawSeeded (w : World) : M Nat := fun s => .ok (w.seeded s.spos) { s with spos := s.spos + 1 }

/-- Next number of the global source. -/
def drawAmbient (w : World) : M Nat := fun s => .ok (w.ambient s.apos) { s with apos := s.apos + 1 }

/-- `rand.Rand.Intn` (math/rand): panics unless `0 < n`, otherwise a value in `[0, n)`. -/
def intnWith (draw : M Nat) (n : Int) : M Int := do
  if n ≤ 0 then Comp.fail "invalid argument to Intn"
  else
    let x ← draw
    pure ((x : Int) % n)

/-- `opts.Rand.Rand.Intn`. -/
def intn (w : World) (n : Int) : M Int := intnWith (drawSeeded w) n

/-- `Intn` on the global source. -/
def intnAmbient (w : World) (n : Int) : M Int := intnWith (drawAmbient w) n

/-- `RandUtil.RandomInt` (rand/random.go 59-67). -/
def randomInt (w : World) (min max : Int) : M Int := do
  if min = max then pure min
  else
    let k ← intn w (max - min)
    pure (k + min)

/-- `rand.Rand.Float64` (math/rand): `k / 2^53` with `0 ≤ k < 2^53`. -/
def float64 (w : World) : M Rat := do
  let x ← drawSeeded w
  pure (((x % 2 ^ 53 : Nat) : Rat) / 2 ^ 53)

/-- `RandUtil.RandomFloat` (rand/random.go 70-72). -/
def randomFloat (w : World) (min max : Rat) : M Rat := do
  let u ← float64 w
  pure (w.fp.add (w.fp.mul u (w.fp.sub max min)) min)

/-- `RandUtil.RandomBool` (rand/random.go 75-77). -/
def randomBool (w : World) : M Bool := do
  let k ← intn w 2
  pure (k == 1)

/-- Slice indexing `l[i]`; panics when out of range. -/
def indexAt {α : Type} (l : List α) (i : Int) : M α :=
  if i < 0 then Comp.fail "index out of range"
  else match l[i.toNat]? with
    | some a => pure a
    | none => Comp.fail "index out of range"

/-- `RandUtil.Choice` / `RandUtil.StringChoice` (rand/random.go 37-44). -/
def choice {α : Type} (w : World) (l : List α) : M α := do
  let i ← intn w (goLen l)
  indexAt l i

/-- The loop of `rand.Perm` (math/rand): `m[i] = m[j]; m[j] = i` with `j = Intn(i+1)`, for
`i = m.length, ..., m.length + n - 1`. -/
def permLoop (draw : M Nat) : Nat → List Nat → M (List Nat)
  | 0, m => pure m
  | n + 1, m => do
    let j ← intnWith draw (goLen m + 1)
    let m' := match m[j.toNat]? with
      | some x => m.set j.toNat m.length ++ [x]
      | none => m ++ [m.length]
    permLoop draw n m'

/-- `rand.Perm(n)`. -/
def perm (draw : M Nat) (n : Nat) : M (List Nat) := permLoop draw n []

/-- `funk.Shuffle` (go-funk): the elements in the order given by the global `rand.Perm`. -/
def shuffleAmbient {α : Type} (w : World) (l : List α) : M (List α) := do
  let p ← perm (drawAmbient w) l.length
  pure (p.filterMap (fun i => l[i]?))

/-- `funk.Keys` on a map: all keys, in an unspecified order. -/
def funkKeys {β : Type} (w : World) (m : List (String × β)) : M (List String) :=
  shuffleAmbient w (keysKV m)

/-- `RandUtil.StringChoiceMultiple` (rand/random.go 46-51): a prefix of a shuffle; slicing past the end
or with a negative bound panics. -/
def stringChoiceMultiple (w : World) (l : List String) (n : Int) : M (List String) := do
  let c ← shuffleAmbient w l
  if n < 0 ∨ goLen c < n then Comp.fail "slice bounds out of range"
  else pure (c.take n.toNat)

/-- `NewRandUtilFromString` (rand/random.go 15-21): the seed as a 64-bit sum over (byte index, rune).
The byte offsets are the Go `range` indices. -/
def seedFromString (s : List Char) : Int :=
  wrap64 (go s 0 0)
where
  go : List Char → Nat → Int → Int
  | [], _, acc => acc
  | c :: cs, i, acc => go cs (i + c.utf8Size) (acc + (c.toNat : Int) * ((i : Int) + 1))

end Chaff
