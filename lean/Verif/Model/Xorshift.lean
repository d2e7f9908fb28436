/-!
# Model of internal/regen/rng.go

`xorShift64Source` is a `uint64`, modelled as a 64-bit vector.
-/

namespace Chaff

/-- The zero check of `xorShift64Source.Int63` (internal/regen/rng.go 39-41). -/
def xsFix (x : BitVec 64) : BitVec 64 := if x = 0 then 1 else x

/-- The three updates of `xorShift64Source.Int63` (internal/regen/rng.go 43-45). -/
def xsMix (x0 : BitVec 64) : BitVec 64 :=
  let x1 := x0 ^^^ (x0 >>> 12)
  let x2 := x1 ^^^ (x1 <<< 25)
  x2 ^^^ (x2 >>> 27)

/-- The state left by one call of `xorShift64Source.Int63` (internal/regen/rng.go 37-45). -/
def xsStep (x : BitVec 64) : BitVec 64 := xsMix (xsFix x)

/-- The value returned by `xorShift64Source.Int63` for the updated state (internal/regen/rng.go 47): the product
with the multiplier, shifted right by one and converted to `int64`. -/
def xsOut (x : BitVec 64) : Int := ((x * 2685821657736338717#64) >>> 1).toInt

/-- The state after `Seed` (internal/regen/rng.go 33-35) and `n` calls of `Int63`. -/
def xsState (seed : BitVec 64) : Nat → BitVec 64
  | 0 => seed
  | n + 1 => xsStep (xsState seed n)

/-- The value returned by call number `n` (from 0) of `Int63` on a source with the given seed. -/
def xsInt63 (seed : BitVec 64) (n : Nat) : Int := xsOut (xsState seed (n + 1))

end Chaff
