import Verif.Model.Gen
/-!
# Model of several `Generate` calls

The options are passed by pointer and copied by each call (`withGeneratorOptionsDefaults(*opts)`), but the random source
in them is shared by the copies.
-/

namespace Chaff

/-- A call of `RootGenerator.Generate` (root.go 72-75): a parsed schema, given by its generator and its references, and an
options record.  `source` is the random source of a record without one, which is made by the call (generator.go 87-90);
`none` stands for the source that the caller uses for all such calls. -/
structure GenCall where
  o : Opts := {}
  env : String → String → Option Gen := fun _ _ => none
  g : Gen
  source : Option (Nat → Nat) := none

/-- How far the caller's random source and the global one have been used. -/
structure Used where
  seeded : Nat := 0
  ambient : Nat := 0

/-- One call, after others (root.go 72-75, generator.go 86-131): the options are filled in and copied, with an empty list
of references and no steps counted; the random sources continue. -/
def genCall (w : World) (fuel : Nat) (k : GenCall) (u : Used) : Res GSt JVal :=
  match k.source with
  | none => generate { w := w, o := withGeneratorOptionsDefaults k.o, env := k.env } fuel k.g
      { complexity := 0, refs := [], spos := u.seeded, apos := u.ambient }
  | some f => generate { w := { w with seeded := f }, o := withGeneratorOptionsDefaults k.o, env := k.env } fuel k.g
      { complexity := 0, refs := [], spos := 0, apos := u.ambient }

/-- What a call leaves of the random sources. -/
def usedAfter (k : GenCall) (u : Used) (s : GSt) : Used :=
  match k.source with
  | none => ⟨s.spos, s.apos⟩
  | some _ => ⟨u.seeded, s.apos⟩

/-- The outcomes of a sequence of calls; it ends with the first call that panics. -/
def genRun (w : World) (fuel : Nat) : List GenCall → Used → List (Res GSt JVal)
  | [], _ => []
  | k :: t, u => match genCall w fuel k u with
    | .ok v s => .ok v s :: genRun w fuel t (usedAfter k u s)
    | r => [r]

end Chaff
