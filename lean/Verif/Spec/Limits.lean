import Verif.Model.Options
/-!
# Limits that are raised

What C85 says about two option records: which of them allows more, and that neither limits a number of steps.
-/

namespace Chaff

/-- The second record differs from the first in limits only, and allows at least as many nested references and
attempts.  The numbers of steps are compared by `StepsAllowed`. -/
structure Raises (o o' : Opts) : Prop where
  references : o.maximumReferenceDepth ≤ o'.maximumReferenceDepth
  uniqueAttempts : o.maximumUniqueGeneratorAttempts ≤ o'.maximumUniqueGeneratorAttempts
  oneOfAttempts : o.maximumOneOfAttempts ≤ o'.maximumOneOfAttempts
  ifAttempts : o.maximumIfAttempts ≤ o'.maximumIfAttempts
  rest : { o with maximumReferenceDepth := 0, maximumUniqueGeneratorAttempts := 0, maximumOneOfAttempts := 0,
                  maximumIfAttempts := 0, maximumGenerationSteps := 0, cutoffGenerationSteps := 0 } =
    { o' with maximumReferenceDepth := 0, maximumUniqueGeneratorAttempts := 0, maximumOneOfAttempts := 0,
              maximumIfAttempts := 0, maximumGenerationSteps := 0, cutoffGenerationSteps := 0 }

/-- So many steps are within both limits of the record; a limit that is not positive is none. -/
structure StepsAllowed (o : Opts) (steps : Int) : Prop where
  maximum : o.maximumGenerationSteps ≤ 0 ∨ steps ≤ o.maximumGenerationSteps
  cutoff : o.cutoffGenerationSteps ≤ 0 ∨ steps ≤ o.cutoffGenerationSteps

end Chaff
