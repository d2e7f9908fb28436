import Verif.Model.Rand
/-!
# Model of GeneratorOptions (generator.go)
-/

namespace Chaff

/-- The configuration part of `GeneratorOptions` (generator.go 16-84).  `Rand`, `ReferenceResolver` and
`overallComplexity` live in `World` and `GSt`. -/
structure Opts where
  defaultNumberMinimum : Int := 0
  defaultNumberMaximum : Int := 0
  defaultStringMinLength : Int := 0
  defaultStringMaxLength : Int := 0
  defaultArrayMinItems : Int := 0
  defaultArrayMaxItems : Int := 0
  defaultObjectMinProperties : Int := 0
  defaultObjectMaxProperties : Int := 0
  maximumReferenceDepth : Int := 0
  bypassCyclicReferenceCheck : Bool := false
  suppressFallbackValues : Bool := false
  maximumUniqueGeneratorAttempts : Int := 0
  maximumIfAttempts : Int := 0
  maximumOneOfAttempts : Int := 0
  maximumGenerationSteps : Int := 0
  cutoffGenerationSteps : Int := 0
deriving DecidableEq, Repr, Inhabited

/-- `withGeneratorOptionsDefaults` (generator.go 87-128). -/
def withGeneratorOptionsDefaults (o : Opts) : Opts where
  defaultNumberMinimum := getInt [o.defaultNumberMinimum, 0]
  defaultNumberMaximum := getInt [o.defaultNumberMaximum, 100]
  defaultStringMinLength := getInt [o.defaultStringMinLength, 0]
  defaultStringMaxLength := getInt [o.defaultStringMaxLength, 100]
  defaultArrayMinItems := getInt [o.defaultArrayMinItems, 0]
  defaultArrayMaxItems := getInt [o.defaultArrayMaxItems, 10]
  defaultObjectMinProperties := getInt [o.defaultObjectMinProperties, 0]
  defaultObjectMaxProperties := getInt [o.defaultObjectMaxProperties, 10]
  suppressFallbackValues := getBool o.suppressFallbackValues true
  bypassCyclicReferenceCheck := getBool o.bypassCyclicReferenceCheck false
  maximumReferenceDepth := getInt [o.maximumReferenceDepth, 10]
  maximumUniqueGeneratorAttempts := getInt [o.maximumUniqueGeneratorAttempts, 100]
  maximumIfAttempts := getInt [o.maximumIfAttempts, 100]
  maximumOneOfAttempts := getInt [o.maximumOneOfAttempts, 100]
  maximumGenerationSteps := getInt [o.maximumGenerationSteps, 100]
  cutoffGenerationSteps := getInt [o.cutoffGenerationSteps, 2000]

/-- `ShouldCutoff` (generator.go 130-132). -/
def shouldCutoff (o : Opts) (complexity : Int) : Bool :=
  decide (o.cutoffGenerationSteps > 0) && decide (complexity > o.cutoffGenerationSteps)

/-- `ShouldMinimize` (generator.go 134-136). -/
def shouldMinimize (o : Opts) (complexity : Int) : Bool :=
  decide (o.maximumGenerationSteps > 0) && decide (complexity > o.maximumGenerationSteps)

/-- `ScaledRetryBudget` (generator.go 144-172). -/
def scaledRetryBudget (F : FP) (o : Opts) (complexity : Int) (baseAttempts : Int) : Int :=
  if baseAttempts ≤ 0 then 1
  else if !shouldMinimize o complexity then baseAttempts
  else if shouldCutoff o complexity then 1
  else
    let remaining : Rat := F.rnd ((o.cutoffGenerationSteps - complexity : Int) : Rat)
    let window : Rat := F.rnd ((o.cutoffGenerationSteps - o.maximumGenerationSteps : Int) : Rat)
    if window ≤ 0 then 1
    else
      let ratio := F.div remaining window
      let scaled := fTrunc (F.mul ratio (F.rnd (baseAttempts : Rat)))
      if scaled < 1 then 1 else scaled

end Chaff
