import Verif.Props.Options
import Verif.Props.Termination
import Verif.Props.Object
import Verif.Props.Array
import Verif.Props.Constraint
import Verif.Props.Number
import Verif.Props.Xorshift
import Verif.Props.Regen
import Verif.Props.Seed
import Verif.Props.NoPanic
import Verif.Props.SchemaJson
import Verif.Model.Parse
import Verif.Props.RefText
import Verif.Props.Parser
import Verif.Props.Truncate
import Verif.Props.Fetch
import Verif.Props.Not
import Verif.Props.Merge
import Verif.Props.Types
import Verif.Props.RefPath
import Verif.Props.Rewrite
import Verif.Props.Dispatch
import Verif.Props.Validators
import Verif.Model.Cli
import Verif.Props.Cli
import Verif.Model.Formats
import Verif.Spec.Formats
import Verif.Lemmas.Formats
import Verif.Props.Formats
import Verif.Spec.Valid
import Verif.Spec.Combine
import Verif.Lemmas.Quiet
import Verif.Lemmas.Compiled
import Verif.Lemmas.Compiles
import Verif.Props.Valid
import Verif.Lemmas.Decode
import Verif.Spec.NotAll
import Verif.Props.NotAll
import Verif.Spec.Tame
import Verif.Lemmas.Tame
import Verif.Lemmas.TameRun
import Verif.Lemmas.TameMerge
import Verif.Lemmas.TameNot
import Verif.Lemmas.TameParse
import Verif.Props.Parsed
import Verif.Lemmas.FuelMono
import Verif.Lemmas.Concurs
import Verif.Lemmas.NotCover
import Verif.Lemmas.Exclude
import Verif.Lemmas.Follow
import Verif.Lemmas.Region
import Verif.Props.ParseEnds
import Verif.Props.RefCombine
import Verif.Props.ValidPatterns
import Verif.Props.ValidListed
import Verif.Props.ValidChoice
import Verif.Props.ValidNot
import Verif.Props.ReachNot
import Verif.Props.ReachChoice
import Verif.Props.MergeTypes
import Verif.Props.NumberAccepted
import Verif.Props.NumberExclusive
import Verif.Props.NumberMultiples
import Verif.Props.NumberQuarters
import Verif.Props.NumberRange
import Verif.Props.ValidMultiples
import Verif.Props.ParsedConstraints
import Verif.Props.SchemaParts
import Verif.Model.Errors
import Verif.Spec.Report
import Verif.Props.Report
import Verif.Spec.Reach
import Verif.Lemmas.Reach
import Verif.Lemmas.ReachGen
import Verif.Lemmas.Registered
import Verif.Lemmas.ReachMain
import Verif.Props.Reach
import Verif.Spec.Keep
import Verif.Lemmas.NotKeep
import Verif.Props.Keep
import Verif.Model.Library
import Verif.Spec.Library
import Verif.Props.Library
import Verif.Spec.Ids
import Verif.Lemmas.Ids
import Verif.Props.Ids
import Verif.Props.Leads
import Verif.Spec.Drawn
import Verif.Lemmas.ReachRegex
import Verif.Props.Drawn
import Verif.Props.ValidMore
import Verif.Model.Calls
import Verif.Spec.Calls
import Verif.Props.Calls
import Verif.Props.SeedText
import Verif.Props.NoBase
import Verif.Props.ReachMore
import Verif.Props.ValidAny
import Verif.Props.ValidOneOf
import Verif.Spec.Limits
import Verif.Props.Limits
import Verif.Lemmas.Conjoin
import Verif.Lemmas.Gather
import Verif.Props.AllOf
