import Verif.Model.Library
import Verif.Spec.Regex
/-!
# What the parser's options mean

The repetition limits of the regex options, said by rewriting the expression: `limited lo hi r` is `r` with every `*`
written as `{lo,hi}`, every `+` as `{1,hi}` and every open upper end as `hi`.
-/

namespace Chaff

mutual
/-- The expression with its unlimited repetitions limited. -/
def limited (lo hi : Nat) : Rx → Rx
  | .star r => .repeat (limited lo hi r) lo hi
  | .plus r => .repeat (limited lo hi r) 1 hi
  | .repeat r mn mx => .repeat (limited lo hi r) (if mn = -1 then (lo : Int) else mn) (if mx = -1 then (hi : Int) else mx)
  | .quest r => .quest (limited lo hi r)
  | .capture r => .capture (limited lo hi r)
  | .concat rs => .concat (limiteds lo hi rs)
  | .alternate rs => .alternate (limiteds lo hi rs)
  | .emptyMatch => .emptyMatch
  | .literal rs => .literal rs
  | .anyCharNotNL => .anyCharNotNL
  | .anyChar => .anyChar
  | .charClass rs => .charClass rs
  | .beginLine => .beginLine
  | .endLine => .endLine
  | .beginText => .beginText
  | .endText => .endText
  | .wordBoundary => .wordBoundary
  | .noWordBoundary => .noWordBoundary
  | .other => .other
/-- The same for a list of expressions. -/
def limiteds (lo hi : Nat) : List Rx → List Rx
  | [] => []
  | r :: rs => limited lo hi r :: limiteds lo hi rs
end

/-- The limits that regex options ask for: at most ten repetitions when no options are given, 4096 when they leave the
maximum open. -/
def repetitionLimits : Option RxArgs → Nat × Nat
  | none => (0, 10)
  | some a => (a.minUnbounded, if a.maxUnbounded = 0 then 4096 else a.maxUnbounded)

/-- Dots are replaced in patterns (`SuppressRandomBytes`), which is the default. -/
def dotsReplaced : Option RxArgs → Bool
  | none => true
  | some a => a.suppressRandomBytes

/-- The call reads a file. -/
def LibCall.reads : LibCall → Option String
  | .file path => some path
  | .fileDefault path => some path
  | _ => none

/-- What a call returns when it is given its own copy of the options, or no options. -/
def alone (host : PEnv) (fuel : Nat) (o : LibOpts) : LibCall → ParseOutcome
  | .schema v => (libParse host fuel v o).1
  | .file path => (libParseFile host fuel path o).1
  | .schemaDefault v => (libParse host fuel v {}).1
  | .fileDefault path => (libParseFile host fuel path {}).1

/-- The entries of a comma separated flag: none when the flag is empty. -/
def CommaList (flag : String) (entries : List String) : Prop :=
  (flag = "" → entries = []) ∧
  (flag ≠ "" → flag.toList = List.intercalate [','] (entries.map String.toList) ∧ ∀ x ∈ entries, ',' ∉ x.toList)

/-- The options a run of the command line tool asks for: the flags for fetching apply to a schema file. -/
structure AsksFor (f : CliFlags) (o : LibOpts) (g : Opts) : Prop where
  regexStrings : o.rxString = none
  regexNames : o.rxPattern = none
  depth : o.maxParseDepth = 0
  base : o.relativeTo = ""
  web : o.http.enabled = true ↔ f.file ≠ "" ∧ (f.allowedHosts ≠ "" ∨ f.allowInsecure = true)
  insecure : o.http.enabled = true → o.http.allowInsecure = f.allowInsecure
  hosts : o.http.enabled = true → CommaList f.allowedHosts o.http.allowedHosts
  files : o.file.enabled = true ↔ f.file ≠ "" ∧ (f.allowedPaths ≠ "" ∨ f.allowOutsideCwd = true)
  outside : o.file.enabled = true → o.file.allowOutsideCwd = f.allowOutsideCwd
  folders : o.file.enabled = true → CommaList f.allowedPaths o.file.allowedPaths
  references : g.maximumReferenceDepth = f.maximumReferenceDepth
  cycles : g.bypassCyclicReferenceCheck = f.bypassCyclicReferenceCheck
  ifAttempts : g.maximumIfAttempts = f.maximumIfAttempts
  oneOfAttempts : g.maximumOneOfAttempts = f.maximumOneOfAttempts
  steps : g.maximumGenerationSteps = f.maximumGenerationSteps
  cutoff : g.cutoffGenerationSteps = f.cutoffGenerationSteps
  /-- nothing else is set -/
  others : g.defaultNumberMinimum = 0 ∧ g.defaultNumberMaximum = 0 ∧ g.defaultStringMinLength = 0 ∧
    g.defaultStringMaxLength = 0 ∧ g.defaultArrayMinItems = 0 ∧ g.defaultArrayMaxItems = 0 ∧
    g.defaultObjectMinProperties = 0 ∧ g.defaultObjectMaxProperties = 0 ∧ g.suppressFallbackValues = false ∧
    g.maximumUniqueGeneratorAttempts = 0

end Chaff
