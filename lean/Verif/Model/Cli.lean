import Verif.Model.Parse
import Verif.Model.Errors
/-!
# Model of cli/cli.go

The command line tool: from flags and standard input to an exit code, the text on standard output, the files and
the accesses to other documents.  The help and version texts and the text of a generator tree are parameters.
-/

namespace Chaff

/-- The flags (cli/cli.go 23-48) with their defaults. -/
structure CliFlags where
  file : String := ""
  output : String := ""
  allowedHosts : String := ""
  allowInsecure : Bool := false
  allowOutsideCwd : Bool := false
  allowedPaths : String := ""
  bypassCyclicReferenceCheck : Bool := false
  maximumReferenceDepth : Int := 10
  maximumIfAttempts : Int := 100
  maximumOneOfAttempts : Int := 100
  maximumGenerationSteps : Int := 1000
  cutoffGenerationSteps : Int := 2000
  formatted : Bool := false
  showHelp : Bool := false
  showVersion : Bool := false
  verbose : Bool := false

/-- `strings.Split(s, ",")`. -/
def splitComma : List Char → List (List Char)
  | [] => [[]]
  | c :: t =>
    if c = ',' then [] :: splitComma t
    else match splitComma t with
      | [] => [[c]]
      | h :: r => (c :: h) :: r

/-- `parseCommaSeparatedList` (cli/cli.go 148-154); flag pointers are never nil. -/
def parseCommaSeparatedList (input : String) : List String :=
  if input = "" then [] else (splitComma input.toList).map String.ofList

/-- `getHttpDocumentFetcherOptionsFromFlags` (cli/cli.go 124-134). -/
def httpOptsOf (allowedHosts : String) (allowInsecure : Bool) : HttpOpts :=
  if allowedHosts = "" ∧ allowInsecure = false then {}
  else { enabled := true, allowedHosts := parseCommaSeparatedList allowedHosts, allowInsecure := allowInsecure }

/-- `getFileSystemDocumentFetcherOptionsFromFlags` (cli/cli.go 136-146). -/
def fileOptsOf (allowOutsideCwd : Bool) (allowedPaths : String) : FileOpts :=
  if allowOutsideCwd = false ∧ allowedPaths = "" then {}
  else { enabled := true, allowOutsideCwd := allowOutsideCwd, allowedPaths := parseCommaSeparatedList allowedPaths }

/-- `ParseSchemaFile` (parse.go 199-220) called with options that leave `RelativeTo` empty.  Reading and decoding the
file are one step; the options in `c` are those passed. -/
def parseSchemaFile (c : PEnv) (fuel : Nat) (path : String) : ParseOutcome :=
  match c.fs.realPath path with
  | none => .rejected "failed to resolve file path"
  | some p => match c.fs.read (pathText p) with
    | none => .rejected "failed to read file"
    | some schema => parseSchema { c with relativeTo := "file://" ++ pathText p } fuel schema

/-- `ParseSchemaWithDefaults` (parse.go 285-287): no fetcher is enabled. -/
def parseSchemaWithDefaults (c : PEnv) (fuel : Nat) (schema : JVal) : ParseOutcome :=
  parseSchema { c with httpOpts := {}, fileOpts := {}, relativeTo := "" } fuel schema

/-- The parser as the tool calls it (cli/cli.go 64-81): `none` when no schema is given.  Standard input is `none` when
it is a terminal, otherwise the decoded text. -/
def cliParse (c : PEnv) (fuel : Nat) (f : CliFlags) (stdin : Option JVal) : Option ParseOutcome :=
  if f.file ≠ "" then
    some (parseSchemaFile { c with httpOpts := httpOptsOf f.allowedHosts f.allowInsecure,
                                   fileOpts := fileOptsOf f.allowOutsideCwd f.allowedPaths } fuel f.file)
  else match stdin with
    | some schema => some (parseSchemaWithDefaults c fuel schema)
    | none => none

/-- The generator options (cli/cli.go 95-102). -/
def cliOpts (f : CliFlags) : Opts :=
  { bypassCyclicReferenceCheck := f.bypassCyclicReferenceCheck
    maximumReferenceDepth := f.maximumReferenceDepth
    maximumIfAttempts := f.maximumIfAttempts
    maximumOneOfAttempts := f.maximumOneOfAttempts
    maximumGenerationSteps := f.maximumGenerationSteps
    cutoffGenerationSteps := f.cutoffGenerationSteps }

/-! ## Writing the result -/

/-- The files, by path.  Paths are taken literally: links between them are not modelled. -/
abbrev Disk : Type := String → Option String

/-- The disk with one file replaced. -/
def Disk.set (d : Disk) (path : String) (content : String) : Disk := fun q => if q = path then some content else d q

/-- What the operating system does while the result is written: which calls fail, how much of the data a failing
`Write` gets through, and what other processes do to the files before the n-th call. -/
structure Os where
  statFails : Bool := false
  createFails : Bool := false
  writeStops : Option Nat := none
  closeFails : Bool := false
  others : Nat → Disk → Disk := fun _ d => d

/-- `file.Write` at offset 0 of a file with this content. -/
def overwrite (old new : List Char) : List Char := new ++ old.drop new.length

/-- `writeFile` (cli/cli.go 156-171): exit code and files afterwards; code 0 means that the function returned. -/
def writeFile (os : Os) (data path : String) (d : Disk) : Nat × Disk :=
  let d := os.others 0 d
  if os.statFails ∨ (d path).isSome then (1, d)
  else
    let d := os.others 1 d
    if os.createFails then (1, d)
    else
      let d := os.others 2 (d.set path "")
      match os.writeStops with
      | some n =>
        (1, d.set path (String.ofList (overwrite ((d path).getD "").toList (data.toList.take n))))
      | none =>
        let d := os.others 3 (d.set path (String.ofList (overwrite ((d path).getD "").toList data.toList)))
        if os.closeFails then (1, d) else (0, d)

/-! ## The program -/

/-- The texts that the tool prints besides the result: the lines of `-help` and `-version` (cli/cli.go 51, 57) and the
text of a generator tree (`String()` of the root generator, cli/cli.go 84). -/
structure CliTexts where
  help : String := ""
  version : String := ""
  tree : Gen → String := fun _ => ""

/-- The line printed for one error (cli/cli.go 91). -/
def errorLine (entry : String × Err) : String := " - [" ++ entry.1 ++ "] " ++ entry.2 ++ " \n"

/-- What `-verbose` prints (cli/cli.go 83-93). -/
def verboseText (texts : CliTexts) (f : CliFlags) (g : Gen) (s : PSt) : String :=
  if f.verbose then
    "Schema compiled successfully to the following generator tree: " ++ texts.tree g ++ "\n" ++
      (if (errMapOf s.errors).hasErrors then "Passed schema failed to fully compile with the following errors:\n" else "") ++
      String.join ((errMapOf s.errors).collect.map errorLine)
  else ""

/-- How a run ends. -/
structure CliEnd where
  code : Nat
  stdout : String := ""
  disk : Disk
  fetches : List Fetch := []

/-- `main` (cli/cli.go 22-122).  `marshal` is `json.Marshal` or `json.MarshalIndent`, depending on its first argument.
A panic ends a Go program with code 2.  `none` means that the run was not finished with the given fuel. -/
def cliMain (c : PEnv) (w : World) (os : Os) (texts : CliTexts) (marshal : Bool → JVal → Option String) (fuel : Nat)
    (f : CliFlags) (stdin : Option JVal) (d : Disk) : Option CliEnd :=
  if f.showHelp then some { code := 0, stdout := texts.help, disk := d }
  else if f.showVersion then some { code := 0, stdout := texts.version, disk := d }
  else match cliParse c fuel f stdin with
    | none => some { code := 1, disk := d }
    | some (.rejected _) => some { code := 1, disk := d }
    | some (.done .oom) => none
    | some (.done (.panic _)) => some { code := 2, disk := d }
    | some (.done (.ok (_, some _) s)) => some { code := 1, disk := d, fetches := s.fetches }
    | some (.done (.ok (g, none) s)) =>
      let said := verboseText texts f g s
      match rootGenerate w (cliOpts f) (refEnv s) fuel g with
      | .oom => none
      | .panic _ => some { code := 2, stdout := said, disk := d, fetches := s.fetches }
      | .ok v _ =>
        match marshal f.formatted v with
        | none => some { code := 1, stdout := said, disk := d, fetches := s.fetches }
        | some res =>
          if f.output ≠ "" then
            let r := writeFile os res f.output d
            some { code := r.1, stdout := said, disk := r.2, fetches := s.fetches }
          else some { code := 0, stdout := said ++ res, disk := d, fetches := s.fetches }

end Chaff
