import Verif.Model.Parse
import Verif.Model.Cli
/-!
# Model of the exported parse functions with their options record

`ParserOptions` is passed by pointer: one record may be used for several calls, and `ParseSchemaFile` writes to it.
-/

namespace Chaff

/-- `ParserOptions` (parse.go 14-31). -/
structure LibOpts where
  rxString : Option RxArgs := none
  rxPattern : Option RxArgs := none
  http : HttpOpts := {}
  file : FileOpts := {}
  relativeTo : String := ""
  maxParseDepth : Int := 0

/-- The options after `withDefaultParseOptions` (parse.go 421-440), in the environment of the parser. -/
def libEnv (host : PEnv) (o : LibOpts) : PEnv :=
  let d := withParseDefaults { rxString := o.rxString, rxPattern := o.rxPattern, maxParseDepth := o.maxParseDepth }
  { host with httpOpts := o.http, fileOpts := o.file, relativeTo := o.relativeTo
              rxString := d.1, rxPattern := d.2.1, maxParseDepth := d.2.2 }

/-- `ParseSchema` and `ParseSchemaString` (parse.go 229-282), on decoded text. -/
def libParse (host : PEnv) (fuel : Nat) (schema : JVal) (o : LibOpts) : ParseOutcome × LibOpts :=
  (parseSchema (libEnv host o) fuel schema, o)

/-- `ParseSchemaFile` (parse.go 199-220).  The caller's record is returned as the call leaves it.  Reading and decoding
the file are one step: a file whose text is no JSON counts as unreadable, although the code then stores its path too. -/
def libParseFile (host : PEnv) (fuel : Nat) (path : String) (o : LibOpts) : ParseOutcome × LibOpts :=
  match host.fs.realPath path with
  | none => (.rejected "failed to resolve file path", o)
  | some p => match host.fs.read (pathText p) with
    | none => (.rejected "failed to read file", o)
    | some schema =>
      let o := if o.relativeTo = "" then { o with relativeTo := "file://" ++ pathText p } else o
      (parseSchema (libEnv host o) fuel schema, o)

/-- A call of the library: with an options record, or one of the functions that use a fresh empty record
(`ParseSchemaWithDefaults`, `ParseSchemaStringWithDefaults`, `ParseSchemaFileWithDefaults`; parse.go 222-236, 284-287). -/
inductive LibCall where
  | schema (v : JVal)
  | file (path : String)
  | schemaDefault (v : JVal)
  | fileDefault (path : String)

/-- One call, with the caller's record. -/
def libCall (host : PEnv) (fuel : Nat) : LibCall → LibOpts → ParseOutcome × LibOpts
  | .schema v, o => libParse host fuel v o
  | .file path, o => libParseFile host fuel path o
  | .schemaDefault v, o => ((libParse host fuel v {}).1, o)
  | .fileDefault path, o => ((libParseFile host fuel path {}).1, o)

/-- A sequence of calls with one record. -/
def libRun (host : PEnv) (fuel : Nat) : List LibCall → LibOpts → List ParseOutcome × LibOpts
  | [], o => ([], o)
  | k :: t, o =>
    let r := libCall host fuel k o
    let rest := libRun host fuel t r.2
    (r.1 :: rest.1, rest.2)

end Chaff
