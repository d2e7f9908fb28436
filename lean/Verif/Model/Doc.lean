import Verif.Model.SchemaJson
import Verif.Model.Gen
/-!
# Model of the parser state, document.go, fetchers.go, error.go, walk.go and the reference handler

External code is a parameter of the model (`PEnv`): URL parsing and resolution, the file system, HTTP, the
regexp compiler and matcher, and the jsonschema validator.  Error values carry a short tag instead of the
full message.
-/

namespace Chaff

/-- A Go `error`. -/
abbrev Err := String

/-- `net/url.URL` as far as the code looks at it; `rest` stands for the remaining components. -/
structure Url where
  scheme : String
  host : String
  rest : String
deriving DecidableEq, Repr

/-- `net/url`: `url.Parse`, `URL.ResolveReference`, `URL.String`. -/
structure UrlSys where
  parse : String → Option Url
  resolve : Url → Url → Url
  str : Url → String

/-- Files.  Paths are lists of components; `realPath` is `getRealPath` (fetchers.go 224-236: `filepath.Abs`
followed by `filepath.EvalSymlinks`), `read` is `os.ReadFile` followed by JSON decoding into a tree, `cwd` is
`os.Getwd`. -/
structure FileSys where
  cwd : Option (List String)
  realPath : String → Option (List String)
  read : String → Option JVal

/-- `HTTPFetchOptions` (parse.go 44-53). -/
structure HttpOpts where
  enabled : Bool := false
  allowedHosts : List String := []
  allowInsecure : Bool := false

/-- `FileSystemFetchOptions` (parse.go 56-69). -/
structure FileOpts where
  enabled : Bool := false
  allowedPaths : List String := []
  allowOutsideCwd : Bool := false

/-- What the parser is given: options after `withDefaultParseOptions` and the outside world.
`httpGet` is `http.Get`, a status check and JSON decoding into a tree; `redirects` lists the further URLs that
`http.Get` contacts because of redirects.  `rxParse` is `syntax.Parse` with the configured flags, `rxCompile`
is `regexp.Compile` and yields `MatchString`; `formats` is `jsonschema.FormatValidators`.  `compile` is
`Compiler.Compile` given the resources added so far; `rootResourceOk` tells whether adding the root document
to the compiler succeeds. -/
structure PEnv where
  url : UrlSys
  fs : FileSys
  httpGet : String → Option JVal
  redirects : String → List String
  rxParse : List Char → Option Rx
  rxCompile : String → Option (String → Bool)
  formats : String → Option (JVal → Bool)
  compile : List (String × JVal) → String → Option (JVal → Bool)
  rootResourceOk : String → Bool
  fp : FP
  plat : Platform
  httpOpts : HttpOpts
  fileOpts : FileOpts
  relativeTo : String
  maxParseDepth : Int
  rxString : RxArgs
  rxPattern : RxArgs

/-- Actions on the outside world, in a log (model instrumentation only). -/
inductive Fetch where
  | http (url : String)
  | file (path : String)
deriving DecidableEq, Repr

/-- State shared by `parserMetadata`, `referenceHandler`, `errorCollection`, `documentResolver` and
`schemaManager` (parse.go 72-94, reference_hander.go 21-26, error.go 8-12, document.go 18-33, schema.go
13-16).  Lists are newest first; a lookup finds the newest entry, which is how a Go map behaves after
overwriting.  `resources` only gets keys that are not there yet, as `AddResource` does.  The schema node stored
with a reference is never read and is left out.  `parsedDocs` and `fetches` are instrumentation: the documents
handed to `parseRoot` by `ParseNextDocument`, and every access to the outside. -/
structure PSt where
  path : String := "#"
  depth : Int := 0
  resolutions : List String := []
  refs : List ((String × String) × Gen) := []
  errors : List ((String × String) × Err) := []
  docs : List (String × SchemaNode) := []
  queue : List String := []
  parsingId : String := ""
  resolvingId : String := ""
  parsed : List (String × Bool) := []
  aliases : List (String × (String × String)) := []
  resources : List (String × JVal) := []
  httpFetcher : Option HttpOpts := none
  fileFetcher : Option (List (List String) × Bool) := none
  parsedDocs : List String := []
  fetches : List Fetch := []

/-- A parser computation. -/
abbrev P (α : Type) : Type := Comp PSt α

/-- Read a component of the state. -/
def gets {α : Type} (f : PSt → α) : P α := fun s => .ok (f s) s

/-! ## errors, path and reference stack -/

/-- `AddErrorWithSubpath` (error.go 26-34). -/
def addErrorSub (sub : String) (e : Err) : P Unit :=
  Comp.modS (fun s => { s with errors := ((s.parsingId, s.path ++ sub), e) :: s.errors })

/-- `AddError` (error.go 36-38). -/
def addError (e : Err) : P Unit := addErrorSub "" e

/-- `warnConfigMergeError` (merge.go 378-380). -/
def warnMerge (field : String) (e : Err) : P Unit :=
  addErrorSub "/config_merge_error" s!"error merging field {field}: {e}"

/-- `PushToPath` (reference_hander.go 77-79). -/
def pushPath (part : String) : P Unit := Comp.modS (fun s => { s with path := s.path ++ part })

/-- `PopFromPath` (reference_hander.go 81-83): slicing with a negative bound panics. -/
def popPath (part : String) : P Unit := fun s =>
  if part.length ≤ s.path.length then
    .ok () { s with path := String.ofList (s.path.toList.take (s.path.length - part.length)) }
  else .panic "slice bounds out of range"

/-- The key of a resolution (reference_hander.go 114). -/
def resKey (document reference : String) : String := document ++ "|" ++ reference

/-- `PushRefResolution` (reference_hander.go 113-115). -/
def pushRes (document reference : String) : P Unit :=
  Comp.modS (fun s => { s with resolutions := resKey document reference :: s.resolutions })

/-- `PopRefResolution` (reference_hander.go 117-119). -/
def popRes : P Unit := fun s =>
  match s.resolutions with
  | [] => .panic "slice bounds out of range"
  | _ :: t => .ok () { s with resolutions := t }

/-- `strings.SplitN(res, "|", 2)` when the separator occurs. -/
def splitBar : List Char → List Char × List Char
  | [] => ([], [])
  | c :: t => if c = '|' then ([], t) else ((c :: (splitBar t).1), (splitBar t).2)

/-- `GetCurrentResolution` (reference_hander.go 122-129): the keys always contain a `|`. -/
def currentResolution (resolutions : List String) : String × String :=
  match resolutions with
  | [] => ("", "")
  | r :: _ => (String.ofList (splitBar r.toList).1, String.ofList (splitBar r.toList).2)

/-- `HasResolved` (reference_hander.go 131-133). -/
def hasRes (document reference : String) : P Bool := gets (fun s => decide (resKey document reference ∈ s.resolutions))

/-- `AddIdReference` (reference_hander.go 89-101): references belong to the document being parsed. -/
def addIdReference (path : String) (g : Gen) : P Unit :=
  Comp.modS (fun s => { s with refs := ((s.parsingId, path), g) :: s.refs })

/-- `AddReference` (reference_hander.go 85-87). -/
def addReference (g : Gen) : P Unit :=
  Comp.modS (fun s => { s with refs := ((s.parsingId, s.path), g) :: s.refs })

/-- Newest entry under a key. -/
def lookupRef {α : Type} (l : List ((String × String) × α)) (doc path : String) : Option α :=
  match l with
  | [] => none
  | (k, v) :: t => if k = (doc, path) then some v else lookupRef t doc path

/-- `Lookup` (reference_hander.go 108-111) for the finished parse: the table used by `referenceGenerator`. -/
def refEnv (s : PSt) (doc path : String) : Option Gen := lookupRef s.refs doc path

/-! ## reference text -/

/-- Text before the first `#`, and the rest starting with it. -/
def splitHash : List Char → List Char × List Char
  | [] => ([], [])
  | c :: t => if c = '#' then ([], c :: t) else ((c :: (splitHash t).1), (splitHash t).2)

/-- `util.RegexMatchNamedCaptureGroups(documentRegex, ref)` (document.go 53, internal/util/util.go 297-307): the
groups `document` and `path`.  `.` does not match a newline, and a failed match indexes a nil slice. -/
def matchDocumentRegex (ref : String) : P (String × String) :=
  let p := splitHash ref.toList
  if '\n' ∈ p.2 then Comp.fail "index out of range" else pure (String.ofList p.1, String.ofList p.2)

/-- The path group with its default (document.go 142-144). -/
def orRoot (path : String) : String := if path = "" then "#" else path

/-- `GetCurrentScope` (document.go 126-132). -/
def currentScope : P String := gets (fun s => if s.resolvingId ≠ "" then s.resolvingId else s.parsingId)

/-- `SetDocumentBeingResolved` (document.go 232-234). -/
def setResolving (doc : String) : P Unit := Comp.modS (fun s => { s with resolvingId := doc })

/-! ## fetchers.go -/

/-- `httpDocumentFetcher.resolveDocumentId` (fetchers.go 58-88). -/
def httpResolveId (u : UrlSys) (f : HttpOpts) (relativeTo ref : String) : Except Err String :=
  match u.parse ref with
  | none => .error "invalid URL"
  | some parsedUrl =>
    match u.parse relativeTo with
    | none => .error "invalid base URL"
    | some baseUrl =>
      let resolvedUrl :=
        if baseUrl.scheme = "http" ∨ baseUrl.scheme = "https" then u.resolve baseUrl parsedUrl else parsedUrl
      if ¬ f.allowInsecure ∧ resolvedUrl.scheme ≠ "https" then .error "insecure URL scheme"
      else if 0 < f.allowedHosts.length ∧ resolvedUrl.host ∉ f.allowedHosts then .error "host not allowed"
      else .ok (u.str resolvedUrl)

/-- `filepath.Rel(base, target)` on absolute clean paths: go up to the common ancestor, then down. -/
def relPath : List String → List String → List String
  | [], target => target
  | b :: bs, [] => List.replicate (b :: bs).length ".."
  | b :: bs, t :: ts => if b = t then relPath bs ts else List.replicate (b :: bs).length ".." ++ (t :: ts)

/-- Does a component contain two consecutive dots (`strings.Contains(diff, "..")`; the separators of the joined
path are not dots)? -/
def hasDotDot : List Char → Bool
  | '.' :: '.' :: _ => true
  | _ :: t => hasDotDot t
  | [] => false

/-- `isOutsideOfCwd` (fetchers.go 199-207). -/
def isOutsideOfCwd (cwd path : List String) : Bool := (relPath cwd path).any (fun c => hasDotDot c.toList)

/-- `filepath.Match(filepath.Join(allowedPath, "*"), path)` for an allowed path without glob characters: the
path has exactly one component more. -/
def globChild (allowed path : List String) : Bool :=
  decide (path.length = allowed.length + 1) && decide (path.take allowed.length = allowed)

/-- `isOutsideOfAllowedPaths` (fetchers.go 209-222). -/
def isOutsideOfAllowedPaths (path : List String) : List (List String) → Bool
  | [] => true
  | a :: t => if ¬ globChild a path then false else isOutsideOfAllowedPaths path t

/-- `strings.TrimPrefix(s, "file://")`. -/
def trimFile (s : String) : String :=
  if "file://".toList.isPrefixOf s.toList then String.ofList (s.toList.drop 7) else s

/-- Text up to the last `/`, included (empty when there is none). -/
def dirPrefix : List Char → List Char
  | [] => []
  | c :: t => if '/' ∈ (c :: t) then c :: dirPrefix t else []

/-- `filepath.Join(filepath.Dir(base), path)`, not cleaned: `getRealPath` cleans its argument. -/
def joinDir (base path : String) : String := String.ofList (dirPrefix base.toList) ++ path

/-- A path as text. -/
def pathText (p : List String) : String :=
  if p = [] then "/" else p.foldl (fun acc c => acc ++ "/" ++ c) ""

/-- `fileSystemDocumentFetcher.resolveDocumentId` (fetchers.go 135-182).  `filepath.IsAbs` on Unix: a leading
`/`. -/
def fileResolveId (u : UrlSys) (fs : FileSys) (f : List (List String) × Bool) (relativeTo ref : String) :
    Except Err String :=
  match u.parse ref with
  | none => .error "invalid file URL"
  | some parsedUrl =>
    if parsedUrl.scheme ≠ "file" ∧ parsedUrl.scheme ≠ "" then .error "invalid file URL scheme"
    else
      let filePath := trimFile ref
      let filePath := if filePath.toList.head? = some '/' then filePath else joinDir (trimFile relativeTo) filePath
      match fs.realPath filePath with
      | none => .error "failed to resolve file path"
      | some resolvedPath =>
        let cwdCheck : Except Err Bool :=
          if f.2 then .ok false
          else match fs.cwd with
            | none => .error "failed to get current working directory"
            | some cwd => .ok (isOutsideOfCwd cwd resolvedPath)
        match cwdCheck with
        | .error e => .error e
        | .ok true => .error "outside of current working directory"
        | .ok false =>
          if isOutsideOfAllowedPaths resolvedPath f.1 then .error "path is not allowed"
          else .ok ("file://" ++ pathText resolvedPath)

/-- Which fetcher handles a document. -/
inductive FetcherKind where
  | http | file
deriving DecidableEq

/-- `HasNoFetchers` (document.go 134-136). -/
def hasNoFetchers (s : PSt) : Bool := s.httpFetcher.isNone && s.fileFetcher.isNone

/-- The registered fetcher of a scheme (document.go 59-75, 539-542). -/
def fetcherForScheme (s : PSt) (scheme : String) : Except Err FetcherKind :=
  if (scheme = "http" ∨ scheme = "https") ∧ s.httpFetcher.isSome then .ok .http
  else if scheme = "file" ∧ s.fileFetcher.isSome then .ok .file
  else .error "no document fetcher registered for protocol"

/-- `getFetcherForRef` (document.go 521-545).  The second parse is the method `URL.Parse` on a URL without a
scheme, so its scheme is that of the document being parsed. -/
def getFetcherForRef (u : UrlSys) (s : PSt) (documentId : String) : Except Err FetcherKind :=
  match u.parse documentId with
  | none => .error "failed to parse document URL"
  | some url =>
    if url.scheme = "" then
      match u.parse s.parsingId with
      | none => .error "failed to parse base document URL"
      | some base => if base.scheme = "" then .error "no scheme" else fetcherForScheme s base.scheme
    else fetcherForScheme s url.scheme

/-- The method `resolveDocumentId` of the chosen fetcher. -/
def fetcherResolveId (c : PEnv) (s : PSt) (k : FetcherKind) (relativeTo ref : String) : Except Err String :=
  match k with
  | .http => match s.httpFetcher with
    | some f => httpResolveId c.url f relativeTo ref
    | none => .error "nil fetcher"
  | .file => match s.fileFetcher with
    | some f => fileResolveId c.url c.fs f relativeTo ref
    | none => .error "nil fetcher"

/-- `httpDocumentFetcher.fetchDocument` (fetchers.go 90-113) and `fileSystemDocumentFetcher.fetchDocument`
(fetchers.go 184-197). -/
def fetchDocument (c : PEnv) (k : FetcherKind) (id : String) : P (Except Err SchemaNode) := fun s =>
  match k with
  | .http =>
    let s := { s with fetches := (c.redirects id).map .http ++ .http id :: s.fetches }
    match c.httpGet id with
    | none => .ok (.error "failed to fetch URL") s
    | some v => match decodeNode v with
      | none => .ok (.error "failed to parse Schema json from URL") s
      | some n => .ok (.ok n) s
  | .file =>
    let s := { s with fetches := .file (trimFile id) :: s.fetches }
    match c.fs.read (trimFile id) with
    | none => .ok (.error "failed to read file") s
    | some v => match decodeNode v with
      | none => .ok (.error "failed to parse Schema json from file") s
      | some n => .ok (.ok n) s

/-! ## document.go -/

/-- `resolveRelativeURI` (document.go 403-413). -/
def resolveRelativeURI (u : UrlSys) (base rel : String) : String :=
  match u.parse base, u.parse rel with
  | some b, some r => u.str (u.resolve b r)
  | _, _ => ""

/-- `isAbsoluteURI` (document.go 416-419). -/
def isAbsoluteURI (u : UrlSys) (s : String) : Bool :=
  match u.parse s with
  | some x => decide (x.scheme ≠ "")
  | none => false

/-- Text before the last `/`; `none` when there is none (`strings.LastIndex`). -/
def beforeLastSlash (p : List Char) : Option (List Char) :=
  if '/' ∈ p then some ((p.reverse.dropWhile (fun c => c ≠ '/')).drop 1).reverse else none

/-- `nearestBaseURI` (document.go 387-399).  The first argument bounds the loop; the length of the path plus
one suffices because each step shortens it. -/
def nearestBaseURI (baseAtPath : List (String × String)) : Nat → String → String
  | 0, _ => (lookupKV baseAtPath "").getD ""
  | n + 1, p =>
    match lookupKV baseAtPath p with
    | some base => base
    | none =>
      match beforeLastSlash p.toList with
      | none => (lookupKV baseAtPath "").getD ""
      | some q => nearestBaseURI baseAtPath n (String.ofList q)

/-- State of the visitor in `collectSubSchemaIds`: `baseAtPath` and `result`. -/
structure IdWalk where
  bases : List (String × String)
  found : List (String × (String × String))

/-- The visitor of `collectSubSchemaIds` (document.go 359-380). -/
def visitId (u : UrlSys) (documentId : String) (n : List (String × JVal)) (path : String) (w : IdWalk) : IdWalk :=
  match lookupKV n "$id" with
  | some (.str idStr) =>
    if idStr = "" then w
    else
      let resolved := resolveRelativeURI u (nearestBaseURI w.bases (path.length + 1) path) idStr
      if resolved = "" then w
      else
        let w := { w with bases := insertKV w.bases path resolved }
        if path = "" then w
        else if (lookupKV w.found resolved).isSome then w
        else { w with found := insertKV w.found resolved (documentId, "#" ++ path) }
  | _ => w

mutual
/-- `walkSchema` (walk.go 8-32) with the visitor above: parents before children; values of an object are
objects, or arrays whose items are objects. -/
def walkIds (u : UrlSys) (documentId : String) : JVal → String → IdWalk → IdWalk
  | .obj m, path, w => walkIdFields u documentId m path (visitId u documentId m path w)
  | .null, _, w => w
  | .bool _, _, w => w
  | .num _, _, w => w
  | .str _, _, w => w
  | .arr _, _, w => w
termination_by structural v => v
/-- The loop over the members (walk.go 11-31). -/
def walkIdFields (u : UrlSys) (documentId : String) : List (String × JVal) → String → IdWalk → IdWalk
  | [], _, w => w
  | p :: t, path, w => walkIdFields u documentId t path (walkIdField u documentId p path w)
termination_by structural l => l
/-- One member. -/
def walkIdField (u : UrlSys) (documentId : String) : String × JVal → String → IdWalk → IdWalk
  | (k, v), path, w => walkIdMember u documentId v (path ++ "/" ++ k) w
termination_by structural p => p
/-- The value of a member: an object is visited, the objects directly inside an array are visited. -/
def walkIdMember (u : UrlSys) (documentId : String) : JVal → String → IdWalk → IdWalk
  | .obj m, path, w => walkIdFields u documentId m path (visitId u documentId m path w)
  | .arr l, path, w => walkIdItems u documentId l path 0 w
  | .null, _, w => w
  | .bool _, _, w => w
  | .num _, _, w => w
  | .str _, _, w => w
termination_by structural v => v
/-- The loop over the items of an array. -/
def walkIdItems (u : UrlSys) (documentId : String) : List JVal → String → Nat → IdWalk → IdWalk
  | [], _, _, w => w
  | v :: t, path, i, w =>
    walkIdItems u documentId t path (i + 1) (walkIds u documentId v (path ++ s!"/{(i : Nat)}") w)
termination_by structural l => l
end

/-- `collectSubSchemaIds` (document.go 346-383). -/
def collectSubSchemaIds (u : UrlSys) (baseURI documentId : String) (node : SchemaNode) :
    List (String × (String × String)) :=
  (walkIds u documentId (encodeNode node) "" { bases := [("", baseURI)], found := [] }).found

/-- The base URI of a document (document.go 108-111, 332-335). -/
def baseURIOf (u : UrlSys) (id : String) (node : SchemaNode) : String :=
  match node.id with
  | some i => if isAbsoluteURI u i then i else id
  | none => id

/-- Adding aliases that are not there yet (document.go 336-340). -/
def addAliases (old new : List (String × (String × String))) : List (String × (String × String)) :=
  new.foldl (fun acc p => if (lookupKV acc p.1).isSome then acc else acc ++ [p]) old

/-- `addDocument` (document.go 319-341). -/
def addDocument (c : PEnv) (id : String) (node : SchemaNode) : P Unit := Comp.modS (fun s =>
  if (lookupKV s.docs id).isSome then s
  else { s with
    docs := (id, node) :: s.docs
    parsed := (id, false) :: s.parsed
    aliases := addAliases s.aliases (collectSubSchemaIds c.url (baseURIOf c.url id node) id node) })

/-- `composeJsonPointerPaths` (document.go 513-519). -/
def composePaths (aliasPath refPath : String) : String :=
  if refPath = "#" ∨ refPath = "" then aliasPath else aliasPath ++ String.ofList (refPath.toList.drop 1)

/-- `resolveDocumentRef` (document.go 482-508). -/
def resolveDocumentRef (c : PEnv) (documentID refPath : String) : P (Except Err (String × String)) := fun s =>
  let scope := if s.resolvingId ≠ "" then s.resolvingId else s.parsingId
  let resolved := resolveRelativeURI c.url scope documentID
  match (if resolved ≠ "" then lookupKV s.aliases resolved else none) with
  | some a => .ok (.ok (a.1, composePaths a.2 refPath)) s
  | none =>
    if hasNoFetchers s then .ok (.ok (scope, refPath)) s
    else match getFetcherForRef c.url s documentID with
      | .error e => .ok (.error e) s
      | .ok k => match fetcherResolveId c s k scope documentID with
        | .error e => .ok (.error e) s
        | .ok id => .ok (.ok (id, refPath)) s

/-- `ResolveDocumentIdAndPath` (document.go 138-152). -/
def resolveIdAndPath (c : PEnv) (ref : String) : P (Except Err (String × String)) := do
  let m ← matchDocumentRegex ref
  if m.1 = "" then
    let scope ← currentScope
    pure (.ok (scope, orRoot m.2))
  else resolveDocumentRef c m.1 (orRoot m.2)

/-- Queueing a document (document.go 255-257): `pathWouldRequireNewDocumentParsed` is 262-270. -/
def queueDocument (doc : String) : P Unit := Comp.modS (fun s =>
  if doc ∉ s.queue ∧ (lookupKV s.parsed doc).getD false = false then { s with queue := s.queue ++ [doc] } else s)

/-- `HandleDeferredReferenceResolution` (document.go 236-260). -/
def handleDeferred (c : PEnv) (ref : String) : P (Except Err (String × String)) := do
  let m ← matchDocumentRegex ref
  if m.1 = "" then
    let scope ← currentScope
    pure (.ok (scope, orRoot m.2))
  else do
    let r ← resolveDocumentRef c m.1 (orRoot m.2)
    match r with
    | .error e => pure (.error e)
    | .ok p => do
      queueDocument p.1
      pure (.ok p)

/-- `resolveDocument` (document.go 454-476). -/
def resolveDocument (c : PEnv) (ref : String) : P (Except Err SchemaNode) := do
  let m ← matchDocumentRegex ref
  let s ← Comp.getS
  if m.1 = "" ∨ hasNoFetchers s then pure (.error "invalid $ref format")
  else match getFetcherForRef c.url s m.1 with
    | .error e => pure (.error e)
    | .ok k => do
      let d ← fetchDocument c k m.1
      match d with
      | .error e => pure (.error e)
      | .ok node => do
        addDocument c m.1 node
        pure (.ok node)

/-! ## Rewriting references (document.go 157-230) -/

/-- The rewritten text of one reference (document.go 198-204). -/
def rewriteRef (c : PEnv) (ref : String) : P (Except Err String) := do
  let r ← resolveIdAndPath c ref
  match r with
  | .error e => pure (.error e)
  | .ok p => pure (.ok (p.1 ++ p.2))

mutual
/-- `rewriteReferencesRelativeToDocumentInGenericNode` (document.go 186-230) on an object, members in list
order.  A `$ref` that is not a string ends the loop: the members after it are left as they are. -/
def rewriteObj (c : PEnv) : List (String × JVal) → P (Except Err (List (String × JVal)))
  | [] => pure (.ok [])
  | p :: t => do
    let r ← rewriteMember c p
    match r with
    | .error e => pure (.error e)
    | .ok none => pure (.ok (p :: t))
    | .ok (some q) => do
      let rest ← rewriteObj c t
      match rest with
      | .error e => pure (.error e)
      | .ok l => pure (.ok (q :: l))
termination_by structural l => l
/-- One member; `none` means that the loop returns here. -/
def rewriteMember (c : PEnv) : String × JVal → P (Except Err (Option (String × JVal)))
  | (k, v) => rewriteValue c k v
termination_by structural p => p
/-- The value of the member with the given key. -/
def rewriteValue (c : PEnv) (k : String) : JVal → P (Except Err (Option (String × JVal)))
  | .str s =>
    if k = "$ref" then do
      let r ← rewriteRef c s
      match r with
      | .error e => pure (.error e)
      | .ok t => pure (.ok (some (k, .str t)))
    else pure (.ok (some (k, .str s)))
  | .obj m =>
    if k = "$ref" then pure (.ok none)
    else do
      let r ← rewriteObj c m
      match r with
      | .error e => pure (.error e)
      | .ok m' => pure (.ok (some (k, .obj m')))
  | .arr l =>
    if k = "$ref" then pure (.ok none)
    else do
      let r ← rewriteItems c l
      match r with
      | .error e => pure (.error e)
      | .ok l' => pure (.ok (some (k, .arr l')))
  | .null => if k = "$ref" then pure (.ok none) else pure (.ok (some (k, .null)))
  | .bool b => if k = "$ref" then pure (.ok none) else pure (.ok (some (k, .bool b)))
  | .num q => if k = "$ref" then pure (.ok none) else pure (.ok (some (k, .num q)))
termination_by structural v => v
/-- The items of an array: only objects are rewritten. -/
def rewriteItems (c : PEnv) : List JVal → P (Except Err (List JVal))
  | [] => pure (.ok [])
  | v :: t => do
    let r ← rewriteItem c v
    match r with
    | .error e => pure (.error e)
    | .ok v' => do
      let rest ← rewriteItems c t
      match rest with
      | .error e => pure (.error e)
      | .ok l => pure (.ok (v' :: l))
termination_by structural l => l
/-- One item. -/
def rewriteItem (c : PEnv) : JVal → P (Except Err JVal)
  | .obj m => do
    let r ← rewriteObj c m
    match r with
    | .error e => pure (.error e)
    | .ok m' => pure (.ok (.obj m'))
  | .null => pure (.ok .null)
  | .bool b => pure (.ok (.bool b))
  | .num q => pure (.ok (.num q))
  | .str s => pure (.ok (.str s))
  | .arr l => pure (.ok (.arr l))
termination_by structural v => v
end

/-- `RewriteReferencesRelativeToDocument` (document.go 157-184). -/
def rewriteReferences (c : PEnv) (node : SchemaNode) : P (Except Err SchemaNode) := do
  let r ← rewriteItem c (encodeNode node)
  match r with
  | .error e => pure (.error e)
  | .ok v => match decodeNode v with
    | none => pure (.error "failed to unmarshal rewritten JSON back to schema node")
    | some n => pure (.ok n)

end Chaff
