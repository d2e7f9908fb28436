import Verif.Model.Json
import Verif.Model.Rt
/-!
# Model of internal/jsonschema/formats.go

A Go string is a sequence of bytes and the checkers index bytes.  It is modelled as a list of characters, one for each
byte, so a byte is a character below 256.  Indexing and slicing out of range panics: a checker yields `none` in that
case.  Where a check and an index are one condition in Go (`len(s) != 0 && s[0] == …`), the model matches on the list.
Parsers of the standard library are parameters.
-/

namespace Chaff

/-- A Go string, as its bytes. -/
abbrev Bytes : Type := List Char

/-- The bytes of a text: its UTF-8 encoding. -/
def bytesOf (s : String) : Bytes :=
  s.toList.flatMap (fun c => (String.utf8EncodeChar c).map (fun b => Char.ofNat b.toNat))

/-- `s[i]`. -/
def byteAt (s : Bytes) (i : Nat) : Option Char := s[i]?

/-- `s[i:j]`. -/
def slice (s : Bytes) (i j : Nat) : Option Bytes := if i ≤ j ∧ j ≤ s.length then some ((s.take j).drop i) else none

/-- `s[i:]`. -/
def sliceFrom (s : Bytes) (i : Nat) : Option Bytes := slice s i s.length

/-- Is the byte an ASCII digit? -/
def isDigitB (c : Char) : Bool := decide ('0' ≤ c) && decide (c ≤ '9')

/-- Value of a decimal numeral. -/
def decVal (s : Bytes) : Nat := s.foldl (fun a c => 10 * a + (c.toNat - 48)) 0

/-- The sign of a number: is it negative, and what follows. -/
def atoiSign : Bytes → Bool × Bytes
  | [] => (false, [])
  | c :: t => if c = '-' then (true, t) else if c = '+' then (false, t) else (false, c :: t)

/-- `strconv.Atoi` on 64 bit: an optional sign, then digits, in the range of `int`; `none` is an error. -/
def goAtoi (s : Bytes) : Option Int :=
  let r := atoiSign s
  if r.2 ≠ [] ∧ r.2.all isDigitB then
    let n : Int := if r.1 then -(decVal r.2 : Int) else decVal r.2
    if -9223372036854775808 ≤ n ∧ n ≤ 9223372036854775807 then some n else none
  else none

/-- `strings.Split(s, sep)` for a single byte. -/
def splitByte (sep : Char) : Bytes → List Bytes
  | [] => [[]]
  | c :: t =>
    if c = sep then [] :: splitByte sep t
    else match splitByte sep t with
      | [] => [[c]]
      | h :: r => (c :: h) :: r

/-- `strings.IndexByte`, `-1` as `none`. -/
def indexByte (c : Char) : Bytes → Option Nat
  | [] => none
  | x :: t => if x = c then some 0 else (indexByte c t).map (· + 1)

/-- `strings.LastIndexByte`, `-1` as `none`. -/
def lastIndexByte (c : Char) : Bytes → Option Nat
  | [] => none
  | x :: t => match lastIndexByte c t with
    | some i => some (i + 1)
    | none => if x = c then some 0 else none

/-- `strings.Contains(s, sub)`. -/
def containsB (sub : Bytes) : Bytes → Bool
  | [] => sub.isPrefixOf []
  | c :: t => sub.isPrefixOf (c :: t) || containsB sub t

/-- Parsers of the standard library: does `time.Parse("2006-01-02", s)` succeed, `net.ParseIP`,
`mail.ParseAddress`, `regexp.Compile`; and `url.Parse` with `IsAbs`, `Hostname`, `Host` and `RawPath` of the result. -/
structure FormatLib where
  parseDate : Bytes → Bool
  parseIP : Bytes → Bool
  parseAddress : Bytes → Bool
  compileRegexp : Bytes → Bool
  parseURL : Bytes → Option (Bool × Bytes × Bytes × Bytes)

/-- `isDate` (formats.go 67-74). -/
def isDateB (L : FormatLib) (s : Bytes) : Option Bool := some (L.parseDate s)

/-- `isInRange` in `isTime` (formats.go 94-103). -/
def inRange (s : Bytes) (lo hi : Int) : Option Int :=
  match goAtoi s with
  | none => none
  | some n => if n < lo ∨ n > hi then none else some n

/-- The loop over fraction digits in `isTime` (formats.go 120-130): number of digits and the rest. -/
def skipFraction : Bytes → Nat × Bytes
  | [] => (0, [])
  | c :: t => if isDigitB c then ((skipFraction t).1 + 1, (skipFraction t).2) else (0, c :: t)

/-- Leap second check in `isTime` (formats.go 176-181). -/
def leapOk (h m s : Int) : Bool := if s = 60 then (if h ≠ 23 ∨ m ≠ 59 then false else true) else true

/-- `isTime` after the seconds fraction (formats.go 133-184). -/
def isTimeZone (h m s : Int) (str : Bytes) : Option Bool :=
  if str.length = 0 then some false
  else do
    let c ← byteAt str 0
    if c = 'z' ∨ c = 'Z' then
      if str.length ≠ 1 then some false else some (leapOk h m s)
    else if str.length ≠ 6 then some false
    else
      let c3 ← byteAt str 3
      if c3 ≠ ':' then some false
      else if c ≠ '+' ∧ c ≠ '-' then some false
      else
        let sign : Int := if c = '+' then -1 else 1
        let a ← slice str 1 3
        match inRange a 0 23 with
        | none => some false
        | some zh =>
          let b ← slice str 4 6
          match inRange b 0 59 with
          | none => some false
          | some zm =>
            let hm := (h * 60 + m) + sign * (zh * 60 + zm)
            let hm := if hm < 0 then hm + 24 * 60 else hm
            some (leapOk (hm.tdiv 60) (hm.tmod 60) s)

/-- `isTime` (formats.go 80-184), on strings. -/
def isTimeB (str : Bytes) : Option Bool :=
  if str.length < 9 then some false
  else do
    let c2 ← byteAt str 2
    if c2 ≠ ':' then some false
    else
      let c5 ← byteAt str 5
      if c5 ≠ ':' then some false
      else
        let a ← slice str 0 2
        match inRange a 0 23 with
        | none => some false
        | some h =>
          let b ← slice str 3 5
          match inRange b 0 59 with
          | none => some false
          | some m =>
            let d ← slice str 6 8
            match inRange d 0 60 with
            | none => some false
            | some s =>
              let str ← sliceFrom str 8
              let c ← byteAt str 0
              if c = '.' then
                let str ← sliceFrom str 1
                let r := skipFraction str
                if r.1 = 0 then some false else isTimeZone h m s r.2
              else isTimeZone h m s str

/-- `isDateTime` (formats.go 49-61). -/
def isDateTimeB (L : FormatLib) (s : Bytes) : Option Bool :=
  if s.length < 20 then some false
  else do
    let c ← byteAt s 10
    if c ≠ 'T' ∧ c ≠ 't' then some false
    else
      let d ← slice s 0 10
      if (← isDateB L d) then isTimeB (← sliceFrom s 11) else some false

/-- `parseUnits` in `isDuration` (formats.go 199-216), both loops in one: `digits` tells whether the last bytes were
digits.  Units read, the rest, and whether it went well. -/
def parseUnits : Bool → Bytes → Bytes → Bytes × Bytes × Bool
  | digits, units, [] => (units, [], !digits)
  | false, units, c :: t =>
    if c = 'T' then (units, c :: t, true)
    else if isDigitB c then parseUnits true units t
    else (units, c :: t, false)
  | true, units, c :: t =>
    if isDigitB c then parseUnits true units t else parseUnits false (units ++ [c]) t

/-- The part of `isDuration` after the date (formats.go 232-237). -/
def isDurationTime : Bytes → Bool
  | 'T' :: s =>
    let r := parseUnits false [] s
    r.2.2 && decide (r.2.1.length = 0) && decide (r.1.length > 0) && containsB r.1 "HMS".toList
  | _ => false

/-- `isDuration` (formats.go 190-238). -/
def isDurationB : Bytes → Option Bool
  | 'P' :: s =>
    let r := parseUnits false [] s
    if ¬ r.2.2 then some false
    else if r.1 = ['W'] then some (decide (r.2.1.length = 0))
    else if r.1.length > 0 then
      if ¬ containsB r.1 "YMD".toList then some false
      else if r.2.1.length = 0 then some true
      else some (isDurationTime r.2.1)
    else some (isDurationTime r.2.1)
  | _ => some false

/-- `isPeriod` (formats.go 244-258). -/
def isPeriodB (L : FormatLib) (s : Bytes) : Option Bool :=
  match indexByte '/' s with
  | none => some false
  | some slash => do
    let start ← slice s 0 slash
    let stop ← sliceFrom s (slash + 1)
    if (← isDateTimeB L start) then
      if (← isDateTimeB L stop) then some true else isDurationB stop
    else if (← isDurationB start) then isDateTimeB L stop
    else some false

/-- Is the byte allowed in a host name label (formats.go 298-300)?  A range loop over the runes finds one that is not
allowed exactly if there is such a byte. -/
def hostChar (c : Char) : Bool :=
  (decide ('a' ≤ c) && decide (c ≤ 'z')) || (decide ('A' ≤ c) && decide (c ≤ 'Z')) || isDigitB c || decide (c = '-')

/-- The loop over labels in `isHostname` (formats.go 277-304); `s` is the whole name. -/
def hostLabels (s : Bytes) : List Bytes → Option Bool
  | [] => some true
  | label :: rest =>
    if label.length < 1 ∨ label.length > 63 then some false
    else do
      let first ← byteAt s 0
      if first = '-' then some false
      else
        let last ← byteAt label (label.length - 1)
        if last = '-' then some false
        else if label.all hostChar then hostLabels s rest
        else some false

/-- `strings.TrimSuffix(s, ".")`. -/
def trimDot (s : Bytes) : Bytes := if s.getLast? = some '.' then s.dropLast else s

/-- `isHostname` (formats.go 265-305). -/
def isHostnameB (s : Bytes) : Option Bool :=
  let s := trimDot s
  if s.length > 253 then some false else hostLabels s (splitByte '.' s)

/-- The loop over groups in `isIPV4` (formats.go 363-374). -/
def ipGroups : List Bytes → Option Bool
  | [] => some true
  | group :: rest =>
    match goAtoi group with
    | none => some false
    | some n =>
      if n < 0 ∨ n > 255 then some false
      else if n ≠ 0 then do
        let c ← byteAt group 0
        if c = '0' then some false else ipGroups rest
      else ipGroups rest

/-- `isIPV4` (formats.go 354-376). -/
def isIPV4B (s : Bytes) : Option Bool :=
  let groups := splitByte '.' s
  if groups.length ≠ 4 then some false else ipGroups groups

/-- `isIPV6` (formats.go 380-389). -/
def isIPV6B (L : FormatLib) (s : Bytes) : Option Bool :=
  if ¬ s.contains ':' then some false else some (L.parseIP s)

/-- `isEmail` (formats.go 311-350). -/
def isEmailB (L : FormatLib) (s : Bytes) : Option Bool :=
  if s.length > 254 then some false
  else match lastIndexByte '@' s with
    | none => some false
    | some at' => do
      let local' ← slice s 0 at'
      let domain ← sliceFrom s (at' + 1)
      if local'.length > 64 then some false
      else
        let bracketed ← (if domain.length < 2 then some false
          else do
            let a ← byteAt domain 0
            let b ← byteAt domain (domain.length - 1)
            some (decide (a = '[') && decide (b = ']')))
        if bracketed then
          let ip ← slice domain 1 (domain.length - 1)
          if "IPv6:".toList.isPrefixOf ip then isIPV6B L (ip.drop 5) else isIPV4B ip
        else if (← isHostnameB domain) then some (L.parseAddress s)
        else some false

/-- `urlParse` (formats.go 401-418). -/
def urlParseB (L : FormatLib) (s : Bytes) : Option (Option (Bool × Bytes × Bytes × Bytes)) :=
  match L.parseURL s with
  | none => some none
  | some (abs, hostname, host, rawPath) =>
    if (indexByte ':' hostname).isSome then
      if (indexByte '[' host).isNone ∨ (indexByte ']' host).isNone then some none
      else do
        if (← isIPV6B L hostname) then some (some (abs, hostname, host, rawPath)) else some none
    else some (some (abs, hostname, host, rawPath))

/-- `isURI` (formats.go 392-399). -/
def isURIB (L : FormatLib) (s : Bytes) : Option Bool := do
  match ← urlParseB L s with
  | none => some false
  | some u => some u.1

/-- `isURIReference` (formats.go 422-429). -/
def isURIReferenceB (L : FormatLib) (s : Bytes) : Option Bool := do
  match ← urlParseB L s with
  | none => some false
  | some _ => some (!s.contains '\\')

/-- The loop over one segment in `isURITemplate` (formats.go 445-462), result: is it balanced? -/
def templateSegment : Int → Bytes → Bool
  | depth, [] => decide (depth = 0)
  | depth, c :: t =>
    if c = '{' then (if depth + 1 ≠ 1 then false else templateSegment (depth + 1) t)
    else if c = '}' then (if depth - 1 ≠ 0 then false else templateSegment (depth - 1) t)
    else templateSegment depth t

/-- `isURITemplate` (formats.go 435-465). -/
def isURITemplateB (L : FormatLib) (s : Bytes) : Option Bool := do
  match ← urlParseB L s with
  | none => some false
  | some u => some ((splitByte '/' u.2.2.2).all (templateSegment 0))

/-- The loop over one token in `isJSONPointer` (formats.go 479-490), from index `i` on; the last argument counts the
remaining iterations. -/
def pointerToken (item : Bytes) : Nat → Nat → Option Bool
  | _, 0 => some true
  | i, n + 1 => do
    let c ← byteAt item i
    if c = '~' then
      if i = item.length - 1 then some false
      else
        let d ← byteAt item (i + 1)
        if d = '0' ∨ d = '1' then pointerToken item (i + 1) n else some false
    else pointerToken item (i + 1) n

/-- The loop over tokens in `isJSONPointer` (formats.go 478-492). -/
def pointerTokens : List Bytes → Option Bool
  | [] => some true
  | item :: rest => do
    if (← pointerToken item 0 item.length) then pointerTokens rest else some false

/-- `isJSONPointer` (formats.go 470-494). -/
def isJSONPointerB (s : Bytes) : Option Bool :=
  if s ≠ [] ∧ ¬ ['/'].isPrefixOf s then some false else pointerTokens (splitByte '/' s)

/-- `isRelativeJSONPointer` (formats.go 499-518). -/
def isRelativeJSONPointerB : Bytes → Option Bool
  | [] => some false
  | c :: t =>
    if c = '0' then (if t = ['#'] then some true else isJSONPointerB t)
    else if isDigitB c then
      let r := t.dropWhile isDigitB
      if r = ['#'] then some true else isJSONPointerB r
    else some false

/-- Is the byte a hexadecimal digit (formats.go 534)? -/
def isHexB (c : Char) : Bool :=
  isDigitB c || (decide ('a' ≤ c) && decide (c ≤ 'f')) || (decide ('A' ≤ c) && decide (c ≤ 'F'))

/-- `parseHex` in `isUUID` (formats.go 529-542): the rest after `n` hexadecimal digits. -/
def parseHex : Nat → Bytes → Option Bytes
  | 0, s => some s
  | _ + 1, [] => none
  | n + 1, c :: t => if isHexB c then parseHex n t else none

/-- The loop over groups in `isUUID` (formats.go 543-556). -/
def uuidGroups : List Nat → Bytes → Bool
  | [], s => decide (s.length = 0)
  | n :: rest, s => match parseHex n s with
    | none => false
    | some s =>
      if rest = [] then decide (s.length = 0)
      else match s with
        | '-' :: t => uuidGroups rest t
        | _ => false

/-- `isUUID` (formats.go 524-557). -/
def isUUIDB (s : Bytes) : Option Bool := some (uuidGroups [8, 4, 4, 4, 12] s)

/-- `FormatValidators` (formats.go 21-43): the checker of a format for strings. -/
def formatCheckB (L : FormatLib) (format : String) : Option (Bytes → Option Bool) :=
  match format with
  | "date-time" => some (isDateTimeB L)
  | "date" => some (isDateB L)
  | "time" => some isTimeB
  | "duration" => some isDurationB
  | "period" => some (isPeriodB L)
  | "hostname" => some isHostnameB
  | "email" => some (isEmailB L)
  | "ip-address" => some isIPV4B
  | "ipv4" => some isIPV4B
  | "ipv6" => some (isIPV6B L)
  | "uri" => some (isURIB L)
  | "iri" => some (isURIB L)
  | "uri-reference" => some (isURIReferenceB L)
  | "uriref" => some (isURIReferenceB L)
  | "iri-reference" => some (isURIReferenceB L)
  | "uri-template" => some (isURITemplateB L)
  | "json-pointer" => some isJSONPointerB
  | "relative-json-pointer" => some isRelativeJSONPointerB
  | "uuid" => some isUUIDB
  | "regex" => some (fun s => some (L.compileRegexp s))
  | "unknown" => some (fun _ => some true)
  | _ => none

/-- What a checker says about a value that is not a string: `isTime` (formats.go 82-84), `isRegex` (562-564) and
`unknown` accept it. -/
def formatNonString (format : String) : Bool := decide (format ∈ ["time", "regex", "unknown"])

/-- A checker on any value: `FormatValidators[format](v)`; the outer `none` means that there is no such format. -/
def formatCheck (L : FormatLib) (format : String) (v : JVal) : Option (Option Bool) :=
  (formatCheckB L format).map (fun f => match v with | .str s => f (bytesOf s) | _ => some (formatNonString format))

end Chaff
