import Verif.Model.Types
/-
/repo/yaml/parse.go: splitting a stream into raw documents, and `Parse`.
-/
namespace Drone

/-- Newline, carriage return. -/
def LF : UInt8 := 10
def CR : UInt8 := 13

/-- `bufio.MaxScanTokenSize`: the default limit of the `bufio.Scanner` created
at /repo/yaml/parse.go:105. -/
def maxToken : Nat := 65536

/-- The pieces between newlines; a final piece without newline counts if it is
not empty.  `cur` is the line read so far.  Models `bufio.ScanLines` as used at
/repo/yaml/parse.go:105-107 (Go standard library). -/
def rawLinesAux (cur : Bytes) : Bytes → List Bytes
  | [] => if cur.isEmpty then [] else [cur]
  | b :: bs => if b = LF then cur :: rawLinesAux [] bs else rawLinesAux (cur ++ [b]) bs

def rawLines (data : Bytes) : List Bytes := rawLinesAux [] data

/-- `bufio.ScanLines` removes one trailing carriage return
(/repo/yaml/parse.go:107). -/
def dropCR (l : Bytes) : Bytes :=
  if l.getLast? = some CR then l.dropLast else l

/-- The tokens delivered by `scanner.Scan`/`scanner.Text`
(/repo/yaml/parse.go:106-107).  The scanner's buffer is 64 KiB: a line of
65536 bytes or more makes `Scan` return false, which ends the loop; the
scanner's error is never looked at except against `io.EOF`, which `Err` never
returns (/repo/yaml/parse.go:121). -/
def scanLines (data : Bytes) : List Bytes :=
  ((rawLines data).takeWhile (fun l => l.length < maxToken)).map dropCR

/-- /repo/yaml/parse.go:169-171 -/
def isSeparator (l : Bytes) : Bool := [45, 45, 45].isPrefixOf l

/-- /repo/yaml/parse.go:173-175 -/
def isTerminator (l : Bytes) : Bool := [46, 46, 46].isPrefixOf l

/-- Loop state of `ParseRaw`: `resources` (only their `Data`), and whether the
variable `resource` is non-nil, in which case it points to the last element
(/repo/yaml/parse.go:102-103). -/
structure SplitState where
  docs : List Bytes := []
  active : Bool := false
  deriving DecidableEq, Repr

/-- Append to the `Data` of the current resource
(/repo/yaml/parse.go:124-131). -/
def appendLast (docs : List Bytes) (extra : Bytes) : List Bytes :=
  match docs with
  | [] => []
  | [d] => [d ++ extra]
  | d :: ds => d :: appendLast ds extra

/-- The scan loop, /repo/yaml/parse.go:106-132. -/
def splitLoop (st : SplitState) : List Bytes → SplitState
  | [] => st
  | line :: rest =>
    let st := if isSeparator line then { st with active := false } else st
    let st := if st.active then st else { docs := st.docs ++ [[]], active := true }
    if isSeparator line then splitLoop st rest
    else if isTerminator line then st
    else splitLoop { st with docs := appendLast st.docs (line ++ [LF]) } rest

/-- The `Data` of all resources after the loop, /repo/yaml/parse.go:100-132. -/
def splitDocs (data : Bytes) : List Bytes := (splitLoop {} (scanLines data)).docs

/-- The fields decoded into a raw resource (/repo/yaml/manifest.go:51-56). -/
structure Header where
  version : String := ""
  kind : String := ""
  type : String := ""
  deriving DecidableEq, Repr, Inhabited

/-- /repo/yaml/manifest.go:51-56 -/
structure RawResource where
  version : String := ""
  kind : String := ""
  type : String := ""
  data : Bytes := []
  deriving DecidableEq, Repr, Inhabited

/-- Which Go type a document is decoded into (/repo/yaml/parse.go:82-93). -/
inductive ResType where
  | cron | secret | signature | registry | pipeline
  deriving DecidableEq, Repr

/-- The dynamic type of a resource. -/
def Resource.resType : Resource → ResType
  | .cron _ => .cron
  | .secret _ => .secret
  | .signature _ => .signature
  | .registry _ => .registry
  | .pipeline _ => .pipeline

/-- The YAML library (github.com/buildkite/yaml), a parameter of the model:
`header` is `yaml.Unmarshal(data, *RawResource)` (/repo/yaml/parse.go:134),
`resource` is `yaml.Unmarshal(data, obj)` into a fresh object of the given type
(/repo/yaml/parse.go:94). -/
structure YamlLib where
  header : Bytes → Except String Header
  resource : ResType → Bytes → Except String Resource

/-- A decoder never changes the dynamic type of the object it fills. -/
def YamlLib.Typed (Y : YamlLib) : Prop :=
  ∀ t d r, Y.resource t d = .ok r → r.resType = t

/-- The second loop of `ParseRaw`, /repo/yaml/parse.go:133-138. -/
def decodeHeaders (Y : YamlLib) : List Bytes → Except String (List RawResource)
  | [] => .ok []
  | d :: ds =>
    match Y.header d with
    | .error e => .error e
    | .ok h =>
      match decodeHeaders Y ds with
      | .error e => .error e
      | .ok rs => .ok ({ version := h.version, kind := h.kind, type := h.type, data := d } :: rs)

/-- What an `io.Reader` delivers: its bytes and the error (other than EOF) that
ends it, if any. -/
structure Reader where
  data : Bytes
  err : Option String := none

/-- /repo/yaml/parse.go:100-140.  The reader's error only stops the scanner,
its text is never inspected (`scanner.Err() == io.EOF` is never true). -/
def parseRawReader (Y : YamlLib) (r : Reader) : Except String (List RawResource) :=
  decodeHeaders Y (splitDocs r.data)

/-- `ParseRawBytes`, `ParseRawString`, /repo/yaml/parse.go:144-156. -/
def parseRawBytes (Y : YamlLib) (data : Bytes) : Except String (List RawResource) :=
  parseRawReader Y { data := data }

/-- The `switch` of `parseRaw`, /repo/yaml/parse.go:82-93. -/
def typeOfKind (kind : String) : ResType :=
  if kind = "cron" then .cron
  else if kind = "secret" then .secret
  else if kind = "signature" then .signature
  else if kind = "registry" then .registry
  else .pipeline

/-- /repo/yaml/parse.go:80-96 -/
def parseResource (Y : YamlLib) (r : RawResource) : Except String Resource :=
  Y.resource (typeOfKind r.kind) r.data

/-- /repo/yaml/parse.go:28 -/
def errMissingKind : String := "yaml: missing kind attribute"

/-- The loop of `Parse`, /repo/yaml/parse.go:37-52 (the raw resources returned
by `ParseRaw` are never nil). -/
def parseAll (Y : YamlLib) : List RawResource → Except String (List Resource)
  | [] => .ok []
  | r :: rs =>
    match parseResource Y r with
    | .error e => .error e
    | .ok res =>
      if res.getKind = "" then .error errMissingKind
      else
        match parseAll Y rs with
        | .error e => .error e
        | .ok out => .ok (res :: out)

/-- `Parse`, /repo/yaml/parse.go:31-54. -/
def parseReader (Y : YamlLib) (r : Reader) : Except String Manifest :=
  match parseRawReader Y r with
  | .error e => .error e
  | .ok raws =>
    match parseAll Y raws with
    | .error e => .error e
    | .ok rs => .ok { resources := rs }

/-- `ParseBytes`, `ParseString`, /repo/yaml/parse.go:57-68. -/
def parseBytes (Y : YamlLib) (data : Bytes) : Except String Manifest :=
  parseReader Y { data := data }

/-- The JSON library as used by `Manifest.UnmarshalJSON`
(/repo/yaml/manifest.go:66-98); `Msg` is a raw message. -/
structure JsonLib (Msg : Type) where
  messages : Bytes → Except String (List Msg)
  kind : Msg → Except String String
  resource : ResType → Msg → Except String Resource

/-- The `switch` at /repo/yaml/manifest.go:79-90. -/
def typeOfKindJson (kind : String) : ResType :=
  if kind = "cron" then .cron
  else if kind = "secret" then .secret
  else if kind = "signature" then .signature
  else if kind = "registry" then .registry
  else .pipeline

/-- Loop of `UnmarshalJSON`, /repo/yaml/manifest.go:72-96: returns the
resources collected so far and the error, if any. -/
def jsonLoop {Msg : Type} (J : JsonLib Msg) (acc : List Resource) :
    List Msg → List Resource × Option String
  | [] => (acc, none)
  | m :: ms =>
    match J.kind m with
    | .error e => (acc, some e)
    | .ok k =>
      match J.resource (typeOfKindJson k) m with
      | .error e => (acc, some e)
      | .ok r => jsonLoop J (acc ++ [r]) ms

/-- `Manifest.UnmarshalJSON`, /repo/yaml/manifest.go:66-98: the receiver is
updated in place, so existing resources are kept. -/
def unmarshalJSON {Msg : Type} (J : JsonLib Msg) (m : Manifest) (b : Bytes) :
    Manifest × Option String :=
  match J.messages b with
  | .error e => (m, some e)
  | .ok msgs =>
    let (rs, e) := jsonLoop J m.resources msgs
    ({ resources := rs }, e)

end Drone
