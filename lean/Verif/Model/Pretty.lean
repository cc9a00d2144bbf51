/-
Package pretty (/repo/yaml/pretty/*.go): the manifest printer.

The output is a list of bytes.  Library functions whose text is not modelled are
parameters (`PrettyLib`).  `none` is a panic (a nil entry of a map or list).
`baseWriter` and `indexWriter` are one record: an `indexWriter` shares buffer and
depth with the writer it wraps and has its own `zero` and `index`.
-/
import Verif.Model.Script
import Verif.Model.ParseRaw

namespace Drone
namespace Pretty

/-- Library functions the printer calls. -/
structure PrettyLib where
  /-- `strconv.IsPrint`, used by `%q` -/
  isPrint : Char → Bool
  /-- `strconv.FormatFloat(v, 'g', -1, 64)` (/repo/yaml/pretty/writer.go:200) -/
  fmtFloat : Rat → String
  /-- `BytesSize.String` (/repo/yaml/unit.go:51-53) -/
  fmtSize : Int → String
  /-- `fmt.Sprint` of a map key that is not a string (/repo/yaml/pretty/writer.go:309) -/
  sprint : Value → String
  /-- `strconv.IsPrint` accepts graphic characters only: no control characters, no line
  or paragraph separator, no byte order mark, no non-characters of the basic plane -/
  print_graphic : ∀ c, isPrint c = true → (0x20 ≤ c.toNat ∧ c.toNat ≤ 0x7e) ∨
    (0xa1 ≤ c.toNat ∧ c.toNat < 0x2028) ∨ (0x2029 < c.toNat ∧ c.toNat ≤ 0xfffd ∧ c.toNat ≠ 0xfeff) ∨
    0x10000 ≤ c.toNat
  /-- a formatted float has no line break -/
  float_line : ∀ q, '\n' ∉ (fmtFloat q).toList ∧ '\r' ∉ (fmtFloat q).toList

theorem PrettyLib.print_nl (L : PrettyLib) : L.isPrint '\n' = false := by
  cases h : L.isPrint '\n' with
  | false => rfl
  | true => exact absurd (L.print_graphic _ h) (by decide)

theorem PrettyLib.print_cr (L : PrettyLib) : L.isPrint '\r' = false := by
  cases h : L.isPrint '\r' with
  | false => rfl
  | true => exact absurd (L.print_graphic _ h) (by decide)

/-- `baseWriter` (`index = none`) or `indexWriter`
(/repo/yaml/pretty/writer.go:77-81, 137-141). -/
structure Writer where
  buf : Bytes := []
  depth : Int := 0
  zero : Bool := false
  index : Option Nat := none
  deriving DecidableEq, Repr

namespace Writer

/-- `Write`, `WriteString`, `WriteByte` -/
def bytes (w : Writer) (b : Bytes) : Writer := { w with buf := w.buf ++ b }

/-- `WriteString` -/
def str (w : Writer) (s : String) : Writer := w.bytes (utf8 s)

/-- The padding at a depth; none if it is negative (/repo/yaml/pretty/writer.go:84-86). -/
def padding (depth : Int) : Bytes := (List.replicate depth.toNat [32, 32]).flatten

/-- /repo/yaml/pretty/writer.go:83-87 -/
def indent (w : Writer) : Writer := w.bytes (padding w.depth)

/-- /repo/yaml/pretty/writer.go:89-91 -/
def inc (w : Writer) : Writer := { w with depth := w.depth + 1 }

/-- /repo/yaml/pretty/writer.go:93-95 -/
def dec (w : Writer) : Writer := { w with depth := w.depth - 1 }

/-- `new(indexWriter)` around `w`, used by `f`; buffer and depth are those of `w`. -/
def seq (w : Writer) (f : Writer → Writer) : Writer :=
  let s := f { w with zero := false, index := some 0 }
  { w with buf := s.buf, depth := s.depth }

/-- The same for a body that may panic. -/
def seq? (w : Writer) (f : Writer → Option Writer) : Option Writer :=
  (f { w with zero := false, index := some 0 }).map fun s => { w with buf := s.buf, depth := s.depth }

end Writer

/-! ### util.go -/

/-- `unicode.IsSpace` -/
def isSpace (c : Char) : Bool :=
  c = '\t' ∨ c = '\n' ∨ c = '\x0b' ∨ c = '\x0c' ∨ c = '\r' ∨ c = ' ' ∨ c.toNat = 0x85 ∨ c.toNat = 0xA0 ∨
  c.toNat = 0x1680 ∨ (0x2000 ≤ c.toNat ∧ c.toNat ≤ 0x200a) ∨ c.toNat = 0x2028 ∨ c.toNat = 0x2029 ∨
  c.toNat = 0x202f ∨ c.toNat = 0x205f ∨ c.toNat = 0x3000

/-- `strings.TrimSpace` -/
def trimSpace (s : List Char) : List Char :=
  ((s.dropWhile isSpace).reverse.dropWhile isSpace).reverse

/-- /repo/yaml/pretty/util.go:70-77 -/
def isEscapeCode (c : Char) : Bool :=
  c = '\x07' ∨ c = '\x08' ∨ c = '\x0c' ∨ c = '\n' ∨ c = '\r' ∨ c = '\t' ∨ c = '\x0b'

/-- The loop at /repo/yaml/pretty/util.go:116-127; `prev` is 0 at first. -/
def needsQuote (prev : Char) : List Char → Bool
  | [] => false
  | b :: rest =>
    if isEscapeCode b then true
    else if b = ' ' ∧ prev = ':' then true
    else if b = '#' ∧ prev = ' ' then true
    else needsQuote b rest

/-- /repo/yaml/pretty/util.go:79-132.  `t[0]` and `t[1]` are bytes in Go; comparing them
with ASCII characters is the same as comparing the first two characters. -/
def isQuoted (s : List Char) : Bool :=
  if s.length = 0 then true
  else
    let t := trimSpace s
    if t ≠ s then true
    else
      let r0 := t.getD 0 '\x00'
      let r1 := t.getD 1 '\x00'
      if r0 ∈ [',', '[', ']', '{', '}', '*', '"', '\'', '%', '@', '`', '|', '>', '#'] then true
      else if r0 ∈ ['&', '!', '-', ':', '?'] ∧ r1 = ' ' then true
      else if needsQuote '\x00' s then true
      else t.getLast? = some ':'

/-- /repo/yaml/pretty/util.go:134-147 on bytes; `size` is positive.  The loop takes
`size` bytes at a time; `fuel` bounds the number of rounds. -/
def chunkLoop (size : Nat) : Nat → Bytes → List Bytes
  | 0, _ => []
  | fuel + 1, s => if s.length = 0 then [] else s.take size :: chunkLoop size fuel (s.drop size)

/-- /repo/yaml/pretty/util.go:134-147 -/
def chunk (s : Bytes) (size : Nat) : List Bytes :=
  if s.length = 0 then [s] else chunkLoop size s.length s

/-- What `WriteTagValue` and `writeValue` are given, by Go type. -/
inductive Arg where
  /-- nil, bool, int, float64, string, []interface{}, map[interface{}]interface{} -/
  | val (v : Value)
  /-- []string -/
  | strs (l : List String)
  /-- map[string]string -/
  | strMap (m : GoMap String)
  /-- yaml.BytesSize -/
  | size (n : Int)

/-- /repo/yaml/pretty/util.go:23-32 -/
def isPrimValue : Value → Bool
  | .bool _ | .str _ | .int _ | .float _ => true
  | _ => false

def isPrimative : Arg → Bool
  | .val v => isPrimValue v
  | .size _ => true
  | _ => false

/-- /repo/yaml/pretty/util.go:34-43 -/
def isSliceValue : Value → Bool
  | .seq _ => true
  | _ => false

def isSlice : Arg → Bool
  | .val v => isSliceValue v
  | .strs _ => true
  | _ => false

/-- /repo/yaml/pretty/util.go:45-68 -/
def isZeroValue : Value → Bool
  | .bool b => b = false
  | .str s => s.length = 0
  | .int i => i = 0
  | .float q => q = 0
  | .seq xs => xs.length = 0
  | .map kvs => kvs.length = 0
  | .null => false

def isZero : Arg → Bool
  | .val v => isZeroValue v
  | .strs l => l.length = 0
  | .strMap m => m.length = 0
  | .size n => n = 0

/-! ### writer.go -/

/-- /repo/yaml/pretty/writer.go:216-227 -/
def encode (L : PrettyLib) (v : String) : String :=
  if v.length = 0 then "\"\""
  else if isQuoted v.toList then String.ofList (Script.quote L.isPrint v.toList)
  else v

def writeEncode (L : PrettyLib) (w : Writer) (v : String) : Writer := w.str (encode L v)

/-- Insertion into a sorted list. -/
def insertString (s : String) : List String → List String
  | [] => [s]
  | t :: ts => if s ≤ t then s :: t :: ts else t :: insertString s ts

/-- `sort.Strings` in byte order, which is code point order for valid UTF-8.  The
algorithm differs from Go's, the result does not: a list has one sorted permutation. -/
def sortStrings (l : List String) : List String := l.foldr insertString []

/-- /repo/yaml/pretty/writer.go:284-299 (the loop; `first` is `i == 0`) -/
def seqStrLoop (L : PrettyLib) (first : Bool) (w : Writer) : List String → Writer
  | [] => w
  | v :: vs =>
    let w := if first then w else (w.str "\n").indent
    seqStrLoop L false (writeEncode L ((w.str "-").str " ") v) vs

/-- /repo/yaml/pretty/writer.go:284-299 -/
def writeSequenceStr (L : PrettyLib) (w : Writer) (v : List String) : Writer :=
  if v.length = 0 then (w.str "[").str "]" else seqStrLoop L true w v

/-- The loop at /repo/yaml/pretty/writer.go:350-360 -/
def mapStrLoop (L : PrettyLib) (m : GoMap String) (first : Bool) (w : Writer) : List String → Writer
  | [] => w
  | k :: ks =>
    let w := if first then w else (w.str "\n").indent
    let w := ((writeEncode L w k).str ":").str " "
    mapStrLoop L m false (writeEncode L w ((m.get? k).getD "")) ks

/-- /repo/yaml/pretty/writer.go:339-361 -/
def writeMappingStr (L : PrettyLib) (w : Writer) (m : GoMap String) : Writer :=
  if m.length = 0 then (w.str "{").str "}" else mapStrLoop L m true w (sortStrings m.keys)

/-- The key as `fmt.Sprint` prints it (/repo/yaml/pretty/writer.go:309) -/
def keyText (L : PrettyLib) : Value → String
  | .str s => s
  | v => L.sprint v

/-- The loop at /repo/yaml/pretty/writer.go:313-336.  `entries` holds, for the string
keys of the map, what is written after the colon; other keys are not found by
`v[k]`, which gives nil. -/
def mapLoop (L : PrettyLib) (entries : GoMap (Writer → Writer)) (first : Bool) (w : Writer) :
    List String → Writer
  | [] => w
  | k :: ks =>
    let w := if first then w else (w.str "\n").indent
    let w := (writeEncode L w k).str ":"
    let w := match entries.get? k with
      | some f => f w
      | none => (w.str " ").str "~"
    mapLoop L entries false w ks

/-- What is written for a value of a mapping after the colon
(/repo/yaml/pretty/writer.go:321-335); `f` writes the value itself. -/
def mapEntry (v : Value) (f : Writer → Writer) (w : Writer) : Writer :=
  if (match v with | .null => true | _ => false) || isPrimValue v || isZeroValue v then f (w.str " ")
  else if isSliceValue v then f ((w.str "\n").indent)
  else (f ((w.inc.str "\n").indent)).dec

mutual
/-- /repo/yaml/pretty/writer.go:229-263 for values decoded into `interface{}` -/
def writeVal (L : PrettyLib) : Value → Writer → Writer
  | .null, w => w.str "~"
  | .bool b, w => w.str (if b then "true" else "false")
  | .int i, w => w.str (toString i)
  | .float q, w => w.str (L.fmtFloat q)
  | .str s, w => writeEncode L w s
  | .seq xs, w => if xs.length = 0 then (w.str "[").str "]" else writeSeq L true xs w
  | .map kvs, w =>
    if kvs.length = 0 then (w.str "{").str "}"
    else mapLoop L (mapEntries L kvs) true w (sortStrings (kvs.map fun kv => keyText L kv.1))

/-- The loop of `writeSequence` (/repo/yaml/pretty/writer.go:271-281) -/
def writeSeq (L : PrettyLib) (first : Bool) : List Value → Writer → Writer
  | [], w => w
  | v :: vs, w =>
    let w := if first then w else (w.str "\n").indent
    let w := ((w.str "-").str " ").inc
    writeSeq L false vs (writeVal L v w).dec

/-- The values of a map found under string keys (/repo/yaml/pretty/writer.go:314), each
as what is written for it. -/
def mapEntries (L : PrettyLib) : List (Value × Value) → GoMap (Writer → Writer)
  | [] => []
  | (.str k, v) :: kvs => (k, mapEntry v (writeVal L v)) :: mapEntries L kvs
  | (_, _) :: kvs => mapEntries L kvs
end

/-- /repo/yaml/pretty/writer.go:229-248 -/
def writeValue (L : PrettyLib) (w : Writer) : Arg → Writer
  | .val v => writeVal L v w
  | .strs l => writeSequenceStr L w l
  | .strMap m => writeMappingStr L w m
  | .size n => writeEncode L w (L.fmtSize n)

/-- `WriteTag` of both writers (/repo/yaml/pretty/writer.go:105-110, 151-165); keys are
strings. -/
def writeTag (L : PrettyLib) (w : Writer) (k : String) : Writer :=
  let w := w.str "\n"
  match w.index with
  | none => (writeEncode L w.indent k).str ":"
  | some i =>
    let w := if i = 0 then (w.dec.indent.inc.str "-").str " " else w.indent
    { (writeEncode L w k).str ":" with index := some (i + 1) }

/-- `WriteTagValue` of both writers (/repo/yaml/pretty/writer.go:112-131, 167-186) -/
def writeTagValue (L : PrettyLib) (w : Writer) (k : String) (v : Arg) : Writer :=
  if isZero v ∧ w.zero = false then w
  else
    let w := writeTag L w k
    if isPrimative v then writeValue L (w.str " ") v
    else if isSlice v then writeValue L (w.str "\n").indent v
    else (writeValue L (w.inc.str "\n").indent v).dec

/-- A string value. -/
def tagStr (L : PrettyLib) (w : Writer) (k v : String) : Writer := writeTagValue L w k (.val (.str v))
/-- A boolean value. -/
def tagBool (L : PrettyLib) (w : Writer) (k : String) (v : Bool) : Writer := writeTagValue L w k (.val (.bool v))
/-- An integer value. -/
def tagInt (L : PrettyLib) (w : Writer) (k : String) (v : Int) : Writer := writeTagValue L w k (.val (.int v))

/-! ### pipeline.go, conditions -/

/-- /repo/yaml/pretty/pipeline.go:296-298 -/
def isConditionEmpty (v : Condition) : Bool := v.excl.length = 0 && v.incl.length = 0

/-- /repo/yaml/pretty/pipeline.go:281-292 -/
def isConditionsEmpty (v : Conditions) : Bool :=
  isConditionEmpty v.action && isConditionEmpty v.branch && isConditionEmpty v.cron &&
  isConditionEmpty v.event && isConditionEmpty v.inst && isConditionEmpty v.paths &&
  isConditionEmpty v.ref && isConditionEmpty v.repo && isConditionEmpty v.status &&
  isConditionEmpty v.target

/-- /repo/yaml/pretty/pipeline.go:159-176 -/
def printCondition (L : PrettyLib) (w : Writer) (k : String) (v : Condition) : Writer :=
  let w := writeTag L w k
  let w := if v.incl.length ≠ 0 ∧ v.excl.length = 0 then writeSequenceStr L (w.str "\n").indent v.incl else w
  let w := if v.incl.length ≠ 0 ∧ v.excl.length ≠ 0 then
      (writeTagValue L w.inc "include" (.strs v.incl)).dec else w
  if v.excl.length ≠ 0 then (writeTagValue L w.inc "exclude" (.strs v.excl)).dec else w

/-- `if !isConditionEmpty(v) { printCondition(...) }` -/
def printConditionIf (L : PrettyLib) (w : Writer) (k : String) (v : Condition) : Writer :=
  if isConditionEmpty v then w else printCondition L w k v

/-- /repo/yaml/pretty/pipeline.go:122-156 -/
def printConditions (L : PrettyLib) (w : Writer) (name : String) (v : Conditions) : Writer :=
  let w := (writeTag L w name).inc
  let w := printConditionIf L w "action" v.action
  let w := printConditionIf L w "branch" v.branch
  let w := printConditionIf L w "cron" v.cron
  let w := printConditionIf L w "event" v.event
  let w := printConditionIf L w "instance" v.inst
  let w := printConditionIf L w "paths" v.paths
  let w := printConditionIf L w "ref" v.ref
  let w := printConditionIf L w "repo" v.repo
  let w := printConditionIf L w "status" v.status
  let w := printConditionIf L w "target" v.target
  w.dec

/-! ### container.go -/

/-- /repo/yaml/pretty/container.go:225-231 -/
def shortBuild (b : Build) : Bool :=
  b.args.length = 0 && b.cacheFrom.length = 0 && b.context.length = 0 && b.dockerfile.length = 0 &&
  b.labels.length = 0

/-- /repo/yaml/pretty/container.go:81-95 -/
def printBuild (L : PrettyLib) (w : Writer) (v : Build) : Writer :=
  if shortBuild v then tagStr L w "build" v.image
  else
    let w := (writeTag L w "build").inc
    let w := tagStr L w "image" v.image
    let w := writeTagValue L w "args" (.strMap v.args)
    let w := writeTagValue L w "cache_from" (.strs v.cacheFrom)
    let w := tagStr L w "context" v.context
    let w := tagStr L w "dockerfile" v.dockerfile
    let w := writeTagValue L w "labels" (.strMap v.labels)
    w.dec

/-- /repo/yaml/pretty/container.go:98-100 -/
def printDependsOn (L : PrettyLib) (w : Writer) (v : List String) : Writer :=
  writeTagValue L w "depends_on" (.strs v)

/-- A loop whose entries may be nil (nil panics). -/
def eachEntry {α : Type} (f : Writer → α → Writer) : List (Option α) → Writer → Option Writer
  | [], w => some w
  | none :: _, _ => none
  | some a :: as, w => eachEntry f as (f w a)

/-- /repo/yaml/pretty/container.go:103-113 -/
def printDeviceMounts (L : PrettyLib) (w : Writer) (v : List (Option VolumeDevice)) : Option Writer :=
  eachEntry (fun w v => w.seq fun s =>
    (tagStr L (tagStr L s.inc "name" v.name) "path" v.devicePath).dec) v (writeTag L w "devices")

/-- The loop over the sorted keys of a map whose entries may be nil (nil panics). -/
def eachKey {α : Type} (m : GoMap (Option α)) (f : Writer → String → α → Writer) :
    List String → Writer → Option Writer
  | [], w => some w
  | k :: ks, w =>
    match m.get? k with
    | some (some v) => eachKey m f ks (f w k v)
    | _ => none

/-- A reference to a secret (/repo/yaml/pretty/container.go:130-133, 201-204) -/
def printFromSecret (L : PrettyLib) (w : Writer) (k secret : String) : Writer :=
  (tagStr L (writeTag L w k).inc "from_secret" secret).dec

/-- /repo/yaml/pretty/container.go:116-137 -/
def printEnviron (L : PrettyLib) (w : Writer) (m : GoMap (Option Variable)) : Option Writer :=
  (eachKey m (fun w k v =>
    if v.secret = "" then tagStr L w k v.value else printFromSecret L w k v.secret)
    (sortStrings m.keys) (writeTag L w "environment").inc).map Writer.dec

/-- /repo/yaml/pretty/container.go:235-237 -/
def shortPort (p : Port) : Bool := p.host = 0 && p.protocol.length = 0

/-- /repo/yaml/pretty/container.go:140-160 -/
def printPorts (L : PrettyLib) (w : Writer) (v : List (Option Port)) : Option Writer :=
  eachEntry (fun w v =>
    if shortPort v then (((w.str "\n").indent.str "-").str " ").str (toString v.port)
    else w.seq fun s =>
      (tagStr L (tagInt L (tagInt L s.inc "port" v.port) "host" v.host) "protocol" v.protocol).dec)
    v (writeTag L w "ports")

/-- One block of `printResources` (/repo/yaml/pretty/container.go:167-173) -/
def printResourceObject (L : PrettyLib) (w : Writer) (name : String) : Option ResourceObject → Writer
  | none => w
  | some r =>
    let w := (writeTag L w name).inc
    let w := writeTagValue L w "cpu" (.val (.float r.cpu))
    let w := writeTagValue L w "memory" (.size r.memory)
    w.dec

/-- /repo/yaml/pretty/container.go:163-182 -/
def printResources (L : PrettyLib) (w : Writer) (v : Resources) : Writer :=
  let w := (writeTag L w "resources").inc
  let w := printResourceObject L w "limits" v.limits
  let w := printResourceObject L w "requests" v.requests
  w.dec

/-- /repo/yaml/pretty/container.go:185-208 -/
def printSettings (L : PrettyLib) (w : Writer) (m : GoMap (Option Parameter)) : Option Writer :=
  (eachKey m (fun w k v =>
    if v.secret = "" then
      { writeTagValue L { w with zero := true } k (.val v.value) with zero := false }
    else printFromSecret L w k v.secret)
    (sortStrings m.keys) (writeTag L w "settings").inc).map Writer.dec

/-- /repo/yaml/pretty/container.go:211-221 -/
def printVolumeMounts (L : PrettyLib) (w : Writer) (v : List (Option VolumeMount)) : Option Writer :=
  eachEntry (fun w v => w.seq fun s =>
    (tagStr L (tagStr L s.inc "name" v.name) "path" v.mountPath).dec) v (writeTag L w "volumes")

/-- `if p != nil { w = f(w, p) }` -/
def ifSome {α : Type} (o : Option α) (f : Writer → α → Writer) (w : Writer) : Writer :=
  match o with
  | none => w
  | some a => f w a

/-- `if cond { w = f(w) }` for a body that may panic -/
def when? (c : Bool) (f : Writer → Option Writer) (w : Writer) : Option Writer := if c then f w else some w

/-- /repo/yaml/pretty/container.go:24-78 -/
def printContainer (L : PrettyLib) (w : Writer) (v : Container) : Option Writer :=
  let w := tagStr L w "name" v.name
  let w := tagStr L w "pull" v.pull
  let w := tagStr L w "image" v.image
  let w := ifSome v.build (printBuild L) w
  let w := ifSome v.push (fun w p => tagStr L w "push" p.image) w
  let w := tagBool L w "detach" v.detach
  let w := tagStr L w "user" v.user
  let w := tagStr L w "shell" v.shell
  let w := writeTagValue L w "entrypoint" (.strs v.entrypoint)
  let w := writeTagValue L w "command" (.strs v.command)
  let w := writeTagValue L w "commands" (.strs v.commands)
  let w := writeTagValue L w "dns" (.strs v.dns)
  let w := writeTagValue L w "dns_search" (.strs v.dnsSearch)
  let w := writeTagValue L w "extra_hosts" (.strs v.extraHosts)
  let w := tagStr L w "network_mode" v.network
  (when? (v.settings.length > 0) (fun w => printSettings L w v.settings) w).bind fun w =>
  (when? (v.environment.length > 0) (fun w => printEnviron L w v.environment) w).bind fun w =>
  let w := tagStr L w "failure" v.failure
  let w := tagBool L w "privileged" v.privileged
  let w := tagStr L w "working_dir" v.workingDir
  (when? (v.devices.length > 0) (fun w => printDeviceMounts L w v.devices) w).bind fun w =>
  (when? (v.ports.length > 0) (fun w => printPorts L w v.ports) w).bind fun w =>
  let w := ifSome v.resources (printResources L) w
  (when? (v.volumes.length > 0) (fun w => printVolumeMounts L w v.volumes) w).map fun w =>
  let w := if isConditionsEmpty v.cond then w else printConditions L w "when" v.cond
  let w := if v.dependsOn.length > 0 then printDependsOn L w v.dependsOn else w
  w.str "\n"

/-! ### pipeline.go -/

/-- /repo/yaml/pretty/pipeline.go:102-110 -/
def printClone (L : PrettyLib) (w : Writer) (v : Clone) : Writer :=
  let w := (writeTag L w "clone").inc
  let w := tagInt L w "depth" v.depth
  let w := tagBool L w "disable" v.disable
  let w := tagBool L w "skip_verify" v.skipVerify
  (w.str "\n").dec

/-- /repo/yaml/pretty/pipeline.go:113-119 -/
def printConcurrency (L : PrettyLib) (w : Writer) (v : Concurrency) : Writer :=
  let w := (writeTag L w "concurrency").inc
  let w := tagInt L w "limit" v.limit
  (w.str "\n").dec

/-- /repo/yaml/pretty/pipeline.go:184-193 -/
def printPlatform (L : PrettyLib) (w : Writer) (v : Platform) : Writer :=
  let w := (writeTag L w "platform").inc
  let w := tagStr L w "os" v.os
  let w := tagStr L w "arch" v.arch
  let w := tagStr L w "variant" v.variant
  let w := tagStr L w "version" v.version
  (w.str "\n").dec

/-- /repo/yaml/pretty/pipeline.go:197-204 -/
def printPlatformDefault (L : PrettyLib) (w : Writer) : Writer :=
  let w := (writeTag L w "platform").inc
  let w := tagStr L w "os" "linux"
  let w := tagStr L w "arch" "amd64"
  (w.str "\n").dec

/-- /repo/yaml/pretty/pipeline.go:302-304 -/
def isEmptyDirEmpty (v : VolumeEmptyDir) : Bool := v.sizeLimit = 0 && v.medium.length = 0

/-- /repo/yaml/pretty/pipeline.go:213-228 -/
def printEmptyDir (L : PrettyLib) (s : Writer) (e : VolumeEmptyDir) : Writer :=
  let s := writeTag L s "temp"
  if isEmptyDirEmpty e then ((s.str " ").str "{").str "}"
  else
    let s := tagStr L s.inc "medium" e.medium
    (writeTagValue L s "size_limit" (.size e.sizeLimit)).dec

/-- /repo/yaml/pretty/pipeline.go:229-234 -/
def printHostPath (L : PrettyLib) (s : Writer) (h : VolumeHostPath) : Writer :=
  (tagStr L (writeTag L s "host").inc "path" h.path).dec

/-- Body of the loop in `printVolumes` (/repo/yaml/pretty/pipeline.go:209-237) -/
def printVolume (L : PrettyLib) (w : Writer) (v : Volume) : Writer := w.seq fun s =>
  let s := tagStr L s.inc "name" v.name
  let s := ifSome v.emptyDir (printEmptyDir L) s
  let s := ifSome v.hostPath (printHostPath L) s
  s.dec

/-- /repo/yaml/pretty/pipeline.go:207-238 -/
def printVolumes (L : PrettyLib) (w : Writer) (v : List (Option Volume)) : Option Writer :=
  eachEntry (printVolume L) v (writeTag L w "volumes")

/-- /repo/yaml/pretty/pipeline.go:241-248 -/
def printWorkspace (L : PrettyLib) (w : Writer) (v : Workspace) : Writer :=
  let w := (writeTag L w "workspace").inc
  let w := tagStr L w "base" v.base
  let w := tagStr L w "path" v.path
  (w.str "\n").dec

/-- /repo/yaml/pretty/pipeline.go:252-254 -/
def isWorkspaceEmpty (v : Workspace) : Bool := v.path = "" && v.base = ""

/-- /repo/yaml/pretty/pipeline.go:258-263 -/
def isPlatformEmpty (v : Platform) : Bool := v.os = "" && v.arch = "" && v.variant = "" && v.version = ""

/-- /repo/yaml/pretty/pipeline.go:267-271 -/
def isCloneEmpty (v : Clone) : Bool := v.depth = 0 && v.disable = false && v.skipVerify = false

/-- /repo/yaml/pretty/pipeline.go:275-277 -/
def isConcurrencyEmpty (v : Concurrency) : Bool := v.limit = 0

/-- The loops over steps and services (/repo/yaml/pretty/pipeline.go:47-56, 61-70); nil
containers are skipped. -/
def printContainers (L : PrettyLib) : List (Option Container) → Writer → Option Writer
  | [], w => some w
  | none :: cs, w => printContainers L cs w
  | some c :: cs, w =>
    (w.seq? fun s => (printContainer L s.inc c).map Writer.dec).bind (printContainers L cs)

/-- /repo/yaml/pretty/pipeline.go:22-99 -/
def printPipeline (L : PrettyLib) (w : Writer) (v : Pipeline) : Option Writer :=
  let w := w.str "---"
  let w := tagStr L w "version" v.version
  let w := tagStr L w "kind" v.kind
  let w := tagStr L w "type" v.type
  let w := tagStr L w "name" v.name
  let w := w.str "\n"
  let w := if isPlatformEmpty v.platform then printPlatformDefault L w else printPlatform L w v.platform
  let w := if isCloneEmpty v.clone then w else printClone L w v.clone
  let w := if isConcurrencyEmpty v.concurrency then w else printConcurrency L w v.concurrency
  let w := if isWorkspaceEmpty v.workspace then w else printWorkspace L w v.workspace
  (when? (v.steps.length > 0) (fun w => printContainers L v.steps (writeTag L w "steps")) w).bind fun w =>
  (when? (v.services.length > 0) (fun w => printContainers L v.services (writeTag L w "services")) w).bind fun w =>
  (when? (v.volumes.length ≠ 0) (fun w => (printVolumes L w v.volumes).map (·.str "\n")) w).map fun w =>
  let w := if v.pullSecrets.length > 0 then
      (writeTagValue L w "image_pull_secrets" (.strs v.pullSecrets)).str "\n" else w
  let w := if v.node.length > 0 then (writeTagValue L w "node" (.strMap v.node)).str "\n" else w
  let w := if isConditionsEmpty v.trigger then w else (printConditions L w "trigger" v.trigger).str "\n"
  let w := if v.dependsOn.length > 0 then (printDependsOn L w v.dependsOn).str "\n" else w
  w.str "\n"

/-! ### cron.go, signature.go, secret.go -/

/-- /repo/yaml/pretty/cron.go:20-49 -/
def printCron (L : PrettyLib) (w : Writer) (v : Cron) : Writer :=
  let w := w.str "---"
  let w := tagStr L w "version" v.version
  let w := tagStr L w "kind" v.kind
  let w := tagStr L w "name" v.name
  let w := (writeTag L w "spec").inc
  let w := tagStr L w "schedule" v.schedule
  let w := tagStr L w "branch" v.branch
  let w := if v.deployTarget ≠ "" then
      (tagStr L (writeTag L w "deployment").inc "target" v.deployTarget).dec else w
  (w.dec.str "\n").str "\n"

/-- /repo/yaml/pretty/signature.go:22-29 -/
def printSignature (L : PrettyLib) (w : Writer) (v : Signature) : Writer :=
  let w := w.str "---"
  let w := tagStr L w "version" v.version
  let w := tagStr L w "kind" v.kind
  let w := tagStr L w "hmac" v.hmac
  (w.str "\n").str "\n"

/-- `spaceReplacer` (/repo/yaml/pretty/secret.go:92) -/
def stripSpace (d : Bytes) : Bytes := d.filter fun b => b ≠ 32 ∧ b ≠ 10

/-- The loop of `printData` (/repo/yaml/pretty/secret.go:83-87) -/
def printChunks (w : Writer) : List Bytes → Writer
  | [] => w
  | s :: ss => printChunks ((w.str "\n").indent.bytes s) ss

/-- /repo/yaml/pretty/secret.go:77-89 -/
def printData (L : PrettyLib) (w : Writer) (d : String) : Writer :=
  let w := (((writeTag L w "data").str " ").str ">").inc
  (printChunks w (chunk (stripSpace (utf8 d)) 60)).dec

/-- /repo/yaml/pretty/secret.go:47-54 -/
def printGet (L : PrettyLib) (w : Writer) (v : SecretGet) : Writer :=
  let w := (writeTag L w "get").inc
  let w := tagStr L w "path" v.path
  let w := tagStr L w "name" v.name
  let w := tagStr L w "key" v.key
  w.dec

/-- /repo/yaml/pretty/secret.go:96-100 -/
def isSecretGetEmpty (v : SecretGet) : Bool := v.key = "" && v.name = "" && v.path = ""

/-- /repo/yaml/pretty/secret.go:27-44 -/
def printSecret (L : PrettyLib) (w : Writer) (v : Secret) : Writer :=
  let w := w.str "---"
  let w := tagStr L w "version" v.version
  let w := tagStr L w "kind" v.kind
  let w := tagStr L w "type" v.type
  let w := if v.data.length > 0 then printData L (tagStr L w "name" v.name) v.data else w
  let w := if isSecretGetEmpty v.get = false then
      printGet L ((tagStr L w "name" v.name).str "\n") v.get else w
  (w.str "\n").str "\n"

/-! ### pretty.go -/

/-- The switch at /repo/yaml/pretty/pretty.go:27-36; a registry prints nothing. -/
def printResource (L : PrettyLib) (w : Writer) : Resource → Option Writer
  | .cron c => some (printCron L w c)
  | .secret s => some (printSecret L w s)
  | .signature s => some (printSignature L w s)
  | .registry _ => some w
  | .pipeline p => printPipeline L w p

/-- The loop at /repo/yaml/pretty/pretty.go:26-37 -/
def printLoop (L : PrettyLib) : List Resource → Writer → Option Writer
  | [], w => some w
  | r :: rs, w => (printResource L w r).bind (printLoop L rs)

/-- `Print` (/repo/yaml/pretty/pretty.go:24-41): the bytes written. -/
def print (L : PrettyLib) (m : Manifest) : Option Bytes :=
  (printLoop L m.resources {}).map fun w => ((w.str "...").str "\n").buf

end Pretty
end Drone
