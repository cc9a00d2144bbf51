/-
JSON encoding of manifests: `Manifest.MarshalJSON` and `Manifest.UnmarshalJSON`
(/repo/yaml/manifest.go:66-103) with package encoding/json on the types of package yaml.  The library
is not part of /repo: what it is trusted to do is to write and read the values of a syntax tree, and
to fill structs, pointers, maps and slices from it as its documentation says.  The order of the keys
of a map is left out (the encoder sorts them, Go maps have no order).
-/
import Verif.Model.FloatText
import Verif.Model.ParseRaw

namespace Drone
namespace Json

/-- A JSON text as a tree.  Numbers without fraction and exponent are `int`. -/
inductive Tree where
  | null
  | bool (b : Bool)
  | int (i : Int)
  | float (q : Rat)
  | str (s : String)
  | arr (xs : List Tree)
  | obj (kvs : List (String × Tree))
  deriving Inhabited, Repr

/-! ### Encoding -/

/-- The fields of a struct; the Boolean says whether a field is written (`omitempty`). -/
def encObj (l : List (String × Bool × Tree)) : Tree :=
  .obj (l.filterMap fun f => if f.2.1 then some (f.1, f.2.2) else none)

def encStr (k s : String) : String × Bool × Tree := (k, s ≠ "", .str s)
def encBool (k : String) (b : Bool) : String × Bool × Tree := (k, b, .bool b)
def encInt (k : String) (i : Int) : String × Bool × Tree := (k, i ≠ 0, .int i)
def encStruct (k : String) (t : Tree) : String × Bool × Tree := (k, true, t)

/-- A pointer as an element of a slice or map -/
def encPtr {α : Type} (e : α → Tree) : Option α → Tree
  | none => .null
  | some x => e x

def encPtrField {α : Type} (k : String) (e : α → Tree) (o : Option α) : String × Bool × Tree := (k, o.isSome, encPtr e o)
def encList {α : Type} (k : String) (e : α → Tree) (l : List α) : String × Bool × Tree := (k, l.length ≠ 0, .arr (l.map e))
def encStrs (k : String) (l : List String) : String × Bool × Tree := encList k .str l
def encMap {α : Type} (k : String) (e : α → Tree) (m : GoMap α) : String × Bool × Tree :=
  (k, m.length ≠ 0, .obj (m.map fun kv => (kv.1, e kv.2)))

/-- The value of a number as `float64` -/
def toFloat (q : Rat) : Rat := if q < 0 then -F64.round (-q) else if q = 0 then 0 else F64.round q

/-- The number a text of digits stands for, which may have a sign in front. -/
def wholeOf : List Char → Int
  | '-' :: s => -(s.foldl (fun n c => 10 * n + (c.toNat - 48)) 0 : Nat)
  | s => (s.foldl (fun n c => 10 * n + (c.toNat - 48)) 0 : Nat)

/-- A `float64`, which is written with the shortest digits that identify it: whole numbers below 1e21
have no fraction, and zeros in place of the digits that are left out. -/
def encFloat (q : Rat) : Tree :=
  if '.' ∈ (FloatText.formatJson (toFloat q)).toList ∨ 'e' ∈ (FloatText.formatJson (toFloat q)).toList then
    .float (toFloat q)
  else .int (wholeOf (FloatText.formatJson (toFloat q)).toList)

mutual
/-- A value of type `interface{}`; maps are `map[interface{}]interface{}` and refused (see `plain`). -/
def encValue : Value → Tree
  | .null => .null
  | .bool b => .bool b
  | .int i => .int i
  | .float q => encFloat q
  | .str s => .str s
  | .seq xs => .arr (encValues xs)
  | .map _ => .null
def encValues : List Value → List Tree
  | [] => []
  | x :: xs => encValue x :: encValues xs
end

mutual
/-- The encoder knows the type of the value and of everything in it. -/
def plain : Value → Bool
  | .seq xs => plains xs
  | .map _ => false
  | _ => true
def plains : List Value → Bool
  | [] => true
  | x :: xs => plain x && plains xs
end

def isNull : Value → Bool
  | .null => true
  | _ => false

/-- /repo/yaml/cond.go:35-38 -/
def encCondition (c : Condition) : Tree := encObj [encStrs "include" c.incl, encStrs "exclude" c.excl]

/-- /repo/yaml/cond.go:20-32 -/
def encConditions (c : Conditions) : Tree :=
  encObj
    [ encStruct "action" (encCondition c.action), encStruct "cron" (encCondition c.cron),
      encStruct "ref" (encCondition c.ref), encStruct "repo" (encCondition c.repo),
      encStruct "instance" (encCondition c.inst), encStruct "target" (encCondition c.target),
      encStruct "event" (encCondition c.event), encStruct "branch" (encCondition c.branch),
      encStruct "status" (encCondition c.status), encStruct "paths" (encCondition c.paths),
      encMap "matrix" .str c.matrix ]

/-- /repo/yaml/env.go:21-24 -/
def encVariable (v : Variable) : Tree := encObj [encStr "value" v.value, encStr "from_secret" v.secret]

/-- /repo/yaml/param.go:21-24 -/
def encParameter (p : Parameter) : Tree :=
  encObj [("value", !isNull p.value, encValue p.value), encStr "from_secret" p.secret]

/-- /repo/yaml/build.go:19-26 -/
def encBuild (b : Build) : Tree :=
  encObj [encMap "args" .str b.args, encStrs "cache_from" b.cacheFrom, encStr "context" b.context,
    encStr "dockerfile" b.dockerfile, encStr "image" b.image, encMap "labels" .str b.labels]

/-- /repo/yaml/push.go:19-21 -/
def encPush (p : Push) : Tree := encObj [encStr "image" p.image]

/-- /repo/yaml/port.go:20-24 -/
def encPort (p : Port) : Tree := encObj [encInt "port" p.port, encInt "host" p.host, encStr "protocol" p.protocol]

/-- /repo/yaml/pipeline.go:101-104: no `omitempty` -/
def encResourceObject (o : ResourceObject) : Tree := encObj [("cpu", true, encFloat o.cpu), ("memory", true, .int o.memory)]

/-- /repo/yaml/pipeline.go:89-97 -/
def encResources (r : Resources) : Tree :=
  encObj [encPtrField "limits" encResourceObject r.limits, encPtrField "requests" encResourceObject r.requests]

/-- /repo/yaml/pipeline.go:123-126 -/
def encVolumeDevice (v : VolumeDevice) : Tree := encObj [encStr "name" v.name, encStr "path" v.devicePath]

/-- /repo/yaml/pipeline.go:130-133 -/
def encVolumeMount (v : VolumeMount) : Tree := encObj [encStr "name" v.name, encStr "path" v.mountPath]

/-- /repo/yaml/pipeline.go:138-141 -/
def encVolumeEmptyDir (v : VolumeEmptyDir) : Tree := encObj [encStr "medium" v.medium, encInt "size_limit" v.sizeLimit]

/-- /repo/yaml/pipeline.go:145-147 -/
def encVolumeHostPath (v : VolumeHostPath) : Tree := encObj [encStr "path" v.path]

/-- /repo/yaml/pipeline.go:115-119 -/
def encVolume (v : Volume) : Tree :=
  encObj [encStr "name" v.name, encPtrField "temp" encVolumeEmptyDir v.emptyDir,
    encPtrField "host" encVolumeHostPath v.hostPath]

/-- /repo/yaml/pipeline.go:58-85 -/
def encContainer (c : Container) : Tree :=
  encObj
    [ encPtrField "build" encBuild c.build, encStrs "command" c.command, encStrs "commands" c.commands,
      encBool "detach" c.detach, encStrs "depends_on" c.dependsOn,
      encList "devices" (encPtr encVolumeDevice) c.devices, encStrs "dns" c.dns, encStrs "dns_search" c.dnsSearch,
      encStrs "entrypoint" c.entrypoint, encMap "environment" (encPtr encVariable) c.environment,
      encStrs "extra_hosts" c.extraHosts, encStr "failure" c.failure, encStr "image" c.image,
      encStr "network_mode" c.network, encStr "name" c.name, encList "ports" (encPtr encPort) c.ports,
      encBool "privileged" c.privileged, encStr "pull" c.pull, encPtrField "push" encPush c.push,
      encPtrField "resources" encResources c.resources, encMap "settings" (encPtr encParameter) c.settings,
      encStr "shell" c.shell, encStr "user" c.user, encList "volumes" (encPtr encVolumeMount) c.volumes,
      encStruct "when" (encConditions c.cond), encStr "working_dir" c.workingDir ]

/-- /repo/yaml/pipeline.go:46-50 -/
def encClone (c : Clone) : Tree :=
  encObj [encBool "disable" c.disable, encInt "depth" c.depth, encBool "skip_verify" c.skipVerify]

/-- /repo/yaml/pipeline.go:107-112 -/
def encPlatform (p : Platform) : Tree :=
  encObj [encStr "os" p.os, encStr "arch" p.arch, encStr "variant" p.variant, encStr "version" p.version]

/-- /repo/yaml/pipeline.go:150-153 -/
def encWorkspace (w : Workspace) : Tree := encObj [encStr "base" w.base, encStr "path" w.path]

/-- /repo/yaml/pipeline.go:19-36, 53-55 -/
def encPipeline (p : Pipeline) : Tree :=
  encObj
    [ encStr "version" p.version, encStr "kind" p.kind, encStr "type" p.type, encStr "name" p.name,
      encStruct "clone" (encClone p.clone),
      encStruct "concurrency" (encObj [encInt "limit" p.concurrency.limit]),
      encStrs "depends_on" p.dependsOn, encMap "node" .str p.node, encStruct "platform" (encPlatform p.platform),
      encStrs "image_pull_secrets" p.pullSecrets, encList "services" (encPtr encContainer) p.services,
      encList "steps" (encPtr encContainer) p.steps, encStruct "trigger" (encConditions p.trigger),
      encList "volumes" (encPtr encVolume) p.volumes, encStruct "workspace" (encWorkspace p.workspace) ]

/-- /repo/yaml/cron.go:22-41 -/
def encCron (c : Cron) : Tree :=
  encObj
    [ encStr "version" c.version, encStr "kind" c.kind, encStr "type" c.type, encStr "name" c.name,
      encStruct "spec" (encObj [encStr "schedule" c.schedule, encStr "branch" c.branch,
        encStruct "deployment" (encObj [encStr "target" c.deployTarget])]) ]

/-- /repo/yaml/secret.go:25-42 -/
def encSecret (s : Secret) : Tree :=
  encObj
    [ encStr "version" s.version, encStr "kind" s.kind, encStr "type" s.type, encStr "name" s.name,
      encStr "data" s.data,
      encStruct "get" (encObj [encStr "path" s.get.path, encStr "name" s.get.name, encStr "key" s.get.key]) ]

/-- /repo/yaml/registry.go:23-29: the option of `version` is misspelt, so that it is always written -/
def encRegistry (r : Registry) : Tree :=
  encObj [("version", true, .str r.version), encStr "kind" r.kind, encStr "type" r.type, encMap "data" .str r.data]

/-- /repo/yaml/signature.go:24-28 -/
def encSignature (s : Signature) : Tree :=
  encObj [encStr "version" s.version, ("kind", true, .str s.kind), ("hmac", true, .str s.hmac)]

def encResource : Resource → Tree
  | .cron c => encCron c
  | .secret s => encSecret s
  | .signature s => encSignature s
  | .registry r => encRegistry r
  | .pipeline p => encPipeline p

/-- The encoder meets no map in a setting. -/
def plainContainer (c : Container) : Bool := c.settings.all fun kv => match kv.2 with
  | none => true
  | some p => plain p.value

def plainResource : Resource → Bool
  | .pipeline p => (p.services ++ p.steps).all fun o => match o with
    | none => true
    | some c => plainContainer c
  | _ => true

/-- `Manifest.MarshalJSON` (/repo/yaml/manifest.go:101-103) up to the text (`write` of `Model/JsonText`).
encoding/json writes the entries of a map sorted by key: the lists that stand for maps are taken to be
sorted.  A list of resources is taken not to be nil, which would be written as `null`. -/
def marshal (m : Manifest) : Except String Tree :=
  if m.resources.all plainResource then .ok (.arr (m.resources.map encResource))
  else .error "json: unsupported type: map[interface {}]interface {}"

/-! ### Decoding -/

/-- Filling a value: what it is afterwards, and whether a type error was recorded. -/
abbrev Dec (α : Type) := Tree → α → α × Bool

def decStr : Dec String
  | .str s, _ => (s, false)
  | .null, old => (old, false)
  | _, old => (old, true)

def decBool : Dec Bool
  | .bool b, _ => (b, false)
  | .null, old => (old, false)
  | _, old => (old, true)

/-- Into an `int` or `int64`, both of 64 bits: numbers out of range and those with a fraction or
exponent are refused. -/
def decInt : Dec Int
  | .int i, old => if -2 ^ 63 ≤ i ∧ i < 2 ^ 63 then (i, false) else (old, true)
  | .null, old => (old, false)
  | _, old => (old, true)

def decFloat : Dec Rat
  | .int i, _ => (toFloat i, false)
  | .float q, _ => (toFloat q, false)
  | .null, old => (old, false)
  | _, old => (old, true)

mutual
/-- Into `interface{}`: all numbers become `float64`; objects become `map[string]interface{}`, the
last of equal keys counts. -/
def anyValue : Tree → Value
  | .null => .null
  | .bool b => .bool b
  | .int i => .float (toFloat i)
  | .float q => .float (toFloat q)
  | .str s => .str s
  | .arr xs => .seq (anyValues xs)
  | .obj kvs => .map ((anyEntries kvs []).map fun kv => (.str kv.1, kv.2))
def anyValues : List Tree → List Value
  | [] => []
  | x :: xs => anyValue x :: anyValues xs
def anyEntries : List (String × Tree) → GoMap Value → GoMap Value
  | [], m => m
  | (k, t) :: kvs, m => anyEntries kvs (m.set k (anyValue t))
end

def decAny : Dec Value := fun t _ => (anyValue t, false)

/-- Elements of a slice are new. -/
def decElems {α : Type} (zero : α) (d : Dec α) : List Tree → List α × Bool
  | [] => ([], false)
  | x :: xs =>
    let r := d x zero
    let rs := decElems zero d xs
    (r.1 :: rs.1, r.2 || rs.2)

def decSlice {α : Type} (zero : α) (d : Dec α) : Dec (List α)
  | .arr xs, _ => decElems zero d xs
  | .null, _ => ([], false)
  | _, old => (old, true)

def decEntries {α : Type} (zero : α) (d : Dec α) : List (String × Tree) → GoMap α → GoMap α × Bool
  | [], m => (m, false)
  | (k, t) :: kvs, m =>
    let r := d t zero
    let rs := decEntries zero d kvs (m.set k r.1)
    (rs.1, r.2 || rs.2)

def decMap {α : Type} (zero : α) (d : Dec α) : Dec (GoMap α)
  | .obj kvs, old => decEntries zero d kvs old
  | .null, _ => ([], false)
  | _, old => (old, true)

def decPtr {α : Type} (zero : α) (d : Dec α) : Dec (Option α)
  | .null, _ => (none, false)
  | t, old =>
    let r := d t (old.getD zero)
    (some r.1, r.2)

/-- A field of a struct: its name, and how it is filled. -/
abbrev Field (σ : Type) := String × (Tree → σ → σ × Bool)

def field {σ α : Type} (name : String) (get : σ → α) (set : σ → α → σ) (d : Dec α) : Field σ :=
  (name, fun t s => let r := d t (get s); (set s r.1, r.2))

/-- The field for a key: the one of this name, else the first one whose name is the same up to case;
`fold` compares up to case. -/
def findField {σ : Type} (fold : String → String → Bool) (fs : List (Field σ)) (k : String) :
    Option (Tree → σ → σ × Bool) :=
  match fs.find? (fun f => f.1 = k) with
  | some f => some f.2
  | none => (fs.find? fun f => fold f.1 k).map (·.2)

def decFields {σ : Type} (fold : String → String → Bool) (fs : List (Field σ)) : List (String × Tree) → σ → σ × Bool
  | [], s => (s, false)
  | (k, t) :: kvs, s =>
    match findField fold fs k with
    | none => decFields fold fs kvs s
    | some d =>
      let r := d t s
      let rs := decFields fold fs kvs r.1
      (rs.1, r.2 || rs.2)

def decStruct {σ : Type} (fold : String → String → Bool) (fs : List (Field σ)) : Dec σ
  | .obj kvs, s => decFields fold fs kvs s
  | .null, s => (s, false)
  | _, s => (s, true)

section
variable (fold : String → String → Bool)

/-- `[]string` -/
def decStrs : Dec (List String) := decSlice "" decStr
/-- `map[string]string` -/
def decStrMap : Dec (GoMap String) := decMap "" decStr

/-- /repo/yaml/cond.go:35-38 -/
def decCondition : Dec Condition := decStruct fold
  [ field "include" Condition.incl (fun s v => { s with incl := v }) decStrs,
    field "exclude" Condition.excl (fun s v => { s with excl := v }) decStrs ]

/-- /repo/yaml/cond.go:20-32 -/
def decConditions : Dec Conditions := decStruct fold
  [ field "action" Conditions.action (fun s v => { s with action := v }) (decCondition fold),
    field "cron" Conditions.cron (fun s v => { s with cron := v }) (decCondition fold),
    field "ref" Conditions.ref (fun s v => { s with ref := v }) (decCondition fold),
    field "repo" Conditions.repo (fun s v => { s with repo := v }) (decCondition fold),
    field "instance" Conditions.inst (fun s v => { s with inst := v }) (decCondition fold),
    field "target" Conditions.target (fun s v => { s with target := v }) (decCondition fold),
    field "event" Conditions.event (fun s v => { s with event := v }) (decCondition fold),
    field "branch" Conditions.branch (fun s v => { s with branch := v }) (decCondition fold),
    field "status" Conditions.status (fun s v => { s with status := v }) (decCondition fold),
    field "paths" Conditions.paths (fun s v => { s with paths := v }) (decCondition fold),
    field "matrix" Conditions.matrix (fun s v => { s with matrix := v }) decStrMap ]

/-- /repo/yaml/env.go:21-24 -/
def decVariable : Dec Variable := decStruct fold
  [ field "value" Variable.value (fun s v => { s with value := v }) decStr,
    field "from_secret" Variable.secret (fun s v => { s with secret := v }) decStr ]

/-- /repo/yaml/param.go:21-24 -/
def decParameter : Dec Parameter := decStruct fold
  [ field "value" Parameter.value (fun s v => { s with value := v }) decAny,
    field "from_secret" Parameter.secret (fun s v => { s with secret := v }) decStr ]

/-- /repo/yaml/build.go:19-26 -/
def decBuild : Dec Build := decStruct fold
  [ field "args" Build.args (fun s v => { s with args := v }) decStrMap,
    field "cache_from" Build.cacheFrom (fun s v => { s with cacheFrom := v }) decStrs,
    field "context" Build.context (fun s v => { s with context := v }) decStr,
    field "dockerfile" Build.dockerfile (fun s v => { s with dockerfile := v }) decStr,
    field "image" Build.image (fun s v => { s with image := v }) decStr,
    field "labels" Build.labels (fun s v => { s with labels := v }) decStrMap ]

/-- /repo/yaml/push.go:19-21 -/
def decPush : Dec Push := decStruct fold [ field "image" Push.image (fun s v => { s with image := v }) decStr ]

/-- /repo/yaml/port.go:20-24 -/
def decPort : Dec Port := decStruct fold
  [ field "port" Port.port (fun s v => { s with port := v }) decInt,
    field "host" Port.host (fun s v => { s with host := v }) decInt,
    field "protocol" Port.protocol (fun s v => { s with protocol := v }) decStr ]

/-- /repo/yaml/pipeline.go:101-104 -/
def decResourceObject : Dec ResourceObject := decStruct fold
  [ field "cpu" ResourceObject.cpu (fun s v => { s with cpu := v }) decFloat,
    field "memory" ResourceObject.memory (fun s v => { s with memory := v }) decInt ]

/-- /repo/yaml/pipeline.go:89-97 -/
def decResources : Dec Resources := decStruct fold
  [ field "limits" Resources.limits (fun s v => { s with limits := v }) (decPtr {} (decResourceObject fold)),
    field "requests" Resources.requests (fun s v => { s with requests := v }) (decPtr {} (decResourceObject fold)) ]

/-- /repo/yaml/pipeline.go:123-126 -/
def decVolumeDevice : Dec VolumeDevice := decStruct fold
  [ field "name" VolumeDevice.name (fun s v => { s with name := v }) decStr,
    field "path" VolumeDevice.devicePath (fun s v => { s with devicePath := v }) decStr ]

/-- /repo/yaml/pipeline.go:130-133 -/
def decVolumeMount : Dec VolumeMount := decStruct fold
  [ field "name" VolumeMount.name (fun s v => { s with name := v }) decStr,
    field "path" VolumeMount.mountPath (fun s v => { s with mountPath := v }) decStr ]

/-- /repo/yaml/pipeline.go:138-141 -/
def decVolumeEmptyDir : Dec VolumeEmptyDir := decStruct fold
  [ field "medium" VolumeEmptyDir.medium (fun s v => { s with medium := v }) decStr,
    field "size_limit" VolumeEmptyDir.sizeLimit (fun s v => { s with sizeLimit := v }) decInt ]

/-- /repo/yaml/pipeline.go:145-147 -/
def decVolumeHostPath : Dec VolumeHostPath := decStruct fold
  [ field "path" VolumeHostPath.path (fun s v => { s with path := v }) decStr ]

/-- /repo/yaml/pipeline.go:115-119 -/
def decVolume : Dec Volume := decStruct fold
  [ field "name" Volume.name (fun s v => { s with name := v }) decStr,
    field "temp" Volume.emptyDir (fun s v => { s with emptyDir := v }) (decPtr {} (decVolumeEmptyDir fold)),
    field "host" Volume.hostPath (fun s v => { s with hostPath := v }) (decPtr {} (decVolumeHostPath fold)) ]

/-- /repo/yaml/pipeline.go:58-85 -/
def decContainer : Dec Container := decStruct fold
  [ field "build" Container.build (fun s v => { s with build := v }) (decPtr {} (decBuild fold)),
    field "command" Container.command (fun s v => { s with command := v }) decStrs,
    field "commands" Container.commands (fun s v => { s with commands := v }) decStrs,
    field "detach" Container.detach (fun s v => { s with detach := v }) decBool,
    field "depends_on" Container.dependsOn (fun s v => { s with dependsOn := v }) decStrs,
    field "devices" Container.devices (fun s v => { s with devices := v }) (decSlice none (decPtr {} (decVolumeDevice fold))),
    field "dns" Container.dns (fun s v => { s with dns := v }) decStrs,
    field "dns_search" Container.dnsSearch (fun s v => { s with dnsSearch := v }) decStrs,
    field "entrypoint" Container.entrypoint (fun s v => { s with entrypoint := v }) decStrs,
    field "environment" Container.environment (fun s v => { s with environment := v })
      (decMap none (decPtr {} (decVariable fold))),
    field "extra_hosts" Container.extraHosts (fun s v => { s with extraHosts := v }) decStrs,
    field "failure" Container.failure (fun s v => { s with failure := v }) decStr,
    field "image" Container.image (fun s v => { s with image := v }) decStr,
    field "network_mode" Container.network (fun s v => { s with network := v }) decStr,
    field "name" Container.name (fun s v => { s with name := v }) decStr,
    field "ports" Container.ports (fun s v => { s with ports := v }) (decSlice none (decPtr {} (decPort fold))),
    field "privileged" Container.privileged (fun s v => { s with privileged := v }) decBool,
    field "pull" Container.pull (fun s v => { s with pull := v }) decStr,
    field "push" Container.push (fun s v => { s with push := v }) (decPtr {} (decPush fold)),
    field "resources" Container.resources (fun s v => { s with resources := v }) (decPtr {} (decResources fold)),
    field "settings" Container.settings (fun s v => { s with settings := v })
      (decMap none (decPtr {} (decParameter fold))),
    field "shell" Container.shell (fun s v => { s with shell := v }) decStr,
    field "user" Container.user (fun s v => { s with user := v }) decStr,
    field "volumes" Container.volumes (fun s v => { s with volumes := v }) (decSlice none (decPtr {} (decVolumeMount fold))),
    field "when" Container.cond (fun s v => { s with cond := v }) (decConditions fold),
    field "working_dir" Container.workingDir (fun s v => { s with workingDir := v }) decStr ]

/-- /repo/yaml/pipeline.go:46-50 -/
def decClone : Dec Clone := decStruct fold
  [ field "disable" Clone.disable (fun s v => { s with disable := v }) decBool,
    field "depth" Clone.depth (fun s v => { s with depth := v }) decInt,
    field "skip_verify" Clone.skipVerify (fun s v => { s with skipVerify := v }) decBool ]

/-- /repo/yaml/pipeline.go:53-55 -/
def decConcurrency : Dec Concurrency := decStruct fold
  [ field "limit" Concurrency.limit (fun s v => { s with limit := v }) decInt ]

/-- /repo/yaml/pipeline.go:107-112 -/
def decPlatform : Dec Platform := decStruct fold
  [ field "os" Platform.os (fun s v => { s with os := v }) decStr,
    field "arch" Platform.arch (fun s v => { s with arch := v }) decStr,
    field "variant" Platform.variant (fun s v => { s with variant := v }) decStr,
    field "version" Platform.version (fun s v => { s with version := v }) decStr ]

/-- /repo/yaml/pipeline.go:150-153 -/
def decWorkspace : Dec Workspace := decStruct fold
  [ field "base" Workspace.base (fun s v => { s with base := v }) decStr,
    field "path" Workspace.path (fun s v => { s with path := v }) decStr ]

/-- /repo/yaml/pipeline.go:19-36 -/
def decPipeline : Dec Pipeline := decStruct fold
  [ field "version" Pipeline.version (fun s v => { s with version := v }) decStr,
    field "kind" Pipeline.kind (fun s v => { s with kind := v }) decStr,
    field "type" Pipeline.type (fun s v => { s with type := v }) decStr,
    field "name" Pipeline.name (fun s v => { s with name := v }) decStr,
    field "clone" Pipeline.clone (fun s v => { s with clone := v }) (decClone fold),
    field "concurrency" Pipeline.concurrency (fun s v => { s with concurrency := v }) (decConcurrency fold),
    field "depends_on" Pipeline.dependsOn (fun s v => { s with dependsOn := v }) decStrs,
    field "node" Pipeline.node (fun s v => { s with node := v }) decStrMap,
    field "platform" Pipeline.platform (fun s v => { s with platform := v }) (decPlatform fold),
    field "image_pull_secrets" Pipeline.pullSecrets (fun s v => { s with pullSecrets := v }) decStrs,
    field "services" Pipeline.services (fun s v => { s with services := v }) (decSlice none (decPtr {} (decContainer fold))),
    field "steps" Pipeline.steps (fun s v => { s with steps := v }) (decSlice none (decPtr {} (decContainer fold))),
    field "trigger" Pipeline.trigger (fun s v => { s with trigger := v }) (decConditions fold),
    field "volumes" Pipeline.volumes (fun s v => { s with volumes := v }) (decSlice none (decPtr {} (decVolume fold))),
    field "workspace" Pipeline.workspace (fun s v => { s with workspace := v }) (decWorkspace fold) ]

/-- /repo/yaml/cron.go:39-41 -/
structure CronDeployment where
  target : String := ""

/-- /repo/yaml/cron.go:32-36 -/
structure CronSpec where
  schedule : String := ""
  branch : String := ""
  deploy : CronDeployment := {}

def decCronDeployment : Dec CronDeployment := decStruct fold
  [ field "target" CronDeployment.target (fun s v => { s with target := v }) decStr ]

def decCronSpec : Dec CronSpec := decStruct fold
  [ field "schedule" CronSpec.schedule (fun s v => { s with schedule := v }) decStr,
    field "branch" CronSpec.branch (fun s v => { s with branch := v }) decStr,
    field "deployment" CronSpec.deploy (fun s v => { s with deploy := v }) (decCronDeployment fold) ]

/-- /repo/yaml/cron.go:22-29: the members of `spec` and `deployment` are fields of the record -/
def decCron : Dec Cron := decStruct fold
  [ field "version" Cron.version (fun s v => { s with version := v }) decStr,
    field "kind" Cron.kind (fun s v => { s with kind := v }) decStr,
    field "type" Cron.type (fun s v => { s with type := v }) decStr,
    field "name" Cron.name (fun s v => { s with name := v }) decStr,
    field "spec" (fun s => ⟨s.schedule, s.branch, ⟨s.deployTarget⟩⟩)
      (fun s v => { s with schedule := v.schedule, branch := v.branch, deployTarget := v.deploy.target })
      (decCronSpec fold) ]

/-- /repo/yaml/secret.go:38-42 -/
def decSecretGet : Dec SecretGet := decStruct fold
  [ field "path" SecretGet.path (fun s v => { s with path := v }) decStr,
    field "name" SecretGet.name (fun s v => { s with name := v }) decStr,
    field "key" SecretGet.key (fun s v => { s with key := v }) decStr ]

/-- /repo/yaml/secret.go:25-33 -/
def decSecret : Dec Secret := decStruct fold
  [ field "version" Secret.version (fun s v => { s with version := v }) decStr,
    field "kind" Secret.kind (fun s v => { s with kind := v }) decStr,
    field "type" Secret.type (fun s v => { s with type := v }) decStr,
    field "name" Secret.name (fun s v => { s with name := v }) decStr,
    field "data" Secret.data (fun s v => { s with data := v }) decStr,
    field "get" Secret.get (fun s v => { s with get := v }) (decSecretGet fold) ]

/-- /repo/yaml/registry.go:23-29 -/
def decRegistry : Dec Registry := decStruct fold
  [ field "version" Registry.version (fun s v => { s with version := v }) decStr,
    field "kind" Registry.kind (fun s v => { s with kind := v }) decStr,
    field "type" Registry.type (fun s v => { s with type := v }) decStr,
    field "data" Registry.data (fun s v => { s with data := v }) decStrMap ]

/-- /repo/yaml/signature.go:24-28 -/
def decSignature : Dec Signature := decStruct fold
  [ field "version" Signature.version (fun s v => { s with version := v }) decStr,
    field "kind" Signature.kind (fun s v => { s with kind := v }) decStr,
    field "hmac" Signature.hmac (fun s v => { s with hmac := v }) decStr ]

/-- The type `resource` (/repo/yaml/manifest.go:58-62) -/
structure Header where
  version : String := ""
  kind : String := ""
  type : String := ""

/-- /repo/yaml/manifest.go:58-62: the first field has no tag -/
def decHeader : Dec Header := decStruct fold
  [ field "Version" Header.version (fun s v => { s with version := v }) decStr,
    field "kind" Header.kind (fun s v => { s with kind := v }) decStr,
    field "type" Header.type (fun s v => { s with type := v }) decStr ]

/-- `json.Unmarshal` into a new value -/
def fill {α : Type} (zero : α) (d : Dec α) (t : Tree) : Except String α :=
  let r := d t zero
  if r.2 then .error "json: cannot unmarshal" else .ok r.1

/-- What encoding/json does for `Manifest.UnmarshalJSON` (the model of which is `unmarshalJSON`);
`read` is its parser. -/
def lib (read : Bytes → Except String Tree) : JsonLib Tree where
  messages b := match read b with
    | .ok (.arr ts) => .ok ts
    | .ok .null => .ok []
    | .ok _ => .error "json: cannot unmarshal"
    | .error e => .error e
  kind t := (fill {} (decHeader fold) t).map Header.kind
  resource ty t := match ty with
    | .cron => (fill {} (decCron fold) t).map .cron
    | .secret => (fill {} (decSecret fold) t).map .secret
    | .signature => (fill {} (decSignature fold) t).map .signature
    | .registry => (fill {} (decRegistry fold) t).map .registry
    | .pipeline => (fill {} (decPipeline fold) t).map .pipeline

end

end Json
end Drone
