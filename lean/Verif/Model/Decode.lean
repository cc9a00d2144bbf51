/-
The decoders of package yaml: the `UnmarshalYAML` methods and the struct tags of /repo/yaml/*.go,
on top of the tree decoder of Model/Node.lean.
-/
import Verif.Model.Node
import Verif.Model.ParseRaw

namespace Drone
namespace Yaml

/-- `[]string` -/
def decStrings : Dec (List String) := decSlice "" decString

/-- `map[string]string` -/
def decStringMap : Dec (GoMap String) := decMap "" decString

/-- The anonymous struct at /repo/yaml/cond.go:81-84 -/
def decInclExcl : Dec Condition := decStruct {} fun k =>
  List.lookup k
  [ ("include", field Condition.incl (fun s v => { s with incl := v }) decStrings),
    ("exclude", field Condition.excl (fun s v => { s with excl := v }) decStrings) ]

/-- `Condition.UnmarshalYAML` (/repo/yaml/cond.go:78-102): it never fails. In the first case
`Exclude` is left alone. -/
def unmarshalCondition (n : Node) (old : Condition) : Condition × Bool :=
  let out1 := decString n ""
  if out1.err = false then ({ old with incl := [out1.val] }, false)
  else
    let out2 := decStrings n []
    let out3 := decInclExcl n {}
    ({ incl := out3.val.incl ++ out2.val, excl := out3.val.excl }, false)

def decCondition : Dec Condition := custom {} unmarshalCondition

/-- /repo/yaml/cond.go:20-32 -/
def conditionsFields : List (String × Field Conditions) :=
  [ ("action", field Conditions.action (fun s v => { s with action := v }) decCondition),
    ("cron", field Conditions.cron (fun s v => { s with cron := v }) decCondition),
    ("ref", field Conditions.ref (fun s v => { s with ref := v }) decCondition),
    ("repo", field Conditions.repo (fun s v => { s with repo := v }) decCondition),
    ("instance", field Conditions.inst (fun s v => { s with inst := v }) decCondition),
    ("target", field Conditions.target (fun s v => { s with target := v }) decCondition),
    ("event", field Conditions.event (fun s v => { s with event := v }) decCondition),
    ("branch", field Conditions.branch (fun s v => { s with branch := v }) decCondition),
    ("status", field Conditions.status (fun s v => { s with status := v }) decCondition),
    ("paths", field Conditions.paths (fun s v => { s with paths := v }) decCondition),
    ("matrix", field Conditions.matrix (fun s v => { s with matrix := v }) decStringMap) ]

def decConditions : Dec Conditions := decStruct {} fun k => conditionsFields.lookup k

/-- The type `push` (/repo/yaml/push.go:25-27) -/
def decPushLong : Dec Push := decStruct {} fun k =>
  List.lookup k
  [ ("image", field Push.image (fun s v => { s with image := v }) decString) ]

/-- `Push.UnmarshalYAML` (/repo/yaml/push.go:31-39) -/
def unmarshalPush (n : Node) (_ : Push) : Push × Bool :=
  let r := decString n ""
  if r.err = false then ({ image := r.val }, false)
  else
    let d := decPushLong n {}
    (d.val, d.err)

/-- The type `build` (/repo/yaml/build.go:30-37) -/
def buildLongFields : List (String × Field Build) :=
  [ ("args", field Build.args (fun s v => { s with args := v }) decStringMap),
    ("cache_from", field Build.cacheFrom (fun s v => { s with cacheFrom := v }) decStrings),
    ("context", field Build.context (fun s v => { s with context := v }) decString),
    ("dockerfile", field Build.dockerfile (fun s v => { s with dockerfile := v }) decString),
    ("image", field Build.image (fun s v => { s with image := v }) decString),
    ("labels", field Build.labels (fun s v => { s with labels := v }) decStringMap) ]

def decBuildLong : Dec Build := decStruct {} fun k => buildLongFields.lookup k

/-- `Build.UnmarshalYAML` (/repo/yaml/build.go:41-54) -/
def unmarshalBuild (n : Node) (_ : Build) : Build × Bool :=
  let r := decString n ""
  if r.err = false then ({ image := r.val }, false)
  else
    let d := decBuildLong n {}
    (d.val, d.err)

/-- The type `port` (/repo/yaml/port.go:26-30) -/
def decPortLong : Dec Port := decStruct {} fun k =>
  List.lookup k
  [ ("port", field Port.port (fun s v => { s with port := v }) decInt),
    ("host", field Port.host (fun s v => { s with host := v }) decInt),
    ("protocol", field Port.protocol (fun s v => { s with protocol := v }) decString) ]

/-- `Port.UnmarshalYAML` (/repo/yaml/port.go:34-44) -/
def unmarshalPort (n : Node) (_ : Port) : Port × Bool :=
  let r := decInt n 0
  if r.err = false then ({ port := r.val }, false)
  else
    let d := decPortLong n {}
    (d.val, d.err)

/-- The type `variable` (/repo/yaml/env.go:28-31) -/
def decVariableLong : Dec Variable := decStruct {} fun k =>
  List.lookup k
  [ ("value", field Variable.value (fun s v => { s with value := v }) decString),
    ("from_secret", field Variable.secret (fun s v => { s with secret := v }) decString) ]

/-- `Variable.UnmarshalYAML` (/repo/yaml/env.go:35-44) -/
def unmarshalVariable (n : Node) (_ : Variable) : Variable × Bool :=
  let r := decString n ""
  if r.err = false then ({ value := r.val }, false)
  else
    let d := decVariableLong n {}
    (d.val, d.err)

/-- `Variable.MarshalYAML` (/repo/yaml/env.go:47-57), as the tree the encoder writes -/
def marshalVariable (v : Variable) : Node :=
  if v.secret ≠ "" then .map [(.scalar "from_secret" .str, .scalar v.secret .str)]
  else if v.value ≠ "" then .scalar v.value .str
  else .null

/-- The type `parameter` (/repo/yaml/param.go:28-30) -/
def decParameterLong : Dec String := decStruct "" fun k =>
  List.lookup k
  [ ("from_secret", field id (fun _ v => v) decString) ]

/-- `Parameter.UnmarshalYAML` (/repo/yaml/param.go:34-45) -/
def unmarshalParameter (n : Node) (old : Parameter) : Parameter × Bool :=
  let d := decParameterLong n ""
  if d.err = false ∧ d.val ≠ "" then ({ old with secret := d.val }, false)
  else
    let i := decAny n .null
    ({ old with value := i.val }, i.err)

/-- The encoder on a `float64`: it writes the shortest text that stands for the number, without a
fraction or exponent for whole numbers of up to six digits (`strconv.FormatFloat(f, 'g', -1, 64)`).
These are read as integers. -/
def floatNode (text : Rat → String) (q : Rat) : Node :=
  .scalar (text q) (if q.den = 1 ∧ q.num.natAbs < 1000000 then .int q.num else .float q)

mutual
/-- The encoder on a decoded value: the tree it writes. `text` renders numbers. -/
def valueNode (text : Value → String) : Value → Node
  | .null => .null
  | .bool b => .scalar (text (.bool b)) (.bool b)
  | .int i => .scalar (text (.int i)) (.int i)
  | .float q => floatNode (fun q => text (.float q)) q
  | .str s => .scalar s .str
  | .seq xs => .seq (valueNodes text xs)
  | .map kvs => .map (entryNodes text kvs)
def valueNodes (text : Value → String) : List Value → List Node
  | [] => []
  | x :: xs => valueNode text x :: valueNodes text xs
def entryNodes (text : Value → String) : List (Value × Value) → List (Node × Node)
  | [] => []
  | (k, v) :: kvs => (valueNode text k, valueNode text v) :: entryNodes text kvs
end

/-- `Parameter.MarshalYAML` (/repo/yaml/param.go:48-58) -/
def marshalParameter (text : Value → String) (p : Parameter) : Node :=
  if p.secret ≠ "" then .map [(.scalar "from_secret" .str, .scalar p.secret .str)]
  else match p.value with
    | .str "" => .null
    | v => valueNode text v

/-- `BytesSize.UnmarshalYAML` (/repo/yaml/unit.go:27-44); `ram` is `units.RAMInBytes` -/
def unmarshalBytes (ram : String → Option Int) (n : Node) (old : Int) : Int × Bool :=
  let r := decInt n 0
  if r.err = false then (r.val, false)
  else
    let s := decString n ""
    if s.err then (old, true)
    else match ram s.val with
      | some i => (i, false)
      | none => (old, true)

/-! ### The structs -/

def decBytes (ram : String → Option Int) : Dec Int := custom 0 (unmarshalBytes ram)

/-- /repo/yaml/pipeline.go:101-104 -/
def decResourceObject (ram : String → Option Int) : Dec ResourceObject := decStruct {} fun k =>
  List.lookup k
  [ ("cpu", field ResourceObject.cpu (fun s v => { s with cpu := v }) decFloat),
    ("memory", field ResourceObject.memory (fun s v => { s with memory := v }) (decBytes ram)) ]

/-- /repo/yaml/pipeline.go:89-97 -/
def decResources (ram : String → Option Int) : Dec Resources := decStruct {} fun k =>
  List.lookup k
  [ ("limits", field Resources.limits (fun s v => { s with limits := v }) (decPtr {} (decResourceObject ram))),
    ("requests", field Resources.requests (fun s v => { s with requests := v }) (decPtr {} (decResourceObject ram))) ]

/-- /repo/yaml/pipeline.go:123-126 -/
def decVolumeDevice : Dec VolumeDevice := decStruct {} fun k =>
  List.lookup k
  [ ("name", field VolumeDevice.name (fun s v => { s with name := v }) decString),
    ("path", field VolumeDevice.devicePath (fun s v => { s with devicePath := v }) decString) ]

/-- /repo/yaml/pipeline.go:130-133 -/
def decVolumeMount : Dec VolumeMount := decStruct {} fun k =>
  List.lookup k
  [ ("name", field VolumeMount.name (fun s v => { s with name := v }) decString),
    ("path", field VolumeMount.mountPath (fun s v => { s with mountPath := v }) decString) ]

/-- /repo/yaml/pipeline.go:138-141 -/
def decVolumeEmptyDir (ram : String → Option Int) : Dec VolumeEmptyDir := decStruct {} fun k =>
  List.lookup k
  [ ("medium", field VolumeEmptyDir.medium (fun s v => { s with medium := v }) decString),
    ("size_limit", field VolumeEmptyDir.sizeLimit (fun s v => { s with sizeLimit := v }) (decBytes ram)) ]

/-- /repo/yaml/pipeline.go:145-147 -/
def decVolumeHostPath : Dec VolumeHostPath := decStruct {} fun k =>
  List.lookup k
  [ ("path", field VolumeHostPath.path (fun s v => { s with path := v }) decString) ]

/-- /repo/yaml/pipeline.go:115-119 -/
def decVolume (ram : String → Option Int) : Dec Volume := decStruct {} fun k =>
  List.lookup k
  [ ("name", field Volume.name (fun s v => { s with name := v }) decString),
    ("temp", field Volume.emptyDir (fun s v => { s with emptyDir := v }) (decPtr {} (decVolumeEmptyDir ram))),
    ("host", field Volume.hostPath (fun s v => { s with hostPath := v }) (decPtr {} decVolumeHostPath)) ]

/-- /repo/yaml/pipeline.go:58-85 -/
def containerFields (ram : String → Option Int) : List (String × Field Container) :=
  [ ("build", field Container.build (fun s v => { s with build := v }) (decPtr {} (custom {} unmarshalBuild))),
    ("command", field Container.command (fun s v => { s with command := v }) decStrings),
    ("commands", field Container.commands (fun s v => { s with commands := v }) decStrings),
    ("detach", field Container.detach (fun s v => { s with detach := v }) decBool),
    ("depends_on", field Container.dependsOn (fun s v => { s with dependsOn := v }) decStrings),
    ("devices", field Container.devices (fun s v => { s with devices := v })
      (decSlice none (decPtr {} decVolumeDevice))),
    ("dns", field Container.dns (fun s v => { s with dns := v }) decStrings),
    ("dns_search", field Container.dnsSearch (fun s v => { s with dnsSearch := v }) decStrings),
    ("entrypoint", field Container.entrypoint (fun s v => { s with entrypoint := v }) decStrings),
    ("environment", field Container.environment (fun s v => { s with environment := v })
      (decMap none (decPtr {} (custom {} unmarshalVariable)))),
    ("extra_hosts", field Container.extraHosts (fun s v => { s with extraHosts := v }) decStrings),
    ("failure", field Container.failure (fun s v => { s with failure := v }) decString),
    ("image", field Container.image (fun s v => { s with image := v }) decString),
    ("network_mode", field Container.network (fun s v => { s with network := v }) decString),
    ("name", field Container.name (fun s v => { s with name := v }) decString),
    ("ports", field Container.ports (fun s v => { s with ports := v })
      (decSlice none (decPtr {} (custom {} unmarshalPort)))),
    ("privileged", field Container.privileged (fun s v => { s with privileged := v }) decBool),
    ("pull", field Container.pull (fun s v => { s with pull := v }) decString),
    ("push", field Container.push (fun s v => { s with push := v }) (decPtr {} (custom {} unmarshalPush))),
    ("resources", field Container.resources (fun s v => { s with resources := v }) (decPtr {} (decResources ram))),
    ("settings", field Container.settings (fun s v => { s with settings := v })
      (decMap none (decPtr {} (custom {} unmarshalParameter)))),
    ("shell", field Container.shell (fun s v => { s with shell := v }) decString),
    ("user", field Container.user (fun s v => { s with user := v }) decString),
    ("volumes", field Container.volumes (fun s v => { s with volumes := v })
      (decSlice none (decPtr {} decVolumeMount))),
    ("when", field Container.cond (fun s v => { s with cond := v }) decConditions),
    ("working_dir", field Container.workingDir (fun s v => { s with workingDir := v }) decString) ]

def decContainer (ram : String → Option Int) : Dec Container := decStruct {} fun k => (containerFields ram).lookup k

/-- /repo/yaml/pipeline.go:46-50 -/
def decClone : Dec Clone := decStruct {} fun k =>
  List.lookup k
  [ ("disable", field Clone.disable (fun s v => { s with disable := v }) decBool),
    ("depth", field Clone.depth (fun s v => { s with depth := v }) decInt),
    ("skip_verify", field Clone.skipVerify (fun s v => { s with skipVerify := v }) decBool) ]

/-- /repo/yaml/pipeline.go:53-55 -/
def decConcurrency : Dec Concurrency := decStruct {} fun k =>
  List.lookup k
  [ ("limit", field Concurrency.limit (fun s v => { s with limit := v }) decInt) ]

/-- /repo/yaml/pipeline.go:107-112 -/
def decPlatform : Dec Platform := decStruct {} fun k =>
  List.lookup k
  [ ("os", field Platform.os (fun s v => { s with os := v }) decString),
    ("arch", field Platform.arch (fun s v => { s with arch := v }) decString),
    ("variant", field Platform.variant (fun s v => { s with variant := v }) decString),
    ("version", field Platform.version (fun s v => { s with version := v }) decString) ]

/-- /repo/yaml/pipeline.go:150-153 -/
def decWorkspace : Dec Workspace := decStruct {} fun k =>
  List.lookup k
  [ ("base", field Workspace.base (fun s v => { s with base := v }) decString),
    ("path", field Workspace.path (fun s v => { s with path := v }) decString) ]

/-- /repo/yaml/pipeline.go:19-36 -/
def pipelineFields (ram : String → Option Int) : List (String × Field Pipeline) :=
  [ ("version", field Pipeline.version (fun s v => { s with version := v }) decString),
    ("kind", field Pipeline.kind (fun s v => { s with kind := v }) decString),
    ("type", field Pipeline.type (fun s v => { s with type := v }) decString),
    ("name", field Pipeline.name (fun s v => { s with name := v }) decString),
    ("clone", field Pipeline.clone (fun s v => { s with clone := v }) decClone),
    ("concurrency", field Pipeline.concurrency (fun s v => { s with concurrency := v }) decConcurrency),
    ("depends_on", field Pipeline.dependsOn (fun s v => { s with dependsOn := v }) decStrings),
    ("node", field Pipeline.node (fun s v => { s with node := v }) decStringMap),
    ("platform", field Pipeline.platform (fun s v => { s with platform := v }) decPlatform),
    ("image_pull_secrets", field Pipeline.pullSecrets (fun s v => { s with pullSecrets := v }) decStrings),
    ("services", field Pipeline.services (fun s v => { s with services := v })
      (decSlice none (decPtr {} (decContainer ram)))),
    ("steps", field Pipeline.steps (fun s v => { s with steps := v }) (decSlice none (decPtr {} (decContainer ram)))),
    ("trigger", field Pipeline.trigger (fun s v => { s with trigger := v }) decConditions),
    ("volumes", field Pipeline.volumes (fun s v => { s with volumes := v })
      (decSlice none (decPtr {} (decVolume ram)))),
    ("workspace", field Pipeline.workspace (fun s v => { s with workspace := v }) decWorkspace) ]

def decPipeline (ram : String → Option Int) : Dec Pipeline := decStruct {} fun k => (pipelineFields ram).lookup k

/-- /repo/yaml/cron.go:39-41 -/
def cronDeployField (k : String) : Option (Field Cron) :=
  List.lookup k
  [ ("target", field Cron.deployTarget (fun s v => { s with deployTarget := v }) decString) ]

/-- A nested struct whose fields the model keeps in the outer record; null resets them. -/
def nested {σ : Type} (reset : σ → σ) (fields : String → Option (Field σ)) : Field σ := fun n s =>
  match n with
  | .null => (reset s, false)
  | .map kvs => let r := decFields fields kvs s; (r.val, r.err)
  | _ => (s, true)

/-- /repo/yaml/cron.go:32-36 -/
def cronSpecField (k : String) : Option (Field Cron) :=
  List.lookup k
  [ ("schedule", field Cron.schedule (fun s v => { s with schedule := v }) decString),
    ("branch", field Cron.branch (fun s v => { s with branch := v }) decString),
    ("deployment", nested (fun s => { s with deployTarget := "" }) cronDeployField) ]

/-- /repo/yaml/cron.go:22-29 -/
def cronField (k : String) : Option (Field Cron) :=
  List.lookup k
  [ ("version", field Cron.version (fun s v => { s with version := v }) decString),
    ("kind", field Cron.kind (fun s v => { s with kind := v }) decString),
    ("type", field Cron.type (fun s v => { s with type := v }) decString),
    ("name", field Cron.name (fun s v => { s with name := v }) decString),
    ("spec", nested (fun s => { s with schedule := "", branch := "", deployTarget := "" }) cronSpecField) ]

/-- /repo/yaml/secret.go:38-42 -/
def decSecretGet : Dec SecretGet := decStruct {} fun k =>
  List.lookup k
  [ ("path", field SecretGet.path (fun s v => { s with path := v }) decString),
    ("name", field SecretGet.name (fun s v => { s with name := v }) decString),
    ("key", field SecretGet.key (fun s v => { s with key := v }) decString) ]

/-- /repo/yaml/secret.go:25-33 -/
def secretField (k : String) : Option (Field Secret) :=
  List.lookup k
  [ ("version", field Secret.version (fun s v => { s with version := v }) decString),
    ("kind", field Secret.kind (fun s v => { s with kind := v }) decString),
    ("type", field Secret.type (fun s v => { s with type := v }) decString),
    ("name", field Secret.name (fun s v => { s with name := v }) decString),
    ("data", field Secret.data (fun s v => { s with data := v }) decString),
    ("get", field Secret.get (fun s v => { s with get := v }) decSecretGet) ]

/-- /repo/yaml/registry.go:23-29 -/
def registryField (k : String) : Option (Field Registry) :=
  List.lookup k
  [ ("version", field Registry.version (fun s v => { s with version := v }) decString),
    ("kind", field Registry.kind (fun s v => { s with kind := v }) decString),
    ("type", field Registry.type (fun s v => { s with type := v }) decString),
    ("data", field Registry.data (fun s v => { s with data := v }) decStringMap) ]

/-- /repo/yaml/signature.go:24-28 -/
def signatureField (k : String) : Option (Field Signature) :=
  List.lookup k
  [ ("version", field Signature.version (fun s v => { s with version := v }) decString),
    ("kind", field Signature.kind (fun s v => { s with kind := v }) decString),
    ("hmac", field Signature.hmac (fun s v => { s with hmac := v }) decString) ]

/-- /repo/yaml/manifest.go:51-56 -/
def headerField (k : String) : Option (Field Header) :=
  List.lookup k
  [ ("version", field Header.version (fun s v => { s with version := v }) decString),
    ("kind", field Header.kind (fun s v => { s with kind := v }) decString),
    ("type", field Header.type (fun s v => { s with type := v }) decString) ]

/-- `yaml.Unmarshal` of a document: an error iff a type error was recorded. -/
def unmarshalDoc {σ : Type} (zero : σ) (fields : String → Option (Field σ)) (n : Node) : Except String σ :=
  let r := decStruct zero fields n zero
  if r.err then .error "yaml: unmarshal errors" else .ok r.val

/-- `yaml.Unmarshal(data, obj)` (/repo/yaml/parse.go:94) on the tree of the document. -/
def unmarshalResource (ram : String → Option Int) : ResType → Node → Except String Resource
  | .cron, n => (unmarshalDoc {} cronField n).map .cron
  | .secret, n => (unmarshalDoc {} secretField n).map .secret
  | .signature, n => (unmarshalDoc {} signatureField n).map .signature
  | .registry, n => (unmarshalDoc {} registryField n).map .registry
  | .pipeline, n => (unmarshalDoc {} (fun k => (pipelineFields ram).lookup k) n).map .pipeline

/-- The library with a parser for the text: `tree` is a document's tree. -/
def treeLib (ram : String → Option Int) (tree : Bytes → Except String Node) : YamlLib where
  header d := (tree d).bind fun n => unmarshalDoc {} headerField n
  resource t d := (tree d).bind fun n => unmarshalResource ram t n

end Yaml
end Drone
