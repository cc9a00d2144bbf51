/-
Encoding of the resources as YAML: `yaml.Marshal` of package github.com/buildkite/yaml (yaml.v2) on
the types of package yaml, and `Manifest.Encode`.  The library is not part of /repo: what it is
trusted to do is that a struct becomes a mapping with all its fields in order, under the name of the
tag or the field's name in lower case; a nil pointer null, a list a sequence, a map a mapping, and
that what a `MarshalYAML` method returns is encoded instead of the value.
-/
import Verif.Model.Decode

namespace Drone
namespace Yaml

/-- `string` -/
def encString (s : String) : Node := .scalar s .str

/-- `int`, `int64` -/
def encInt (i : Int) : Node := .scalar (toString i) (.int i)

/-- `bool` -/
def encBool (b : Bool) : Node := .scalar (if b then "true" else "false") (.bool b)

/-- A slice -/
def encList {α : Type} (e : α → Node) (l : List α) : Node := .seq (l.map e)

/-- `[]string` -/
def encStrings (l : List String) : Node := encList encString l

/-- `map[string]T` -/
def encMap {α : Type} (e : α → Node) (m : GoMap α) : Node := .map (m.map fun kv => (encString kv.1, e kv.2))

/-- A pointer -/
def encPtr {α : Type} (e : α → Node) : Option α → Node
  | none => .null
  | some x => e x

/-- The fields of a struct -/
def encFields (l : List (String × Node)) : Node := .map (l.map fun kv => (encString kv.1, kv.2))

/-- The texts of Booleans and numbers; `float` renders a `float64`. -/
def valueText (float : Rat → String) : Value → String
  | .bool b => if b then "true" else "false"
  | .int i => toString i
  | .float q => float q
  | _ => ""

/-- /repo/yaml/cond.go:35-38: the tags say `omitempty` -/
def encCondition (c : Condition) : Node :=
  encFields ((if c.incl.length = 0 then [] else [("include", encStrings c.incl)]) ++
    (if c.excl.length = 0 then [] else [("exclude", encStrings c.excl)]))

/-- /repo/yaml/cond.go:20-32 -/
def encConditions (c : Conditions) : Node :=
  encFields
    [ ("action", encCondition c.action), ("cron", encCondition c.cron), ("ref", encCondition c.ref),
      ("repo", encCondition c.repo), ("instance", encCondition c.inst), ("target", encCondition c.target),
      ("event", encCondition c.event), ("branch", encCondition c.branch), ("status", encCondition c.status),
      ("paths", encCondition c.paths), ("matrix", encMap encString c.matrix) ]

/-- /repo/yaml/push.go:19-21 -/
def encPush (p : Push) : Node := encFields [("image", encString p.image)]

/-- /repo/yaml/build.go:19-26 -/
def encBuild (b : Build) : Node :=
  encFields
    [ ("args", encMap encString b.args), ("cache_from", encStrings b.cacheFrom), ("context", encString b.context),
      ("dockerfile", encString b.dockerfile), ("image", encString b.image), ("labels", encMap encString b.labels) ]

/-- /repo/yaml/port.go:20-24 -/
def encPort (p : Port) : Node :=
  encFields [("port", encInt p.port), ("host", encInt p.host), ("protocol", encString p.protocol)]

/-- /repo/yaml/pipeline.go:101-104; `BytesSize` has no `MarshalYAML` and is written as a number -/
def encResourceObject (float : Rat → String) (o : ResourceObject) : Node :=
  encFields [("cpu", floatNode float o.cpu), ("memory", encInt o.memory)]

/-- /repo/yaml/pipeline.go:89-97 -/
def encResources (float : Rat → String) (r : Resources) : Node :=
  encFields [("limits", encPtr (encResourceObject float) r.limits), ("requests", encPtr (encResourceObject float) r.requests)]

/-- /repo/yaml/pipeline.go:123-126 -/
def encVolumeDevice (v : VolumeDevice) : Node := encFields [("name", encString v.name), ("path", encString v.devicePath)]

/-- /repo/yaml/pipeline.go:130-133 -/
def encVolumeMount (v : VolumeMount) : Node := encFields [("name", encString v.name), ("path", encString v.mountPath)]

/-- /repo/yaml/pipeline.go:138-141 -/
def encVolumeEmptyDir (v : VolumeEmptyDir) : Node :=
  encFields [("medium", encString v.medium), ("size_limit", encInt v.sizeLimit)]

/-- /repo/yaml/pipeline.go:145-147 -/
def encVolumeHostPath (v : VolumeHostPath) : Node := encFields [("path", encString v.path)]

/-- /repo/yaml/pipeline.go:115-119 -/
def encVolume (v : Volume) : Node :=
  encFields [("name", encString v.name), ("temp", encPtr encVolumeEmptyDir v.emptyDir),
    ("host", encPtr encVolumeHostPath v.hostPath)]

/-- /repo/yaml/pipeline.go:58-85 -/
def encContainer (float : Rat → String) (c : Container) : Node :=
  encFields
    [ ("build", encPtr encBuild c.build), ("command", encStrings c.command), ("commands", encStrings c.commands),
      ("detach", encBool c.detach), ("depends_on", encStrings c.dependsOn),
      ("devices", encList (encPtr encVolumeDevice) c.devices), ("dns", encStrings c.dns),
      ("dns_search", encStrings c.dnsSearch), ("entrypoint", encStrings c.entrypoint),
      ("environment", encMap (encPtr marshalVariable) c.environment), ("extra_hosts", encStrings c.extraHosts),
      ("failure", encString c.failure), ("image", encString c.image), ("network_mode", encString c.network),
      ("name", encString c.name), ("ports", encList (encPtr encPort) c.ports), ("privileged", encBool c.privileged),
      ("pull", encString c.pull), ("push", encPtr encPush c.push), ("resources", encPtr (encResources float) c.resources),
      ("settings", encMap (encPtr (marshalParameter (valueText float))) c.settings), ("shell", encString c.shell),
      ("user", encString c.user), ("volumes", encList (encPtr encVolumeMount) c.volumes),
      ("when", encConditions c.cond), ("working_dir", encString c.workingDir) ]

/-- /repo/yaml/pipeline.go:46-50 -/
def encClone (c : Clone) : Node :=
  encFields [("disable", encBool c.disable), ("depth", encInt c.depth), ("skip_verify", encBool c.skipVerify)]

/-- /repo/yaml/pipeline.go:107-112 -/
def encPlatform (p : Platform) : Node :=
  encFields [("os", encString p.os), ("arch", encString p.arch), ("variant", encString p.variant),
    ("version", encString p.version)]

/-- /repo/yaml/pipeline.go:19-36, 53-55, 150-153 -/
def encPipeline (float : Rat → String) (p : Pipeline) : Node :=
  encFields
    [ ("version", encString p.version), ("kind", encString p.kind), ("type", encString p.type),
      ("name", encString p.name), ("clone", encClone p.clone),
      ("concurrency", encFields [("limit", encInt p.concurrency.limit)]), ("depends_on", encStrings p.dependsOn),
      ("node", encMap encString p.node), ("platform", encPlatform p.platform),
      ("image_pull_secrets", encStrings p.pullSecrets),
      ("services", encList (encPtr (encContainer float)) p.services),
      ("steps", encList (encPtr (encContainer float)) p.steps), ("trigger", encConditions p.trigger),
      ("volumes", encList (encPtr encVolume) p.volumes),
      ("workspace", encFields [("base", encString p.workspace.base), ("path", encString p.workspace.path)]) ]

/-- /repo/yaml/cron.go:22-41 -/
def encCron (c : Cron) : Node :=
  encFields
    [ ("version", encString c.version), ("kind", encString c.kind), ("type", encString c.type),
      ("name", encString c.name),
      ("spec", encFields [("schedule", encString c.schedule), ("branch", encString c.branch),
        ("deployment", encFields [("target", encString c.deployTarget)])]) ]

/-- /repo/yaml/secret.go:25-42 -/
def encSecret (s : Secret) : Node :=
  encFields
    [ ("version", encString s.version), ("kind", encString s.kind), ("type", encString s.type),
      ("name", encString s.name), ("data", encString s.data),
      ("get", encFields [("path", encString s.get.path), ("name", encString s.get.name), ("key", encString s.get.key)]) ]

/-- /repo/yaml/registry.go:23-29 -/
def encRegistry (r : Registry) : Node :=
  encFields
    [ ("version", encString r.version), ("kind", encString r.kind), ("type", encString r.type),
      ("data", encMap encString r.data) ]

/-- /repo/yaml/signature.go:24-28 -/
def encSignature (s : Signature) : Node :=
  encFields [("version", encString s.version), ("kind", encString s.kind), ("hmac", encString s.hmac)]

/-- The tree the encoder writes for a resource (/repo/yaml/manifest.go:118) -/
def encResource (float : Rat → String) : Resource → Node
  | .cron c => encCron c
  | .secret s => encSecret s
  | .signature s => encSignature s
  | .registry r => encRegistry r
  | .pipeline p => encPipeline float p

/-- `Manifest.Encode` (/repo/yaml/manifest.go:114-123); `emit` writes a tree as text.  The encoder of
the library separates the documents, and writes nothing before the first one. -/
def encode (float : Rat → String) (emit : Node → Bytes) (m : Manifest) : Bytes :=
  match m.resources with
  | [] => []
  | r :: rs => emit (encResource float r) ++ rs.flatMap fun r => [45, 45, 45, 10] ++ emit (encResource float r)

end Yaml
end Drone
