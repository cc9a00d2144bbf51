/-
Which JSON texts describe a resource, and what they say: one table of the fields of every type of
package yaml, with their JSON names.  Independent of the model of the decoder.
-/
import Mathlib.Data.List.Forall2
import Verif.Spec.ManifestJson

namespace Drone.Spec
open Json (Tree)

/-- The JSON of a Go type. -/
structure Shape (α : Type) where
  /-- the text is acceptable -/
  fits : Tree → Prop
  /-- no field and no key of a map is given twice -/
  once : Tree → Prop
  /-- the value that is described -/
  tells : Tree → α → Prop

namespace Shape

/-- `string`: null is the empty string. -/
def str : Shape String where
  fits t := t = .null ∨ ∃ s, t = .str s
  once _ := True
  tells t v := (t = .null ∧ v = "") ∨ t = .str v

/-- `bool`: null is false. -/
def bool : Shape Bool where
  fits t := t = .null ∨ ∃ b, t = .bool b
  once _ := True
  tells t v := (t = .null ∧ v = false) ∨ t = .bool v

/-- `int` and `int64`: only numbers of 64 bits without fraction and exponent; null is 0. -/
def int : Shape Int where
  fits t := t = .null ∨ ∃ i, t = .int i ∧ -2 ^ 63 ≤ i ∧ i < 2 ^ 63
  once _ := True
  tells t v := (t = .null ∧ v = 0) ∨ t = .int v

/-- `float64`: the double next to the number; null is 0. -/
def float : Shape Rat where
  fits t := t = .null ∨ (∃ i, t = .int i) ∨ ∃ q, t = .float q
  once _ := True
  tells t v := (t = .null ∧ v = 0) ∨ (∃ i : Int, t = .int i ∧ v = Json.toFloat i) ∨ ∃ q, t = .float q ∧ v = Json.toFloat q

/-- No object in the tree has a key twice. -/
inductive Plain : Tree → Prop
  | null : Plain .null
  | bool {b} : Plain (.bool b)
  | int {i} : Plain (.int i)
  | float {q} : Plain (.float q)
  | str {s} : Plain (.str s)
  | arr {xs} : (∀ x ∈ xs, Plain x) → Plain (.arr xs)
  | obj {kvs} : (kvs.map Prod.fst).Nodup → (∀ kv ∈ kvs, Plain kv.2) → Plain (.obj kvs)

/-- The value of any tree: numbers are doubles, and the keys of objects are strings. -/
inductive Says : Tree → Value → Prop
  | null : Says .null .null
  | bool {b} : Says (.bool b) (.bool b)
  | int {i : Int} : Says (.int i) (.float (Json.toFloat i))
  | float {q} : Says (.float q) (.float (Json.toFloat q))
  | str {s} : Says (.str s) (.str s)
  | arr {xs vs} : List.Forall₂ Says xs vs → Says (.arr xs) (.seq vs)
  | obj {kvs : List (String × Tree)} {vs : List Value} : List.Forall₂ Says (kvs.map Prod.snd) vs →
      Says (.obj kvs) (.map (List.zip (kvs.map fun kv => Value.str kv.1) vs))

/-- `interface{}` -/
def any : Shape Value where
  fits _ := True
  once := Plain
  tells := Says

/-- A slice: null is the empty one. -/
def list {α : Type} (e : Shape α) : Shape (List α) where
  fits t := t = .null ∨ ∃ xs, t = .arr xs ∧ ∀ x ∈ xs, e.fits x
  once t := ∀ xs, t = .arr xs → ∀ x ∈ xs, e.once x
  tells t v := (t = .null ∧ v = []) ∨ ∃ xs, t = .arr xs ∧ List.Forall₂ e.tells xs v

/-- A map: null is the empty one. -/
def map {α : Type} (e : Shape α) : Shape (GoMap α) where
  fits t := t = .null ∨ ∃ kvs, t = .obj kvs ∧ ∀ kv ∈ kvs, e.fits kv.2
  once t := ∀ kvs, t = .obj kvs → (kvs.map Prod.fst).Nodup ∧ ∀ kv ∈ kvs, e.once kv.2
  tells t v := (t = .null ∧ v = []) ∨ ∃ kvs, t = .obj kvs ∧ List.Forall₂ (fun kv w => kv.1 = w.1 ∧ e.tells kv.2 w.2) kvs v

/-- A pointer: null is nil. -/
def ptr {α : Type} (e : Shape α) : Shape (Option α) where
  fits := e.fits
  once := e.once
  tells t v := (t = .null ∧ v = none) ∨ (t ≠ .null ∧ ∃ x, v = some x ∧ e.tells t x)

end Shape

/-- A field of a struct: its JSON name, which trees are acceptable, and what they say. -/
structure Slot (σ : Type) where
  name : String
  fits : Tree → Prop
  once : Tree → Prop
  tells : Tree → σ → Prop

/-- The field `get` with a name and a shape -/
def slot {σ α : Type} (name : String) (get : σ → α) (e : Shape α) : Slot σ :=
  ⟨name, e.fits, e.once, fun t s => e.tells t (get s)⟩

/-- What an object has for a field: the value of an entry with its name, up to case, else null. -/
def Supplies (fold : String → String → Bool) (kvs : List (String × Tree)) (name : String) (t : Tree) : Prop :=
  (∃ k, (k, t) ∈ kvs ∧ fold name k = true) ∨ (t = .null ∧ ∀ kv ∈ kvs, ¬ fold name kv.1 = true)

/-- A struct: unknown names do not matter, and null is as good as `{}`. -/
def Shape.obj {σ : Type} (fold : String → String → Bool) (ps : List (Slot σ)) : Shape σ where
  fits t := t = .null ∨ ∃ kvs, t = .obj kvs ∧ ∀ kv ∈ kvs, ∀ p ∈ ps, fold p.name kv.1 = true → p.fits kv.2
  once t := ∀ kvs, t = .obj kvs →
    (∀ p ∈ ps, kvs.Pairwise fun a b => ¬ (fold p.name a.1 = true ∧ fold p.name b.1 = true)) ∧
    ∀ kv ∈ kvs, ∀ p ∈ ps, fold p.name kv.1 = true → p.once kv.2
  tells t s := ∃ kvs, (t = .obj kvs ∨ t = .null ∧ kvs = []) ∧ ∀ p ∈ ps, ∃ u, Supplies fold kvs p.name u ∧ p.tells u s

/-! ### The table -/

section
variable (fold : String → String → Bool)
open Shape

/-- /repo/yaml/cond.go:35-38 -/
def conditionShape : Shape Condition := obj fold
  [slot "include" Condition.incl (list str), slot "exclude" Condition.excl (list str)]

/-- /repo/yaml/cond.go:20-32 -/
def conditionsShape : Shape Conditions := obj fold
  [ slot "action" Conditions.action (conditionShape fold), slot "cron" Conditions.cron (conditionShape fold),
    slot "ref" Conditions.ref (conditionShape fold), slot "repo" Conditions.repo (conditionShape fold),
    slot "instance" Conditions.inst (conditionShape fold), slot "target" Conditions.target (conditionShape fold),
    slot "event" Conditions.event (conditionShape fold), slot "branch" Conditions.branch (conditionShape fold),
    slot "status" Conditions.status (conditionShape fold), slot "paths" Conditions.paths (conditionShape fold),
    slot "matrix" Conditions.matrix (map str) ]

/-- /repo/yaml/env.go:21-24 -/
def variableShape : Shape Variable := obj fold
  [slot "value" Variable.value str, slot "from_secret" Variable.secret str]

/-- /repo/yaml/param.go:21-24 -/
def parameterShape : Shape Parameter := obj fold
  [slot "value" Parameter.value any, slot "from_secret" Parameter.secret str]

/-- /repo/yaml/build.go:19-26 -/
def buildShape : Shape Build := obj fold
  [ slot "args" Build.args (map str), slot "cache_from" Build.cacheFrom (list str), slot "context" Build.context str,
    slot "dockerfile" Build.dockerfile str, slot "image" Build.image str, slot "labels" Build.labels (map str) ]

/-- /repo/yaml/push.go:19-21 -/
def pushShape : Shape Push := obj fold [slot "image" Push.image str]

/-- /repo/yaml/port.go:20-24 -/
def portShape : Shape Port := obj fold
  [slot "port" Port.port int, slot "host" Port.host int, slot "protocol" Port.protocol str]

/-- /repo/yaml/pipeline.go:101-104 -/
def resourceObjectShape : Shape ResourceObject := obj fold
  [slot "cpu" ResourceObject.cpu float, slot "memory" ResourceObject.memory int]

/-- /repo/yaml/pipeline.go:89-97 -/
def resourcesShape : Shape Resources := obj fold
  [ slot "limits" Resources.limits (ptr (resourceObjectShape fold)),
    slot "requests" Resources.requests (ptr (resourceObjectShape fold)) ]

/-- /repo/yaml/pipeline.go:123-126 -/
def volumeDeviceShape : Shape VolumeDevice := obj fold
  [slot "name" VolumeDevice.name str, slot "path" VolumeDevice.devicePath str]

/-- /repo/yaml/pipeline.go:130-133 -/
def volumeMountShape : Shape VolumeMount := obj fold
  [slot "name" VolumeMount.name str, slot "path" VolumeMount.mountPath str]

/-- /repo/yaml/pipeline.go:138-141 -/
def volumeEmptyDirShape : Shape VolumeEmptyDir := obj fold
  [slot "medium" VolumeEmptyDir.medium str, slot "size_limit" VolumeEmptyDir.sizeLimit int]

/-- /repo/yaml/pipeline.go:145-147 -/
def volumeHostPathShape : Shape VolumeHostPath := obj fold [slot "path" VolumeHostPath.path str]

/-- /repo/yaml/pipeline.go:115-119 -/
def volumeShape : Shape Volume := obj fold
  [ slot "name" Volume.name str, slot "temp" Volume.emptyDir (ptr (volumeEmptyDirShape fold)),
    slot "host" Volume.hostPath (ptr (volumeHostPathShape fold)) ]

/-- /repo/yaml/pipeline.go:58-85 -/
def containerShape : Shape Container := obj fold
  [ slot "build" Container.build (ptr (buildShape fold)), slot "command" Container.command (list str),
    slot "commands" Container.commands (list str), slot "detach" Container.detach bool,
    slot "depends_on" Container.dependsOn (list str),
    slot "devices" Container.devices (list (ptr (volumeDeviceShape fold))), slot "dns" Container.dns (list str),
    slot "dns_search" Container.dnsSearch (list str), slot "entrypoint" Container.entrypoint (list str),
    slot "environment" Container.environment (map (ptr (variableShape fold))),
    slot "extra_hosts" Container.extraHosts (list str), slot "failure" Container.failure str,
    slot "image" Container.image str, slot "network_mode" Container.network str, slot "name" Container.name str,
    slot "ports" Container.ports (list (ptr (portShape fold))), slot "privileged" Container.privileged bool,
    slot "pull" Container.pull str, slot "push" Container.push (ptr (pushShape fold)),
    slot "resources" Container.resources (ptr (resourcesShape fold)),
    slot "settings" Container.settings (map (ptr (parameterShape fold))), slot "shell" Container.shell str,
    slot "user" Container.user str, slot "volumes" Container.volumes (list (ptr (volumeMountShape fold))),
    slot "when" Container.cond (conditionsShape fold), slot "working_dir" Container.workingDir str ]

/-- /repo/yaml/pipeline.go:46-50 -/
def cloneShape : Shape Clone := obj fold
  [slot "disable" Clone.disable bool, slot "depth" Clone.depth int, slot "skip_verify" Clone.skipVerify bool]

/-- /repo/yaml/pipeline.go:53-55 -/
def concurrencyShape : Shape Concurrency := obj fold [slot "limit" Concurrency.limit int]

/-- /repo/yaml/pipeline.go:107-112 -/
def platformShape : Shape Platform := obj fold
  [ slot "os" Platform.os str, slot "arch" Platform.arch str, slot "variant" Platform.variant str,
    slot "version" Platform.version str ]

/-- /repo/yaml/pipeline.go:150-153 -/
def workspaceShape : Shape Workspace := obj fold [slot "base" Workspace.base str, slot "path" Workspace.path str]

/-- /repo/yaml/pipeline.go:19-36 -/
def pipelineShape : Shape Pipeline := obj fold
  [ slot "version" Pipeline.version str, slot "kind" Pipeline.kind str, slot "type" Pipeline.type str,
    slot "name" Pipeline.name str, slot "clone" Pipeline.clone (cloneShape fold),
    slot "concurrency" Pipeline.concurrency (concurrencyShape fold), slot "depends_on" Pipeline.dependsOn (list str),
    slot "node" Pipeline.node (map str), slot "platform" Pipeline.platform (platformShape fold),
    slot "image_pull_secrets" Pipeline.pullSecrets (list str),
    slot "services" Pipeline.services (list (ptr (containerShape fold))),
    slot "steps" Pipeline.steps (list (ptr (containerShape fold))),
    slot "trigger" Pipeline.trigger (conditionsShape fold), slot "volumes" Pipeline.volumes (list (ptr (volumeShape fold))),
    slot "workspace" Pipeline.workspace (workspaceShape fold) ]

/-- The specification of a cron job: schedule, branch and target (/repo/yaml/cron.go:32-41) -/
def cronSpecShape : Shape (String × String × String) := obj fold
  [ slot "schedule" (fun s => s.1) str, slot "branch" (fun s => s.2.1) str,
    slot "deployment" (fun s => s.2.2) (obj fold [slot "target" id str]) ]

/-- /repo/yaml/cron.go:22-29 -/
def cronShape : Shape Cron := obj fold
  [ slot "version" Cron.version str, slot "kind" Cron.kind str, slot "type" Cron.type str, slot "name" Cron.name str,
    slot "spec" (fun c => (c.schedule, c.branch, c.deployTarget)) (cronSpecShape fold) ]

/-- /repo/yaml/secret.go:38-42 -/
def secretGetShape : Shape SecretGet := obj fold
  [slot "path" SecretGet.path str, slot "name" SecretGet.name str, slot "key" SecretGet.key str]

/-- /repo/yaml/secret.go:25-33 -/
def secretShape : Shape Secret := obj fold
  [ slot "version" Secret.version str, slot "kind" Secret.kind str, slot "type" Secret.type str,
    slot "name" Secret.name str, slot "data" Secret.data str, slot "get" Secret.get (secretGetShape fold) ]

/-- /repo/yaml/registry.go:23-29 -/
def registryShape : Shape Registry := obj fold
  [ slot "version" Registry.version str, slot "kind" Registry.kind str, slot "type" Registry.type str,
    slot "data" Registry.data (map str) ]

/-- /repo/yaml/signature.go:24-28 -/
def signatureShape : Shape Signature := obj fold
  [slot "version" Signature.version str, slot "kind" Signature.kind str, slot "hmac" Signature.hmac str]

/-- A resource of a type -/
def resourceFits : ResType → Tree → Prop
  | .cron => (cronShape fold).fits
  | .secret => (secretShape fold).fits
  | .signature => (signatureShape fold).fits
  | .registry => (registryShape fold).fits
  | .pipeline => (pipelineShape fold).fits

/-- No field and no key of a map is given twice. -/
def resourceOnce : ResType → Tree → Prop
  | .cron => (cronShape fold).once
  | .secret => (secretShape fold).once
  | .signature => (signatureShape fold).once
  | .registry => (registryShape fold).once
  | .pipeline => (pipelineShape fold).once

/-- The resource that is described -/
def resourceTells (t : Tree) : Resource → Prop
  | .cron c => (cronShape fold).tells t c
  | .secret s => (secretShape fold).tells t s
  | .signature s => (signatureShape fold).tells t s
  | .registry r => (registryShape fold).tells t r
  | .pipeline p => (pipelineShape fold).tells t p

/-- version, kind and type are strings, if they are given. -/
def headerFits (t : Tree) : Prop := t = .null ∨ ∃ kvs, t = .obj kvs ∧
  ∀ kv ∈ kvs, ∀ name ∈ ["version", "kind", "type"], fold name kv.1 = true → kv.2 = .null ∨ ∃ s, kv.2 = .str s

/-- The text of the last entry that gives the kind, else nothing. -/
inductive KindIs : Tree → String → Prop
  | null : KindIs .null ""
  | none {kvs} : (∀ kv ∈ kvs, fold "kind" kv.1 = true → kv.2 = .null) → KindIs (.obj kvs) ""
  | last {before k s after} : fold "kind" k = true → (∀ kv ∈ after, fold "kind" kv.1 = true → kv.2 = .null) →
      KindIs (.obj (before ++ (k, .str s) :: after)) s

end

end Drone.Spec
