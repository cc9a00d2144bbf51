/-
Which YAML trees describe a resource, and what they say: one table of the keys of every type of
package yaml.  Independent of the model of the decoder.
-/
import Mathlib.Data.List.Forall2
import Verif.Props.Scalars

namespace Drone.Spec
open Yaml (Node)

/-- The YAML of a Go type. -/
structure Form (α : Type) where
  /-- the tree is acceptable -/
  fits : Node → Prop
  /-- nothing is given twice -/
  once : Node → Prop
  /-- the value that is described -/
  tells : Node → α → Prop

namespace Form

/-- A text: any scalar as it is written; null is the empty text. -/
def str : Form String where
  fits n := ∃ t, textOf n = some t
  once _ := True
  tells n t := textOf n = some t

/-- A truth value; null is false. -/
def bool : Form Bool where
  fits n := ∃ b, IsBool n b
  once _ := True
  tells := IsBool

/-- An integer of 64 bits; null is 0. -/
def int : Form Int where
  fits n := ∃ i, IsInt n i
  once _ := True
  tells := IsInt

/-- A number; null is 0. -/
def float : Form Rat where
  fits n := ∃ q, IsFloat n q
  once _ := True
  tells := IsFloat

/-- A size: a number of bytes or a text like 10MB (`ram`). -/
def size (ram : String → Option Int) : Form Int where
  fits n := ∃ i, IsSize ram n i
  once _ := True
  tells := IsSize ram

/-- No list and no map is the key of a map. -/
inductive Keyed : Node → Prop
  | null : Keyed .null
  | scalar {t r} : Keyed (.scalar t r)
  | seq {xs} : (∀ x ∈ xs, Keyed x) → Keyed (.seq xs)
  | map {kvs} : (∀ kv ∈ kvs, (textOf kv.1).isSome) → (∀ kv ∈ kvs, Keyed kv.2) → Keyed (.map kvs)

/-- The value of a tree. -/
inductive Means : Node → Value → Prop
  | null : Means .null .null
  | str {t} : Means (.scalar t .str) (.str t)
  | bool {t b} : Means (.scalar t (.bool b)) (.bool b)
  | int {t i} : Means (.scalar t (.int i)) (.int i)
  | float {t q} : Means (.scalar t (.float q)) (.float q)
  | seq {xs vs} : List.Forall₂ Means xs vs → Means (.seq xs) (.seq vs)
  | map {kvs : List (Node × Node)} {ks vs : List Value} : List.Forall₂ Means (kvs.map Prod.fst) ks →
      List.Forall₂ Means (kvs.map Prod.snd) vs → Means (.map kvs) (.map (List.zip ks vs))

/-- No map has two keys of the same value. -/
inductive Distinct : Node → Prop
  | null : Distinct .null
  | scalar {t r} : Distinct (.scalar t r)
  | seq {xs} : (∀ x ∈ xs, Distinct x) → Distinct (.seq xs)
  | map {kvs} : (kvs.map Prod.fst).Pairwise (fun a b => ∀ v, Means a v → ¬ Means b v) →
      (∀ kv ∈ kvs, Distinct kv.2) → Distinct (.map kvs)

/-- Anything. -/
def any : Form Value where
  fits := Keyed
  once := Distinct
  tells := Means

/-- A list; null is the empty one. -/
def list {α : Type} (e : Form α) : Form (List α) where
  fits n := n = .null ∨ ∃ xs, n = .seq xs ∧ ∀ x ∈ xs, e.fits x
  once n := ∀ xs, n = .seq xs → ∀ x ∈ xs, e.once x
  tells n v := (n = .null ∧ v = []) ∨ ∃ xs, n = .seq xs ∧ List.Forall₂ e.tells xs v

/-- A map with texts for keys; null is the empty one. -/
def map {α : Type} (e : Form α) : Form (GoMap α) where
  fits n := n = .null ∨ ∃ kvs, n = .map kvs ∧ ∀ kv ∈ kvs, (textOf kv.1).isSome ∧ e.fits kv.2
  once n := ∀ kvs, n = .map kvs → (kvs.map fun kv => textOf kv.1).Nodup ∧ ∀ kv ∈ kvs, e.once kv.2
  tells n v := (n = .null ∧ v = []) ∨
    ∃ kvs, n = .map kvs ∧ List.Forall₂ (fun kv w => textOf kv.1 = some w.1 ∧ e.tells kv.2 w.2) kvs v

/-- A pointer: null is nil. -/
def ptr {α : Type} (e : Form α) : Form (Option α) where
  fits := e.fits
  once := e.once
  tells n v := (n = .null ∧ v = none) ∨ (n ≠ .null ∧ ∃ x, v = some x ∧ e.tells n x)

/-- A scalar that stands for a whole. -/
def short {α : Type} (of : String → α) (e : Form α) : Form α where
  fits n := (∃ t r, n = .scalar t r) ∨ e.fits n
  once := e.once
  tells n v := (∃ t r, n = .scalar t r ∧ v = of t) ∨ ((∀ t r, n ≠ .scalar t r) ∧ e.tells n v)

end Form

/-- A key of a map that is read into a record: the trees that are acceptable for it, and what they
say about the record. -/
structure Line (σ : Type) where
  name : String
  fits : Node → Prop
  once : Node → Prop
  tells : Node → σ → Prop
  /-- two records agree in what the key is about -/
  same : σ → σ → Prop

/-- The key for the field `get` -/
def line {σ α : Type} (name : String) (get : σ → α) (e : Form α) : Line σ :=
  ⟨name, e.fits, e.once, fun n s => e.tells n (get s), fun s s' => get s = get s'⟩

/-- What a map has for a key; if it has not, that counts as null. -/
def Gives (kvs : List (Node × Node)) (name : String) (n : Node) : Prop :=
  (∃ k, (k, n) ∈ kvs ∧ textOf k = some name) ∨ (n = .null ∧ ∀ kv ∈ kvs, textOf kv.1 ≠ some name)

/-- A record: other keys do not matter, but they are texts; null is as good as `{}`. -/
def Form.obj {σ : Type} (ls : List (Line σ)) : Form σ where
  fits n := n = .null ∨
    ∃ kvs, n = .map kvs ∧ ∀ kv ∈ kvs, ∃ k, textOf kv.1 = some k ∧ ∀ l ∈ ls, l.name = k → l.fits kv.2
  once n := ∀ kvs, n = .map kvs →
    (∀ l ∈ ls, kvs.Pairwise fun a b => ¬ (textOf a.1 = some l.name ∧ textOf b.1 = some l.name)) ∧
    ∀ kv ∈ kvs, ∀ l ∈ ls, textOf kv.1 = some l.name → l.once kv.2
  tells n s := ∃ kvs, (n = .map kvs ∨ n = .null ∧ kvs = []) ∧ ∀ l ∈ ls, ∃ u, Gives kvs l.name u ∧ l.tells u s

/-- A key with a record whose fields belong to the outer record -/
def group {σ : Type} (name : String) (ls : List (Line σ)) : Line σ :=
  ⟨name, (Form.obj ls).fits, (Form.obj ls).once, (Form.obj ls).tells, fun s s' => ∀ l ∈ ls, l.same s s'⟩

/-! ### The table -/

section
open Form

/-- The texts of a list; what is no text is left out, and nothing else is a list. -/
def texts : Node → List String
  | .seq xs => xs.filterMap textOf
  | _ => []

/-- A condition (/repo/yaml/cond.go:35-38, 78-102) is never refused: a scalar is the only pattern, a
list is the list of its texts, and in a map `include` and `exclude` count if they are lists. -/
def conditionForm : Form Condition where
  fits _ := True
  once n := ∀ kvs, n = .map kvs → ∀ name ∈ ["include", "exclude"],
    kvs.Pairwise fun a b => ¬ (textOf a.1 = some name ∧ textOf b.1 = some name)
  tells n c := (n = .null ∧ c = {}) ∨ (∃ t r, n = .scalar t r ∧ c = { incl := [t] }) ∨
    (∃ xs, n = .seq xs ∧ c = { incl := texts n }) ∨
    ∃ kvs i e, n = .map kvs ∧ Gives kvs "include" i ∧ Gives kvs "exclude" e ∧ c = { incl := texts i, excl := texts e }

/-- /repo/yaml/cond.go:20-32 -/
def conditionsForm : Form Conditions := obj
  [ line "action" Conditions.action conditionForm, line "cron" Conditions.cron conditionForm,
    line "ref" Conditions.ref conditionForm, line "repo" Conditions.repo conditionForm,
    line "instance" Conditions.inst conditionForm, line "target" Conditions.target conditionForm,
    line "event" Conditions.event conditionForm, line "branch" Conditions.branch conditionForm,
    line "status" Conditions.status conditionForm, line "paths" Conditions.paths conditionForm,
    line "matrix" Conditions.matrix (map str) ]

/-- A text is the value (/repo/yaml/env.go:21-44). -/
def variableForm : Form Variable := short (fun t => { value := t }) <| obj
  [line "value" Variable.value str, line "from_secret" Variable.secret str]

/-- The tree is a map with texts for keys whose last `from_secret` is the text `s`, not empty, and all
others are texts as well. -/
def NamesSecret (n : Node) (s : String) : Prop :=
  ∃ kvs, n = .map kvs ∧ (∀ kv ∈ kvs, (textOf kv.1).isSome) ∧ (∀ v ∈ valuesOf kvs "from_secret", (textOf v).isSome) ∧
    s ≠ "" ∧ ∃ v, (valuesOf kvs "from_secret").getLast? = some v ∧ textOf v = some s

/-- A setting: the name of a secret, else any value (/repo/yaml/param.go:21-45). -/
def parameterForm : Form Parameter where
  fits n := (∃ s, NamesSecret n s) ∨ Keyed n
  once n := (∃ s, NamesSecret n s) ∨ Distinct n
  tells n p := (∃ s, NamesSecret n s ∧ p = { secret := s }) ∨
    ((∀ s, ¬ NamesSecret n s) ∧ ∃ v, Means n v ∧ p = { value := v })

/-- A text is the image (/repo/yaml/build.go:19-54). -/
def buildForm : Form Build := short (fun t => { image := t }) <| obj
  [ line "args" Build.args (map str), line "cache_from" Build.cacheFrom (list str), line "context" Build.context str,
    line "dockerfile" Build.dockerfile str, line "image" Build.image str, line "labels" Build.labels (map str) ]

/-- A text is the image (/repo/yaml/push.go:19-39). -/
def pushForm : Form Push := short (fun t => { image := t }) <| obj [line "image" Push.image str]

/-- /repo/yaml/port.go:26-30 -/
def portLongForm : Form Port := obj
  [line "port" Port.port int, line "host" Port.host int, line "protocol" Port.protocol str]

/-- A number is the port (/repo/yaml/port.go:20-44). -/
def portForm : Form Port where
  fits n := (∃ i, IsInt n i) ∨ portLongForm.fits n
  once := portLongForm.once
  tells n p := (∃ i, IsInt n i ∧ p = { port := i }) ∨ ((∀ i, ¬ IsInt n i) ∧ portLongForm.tells n p)

variable (ram : String → Option Int)

/-- /repo/yaml/pipeline.go:101-104 -/
def resourceObjectForm : Form ResourceObject := obj
  [line "cpu" ResourceObject.cpu float, line "memory" ResourceObject.memory (size ram)]

/-- /repo/yaml/pipeline.go:89-97 -/
def resourcesForm : Form Resources := obj
  [ line "limits" Resources.limits (ptr (resourceObjectForm ram)),
    line "requests" Resources.requests (ptr (resourceObjectForm ram)) ]

/-- /repo/yaml/pipeline.go:123-126 -/
def volumeDeviceForm : Form VolumeDevice := obj
  [line "name" VolumeDevice.name str, line "path" VolumeDevice.devicePath str]

/-- /repo/yaml/pipeline.go:130-133 -/
def volumeMountForm : Form VolumeMount := obj
  [line "name" VolumeMount.name str, line "path" VolumeMount.mountPath str]

/-- /repo/yaml/pipeline.go:138-141 -/
def volumeEmptyDirForm : Form VolumeEmptyDir := obj
  [line "medium" VolumeEmptyDir.medium str, line "size_limit" VolumeEmptyDir.sizeLimit (size ram)]

/-- /repo/yaml/pipeline.go:145-147 -/
def volumeHostPathForm : Form VolumeHostPath := obj [line "path" VolumeHostPath.path str]

/-- /repo/yaml/pipeline.go:115-119 -/
def volumeForm : Form Volume := obj
  [ line "name" Volume.name str, line "temp" Volume.emptyDir (ptr (volumeEmptyDirForm ram)),
    line "host" Volume.hostPath (ptr volumeHostPathForm) ]

/-- /repo/yaml/pipeline.go:58-85 -/
def containerForm : Form Container := obj
  [ line "build" Container.build (ptr buildForm), line "command" Container.command (list str),
    line "commands" Container.commands (list str), line "detach" Container.detach bool,
    line "depends_on" Container.dependsOn (list str),
    line "devices" Container.devices (list (ptr volumeDeviceForm)), line "dns" Container.dns (list str),
    line "dns_search" Container.dnsSearch (list str), line "entrypoint" Container.entrypoint (list str),
    line "environment" Container.environment (map (ptr variableForm)),
    line "extra_hosts" Container.extraHosts (list str), line "failure" Container.failure str,
    line "image" Container.image str, line "network_mode" Container.network str, line "name" Container.name str,
    line "ports" Container.ports (list (ptr portForm)), line "privileged" Container.privileged bool,
    line "pull" Container.pull str, line "push" Container.push (ptr pushForm),
    line "resources" Container.resources (ptr (resourcesForm ram)),
    line "settings" Container.settings (map (ptr parameterForm)), line "shell" Container.shell str,
    line "user" Container.user str, line "volumes" Container.volumes (list (ptr volumeMountForm)),
    line "when" Container.cond conditionsForm, line "working_dir" Container.workingDir str ]

/-- /repo/yaml/pipeline.go:46-50 -/
def cloneForm : Form Clone := obj
  [line "disable" Clone.disable bool, line "depth" Clone.depth int, line "skip_verify" Clone.skipVerify bool]

/-- /repo/yaml/pipeline.go:53-55 -/
def concurrencyForm : Form Concurrency := obj [line "limit" Concurrency.limit int]

/-- /repo/yaml/pipeline.go:107-112 -/
def platformForm : Form Platform := obj
  [ line "os" Platform.os str, line "arch" Platform.arch str, line "variant" Platform.variant str,
    line "version" Platform.version str ]

/-- /repo/yaml/pipeline.go:150-153 -/
def workspaceForm : Form Workspace := obj [line "base" Workspace.base str, line "path" Workspace.path str]

/-- /repo/yaml/pipeline.go:19-36 -/
def pipelineForm : Form Pipeline := obj
  [ line "version" Pipeline.version str, line "kind" Pipeline.kind str, line "type" Pipeline.type str,
    line "name" Pipeline.name str, line "clone" Pipeline.clone cloneForm,
    line "concurrency" Pipeline.concurrency concurrencyForm, line "depends_on" Pipeline.dependsOn (list str),
    line "node" Pipeline.node (map str), line "platform" Pipeline.platform platformForm,
    line "image_pull_secrets" Pipeline.pullSecrets (list str),
    line "services" Pipeline.services (list (ptr (containerForm ram))),
    line "steps" Pipeline.steps (list (ptr (containerForm ram))),
    line "trigger" Pipeline.trigger conditionsForm, line "volumes" Pipeline.volumes (list (ptr (volumeForm ram))),
    line "workspace" Pipeline.workspace workspaceForm ]

/-- /repo/yaml/cron.go:22-41 -/
def cronForm : Form Cron := obj
  [ line "version" Cron.version str, line "kind" Cron.kind str, line "type" Cron.type str, line "name" Cron.name str,
    group "spec" [ line "schedule" Cron.schedule str, line "branch" Cron.branch str,
      group "deployment" [line "target" Cron.deployTarget str] ] ]

/-- /repo/yaml/secret.go:38-42 -/
def secretGetForm : Form SecretGet := obj
  [line "path" SecretGet.path str, line "name" SecretGet.name str, line "key" SecretGet.key str]

/-- /repo/yaml/secret.go:25-33 -/
def secretForm : Form Secret := obj
  [ line "version" Secret.version str, line "kind" Secret.kind str, line "type" Secret.type str,
    line "name" Secret.name str, line "data" Secret.data str, line "get" Secret.get secretGetForm ]

/-- /repo/yaml/registry.go:23-29 -/
def registryForm : Form Registry := obj
  [ line "version" Registry.version str, line "kind" Registry.kind str, line "type" Registry.type str,
    line "data" Registry.data (map str) ]

/-- /repo/yaml/signature.go:24-28 -/
def signatureForm : Form Signature := obj
  [line "version" Signature.version str, line "kind" Signature.kind str, line "hmac" Signature.hmac str]

/-- A resource of a type -/
def docFits : ResType → Node → Prop
  | .cron => cronForm.fits
  | .secret => secretForm.fits
  | .signature => signatureForm.fits
  | .registry => registryForm.fits
  | .pipeline => (pipelineForm ram).fits

/-- Nothing is given twice. -/
def docOnce : ResType → Node → Prop
  | .cron => cronForm.once
  | .secret => secretForm.once
  | .signature => signatureForm.once
  | .registry => registryForm.once
  | .pipeline => (pipelineForm ram).once

/-- The resource that is described -/
def docTells (n : Node) : Resource → Prop
  | .cron c => cronForm.tells n c
  | .secret s => secretForm.tells n s
  | .signature s => signatureForm.tells n s
  | .registry r => registryForm.tells n r
  | .pipeline p => (pipelineForm ram).tells n p

/-- version, kind and type are texts, if they are given, and all keys are texts. -/
def docHeader (n : Node) : Prop := n = .null ∨ ∃ kvs, n = .map kvs ∧ ∀ kv ∈ kvs, ∃ k, textOf kv.1 = some k ∧
  (k ∈ ["version", "kind", "type"] → (textOf kv.2).isSome)

/-- The text of the last `kind`, else nothing -/
inductive DocKind : Node → String → Prop
  | null : DocKind .null ""
  | missing {kvs} : valuesOf kvs "kind" = [] → DocKind (.map kvs) ""
  | last {kvs v s} : (valuesOf kvs "kind").getLast? = some v → textOf v = some s → DocKind (.map kvs) s

end

end Drone.Spec
