import Verif.Props.Lint
/-
What the messages of the linter say (C124), independently of the order in which it looks.
-/
namespace Drone
namespace Spec

/-- What is wrong with a container by itself, and the message that says so. -/
inductive ContainerDefect (trusted : Bool) (c : Container) : String → Prop
  | image : c.build = none → c.image = "" → ContainerDefect trusted c "linter: invalid or missing image"
  | build (b : Build) : c.build = some b → b.image = "" →
      ContainerDefect trusted c "linter: invalid or missing build image"
  | name : c.name = "" → ContainerDefect trusted c "linter: invalid or missing name"
  | port (p : Port) : trusted = false → some p ∈ c.ports → p.host ≠ 0 →
      ContainerDefect trusted c "linter: untrusted repositories cannot map to a host port"
  | privileged : trusted = false → c.privileged = true →
      ContainerDefect trusted c "linter: untrusted repositories cannot enable privileged mode"
  | devices : trusted = false → c.devices ≠ [] →
      ContainerDefect trusted c "linter: untrusted repositories cannot mount devices"
  | dns : trusted = false → c.dns ≠ [] →
      ContainerDefect trusted c "linter: untrusted repositories cannot configure dns"
  | dnsSearch : trusted = false → c.dnsSearch ≠ [] →
      ContainerDefect trusted c "linter: untrusted repositories cannot configure dns_search"
  | extraHosts : trusted = false → c.extraHosts ≠ [] →
      ContainerDefect trusted c "linter: untrusted repositories cannot configure extra_hosts"
  | network : trusted = false → c.network ≠ "" →
      ContainerDefect trusted c "linter: untrusted repositories cannot configure network_mode"
  | mount (m : VolumeMount) : some m ∈ c.volumes → ReservedVolume m.name →
      ContainerDefect trusted c ("linter: invalid volume name: " ++ m.name)

/-- What is wrong with a volume. -/
inductive VolumeDefect (trusted : Bool) (v : Volume) : String → Prop
  | memory (d : VolumeEmptyDir) : trusted = false → v.emptyDir = some d → d.medium = "memory" →
      VolumeDefect trusted v "linter: untrusted repositories cannot mount in-memory volumes"
  | host : trusted = false → v.hostPath ≠ none →
      VolumeDefect trusted v "linter: untrusted repositories cannot mount host volumes"
  | name : ReservedVolume v.name → VolumeDefect trusted v ("linter: invalid volume name: " ++ v.name)

/-- What is wrong with a platform. -/
inductive PlatformDefect (p : Platform) : String → Prop
  | os : p.os ∉ ["", "linux", "windows"] → PlatformDefect p ("linter: unsupported os: " ++ p.os)
  | arch : p.arch ∉ ["", "arm", "arm64", "amd64", "ppc64le", "s390x"] →
      PlatformDefect p ("linter: unsupported architecture: " ++ p.arch)

/-- The names of the containers of a list. -/
def namesOf (l : List (Option Container)) : List String := l.filterMap (Option.map (·.name))

/-- What is wrong with a pipeline, and the message that says so. -/
inductive Defect (trusted : Bool) (p : Pipeline) : String → Prop
  | volume (v : Volume) (m : String) : some v ∈ p.volumes → VolumeDefect trusted v m → Defect trusted p m
  | platform (m : String) : PlatformDefect p.platform m → Defect trusted p m
  | container (c : Container) (m : String) : some c ∈ p.steps ++ p.services → ContainerDefect trusted c m →
      Defect trusted p m
  | duplicate (pre : List (Option Container)) (c : Container) (post : List (Option Container)) :
      p.steps ++ p.services = pre ++ some c :: post → c.name ∈ cloneNames p ++ namesOf pre →
      Defect trusted p "linter: duplicate step names"
  | missing (pre : List (Option Container)) (c : Container) (post : List (Option Container)) (d : String) :
      p.steps = pre ++ some c :: post → d ∈ c.dependsOn → d ≠ c.name → d ∉ cloneNames p ++ namesOf pre →
      Defect trusted p "linter: invalid or unknown step dependency"
  | self (c : Container) : some c ∈ p.steps → c.name ∈ c.dependsOn →
      Defect trusted p "linter: cyclical step dependency detected"

/-- An entry of a list is null and the linter looks into it. -/
def LooksAtNull (trusted : Bool) (p : Pipeline) : Prop :=
  none ∈ p.volumes ∨ none ∈ p.steps ++ p.services ∨
  (∃ c, some c ∈ p.steps ++ p.services ∧ (none ∈ c.volumes ∨ (trusted = false ∧ none ∈ c.ports)))

/-- What is wrong with a resource. -/
inductive ResourceDefect (trusted : Bool) : Resource → String → Prop
  | pipeline (p : Pipeline) (m : String) : Defect trusted p m → ResourceDefect trusted (.pipeline p) m
  | cron (c : Cron) : c.branch = "" → ResourceDefect trusted (.cron c) "yaml: invalid cron branch"
  | secret (s : Secret) : s.data = "" → s.get.path = "" → s.get.name = "" →
      ResourceDefect trusted (.secret s) "yaml: invalid secret resource"
  | registry (r : Registry) : r.data = [] → ResourceDefect trusted (.registry r) "yaml: invalid registry resource"
  | signature (s : Signature) : s.hmac = "" →
      ResourceDefect trusted (.signature s) "yaml: invalid signature. missing hash"

/-- What is wrong with the pipelines of a file taken together. -/
inductive ManifestDefect (m : Manifest) : String → Prop
  | duplicate (pre : List Pipeline) (p : Pipeline) (post : List Pipeline) : pipelines m = pre ++ p :: post →
      p.name ∈ pre.map (·.name) → ManifestDefect m "linter: duplicate pipeline names"
  | missing (pre : List Pipeline) (p : Pipeline) (post : List Pipeline) (d : String) :
      pipelines m = pre ++ p :: post → d ∈ p.dependsOn → d ≠ p.name → d ∉ pre.map (·.name) →
      ManifestDefect m "linter: invalid or unknown pipeline dependency"
  | self (p : Pipeline) : p ∈ pipelines m → p.name ∈ p.dependsOn →
      ManifestDefect m "linter: pipeline cannot have a dependency on itself"
  | platform (p : Pipeline) (s : String) : p ∈ pipelines m → DockerPipeline p → PlatformDefect p.platform s →
      ManifestDefect m s

/-- Messages that trust would make go away begin like this. -/
def AboutTrust (m : String) : Prop := "linter: untrusted repositories cannot ".toList <+: m.toList

end Spec
end Drone
