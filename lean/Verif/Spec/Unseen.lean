/- The parts of a pipeline that its compiled form can depend on, stated as relations between two
pipelines without reference to the compiler: two pipelines are related if they differ at most in
what is not looked at. -/
import Verif.Model.Compile
import Mathlib.Data.List.Forall2

namespace Drone
namespace Spec
namespace Unseen

/-- Two containers without a build section that differ at most in: the devices, the push and the build
section and the shell; every condition except `status`; the entrypoint and command if there are
commands; the working directory, unless the container is detached and has no commands; variables
and settings without a value; mounts of the volume `_docker_socket`. -/
structure SamePlain (a b : Container) : Prop where
  name : a.name = b.name
  image : a.image = b.image
  commands : a.commands = b.commands
  start : a.commands = [] → a.command = b.command ∧ a.entrypoint = b.entrypoint
  detach : a.detach = b.detach
  dependsOn : a.dependsOn = b.dependsOn
  dns : a.dns = b.dns
  dnsSearch : a.dnsSearch = b.dnsSearch
  extraHosts : a.extraHosts = b.extraHosts
  network : a.network = b.network
  ports : a.ports = b.ports
  privileged : a.privileged = b.privileged
  pull : a.pull = b.pull
  failure : a.failure = b.failure
  user : a.user = b.user
  resources : a.resources = b.resources
  status : a.cond.status = b.cond.status
  workingDir : a.detach = true → a.commands = [] → a.workingDir = b.workingDir
  environment : a.environment.filter (fun kv => kv.2.isSome) = b.environment.filter (fun kv => kv.2.isSome)
  settings : a.settings.filter (fun kv => kv.2.isSome) = b.settings.filter (fun kv => kv.2.isSome)
  volumes : a.volumes.filter (fun v => !(v.any (fun v => v.name == "_docker_socket"))) =
    b.volumes.filter (fun v => !(v.any (fun v => v.name == "_docker_socket")))

/-- Two build sections that differ at most in their arguments and labels. -/
structure SameBuild (x y : Build) : Prop where
  cacheFrom : x.cacheFrom = y.cacheFrom
  context : x.context = y.context
  dockerfile : x.dockerfile = y.dockerfile
  image : x.image = y.image

/-- Two containers with a build section that agree in the little that is looked at.  Among what is
not: image, variables, settings, volumes, ports, user, network and the privileged flag. -/
structure SameBuilder (a b : Container) : Prop where
  build : ∃ x y, a.build = some x ∧ b.build = some y ∧ SameBuild x y
  name : a.name = b.name
  detach : a.detach = b.detach
  dependsOn : a.dependsOn = b.dependsOn
  dns : a.dns = b.dns
  failure : a.failure = b.failure
  resources : a.resources = b.resources
  status : a.cond.status = b.cond.status
  idle : a.detach = true → (a.commands = [] ↔ b.commands = [])

/-- The callbacks of the compiler answer alike for two containers. -/
structure SameAnswers (c : Compiler) (a b : Container) : Prop where
  skip : ∀ f ∈ c.skip, f a = f b
  privileged : ∀ f ∈ c.privileged, f a = f b

/-- Two services of which the compiler sees the same.  The build section of a service counts for
nothing. -/
def SameService (c : Compiler) (a b : Container) : Prop := SamePlain a b ∧ SameAnswers c a b

/-- Two steps of which the compiler sees the same. -/
def SameStep (c : Compiler) (a b : Container) : Prop :=
  (a.build = none ∧ b.build = none ∧ SamePlain a b ∨ SameBuilder a b) ∧ SameAnswers c a b

/-- Two volumes that differ at most in the host path of a volume that is an empty directory. -/
structure SameVolume (a b : Volume) : Prop where
  name : a.name = b.name
  emptyDir : a.emptyDir = b.emptyDir
  hostPath : a.emptyDir = none → a.hostPath = b.hostPath

/-- Two lists with related entries at the same places, nil entries included. -/
abbrev Pointwise {α : Type} (R : α → α → Prop) : List (Option α) → List (Option α) → Prop :=
  List.Forall₂ (Option.Rel R)

/-- Two pipelines that differ at most in: the version, the concurrency limit, the pipelines they
depend on, the node labels, the pull secrets and the trigger; the depth and verification flag of a
clone section that is disabled, and by how much a depth is below one; and in their containers and
volumes as said above. -/
structure SamePipeline (c : Compiler) (p q : Pipeline) : Prop where
  name : p.name = q.name
  kind : p.kind = q.kind
  type : p.type = q.type
  platform : p.platform = q.platform
  workspace : p.workspace = q.workspace
  disable : p.clone.disable = q.clone.disable
  depth : p.clone.disable = false → p.clone.depth = q.clone.depth ∨ p.clone.depth ≤ 0 ∧ q.clone.depth ≤ 0
  skipVerify : p.clone.disable = false → p.clone.skipVerify = q.clone.skipVerify
  services : Pointwise (SameService c) p.services q.services
  steps : Pointwise (SameStep c) p.steps q.steps
  volumes : Pointwise SameVolume p.volumes q.volumes

end Unseen
end Spec
end Drone
