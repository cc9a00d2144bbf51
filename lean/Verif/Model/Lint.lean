import Verif.Model.Types
/-
/repo/yaml/linter/linter.go, /repo/yaml/linter/config.go and the `Validate`
methods of package yaml.
-/
namespace Drone

/-- How a check can fail: a returned error, or a nil dereference. -/
inductive Fail where
  | err (msg : String)
  | panic
  deriving DecidableEq, Repr

abbrev Check := Except Fail Unit

/-- `if c { return err }`. -/
def refuse (c : Prop) [Decidable c] (msg : String) : Check :=
  if c then .error (.err msg) else .ok ()

/-- `if v != nil { if err := check(v); err != nil { return err } }`. -/
def whenSome {α : Type} (v : Option α) (check : α → Check) : Check :=
  match v with
  | some a => check a
  | none => .ok ()

/-- /repo/yaml/linter/linter.go:24-27 -/
def lintOS : List String := ["linux", "windows"]

/-- /repo/yaml/linter/linter.go:29-35 -/
def lintArch : List String := ["arm", "arm64", "amd64", "ppc64le", "s390x"]

def errDuplicateStepName := "linter: duplicate step names"
def errMissingDependency := "linter: invalid or unknown step dependency"
def errCyclicalDependency := "linter: cyclical step dependency detected"

/-- /repo/yaml/linter/linter.go:113-127 -/
def checkPlatform (p : Platform) : Check :=
  if p.os ≠ "" ∧ p.os ∉ lintOS then .error (.err ("linter: unsupported os: " ++ p.os))
  else if p.arch ≠ "" ∧ p.arch ∉ lintArch then
    .error (.err ("linter: unsupported architecture: " ++ p.arch))
  else .ok ()

/-- /repo/yaml/linter/linter.go:180-185: `port.Host` is read only when
untrusted, so a nil port panics only then. -/
def checkPort (trusted : Bool) (port : Option Port) : Check :=
  if trusted then .ok ()
  else match port with
    | none => .error .panic
    | some p =>
      if p.host ≠ 0 then .error (.err "linter: untrusted repositories cannot map to a host port")
      else .ok ()

/-- /repo/yaml/linter/linter.go:170-178 -/
def checkPorts (trusted : Bool) : List (Option Port) → Check
  | [] => .ok ()
  | p :: ps => do checkPort trusted p; checkPorts trusted ps

/-- The volume names refused at /repo/yaml/linter/linter.go:163 and 202. -/
def reservedVolumes : List String := ["workspace", "_workspace", "_docker_socket"]

/-- The mount loop, /repo/yaml/linter/linter.go:161-166. -/
def checkMounts : List (Option VolumeMount) → Check
  | [] => .ok ()
  | none :: _ => .error .panic
  | some m :: ms =>
    if m.name ∈ reservedVolumes then .error (.err ("linter: invalid volume name: " ++ m.name))
    else checkMounts ms

/-- /repo/yaml/linter/linter.go:129-168 -/
def checkContainer (trusted : Bool) (c : Container) : Check := do
  checkPorts trusted c.ports
  refuse (c.build = none ∧ c.image = "") "linter: invalid or missing image"
  refuse (c.build.map (fun b => b.image) = some "") "linter: invalid or missing build image"
  refuse (c.name = "") "linter: invalid or missing name"
  refuse (trusted = false ∧ c.privileged = true) "linter: untrusted repositories cannot enable privileged mode"
  refuse (trusted = false ∧ c.devices.length > 0) "linter: untrusted repositories cannot mount devices"
  refuse (trusted = false ∧ c.dns.length > 0) "linter: untrusted repositories cannot configure dns"
  refuse (trusted = false ∧ c.dnsSearch.length > 0) "linter: untrusted repositories cannot configure dns_search"
  refuse (trusted = false ∧ c.extraHosts.length > 0) "linter: untrusted repositories cannot configure extra_hosts"
  refuse (trusted = false ∧ c.network ≠ "") "linter: untrusted repositories cannot configure network_mode"
  checkMounts c.volumes

/-- /repo/yaml/linter/linter.go:209-214 -/
def checkHostPathVolume (trusted : Bool) : Check :=
  if trusted = false then .error (.err "linter: untrusted repositories cannot mount host volumes")
  else .ok ()

/-- /repo/yaml/linter/linter.go:216-221 -/
def checkEmptyDirVolume (trusted : Bool) (v : VolumeEmptyDir) : Check :=
  if trusted = false ∧ v.medium = "memory" then
    .error (.err "linter: untrusted repositories cannot mount in-memory volumes")
  else .ok ()

/-- /repo/yaml/linter/linter.go:187-207 -/
def checkVolumes (trusted : Bool) : List (Option Volume) → Check
  | [] => .ok ()
  | none :: _ => .error .panic
  | some v :: vs => do
    whenSome v.emptyDir (fun d => checkEmptyDirVolume trusted d)
    whenSome v.hostPath (fun _ => checkHostPathVolume trusted)
    refuse (v.name ∈ reservedVolumes) ("linter: invalid volume name: " ++ v.name)
    checkVolumes trusted vs

/-- /repo/yaml/linter/linter.go:223-234 (`names` is the set of names seen). -/
def checkDeps (name : String) (names : List String) : List String → Check
  | [] => .ok ()
  | d :: ds =>
    if d ∉ names then .error (.err errMissingDependency)
    else if name = d then .error (.err errCyclicalDependency)
    else checkDeps name names ds

/-- The step loop, /repo/yaml/linter/linter.go:81-97; returns the name set. -/
def checkSteps (trusted : Bool) (names : List String) :
    List (Option Container) → Except Fail (List String)
  | [] => .ok names
  | none :: _ => .error .panic
  | some c :: cs => do
    refuse (c.name ∈ names) errDuplicateStepName
    let names := c.name :: names
    checkContainer trusted c
    checkDeps c.name names c.dependsOn
    checkSteps trusted names cs

/-- The service loop, /repo/yaml/linter/linter.go:98-109. -/
def checkServices (trusted : Bool) (names : List String) : List (Option Container) → Check
  | [] => .ok ()
  | none :: _ => .error .panic
  | some c :: cs => do
    refuse (c.name ∈ names) errDuplicateStepName
    let names := c.name :: names
    checkContainer trusted c
    checkServices trusted names cs

/-- /repo/yaml/linter/linter.go:68-111 -/
def checkPipeline (trusted : Bool) (p : Pipeline) : Check := do
  checkVolumes trusted p.volumes
  checkPlatform p.platform
  let names := if p.clone.disable = false then ["clone"] else []
  let names ← checkSteps trusted names p.steps
  checkServices trusted names p.services

/-- /repo/yaml/cron.go:51-58 -/
def Cron.validate (c : Cron) : Check :=
  if c.branch = "" then .error (.err "yaml: invalid cron branch") else .ok ()

/-- /repo/yaml/secret.go:59-64 -/
def Secret.validate (s : Secret) : Check :=
  if s.data = "" ∧ s.get.path = "" ∧ s.get.name = "" then
    .error (.err "yaml: invalid secret resource")
  else .ok ()

/-- /repo/yaml/registry.go:39-44 -/
def Registry.validate (r : Registry) : Check :=
  if r.data.length = 0 then .error (.err "yaml: invalid registry resource") else .ok ()

/-- /repo/yaml/signature.go:38-43 -/
def Signature.validate (s : Signature) : Check :=
  if s.hmac = "" then .error (.err "yaml: invalid signature. missing hash") else .ok ()

/-- /repo/yaml/linter/linter.go:51-66 -/
def lint (r : Resource) (trusted : Bool) : Check :=
  match r with
  | .cron c => c.validate
  | .pipeline p => checkPipeline trusted p
  | .secret s => s.validate
  | .registry r => r.validate
  | .signature s => s.validate

def errDuplicatePipelineName := "linter: duplicate pipeline names"
def errMissingPipelineDependency := "linter: invalid or unknown pipeline dependency"
def errPipelineSelfDependency := "linter: pipeline cannot have a dependency on itself"

/-- /repo/yaml/linter/config.go:70-81 -/
def checkPipelineDeps (name : String) (names : List String) : List String → Check
  | [] => .ok ()
  | d :: ds =>
    if d ∉ names then .error (.err errMissingPipelineDependency)
    else if name = d then .error (.err errPipelineSelfDependency)
    else checkPipelineDeps name names ds

/-- /repo/yaml/linter/config.go:45-68 (the trust flag is not used there). -/
def checkPipelines (names : List String) : List Resource → Check
  | [] => .ok ()
  | .pipeline v :: rs => do
    refuse (v.name ∈ names) errDuplicatePipelineName
    let names := v.name :: names
    checkPipelineDeps v.name names v.dependsOn
    whenSome (if (v.kind = "pipeline" ∨ v.kind = "") ∧ (v.type = "" ∨ v.type = "docker") then
      some v.platform else none) checkPlatform
    checkPipelines names rs
  | _ :: rs => checkPipelines names rs

/-- `linter.Manifest`, /repo/yaml/linter/config.go:41-43 -/
def lintManifest (m : Manifest) (_trusted : Bool) : Check := checkPipelines [] m.resources

end Drone
