/- What a compiled step looks like, field by field, and the list of all compiled
steps.  Everything the properties C22 - C41 need from the compiler. -/
import Verif.Proof.Compile
import Verif.Proof.GoMap

namespace Drone
open Engine (Step File)
open Spec (Role sources IsBuild)

/-- Volume mounts added for the workspace. -/
def wsMounts (c : Compiler) (w : WorkspaceDirs) : List Engine.VolumeMount :=
  match c.mount with
  | .default => [⟨"workspace", w.base⟩]
  | .host => ⟨"host", w.full⟩ :: (if w.path ≠ "" then [⟨"workspace", w.base⟩] else [])
  | .custom _ => []

/-- The six workspace variables on top of `e`. -/
def withWorkspace (e : GoMap String) (w : WorkspaceDirs) : GoMap String :=
  (setupWorkspaceEnv { envs := e } w).envs

/-- The two variables of Windows scripts on top of `e`. -/
def withScript (E : Ext) (os : String) (src : Container) (e : GoMap String) : GoMap String :=
  if src.commands.length > 0 ∧ os = "windows" then
    (e.set "CI_SCRIPT" (String.ofList (Script.base64 (utf8 (Script.windows E.isPrint src.commands))))).set
      "SHELL" "powershell.exe"
  else e

/-- The clone settings on top of `e`. -/
def withClone (p : Pipeline) (e : GoMap String) : GoMap String := (setupCloneDepth p { envs := e }).envs

/-- The script mount. -/
def scriptMounts (os : String) (src : Container) : List Engine.FileMount :=
  if src.commands.length > 0 ∧ os ≠ "windows" then
    [{ name := src.name, path := "/usr/drone/bin/init", mode := 0o777 }] else []

/-- Command and arguments of a container. -/
def commandOf (os : String) (src : Container) : List String × List String :=
  if src.commands.length > 0 then
    if os = "windows" then (["powershell", "-noprofile", "-noninteractive", "-command"],
      ["[System.Text.Encoding]::UTF8.GetString([System.Convert]::FromBase64String($Env:CI_SCRIPT)) | iex"])
    else (["/bin/sh"], ["/usr/drone/bin/init"])
  else (src.entrypoint, src.command)

/-- Fields common to all compiled steps. -/
structure Common (x : Ctx) (uid : String) (y : Role × Container) (s : Step) : Prop where
  md : s.md = { uid := uid, name := y.2.name, namespc := x.ns,
                labels := some [("io.drone.step.name", y.2.name)] }
  detach : s.detach = (decide (y.1 = .service) || y.2.detach)
  ignoreErr : s.ignoreErr = toIgnoreErr y.2
  resources : s.resources = toResources y.2
  runPolicy : s.runPolicy =
    if y.1 ≠ .clone ∧ x.c.skip.any (· y.2) = true then .never else toRunPolicy x.E.glob y.2
  dependsOn : s.dependsOn = y.2.dependsOn ++
    (if x.serial = false ∧ x.p.clone.disable = false ∧
        (y.1 = .service ∨ (y.1 = .step ∧ y.2.dependsOn = [])) then ["clone"] else [])
  networks : s.docker.networks = []

/-- Fields of a build step. -/
structure BuildFacts (x : Ctx) (uid : String) (src : Container) (b : Build) (s : Step) : Prop where
  docker : s.docker = { args := ["--build"], dns := src.dns, image := "drone/docker", pullPolicy := .ifNotExists, privileged := x.c.privileged.any (· src) }
  envs : s.envs = withWorkspace (buildEnvs x.E uid b) (createWorkspace x.p)
  secrets : s.secrets = []
  files : s.files = []
  volumes : s.volumes = ⟨"_docker_socket", "/var/run/docker.sock"⟩ :: wsMounts x.c (createWorkspace x.p)
  workingDir : s.workingDir =
    if src.detach = true ∧ src.commands = [] then "" else (createWorkspace x.p).full

/-- Fields of a step that is not a build step. -/
structure PlainFacts (x : Ctx) (y : Role × Container) (s : Step) : Prop where
  ports : toPorts y.2 = some s.docker.ports
  command : (s.docker.command, s.docker.args) = commandOf x.p.platform.os y.2
  dns : s.docker.dns = y.2.dns
  dnsSearch : s.docker.dnsSearch = y.2.dnsSearch
  extraHosts : s.docker.extraHosts = y.2.extraHosts
  image : s.docker.image = Img.expand x.E.dg y.2.image
  network : s.docker.network = y.2.network
  privileged : s.docker.privileged =
    (y.2.privileged || (decide (y.1 ≠ .clone) && x.c.privileged.any (· y.2)))
  pull : s.docker.pullPolicy = if y.1 = .clone then .ifNotExists else toPullPolicy y.2
  user : s.docker.user = y.2.user
  envs : s.envs = withWorkspace
    ((if y.1 = .clone then withClone x.p else id)
      (withScript x.E x.p.platform.os y.2 (stepEnvs x.E y.2).1)) (createWorkspace x.p)
  secrets : s.secrets = (stepEnvs x.E y.2).2
  files : s.files = scriptMounts x.p.platform.os y.2 ++
    (if y.1 = .clone ∧ (x.c.gitCredentials.getD []).length ≠ 0 then
      [{ name := ".git-credentials", path := "/root/.git-credentials" }] else [])
  volumes : ∃ ms, stepMounts y.2.volumes = some ms ∧
    s.volumes = ms ++ wsMounts x.c (createWorkspace x.p)
  workingDir : s.workingDir =
    if y.2.detach = true ∧ y.2.commands = [] ∧ y.2.workingDir ≠ "" then y.2.workingDir
    else if (y.1 = .service ∨ y.2.detach = true) ∧ y.2.commands = [] then ""
    else (createWorkspace x.p).full

theorem setupWorkspaceMount_eq {c : Compiler} (hc : c.Std) (s : Step) (w : WorkspaceDirs) :
    setupWorkspaceMount c s w = { s with volumes := s.volumes ++ wsMounts c w } := by
  unfold setupWorkspaceMount wsMounts
  cases h : c.mount with
  | default => rfl
  | host =>
    simp only [mountHostWorkspace]
    split
    · simp
    · simp
  | custom f => exact absurd h (hc.2 f)

theorem setupWorkingDir_eq (src : Container) (s : Step) (path : String) :
    setupWorkingDir src s path = { s with workingDir :=
      if s.workingDir ≠ "" then s.workingDir
      else if s.detach && src.commands.length = 0 then s.workingDir else path } := by
  unfold setupWorkingDir
  split
  · rename_i h; simp
  · rename_i h
    split
    · simp
    · simp

theorem finishStep_eq {c : Compiler} (hc : c.Std) (w : WorkspaceDirs) (src : Container) (s : Step) :
    finishStep c w src s = { s with
      workingDir := (setupWorkingDir src s w.full).workingDir
      envs := withWorkspace s.envs w
      volumes := s.volumes ++ wsMounts c w
      runPolicy := if c.skip.any (· src) = true then .never else s.runPolicy
      docker := { s.docker with privileged := s.docker.privileged || c.privileged.any (· src) } } := by
  unfold finishStep
  rw [setupWorkingDir_eq]
  simp only [setupWorkspaceMount_eq hc]
  unfold withWorkspace setupWorkspaceEnv
  by_cases h1 : c.skip.any (· src) = true <;> by_cases h2 : c.privileged.any (· src) = true <;>
    simp [h1, h2]

theorem scripted_eq (E : Ext) (os : String) (d : Step) (src : Container) :
    scripted E os d src = { d with
      files := d.files ++ scriptMounts os src
      docker := { d.docker with
        command := if src.commands.length > 0 then (commandOf os src).1 else d.docker.command
        args := if src.commands.length > 0 then (commandOf os src).2 else d.docker.args }
      envs := withScript E os src d.envs } := by
  unfold scripted scriptMounts commandOf withScript setupScriptWin
  by_cases h : src.commands.length > 0
  · by_cases h2 : os = "windows"
    · simp [h, h2]
    · simp [h, h2]
  · simp [h]

theorem cloneDep_eq (x : Ctx) (b : Bool) (s : Step) : cloneDep x b s = { s with
    dependsOn := s.dependsOn ++
      (if x.serial = false ∧ x.p.clone.disable = false ∧ (b = true → s.dependsOn.length = 0) then
        ["clone"] else []) } := by
  unfold cloneDep
  split
  · rfl
  · simp

theorem credMount_eq (c : Compiler) (d : Step) : credMount c d = { d with files := d.files ++
    (if (c.gitCredentials.getD []).length ≠ 0 then
      [{ name := ".git-credentials", path := "/root/.git-credentials" }] else []) } := by
  unfold credMount; split <;> rename_i hh <;> simp [hh]

theorem rawStep_common {x : Ctx} (hc : x.c.Std) {uid : String} {y : Role × Container} {s : Step}
    (h : rawStep x uid y = some s) : Common x uid y s := by
  obtain ⟨role, src⟩ := y
  cases role with
  | clone =>
    simp only [rawStep, stepBase, Option.map_eq_some_iff, Option.bind_eq_some_iff] at h
    obtain ⟨d, ⟨ports, _, mounts, _, rfl⟩, rfl⟩ := h
    rw [setupWorkspaceMount_eq hc, setupWorkingDir_eq, scripted_eq, credMount_eq]
    unfold setupWorkspaceEnv setupCloneDepth
    constructor <;> simp [createStep0]
  | service =>
    simp only [rawStep, stepBase, Option.map_eq_some_iff, Option.bind_eq_some_iff] at h
    obtain ⟨d, ⟨ports, _, mounts, _, rfl⟩, rfl⟩ := h
    rw [cloneDep_eq, finishStep_eq hc, scripted_eq]
    constructor <;> simp [createStep0]
  | step =>
    simp only [rawStep] at h
    split at h
    · simp only [Option.some.injEq] at h
      subst h
      rw [cloneDep_eq, finishStep_eq hc]
      constructor <;> simp [buildBase]
    · simp only [stepBase, Option.map_eq_some_iff, Option.bind_eq_some_iff] at h
      obtain ⟨d, ⟨ports, _, mounts, _, rfl⟩, rfl⟩ := h
      rw [cloneDep_eq, finishStep_eq hc, scripted_eq]
      constructor <;> simp [createStep0]

theorem rawStep_build {x : Ctx} (hc : x.c.Std) {uid : String} {src : Container} {b : Build} {s : Step}
    (hb : src.build = some b) (h : rawStep x uid (.step, src) = some s) :
    BuildFacts x uid src b s := by
  simp only [rawStep, hb, Option.some.injEq] at h
  subst h
  rw [cloneDep_eq, finishStep_eq hc]
  constructor
  · simp [buildBase]
  · simp [buildBase]
  · simp [buildBase]
  · simp [buildBase]
  · simp [buildBase]
  · simp only [setupWorkingDir_eq, buildBase]
    simp

theorem rawStep_plain {x : Ctx} (hc : x.c.Std) {uid : String} {y : Role × Container} {s : Step}
    (hb : ¬ IsBuild y) (h : rawStep x uid y = some s) : PlainFacts x y s := by
  have hcmd : ∀ src : Container, ((if src.commands.length > 0 then (commandOf x.p.platform.os src).1 else src.entrypoint),
      (if src.commands.length > 0 then (commandOf x.p.platform.os src).2 else src.command)) =
      commandOf x.p.platform.os src := by
    intro src
    unfold commandOf
    by_cases h : src.commands.length > 0 <;> simp [h]
  have hclone : ∀ d : Step, setupCloneDepth x.p d = { d with envs := withClone x.p d.envs } := by
    intro d; rfl
  have hwe : ∀ d : Step, setupWorkspaceEnv d (createWorkspace x.p) =
      { d with envs := withWorkspace d.envs (createWorkspace x.p) } := by intro d; rfl
  obtain ⟨role, src⟩ := y
  cases role with
  | clone =>
    simp only [rawStep, stepBase, Option.map_eq_some_iff, Option.bind_eq_some_iff] at h
    obtain ⟨d, ⟨ports, hp, mounts, hm, rfl⟩, rfl⟩ := h
    rw [setupWorkspaceMount_eq hc, setupWorkingDir_eq, scripted_eq, hclone, credMount_eq, hwe]
    constructor
    · simpa [createStep0] using hp
    · simpa [createStep0] using hcmd src
    all_goals try simp [createStep0]
    · exact hm
    · by_cases h1 : src.detach = true <;> by_cases h2 : src.commands = [] <;>
        by_cases h3 : src.workingDir = "" <;> simp [h1, h2, h3]
  | service =>
    simp only [rawStep, stepBase, Option.map_eq_some_iff, Option.bind_eq_some_iff] at h
    obtain ⟨d, ⟨ports, hp, mounts, hm, rfl⟩, rfl⟩ := h
    rw [cloneDep_eq, finishStep_eq hc, scripted_eq]
    constructor
    · simpa [createStep0] using hp
    · simpa [createStep0] using hcmd src
    all_goals try simp [createStep0]
    · exact hm
    · rw [setupWorkingDir_eq]
      by_cases h1 : src.detach = true <;> by_cases h2 : src.commands = [] <;>
        by_cases h3 : src.workingDir = "" <;> simp [h1, h2, h3]
  | step =>
    have hb' : src.build = none := by
      cases hh : src.build with
      | none => rfl
      | some b => exact absurd ⟨rfl, by simp [hh]⟩ hb
    simp only [rawStep, hb', stepBase, Option.map_eq_some_iff, Option.bind_eq_some_iff] at h
    obtain ⟨d, ⟨ports, hp, mounts, hm, rfl⟩, rfl⟩ := h
    rw [cloneDep_eq, finishStep_eq hc, scripted_eq]
    constructor
    · simpa [createStep0] using hp
    · simpa [createStep0] using hcmd src
    all_goals try simp [createStep0]
    · exact hm
    · rw [setupWorkingDir_eq]
      by_cases h1 : src.detach = true <;> by_cases h2 : src.commands = [] <;>
        by_cases h3 : src.workingDir = "" <;> simp [h1, h2, h3]

end Drone
