/-
The compiler: /repo/yaml/compiler/compiler.go, step.go, clone.go, convert.go,
encode.go, workspace.go and the `setupScript` functions.

Random identifiers are drawn from a numbered source: `rnd n` is the result of the
n-th call of `rand.String()`, and the state carries the number of calls so far.
`none` is a panic (a nil dereference).  The order in which a Go map is iterated is
the order of the association list for the maps of the pipeline, and the parameter
`iter` for the compiler's own `rename` map.
-/
import Verif.Model.Engine
import Verif.Model.Image
import Verif.Model.Path
import Verif.Model.Script
import Verif.Model.Float64

namespace Drone
open Engine (Step Spec File SecretVar FileMount DockerStep Metadata PullPolicy)

/-- Library functions the compiler calls and that are not modelled in detail. -/
structure Ext where
  /-- available digest algorithms -/
  dg : Img.DigestLib
  /-- `doublestar.Match` -/
  glob : Glob
  /-- `strings.ToUpper` -/
  upper : String → String
  /-- `strconv.FormatFloat(v, 'g', -1, 64)` -/
  fmtFloat : Rat → String
  /-- `encodeSlice` (/repo/yaml/compiler/encode.go:57-67) -/
  encodeSlice : List Value → String
  /-- `encodeMap` (/repo/yaml/compiler/encode.go:50-54), also used for nil -/
  encodeMap : Value → String
  /-- `strconv.IsPrint` -/
  isPrint : Char → Bool
  /-- iteration order of the rename map for the i-th step -/
  iter : Nat → GoMap String → GoMap String
  iter_perm : ∀ i m, (iter i m).Perm m

/-- How the `WorkspaceFunc` of a compiler is set: unset, the library's
`CreateHostWorkspace`, or any other function on the specification. -/
inductive WorkspaceFunc where
  | default
  | host (workdir : String)
  | custom (f : Spec → Spec)

/-- How `WorkspaceMountFunc` is set: unset, the library's `MountHostWorkspace`, or
any other function on the step, base, path and full path. -/
inductive WorkspaceMountFunc where
  | default
  | host
  | custom (f : Step → String → String → String → Step)

/-- /repo/yaml/compiler/compiler.go:27-66; unset callbacks are `none`.  `NetrcFunc`
is left out: `Compile` never calls it. -/
structure Compiler where
  gitCredentials : Option Bytes := none
  privileged : Option (Container → Bool) := none
  skip : Option (Container → Bool) := none
  transform : Option (Spec → Spec) := none
  workspace : WorkspaceFunc := .default
  mount : WorkspaceMountFunc := .default

/-- The random source and the specification under construction. -/
structure St where
  /-- number of identifiers drawn so far -/
  n : Nat
  spec : Spec

/-! ### convert.go -/

/-- ASCII lower case. -/
def lowerAscii (c : Char) : Char := if 'A' ≤ c ∧ c ≤ 'Z' then Char.ofNat (c.toNat + 32) else c

/-- /repo/yaml/compiler/convert.go:24-26: `strings.EqualFold(Failure, "ignore")`;
no letter of "ignore" has a simple case folding outside ASCII. -/
def toIgnoreErr (c : Container) : Bool :=
  decide (c.failure.toList.map lowerAscii = "ignore".toList)

/-- /repo/yaml/compiler/convert.go:36-42; a nil port panics. -/
def toPort : Option Port → Option Engine.Port
  | none => none
  | some p => some ⟨p.port, p.host, p.protocol⟩

/-- /repo/yaml/compiler/convert.go:28-34 -/
def toPorts (c : Container) : Option (List Engine.Port) := c.ports.mapM toPort

/-- `unicode.ToLower` as far as the comparison below can see it: ASCII, and the two
other letters whose lower case is ASCII (U+0130 and U+212A). -/
def lowerGo (c : Char) : Char :=
  if c = Char.ofNat 0x130 then 'i' else if c = Char.ofNat 0x212A then 'k' else lowerAscii c

/-- /repo/yaml/compiler/convert.go:44-55 -/
def toPullPolicy (c : Container) : PullPolicy :=
  let s := c.pull.toList.map lowerGo
  if s = "always".toList then .always
  else if s = "if-not-exists".toList then .ifNotExists
  else if s = "never".toList then .never
  else .default

/-- /repo/yaml/compiler/convert.go:92-97: the product is rounded, conversion to int64 truncates
(beyond the range of int64 its result is left open by Go) -/
def toCPUMillis (f : Rat) : Int :=
  let f := if f > 0 then F64.round (f * 1000) else f
  Int.tdiv f.num f.den

/-- /repo/yaml/compiler/convert.go:82-90 -/
def toResourceObject : Option ResourceObject → Option Engine.ResourceObject
  | none => none
  | some r => some ⟨toCPUMillis r.cpu, r.memory⟩

/-- /repo/yaml/compiler/convert.go:72-80 -/
def toResources (c : Container) : Option Engine.Resources :=
  match c.resources with
  | none => none
  | some r => some ⟨toResourceObject r.limits, toResourceObject r.requests⟩

/-! ### encode.go -/

/-- /repo/yaml/compiler/encode.go:30-47 -/
def encodeValue (E : Ext) : Value → String
  | .str s => s
  | .bool b => if b then "true" else "false"
  | .int i => toString i
  | .float q => E.fmtFloat q
  | .seq xs => E.encodeSlice xs
  | v => E.encodeMap v

/-! ### step.go -/

/-- The volume loop (/repo/yaml/compiler/step.go:73-86) -/
def stepMounts : List (Option VolumeMount) → Option (List Engine.VolumeMount)
  | [] => some []
  | none :: _ => none
  | some v :: vs =>
    if v.name = "_docker_socket" then stepMounts vs
    else (stepMounts vs).map fun ms => ⟨v.name, v.mountPath⟩ :: ms

/-- The variables and secret references collected so far. -/
abbrev EnvAcc := GoMap String × List SecretVar

/-- Body of the environment loop (/repo/yaml/compiler/step.go:90-104) -/
def addEnviron (acc : EnvAcc) (kv : String × Option Variable) : EnvAcc :=
  match kv.2 with
  | none => acc
  | some v =>
    if v.secret ≠ "" then (acc.1, acc.2 ++ [⟨v.secret, kv.1⟩])
    else (acc.1.set kv.1 v.value, acc.2)

/-- Body of the settings loop (/repo/yaml/compiler/step.go:108-131) -/
def addSetting (E : Ext) (acc : EnvAcc) (kv : String × Option Parameter) : EnvAcc :=
  match kv.2 with
  | none => acc
  | some v =>
    let key := "PLUGIN_" ++ E.upper kv.1
    if v.secret ≠ "" then (acc.1, acc.2 ++ [⟨v.secret, key⟩])
    else (acc.1.set key (encodeValue E v.value), acc.2)

/-- Both loops (/repo/yaml/compiler/step.go:88-131) -/
def stepEnvs (E : Ext) (c : Container) : EnvAcc :=
  c.settings.foldl (addSetting E) (c.environment.foldl addEnviron ([], []))

/-- /repo/yaml/compiler/script_posix.go:27-58 -/
def setupScript (E : Ext) (rnd : Nat → String) (st : St) (dst : Step) (src : Container) : Step × St :=
  let file : File := {
    md := { uid := rnd st.n, namespc := st.spec.md.namespc, name := src.name }
    data := utf8 (Script.posix E.isPrint src.commands) }
  let dst := { dst with
    files := dst.files ++ [{ name := src.name, path := "/usr/drone/bin/init", mode := 0o777 }]
    docker := { dst.docker with command := ["/bin/sh"], args := ["/usr/drone/bin/init"] } }
  (dst, { n := st.n + 1, spec := { st.spec with files := st.spec.files ++ [file] } })

/-- /repo/yaml/compiler/script_win.go:27-46 -/
def setupScriptWin (E : Ext) (dst : Step) (src : Container) : Step :=
  let script := Script.windows E.isPrint src.commands
  { dst with
    docker := { dst.docker with
      command := ["powershell", "-noprofile", "-noninteractive", "-command"]
      args := ["[System.Text.Encoding]::UTF8.GetString([System.Convert]::FromBase64String($Env:CI_SCRIPT)) | iex"] }
    envs := (dst.envs.set "CI_SCRIPT" (String.ofList (Script.base64 (utf8 script)))).set
      "SHELL" "powershell.exe" }

/-- /repo/yaml/compiler/step.go:27-131: the step before its script is set up. -/
def createStep0 (E : Ext) (uid ns : String) (src : Container) (ports : List Engine.Port)
    (mounts : List Engine.VolumeMount) : Step where
  md := { uid := uid, name := src.name, namespc := ns,
            labels := some [("io.drone.step.name", src.name)] }
  detach := src.detach
  dependsOn := src.dependsOn
  docker := {
    args := src.command
    command := src.entrypoint
    dns := src.dns
    dnsSearch := src.dnsSearch
    extraHosts := src.extraHosts
    image := Img.expand E.dg src.image
    network := src.network
    ports := ports
    privileged := src.privileged
    pullPolicy := toPullPolicy src
    user := src.user }
  envs := (stepEnvs E src).1
  ignoreErr := toIgnoreErr src
  resources := toResources src
  runPolicy := toRunPolicy E.glob src
  secrets := (stepEnvs E src).2
  volumes := mounts
  workingDir := if src.detach && src.commands.length = 0 then src.workingDir else ""

/-- /repo/yaml/compiler/step.go:26-147 -/
def createStep (E : Ext) (rnd : Nat → String) (st : St) (src : Container) : Option (Step × St) :=
  (toPorts src).bind fun ports =>
  (stepMounts src.volumes).bind fun mounts =>
  let dst := createStep0 E (rnd st.n) st.spec.md.namespc src ports mounts
  let st := { st with n := st.n + 1 }
  if src.commands.length > 0 then
    if st.spec.platform.os = "windows" then some (setupScriptWin E dst src, st)
    else some (setupScript E rnd st dst src)
  else some (dst, st)

/-- `strings.Join(v, ",")` -/
def commaJoin (v : List String) : String := ",".intercalate v

/-- The variables of a build step (/repo/yaml/compiler/step.go:176-196) -/
def buildEnvs (E : Ext) (uid : String) (b : Build) : GoMap String :=
  let e : GoMap String := []
  let e := if b.cacheFrom.length > 0 then e.set "DOCKER_BUILD_CACHE_FROM" (commaJoin b.cacheFrom) else e
  let e := if b.dockerfile ≠ "" then e.set "DOCKER_BUILD_DOCKERFILE" b.dockerfile else e
  let e := if b.context ≠ "" then e.set "DOCKER_BUILD_CONTEXT" b.context else e
  if b.image ≠ "" then
    (e.set "DOCKER_BUILD_IMAGE" (Img.expand E.dg b.image)).set "DOCKER_BUILD_IMAGE_ALIAS"
      (Img.expand E.dg (Img.trim E.dg b.image ++ ":" ++ uid))
  else e

/-- /repo/yaml/compiler/step.go:149-204 -/
def createBuildStep (E : Ext) (rnd : Nat → String) (st : St) (src : Container) (b : Build) : Step × St :=
  let uid := rnd st.n
  ({ md := { uid := uid, name := src.name, namespc := st.spec.md.namespc,
               labels := some [("io.drone.step.name", src.name)] }
     detach := src.detach
     dependsOn := src.dependsOn
     docker := { args := ["--build"], dns := src.dns, image := "drone/docker", pullPolicy := .ifNotExists }
     envs := buildEnvs E uid b
     ignoreErr := toIgnoreErr src
     resources := toResources src
     runPolicy := toRunPolicy E.glob src
     volumes := [⟨"_docker_socket", "/var/run/docker.sock"⟩] },
   { st with n := st.n + 1 })

/-! ### clone.go -/

/-- /repo/yaml/compiler/clone.go:30-49 -/
def cloneImage (p : Pipeline) : String :=
  if p.platform.os = "linux" ∧ p.platform.arch = "arm" then "drone/git:linux-arm"
  else if p.platform.os = "linux" ∧ p.platform.arch = "arm64" then "drone/git:linux-arm64"
  else if p.platform.os = "windows" ∧ p.platform.version = "1903" then "drone/git:windows-1903-amd64"
  else if p.platform.os = "windows" ∧ p.platform.version = "1809" then "drone/git:windows-1809-amd64"
  else if p.platform.os = "windows" ∧ p.platform.version = "1803" then "drone/git:windows-1803-amd64"
  else if p.platform.os = "windows" ∧ p.platform.version = "1709" then "drone/git:windows-1709-amd64"
  else if p.platform.os = "windows" then "drone/git:windows-1809-amd64"
  else "drone/git"

/-- /repo/yaml/compiler/clone.go:92-97 -/
def createClone (p : Pipeline) : Container := { name := "clone", image := cloneImage p }

/-- /repo/yaml/compiler/clone.go:55-63 -/
def setupCloneDepth (p : Pipeline) (dst : Step) : Step :=
  let e := if p.clone.depth > 0 then dst.envs.set "PLUGIN_DEPTH" (toString p.clone.depth) else dst.envs
  let e := if p.clone.skipVerify then
      (e.set "GIT_SSL_NO_VERIFY" "true").set "PLUGIN_SKIP_VERIFY" "true" else e
  { dst with envs := e }

/-- /repo/yaml/compiler/clone.go:69-87 -/
def setupCloneCredentials (rnd : Nat → String) (st : St) (dst : Step) (data : Bytes) : Step × St :=
  if data.length = 0 then (dst, st)
  else
    ({ dst with files := dst.files ++ [{ name := ".git-credentials", path := "/root/.git-credentials" }] },
     { n := st.n + 1
       spec := { st.spec with files := st.spec.files ++ [{
         md := { uid := rnd st.n, namespc := st.spec.md.namespc, name := ".git-credentials" }
         data := data }] } })

/-! ### workspace.go -/

/-- /repo/yaml/compiler/workspace.go:32-46 -/
def setupWorkingDir (src : Container) (dst : Step) (path : String) : Step :=
  if dst.workingDir ≠ "" then dst
  else if dst.detach && src.commands.length = 0 then dst
  else { dst with workingDir := path }

/-- /repo/yaml/compiler/workspace.go:50-57 -/
def setupWorkspaceEnv (step : Step) (w : WorkspaceDirs) : Step :=
  let e := step.envs.set "DRONE_WORKSPACE_BASE" w.base
  let e := e.set "DRONE_WORKSPACE_PATH" w.path
  let e := e.set "DRONE_WORKSPACE" w.full
  let e := e.set "CI_WORKSPACE_BASE" w.base
  let e := e.set "CI_WORKSPACE_PATH" w.path
  let e := e.set "CI_WORKSPACE" w.full
  { step with envs := e }

/-- Appends a volume and counts its identifier. -/
def St.addVolume (st : St) (v : Engine.Volume) : St :=
  { n := st.n + 1, spec := { st.spec with volumes := st.spec.volumes ++ [v] } }

/-- /repo/yaml/compiler/workspace.go:97-109 -/
def createWorkspaceVolume (rnd : Nat → String) (st : St) : St :=
  st.addVolume {
    md := { uid := rnd st.n, name := "workspace", namespc := st.spec.md.namespc, labels := some [] }
    emptyDir := some {} }

/-- /repo/yaml/compiler/workspace.go:114-130 -/
def createHostWorkspace (rnd : Nat → String) (workdir : String) (st : St) : St :=
  let st := createWorkspaceVolume rnd st
  st.addVolume { md := { uid := rnd st.n, name := "host" }, hostPath := some workdir }

/-- /repo/yaml/compiler/workspace.go:138-143 -/
def mountWorkspace (step : Step) (w : WorkspaceDirs) : Step :=
  { step with volumes := step.volumes ++ [⟨"workspace", w.base⟩] }

/-- /repo/yaml/compiler/workspace.go:147-158 -/
def mountHostWorkspace (step : Step) (w : WorkspaceDirs) : Step :=
  let step := { step with volumes := step.volumes ++ [⟨"host", w.full⟩] }
  if w.path ≠ "" then { step with volumes := step.volumes ++ [⟨"workspace", w.base⟩] } else step

/-! ### compiler.go -/

/-- /repo/yaml/compiler/compiler.go:302-309 -/
def setupWorkspace (c : Compiler) (rnd : Nat → String) (st : St) : St :=
  match c.workspace with
  | .default => createWorkspaceVolume rnd st
  | .host d => createHostWorkspace rnd d st
  | .custom f => { st with spec := f st.spec }

/-- /repo/yaml/compiler/compiler.go:311-317 -/
def setupWorkspaceMount (c : Compiler) (step : Step) (w : WorkspaceDirs) : Step :=
  match c.mount with
  | .default => mountWorkspace step w
  | .host => mountHostWorkspace step w
  | .custom f => f step w.base w.path w.full

/-- /repo/yaml/compiler/compiler.go:74-80; a nil step panics, but steps behind the
first one with dependencies are not looked at. -/
def isSerial : List (Option Container) → Option Bool
  | [] => some true
  | none :: _ => none
  | some s :: ss => if s.dependsOn.length ≠ 0 then some false else isSerial ss

/-- The pipeline volume loop (/repo/yaml/compiler/compiler.go:117-142) -/
def addVolumes (rnd : Nat → String) (ns : String) : List (Option Volume) → St → Option St
  | [], st => some st
  | none :: _, _ => none
  | some v :: vs, st =>
    addVolumes rnd ns vs (st.addVolume {
      md := { uid := rnd st.n, name := v.name, namespc := ns, labels := some [] }
      emptyDir := v.emptyDir.map fun e => ⟨e.medium, e.sizeLimit⟩
      hostPath := if v.emptyDir.isSome then none else v.hostPath.map (·.path) })

/-- `spec.Steps = append(spec.Steps, dst)` -/
def St.addStep (st : St) (s : Step) : St :=
  { st with spec := { st.spec with steps := st.spec.steps ++ [s] } }

/-- The automatic clone step (/repo/yaml/compiler/compiler.go:144-154) -/
def addClone (E : Ext) (c : Compiler) (rnd : Nat → String) (p : Pipeline) (w : WorkspaceDirs)
    (st : St) : Option St :=
  if p.clone.disable then some st
  else
    let src := createClone p
    (createStep E rnd st src).map fun (dst, st) =>
    let dst := { dst with docker := { dst.docker with pullPolicy := .ifNotExists } }
    let dst := setupCloneDepth p dst
    let (dst, st) := setupCloneCredentials rnd st dst (c.gitCredentials.getD [])
    let dst := setupWorkingDir src dst w.full
    let dst := setupWorkspaceEnv dst w
    let dst := setupWorkspaceMount c dst w
    st.addStep dst

/-- Lines common to services and steps (/repo/yaml/compiler/compiler.go:164-176 and
202-214) -/
def finishStep (c : Compiler) (w : WorkspaceDirs) (src : Container) (step : Step) : Step :=
  let step := setupWorkingDir src step w.full
  let step := setupWorkspaceEnv step w
  let step := setupWorkspaceMount c step w
  let step := if c.skip.any (· src) then { step with runPolicy := .never } else step
  if c.privileged.any (· src) then { step with docker := { step.docker with privileged := true } } else step

/-- Body of the service loop (/repo/yaml/compiler/compiler.go:159-184) -/
def addService (E : Ext) (c : Compiler) (rnd : Nat → String) (p : Pipeline) (w : WorkspaceDirs)
    (serial : Bool) (src : Container) (st : St) : Option St :=
  (createStep E rnd st src).map fun (step, st) =>
  let step := { step with detach := true }
  let step := finishStep c w src step
  let step := if serial = false ∧ p.clone.disable = false then
      { step with dependsOn := step.dependsOn ++ ["clone"] } else step
  st.addStep step

/-- The service loop. -/
def addServices (E : Ext) (c : Compiler) (rnd : Nat → String) (p : Pipeline) (w : WorkspaceDirs)
    (serial : Bool) : List (Option Container) → St → Option St
  | [], st => some st
  | none :: _, _ => none
  | some s :: ss, st => (addService E c rnd p w serial s st).bind (addServices E c rnd p w serial ss)

/-- Body of the step loop (/repo/yaml/compiler/compiler.go:193-223) -/
def addPipelineStep (E : Ext) (c : Compiler) (rnd : Nat → String) (p : Pipeline) (w : WorkspaceDirs)
    (serial : Bool) (src : Container) (st : St) (rename : GoMap String) : Option (St × GoMap String) :=
  let created : Option (Step × St × GoMap String) :=
    match src.build with
    | some b =>
      let (step, st) := createBuildStep E rnd st src b
      some (step, st, rename.set b.image step.md.uid)
    | none => (createStep E rnd st src).map fun (step, st) => (step, st, rename)
  created.map fun (step, st, rename) =>
  let step := finishStep c w src step
  let step := if serial = false ∧ p.clone.disable = false ∧ step.dependsOn.length = 0 then
      { step with dependsOn := step.dependsOn ++ ["clone"] } else step
  (st.addStep step, rename)

/-- The step loop. -/
def addSteps (E : Ext) (c : Compiler) (rnd : Nat → String) (p : Pipeline) (w : WorkspaceDirs)
    (serial : Bool) : List (Option Container) → St → GoMap String → Option (St × GoMap String)
  | [], st, rn => some (st, rn)
  | none :: _, _, _ => none
  | some s :: ss, st, rn =>
    (addPipelineStep E c rnd p w serial s st rn).bind fun (st, rn) =>
      addSteps E c rnd p w serial ss st rn

/-- /repo/yaml/compiler/compiler.go:228-241 -/
def addSocket (rnd : Nat → String) (ns : String) (rename : GoMap String) (st : St) : St :=
  if rename.length > 0 then
    st.addVolume {
      md := { uid := rnd st.n, name := "_docker_socket", namespc := ns, labels := some [] }
      hostPath := some "/var/run/docker.sock" }
  else st

/-- The inner loop at /repo/yaml/compiler/compiler.go:247-252 -/
def renameImage (E : Ext) (image : String) : GoMap String → String
  | [] => image
  | (k, v) :: rest =>
    renameImage E
      (if Img.matchTag E.dg image k then Img.expand E.dg (Img.trim E.dg image ++ ":" ++ v) else image)
      rest

/-- /repo/yaml/compiler/compiler.go:246-253; `i` is the index of the step. -/
def renameSteps (E : Ext) (rename : GoMap String) : Nat → List Step → List Step
  | _, [] => []
  | i, s :: ss =>
    { s with docker := { s.docker with image := renameImage E s.docker.image (E.iter i rename) } } ::
      renameSteps E rename (i + 1) ss

/-- The empty specification (/repo/yaml/compiler/compiler.go:82-102) -/
def initSpec (p : Pipeline) (ns : String) : Spec where
  md := { uid := ns, name := ns, namespc := ns, labels := some [
    ("io.drone.pipeline.name", p.name), ("io.drone.pipeline.kind", p.kind),
    ("io.drone.pipeline.type", p.type)] }
  platform := ⟨p.platform.os, p.platform.arch, p.platform.variant, p.platform.version⟩

/-- /repo/yaml/compiler/compiler.go:71-253: everything before `TransformFunc`. -/
def compileCore (E : Ext) (c : Compiler) (rnd : Nat → String) (p : Pipeline) : Option St :=
  let ns := rnd 0
  (isSerial p.steps).bind fun serial =>
  let st : St := { n := 1, spec := initSpec p ns }
  let w := createWorkspace p
  let st := setupWorkspace c rnd st
  (addVolumes rnd ns p.volumes st).bind fun st =>
  (addClone E c rnd p w st).bind fun st =>
  (addServices E c rnd p w serial p.services st).bind fun st =>
  (addSteps E c rnd p w serial p.steps st []).map fun (st, rename) =>
  let st := addSocket rnd ns rename st
  { st with spec := { st.spec with steps := renameSteps E rename 0 st.spec.steps } }

/-- `Compile` (/repo/yaml/compiler/compiler.go:71-262) -/
def compile (E : Ext) (c : Compiler) (rnd : Nat → String) (p : Pipeline) : Option Spec :=
  (compileCore E c rnd p).map fun st =>
  match c.transform with
  | none => st.spec
  | some f => f st.spec

end Drone
