/- The compiler as a fold over the containers of the pipeline: `emit` computes the
compiled steps and files of a list of containers from the next random number, and
`compileCore_eq` shows that `compileCore` is `emit` plus volumes and renaming. -/
import Verif.Spec.Sources
import Mathlib.Tactic.Common
import Mathlib.Data.List.Basic
import Mathlib.Data.List.Forall2

namespace Drone
open Engine (Step File)
open Spec (Role sources)

/-- Script part of `createStep` without the file. -/
def scripted (E : Ext) (os : String) (dst : Step) (src : Container) : Step :=
  if src.commands.length > 0 then
    if os = "windows" then setupScriptWin E dst src
    else { dst with
      files := dst.files ++ [{ name := src.name, path := "/usr/drone/bin/init", mode := 0o777 }]
      docker := { dst.docker with command := ["/bin/sh"], args := ["/usr/drone/bin/init"] } }
  else dst

/-- The step `createStep` returns. -/
def stepBase (E : Ext) (os ns uid : String) (src : Container) : Option Step :=
  (toPorts src).bind fun ports =>
  (stepMounts src.volumes).map fun mounts =>
  scripted E os (createStep0 E uid ns src ports mounts) src

/-- The file `createStep` adds. -/
def scriptFiles (E : Ext) (os ns : String) (uid : String) (src : Container) : List File :=
  if src.commands.length > 0 then
    if os = "windows" then []
    else [{ md := { uid := uid, namespc := ns, name := src.name }
            data := utf8 (Script.posix E.isPrint src.commands) }]
  else []

theorem createStep_eq (E : Ext) (rnd : Nat → String) (st : St) (src : Container) :
    createStep E rnd st src =
      (stepBase E st.spec.platform.os st.spec.md.namespc (rnd st.n) src).map fun d =>
        let fs := scriptFiles E st.spec.platform.os st.spec.md.namespc (rnd (st.n + 1)) src
        (d, { n := st.n + 1 + fs.length, spec := { st.spec with files := st.spec.files ++ fs } }) := by
  unfold createStep stepBase
  cases toPorts src with
  | none => rfl
  | some ports =>
    cases stepMounts src.volumes with
    | none => rfl
    | some mounts =>
      simp only [Option.bind_some, Option.map_some]
      unfold scripted scriptFiles
      by_cases h : src.commands.length > 0
      · by_cases h2 : st.spec.platform.os = "windows"
        · simp [h, h2]
        · simp [h, h2, setupScript]
      · simp [h]

/-- The credentials file. -/
def credFiles (c : Compiler) (ns uid : String) : List File :=
  if (c.gitCredentials.getD []).length = 0 then []
  else [{ md := { uid := uid, namespc := ns, name := ".git-credentials" }
          data := c.gitCredentials.getD [] }]

/-- Mounts the credentials file. -/
def credMount (c : Compiler) (dst : Step) : Step :=
  if (c.gitCredentials.getD []).length = 0 then dst
  else { dst with files := dst.files ++ [{ name := ".git-credentials", path := "/root/.git-credentials" }] }

theorem setupCloneCredentials_eq (c : Compiler) (rnd : Nat → String) (st : St) (dst : Step) :
    setupCloneCredentials rnd st dst (c.gitCredentials.getD []) =
      let fs := credFiles c st.spec.md.namespc (rnd st.n)
      (credMount c dst,
        { n := st.n + fs.length, spec := { st.spec with files := st.spec.files ++ fs } }) := by
  unfold setupCloneCredentials credFiles credMount
  by_cases h : (c.gitCredentials.getD []).length = 0
  · simp [h]
  · simp [h]

/-- The build step of `createBuildStep`. -/
def buildBase (E : Ext) (ns uid : String) (src : Container) (b : Build) : Step where
  md := { uid := uid, name := src.name, namespc := ns,
          labels := some [("io.drone.step.name", src.name)] }
  detach := src.detach
  dependsOn := src.dependsOn
  docker := { args := ["--build"], dns := src.dns, image := "drone/docker", pullPolicy := .ifNotExists }
  envs := buildEnvs E uid b
  ignoreErr := toIgnoreErr src
  resources := toResources src
  runPolicy := toRunPolicy E.glob src
  volumes := [⟨"_docker_socket", "/var/run/docker.sock"⟩]

/-- Context of a compilation. -/
structure Ctx where
  E : Ext
  c : Compiler
  p : Pipeline
  serial : Bool
  ns : String

/-- Extra dependency on the clone step. -/
def cloneDep (x : Ctx) (onlyIfNone : Bool) (s : Step) : Step :=
  if x.serial = false ∧ x.p.clone.disable = false ∧ (onlyIfNone = true → s.dependsOn.length = 0) then
    { s with dependsOn := s.dependsOn ++ ["clone"] } else s

/-- The compiled step of a container, before images are renamed. -/
def rawStep (x : Ctx) (uid : String) : Role × Container → Option Step
  | (.clone, src) =>
    (stepBase x.E x.p.platform.os x.ns uid src).map fun dst =>
    let dst := { dst with docker := { dst.docker with pullPolicy := .ifNotExists } }
    let dst := credMount x.c (setupCloneDepth x.p dst)
    let dst := setupWorkingDir src dst (createWorkspace x.p).full
    setupWorkspaceMount x.c (setupWorkspaceEnv dst (createWorkspace x.p)) (createWorkspace x.p)
  | (.service, src) =>
    (stepBase x.E x.p.platform.os x.ns uid src).map fun dst =>
    cloneDep x false (finishStep x.c (createWorkspace x.p) src { dst with detach := true })
  | (.step, src) =>
    match src.build with
    | some b => some (cloneDep x true (finishStep x.c (createWorkspace x.p) src (buildBase x.E x.ns uid src b)))
    | none =>
      (stepBase x.E x.p.platform.os x.ns uid src).map fun dst =>
      cloneDep x true (finishStep x.c (createWorkspace x.p) src dst)

/-- The files added for a container. -/
def rawFiles (x : Ctx) (uid : String) : Role × Container → List File
  | (.clone, src) => scriptFiles x.E x.p.platform.os x.ns uid src ++ credFiles x.c x.ns uid
  | (.service, src) => scriptFiles x.E x.p.platform.os x.ns uid src
  | (.step, src) =>
    if src.build.isSome then [] else scriptFiles x.E x.p.platform.os x.ns uid src

/-- Steps and files of a list of containers; `n` random numbers were drawn before. -/
def emit (x : Ctx) (rnd : Nat → String) : Nat → List (Role × Container) →
    Option (List Step × List File × Nat)
  | n, [] => some ([], [], n)
  | n, y :: ys =>
    (rawStep x (rnd n) y).bind fun s =>
    let fs := rawFiles x (rnd (n + 1)) y
    (emit x rnd (n + 1 + fs.length) ys).map fun r => (s :: r.1, fs ++ r.2.1, r.2.2)

theorem emit_append (x : Ctx) (rnd : Nat → String) : ∀ (ys zs : List (Role × Container)) (n : Nat),
    emit x rnd n (ys ++ zs) =
      (emit x rnd n ys).bind fun r => (emit x rnd r.2.2 zs).map fun q =>
        (r.1 ++ q.1, r.2.1 ++ q.2.1, q.2.2)
  | [], zs, n => by simp [emit]
  | y :: ys, zs, n => by
    simp only [List.cons_append, emit]
    cases rawStep x (rnd n) y with
    | none => rfl
    | some s =>
      simp only [Option.bind_some]
      rw [emit_append x rnd ys zs]
      cases emit x rnd (n + 1 + (rawFiles x (rnd (n + 1)) y).length) ys with
      | none => rfl
      | some r =>
        simp only [Option.bind_some, Option.map_some]
        cases emit x rnd r.2.2 zs with
        | none => rfl
        | some q => simp

/-- State after emitting. -/
def St.emitted (st : St) (r : List Step × List File × Nat) : St :=
  { n := r.2.2, spec := { st.spec with steps := st.spec.steps ++ r.1, files := st.spec.files ++ r.2.1 } }

/-- The state belongs to the compilation `x`. -/
structure InCtx (x : Ctx) (st : St) : Prop where
  ns : st.spec.md.namespc = x.ns
  os : st.spec.platform.os = x.p.platform.os

theorem InCtx.emitted {x : Ctx} {st : St} (h : InCtx x st) (r) : InCtx x (st.emitted r) := ⟨h.ns, h.os⟩

theorem addClone_eq (x : Ctx) (rnd : Nat → String) (st : St) (h : InCtx x st) :
    addClone x.E x.c rnd x.p (createWorkspace x.p) st =
      (emit x rnd st.n (if x.p.clone.disable then [] else [(.clone, createClone x.p)])).map st.emitted := by
  unfold addClone
  by_cases hd : x.p.clone.disable = true
  · simp [hd, emit, St.emitted]
  · rw [if_neg hd, if_neg hd]
    simp only [emit, rawStep]
    rw [createStep_eq, h.ns, h.os]
    cases stepBase x.E x.p.platform.os x.ns (rnd st.n) (createClone x.p) with
    | none => rfl
    | some d =>
      simp only [Option.map_some, Option.bind_some]
      have hfs : ∀ u, scriptFiles x.E x.p.platform.os x.ns u (createClone x.p) = [] := by
        intro u; simp [scriptFiles, createClone]
      rw [hfs]
      simp only [setupCloneCredentials_eq, rawFiles, hfs, St.emitted, St.addStep, h.ns,
        List.nil_append, List.length_nil, List.append_nil, Nat.add_zero]

theorem addService_eq (x : Ctx) (rnd : Nat → String) (st : St) (h : InCtx x st) (src : Container) :
    addService x.E x.c rnd x.p (createWorkspace x.p) x.serial src st =
      (emit x rnd st.n [(.service, src)]).map st.emitted := by
  unfold addService
  simp only [emit, rawStep]
  rw [createStep_eq, h.ns, h.os]
  cases stepBase x.E x.p.platform.os x.ns (rnd st.n) src with
  | none => rfl
  | some d =>
    simp only [Option.map_some, Option.bind_some, rawFiles, St.emitted, St.addStep, List.append_nil]
    unfold cloneDep
    simp

theorem addServices_eq (x : Ctx) (rnd : Nat → String) : ∀ (ss : List Container) (st : St),
    InCtx x st →
    addServices x.E x.c rnd x.p (createWorkspace x.p) x.serial (ss.map some) st =
      (emit x rnd st.n (ss.map fun c => (Role.service, c))).map st.emitted
  | [], st, _ => by simp [addServices, emit, St.emitted]
  | s :: ss, st, h => by
    simp only [List.map_cons, addServices]
    rw [addService_eq x rnd st h s]
    rw [show (Role.service, s) :: ss.map (fun c => (Role.service, c)) =
      [(Role.service, s)] ++ ss.map (fun c => (Role.service, c)) from rfl, emit_append]
    cases emit x rnd st.n [(Role.service, s)] with
    | none => rfl
    | some r =>
      simp only [Option.map_some, Option.bind_some]
      rw [addServices_eq x rnd ss (st.emitted r) (h.emitted r)]
      simp only [St.emitted, Option.map_map]
      congr 1
      funext q
      simp [St.emitted]

/-- Rename map entries of compiled steps. -/
def addRename (rn : GoMap String) (y : (Role × Container) × Step) : GoMap String :=
  match y.1.1, y.1.2.build with
  | .step, some b => rn.set b.image y.2.md.uid
  | _, _ => rn

theorem finishStep_uid {c : Compiler} (hc : c.Std) (w : WorkspaceDirs) (src : Container) (s : Step) :
    (finishStep c w src s).md = s.md := by
  have hm : ∀ s : Step, (setupWorkspaceMount c s w).md = s.md := by
    intro s
    unfold setupWorkspaceMount
    cases hh : c.mount with
    | default => rfl
    | host => simp only [mountHostWorkspace]; split <;> rfl
    | custom f => exact absurd hh (hc.2 f)
  have hw : (setupWorkingDir src s w.full).md = s.md := by
    unfold setupWorkingDir; split
    · rfl
    · split <;> rfl
  unfold finishStep
  simp only
  split <;> split <;> simp [hm, setupWorkspaceEnv, hw]

theorem addPipelineStep_eq (x : Ctx) (hc : x.c.Std) (rnd : Nat → String) (st : St) (h : InCtx x st)
    (src : Container) (rn : GoMap String) :
    addPipelineStep x.E x.c rnd x.p (createWorkspace x.p) x.serial src st rn =
      (emit x rnd st.n [(.step, src)]).map fun r =>
        (st.emitted r, (List.zip [(Role.step, src)] r.1).foldl addRename rn) := by
  unfold addPipelineStep
  simp only [emit, rawStep]
  cases hb : src.build with
  | some b =>
    simp only [Option.map_some, Option.bind_some, createBuildStep, rawFiles, hb, Option.isSome_some,
      if_true, List.length_nil, St.emitted, St.addStep, List.nil_append, List.append_nil,
      Nat.add_zero, List.zip_cons_cons, List.zip_nil_left, List.foldl_cons, List.foldl_nil, addRename]
    have huid : ∀ s, (cloneDep x true (finishStep x.c (createWorkspace x.p) src s)).md = s.md := by
      intro s
      unfold cloneDep
      split <;> simp [finishStep_uid hc]
    simp only [huid, buildBase, h.ns]
    unfold cloneDep
    simp
  | none =>
    rw [createStep_eq, h.ns, h.os]
    cases stepBase x.E x.p.platform.os x.ns (rnd st.n) src with
    | none => rfl
    | some d =>
      simp only [Option.map_some, Option.bind_some, rawFiles, hb, Option.isSome_none,
        Bool.false_eq_true, if_false, St.emitted, St.addStep, List.append_nil,
        List.zip_cons_cons, List.zip_nil_left, List.foldl_cons, List.foldl_nil, addRename]
      unfold cloneDep
      simp

theorem emit_length (x : Ctx) (rnd : Nat → String) : ∀ (ys : List (Role × Container)) (n : Nat) (r),
    emit x rnd n ys = some r → r.1.length = ys.length
  | [], n, r, h => by simp [emit] at h; subst h; rfl
  | y :: ys, n, r, h => by
    simp only [emit, Option.bind_eq_some_iff, Option.map_eq_some_iff] at h
    obtain ⟨s, _, q, hq, rfl⟩ := h
    simp [emit_length x rnd ys _ q hq]

theorem addSteps_eq (x : Ctx) (hc : x.c.Std) (rnd : Nat → String) :
    ∀ (ss : List Container) (st : St) (rn : GoMap String), InCtx x st →
    addSteps x.E x.c rnd x.p (createWorkspace x.p) x.serial (ss.map some) st rn =
      (emit x rnd st.n (ss.map fun c => (Role.step, c))).map fun r =>
        (st.emitted r, (List.zip (ss.map fun c => (Role.step, c)) r.1).foldl addRename rn)
  | [], st, rn, _ => by simp [addSteps, emit, St.emitted]
  | s :: ss, st, rn, h => by
    simp only [List.map_cons, addSteps]
    rw [addPipelineStep_eq x hc rnd st h s]
    rw [show (Role.step, s) :: ss.map (fun c => (Role.step, c)) =
      [(Role.step, s)] ++ ss.map (fun c => (Role.step, c)) from rfl, emit_append]
    cases he : emit x rnd st.n [(Role.step, s)] with
    | none => rfl
    | some r =>
      have hl := emit_length x rnd _ _ _ he
      simp only [Option.map_some, Option.bind_some]
      rw [addSteps_eq x hc rnd ss (st.emitted r) _ (h.emitted r)]
      simp only [St.emitted, Option.map_map]
      congr 1
      funext q
      simp only [Function.comp, List.append_assoc]
      rw [List.zip_append hl.symm, List.foldl_append]

theorem isSerial_eq (ss : List Container) :
    isSerial (ss.map some) = some (decide (∀ s ∈ ss, s.dependsOn = [])) := by
  induction ss with
  | nil => simp [isSerial]
  | cons s ss ih =>
    simp only [List.map_cons, isSerial, ih]
    by_cases h : s.dependsOn = []
    · simp [h]
    · have : s.dependsOn.length ≠ 0 := by simpa using h
      simp [h]

/-- The volumes of the pipeline. -/
def rawVolumes (rnd : Nat → String) (ns : String) : Nat → List Volume → List Engine.Volume
  | _, [] => []
  | n, v :: vs =>
    { md := { uid := rnd n, name := v.name, namespc := ns, labels := some [] }
      emptyDir := v.emptyDir.map fun e => ⟨e.medium, e.sizeLimit⟩
      hostPath := if v.emptyDir.isSome then none else v.hostPath.map (·.path) } ::
      rawVolumes rnd ns (n + 1) vs

theorem addVolumes_eq (rnd : Nat → String) (ns : String) : ∀ (vs : List Volume) (st : St),
    addVolumes rnd ns (vs.map some) st =
      some { n := st.n + vs.length
             spec := { st.spec with volumes := st.spec.volumes ++ rawVolumes rnd ns st.n vs } }
  | [], st => by simp [addVolumes, rawVolumes]
  | v :: vs, st => by
    simp only [List.map_cons, addVolumes]
    rw [addVolumes_eq rnd ns vs]
    simp [St.addVolume, rawVolumes, Nat.add_comm, Nat.add_left_comm]

/-- The workspace volumes and their number. -/
def wsVolumes (c : Compiler) (rnd : Nat → String) (ns : String) : List Engine.Volume :=
  match c.workspace with
  | .default => [{ md := { uid := rnd 1, name := "workspace", namespc := ns, labels := some [] }
                   emptyDir := some {} }]
  | .host d => [{ md := { uid := rnd 1, name := "workspace", namespc := ns, labels := some [] }
                  emptyDir := some {} },
                { md := { uid := rnd 2, name := "host" }, hostPath := some d }]
  | .custom _ => []

theorem setupWorkspace_eq (c : Compiler) (hc : c.Std) (rnd : Nat → String) (p : Pipeline) (ns : String) :
    setupWorkspace c rnd { n := 1, spec := initSpec p ns } =
      { n := 1 + (wsVolumes c rnd ns).length
        spec := { initSpec p ns with volumes := wsVolumes c rnd ns } } := by
  unfold setupWorkspace wsVolumes
  cases h : c.workspace with
  | default => rfl
  | host d => rfl
  | custom f => exact absurd h (hc.1 f)

theorem map_some_of_no_nil {α : Type} : ∀ {l : List (Option α)}, none ∉ l → l = (l.filterMap id).map some
  | [], _ => rfl
  | none :: _, h => by simp at h
  | some a :: l, h => by
    have := map_some_of_no_nil (l := l) (by simp at h; exact h)
    show some a :: l = some a :: (l.filterMap id).map some
    rw [← this]

theorem addVolumes_nil (rnd : Nat → String) (ns : String) : ∀ (vs : List (Option Volume)) (st : St),
    none ∈ vs → addVolumes rnd ns vs st = none
  | none :: vs, st, _ => rfl
  | some v :: vs, st, h => by
    simp only [addVolumes]
    exact addVolumes_nil rnd ns vs _ (by simpa using h)

theorem addServices_nil (E c rnd p w serial) : ∀ (ss : List (Option Container)) (st : St),
    none ∈ ss → addServices E c rnd p w serial ss st = none
  | none :: ss, st, _ => rfl
  | some s :: ss, st, h => by
    simp only [addServices]
    cases addService E c rnd p w serial s st with
    | none => rfl
    | some st' => exact addServices_nil E c rnd p w serial ss st' (by simpa using h)

theorem addSteps_nil (E c rnd p w serial) : ∀ (ss : List (Option Container)) (st : St) (rn : GoMap String),
    none ∈ ss → addSteps E c rnd p w serial ss st rn = none
  | none :: ss, st, _, _ => rfl
  | some s :: ss, st, rn, h => by
    simp only [addSteps]
    cases addPipelineStep E c rnd p w serial s st rn with
    | none => rfl
    | some r => exact addSteps_nil E c rnd p w serial ss r.1 r.2 (by simpa using h)

/-- A pipeline that compiles has no null entries. -/
theorem compileCore_no_nil {E : Ext} {c : Compiler} {rnd : Nat → String} {p : Pipeline} {st : St}
    (h : compileCore E c rnd p = some st) :
    none ∉ p.volumes ∧ none ∉ p.services ∧ none ∉ p.steps := by
  unfold compileCore at h
  simp only [Option.bind_eq_some_iff, Option.map_eq_some_iff] at h
  obtain ⟨serial, _, st1, h1, st2, h2, st3, h3, r, h4, _⟩ := h
  refine ⟨fun hn => ?_, fun hn => ?_, fun hn => ?_⟩
  · rw [addVolumes_nil _ _ _ _ hn] at h1; simp at h1
  · rw [addServices_nil _ _ _ _ _ _ _ _ hn] at h3; simp at h3
  · rw [addSteps_nil _ _ _ _ _ _ _ _ _ hn] at h4; simp at h4

theorem cloneImage_eq (p : Pipeline) : cloneImage p = Spec.cloneImageOf p.platform := by
  unfold cloneImage Spec.cloneImageOf
  by_cases h1 : p.platform.os = "linux"
  · simp [h1]
  · by_cases h2 : p.platform.os = "windows"
    · simp [h2]
      by_cases v1 : p.platform.version = "1903"
      · simp [v1]
      · by_cases v2 : p.platform.version = "1809"
        · simp [v2]
        · by_cases v3 : p.platform.version = "1803"
          · simp [v3]
          · by_cases v4 : p.platform.version = "1709"
            · simp [v4]
            · simp [v1, v2, v3, v4]
    · simp [h1, h2]

/-- Whether no step has dependencies. -/
def serialOf (p : Pipeline) : Bool := decide (∀ s ∈ p.steps.filterMap id, s.dependsOn = [])

/-- The context of compiling `p`. -/
def ctxOf (E : Ext) (c : Compiler) (rnd : Nat → String) (p : Pipeline) : Ctx :=
  ⟨E, c, p, serialOf p, rnd 0⟩

/-- Number of identifiers drawn before the first container. -/
def firstDraw (c : Compiler) (rnd : Nat → String) (p : Pipeline) : Nat :=
  1 + (wsVolumes c rnd (rnd 0)).length + (p.volumes.filterMap id).length

/-- The socket volume. -/
def socketVolumes (rnd : Nat → String) (ns : String) (n : Nat) (rename : GoMap String) : List Engine.Volume :=
  if rename.length > 0 then
    [{ md := { uid := rnd n, name := "_docker_socket", namespc := ns, labels := some [] }
       hostPath := some "/var/run/docker.sock" }]
  else []

/-- The final state from what was emitted. -/
def finish (E : Ext) (c : Compiler) (rnd : Nat → String) (p : Pipeline)
    (r : List Step × List File × Nat) : St :=
  let rename := (List.zip (sources p) r.1).foldl addRename []
  let sock := socketVolumes rnd (rnd 0) r.2.2 rename
  { n := r.2.2 + sock.length
    spec := { initSpec p (rnd 0) with
      steps := renameSteps E rename 0 r.1
      files := r.2.1
      volumes := wsVolumes c rnd (rnd 0) ++
        rawVolumes rnd (rnd 0) (1 + (wsVolumes c rnd (rnd 0)).length) (p.volumes.filterMap id) ++ sock } }

theorem zip_addRename_other {ys : List (Role × Container)} (hy : ∀ y ∈ ys, y.1 ≠ Role.step) :
    ∀ (ss : List Step) (rn : GoMap String), (List.zip ys ss).foldl addRename rn = rn := by
  induction ys with
  | nil => intro ss rn; simp
  | cons y ys ih =>
    intro ss rn
    cases ss with
    | nil => simp
    | cons s ss =>
      simp only [List.zip_cons_cons, List.foldl_cons]
      have : addRename rn (y, s) = rn := by
        unfold addRename
        have := hy y (by simp)
        cases h : y.1 <;> simp_all
      rw [this]
      exact ih (fun z hz => hy z (by simp [hz])) ss rn

theorem compileCore_ctx (x : Ctx) (hc : x.c.Std) (rnd : Nat → String) (hser : x.serial = serialOf x.p)
    (hns : x.ns = rnd 0) (hv : none ∉ x.p.volumes) (hs : none ∉ x.p.services) (ht : none ∉ x.p.steps) :
    compileCore x.E x.c rnd x.p =
      (emit x rnd (firstDraw x.c rnd x.p) (sources x.p)).map (finish x.E x.c rnd x.p) := by
  unfold compileCore
  obtain ⟨vs, evs⟩ : ∃ vs, x.p.volumes.filterMap id = vs := ⟨_, rfl⟩
  obtain ⟨sv, esv⟩ : ∃ vs, x.p.services.filterMap id = vs := ⟨_, rfl⟩
  obtain ⟨sp, esp⟩ : ∃ vs, x.p.steps.filterMap id = vs := ⟨_, rfl⟩
  have e1 := map_some_of_no_nil hv
  have e2 := map_some_of_no_nil hs
  have e3 := map_some_of_no_nil ht
  rw [evs] at e1; rw [esv] at e2; rw [esp] at e3
  have hser' : decide (∀ s ∈ sp, s.dependsOn = []) = x.serial := by
    rw [hser]; unfold serialOf; rw [esp]
  rw [e3, isSerial_eq, hser']
  simp only [Option.bind_some]
  rw [setupWorkspace_eq x.c hc, e1, addVolumes_eq]
  simp only [Option.bind_some]
  have hfirst : firstDraw x.c rnd x.p = 1 + (wsVolumes x.c rnd (rnd 0)).length + vs.length := by
    unfold firstDraw; rw [evs]
  rw [hfirst]
  generalize hst0 : (St.mk (1 + (wsVolumes x.c rnd (rnd 0)).length + vs.length)
      { initSpec x.p (rnd 0) with
        volumes := wsVolumes x.c rnd (rnd 0) ++
          rawVolumes rnd (rnd 0) (1 + (wsVolumes x.c rnd (rnd 0)).length) vs }) = st0
  have hn0 : 1 + (wsVolumes x.c rnd (rnd 0)).length + vs.length = st0.n := by rw [← hst0]
  have hin : InCtx x st0 := by rw [← hst0]; exact ⟨hns.symm, rfl⟩
  rw [hn0, addClone_eq x rnd st0 hin]
  have hsrc : sources x.p = (if x.p.clone.disable then [] else [(Role.clone, createClone x.p)]) ++
      (sv.map (fun c => (Role.service, c)) ++ sp.map (fun c => (Role.step, c))) := by
    unfold sources createClone
    rw [esv, esp, cloneImage_eq, List.append_assoc]
  have hemit : emit x rnd st0.n (sources x.p) = emit x rnd st0.n
      ((if x.p.clone.disable then [] else [(Role.clone, createClone x.p)]) ++
      (sv.map (fun c => (Role.service, c)) ++ sp.map (fun c => (Role.step, c)))) := by rw [← hsrc]
  rw [hemit, emit_append]
  cases hA : emit x rnd st0.n (if x.p.clone.disable then [] else [(Role.clone, createClone x.p)]) with
  | none => rfl
  | some rA =>
    simp only [Option.map_some, Option.bind_some]
    rw [e2, addServices_eq x rnd sv (st0.emitted rA) (hin.emitted rA), emit_append]
    have hnA : (st0.emitted rA).n = rA.2.2 := rfl
    rw [hnA]
    cases hB : emit x rnd rA.2.2 (sv.map fun c => (Role.service, c)) with
    | none => rfl
    | some rB =>
      simp only [Option.map_some, Option.bind_some]
      rw [addSteps_eq x hc rnd sp ((st0.emitted rA).emitted rB) [] ((hin.emitted rA).emitted rB)]
      have hnB : ((st0.emitted rA).emitted rB).n = rB.2.2 := rfl
      rw [hnB]
      cases hC : emit x rnd rB.2.2 (sp.map fun c => (Role.step, c)) with
      | none => rfl
      | some rC =>
        simp only [Option.map_some, Option.some.injEq]
        have lA := emit_length _ _ _ _ _ hA
        have lB := emit_length _ _ _ _ _ hB
        have hrn : (List.zip (sources x.p) (rA.1 ++ (rB.1 ++ rC.1))).foldl addRename [] =
            (List.zip (sp.map fun c => (Role.step, c)) rC.1).foldl addRename [] := by
          have o1 : ∀ y ∈ (if x.p.clone.disable then [] else [(Role.clone, createClone x.p)]),
              y.1 ≠ Role.step := by
            intro y hy
            split at hy
            · simp at hy
            · simp at hy
              subst hy
              simp
          have o2 : ∀ y ∈ sv.map (fun c => (Role.service, c)), y.1 ≠ Role.step := by
            intro y hy
            simp at hy
            obtain ⟨_, _, rfl⟩ := hy
            simp
          rw [hsrc, List.zip_append lA.symm, List.foldl_append,
            List.zip_append lB.symm, List.foldl_append, zip_addRename_other o1, zip_addRename_other o2]
        unfold finish
        simp only [hrn, evs]
        unfold addSocket socketVolumes
        by_cases hr : ((List.zip (sp.map fun c => (Role.step, c)) rC.1).foldl addRename []).length > 0
        · simp only [hr, if_true, St.addVolume, St.emitted, ← hst0, initSpec, List.nil_append,
            List.append_assoc, List.length_cons, List.length_nil, Nat.zero_add]
        · simp only [hr, if_false, St.emitted, ← hst0, initSpec, List.nil_append, List.append_nil,
            List.append_assoc, List.length_nil, Nat.add_zero]

theorem compileCore_eq (E : Ext) (c : Compiler) (hc : c.Std) (rnd : Nat → String) (p : Pipeline)
    (hv : none ∉ p.volumes) (hs : none ∉ p.services) (ht : none ∉ p.steps) :
    compileCore E c rnd p =
      (emit (ctxOf E c rnd p) rnd (firstDraw c rnd p) (sources p)).map (finish E c rnd p) :=
  compileCore_ctx (ctxOf E c rnd p) hc rnd rfl rfl hv hs ht

end Drone
