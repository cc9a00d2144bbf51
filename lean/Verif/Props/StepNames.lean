/-
C137: what the names of steps are for.  Renaming the steps and services of a pipeline, and the dependencies
with them, changes neither whether the linter accepts it nor anything but the names in what is compiled.
-/
import Verif.Props.Cli

namespace Drone
open Transform
open Engine (Step)

namespace Spec

/-- A container under another name, its dependencies renamed with it. -/
def calledC (σ : String → String) (c : Container) : Container :=
  { c with name := σ c.name, dependsOn := c.dependsOn.map σ }

/-- A pipeline whose steps and services have other names. -/
def called (σ : String → String) (p : Pipeline) : Pipeline :=
  { p with steps := p.steps.map (Option.map (calledC σ)), services := p.services.map (Option.map (calledC σ)) }

/-- A compiled step under another name: in its metadata, its label, its dependencies and the names of its files. -/
def calledStep (σ : String → String) (s : Step) : Step :=
  { s with
    md := { s.md with name := σ s.md.name
                      labels := s.md.labels.map (List.map fun kv => (kv.1, if kv.1 = "io.drone.step.name" then σ kv.2 else kv.2)) }
    dependsOn := s.dependsOn.map σ
    files := s.files.map fun f => { f with name := σ f.name } }

/-- A specification whose steps, and the files of their scripts, have other names. -/
def calledSpec (σ : String → String) (s : Engine.Spec) : Engine.Spec :=
  { s with
    steps := s.steps.map (calledStep σ)
    files := s.files.map fun f => { f with md := { f.md with name := σ f.md.name } } }

/-- A callback of the compiler that does not look at the names. -/
def NameBlind (σ : String → String) (f : Option (Container → Bool)) : Prop :=
  ∀ c, f.any (· (calledC σ c)) = f.any (· c)

end Spec
open Spec

namespace StepNames

variable {σ : String → String}

/-! ### The linter -/

theorem container_called (hσ : ∀ x, σ x = "" ↔ x = "") (t : Bool) (c : Container) :
    checkContainer t (calledC σ c) = checkContainer t c := by
  unfold checkContainer calledC
  simp only [hσ]

theorem mem_called (hi : ∀ x y, σ x = σ y → x = y) (x : String) (l : List String) : σ x ∈ l.map σ ↔ x ∈ l := by
  rw [List.mem_map]
  exact ⟨fun ⟨y, h, e⟩ => hi _ _ e ▸ h, fun h => ⟨x, h, rfl⟩⟩

theorem deps_called (hi : ∀ x y, σ x = σ y → x = y) (name : String) (names : List String) : ∀ ds : List String,
    checkDeps (σ name) (names.map σ) (ds.map σ) = checkDeps name names ds
  | [] => rfl
  | d :: ds => by
    rw [List.map_cons, checkDeps, checkDeps, deps_called hi name names ds]
    have h1 := mem_called hi d names
    have h2 : σ name = σ d ↔ name = d := ⟨hi _ _, congrArg σ⟩
    simp only [h1, h2]

theorem steps_called (hi : ∀ x y, σ x = σ y → x = y) (hσ : ∀ x, σ x = "" ↔ x = "") (t : Bool) :
    ∀ (l : List (Option Container)) (names : List String),
    checkSteps t (names.map σ) (l.map (Option.map (calledC σ))) = (checkSteps t names l).map (List.map σ)
  | [], _ => rfl
  | none :: _, _ => rfl
  | some c :: l, names => by
    rw [List.map_cons, Option.map_some, checkSteps, checkSteps, container_called hσ]
    have h1 : (calledC σ c).name ∈ names.map σ ↔ c.name ∈ names := mem_called hi c.name names
    have h2 : checkDeps (calledC σ c).name ((calledC σ c).name :: names.map σ) (calledC σ c).dependsOn =
        checkDeps c.name (c.name :: names) c.dependsOn := deps_called hi c.name (c.name :: names) c.dependsOn
    have h3 := steps_called hi hσ t l (c.name :: names)
    dsimp only
    rw [h2]
    have h3' : checkSteps t ((calledC σ c).name :: names.map σ) (l.map (Option.map (calledC σ))) = _ := h3
    rw [h3']
    simp only [refuse, h1]
    by_cases hm : c.name ∈ names
    · simp only [hm, if_true]; rfl
    · simp only [hm, if_false]
      cases checkContainer t c with
      | error => rfl
      | ok => cases checkDeps c.name (c.name :: names) c.dependsOn <;> rfl

theorem services_called (hi : ∀ x y, σ x = σ y → x = y) (hσ : ∀ x, σ x = "" ↔ x = "") (t : Bool) :
    ∀ (l : List (Option Container)) (names : List String),
    checkServices t (names.map σ) (l.map (Option.map (calledC σ))) = checkServices t names l
  | [], _ => rfl
  | none :: _, _ => rfl
  | some c :: l, names => by
    rw [List.map_cons, Option.map_some, checkServices, checkServices, container_called hσ]
    have h1 : (calledC σ c).name ∈ names.map σ ↔ c.name ∈ names := mem_called hi c.name names
    have h3 : checkServices t ((calledC σ c).name :: names.map σ) (l.map (Option.map (calledC σ))) = _ :=
      services_called hi hσ t l (c.name :: names)
    dsimp only
    rw [h3]
    simp only [refuse, h1]

/-! ### The compiler -/

/-- The state with other names. -/
def calledSt (σ : String → String) (st : St) : St := { st with spec := calledSpec σ st.spec }

theorem createStep0_called (E : Ext) (uid ns : String) (src : Container) (ports : List Engine.Port)
    (mounts : List Engine.VolumeMount) :
    createStep0 E uid ns (calledC σ src) ports mounts = calledStep σ (createStep0 E uid ns src ports mounts) := rfl

theorem createStep_called (E : Ext) (rnd : Nat → String) (st : St) (src : Container) :
    createStep E rnd (calledSt σ st) (calledC σ src) =
      (createStep E rnd st src).map fun r => (calledStep σ r.1, calledSt σ r.2) := by
  unfold createStep
  have e1 : toPorts (calledC σ src) = toPorts src := rfl
  have e2 : (calledC σ src).volumes = src.volumes := rfl
  have e3 : (calledC σ src).commands = src.commands := rfl
  rw [e1, e2, e3]
  cases toPorts src with
  | none => rfl
  | some ports =>
    cases stepMounts src.volumes with
    | none => rfl
    | some mounts =>
      simp only [Option.bind_some, createStep0_called]
      have e4 : (calledSt σ st).spec.platform = st.spec.platform := rfl
      rw [e4]
      split
      · split
        · rfl
        · simp only [setupScript, Option.map_some, Option.some.injEq, Prod.mk.injEq]
          constructor
          · simp only [calledStep, List.map_append, List.map_cons, List.map_nil]; rfl
          · simp only [calledSt, calledSpec, List.map_append, List.map_cons, List.map_nil]; rfl
      · rfl

theorem createBuildStep_called (E : Ext) (rnd : Nat → String) (st : St) (src : Container) (x : Build) :
    createBuildStep E rnd (calledSt σ st) (calledC σ src) x =
      (calledStep σ (createBuildStep E rnd st src x).1, calledSt σ (createBuildStep E rnd st src x).2) := rfl

theorem workspace_called {c : Compiler} (hc : c.Std) (rnd : Nat → String) (st : St) :
    setupWorkspace c rnd (calledSt σ st) = calledSt σ (setupWorkspace c rnd st) := by
  unfold setupWorkspace
  cases hm : c.workspace with
  | default => rfl
  | host d => rfl
  | custom f => exact absurd hm (hc.1 f)

theorem volumes_called (rnd : Nat → String) (ns : String) : ∀ (l : List (Option Volume)) (st : St),
    addVolumes rnd ns l (calledSt σ st) = (addVolumes rnd ns l st).map (calledSt σ)
  | [], _ => rfl
  | none :: _, _ => rfl
  | some v :: l, st => by
    rw [addVolumes, addVolumes, ← volumes_called rnd ns l]
    rfl

theorem addStep_called (st : St) (s : Step) : (calledSt σ st).addStep (calledStep σ s) = calledSt σ (st.addStep s) := by
  simp only [St.addStep, calledSt, calledSpec, List.map_append, List.map_cons, List.map_nil]

theorem workingDir_called (src src' : Container) (h : src'.commands = src.commands) (s : Step) (path : String) :
    setupWorkingDir src' (calledStep σ s) path = calledStep σ (setupWorkingDir src s path) := by
  unfold setupWorkingDir
  have e1 : (calledStep σ s).workingDir = s.workingDir := rfl
  have e2 : (calledStep σ s).detach = s.detach := rfl
  rw [e1, e2, h]
  split
  · rfl
  · split <;> rfl

theorem mount_called {c : Compiler} (hc : c.Std) (s : Step) (w : WorkspaceDirs) :
    setupWorkspaceMount c (calledStep σ s) w = calledStep σ (setupWorkspaceMount c s w) := by
  unfold setupWorkspaceMount
  cases hm : c.mount with
  | default => rfl
  | host =>
    show mountHostWorkspace _ w = calledStep σ (mountHostWorkspace s w)
    unfold mountHostWorkspace
    dsimp only
    split <;> rfl
  | custom f => exact absurd hm (hc.2 f)

theorem finish_called {c : Compiler} (hc : c.Std) (hs : NameBlind σ c.skip) (hp : NameBlind σ c.privileged) (w : WorkspaceDirs)
    (src : Container) (s : Step) : finishStep c w (calledC σ src) (calledStep σ s) = calledStep σ (finishStep c w src s) := by
  unfold finishStep
  rw [hs src, hp src, workingDir_called src (calledC σ src) rfl]
  have e : ∀ s, setupWorkspaceEnv (calledStep σ s) w = calledStep σ (setupWorkspaceEnv s w) := fun _ => rfl
  dsimp only
  rw [e, mount_called hc]
  split <;> split <;> rfl

theorem clone_called (E : Ext) {c : Compiler} (hc : c.Std) (rnd : Nat → String) (p : Pipeline) (w : WorkspaceDirs)
    (h1 : σ "clone" = "clone") (h2 : σ ".git-credentials" = ".git-credentials") (st : St) :
    addClone E c rnd p w (calledSt σ st) = (addClone E c rnd p w st).map (calledSt σ) := by
  unfold addClone
  split
  · rfl
  · have e : createClone p = calledC σ (createClone p) := by simp [createClone, calledC, h1]
    have hs : createStep E rnd (calledSt σ st) (createClone p) =
        (createStep E rnd st (createClone p)).map fun r => (calledStep σ r.1, calledSt σ r.2) := by
      conv_lhs => rw [e]
      exact createStep_called E rnd st (createClone p)
    dsimp only
    rw [hs]
    cases createStep E rnd st (createClone p) with
    | none => rfl
    | some r =>
      obtain ⟨s, t⟩ := r
      simp only [Option.map_some, Option.some.injEq]
      have hd : ∀ s, setupCloneDepth p { calledStep σ s with docker := { (calledStep σ s).docker with pullPolicy := .ifNotExists } } =
          calledStep σ (setupCloneDepth p { s with docker := { s.docker with pullPolicy := .ifNotExists } }) := fun _ => rfl
      have hcr : ∀ s d, setupCloneCredentials rnd (calledSt σ t) (calledStep σ s) d =
          (calledStep σ (setupCloneCredentials rnd t s d).1, calledSt σ (setupCloneCredentials rnd t s d).2) := by
        intro s d
        unfold setupCloneCredentials
        split
        · rfl
        · simp only [Prod.mk.injEq]
          constructor
          · simp only [calledStep, List.map_append, List.map_cons, List.map_nil, h2]
          · simp only [calledSt, calledSpec, List.map_append, List.map_cons, List.map_nil, h2]
      have hen : ∀ s, setupWorkspaceEnv (calledStep σ s) w = calledStep σ (setupWorkspaceEnv s w) := fun _ => rfl
      rw [hd, hcr, ← addStep_called, workingDir_called (createClone p) (createClone p) rfl, hen, mount_called hc]

theorem detach_called (s : Step) : ({ calledStep σ s with detach := true } : Step) = calledStep σ { s with detach := true } := rfl

theorem depends_called (h1 : σ "clone" = "clone") (s : Step) :
    ({ calledStep σ s with dependsOn := (calledStep σ s).dependsOn ++ ["clone"] } : Step) =
      calledStep σ { s with dependsOn := s.dependsOn ++ ["clone"] } := by
  simp [calledStep, h1]

theorem services_compiled (E : Ext) {c : Compiler} (hc : c.Std) (hs : NameBlind σ c.skip) (hp : NameBlind σ c.privileged)
    (rnd : Nat → String) (p p' : Pipeline) (hpp : p'.clone = p.clone) (w : WorkspaceDirs) (serial : Bool)
    (h1 : σ "clone" = "clone") : ∀ (l : List (Option Container)) (st : St),
    addServices E c rnd p' w serial (l.map (Option.map (calledC σ))) (calledSt σ st) =
      (addServices E c rnd p w serial l st).map (calledSt σ)
  | [], _ => rfl
  | none :: _, _ => rfl
  | some s :: l, st => by
    rw [List.map_cons, Option.map_some, addServices, addServices]
    have : addService E c rnd p' w serial (calledC σ s) (calledSt σ st) = (addService E c rnd p w serial s st).map (calledSt σ) := by
      unfold addService
      rw [createStep_called, hpp]
      cases createStep E rnd st s with
      | none => rfl
      | some r =>
        obtain ⟨s1, t⟩ := r
        simp only [Option.map_some, Option.some.injEq]
        rw [detach_called, finish_called hc hs hp, depends_called h1, ← addStep_called]
        split <;> rfl
    rw [this]
    cases addService E c rnd p w serial s st with
    | none => rfl
    | some t => exact services_compiled E hc hs hp rnd p p' hpp w serial h1 l t

theorem steps_compiled (E : Ext) {c : Compiler} (hc : c.Std) (hs : NameBlind σ c.skip) (hp : NameBlind σ c.privileged)
    (rnd : Nat → String) (p p' : Pipeline) (hpp : p'.clone = p.clone) (w : WorkspaceDirs) (serial : Bool)
    (h1 : σ "clone" = "clone") : ∀ (l : List (Option Container)) (st : St) (rn : GoMap String),
    addSteps E c rnd p' w serial (l.map (Option.map (calledC σ))) (calledSt σ st) rn =
      (addSteps E c rnd p w serial l st rn).map fun r => (calledSt σ r.1, r.2)
  | [], _, _ => rfl
  | none :: _, _, _ => rfl
  | some s :: l, st, rn => by
    rw [List.map_cons, Option.map_some, addSteps, addSteps]
    have tail : ∀ (s1 : Step) (t : St) (r : GoMap String),
        ((calledSt σ t).addStep
          (if serial = false ∧ p'.clone.disable = false ∧ (finishStep c w (calledC σ s) (calledStep σ s1)).dependsOn.length = 0 then
            { finishStep c w (calledC σ s) (calledStep σ s1) with
              dependsOn := (finishStep c w (calledC σ s) (calledStep σ s1)).dependsOn ++ ["clone"] }
          else finishStep c w (calledC σ s) (calledStep σ s1)), r) =
        (calledSt σ (t.addStep
          (if serial = false ∧ p.clone.disable = false ∧ (finishStep c w s s1).dependsOn.length = 0 then
            { finishStep c w s s1 with dependsOn := (finishStep c w s s1).dependsOn ++ ["clone"] }
          else finishStep c w s s1)), r) := by
      intro s1 t r
      rw [finish_called hc hs hp, hpp, depends_called h1]
      have e : (calledStep σ (finishStep c w s s1)).dependsOn.length = (finishStep c w s s1).dependsOn.length := List.length_map _
      rw [e, ← addStep_called]
      split <;> rfl
    have : addPipelineStep E c rnd p' w serial (calledC σ s) (calledSt σ st) rn =
        (addPipelineStep E c rnd p w serial s st rn).map fun r => (calledSt σ r.1, r.2) := by
      unfold addPipelineStep
      have eb : (calledC σ s).build = s.build := rfl
      rw [eb]
      cases s.build with
      | some x =>
        simp only [createBuildStep_called, Option.map_some, Option.some.injEq]
        exact tail _ _ _
      | none =>
        simp only [createStep_called]
        cases createStep E rnd st s with
        | none => rfl
        | some r =>
          simp only [Option.map_some, Option.some.injEq]
          exact tail _ _ _
    rw [this]
    cases addPipelineStep E c rnd p w serial s st rn with
    | none => rfl
    | some t => exact steps_compiled E hc hs hp rnd p p' hpp w serial h1 l t.1 t.2

theorem rename_called (E : Ext) (rn : GoMap String) : ∀ (l : List Step) (i : Nat),
    renameSteps E rn i (l.map (calledStep σ)) = (renameSteps E rn i l).map (calledStep σ)
  | [], _ => rfl
  | s :: l, i => by
    rw [List.map_cons, renameSteps, renameSteps, List.map_cons, rename_called E rn l (i + 1)]
    rfl

theorem serial_called : ∀ l : List (Option Container), isSerial (l.map (Option.map (calledC σ))) = isSerial l
  | [] => rfl
  | none :: _ => rfl
  | some s :: l => by
    rw [List.map_cons, Option.map_some, isSerial, isSerial, serial_called l]
    have : (calledC σ s).dependsOn.length = s.dependsOn.length := List.length_map _
    rw [this]

theorem core_called (E : Ext) {c : Compiler} (hc : c.Std) (hs : NameBlind σ c.skip) (hp : NameBlind σ c.privileged)
    (rnd : Nat → String) (p : Pipeline) (h1 : σ "clone" = "clone") (h2 : σ ".git-credentials" = ".git-credentials") :
    compileCore E c rnd (called σ p) = (compileCore E c rnd p).map (calledSt σ) := by
  unfold compileCore
  have e1 : isSerial (called σ p).steps = isSerial p.steps := serial_called p.steps
  rw [e1]
  cases isSerial p.steps with
  | none => rfl
  | some serial =>
    simp only [Option.bind_some]
    have e2 : ({ n := 1, spec := initSpec (called σ p) (rnd 0) } : St) = calledSt σ { n := 1, spec := initSpec p (rnd 0) } := rfl
    have e3 : createWorkspace (called σ p) = createWorkspace p := rfl
    have e4 : (called σ p).volumes = p.volumes := rfl
    have e5 : ∀ w st, addClone E c rnd (called σ p) w st = addClone E c rnd p w st := fun _ _ => rfl
    have e6 : (called σ p).services = p.services.map (Option.map (calledC σ)) := rfl
    have e7 : (called σ p).steps = p.steps.map (Option.map (calledC σ)) := rfl
    rw [e2, e3, e4, workspace_called hc, volumes_called]
    cases addVolumes rnd (rnd 0) p.volumes (setupWorkspace c rnd { n := 1, spec := initSpec p (rnd 0) }) with
    | none => rfl
    | some st =>
      simp only [Option.map_some, Option.bind_some, e5]
      rw [clone_called E hc rnd p _ h1 h2]
      cases addClone E c rnd p (createWorkspace p) st with
      | none => rfl
      | some st =>
        simp only [Option.map_some, Option.bind_some]
        rw [e6, services_compiled E hc hs hp rnd p (called σ p) rfl _ serial h1]
        cases addServices E c rnd p (createWorkspace p) serial p.services st with
        | none => rfl
        | some st =>
          simp only [Option.map_some, Option.bind_some]
          rw [e7, steps_compiled E hc hs hp rnd p (called σ p) rfl _ serial h1]
          cases addSteps E c rnd p (createWorkspace p) serial p.steps st [] with
          | none => rfl
          | some r =>
            obtain ⟨st, rn⟩ := r
            simp only [Option.map_some, Option.some.injEq]
            have e8 : addSocket rnd (rnd 0) rn (calledSt σ st) = calledSt σ (addSocket rnd (rnd 0) rn st) := by
              unfold addSocket
              split <;> rfl
            rw [e8]
            have e9 := rename_called (σ := σ) E rn (addSocket rnd (rnd 0) rn st).spec.steps 0
            simp only [calledSt, calledSpec] at e9 ⊢
            rw [e9]

end StepNames
open StepNames

/-- **C137.** The linter does not care how the steps and services of a pipeline are called: give them other names, in
the dependencies too, such that different names stay different, no name becomes empty and only "clone" is called "clone".
The answer is the same, the error with its text included. -/
theorem C137_lint (σ : String → String) (p : Pipeline) (trusted : Bool)
    (hi : ∀ x y, σ x = σ y → x = y) (h0 : σ "" = "") (h1 : σ "clone" = "clone") :
    lint (.pipeline (called σ p)) trusted = lint (.pipeline p) trusted := by
  have hσ : ∀ x, σ x = "" ↔ x = "" := fun x => ⟨fun h => hi _ _ (h.trans h0.symm), fun h => h ▸ h0⟩
  show checkPipeline trusted (called σ p) = checkPipeline trusted p
  unfold checkPipeline
  have en : (if p.clone.disable = false then ["clone"] else []) = (if p.clone.disable = false then ["clone"] else []).map σ := by
    split <;> simp [h1]
  show (do
    checkVolumes trusted p.volumes
    checkPlatform p.platform
    let names ← checkSteps trusted (if p.clone.disable = false then ["clone"] else []) (p.steps.map (Option.map (calledC σ)))
    checkServices trusted names (p.services.map (Option.map (calledC σ)))) = _
  conv_lhs => rw [en]
  rw [steps_called hi hσ]
  cases checkVolumes trusted p.volumes with
  | error => rfl
  | ok =>
    cases checkPlatform p.platform with
    | error => rfl
    | ok =>
      cases hst : checkSteps trusted (if p.clone.disable = false then ["clone"] else []) p.steps with
      | error e =>
        have hst' : ∀ f : List String → Check, (checkSteps trusted (if p.clone.disable = false then ["clone"] else []) p.steps).bind f =
            .error e := fun f => by rw [hst]; rfl
        exact (hst' fun names => checkServices trusted names p.services).symm
      | ok names =>
        have hst' : ∀ f : List String → Check, (checkSteps trusted (if p.clone.disable = false then ["clone"] else []) p.steps).bind f =
            f names := fun f => by rw [hst]; rfl
        exact (services_called hi hσ trusted p.services names).trans
          (hst' fun names => checkServices trusted names p.services).symm

/-- **C137.** Nor does the compiler, whose callbacks may not look at the names: what a pipeline is compiled to when its
steps have other names is what it was compiled to before, with the names exchanged, and it panics in the same cases.
Different names may even become the same. -/
theorem C137_compile (σ : String → String) (E : Ext) (c : Compiler) (hc : c.Std) (ht : c.transform = none)
    (hs : NameBlind σ c.skip) (hp : NameBlind σ c.privileged) (rnd : Nat → String) (p : Pipeline)
    (h1 : σ "clone" = "clone") (h2 : σ ".git-credentials" = ".git-credentials") :
    compile E c rnd (called σ p) = (compile E c rnd p).map (calledSpec σ) := by
  unfold compile
  rw [core_called E hc hs hp rnd p h1 h2, ht, Option.map_map, Option.map_map]
  rfl

/-- **C137.** The callbacks of the compile command do not look at names. -/
theorem C137_callbacks (σ : String → String) (X : Cli.CliLib) (fl : Cli.CompileFlags) :
    NameBlind σ (Cli.compilerFor X fl).skip ∧ NameBlind σ (Cli.compilerFor X fl).privileged :=
  ⟨fun _ => rfl, fun _ => rfl⟩

namespace StepNames

variable {σ : String → String}

/-- A transform that does not look at the names. -/
abbrev Commutes (σ : String → String) (f : Transform) : Prop := ∀ st, f (calledSt σ st) = (f st).map (calledSt σ)

theorem each_commutes {g : Step → Step} (h : ∀ s, g (calledStep σ s) = calledStep σ (g s)) (st : St) :
    eachStep g (calledSt σ st) = calledSt σ (eachStep g st) := by
  have : (st.spec.steps.map (calledStep σ)).map g = (st.spec.steps.map g).map (calledStep σ) := by
    rw [List.map_map, List.map_map]
    exact List.map_congr_left fun s _ => h s
  simp only [eachStep, calledSt, calledSpec, this]

theorem environ_commutes (e : GoMap String) : Commutes σ (withEnviron e) := by
  intro st
  unfold withEnviron
  simp only [Option.map_some, Option.some.injEq]
  induction e generalizing st with
  | nil => rfl
  | cons kv e ih =>
    rw [List.foldl_cons, List.foldl_cons, ← ih]
    congr 1
    refine each_commutes ?_ st
    exact fun _ => rfl

theorem netrc_commutes (m u p : String) : Commutes σ (withNetrc m u p) := by
  intro st
  unfold withNetrc
  split
  · rfl
  · refine congrArg some (each_commutes ?_ st)
    exact fun _ => rfl

theorem limits_commutes (m c : Int) : Commutes σ (withLimits m c) := by
  intro st
  unfold withLimits
  split
  · rfl
  · refine congrArg some (each_commutes ?_ st)
    exact fun _ => rfl

theorem networks_commutes (l : List String) : Commutes σ (withNetworks l) := by
  intro st
  refine congrArg some (each_commutes ?_ st)
  exact fun _ => rfl

theorem secrets_commutes (rnd : Nat → String) (m : GoMap String) : Commutes σ (withSecrets rnd m) := by
  intro st
  unfold withSecrets
  simp only [Option.map_some, Option.some.injEq]
  induction m generalizing st with
  | nil => rfl
  | cons kv e ih =>
    rw [List.foldl_cons, List.foldl_cons, ← ih]
    rfl

theorem volumes_commutes (rnd : Nat → String) (m : GoMap String) : Commutes σ (withVolumes rnd m) := by
  intro st
  unfold withVolumes
  simp only [Option.map_some, Option.some.injEq]
  induction m generalizing st with
  | nil => rfl
  | cons kv e ih =>
    rw [List.foldl_cons, List.foldl_cons, ← ih]
    congr 1
    unfold addGlobalVolume
    dsimp only
    refine each_commutes ?_ { n := st.n + 2, spec := { st.spec with volumes := st.spec.volumes ++ [{
      md := { uid := rnd st.n, name := rnd (st.n + 1), namespc := st.spec.md.name, labels := some [] }
      hostPath := some kv.1 }] } }
    exact fun _ => rfl

/-- The labels of a step under another name. -/
def calledLabels (σ : String → String) (l : GoMap String) : GoMap String :=
  l.map fun kv => (kv.1, if kv.1 = "io.drone.step.name" then σ kv.2 else kv.2)

theorem labels_set (l : GoMap String) (k v : String) (h : k ≠ "io.drone.step.name") :
    (calledLabels σ l).set k v = calledLabels σ (l.set k v) := by
  induction l with
  | nil => simp [calledLabels, GoMap.set, h]
  | cons a l ih =>
    obtain ⟨k', v'⟩ := a
    show (if k' = k then (k, v) :: calledLabels σ l else (k', _) :: GoMap.set (calledLabels σ l) k v) =
      calledLabels σ (if k' = k then (k, v) :: l else (k', v') :: GoMap.set l k v)
    by_cases hk : k' = k
    · rw [if_pos hk, if_pos hk]; simp [calledLabels, h]
    · rw [if_neg hk, if_neg hk, ih]; rfl

theorem labels_foldl (e : GoMap String) (h : "io.drone.step.name" ∉ e.keys) : ∀ l : GoMap String,
    e.foldl (fun l kv => l.set kv.1 kv.2) (calledLabels σ l) = calledLabels σ (e.foldl (fun l kv => l.set kv.1 kv.2) l) := by
  induction e with
  | nil => exact fun _ => rfl
  | cons kv e ih =>
    intro l
    simp only [GoMap.keys, List.map_cons, List.mem_cons, not_or] at h
    rw [List.foldl_cons, List.foldl_cons, labels_set _ _ _ (Ne.symm h.1), ih h.2]

theorem labelSteps_called (ord : Nat → GoMap String) (h : ∀ n, "io.drone.step.name" ∉ (ord n).keys) : ∀ (l : List Step) (i : Nat),
    labelSteps ord i (l.map (calledStep σ)) = (labelSteps ord i l).map (List.map (calledStep σ))
  | [], _ => rfl
  | s :: l, i => by
    rw [List.map_cons, labelSteps, labelSteps, labelSteps_called ord h l]
    have : addLabels (ord i) (calledStep σ s).md = (addLabels (ord i) s.md).map fun m =>
        { m with name := σ m.name, labels := m.labels.map (calledLabels σ) } := by
      show addLabels (ord i) { s.md with name := σ s.md.name, labels := s.md.labels.map (calledLabels σ) } = _
      have hi := h i
      revert hi
      generalize ord i = e
      intro hi
      unfold addLabels
      cases e with
      | nil => rfl
      | cons kv e =>
        cases s.md.labels with
        | none => rfl
        | some l =>
          simp only [Option.map_some]
          rw [labels_foldl _ hi]
    rw [this]
    cases addLabels (ord i) s.md with
    | none => rfl
    | some m => cases labelSteps ord (i + 1) l <;> rfl

theorem labels_commutes (ord : Nat → GoMap String) (h : ∀ n, "io.drone.step.name" ∉ (ord n).keys) : Commutes σ (withLables ord) := by
  intro st
  unfold withLables
  show (addLabels (ord 0) st.spec.md).bind _ = _
  cases addLabels (ord 0) st.spec.md with
  | none => rfl
  | some m =>
    show (labelVolumes ord 1 st.spec.volumes).bind _ = Option.map _ ((labelVolumes ord 1 st.spec.volumes).bind _)
    cases labelVolumes ord 1 st.spec.volumes with
    | none => rfl
    | some vs =>
      show (labelSteps ord (1 + st.spec.volumes.length) (st.spec.steps.map (calledStep σ))).map _ =
        Option.map _ ((labelSteps ord (1 + st.spec.volumes.length) st.spec.steps).map _)
      rw [labelSteps_called ord h]
      cases labelSteps ord (1 + st.spec.volumes.length) st.spec.steps <;> rfl

theorem combine_commutes {fs : List Transform} (h : ∀ f ∈ fs, Commutes σ f) : Commutes σ (combine fs) := by
  have : ∀ x : Option St, fs.foldl (fun (r : Option St) fn => r.bind fn) (x.map (calledSt σ)) =
      (fs.foldl (fun (r : Option St) fn => r.bind fn) x).map (calledSt σ) := by
    induction fs with
    | nil => exact fun _ => rfl
    | cons f fs ih =>
      intro x
      rw [List.foldl_cons, List.foldl_cons, ← ih (fun g hg => h g (List.mem_cons_of_mem _ hg))]
      congr 1
      cases x with
      | none => rfl
      | some st => exact h f List.mem_cons_self st
  exact fun st => this (some st)

end StepNames
open StepNames

/-- **C137.** The compile command: unless a label of the command line takes the place of the one with the name of the
step, the specification it prints is the same with the names exchanged. -/
theorem C137_command (σ : String → String) (X : Cli.CliLib) (fl : Cli.CompileFlags) (p : Pipeline)
    (h1 : σ "clone" = "clone") (h2 : σ ".git-credentials" = ".git-credentials")
    (hl : ∀ n, "io.drone.step.name" ∉ (X.labelOrder n fl.labels).keys) :
    Cli.compileWith X fl (called σ p) = (Cli.compileWith X fl p).map (calledSpec σ) := by
  unfold Cli.compileWith
  rw [core_called X.ext (compilerFor_std X fl) (C137_callbacks σ X fl).1 (C137_callbacks σ X fl).2 X.rnd p h1 h2]
  have hc : Commutes σ (combine (Cli.transforms X fl)) := by
    refine combine_commutes fun f hf => ?_
    simp only [Cli.transforms, List.mem_cons, List.not_mem_nil, or_false] at hf
    rcases hf with rfl | rfl | rfl | rfl | rfl | rfl | rfl | rfl | rfl | rfl
    · exact fun _ => rfl
    · exact environ_commutes _
    · exact environ_commutes _
    · exact labels_commutes _ hl
    · exact limits_commutes _ _
    · exact netrc_commutes _ _ _
    · exact networks_commutes _
    · exact environ_commutes _
    · exact secrets_commutes _ _
    · exact volumes_commutes _ _
  cases compileCore X.ext (Cli.compilerFor X fl) X.rnd p with
  | none => rfl
  | some st =>
    simp only [Option.map_some, Option.bind_some]
    rw [hc st, Option.map_map, Option.map_map]
    rfl

/-! ### Examples -/

/-- Two names change places. -/
def snSwap (x : String) : String := if x = "test" then "build" else if x = "build" then "test" else x

/-- A pipeline with both. -/
def snPipeline : Pipeline :=
  { kind := "pipeline", type := "docker", name := "default"
    services := [some { name := "redis", image := "redis" }]
    steps := [some { name := "build", image := "golang", commands := ["go build"] },
              some { name := "test", image := "golang", dependsOn := ["build"] }] }

theorem snSwap_inj (x y : String) (h : snSwap x = snSwap y) : x = y := by
  have inv : ∀ z, snSwap (snSwap z) = z := by
    intro z
    by_cases h1 : z = "test"
    · subst h1; decide
    · by_cases h2 : z = "build"
      · subst h2; decide
      · simp only [snSwap, h1, h2, if_false]
  rw [← inv x, h, inv]

example : snSwap "" = "" ∧ snSwap "clone" = "clone" ∧ snSwap ".git-credentials" = ".git-credentials" ∧
    lint (.pipeline snPipeline) false = .ok () := by decide

example : (compile exExt {} exRnd (called snSwap snPipeline)).map (fun s => s.steps.map fun t => (t.md.name, t.dependsOn)) =
    some [("clone", []), ("redis", ["clone"]), ("test", ["clone"]), ("build", ["test"])] := by decide +kernel

/-- Names that become the same are refused by the linter. -/
example : lint (.pipeline (called (fun _ => "clone") snPipeline)) false ≠ .ok () := by decide

/-- A pipeline whose step is called "clone" afterwards is refused as well. -/
example : lint (.pipeline (called (fun x => if x = "test" then "clone" else if x = "clone" then "test" else x) snPipeline)) false ≠
    .ok () := by decide

end Drone
