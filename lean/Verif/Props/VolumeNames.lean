/-
C138: what the names of volumes and of pipelines are for.
-/
import Verif.Props.Cli

namespace Drone
open Engine (Step)

namespace Spec

/-- A container whose volumes have other names. -/
def movedC (ν : String → String) (c : Container) : Container :=
  { c with volumes := c.volumes.map (Option.map fun m => { m with name := ν m.name }) }

/-- A pipeline whose volumes have other names, where they are declared and where they are mounted. -/
def moved (ν : String → String) (p : Pipeline) : Pipeline :=
  { p with
    volumes := p.volumes.map (Option.map fun v => { v with name := ν v.name })
    steps := p.steps.map (Option.map (movedC ν))
    services := p.services.map (Option.map (movedC ν)) }

/-- A compiled step whose volumes have other names. -/
def movedStep (ν : String → String) (s : Step) : Step :=
  { s with volumes := s.volumes.map fun m => { m with name := ν m.name } }

/-- A specification whose volumes have other names. -/
def movedSpec (ν : String → String) (s : Engine.Spec) : Engine.Spec :=
  { s with
    steps := s.steps.map (movedStep ν)
    volumes := s.volumes.map fun v => { v with md := { v.md with name := ν v.md.name } } }

/-- A callback of the compiler that does not look at the names of volumes. -/
def VolumeBlind (ν : String → String) (f : Option (Container → Bool)) : Prop :=
  ∀ c, f.any (· (movedC ν c)) = f.any (· c)

/-- Two answers of the linter that are the same, except for the text of an error. -/
def SameVerdict {α : Type} : Except Fail α → Except Fail α → Prop
  | .ok a, .ok b => a = b
  | .error .panic, .error .panic => True
  | .error (.err _), .error (.err _) => True
  | _, _ => False

/-- A resource whose pipeline has another name, its dependencies on pipelines renamed with it. -/
def calledR (σ : String → String) : Resource → Resource
  | .pipeline p => .pipeline { p with name := σ p.name, dependsOn := p.dependsOn.map σ }
  | r => r

end Spec
open Spec

namespace VolumeNames

variable {ν : String → String}

/-! ### The linter -/

theorem verdict_refl {α : Type} (x : Except Fail α) : SameVerdict x x := by
  cases x with
  | ok a => rfl
  | error e => cases e <;> trivial

theorem verdict_bind {α β : Type} {x y : Except Fail α} (h : SameVerdict x y) {f g : α → Except Fail β}
    (hf : ∀ a, SameVerdict (f a) (g a)) : SameVerdict (x >>= f) (y >>= g) := by
  cases x with
  | ok a =>
    cases y with
    | ok b => cases (h : a = b); exact hf a
    | error e => exact h.elim
  | error e =>
    cases y with
    | ok b => cases e <;> exact h.elim
    | error e' => cases e <;> cases e' <;> first | trivial | exact h.elim

theorem mounts_moved (hr : ∀ x, ν x ∈ reservedVolumes ↔ x ∈ reservedVolumes) : ∀ l : List (Option VolumeMount),
    SameVerdict (checkMounts (l.map (Option.map fun m => { m with name := ν m.name }))) (checkMounts l)
  | [] => rfl
  | none :: _ => trivial
  | some m :: l => by
    rw [List.map_cons, Option.map_some, checkMounts, checkMounts]
    by_cases h : m.name ∈ reservedVolumes
    · rw [if_pos h, if_pos ((hr _).2 h)]; trivial
    · rw [if_neg h, if_neg fun h' => h ((hr _).1 h')]
      exact mounts_moved hr l

theorem container_moved (hr : ∀ x, ν x ∈ reservedVolumes ↔ x ∈ reservedVolumes) (t : Bool) (c : Container) :
    SameVerdict (checkContainer t (movedC ν c)) (checkContainer t c) := by
  unfold checkContainer
  refine verdict_bind (verdict_refl _) fun _ => ?_
  refine verdict_bind (verdict_refl _) fun _ => ?_
  refine verdict_bind (verdict_refl _) fun _ => ?_
  refine verdict_bind (verdict_refl _) fun _ => ?_
  refine verdict_bind (verdict_refl _) fun _ => ?_
  refine verdict_bind (verdict_refl _) fun _ => ?_
  refine verdict_bind (verdict_refl _) fun _ => ?_
  refine verdict_bind (verdict_refl _) fun _ => ?_
  refine verdict_bind (verdict_refl _) fun _ => ?_
  refine verdict_bind (verdict_refl _) fun _ => ?_
  exact mounts_moved hr c.volumes

theorem steps_moved (hr : ∀ x, ν x ∈ reservedVolumes ↔ x ∈ reservedVolumes) (t : Bool) :
    ∀ (l : List (Option Container)) (names : List String),
    SameVerdict (checkSteps t names (l.map (Option.map (movedC ν)))) (checkSteps t names l)
  | [], _ => rfl
  | none :: _, _ => trivial
  | some c :: l, names => by
    rw [List.map_cons, Option.map_some, checkSteps, checkSteps]
    refine verdict_bind (verdict_refl _) fun _ => ?_
    refine verdict_bind (container_moved hr t c) fun _ => ?_
    refine verdict_bind (verdict_refl _) fun _ => ?_
    exact steps_moved hr t l _

theorem services_moved (hr : ∀ x, ν x ∈ reservedVolumes ↔ x ∈ reservedVolumes) (t : Bool) :
    ∀ (l : List (Option Container)) (names : List String),
    SameVerdict (checkServices t names (l.map (Option.map (movedC ν)))) (checkServices t names l)
  | [], _ => rfl
  | none :: _, _ => trivial
  | some c :: l, names => by
    rw [List.map_cons, Option.map_some, checkServices, checkServices]
    refine verdict_bind (verdict_refl _) fun _ => ?_
    refine verdict_bind (container_moved hr t c) fun _ => ?_
    exact services_moved hr t l _

theorem volumes_moved (hr : ∀ x, ν x ∈ reservedVolumes ↔ x ∈ reservedVolumes) (t : Bool) : ∀ l : List (Option Volume),
    SameVerdict (checkVolumes t (l.map (Option.map fun v => { v with name := ν v.name }))) (checkVolumes t l)
  | [] => rfl
  | none :: _ => trivial
  | some v :: l => by
    rw [List.map_cons, Option.map_some, checkVolumes, checkVolumes]
    refine verdict_bind (verdict_refl _) fun _ => ?_
    refine verdict_bind (verdict_refl _) fun _ => ?_
    refine verdict_bind ?_ fun _ => volumes_moved hr t l
    unfold refuse
    by_cases h : v.name ∈ reservedVolumes
    · rw [if_pos h, if_pos ((hr _).2 h)]; trivial
    · rw [if_neg h, if_neg fun h' => h ((hr _).1 h')]; rfl

/-! ### The compiler -/

/-- The state with other names. -/
def movedSt (ν : String → String) (st : St) : St := { st with spec := movedSpec ν st.spec }

theorem stepMounts_moved (hs : ∀ x, ν x = "_docker_socket" ↔ x = "_docker_socket") : ∀ l : List (Option VolumeMount),
    stepMounts (l.map (Option.map fun m => { m with name := ν m.name })) =
      (stepMounts l).map (List.map fun m => { m with name := ν m.name })
  | [] => rfl
  | none :: _ => rfl
  | some m :: l => by
    rw [List.map_cons, Option.map_some, stepMounts, stepMounts, stepMounts_moved hs l]
    by_cases h : m.name = "_docker_socket"
    · rw [if_pos h, if_pos ((hs _).2 h)]
    · rw [if_neg h, if_neg fun h' => h ((hs _).1 h')]
      cases stepMounts l <;> rfl

theorem createStep_moved (hs : ∀ x, ν x = "_docker_socket" ↔ x = "_docker_socket") (E : Ext) (rnd : Nat → String) (st : St)
    (src : Container) : createStep E rnd (movedSt ν st) (movedC ν src) =
      (createStep E rnd st src).map fun r => (movedStep ν r.1, movedSt ν r.2) := by
  unfold createStep
  have e1 : toPorts (movedC ν src) = toPorts src := rfl
  have e2 : stepMounts (movedC ν src).volumes = _ := stepMounts_moved hs src.volumes
  have e3 : (movedC ν src).commands = src.commands := rfl
  rw [e1, e2, e3]
  cases toPorts src with
  | none => rfl
  | some ports =>
    cases stepMounts src.volumes with
    | none => rfl
    | some mounts =>
      simp only [Option.map_some, Option.bind_some]
      have e4 : (movedSt ν st).spec.platform = st.spec.platform := rfl
      rw [e4]
      split
      · split <;> rfl
      · rfl

theorem addVolume_moved (st : St) (v : Engine.Volume) :
    (movedSt ν st).addVolume { v with md := { v.md with name := ν v.md.name } } = movedSt ν (st.addVolume v) := by
  simp only [St.addVolume, movedSt, movedSpec, List.map_append, List.map_cons, List.map_nil]

theorem workspace_moved {c : Compiler} (hc : c.Std) (h1 : ν "workspace" = "workspace") (h2 : ν "host" = "host")
    (rnd : Nat → String) (st : St) : setupWorkspace c rnd (movedSt ν st) = movedSt ν (setupWorkspace c rnd st) := by
  have hw : createWorkspaceVolume rnd (movedSt ν st) = movedSt ν (createWorkspaceVolume rnd st) := by
    unfold createWorkspaceVolume
    rw [← addVolume_moved]
    simp only [h1]
    rfl
  unfold setupWorkspace
  cases hm : c.workspace with
  | default => exact hw
  | host d =>
    show createHostWorkspace rnd d _ = movedSt ν (createHostWorkspace rnd d st)
    unfold createHostWorkspace
    dsimp only
    rw [hw, ← addVolume_moved]
    simp only [h2]
    rfl
  | custom f => exact absurd hm (hc.1 f)

theorem addVolumes_moved (rnd : Nat → String) (ns : String) : ∀ (l : List (Option Volume)) (st : St),
    addVolumes rnd ns (l.map (Option.map fun v => { v with name := ν v.name })) (movedSt ν st) =
      (addVolumes rnd ns l st).map (movedSt ν)
  | [], _ => rfl
  | none :: _, _ => rfl
  | some v :: l, st => by
    rw [List.map_cons, Option.map_some, addVolumes, addVolumes, ← addVolumes_moved rnd ns l, ← addVolume_moved]
    rfl

theorem addStep_moved (st : St) (s : Step) : (movedSt ν st).addStep (movedStep ν s) = movedSt ν (st.addStep s) := by
  simp only [St.addStep, movedSt, movedSpec, List.map_append, List.map_cons, List.map_nil]

theorem workingDir_moved (src src' : Container) (h : src'.commands = src.commands) (s : Step) (path : String) :
    setupWorkingDir src' (movedStep ν s) path = movedStep ν (setupWorkingDir src s path) := by
  unfold setupWorkingDir
  have e1 : (movedStep ν s).workingDir = s.workingDir := rfl
  have e2 : (movedStep ν s).detach = s.detach := rfl
  rw [e1, e2, h]
  split
  · rfl
  · split <;> rfl

theorem mount_moved {c : Compiler} (hc : c.Std) (h1 : ν "workspace" = "workspace") (h2 : ν "host" = "host") (s : Step)
    (w : WorkspaceDirs) : setupWorkspaceMount c (movedStep ν s) w = movedStep ν (setupWorkspaceMount c s w) := by
  unfold setupWorkspaceMount
  cases hm : c.mount with
  | default => simp [mountWorkspace, movedStep, h1]
  | host =>
    show mountHostWorkspace _ w = movedStep ν (mountHostWorkspace s w)
    unfold mountHostWorkspace
    dsimp only
    split <;> simp [movedStep, h1, h2]
  | custom f => exact absurd hm (hc.2 f)

theorem finish_moved {c : Compiler} (hc : c.Std) (hs : VolumeBlind ν c.skip) (hp : VolumeBlind ν c.privileged)
    (h1 : ν "workspace" = "workspace") (h2 : ν "host" = "host") (w : WorkspaceDirs) (src : Container) (s : Step) :
    finishStep c w (movedC ν src) (movedStep ν s) = movedStep ν (finishStep c w src s) := by
  unfold finishStep
  rw [hs src, hp src, workingDir_moved src (movedC ν src) rfl]
  have e : ∀ s, setupWorkspaceEnv (movedStep ν s) w = movedStep ν (setupWorkspaceEnv s w) := fun _ => rfl
  dsimp only
  rw [e, mount_moved hc h1 h2]
  split <;> split <;> rfl

variable (h1 : ν "workspace" = "workspace") (h2 : ν "host" = "host") (h3 : ∀ x, ν x = "_docker_socket" ↔ x = "_docker_socket")

include h1 h2 h3

theorem clone_moved (E : Ext) {c : Compiler} (hc : c.Std) (rnd : Nat → String) (p : Pipeline) (w : WorkspaceDirs) (st : St) :
    addClone E c rnd p w (movedSt ν st) = (addClone E c rnd p w st).map (movedSt ν) := by
  unfold addClone
  split
  · rfl
  · have hs : createStep E rnd (movedSt ν st) (createClone p) =
        (createStep E rnd st (createClone p)).map fun r => (movedStep ν r.1, movedSt ν r.2) :=
      createStep_moved h3 E rnd st (createClone p)
    dsimp only
    rw [hs]
    cases createStep E rnd st (createClone p) with
    | none => rfl
    | some r =>
      obtain ⟨s, t⟩ := r
      simp only [Option.map_some, Option.some.injEq]
      have hd : ∀ s, setupCloneDepth p { movedStep ν s with docker := { (movedStep ν s).docker with pullPolicy := .ifNotExists } } =
          movedStep ν (setupCloneDepth p { s with docker := { s.docker with pullPolicy := .ifNotExists } }) := fun _ => rfl
      have hcr : ∀ s d, setupCloneCredentials rnd (movedSt ν t) (movedStep ν s) d =
          (movedStep ν (setupCloneCredentials rnd t s d).1, movedSt ν (setupCloneCredentials rnd t s d).2) := by
        intro s d
        unfold setupCloneCredentials
        split <;> rfl
      have hen : ∀ s, setupWorkspaceEnv (movedStep ν s) w = movedStep ν (setupWorkspaceEnv s w) := fun _ => rfl
      rw [hd, hcr, ← addStep_moved, workingDir_moved (createClone p) (createClone p) rfl, hen, mount_moved hc h1 h2]

theorem services_placed (E : Ext) {c : Compiler} (hc : c.Std) (hs : VolumeBlind ν c.skip) (hp : VolumeBlind ν c.privileged)
    (rnd : Nat → String) (p p' : Pipeline) (hpp : p'.clone = p.clone) (w : WorkspaceDirs) (serial : Bool) :
    ∀ (l : List (Option Container)) (st : St),
    addServices E c rnd p' w serial (l.map (Option.map (movedC ν))) (movedSt ν st) =
      (addServices E c rnd p w serial l st).map (movedSt ν)
  | [], _ => rfl
  | none :: _, _ => rfl
  | some s :: l, st => by
    rw [List.map_cons, Option.map_some, addServices, addServices]
    have : addService E c rnd p' w serial (movedC ν s) (movedSt ν st) = (addService E c rnd p w serial s st).map (movedSt ν) := by
      unfold addService
      rw [createStep_moved h3, hpp]
      cases createStep E rnd st s with
      | none => rfl
      | some r =>
        obtain ⟨s1, t⟩ := r
        simp only [Option.map_some, Option.some.injEq]
        have ed : ({ movedStep ν s1 with detach := true } : Step) = movedStep ν { s1 with detach := true } := rfl
        rw [ed, finish_moved hc hs hp h1 h2, ← addStep_moved]
        split <;> rfl
    rw [this]
    cases addService E c rnd p w serial s st with
    | none => rfl
    | some t => exact services_placed E hc hs hp rnd p p' hpp w serial l t

theorem steps_placed (E : Ext) {c : Compiler} (hc : c.Std) (hs : VolumeBlind ν c.skip) (hp : VolumeBlind ν c.privileged)
    (rnd : Nat → String) (p p' : Pipeline) (hpp : p'.clone = p.clone) (w : WorkspaceDirs) (serial : Bool) :
    ∀ (l : List (Option Container)) (st : St) (rn : GoMap String),
    addSteps E c rnd p' w serial (l.map (Option.map (movedC ν))) (movedSt ν st) rn =
      (addSteps E c rnd p w serial l st rn).map fun r => (movedSt ν r.1, r.2)
  | [], _, _ => rfl
  | none :: _, _, _ => rfl
  | some s :: l, st, rn => by
    rw [List.map_cons, Option.map_some, addSteps, addSteps]
    have tail : ∀ (s1 : Step) (t : St) (r : GoMap String),
        ((movedSt ν t).addStep
          (if serial = false ∧ p'.clone.disable = false ∧ (finishStep c w (movedC ν s) (movedStep ν s1)).dependsOn.length = 0 then
            { finishStep c w (movedC ν s) (movedStep ν s1) with
              dependsOn := (finishStep c w (movedC ν s) (movedStep ν s1)).dependsOn ++ ["clone"] }
          else finishStep c w (movedC ν s) (movedStep ν s1)), r) =
        (movedSt ν (t.addStep
          (if serial = false ∧ p.clone.disable = false ∧ (finishStep c w s s1).dependsOn.length = 0 then
            { finishStep c w s s1 with dependsOn := (finishStep c w s s1).dependsOn ++ ["clone"] }
          else finishStep c w s s1)), r) := by
      intro s1 t r
      rw [finish_moved hc hs hp h1 h2, hpp]
      have e : (movedStep ν (finishStep c w s s1)).dependsOn = (finishStep c w s s1).dependsOn := rfl
      rw [e, ← addStep_moved]
      split <;> rfl
    have : addPipelineStep E c rnd p' w serial (movedC ν s) (movedSt ν st) rn =
        (addPipelineStep E c rnd p w serial s st rn).map fun r => (movedSt ν r.1, r.2) := by
      unfold addPipelineStep
      have eb : (movedC ν s).build = s.build := rfl
      rw [eb]
      cases s.build with
      | some x =>
        have hb : createBuildStep E rnd (movedSt ν st) (movedC ν s) x =
            (movedStep ν (createBuildStep E rnd st s x).1, movedSt ν (createBuildStep E rnd st s x).2) := by
          simp only [createBuildStep, movedStep, List.map_cons, List.map_nil, (h3 _).2 rfl]
          rfl
        simp only [hb, Option.map_some, Option.some.injEq]
        exact tail _ _ _
      | none =>
        simp only [createStep_moved h3]
        cases createStep E rnd st s with
        | none => rfl
        | some r =>
          simp only [Option.map_some, Option.some.injEq]
          exact tail _ _ _
    rw [this]
    cases addPipelineStep E c rnd p w serial s st rn with
    | none => rfl
    | some t => exact steps_placed E hc hs hp rnd p p' hpp w serial l t.1 t.2

omit h1 h2 h3 in
theorem rename_moved (E : Ext) (rn : GoMap String) : ∀ (l : List Step) (i : Nat),
    renameSteps E rn i (l.map (movedStep ν)) = (renameSteps E rn i l).map (movedStep ν)
  | [], _ => rfl
  | s :: l, i => by
    rw [List.map_cons, renameSteps, renameSteps, List.map_cons, rename_moved E rn l (i + 1)]
    rfl

omit h1 h2 h3 in
theorem serial_moved : ∀ l : List (Option Container), isSerial (l.map (Option.map (movedC ν))) = isSerial l
  | [] => rfl
  | none :: _ => rfl
  | some s :: l => by
    rw [List.map_cons, Option.map_some, isSerial, isSerial, serial_moved l]
    rfl

theorem core_moved (E : Ext) {c : Compiler} (hc : c.Std) (hs : VolumeBlind ν c.skip) (hp : VolumeBlind ν c.privileged)
    (rnd : Nat → String) (p : Pipeline) : compileCore E c rnd (moved ν p) = (compileCore E c rnd p).map (movedSt ν) := by
  unfold compileCore
  have e1 : isSerial (moved ν p).steps = isSerial p.steps := serial_moved p.steps
  rw [e1]
  cases isSerial p.steps with
  | none => rfl
  | some serial =>
    simp only [Option.bind_some]
    have e2 : ({ n := 1, spec := initSpec (moved ν p) (rnd 0) } : St) = movedSt ν { n := 1, spec := initSpec p (rnd 0) } := rfl
    have e3 : createWorkspace (moved ν p) = createWorkspace p := rfl
    have e4 : (moved ν p).volumes = p.volumes.map (Option.map fun v => { v with name := ν v.name }) := rfl
    have e5 : ∀ w st, addClone E c rnd (moved ν p) w st = addClone E c rnd p w st := fun _ _ => rfl
    have e6 : (moved ν p).services = p.services.map (Option.map (movedC ν)) := rfl
    have e7 : (moved ν p).steps = p.steps.map (Option.map (movedC ν)) := rfl
    rw [e2, e3, e4, workspace_moved hc h1 h2, addVolumes_moved]
    cases addVolumes rnd (rnd 0) p.volumes (setupWorkspace c rnd { n := 1, spec := initSpec p (rnd 0) }) with
    | none => rfl
    | some st =>
      simp only [Option.map_some, Option.bind_some, e5]
      rw [clone_moved h1 h2 h3 E hc rnd p]
      cases addClone E c rnd p (createWorkspace p) st with
      | none => rfl
      | some st =>
        simp only [Option.map_some, Option.bind_some]
        rw [e6, services_placed h1 h2 h3 E hc hs hp rnd p (moved ν p) rfl _ serial]
        cases addServices E c rnd p (createWorkspace p) serial p.services st with
        | none => rfl
        | some st =>
          simp only [Option.map_some, Option.bind_some]
          rw [e7, steps_placed h1 h2 h3 E hc hs hp rnd p (moved ν p) rfl _ serial]
          cases addSteps E c rnd p (createWorkspace p) serial p.steps st [] with
          | none => rfl
          | some r =>
            obtain ⟨st, rn⟩ := r
            simp only [Option.map_some, Option.some.injEq]
            have e8 : addSocket rnd (rnd 0) rn (movedSt ν st) = movedSt ν (addSocket rnd (rnd 0) rn st) := by
              unfold addSocket
              split
              · rw [← addVolume_moved]
                simp only [(h3 _).2 rfl]
                rfl
              · rfl
            rw [e8]
            have e9 := rename_moved (ν := ν) E rn (addSocket rnd (rnd 0) rn st).spec.steps 0
            simp only [movedSt, movedSpec] at e9 ⊢
            rw [e9]

end VolumeNames
open VolumeNames

/-- **C138.** The linter does not care how the volumes of a pipeline are called: give them other names, where they are
declared and where they are mounted, such that the reserved names and no others become reserved names.  The answer is the
same, except for the name in the text of an error. -/
theorem C138_lint (ν : String → String) (p : Pipeline) (trusted : Bool)
    (hr : ∀ x, ν x ∈ ["workspace", "_workspace", "_docker_socket"] ↔ x ∈ ["workspace", "_workspace", "_docker_socket"]) :
    SameVerdict (lint (.pipeline (moved ν p)) trusted) (lint (.pipeline p) trusted) := by
  show SameVerdict (checkPipeline trusted (moved ν p)) (checkPipeline trusted p)
  unfold checkPipeline
  refine verdict_bind (volumes_moved hr trusted p.volumes) fun _ => ?_
  refine verdict_bind (verdict_refl _) fun _ => ?_
  refine verdict_bind (steps_moved hr trusted p.steps _) fun _ => ?_
  exact services_moved hr trusted p.services _

/-- **C138.** Nor does the compiler: what a pipeline is compiled to when its volumes have other names is what it was compiled
to before, with the names exchanged where volumes are declared and mounted. -/
theorem C138_compile (ν : String → String) (E : Ext) (c : Compiler) (hc : c.Std) (ht : c.transform = none)
    (hs : VolumeBlind ν c.skip) (hp : VolumeBlind ν c.privileged) (rnd : Nat → String) (p : Pipeline)
    (h1 : ν "workspace" = "workspace") (h2 : ν "host" = "host") (h3 : ∀ x, ν x = "_docker_socket" ↔ x = "_docker_socket") :
    compile E c rnd (moved ν p) = (compile E c rnd p).map (movedSpec ν) := by
  unfold compile
  rw [core_moved h1 h2 h3 E hc hs hp rnd p, ht, Option.map_map, Option.map_map]
  rfl

/-- **C138.** The callbacks of the compile command do not look at volumes. -/
theorem C138_callbacks (ν : String → String) (X : Cli.CliLib) (fl : Cli.CompileFlags) :
    VolumeBlind ν (Cli.compilerFor X fl).skip ∧ VolumeBlind ν (Cli.compilerFor X fl).privileged :=
  ⟨fun _ => rfl, fun _ => rfl⟩

/-- **C138.** The linter for manifests does not care how the pipelines are called: with other names, in the dependencies
too, such that different names stay different, the answer is the same. -/
theorem C138_manifest (σ : String → String) (hi : ∀ x y, σ x = σ y → x = y) (m : Manifest) (trusted : Bool) :
    lintManifest { m with resources := m.resources.map (calledR σ) } trusted = lintManifest m trusted := by
  have mem : ∀ (x : String) (l : List String), σ x ∈ l.map σ ↔ x ∈ l := fun x l => by
    rw [List.mem_map]
    exact ⟨fun ⟨y, h, e⟩ => hi _ _ e ▸ h, fun h => ⟨x, h, rfl⟩⟩
  have deps : ∀ (name : String) (names ds : List String),
      checkPipelineDeps (σ name) (names.map σ) (ds.map σ) = checkPipelineDeps name names ds := by
    intro name names ds
    induction ds with
    | nil => rfl
    | cons d ds ih =>
      rw [List.map_cons, checkPipelineDeps, checkPipelineDeps, ih]
      have e : σ name = σ d ↔ name = d := ⟨hi _ _, congrArg σ⟩
      simp only [mem, e]
  have key : ∀ (rs : List Resource) (names : List String),
      checkPipelines (names.map σ) (rs.map (calledR σ)) = checkPipelines names rs := by
    intro rs
    induction rs with
    | nil => exact fun _ => rfl
    | cons r rs ih =>
      intro names
      cases r with
      | pipeline v =>
        have e1 := deps v.name (v.name :: names) v.dependsOn
        have e2 := ih (v.name :: names)
        rw [List.map_cons, calledR, checkPipelines, checkPipelines]
        simp only [refuse, mem]
        rw [List.map_cons] at e1 e2
        rw [e1, e2]
      | _ => exact ih names
  exact key m.resources []

/-- **C138.** Asked for the new name, the compile command picks the same pipeline of the manifest. -/
theorem C138_find (σ : String → String) (hi : ∀ x y, σ x = σ y → x = y) (h0 : σ "" = "") (name : String) (rs : List Resource) :
    Cli.findPipeline (σ name) (rs.map (calledR σ)) =
      (Cli.findPipeline name rs).map fun p => { p with name := σ p.name, dependsOn := p.dependsOn.map σ } := by
  induction rs with
  | nil => rfl
  | cons r rs ih =>
    cases r with
    | pipeline p =>
      rw [List.map_cons, calledR, Cli.findPipeline, Cli.findPipeline, ih]
      have e1 : σ name = "" ↔ name = "" := ⟨fun h => hi _ _ (h.trans h0.symm), fun h => h ▸ h0⟩
      have e2 : σ name = σ p.name ↔ name = p.name := ⟨hi _ _, congrArg σ⟩
      simp only [e1, e2]
      split <;> rfl
    | _ => exact ih

/-! ### Examples -/

/-- Two names change places. -/
def vnSwap (x : String) : String := if x = "cache" then "data" else if x = "data" then "cache" else x

/-- A pipeline with both. -/
def vnPipeline : Pipeline :=
  { kind := "pipeline", type := "docker", name := "default"
    volumes := [some { name := "cache", emptyDir := some {} }, some { name := "data", emptyDir := some {} }]
    steps := [some { name := "test", image := "golang"
                     volumes := [some { name := "cache", mountPath := "/go" }, some { name := "data", mountPath := "/data" }] }] }

theorem vnSwap_cases (x : String) : x = "cache" ∨ x = "data" ∨ vnSwap x = x := by
  by_cases h1 : x = "cache"
  · exact .inl h1
  · by_cases h2 : x = "data"
    · exact .inr (.inl h2)
    · exact .inr (.inr (by simp only [vnSwap, h1, h2, if_false]))

example : (∀ x, vnSwap x ∈ ["workspace", "_workspace", "_docker_socket"] ↔ x ∈ ["workspace", "_workspace", "_docker_socket"]) ∧
    vnSwap "workspace" = "workspace" ∧ vnSwap "host" = "host" ∧ ∀ x, vnSwap x = "_docker_socket" ↔ x = "_docker_socket" := by
  refine ⟨fun x => ?_, by decide, by decide, fun x => ?_⟩ <;>
  · rcases vnSwap_cases x with rfl | rfl | h
    · decide
    · decide
    · rw [h]

example : lint (.pipeline vnPipeline) false = .ok () ∧
    (compile exExt {} exRnd (moved vnSwap vnPipeline)).map (fun s => s.steps.map fun t => t.volumes.map fun m => (m.name, m.path)) =
      some [[("workspace", "/drone/src")], [("data", "/go"), ("cache", "/data"), ("workspace", "/drone/src")]] := by
  decide +kernel

/-- A volume that gets the name of the workspace is refused. -/
example : ¬ SameVerdict (lint (.pipeline (moved (fun x => if x = "cache" then "workspace" else x) vnPipeline)) false)
    (lint (.pipeline vnPipeline) false) := by
  intro h
  have e : lint (.pipeline (moved (fun x => if x = "cache" then "workspace" else x) vnPipeline)) false =
      .error (.err "linter: invalid volume name: workspace") := by decide
  have e' : lint (.pipeline vnPipeline) false = .ok () := by decide
  rw [e, e'] at h
  exact h

/-- Two pipelines, one after the other. -/
def vnManifest : Manifest :=
  { resources := [.pipeline { name := "cache", kind := "pipeline" },
                  .pipeline { name := "deploy", kind := "pipeline", dependsOn := ["cache"] }] }

example : lintManifest vnManifest false = .ok () ∧
    lintManifest { vnManifest with resources := vnManifest.resources.map (calledR vnSwap) } false = .ok () ∧
    (Cli.findPipeline "data" (vnManifest.resources.map (calledR vnSwap))).map (·.name) = some "data" ∧
    (Cli.findPipeline "cache" vnManifest.resources).map (·.name) = some "cache" := by decide

end Drone
