import Verif.Model.Lint
import Verif.Proof.Graph
import Mathlib.Data.List.Basic
import Mathlib.Tactic.Common
/-
C12 - C17: the linter.
-/
namespace Drone
open Spec

/-! ### Specification -/

/-- Names the compiler keeps for its own volumes. -/
def Spec.ReservedVolume (n : String) : Prop := n = "workspace" ∨ n = "_workspace" ∨ n = "_docker_socket"

/-- The documented rules for one container. -/
structure Spec.ContainerOK (trusted : Bool) (c : Container) : Prop where
  name : c.name ≠ ""
  image : c.build = none → c.image ≠ ""
  build : ∀ b, c.build = some b → b.image ≠ ""
  mounts : ∀ m ∈ c.volumes, ∃ v, m = some v ∧ ¬ ReservedVolume v.name
  untrusted : trusted = false →
    c.privileged = false ∧ c.devices = [] ∧ c.dns = [] ∧ c.dnsSearch = [] ∧
    c.extraHosts = [] ∧ c.network = "" ∧ ∀ p ∈ c.ports, ∃ q, p = some q ∧ q.host = 0

/-- The documented rules for one volume. -/
structure Spec.VolumeOK (trusted : Bool) (v : Volume) : Prop where
  name : ¬ ReservedVolume v.name
  untrusted : trusted = false → v.hostPath = none ∧ ∀ d, v.emptyDir = some d → d.medium ≠ "memory"

/-- Supported platforms. -/
def Spec.PlatformOK (p : Platform) : Prop :=
  p.os ∈ ["", "linux", "windows"] ∧ p.arch ∈ ["", "arm", "arm64", "amd64", "ppc64le", "s390x"]

/-- Names that exist before the first step. -/
def Spec.cloneNames (p : Pipeline) : List String := if p.clone.disable then [] else ["clone"]

/-- The dependency graph of a list of containers. -/
def Spec.nodes (cs : List Container) : List Node := cs.map (fun c => (c.name, c.dependsOn))

/-- The documented rules for a pipeline. -/
structure Spec.PipelineOK (trusted : Bool) (p : Pipeline) (steps services : List Container) : Prop where
  steps_eq : p.steps = steps.map some
  services_eq : p.services = services.map some
  volumes : ∀ v ∈ p.volumes, ∃ w, v = some w ∧ VolumeOK trusted w
  platform : PlatformOK p.platform
  containers : ∀ c ∈ steps ++ services, ContainerOK trusted c
  unique : (cloneNames p ++ (steps ++ services).map (·.name)).Nodup
  deps : DepsEarlier (cloneNames p) (nodes steps)

/-! ### Lemmas -/

theorem bind_ok_unit (a : Check) (β : Type) (f : Except Fail β) (b : β) :
    (a >>= fun _ => f) = .ok b ↔ a = .ok () ∧ f = .ok b := by
  cases a with
  | error e => simp [bind, Except.bind]
  | ok u => cases u; simp [bind, Except.bind]

theorem refuse_ok {c : Prop} [Decidable c] (e : String) : refuse c e = .ok () ↔ ¬ c := by
  unfold refuse
  by_cases h : c <;> simp [h]

theorem checkPorts_ok (trusted : Bool) (ps : List (Option Port)) :
    checkPorts trusted ps = .ok () ↔
      (trusted = false → ∀ p ∈ ps, ∃ q, p = some q ∧ q.host = 0) := by
  induction ps with
  | nil => simp [checkPorts]
  | cons p ps ih =>
    unfold checkPorts
    rw [bind_ok_unit, ih]
    cases trusted with
    | true => simp [checkPort]
    | false =>
      cases p with
      | none => simp [checkPort]
      | some q => by_cases h : q.host = 0 <;> simp [checkPort, h]

theorem mem_reserved (n : String) : n ∈ reservedVolumes ↔ ReservedVolume n := by
  simp [reservedVolumes, ReservedVolume]

theorem checkMounts_ok (ms : List (Option VolumeMount)) :
    checkMounts ms = .ok () ↔ ∀ m ∈ ms, ∃ v, m = some v ∧ ¬ ReservedVolume v.name := by
  induction ms with
  | nil => simp [checkMounts]
  | cons m ms ih =>
    cases m with
    | none => simp [checkMounts]
    | some v =>
      unfold checkMounts
      by_cases h : v.name ∈ reservedVolumes
      · simp [h, (mem_reserved _).1 h]
      · have h' : ¬ ReservedVolume v.name := fun hc => h ((mem_reserved _).2 hc)
        simp [h, h', ih]

theorem checkContainer_ok (trusted : Bool) (c : Container) :
    checkContainer trusted c = .ok () ↔ ContainerOK trusted c := by
  unfold checkContainer
  simp only [bind_ok_unit, checkPorts_ok, checkMounts_ok, refuse_ok]
  constructor
  · rintro ⟨h1, h2, h3, h4, h5, h6, h7, h8, h9, h10, h11⟩
    refine ⟨h4, fun hb hi => h2 ⟨hb, hi⟩, fun b hb hi => h3 (by simp [hb, hi]), h11, fun ht => ?_⟩
    simp only [ht, true_and, gt_iff_lt, List.length_pos_iff, not_not, Bool.not_eq_true] at h5 h6 h7 h8 h9 h10
    exact ⟨h5, h6, h7, h8, h9, h10, h1 ht⟩
  · rintro ⟨h1, h2, h3, h4, h5⟩
    refine ⟨fun ht => (h5 ht).2.2.2.2.2.2, ?_, ?_, h1, ?_, ?_, ?_, ?_, ?_, ?_, h4⟩
    · rintro ⟨hb, hi⟩; exact h2 hb hi
    · intro h
      simp only [Option.map_eq_some_iff] at h
      obtain ⟨b, hb, hi⟩ := h
      exact h3 b hb hi
    all_goals
      rintro ⟨ht, h⟩
      obtain ⟨a1, a2, a3, a4, a5, a6, _⟩ := h5 ht
      simp_all

theorem checkVolumes_ok (trusted : Bool) (vs : List (Option Volume)) :
    checkVolumes trusted vs = .ok () ↔ ∀ v ∈ vs, ∃ w, v = some w ∧ VolumeOK trusted w := by
  induction vs with
  | nil => simp [checkVolumes]
  | cons v vs ih =>
    cases v with
    | none => simp [checkVolumes]
    | some w =>
      unfold checkVolumes
      simp only [bind_ok_unit, refuse_ok, ih, mem_reserved]
      simp only [List.mem_cons, forall_eq_or_imp, Option.some.injEq, exists_eq_left']
      rw [← and_assoc, ← and_assoc]
      refine and_congr ?_ Iff.rfl
      constructor
      · rintro ⟨⟨h1, h2⟩, h3⟩
        refine ⟨h3, fun ht => ⟨?_, ?_⟩⟩
        · cases hh : w.hostPath with
          | none => rfl
          | some p => simp [hh, whenSome, checkHostPathVolume, ht] at h2
        · intro d hd hm
          simp [hd, whenSome, checkEmptyDirVolume, ht, hm] at h1
      · rintro ⟨h1, h2⟩
        refine ⟨⟨?_, ?_⟩, h1⟩
        · cases hd : w.emptyDir with
          | none => rfl
          | some d =>
            simp only [whenSome, checkEmptyDirVolume]
            rw [if_neg]
            rintro ⟨ht, hm⟩
            exact (h2 ht).2 d hd hm
        · cases hh : w.hostPath with
          | none => rfl
          | some p =>
            cases trusted with
            | true => rfl
            | false => have := (h2 rfl).1; rw [hh] at this; simp at this

theorem checkPlatform_ok (p : Platform) : checkPlatform p = .ok () ↔ PlatformOK p := by
  unfold checkPlatform PlatformOK lintOS lintArch
  simp only [List.mem_cons, List.not_mem_nil, or_false]
  split_ifs with h1 h2
  · simp; tauto
  · simp; tauto
  · simp; tauto

theorem checkDeps_ok (name : String) (names ds : List String) :
    checkDeps name names ds = .ok () ↔ ∀ d ∈ ds, d ∈ names ∧ d ≠ name := by
  induction ds with
  | nil => simp [checkDeps]
  | cons d ds ih =>
    unfold checkDeps
    by_cases h1 : d ∈ names
    · by_cases h2 : name = d
      · simp [h1, h2]
      · have : d ≠ name := fun h => h2 h.symm
        simp [h1, h2, ih, this]
    · simp [h1]

theorem checkSteps_ok (trusted : Bool) (cs : List (Option Container)) (names out : List String)
    (hn : names.Nodup) :
    checkSteps trusted names cs = .ok out ↔ ∃ ss : List Container, cs = ss.map some ∧
      out = (ss.map (·.name)).reverse ++ names ∧ out.Nodup ∧
      (∀ c ∈ ss, ContainerOK trusted c) ∧ DepsEarlier names (nodes ss) := by
  induction cs generalizing names with
  | nil =>
    simp only [checkSteps, Except.ok.injEq]
    constructor
    · rintro rfl
      exact ⟨[], rfl, rfl, hn, by simp, depsEarlier_nil _⟩
    · rintro ⟨ss, h1, h2, _⟩
      have : ss = [] := by simpa using h1.symm
      subst this
      simpa using h2.symm
  | cons c cs ih =>
    cases c with
    | none =>
      simp only [checkSteps, reduceCtorEq, false_iff]
      rintro ⟨ss, h1, _⟩
      cases ss <;> simp at h1
    | some c =>
      unfold checkSteps
      simp only [refuse_ok, bind_ok_unit, checkContainer_ok, checkDeps_ok]
      constructor
      · rintro ⟨h1, h2, h3, h4⟩
        obtain ⟨ss, rfl, rfl, h5, h6, h7⟩ := (ih (c.name :: names) (List.nodup_cons.2 ⟨h1, hn⟩)).1 h4
        refine ⟨c :: ss, rfl, by simp, h5, ?_, ?_⟩
        · intro x hx
          rcases List.mem_cons.1 hx with rfl | hx
          · exact h2
          · exact h6 x hx
        · show DepsEarlier names ((c.name, c.dependsOn) :: nodes ss)
          rw [depsEarlier_cons]
          refine ⟨fun d hd => ?_, h7⟩
          have := h3 d hd
          rcases List.mem_cons.1 this.1 with h | h
          · exact absurd h this.2
          · exact h
      · rintro ⟨ss, h1, rfl, h3, h4, h5⟩
        cases ss with
        | nil => simp at h1
        | cons s ss =>
          simp only [List.map_cons, List.cons.injEq, Option.some.injEq] at h1
          obtain ⟨rfl, h1⟩ := h1
          have h5' : DepsEarlier names ((c.name, c.dependsOn) :: nodes ss) := h5
          rw [depsEarlier_cons] at h5'
          have hnd : c.name ∉ names := by
            intro hc
            simp only [List.map_cons, List.reverse_cons, List.append_assoc] at h3
            exact (List.nodup_append.1 (List.nodup_append.1 h3).2.1).2.2 c.name (by simp) c.name hc rfl
          refine ⟨hnd, h4 c (by simp), ?_, ?_⟩
          · intro d hd
            have := h5'.1 d hd
            exact ⟨by simp [this], fun h => hnd (h ▸ this)⟩
          · rw [ih (c.name :: names) (List.nodup_cons.2 ⟨hnd, hn⟩)]
            exact ⟨ss, h1, by simp, h3, fun x hx => h4 x (by simp [hx]), h5'.2⟩

theorem checkServices_ok (trusted : Bool) (cs : List (Option Container)) (names : List String)
    (hn : names.Nodup) :
    checkServices trusted names cs = .ok () ↔ ∃ ss : List Container, cs = ss.map some ∧
      ((ss.map (·.name)).reverse ++ names).Nodup ∧ (∀ c ∈ ss, ContainerOK trusted c) := by
  induction cs generalizing names with
  | nil =>
    simp only [checkServices, true_iff]
    exact ⟨[], rfl, hn, by simp⟩
  | cons c cs ih =>
    cases c with
    | none =>
      simp only [checkServices, reduceCtorEq, false_iff]
      rintro ⟨ss, h1, _⟩
      cases ss <;> simp at h1
    | some c =>
      unfold checkServices
      simp only [refuse_ok, bind_ok_unit, checkContainer_ok]
      constructor
      · rintro ⟨h1, h2, h4⟩
        obtain ⟨ss, rfl, h5, h6⟩ := (ih (c.name :: names) (List.nodup_cons.2 ⟨h1, hn⟩)).1 h4
        refine ⟨c :: ss, rfl, by simpa using h5, ?_⟩
        intro x hx
        rcases List.mem_cons.1 hx with rfl | hx
        · exact h2
        · exact h6 x hx
      · rintro ⟨ss, h1, h3, h4⟩
        cases ss with
        | nil => simp at h1
        | cons s ss =>
          simp only [List.map_cons, List.cons.injEq, Option.some.injEq] at h1
          obtain ⟨rfl, h1⟩ := h1
          simp only [List.map_cons, List.reverse_cons, List.append_assoc] at h3
          have hnd : c.name ∉ names := by
            intro hc
            exact (List.nodup_append.1 (List.nodup_append.1 h3).2.1).2.2 c.name (by simp) c.name hc rfl
          refine ⟨hnd, h4 c (by simp), ?_⟩
          rw [ih (c.name :: names) (List.nodup_cons.2 ⟨hnd, hn⟩)]
          exact ⟨ss, h1, by simpa using h3, fun x hx => h4 x (by simp [hx])⟩

/-! ### C12 -/

/-- C12: `Lint` accepts a pipeline exactly when it obeys the documented rules
(in particular no list entry is null). -/
theorem C12_lint_iff (p : Pipeline) (trusted : Bool) :
    lint (.pipeline p) trusted = .ok () ↔ ∃ steps services, PipelineOK trusted p steps services := by
  have hperm : ∀ (ns : List String) (ss sv : List Container),
      ((sv.map (·.name)).reverse ++ ((ss.map (·.name)).reverse ++ ns)).Nodup ↔
        (ns ++ (ss ++ sv).map (·.name)).Nodup := by
    intro ns ss sv
    apply List.Perm.nodup_iff
    rw [List.map_append]
    refine (List.Perm.append_right _ (List.reverse_perm _)).trans ?_
    refine List.perm_append_comm.trans ?_
    rw [← List.append_assoc]
    refine List.Perm.append_right _ ?_
    exact (List.Perm.append_right _ (List.reverse_perm _)).trans List.perm_append_comm
  have hnames : (if p.clone.disable = false then ["clone"] else []) = cloneNames p := by
    unfold cloneNames; cases p.clone.disable <;> rfl
  have hnodup : (cloneNames p).Nodup := by unfold cloneNames; split <;> simp
  show checkPipeline trusted p = .ok () ↔ _
  unfold checkPipeline
  simp only [bind_ok_unit, checkVolumes_ok, checkPlatform_ok, hnames]
  constructor
  · rintro ⟨h1, h2, h3⟩
    cases hs : checkSteps trusted (cloneNames p) p.steps with
    | error e => simp [hs, bind, Except.bind] at h3
    | ok out =>
      simp only [hs, bind, Except.bind] at h3
      obtain ⟨ss, a1, rfl, a3, a4, a5⟩ := (checkSteps_ok _ _ _ _ hnodup).1 hs
      obtain ⟨sv, b1, b2, b3⟩ := (checkServices_ok _ _ _ a3).1 h3
      refine ⟨ss, sv, a1, b1, h1, h2, ?_, (hperm _ _ _).1 b2, a5⟩
      intro c hc
      rcases List.mem_append.1 hc with hc | hc
      · exact a4 c hc
      · exact b3 c hc
  · rintro ⟨ss, sv, a1, b1, h1, h2, h3, h4, h5⟩
    refine ⟨h1, h2, ?_⟩
    have hnd := (hperm _ _ _).2 h4
    have hs := (checkSteps_ok trusted p.steps (cloneNames p) _ hnodup).2
      ⟨ss, a1, rfl, (List.nodup_append.1 hnd).2.1, fun c hc => h3 c (by simp [hc]), h5⟩
    rw [hs]
    exact (checkServices_ok _ _ _ (List.nodup_append.1 hnd).2.1).2
      ⟨sv, b1, hnd, fun c hc => h3 c (by simp [hc])⟩

/-- A pipeline that the linter accepts, for the examples below. -/
def exPipeline : Pipeline where
  kind := "pipeline"
  steps := [some { name := "build", image := "golang", commands := ["go build"] },
            some { name := "test", image := "golang", dependsOn := ["clone", "build"] }]
  services := [some { name := "redis", image := "redis", ports := [some { port := 6379 }] }]
  volumes := [some { name := "cache", emptyDir := some {} }]

example : lint (.pipeline exPipeline) false = .ok () := by decide

/-! ### C13 -/

/-- C13: in an accepted pipeline every step dependency is the clone step or an
earlier step, and no step reaches itself. -/
theorem C13_step_graph (p : Pipeline) (trusted : Bool)
    (h : lint (.pipeline p) trusted = .ok ()) :
    ∃ steps : List Container, p.steps = steps.map some ∧
      DepsEarlier (cloneNames p) (nodes steps) ∧ Acyclic (nodes steps) := by
  obtain ⟨ss, sv, hp⟩ := (C12_lint_iff p trusted).1 h
  refine ⟨ss, hp.steps_eq, hp.deps, acyclic_of_earlier ?_ ?_ hp.deps⟩
  · have := hp.unique
    rw [List.map_append] at this
    have := (List.nodup_append.1 (List.nodup_append.1 this).2.1).1
    simpa [nodes, List.map_map, Function.comp_def] using this
  · intro r hr hm
    have := (List.nodup_append.1 hp.unique).2.2 r hr r
    refine this ?_ rfl
    simp only [nodes, List.map_map, Function.comp_def] at hm
    simp only [List.map_append, List.mem_append]
    exact Or.inl hm

/-! ### C14 -/

/-- C14: names of accepted pipelines are distinct, not empty, and `clone` is not
used while cloning is on. -/
theorem C14_names (p : Pipeline) (trusted : Bool) (h : lint (.pipeline p) trusted = .ok ()) :
    ∃ cs : List Container, p.steps ++ p.services = cs.map some ∧
      (cs.map (·.name)).Nodup ∧ (∀ c ∈ cs, c.name ≠ "") ∧
      (p.clone.disable = false → ∀ c ∈ cs, c.name ≠ "clone") := by
  obtain ⟨ss, sv, hp⟩ := (C12_lint_iff p trusted).1 h
  refine ⟨ss ++ sv, by simp [hp.steps_eq, hp.services_eq], (List.nodup_append.1 hp.unique).2.1,
    fun c hc => (hp.containers c hc).name, ?_⟩
  intro hd c hc he
  have := hp.unique
  simp only [cloneNames, hd, Bool.false_eq_true, if_false] at this
  refine (List.nodup_append.1 this).2.2 "clone" (by simp) "clone" ?_ rfl
  rw [List.mem_map]
  exact ⟨c, hc, he⟩

/-! ### C15 -/

/-- The pipelines of a manifest, in order. -/
def Spec.pipelines (m : Manifest) : List Pipeline :=
  m.resources.filterMap (fun r => match r with | .pipeline p => some p | _ => none)

/-- The pipeline dependency graph of a manifest. -/
def Spec.pipelineNodes (ps : List Pipeline) : List Node := ps.map (fun p => (p.name, p.dependsOn))

/-- Pipelines whose platform the manifest linter checks. -/
def Spec.DockerPipeline (p : Pipeline) : Prop := p.kind ∈ ["pipeline", ""] ∧ p.type ∈ ["", "docker"]

theorem checkPipelineDeps_ok (name : String) (names ds : List String) :
    checkPipelineDeps name names ds = .ok () ↔ ∀ d ∈ ds, d ∈ names ∧ d ≠ name := by
  induction ds with
  | nil => simp [checkPipelineDeps]
  | cons d ds ih =>
    unfold checkPipelineDeps
    by_cases h1 : d ∈ names
    · by_cases h2 : name = d
      · simp [h1, h2]
      · have : d ≠ name := fun h => h2 h.symm
        simp [h1, h2, ih, this]
    · simp [h1]

theorem checkPipelines_ok (rs : List Resource) (names : List String) (hn : names.Nodup) :
    checkPipelines names rs = .ok () ↔
      (((pipelines ⟨rs⟩).map (·.name)).reverse ++ names).Nodup ∧
      DepsEarlier names (pipelineNodes (pipelines ⟨rs⟩)) ∧
      ∀ p ∈ pipelines ⟨rs⟩, DockerPipeline p → PlatformOK p.platform := by
  induction rs generalizing names with
  | nil => simp [checkPipelines, pipelines, pipelineNodes, depsEarlier_nil, hn]
  | cons r rs ih =>
    cases r with
    | pipeline v =>
      have hp : pipelines ⟨.pipeline v :: rs⟩ = v :: pipelines ⟨rs⟩ := rfl
      rw [hp]
      unfold checkPipelines
      simp only [refuse_ok, bind_ok_unit, checkPipelineDeps_ok]
      have hnodes : pipelineNodes (v :: pipelines ⟨rs⟩) = (v.name, v.dependsOn) :: pipelineNodes (pipelines ⟨rs⟩) := rfl
      rw [hnodes, depsEarlier_cons]
      have hplat : (whenSome (if (v.kind = "pipeline" ∨ v.kind = "") ∧ (v.type = "" ∨ v.type = "docker") then
          some v.platform else none) checkPlatform = .ok ()) ↔
          (DockerPipeline v → PlatformOK v.platform) := by
        unfold DockerPipeline
        simp only [List.mem_cons, List.not_mem_nil, or_false]
        split_ifs with h
        · simp only [whenSome, checkPlatform_ok]; tauto
        · simp only [whenSome, true_iff]; tauto
      rw [hplat]
      constructor
      · rintro ⟨h1, h2, h3, h4⟩
        obtain ⟨a1, a2, a3⟩ := (ih (v.name :: names) (List.nodup_cons.2 ⟨h1, hn⟩)).1 h4
        refine ⟨by simpa using a1, ⟨fun d hd => ?_, a2⟩, ?_⟩
        · have := h2 d hd
          rcases List.mem_cons.1 this.1 with h | h
          · exact absurd h this.2
          · exact h
        · intro p hp
          rcases List.mem_cons.1 hp with rfl | hp
          · exact h3
          · exact a3 p hp
      · rintro ⟨h1, ⟨h2, h3⟩, h4⟩
        simp only [List.map_cons, List.reverse_cons, List.append_assoc] at h1
        have hnd : v.name ∉ names := by
          intro hc
          exact (List.nodup_append.1 (List.nodup_append.1 h1).2.1).2.2 v.name (by simp) v.name hc rfl
        refine ⟨hnd, fun d hd => ⟨by simp [h2 d hd], fun h => hnd (h ▸ h2 d hd)⟩, h4 v (by simp), ?_⟩
        rw [ih (v.name :: names) (List.nodup_cons.2 ⟨hnd, hn⟩)]
        exact ⟨by simpa using h1, h3, fun p hp => h4 p (by simp [hp])⟩
    | cron c => exact ih names hn
    | secret c => exact ih names hn
    | signature c => exact ih names hn
    | registry c => exact ih names hn

/-- C15: what the manifest linter accepts, exactly. -/
theorem C15_manifest_iff (m : Manifest) (trusted : Bool) :
    lintManifest m trusted = .ok () ↔
      ((pipelines m).map (·.name)).Nodup ∧ DepsEarlier [] (pipelineNodes (pipelines m)) ∧
      ∀ p ∈ pipelines m, DockerPipeline p → PlatformOK p.platform := by
  unfold lintManifest
  rw [checkPipelines_ok _ _ List.nodup_nil]
  simp

/-- C15: an accepted manifest has an acyclic pipeline graph. -/
theorem C15_pipeline_graph (m : Manifest) (trusted : Bool) (h : lintManifest m trusted = .ok ()) :
    Acyclic (pipelineNodes (pipelines m)) := by
  obtain ⟨h1, h2, _⟩ := (C15_manifest_iff m trusted).1 h
  refine acyclic_of_earlier ?_ (by simp) h2
  simpa [pipelineNodes, List.map_map, Function.comp_def] using h1

example : lintManifest ⟨[.pipeline { name := "a", kind := "pipeline" },
    .secret {}, .pipeline { name := "b", kind := "pipeline", dependsOn := ["a"] }]⟩ false = .ok () := by
  decide

/-! ### C16 -/

/-- C16: trust only widens what is accepted. -/
theorem C16_trust_monotone (r : Resource) (h : lint r false = .ok ()) : lint r true = .ok () := by
  cases r with
  | pipeline p =>
    obtain ⟨ss, sv, hp⟩ := (C12_lint_iff p false).1 h
    refine (C12_lint_iff p true).2 ⟨ss, sv, hp.steps_eq, hp.services_eq, ?_, hp.platform, ?_, hp.unique, hp.deps⟩
    · intro v hv
      obtain ⟨w, hw, hok⟩ := hp.volumes v hv
      exact ⟨w, hw, hok.name, by simp⟩
    · intro c hc
      have := hp.containers c hc
      exact ⟨this.name, this.image, this.build, this.mounts, by simp⟩
  | cron c => exact h
  | secret c => exact h
  | signature c => exact h
  | registry c => exact h

/-- C16 is strict: something is accepted only when trusted. -/
example : ∃ r, lint r true = .ok () ∧ lint r false ≠ .ok () :=
  ⟨.pipeline { steps := [some { name := "a", image := "b", privileged := true }] }, by decide, by decide⟩

/-! ### C17 -/

/-- C17: the other resources are judged by their content alone. -/
theorem C17_other_resources (trusted : Bool) :
    (∀ c : Cron, lint (.cron c) trusted = .ok () ↔ c.branch ≠ "") ∧
    (∀ s : Secret, lint (.secret s) trusted = .ok () ↔ (s.data ≠ "" ∨ s.get.path ≠ "" ∨ s.get.name ≠ "")) ∧
    (∀ r : Registry, lint (.registry r) trusted = .ok () ↔ r.data ≠ []) ∧
    (∀ s : Signature, lint (.signature s) trusted = .ok () ↔ s.hmac ≠ "") := by
  refine ⟨fun c => ?_, fun s => ?_, fun r => ?_, fun s => ?_⟩
  · simp [lint, Cron.validate]
  · simp only [lint, Secret.validate]
    split_ifs with h
    · simp [h]
    · simp only [true_iff]
      by_contra hc
      simp only [not_or, not_not] at hc
      exact h hc
  · simp [lint, Registry.validate]
  · simp [lint, Signature.validate]

/-- C17: they never panic. -/
theorem C17_no_panic (r : Resource) (trusted : Bool) (h : ∀ p, r ≠ .pipeline p) :
    lint r trusted ≠ .error .panic := by
  cases r with
  | pipeline p => exact absurd rfl (h p)
  | cron c => simp only [lint, Cron.validate]; split_ifs <;> simp
  | secret c => simp only [lint, Secret.validate]; split_ifs <;> simp
  | signature c => simp only [lint, Signature.validate]; split_ifs <;> simp
  | registry c => simp only [lint, Registry.validate]; split_ifs <;> simp

end Drone
