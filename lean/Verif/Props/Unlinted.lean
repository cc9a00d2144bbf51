/-
C134: what the linter does not look at, and what it does.
-/
import Verif.Props.Unseen
import Verif.Props.Lint
import Verif.Props.Cli

namespace Drone
open Spec

namespace Spec.Unlinted
open Spec.Unseen (Pointwise)

/-- Two lists that a check tells apart at most by their length being zero -/
def SameEmpty {α β : Type} (l : List α) (m : List β) : Prop := l = [] ↔ m = []

/-- Two containers that agree in what the linter looks at: names, whether there is an image, the names
of the mounted volumes, and, unless the repository is trusted, what only trusted ones may use -/
structure SameContainer (trusted : Bool) (a b : Container) : Prop where
  name : a.name = b.name
  noImage : (a.build = none ∧ a.image = "") ↔ (b.build = none ∧ b.image = "")
  noBuildImage : (∃ x, a.build = some x ∧ x.image = "") ↔ (∃ x, b.build = some x ∧ x.image = "")
  mounts : a.volumes.map (·.map fun m => m.name) = b.volumes.map (·.map fun m => m.name)
  ports : trusted = false → a.ports.map (·.map fun p => decide (p.host = 0)) = b.ports.map (·.map fun p => decide (p.host = 0))
  privileged : trusted = false → a.privileged = b.privileged
  devices : trusted = false → SameEmpty a.devices b.devices
  dns : trusted = false → SameEmpty a.dns b.dns
  dnsSearch : trusted = false → SameEmpty a.dnsSearch b.dnsSearch
  extraHosts : trusted = false → SameEmpty a.extraHosts b.extraHosts
  network : trusted = false → (a.network = "" ↔ b.network = "")

/-- Of a step the linter also looks at the dependencies. -/
def SameStep (trusted : Bool) (a b : Container) : Prop := SameContainer trusted a b ∧ a.dependsOn = b.dependsOn

/-- Two volumes that agree in what the linter looks at -/
structure SameVolume (trusted : Bool) (a b : Volume) : Prop where
  name : a.name = b.name
  host : trusted = false → a.hostPath.isSome = b.hostPath.isSome
  memory : trusted = false → ((∃ d, a.emptyDir = some d ∧ d.medium = "memory") ↔ (∃ d, b.emptyDir = some d ∧ d.medium = "memory"))

/-- Two pipelines that agree in what the linter looks at -/
structure SamePipeline (trusted : Bool) (p q : Pipeline) : Prop where
  disable : p.clone.disable = q.clone.disable
  os : p.platform.os = q.platform.os
  arch : p.platform.arch = q.platform.arch
  volumes : Pointwise (SameVolume trusted) p.volumes q.volumes
  steps : Pointwise (SameStep trusted) p.steps q.steps
  services : Pointwise (SameContainer trusted) p.services q.services

end Spec.Unlinted

open Spec.Unseen (Pointwise)
open Spec.Unlinted (SameEmpty SameContainer)

theorem refuse_iff {P Q : Prop} [Decidable P] [Decidable Q] (h : P ↔ Q) (e : String) : refuse P e = refuse Q e := by
  unfold refuse
  by_cases hp : P
  · rw [if_pos hp, if_pos (h.1 hp)]
  · rw [if_neg hp, if_neg fun hq => hp (h.2 hq)]

theorem checkPorts_agree {trusted : Bool} : ∀ {l m : List (Option Port)},
    (trusted = false → l.map (·.map fun p => decide (p.host = 0)) = m.map (·.map fun p => decide (p.host = 0))) →
    checkPorts trusted l = checkPorts trusted m := by
  cases trusted with
  | true =>
    have : ∀ l : List (Option Port), checkPorts true l = .ok () := by
      intro l
      induction l with
      | nil => rfl
      | cons a l ih => rw [checkPorts]; simp [checkPort, ih, bind, Except.bind]
    intro l m _
    rw [this, this]
  | false =>
    intro l
    induction l with
    | nil =>
      intro m h
      cases m with
      | nil => rfl
      | cons b m => simp at h
    | cons a l ih =>
      intro m h
      cases m with
      | nil => simp at h
      | cons b m =>
        have h := h rfl
        simp only [List.map_cons, List.cons.injEq] at h
        rw [checkPorts, checkPorts, ih fun _ => h.2]
        have : checkPort false a = checkPort false b := by
          cases a with
          | none => cases b with
            | none => rfl
            | some b => simp at h
          | some a => cases b with
            | none => simp at h
            | some b =>
              have h1 : (a.host = 0) ↔ (b.host = 0) := by simpa using h.1
              simp only [checkPort, Bool.false_eq_true, if_false, ne_eq]
              by_cases e : a.host = 0
              · rw [if_neg (not_not.2 e), if_neg (not_not.2 (h1.1 e))]
              · rw [if_pos e, if_pos fun e' => e (h1.2 e')]
        rw [this]

theorem checkMounts_agree : ∀ {l m : List (Option VolumeMount)},
    l.map (·.map fun v => v.name) = m.map (·.map fun v => v.name) → checkMounts l = checkMounts m := by
  intro l
  induction l with
  | nil =>
    intro m h
    cases m with
    | nil => rfl
    | cons b m => simp at h
  | cons a l ih =>
    intro m h
    cases m with
    | nil => simp at h
    | cons b m =>
      simp only [List.map_cons, List.cons.injEq] at h
      cases a with
      | none => cases b with
        | none => rfl
        | some b => simp at h
      | some a => cases b with
        | none => simp at h
        | some b =>
          have h1 : a.name = b.name := by simpa using h.1
          rw [checkMounts, checkMounts, h1, ih h.2]

theorem length_pos_same {trusted : Bool} {α : Type} {l m : List α} (h : trusted = false → SameEmpty l m) :
    (trusted = false ∧ l.length > 0) ↔ (trusted = false ∧ m.length > 0) := by
  refine and_congr_right fun ht => ?_
  have := h ht
  unfold SameEmpty at this
  rw [gt_iff_lt, gt_iff_lt, List.length_pos_iff, List.length_pos_iff, ne_eq, ne_eq, this]

theorem checkContainer_agree {trusted : Bool} {a b : Container} (h : SameContainer trusted a b) :
    checkContainer trusted a = checkContainer trusted b := by
  have hb : (a.build.map (fun b => b.image) = some "") ↔ (b.build.map (fun b => b.image) = some "") := by
    rw [Option.map_eq_some_iff, Option.map_eq_some_iff]
    exact h.noBuildImage
  have hp : (trusted = false ∧ a.privileged = true) ↔ (trusted = false ∧ b.privileged = true) :=
    and_congr_right fun ht => by rw [h.privileged ht]
  have hn : (trusted = false ∧ a.network ≠ "") ↔ (trusted = false ∧ b.network ≠ "") :=
    and_congr_right fun ht => not_congr (h.network ht)
  unfold checkContainer
  rw [checkPorts_agree h.ports, refuse_iff h.noImage, refuse_iff hb, h.name, refuse_iff hp,
    refuse_iff (length_pos_same h.devices), refuse_iff (length_pos_same h.dns), refuse_iff (length_pos_same h.dnsSearch),
    refuse_iff (length_pos_same h.extraHosts), refuse_iff hn, checkMounts_agree h.mounts]

theorem checkSteps_agree {trusted : Bool} {l m : List (Option Container)} (h : Pointwise (Spec.Unlinted.SameStep trusted) l m) :
    ∀ names, checkSteps trusted names l = checkSteps trusted names m := by
  induction h with
  | nil => exact fun _ => rfl
  | cons h _ ih =>
    intro names
    cases h with
    | none => rfl
    | some h =>
      rw [checkSteps, checkSteps, h.1.name, checkContainer_agree h.1, h.2]
      simp only [ih]

theorem checkServices_agree {trusted : Bool} {l m : List (Option Container)} (h : Pointwise (SameContainer trusted) l m) :
    ∀ names, checkServices trusted names l = checkServices trusted names m := by
  induction h with
  | nil => exact fun _ => rfl
  | cons h _ ih =>
    intro names
    cases h with
    | none => rfl
    | some h =>
      rw [checkServices, checkServices, h.name, checkContainer_agree h]
      simp only [ih]

theorem checkVolumes_agree {trusted : Bool} {l m : List (Option Volume)} (h : Pointwise (Spec.Unlinted.SameVolume trusted) l m) :
    checkVolumes trusted l = checkVolumes trusted m := by
  induction h with
  | nil => rfl
  | cons h _ ih =>
    cases h with
    | none => rfl
    | @some a b h =>
      rw [checkVolumes, checkVolumes, h.name, ih]
      have e1 : whenSome a.emptyDir (fun d => checkEmptyDirVolume trusted d) = whenSome b.emptyDir (fun d => checkEmptyDirVolume trusted d) := by
        have key : ∀ o : Option VolumeEmptyDir, whenSome o (fun d => checkEmptyDirVolume trusted d) =
            refuse (trusted = false ∧ ∃ d ∈ o, d.medium = "memory") "linter: untrusted repositories cannot mount in-memory volumes" := by
          intro o
          cases o with
          | none => simp [whenSome, refuse]
          | some d => simp [whenSome, refuse, checkEmptyDirVolume]
        rw [key, key]
        exact refuse_iff (and_congr_right fun ht => h.memory ht) _
      have e2 : whenSome a.hostPath (fun _ => checkHostPathVolume trusted) = whenSome b.hostPath (fun _ => checkHostPathVolume trusted) := by
        cases trusted with
        | true => cases a.hostPath <;> cases b.hostPath <;> rfl
        | false =>
          have := h.host rfl
          cases ha : a.hostPath <;> cases hb : b.hostPath <;> simp [ha, hb] at this <;> rfl
      rw [e1, e2]

/-- C134: two pipelines that agree in what the linter looks at get the same answer, down to the message. -/
theorem C134_same {trusted : Bool} {p q : Pipeline} (h : Spec.Unlinted.SamePipeline trusted p q) :
    lint (.pipeline p) trusted = lint (.pipeline q) trusted := by
  show checkPipeline trusted p = checkPipeline trusted q
  unfold checkPipeline
  have hpl : checkPlatform p.platform = checkPlatform q.platform := by
    unfold checkPlatform
    rw [h.os, h.arch]
  rw [checkVolumes_agree h.volumes, hpl, h.disable]
  simp only [checkSteps_agree h.steps, checkServices_agree h.services]

/-! ### Whole keys without effect -/

namespace Spec.Unlinted

/-- A container without the keys the linter does not look at -/
def bareContainer (c : Container) : Container :=
  { c with
    command := []
    commands := []
    detach := false
    entrypoint := []
    environment := []
    failure := ""
    pull := ""
    push := none
    resources := none
    settings := []
    shell := ""
    user := ""
    cond := {}
    workingDir := ""
    build := c.build.map fun b => { image := b.image } }

/-- A pipeline without the keys the linter does not look at -/
def bare (p : Pipeline) : Pipeline where
  clone := { disable := p.clone.disable }
  platform := { os := p.platform.os, arch := p.platform.arch }
  services := p.services.map (·.map bareContainer)
  steps := p.steps.map (·.map bareContainer)
  volumes := p.volumes

/-- A container without the keys that neither the linter nor the compiler looks at -/
def inertContainer (c : Container) : Container :=
  { c with shell := "", push := none, build := c.build.map fun b => { b with args := [], labels := [] } }

/-- A pipeline without the keys that neither the lint nor the compile command looks at -/
def inert (p : Pipeline) : Pipeline :=
  { p with
    version := ""
    concurrency := {}
    dependsOn := []
    node := []
    pullSecrets := []
    trigger := {}
    services := p.services.map (·.map inertContainer)
    steps := p.steps.map (·.map inertContainer) }

/-- The pipelines of a manifest changed, other resources as they are -/
def eachPipeline (f : Pipeline → Pipeline) (m : Manifest) : Manifest :=
  ⟨m.resources.map fun | .pipeline p => .pipeline (f p) | r => r⟩

end Spec.Unlinted

theorem sameContainer_of {trusted : Bool} {f : Container → Container} {a : Container}
    (h1 : (f a).name = a.name) (h2 : (f a).image = a.image) (h3 : (f a).build.map (·.image) = a.build.map (·.image))
    (h4 : (f a).volumes = a.volumes) (h5 : (f a).ports = a.ports) (h6 : (f a).privileged = a.privileged)
    (h7 : (f a).devices = a.devices) (h8 : (f a).dns = a.dns) (h9 : (f a).dnsSearch = a.dnsSearch)
    (h10 : (f a).extraHosts = a.extraHosts) (h11 : (f a).network = a.network) : SameContainer trusted (f a) a where
  name := h1
  noImage := by
    rw [h2]
    refine and_congr_left fun _ => ?_
    cases hb : a.build <;> simp [hb] at h3 ⊢
    · exact h3
    · intro e; simp [e] at h3
  noBuildImage := by
    have : ∀ o : Option Build, (∃ x, o = some x ∧ x.image = "") ↔ o.map (·.image) = some "" := by
      intro o; cases o <;> simp
    rw [this, this, h3]
  mounts := by rw [h4]
  ports _ := by rw [h5]
  privileged _ := h6
  devices _ := by rw [h7]; exact Iff.rfl
  dns _ := by rw [h8]; exact Iff.rfl
  dnsSearch _ := by rw [h9]; exact Iff.rfl
  extraHosts _ := by rw [h10]; exact Iff.rfl
  network _ := by rw [h11]

theorem sameVolume_refl {trusted : Bool} (v : Volume) : Spec.Unlinted.SameVolume trusted v v :=
  ⟨rfl, fun _ => rfl, fun _ => Iff.rfl⟩

theorem bareContainer_same (trusted : Bool) (a : Container) : SameContainer trusted (Spec.Unlinted.bareContainer a) a := by
  refine sameContainer_of rfl rfl ?_ rfl rfl rfl rfl rfl rfl rfl rfl
  show (a.build.map _).map _ = _
  rw [Option.map_map]; rfl

theorem inertContainer_same (trusted : Bool) (a : Container) : SameContainer trusted (Spec.Unlinted.inertContainer a) a := by
  refine sameContainer_of rfl rfl ?_ rfl rfl rfl rfl rfl rfl rfl rfl
  show (a.build.map _).map _ = _
  rw [Option.map_map]; rfl

/-- C134: what a container runs and with what, when, and how it counts, where a pipeline is run and after
which others has no effect on the verdict of the linter. -/
theorem C134_bare (p : Pipeline) (trusted : Bool) : lint (.pipeline (Spec.Unlinted.bare p)) trusted = lint (.pipeline p) trusted :=
  C134_same
    { disable := rfl
      os := rfl
      arch := rfl
      volumes := pointwise_refl sameVolume_refl _
      steps := pointwise_map (fun a => ⟨bareContainer_same trusted a, rfl⟩) _
      services := pointwise_map (fun a => bareContainer_same trusted a) _ }

theorem inert_lint (p : Pipeline) (trusted : Bool) : lint (.pipeline (Spec.Unlinted.inert p)) trusted = lint (.pipeline p) trusted :=
  C134_same
    { disable := rfl
      os := rfl
      arch := rfl
      volumes := pointwise_refl sameVolume_refl _
      steps := pointwise_map (fun a => ⟨inertContainer_same trusted a, rfl⟩) _
      services := pointwise_map (fun a => inertContainer_same trusted a) _ }

theorem map_map_bare (l : List (Option Container)) :
    (l.map (·.map Spec.Unlinted.inertContainer)).map (·.map Spec.Unseen.bareContainer) = l.map (·.map Spec.Unseen.bareContainer) := by
  rw [List.map_map]
  congr 1
  funext o
  cases o with
  | none => rfl
  | some c =>
    simp only [Function.comp_apply, Option.map_some, Option.some.injEq, Spec.Unseen.bareContainer, Spec.Unlinted.inertContainer, Option.map_map]
    rfl

theorem bare_inert (p : Pipeline) : Spec.Unseen.bare (Spec.Unlinted.inert p) = Spec.Unseen.bare p := by
  unfold Spec.Unseen.bare
  simp only [Spec.Unlinted.inert, map_map_bare]

theorem inert_compile (X : Cli.CliLib) (fl : Cli.CompileFlags) (p : Pipeline) :
    Cli.compileWith X fl (Spec.Unlinted.inert p) = Cli.compileWith X fl p := by
  rw [← C129_command X fl (Spec.Unlinted.inert p), bare_inert, C129_command]

theorem inert_disableClone (b : Bool) (p : Pipeline) :
    Cli.disableClone b (Spec.Unlinted.inert p) = Spec.Unlinted.inert (Cli.disableClone b p) := by
  unfold Cli.disableClone
  split <;> rfl

theorem findPipeline_each (name : String) (l : List Resource) :
    Cli.findPipeline name (Spec.Unlinted.eachPipeline Spec.Unlinted.inert ⟨l⟩).resources =
      (Cli.findPipeline name l).map Spec.Unlinted.inert := by
  induction l with
  | nil => rfl
  | cons r l ih =>
    unfold Spec.Unlinted.eachPipeline at ih ⊢
    cases r with
    | pipeline p =>
      simp only [List.map_cons, Cli.findPipeline]
      rw [show (Spec.Unlinted.inert p).name = p.name from rfl]
      split
      · rfl
      · exact ih
    | _ => simpa only [List.map_cons, Cli.findPipeline] using ih

/-- C134: neither the lint nor the compile command looks at `trigger`, `depends_on`, `node`, `concurrency`,
`image_pull_secrets` and `version` of a pipeline, `shell` and `push` of a container and `args` and `labels` of a
build section: with and without them they do the same, for all flags. -/
theorem C134_inert (X : Cli.CliLib) (fl : Cli.CompileFlags) (trusted : Bool) (m : Manifest) :
    Cli.lintLoop trusted (Spec.Unlinted.eachPipeline Spec.Unlinted.inert m).resources = Cli.lintLoop trusted m.resources ∧
    Cli.compileManifest X fl (Spec.Unlinted.eachPipeline Spec.Unlinted.inert m) = Cli.compileManifest X fl m := by
  constructor
  · obtain ⟨l⟩ := m
    induction l with
    | nil => rfl
    | cons r l ih =>
      unfold Spec.Unlinted.eachPipeline at ih ⊢
      simp only [List.map_cons, Cli.lintLoop]
      dsimp only at ih
      rw [ih]
      cases r with
      | pipeline p => rw [inert_lint]
      | _ => rfl
  · unfold Cli.compileManifest
    rw [findPipeline_each]
    cases Cli.findPipeline fl.name m.resources with
    | none => rfl
    | some p =>
      simp only [Option.map_some]
      rw [inert_disableClone, inert_compile]

/-- What the checks across resources look at -/
def Spec.Unlinted.outline (m : Manifest) : List (String × List String × String × String × String × String) :=
  m.resources.filterMap fun
    | .pipeline p => some (p.name, p.dependsOn, p.kind, p.type, p.platform.os, p.platform.arch)
    | _ => none

theorem checkPipelines_cons {names : List String} {l : List Resource} {x : String × List String × String × String × String × String}
    {xs : List (String × List String × String × String × String × String)} (h : Spec.Unlinted.outline ⟨l⟩ = x :: xs) :
    ∃ l', Spec.Unlinted.outline ⟨l'⟩ = xs ∧ checkPipelines names l = (do
      refuse (x.1 ∈ names) errDuplicatePipelineName
      checkPipelineDeps x.1 (x.1 :: names) x.2.1
      whenSome (if (x.2.2.1 = "pipeline" ∨ x.2.2.1 = "") ∧ (x.2.2.2.1 = "" ∨ x.2.2.2.1 = "docker") then
        some { os := x.2.2.2.2.1, arch := x.2.2.2.2.2 } else none) checkPlatform
      checkPipelines (x.1 :: names) l') := by
  induction l with
  | nil => simp [Spec.Unlinted.outline] at h
  | cons r l ih =>
    cases r with
    | pipeline p =>
      simp only [Spec.Unlinted.outline, List.filterMap_cons, List.cons.injEq] at h
      obtain ⟨rfl, h⟩ := h
      refine ⟨l, h, ?_⟩
      rw [checkPipelines]
      simp only
      split <;> rfl
    | _ =>
      simp only [Spec.Unlinted.outline, List.filterMap_cons] at h
      obtain ⟨l', h1, h2⟩ := ih h
      exact ⟨l', h1, by rw [checkPipelines]; exact h2; simp⟩

theorem checkPipelines_nil {names : List String} {l : List Resource} (h : Spec.Unlinted.outline ⟨l⟩ = []) :
    checkPipelines names l = .ok () := by
  induction l with
  | nil => rfl
  | cons r l ih =>
    cases r with
    | pipeline p => simp [Spec.Unlinted.outline] at h
    | _ =>
      simp only [Spec.Unlinted.outline, List.filterMap_cons] at h
      rw [checkPipelines]
      · exact ih h
      · simp

/-- C134: the checks across resources look only at the names of the pipelines, the pipelines they depend on,
their kinds and types and two keys of their platforms; not at other resources, nor at whether the
repository is trusted. -/
theorem C134_manifest {m m' : Manifest} (h : Spec.Unlinted.outline m = Spec.Unlinted.outline m') (t t' : Bool) :
    lintManifest m t = lintManifest m' t' := by
  have key : ∀ (xs : List (String × List String × String × String × String × String)) (names : List String) (l l' : List Resource), Spec.Unlinted.outline ⟨l⟩ = xs → Spec.Unlinted.outline ⟨l'⟩ = xs →
      checkPipelines names l = checkPipelines names l' := by
    intro xs
    induction xs with
    | nil => intro names l l' h1 h2; rw [checkPipelines_nil h1, checkPipelines_nil h2]
    | cons x xs ih =>
      intro names l l' h1 h2
      obtain ⟨a, ha, ea⟩ := checkPipelines_cons (names := names) h1
      obtain ⟨b, hb, eb⟩ := checkPipelines_cons (names := names) h2
      rw [ea, eb, ih _ a b ha hb]
  exact key _ [] _ _ h rfl

/-- Two manifests with the same outline and different answers of the lint command. -/
example : Spec.Unlinted.outline ⟨[.secret {}, .pipeline { name := "a", steps := [none] }]⟩ =
    Spec.Unlinted.outline ⟨[.pipeline { name := "a", version := "1" }]⟩ := rfl

/-! ### What does count -/

/-- A pipeline the linter accepts -/
def exJudged : Pipeline :=
  { kind := "pipeline"
    name := "default"
    steps := [some { name := "test", image := "go", commands := ["make"] }, some { name := "ship", image := "plugins/s3", dependsOn := ["test"] }]
    services := [some { name := "db", image := "redis" }]
    volumes := [some { name := "cache", emptyDir := some {} }] }

/-- The first step changed -/
def exJudged.first (f : Container → Container) : Pipeline :=
  { exJudged with steps := exJudged.steps.modifyHead (·.map f) }

/-- C134: everything else counts: each of the first changes makes the linter refuse the pipeline, and each
of the others does for untrusted repositories. -/
theorem C134_counts : lint (.pipeline exJudged) false = .ok () ∧
    (∀ q ∈ [exJudged.first fun c => { c with name := "db" }, exJudged.first fun c => { c with image := "" },
        exJudged.first fun c => { c with build := some {} }, exJudged.first fun c => { c with dependsOn := ["ship"] },
        exJudged.first fun c => { c with volumes := [some { name := "workspace", mountPath := "/w" }] },
        { exJudged with platform := { os := "plan9" } }, { exJudged with platform := { arch := "mips" } },
        { exJudged with volumes := [some { name := "_workspace" }] }],
      lint (.pipeline q) true ≠ .ok ()) ∧
    (∀ q ∈ [exJudged.first fun c => { c with privileged := true }, exJudged.first fun c => { c with dns := ["1.1.1.1"] },
        exJudged.first fun c => { c with dnsSearch := ["a"] }, exJudged.first fun c => { c with extraHosts := ["a:b"] },
        exJudged.first fun c => { c with network := "host" }, exJudged.first fun c => { c with devices := [none] },
        exJudged.first fun c => { c with ports := [some { port := 80, host := 80 }] },
        { exJudged with volumes := [some { name := "cache", hostPath := some {} }] },
        { exJudged with volumes := [some { name := "cache", emptyDir := some { medium := "memory" } }] }],
      lint (.pipeline q) true = .ok () ∧ lint (.pipeline q) false ≠ .ok ()) := by
  refine ⟨by decide, ?_, ?_⟩
  · intro q hq
    simp only [List.mem_cons, List.not_mem_nil, or_false] at hq
    rcases hq with rfl | rfl | rfl | rfl | rfl | rfl | rfl | rfl <;> decide
  · intro q hq
    simp only [List.mem_cons, List.not_mem_nil, or_false] at hq
    rcases hq with rfl | rfl | rfl | rfl | rfl | rfl | rfl | rfl | rfl <;> decide

/-- Of the platform only two keys count, of a port only whether it has a host port, of the medium only whether it
is memory, and of hosts and nameservers only whether there are any. -/
example : Spec.Unlinted.SamePipeline false { exJudged with platform := { os := "linux", variant := "v7" }, services := [some { name := "db", image := "redis", ports := [some { port := 1 }] }] }
    { exJudged with platform := { os := "linux", version := "1" }, name := "x", services := [some { name := "db", image := "mysql", ports := [some { port := 2 }] }] } where
  disable := rfl
  os := rfl
  arch := rfl
  volumes := pointwise_refl sameVolume_refl _
  steps := pointwise_refl (fun a => ⟨sameContainer_of (f := id) rfl rfl rfl rfl rfl rfl rfl rfl rfl rfl rfl, rfl⟩) _
  services := .cons (.some ⟨rfl, by simp, by simp, rfl, fun _ => rfl, fun _ => rfl, fun _ => Iff.rfl, fun _ => Iff.rfl, fun _ => Iff.rfl,
    fun _ => Iff.rfl, fun _ => Iff.rfl⟩) .nil

/-- `inert` leaves something out, and something is left to compile. -/
example : (Spec.Unlinted.inert exUnseen).node ≠ exUnseen.node ∧
    (Spec.Unlinted.inert exUnseen).steps.length = 2 ∧ lint (.pipeline (Spec.Unlinted.inert exUnseen)) true = .ok () := by
  refine ⟨by decide, by decide, by decide⟩

end Drone
