/-
C120: a container compiles by itself.  Two pipelines with the same clone section, workspace and
platform turn the same container into the same step, whatever else they hold: only the identifiers,
the image if the pipeline builds it, and the dependency on the clone step can differ.
-/
import Verif.Props.Files
import Verif.Props.Rename

namespace Drone
open Engine (Step File)
open Spec (Role sources IsBuild)

/-- Two pipelines that agree in everything that holds for all containers at once. -/
structure Spec.SameFrame (p q : Pipeline) : Prop where
  clone : q.clone = p.clone
  workspace : q.workspace = p.workspace
  platform : q.platform = p.platform

/-- Some step of the pipeline names a step it depends on. -/
def Spec.Parallel (p : Pipeline) : Prop := ∃ s ∈ p.steps.filterMap id, s.dependsOn ≠ []

/-- Steps that differ at most in their identifier, namespace, image, dependencies and variables. -/
def Spec.SameShape (s t : Step) : Prop :=
  t = { s with
    md := { s.md with uid := t.md.uid, namespc := t.md.namespc }
    docker := { s.docker with image := t.docker.image }
    dependsOn := t.dependsOn
    envs := t.envs }

/-- The image of a container before the images that the pipeline builds are put in. -/
def Spec.ownImage (E : Ext) (y : Role × Container) : String :=
  if IsBuild y then "drone/docker" else Img.expand E.dg y.2.image

theorem sameShape_of {s t : Step} (h1 : t.md.name = s.md.name) (h2 : t.md.labels = s.md.labels)
    (h3 : t.detach = s.detach) (h4 : t.docker = { s.docker with image := t.docker.image }) (h5 : t.files = s.files)
    (h6 : t.ignoreErr = s.ignoreErr) (h7 : t.resources = s.resources) (h8 : t.runPolicy = s.runPolicy)
    (h9 : t.secrets = s.secrets) (h10 : t.volumes = s.volumes) (h11 : t.workingDir = s.workingDir) :
    Spec.SameShape s t := by
  obtain ⟨⟨⟩⟩ := s
  obtain ⟨⟨⟩⟩ := t
  simp only [Spec.SameShape] at *
  subst h1 h2 h3 h5 h6 h7 h8 h9 h10 h11
  rw [← h4]

theorem buildEnvs_uid {E : Ext} {u u' : String} {b : Build} {k : String} (hk : k ≠ "DOCKER_BUILD_IMAGE_ALIAS") :
    (buildEnvs E u b).get? k = (buildEnvs E u' b).get? k := by
  unfold buildEnvs
  by_cases h : b.image = ""
  · simp only [h, ne_eq, not_true_eq_false, if_false]
  · simp only [h, ne_eq, not_false_eq_true, if_true, GoMap.get?_set, hk, if_false]

theorem serialOf_eq_false {p : Pipeline} : serialOf p = false ↔ Spec.Parallel p := by
  simp [serialOf, Spec.Parallel]

theorem createWorkspace_frame {p q : Pipeline} (h : Spec.SameFrame p q) : createWorkspace q = createWorkspace p := by
  simp only [createWorkspace, h.workspace, h.platform]

/-- What the compiled form of a container takes from elsewhere. -/
theorem compiledFrom_frame {E : Ext} {c : Compiler} (hc : c.Std) {rnd rnd' : Nat → String} {p q : Pipeline}
    (hf : Spec.SameFrame p q) {rn rn' : GoMap String} {y : Role × Container} {s t : Step}
    (hs : CompiledFrom (ctxOf E c rnd p) rnd rn y s) (ht : CompiledFrom (ctxOf E c rnd' q) rnd' rn' y t) :
    Spec.SameShape s t ∧ (∀ k, (IsBuild y → k ≠ "DOCKER_BUILD_IMAGE_ALIAS") → t.envs.get? k = s.envs.get? k) ∧
    (t.dependsOn = s.dependsOn ↔
      (y.1 = .service ∨ y.1 = .step ∧ y.2.dependsOn = []) → p.clone.disable = false →
        (Spec.Parallel p ↔ Spec.Parallel q)) := by
  obtain ⟨k, r, i, hr, rfl⟩ := hs
  obtain ⟨k', r', i', hr', rfl⟩ := ht
  have c1 := rawStep_common (x := ctxOf E c rnd p) hc hr
  have c2 := rawStep_common (x := ctxOf E c rnd' q) hc hr'
  have hw := createWorkspace_frame hf
  have hdep : r'.dependsOn = r.dependsOn ↔
      ((y.1 = .service ∨ y.1 = .step ∧ y.2.dependsOn = []) → p.clone.disable = false →
        (Spec.Parallel p ↔ Spec.Parallel q)) := by
    have e1 := c1.dependsOn
    have e2 := c2.dependsOn
    simp only [ctxOf, hf.clone] at e1 e2
    rw [e1, e2, List.append_cancel_left_eq, ← serialOf_eq_false, ← serialOf_eq_false]
    by_cases h1 : y.1 = .service ∨ y.1 = .step ∧ y.2.dependsOn = []
    · by_cases h2 : p.clone.disable = false
      · by_cases h3 : serialOf p = false <;> by_cases h4 : serialOf q = false <;>
          simp only [h1, h2, h3, h4, true_and, and_true, false_and, and_false, if_true, if_false,
            true_implies, iff_self] <;> simp
      · simp [h2]
    · simp [h1]
  have hcl : withClone q = withClone p := by
    funext e
    simp only [withClone, setupCloneDepth, hf.clone]
  by_cases hb : IsBuild y
  · obtain ⟨role, src⟩ := y
    obtain ⟨h1, h2⟩ := hb
    simp only at h1 h2
    subst h1
    obtain ⟨b, hbb⟩ := Option.isSome_iff_exists.1 h2
    have b1 := rawStep_build (x := ctxOf E c rnd p) hc hbb hr
    have b2 := rawStep_build (x := ctxOf E c rnd' q) hc hbb hr'
    refine ⟨?_, ?_, hdep⟩
    · refine sameShape_of (by show r'.md.name = r.md.name; rw [c1.md, c2.md])
        (by show r'.md.labels = r.md.labels; rw [c1.md, c2.md]) (c2.detach.trans c1.detach.symm) ?_
        (b2.files.trans b1.files.symm) (c2.ignoreErr.trans c1.ignoreErr.symm) (c2.resources.trans c1.resources.symm)
        (c2.runPolicy.trans c1.runPolicy.symm) (b2.secrets.trans b1.secrets.symm) ?_ ?_
      · simp only [setImage, b1.docker, b2.docker, ctxOf]
      · show r'.volumes = r.volumes
        rw [b1.volumes, b2.volumes]
        simp only [ctxOf, hw]
      · show r'.workingDir = r.workingDir
        rw [b1.workingDir, b2.workingDir]
        simp only [ctxOf, hw]
    · intro key hkey
      have hk := hkey ⟨rfl, h2⟩
      show r'.envs.get? key = r.envs.get? key
      rw [b1.envs, b2.envs]
      simp only [ctxOf, hw, withWorkspace_get, buildEnvs_uid (u := rnd' k') (u' := rnd k) hk]
  · have b1 := rawStep_plain (x := ctxOf E c rnd p) hc hb hr
    have b2 := rawStep_plain (x := ctxOf E c rnd' q) hc hb hr'
    refine ⟨?_, ?_, hdep⟩
    · obtain ⟨ms, hm, hv⟩ := b1.volumes
      obtain ⟨ms', hm', hv'⟩ := b2.volumes
      obtain rfl : ms = ms' := Option.some.inj (hm.symm.trans hm')
      have hports : r'.docker.ports = r.docker.ports := Option.some.inj (b2.ports.symm.trans b1.ports)
      have hcmd := b2.command
      simp only [ctxOf, hf.platform] at hcmd
      obtain ⟨hcmd, hargs⟩ := Prod.mk.inj (hcmd.trans b1.command.symm)
      refine sameShape_of (by show r'.md.name = r.md.name; rw [c1.md, c2.md])
        (by show r'.md.labels = r.md.labels; rw [c1.md, c2.md]) (c2.detach.trans c1.detach.symm) ?_
        ?_ (c2.ignoreErr.trans c1.ignoreErr.symm) (c2.resources.trans c1.resources.symm)
        (c2.runPolicy.trans c1.runPolicy.symm) (b2.secrets.trans b1.secrets.symm) ?_ ?_
      · have e3 := b2.dns.trans b1.dns.symm
        have e4 := b2.dnsSearch.trans b1.dnsSearch.symm
        have e5 := b2.extraHosts.trans b1.extraHosts.symm
        have e6 := b2.network.trans b1.network.symm
        have e7 : r'.docker.privileged = r.docker.privileged := b2.privileged.trans b1.privileged.symm
        have e8 := b2.pull.trans b1.pull.symm
        have e9 := b2.user.trans b1.user.symm
        have e10 := c2.networks.trans c1.networks.symm
        simp only [setImage]
        revert hports hcmd hargs e3 e4 e5 e6 e7 e8 e9 e10
        generalize r.docker = d
        generalize r'.docker = d'
        cases d
        cases d'
        simp only
        rintro rfl rfl rfl rfl rfl rfl rfl rfl rfl rfl rfl
        rfl
      · show r'.files = r.files
        rw [b1.files, b2.files]
        show scriptMounts q.platform.os y.2 ++ _ = scriptMounts p.platform.os y.2 ++ _
        rw [hf.platform]
        rfl
      · show r'.volumes = r.volumes
        rw [hv, hv']
        simp only [ctxOf, hw]
      · show r'.workingDir = r.workingDir
        rw [b1.workingDir, b2.workingDir]
        simp only [ctxOf, hw]
    · intro key _
      show r'.envs.get? key = r.envs.get? key
      rw [b1.envs, b2.envs]
      simp only [ctxOf, hw, hcl, hf.platform]

theorem renameImage_unmatched {E : Ext} {image : String} : ∀ {rn : GoMap String},
    (∀ kv ∈ rn, Img.expand E.dg image ≠ Img.expand E.dg kv.1) → renameImage E image rn = image
  | [], _ => rfl
  | kv :: rest, h => by
    have h1 : Img.matchTag E.dg image kv.1 = false := by
      simpa only [Img.matchTag, decide_eq_false_iff_not] using h kv (by simp)
    simp only [renameImage, h1, Bool.false_eq_true, if_false]
    exact renameImage_unmatched fun kv' hkv => h kv' (by simp [hkv])

/-- C120: the same container in two pipelines with the same clone section, workspace and platform
becomes the same step, wherever it stands and whatever the other containers are.  The identifiers
differ, and with them the alias variable of a build step; the image may differ
(`C120_image`); the dependencies differ exactly if the clone step was added in one case only, which
is so if steps of one pipeline only name dependencies. -/
theorem C120_local {E : Ext} {c : Compiler} (hc : c.Std) (ht : c.transform = none) {rnd rnd' : Nat → String}
    {p q : Pipeline} (hf : Spec.SameFrame p q) {sp sq : Engine.Spec} (hp : compile E c rnd p = some sp)
    (hq : compile E c rnd' q = some sq) {i j : Nat} {y : Role × Container} (hi : (sources p)[i]? = some y)
    (hj : (sources q)[j]? = some y) :
    ∃ s t, sp.steps[i]? = some s ∧ sq.steps[j]? = some t ∧ Spec.SameShape s t ∧
      (∀ k, (IsBuild y → k ≠ "DOCKER_BUILD_IMAGE_ALIAS") → t.envs.get? k = s.envs.get? k) ∧
      (t.dependsOn = s.dependsOn ↔
        ((y.1 = .service ∨ y.1 = .step ∧ y.2.dependsOn = []) → p.clone.disable = false →
          (Spec.Parallel p ↔ Spec.Parallel q))) := by
  obtain ⟨rn, h1⟩ := compile_steps hc ht hp
  obtain ⟨rn', h2⟩ := compile_steps hc ht hq
  obtain ⟨hi', ei⟩ := List.getElem?_eq_some_iff.1 hi
  obtain ⟨hj', ej⟩ := List.getElem?_eq_some_iff.1 hj
  have l1 := h1.length_eq
  have l2 := h2.length_eq
  have g1 := (List.forall₂_iff_get.1 h1).2 i hi' (l1 ▸ hi')
  have g2 := (List.forall₂_iff_get.1 h2).2 j hj' (l2 ▸ hj')
  simp only [List.get_eq_getElem, ei, ej] at g1 g2
  exact ⟨_, _, List.getElem?_eq_getElem (l1 ▸ hi'), List.getElem?_eq_getElem (l2 ▸ hj'),
    compiledFrom_frame hc hf g1 g2⟩

/-- C120: a container whose image no step of the pipeline builds runs its own image. -/
theorem C120_image {E : Ext} {c : Compiler} (hc : c.Std) (ht : c.transform = none) {rnd : Nat → String}
    {p : Pipeline} {sp : Engine.Spec} (h : compile E c rnd p = some sp) :
    List.Forall₂ (fun y s =>
      (∀ b ∈ Spec.builds p, Img.expand E.dg (Spec.ownImage E y) ≠ Img.expand E.dg b.image) →
        s.docker.image = Spec.ownImage E y) (sources p) sp.steps := by
  obtain ⟨_, _, _, r, hr, rfl⟩ := compile_shape hc ht h
  have hlen : (sources p).length = r.1.length := (emit_length _ _ _ _ _ hr).symm
  have hkeys := renamePairs_keys hlen
  rw [builds_eq] at hkeys
  refine List.forall₂_iff_zip.2 ⟨(compile_steps hc ht h).choose_spec.length_eq, ?_⟩
  · intro y s hz hno
    obtain ⟨s0, hs0, j, hzs⟩ := zip_renameSteps hz
    obtain ⟨k, hk⟩ := forall₂_zip (emit_forall hr) hs0
    have himg : s0.docker.image = Spec.ownImage E y := by
      unfold Spec.ownImage
      split
      · rename_i hb
        obtain ⟨role, src⟩ := y
        obtain ⟨h1, h2⟩ := hb
        simp only at h1 h2
        subst h1
        obtain ⟨b, hbb⟩ := Option.isSome_iff_exists.1 h2
        rw [(rawStep_build (x := ctxOf E c rnd p) hc hbb hk).docker]
      · rename_i hb
        exact (rawStep_plain (x := ctxOf E c rnd p) hc hb hk).image
    have : s.docker.image = renameImage E s0.docker.image (E.iter j ((List.zip (sources p) r.1).foldl addRename [])) := by
      have hzs : s = _ := hzs
      rw [hzs]
      rfl
    rw [this, renameImage_unmatched, himg]
    intro kv hkv
    rw [(E.iter_perm j _).mem_iff, foldl_addRename] at hkv
    have hget := GoMap.get?_of_mem (setAll_nodup (by simp)) hkv
    rcases setAll_get_mem hget with hm | hm
    · have : kv.1 ∈ (Spec.builds p).map (·.image) := hkeys ▸ List.mem_map_of_mem hm
      obtain ⟨b, hb, he⟩ := List.mem_map.1 this
      rw [himg, ← he]
      exact hno b hb
    · simp at hm

theorem forall₂_getElem? {α β : Type} {R : α → β → Prop} {as : List α} {bs : List β} (h : List.Forall₂ R as bs)
    {i : Nat} {a : α} {b : β} (ha : as[i]? = some a) (hb : bs[i]? = some b) : R a b := by
  obtain ⟨h1, rfl⟩ := List.getElem?_eq_some_iff.1 ha
  obtain ⟨h2, rfl⟩ := List.getElem?_eq_some_iff.1 hb
  exact (List.forall₂_iff_get.1 h).2 i h1 h2

/-- C120: changing one step to another, without touching dependencies or build sections, leaves all
other compiled steps as they were, up to the identifiers. -/
theorem C120_others {E : Ext} {c : Compiler} (hc : c.Std) (ht : c.transform = none) {rnd rnd' : Nat → String}
    {p : Pipeline} {before after : List (Option Container)} {a b : Container} (hst : p.steps = before ++ some a :: after)
    (hdep : b.dependsOn = a.dependsOn) (hnb : Spec.builds p = []) (hb : b.build = none)
    {sp sq : Engine.Spec} (hp : compile E c rnd p = some sp)
    (hq : compile E c rnd' { p with steps := before ++ some b :: after } = some sq) {i : Nat}
    (hi : i < (sources p).length)
    (hne : i ≠ (if p.clone.disable then 0 else 1) + (p.services.filterMap id).length + (before.filterMap id).length) :
    ∃ s t, sp.steps[i]? = some s ∧ sq.steps[i]? = some t ∧
      t = { s with md := { s.md with uid := t.md.uid, namespc := t.md.namespc }, envs := t.envs } ∧
      ∀ k, t.envs.get? k = s.envs.get? k := by
  obtain ⟨pre, hpre⟩ : ∃ pre, pre = (if p.clone.disable then []
      else [(Role.clone, ({ name := "clone", image := Spec.cloneImageOf p.platform } : Container))]) ++
    (p.services.filterMap id).map (fun c => (Role.service, c)) ++
    (before.filterMap id).map fun c => (Role.step, c) := ⟨_, rfl⟩
  have hlen : pre.length =
      (if p.clone.disable then 0 else 1) + (p.services.filterMap id).length + (before.filterMap id).length := by
    rw [hpre]
    split <;> simp <;> omega
  have e1 : sources p = pre ++ (Role.step, a) :: (after.filterMap id).map fun c => (Role.step, c) := by
    unfold sources
    rw [hpre, hst]
    simp [List.filterMap_append]
  have e2 : sources { p with steps := before ++ some b :: after } =
      pre ++ (Role.step, b) :: (after.filterMap id).map fun c => (Role.step, c) := by
    unfold sources
    rw [hpre]
    simp [List.filterMap_append]
  have hsame : (sources { p with steps := before ++ some b :: after })[i]? = (sources p)[i]? := by
    rw [e1, e2, List.getElem?_append, List.getElem?_append]
    split
    · rfl
    · obtain ⟨d, hd⟩ : ∃ d, i - pre.length = d + 1 := ⟨i - pre.length - 1, by omega⟩
      rw [hd]
      rfl
  have hbq : Spec.builds { p with steps := before ++ some b :: after } = [] := by
    unfold Spec.builds at hnb ⊢
    rw [hst] at hnb
    simp only [List.filterMap_append, List.filterMap_cons, id, hb, List.append_eq_nil_iff] at hnb ⊢
    refine ⟨hnb.1, ?_⟩
    have h2 := hnb.2
    split at h2
    · exact h2
    · simp at h2
  have hpar : Spec.Parallel p ↔ Spec.Parallel { p with steps := before ++ some b :: after } := by
    unfold Spec.Parallel
    rw [hst]
    simp only [List.filterMap_append, List.filterMap_cons, id, List.mem_append, List.mem_cons, or_and_right,
      exists_or, exists_eq_left, hdep]
  obtain ⟨y, hy⟩ : ∃ y, (sources p)[i]? = some y := ⟨_, List.getElem?_eq_getElem hi⟩
  have hnot : ¬ IsBuild y := by
    rintro ⟨h1, h2⟩
    obtain ⟨bd, hbd⟩ := Option.isSome_iff_exists.1 h2
    have : bd ∈ Spec.builds p := by
      rw [← builds_eq]
      exact List.mem_filterMap.2 ⟨y, List.mem_of_getElem? hy, by simp [h1, hbd]⟩
    rw [hnb] at this
    simp at this
  have hyq := hsame.trans hy
  obtain ⟨s, t, hs, hti, hsh, henv, hd⟩ := C120_local hc ht (p := p)
    (q := { p with steps := before ++ some b :: after }) ⟨rfl, rfl, rfl⟩ hp hq hy hyq
  have i1 := forall₂_getElem? (C120_image hc ht hp) hy hs (by simp [hnb])
  have i2 := forall₂_getElem? (C120_image hc ht hq) hyq hti (by simp [hbq])
  have hd := hd.2 fun _ _ => hpar
  refine ⟨s, t, hs, hti, ?_, fun k => henv k fun h => absurd h hnot⟩
  unfold Spec.SameShape at hsh
  rw [hsh]
  simp only [hd, i1, i2]
  rw [← i1]

/-- A pipeline with two steps; the second one is given another command and a secret. -/
def exLocal (second : Container) : Pipeline :=
  { kind := "pipeline", name := "default", services := [some { name := "db", image := "redis" }],
    steps := [some { name := "test", image := "golang", commands := ["go test"], environment := [("A", some { value := "b" })] },
      some second] }

/-- C120: the hypotheses can be met, and the other containers do compile to the same. -/
example :
    let p := exLocal { name := "publish", image := "plugins/docker", settings := [("repo", some { value := .str "a/b" })] }
    let q := exLocal { name := "notify", image := "plugins/slack", environment := [("T", some { secret := "token" })] }
    Spec.SameFrame p q ∧ (sources p)[2]? = (sources q)[2]? ∧ Spec.builds p = [] ∧
    ((compile exExt {} exRnd p).bind fun sp => (compile exExt {} exRnd q).map fun sq =>
      (sp.steps.length, decide (sp.steps.take 3 = sq.steps.take 3), decide (sp.steps[3]? = sq.steps[3]?))) =
      some (4, true, false) :=
  ⟨⟨rfl, rfl, rfl⟩, rfl, rfl, by decide +kernel⟩

/-- C120: why dependencies can differ.  If one step is given dependencies, another one that has none
now waits for the clone step by name. -/
theorem C120_parallel_leak :
    let p := exLocal { name := "publish", image := "plugins/docker" }
    let q := exLocal { name := "publish", image := "plugins/docker", dependsOn := ["test"] }
    (compile exExt {} exRnd p).map (fun sp => sp.steps.map fun s => (s.md.name, s.dependsOn)) =
      some [("clone", []), ("db", []), ("test", []), ("publish", [])] ∧
    (compile exExt {} exRnd q).map (fun sp => sp.steps.map fun s => (s.md.name, s.dependsOn)) =
      some [("clone", []), ("db", ["clone"]), ("test", ["clone"]), ("publish", ["test"])] := by
  constructor <;> decide +kernel

/-- C120: why images can differ.  A step that builds `drone/docker` changes what every build step
runs, itself included, and a step that builds the image of a service changes the service. -/
theorem C120_image_leak :
    (compile exExt {} exRnd (exLocal { name := "publish", build := some { image := "drone/docker" } })).map
      (fun sp => sp.steps.map fun s => (s.md.name, s.docker.image)) =
      some [("clone", "docker.io/drone/git:latest"), ("db", "docker.io/library/redis:latest"),
        ("test", "docker.io/library/golang:latest"), ("publish", "docker.io/drone/docker:u6")] ∧
    (compile exExt {} exRnd (exLocal { name := "publish", build := some { image := "redis" } })).map
      (fun sp => sp.steps.map fun s => (s.md.name, s.docker.image)) =
      some [("clone", "docker.io/drone/git:latest"), ("db", "docker.io/library/redis:u6"),
        ("test", "docker.io/library/golang:latest"), ("publish", "drone/docker")] := by
  constructor <;> decide +kernel

end Drone
