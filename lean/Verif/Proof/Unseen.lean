/- The compiler gives the same for pipelines that agree in what it looks at, function by function. -/
import Verif.Spec.Unseen
import Mathlib.Tactic.Common

namespace Drone
open Engine (Step File)
open Spec.Unseen (SamePlain SameBuild SameBuilder SameAnswers SameService SameStep SameVolume SamePipeline Pointwise)

theorem toPorts_same {a b : Container} (h : a.ports = b.ports) : toPorts a = toPorts b := by
  simp only [toPorts, h]

theorem stepMounts_filter : ∀ vs : List (Option VolumeMount),
    stepMounts (vs.filter (fun v => !(v.any (fun v => v.name == "_docker_socket")))) = stepMounts vs
  | [] => rfl
  | none :: vs => by simp [stepMounts]
  | some v :: vs => by
    by_cases h : v.name = "_docker_socket"
    · simp [h, stepMounts, stepMounts_filter vs]
    · simp [h, stepMounts, stepMounts_filter vs]

theorem foldl_environ_filter : ∀ (l : GoMap (Option Variable)) (acc : EnvAcc),
    (l.filter (fun kv => kv.2.isSome)).foldl addEnviron acc = l.foldl addEnviron acc
  | [], _ => rfl
  | (k, none) :: l, acc => by simpa [addEnviron] using foldl_environ_filter l acc
  | (k, some v) :: l, acc => by simpa using foldl_environ_filter l (addEnviron acc (k, some v))

theorem foldl_setting_filter (E : Ext) : ∀ (l : GoMap (Option Parameter)) (acc : EnvAcc),
    (l.filter (fun kv => kv.2.isSome)).foldl (addSetting E) acc = l.foldl (addSetting E) acc
  | [], _ => rfl
  | (k, none) :: l, acc => by simpa [addSetting] using foldl_setting_filter E l acc
  | (k, some v) :: l, acc => by simpa using foldl_setting_filter E l (addSetting E acc (k, some v))

theorem stepEnvs_same (E : Ext) {a b : Container} (h : SamePlain a b) : stepEnvs E a = stepEnvs E b := by
  unfold stepEnvs
  rw [← foldl_setting_filter, ← foldl_environ_filter, h.environment, h.settings, foldl_environ_filter,
    foldl_setting_filter]

theorem toPullPolicy_same {a b : Container} (h : a.pull = b.pull) : toPullPolicy a = toPullPolicy b := by
  simp only [toPullPolicy, h]

theorem toIgnoreErr_same {a b : Container} (h : a.failure = b.failure) : toIgnoreErr a = toIgnoreErr b := by
  simp only [toIgnoreErr, h]

theorem toResources_same {a b : Container} (h : a.resources = b.resources) : toResources a = toResources b := by
  simp only [toResources, h]

theorem toRunPolicy_same (g : Glob) {a b : Container} (h : a.cond.status = b.cond.status) :
    toRunPolicy g a = toRunPolicy g b := by
  simp only [toRunPolicy, h]

theorem createStep_same (E : Ext) (rnd : Nat → String) (st : St) {a b : Container} (h : SamePlain a b) :
    createStep E rnd st a = createStep E rnd st b := by
  have hv : stepMounts a.volumes = stepMounts b.volumes := by
    rw [← stepMounts_filter a.volumes, h.volumes, stepMounts_filter]
  unfold createStep
  rw [toPorts_same h.ports, hv]
  congr 1
  funext ports
  congr 1
  funext mounts
  by_cases hn : a.commands = []
  · have hn' : b.commands = [] := h.commands ▸ hn
    have hw : (if a.detach && a.commands.length = 0 then a.workingDir else "") =
        (if b.detach && b.commands.length = 0 then b.workingDir else "") := by
      rw [hn, hn', ← h.detach]
      by_cases hd : a.detach = true
      · simp [hd, h.workingDir hd hn]
      · simp [hd]
    have e : ∀ uid ns, createStep0 E uid ns a ports mounts = createStep0 E uid ns b ports mounts := by
      intro uid ns
      unfold createStep0
      rw [hw]
      simp only [h.name, h.dependsOn, (h.start hn).1, (h.start hn).2, h.dns, h.dnsSearch,
        h.extraHosts, h.image, h.network, h.privileged, toPullPolicy_same h.pull, h.user, stepEnvs_same E h,
        toIgnoreErr_same h.failure, toResources_same h.resources, toRunPolicy_same E.glob h.status, h.detach]
    simp [hn, hn', e]
  · have hn' : b.commands ≠ [] := h.commands ▸ hn
    have l1 : a.commands.length > 0 := List.length_pos_iff.mpr hn
    have l2 : b.commands.length > 0 := List.length_pos_iff.mpr hn'
    have w1 : (if a.detach && a.commands.length = 0 then a.workingDir else "") = "" := by simp [hn]
    have w2 : (if b.detach && b.commands.length = 0 then b.workingDir else "") = "" := by simp [hn']
    unfold createStep0
    rw [w1, w2]
    simp only [l1, l2, if_true, setupScriptWin, setupScript, h.name, h.dependsOn, h.dns, h.dnsSearch,
      h.extraHosts, h.image, h.network, h.privileged, toPullPolicy_same h.pull, h.user, stepEnvs_same E h,
      toIgnoreErr_same h.failure, toResources_same h.resources, toRunPolicy_same E.glob h.status, h.commands, h.detach]

theorem createBuildStep_same (E : Ext) (rnd : Nat → String) (st : St) {a b : Container} {x y : Build}
    (h : SameBuilder a b) (hb : SameBuild x y) :
    createBuildStep E rnd st a x = createBuildStep E rnd st b y := by
  simp only [createBuildStep, buildEnvs, h.name, h.detach, h.dependsOn, h.dns, toIgnoreErr_same h.failure,
    toResources_same h.resources, toRunPolicy_same E.glob h.status, hb.cacheFrom, hb.context, hb.dockerfile, hb.image]

theorem any_same {f : Option (Container → Bool)} {a b : Container} (h : ∀ g ∈ f, g a = g b) :
    f.any (· a) = f.any (· b) := by
  cases f with
  | none => rfl
  | some g => simpa using h g rfl

/-- The part of `finishStep` that looks at the container. -/
theorem finishStep_same {c : Compiler} {w : WorkspaceDirs} {a b : Container} {s : Step} (hc : SameAnswers c a b)
    (hd : s.detach = true → (a.commands = [] ↔ b.commands = [])) :
    finishStep c w a s = finishStep c w b s := by
  have hw : setupWorkingDir a s w.full = setupWorkingDir b s w.full := by
    unfold setupWorkingDir
    by_cases h1 : s.detach = true
    · have := hd h1
      by_cases h2 : a.commands = []
      · simp [h2, this.mp h2]
      · simp [h2, mt this.mpr h2]
    · simp [h1]
  unfold finishStep
  rw [hw, any_same hc.skip, any_same hc.privileged]

theorem addService_same {E : Ext} {c : Compiler} {rnd : Nat → String} {p q : Pipeline} {w : WorkspaceDirs}
    {serial : Bool} {a b : Container} (hp : p.clone.disable = q.clone.disable) (h : SameService c a b) (st : St) :
    addService E c rnd p w serial a st = addService E c rnd q w serial b st := by
  unfold addService
  rw [createStep_same E rnd st h.1, hp]
  congr 1
  funext r
  obtain ⟨s, st⟩ := r
  simp only []
  rw [finishStep_same h.2 (fun _ => by rw [h.1.commands])]

theorem addPipelineStep_same {E : Ext} {c : Compiler} {rnd : Nat → String} {p q : Pipeline} {w : WorkspaceDirs}
    {serial : Bool} {a b : Container} (hp : p.clone.disable = q.clone.disable) (h : SameStep c a b) (st : St)
    (rn : GoMap String) :
    addPipelineStep E c rnd p w serial a st rn = addPipelineStep E c rnd q w serial b st rn := by
  obtain ⟨h | h, hc⟩ := h
  · obtain ⟨h1, h2, h⟩ := h
    unfold addPipelineStep
    simp only [h1, h2, createStep_same E rnd st h, hp, Option.map_map]
    congr 1
    funext r
    obtain ⟨s, st⟩ := r
    simp only [Function.comp]
    rw [finishStep_same hc (fun _ => by rw [h.commands])]
  · obtain ⟨x, y, h1, h2, hb⟩ := h.build
    unfold addPipelineStep
    simp only [h1, h2, createBuildStep_same E rnd st h hb, hp, Option.map_some, hb.image]
    rw [finishStep_same hc (by simpa [createBuildStep] using fun hd => h.idle (h.detach ▸ hd))]

theorem addServices_same {E : Ext} {c : Compiler} {rnd : Nat → String} {p q : Pipeline} {w : WorkspaceDirs}
    {serial : Bool} (hp : p.clone.disable = q.clone.disable) {as bs : List (Option Container)}
    (h : Pointwise (SameService c) as bs) : ∀ st,
    addServices E c rnd p w serial as st = addServices E c rnd q w serial bs st := by
  induction h with
  | nil => intro st; rfl
  | cons h1 _ ih =>
    intro st
    cases h1 with
    | none => rfl
    | some h1 =>
      simp only [addServices]
      rw [addService_same hp h1]
      congr 1
      funext st
      exact ih st

theorem addSteps_same {E : Ext} {c : Compiler} {rnd : Nat → String} {p q : Pipeline} {w : WorkspaceDirs}
    {serial : Bool} (hp : p.clone.disable = q.clone.disable) {as bs : List (Option Container)}
    (h : Pointwise (SameStep c) as bs) : ∀ st rn,
    addSteps E c rnd p w serial as st rn = addSteps E c rnd q w serial bs st rn := by
  induction h with
  | nil => intro st rn; rfl
  | cons h1 _ ih =>
    intro st rn
    cases h1 with
    | none => rfl
    | some h1 =>
      simp only [addSteps]
      rw [addPipelineStep_same hp h1]
      congr 1
      funext r
      exact ih r.1 r.2

theorem addVolumes_same {rnd : Nat → String} {ns : String} {as bs : List (Option Volume)}
    (h : Pointwise SameVolume as bs) : ∀ st, addVolumes rnd ns as st = addVolumes rnd ns bs st := by
  induction h with
  | nil => intro st; rfl
  | cons h1 _ ih =>
    intro st
    cases h1 with
    | none => rfl
    | some h1 =>
      rename_i a b
      have : (if a.emptyDir.isSome then none else a.hostPath.map (·.path)) =
          (if b.emptyDir.isSome then none else b.hostPath.map (·.path)) := by
        rw [← h1.emptyDir]
        cases ha : a.emptyDir with
        | none => simp [h1.hostPath ha]
        | some e => rfl
      simp only [addVolumes, this]
      rw [h1.name, h1.emptyDir]
      exact ih _

theorem SameStep_dependsOn {c : Compiler} {a b : Container} (h : SameStep c a b) : a.dependsOn = b.dependsOn := by
  obtain ⟨⟨_, _, h⟩ | h, _⟩ := h
  · exact h.dependsOn
  · exact h.dependsOn

theorem isSerial_same {c : Compiler} {as bs : List (Option Container)} (h : Pointwise (SameStep c) as bs) :
    isSerial as = isSerial bs := by
  induction h with
  | nil => rfl
  | cons h1 _ ih =>
    cases h1 with
    | none => rfl
    | some h1 => simp only [isSerial, SameStep_dependsOn h1, ih]

theorem addClone_same {E : Ext} {c : Compiler} {rnd : Nat → String} {p q : Pipeline} {w : WorkspaceDirs}
    (h : SamePipeline c p q) (st : St) : addClone E c rnd p w st = addClone E c rnd q w st := by
  unfold addClone
  rw [← h.disable]
  by_cases hd : p.clone.disable = true
  · simp [hd]
  · have hd : p.clone.disable = false := by simpa using hd
    have e1 : createClone p = createClone q := by simp only [createClone, cloneImage, h.platform]
    have e2 : ∀ s, setupCloneDepth p s = setupCloneDepth q s := by
      intro s
      unfold setupCloneDepth
      rw [h.skipVerify hd]
      rcases h.depth hd with e | ⟨l1, l2⟩
      · rw [e]
      · have l1 : ¬ p.clone.depth > 0 := by omega
        have l2 : ¬ q.clone.depth > 0 := by omega
        simp only [l1, l2, if_false]
    simp only [hd, e1, e2]

theorem compileCore_same (E : Ext) (c : Compiler) (rnd : Nat → String) {p q : Pipeline} (h : SamePipeline c p q) :
    compileCore E c rnd p = compileCore E c rnd q := by
  have e1 : initSpec p (rnd 0) = initSpec q (rnd 0) := by
    simp only [initSpec, h.name, h.kind, h.type, h.platform]
  have e2 : createWorkspace p = createWorkspace q := by
    simp only [createWorkspace, h.workspace, h.platform]
  unfold compileCore
  simp only [isSerial_same h.steps, e1, e2, addVolumes_same h.volumes, addClone_same h, addServices_same h.disable h.services,
    addSteps_same h.disable h.steps]

end Drone
