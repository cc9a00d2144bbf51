/-
C111: what a converted legacy file with a build matrix means.  The text is parsed, the pipeline of
every axis is compiled, and the steps run the commands of the file with the values of the axis.
-/
import Verif.Props.LegacyLint

namespace Drone
open Legacy Spec Yaml Pretty

variable {R : Resolver}

namespace Spec

/-- Nothing else is set in the container. -/
def NothingElse (d : Drone.Container) : Prop :=
  d.build = none ∧ d.devices = [] ∧ d.failure = "" ∧ d.network = "" ∧ d.ports = [] ∧ d.push = none ∧
    d.resources = none ∧ d.shell = "" ∧ d.user = "" ∧ d.workingDir = "" ∧ d.dependsOn = [] ∧
    d.cond.action = {} ∧ d.cond.cron = {} ∧ d.cond.paths = {}

/-- The container `e` is the container `d` with every text replaced by `F`. -/
structure Carried (F : String → String) (d e : Drone.Container) : Prop where
  name : e.name = F d.name
  image : e.image = F d.image
  command : e.command = d.command.map F
  commands : e.commands = d.commands.map F
  entrypoint : e.entrypoint = d.entrypoint.map F
  detach : e.detach = d.detach
  dns : e.dns = d.dns.map F
  dnsSearch : e.dnsSearch = d.dnsSearch.map F
  extraHosts : e.extraHosts = d.extraHosts.map F
  privileged : e.privileged = d.privileged
  pull : e.pull = d.pull
  literal : ∀ k v, (k, some v) ∈ d.environment → v.secret = "" →
    e.environment.get? (F k) = some (some { value := F v.value, secret := "" })
  secrets : ∀ k v, (k, some v) ∈ d.environment → v.secret ≠ "" →
    e.environment.get? (F k) = some (some { value := "", secret := F v.secret })
  noOther : ∀ k o, e.environment.get? k = some o → ∃ k' v, (k', some v) ∈ d.environment ∧ k = F k'
  settings : ∀ k v, (k, some v) ∈ d.settings → v.secret = "" → ∃ w,
    e.settings.get? (F k) = some (some { value := w, secret := "" }) ∧ SameValue (plainNumbers (mapValue F v.value)) w
  noSetting : ∀ k o, e.settings.get? k = some o → ∃ k' v, (k', some v) ∈ d.settings ∧ k = F k'
  mounts : e.volumes = d.volumes.map (Option.map fun m => { name := m.name, mountPath := F m.mountPath })
  /-- the condition on the matrix has been used -/
  cond : e.cond = { mapConditions F d.cond with matrix := [] }
  rest : NothingElse e

/-- A compiled step has the image, variables and settings of the container, with the values filled in. -/
def RunsFilled (E : Ext) (F : String → String) (sp : Engine.Spec) (d : Drone.Container) : Prop :=
  ∃ s ∈ sp.steps, s.md.labels = some [("io.drone.step.name", F d.name)] ∧ s.docker.image = Img.expand E.dg (F d.image) ∧
    (∀ k v, (k, some v) ∈ d.environment → v.secret = "" → F k ∉ workspaceVars →
      (∀ k' v', (k', some v') ∈ d.settings → F k ≠ "PLUGIN_" ++ E.upper (F k')) → s.envs.get? (F k) = some (F v.value)) ∧
    ∀ k v t, (k, some v) ∈ d.settings → v.secret = "" → SettingText (plainNumbers (mapValue F v.value)) t →
      (∀ k' v', (k', some v') ∈ d.settings → E.upper (F k') = E.upper (F k) → F k' = F k) →
      s.envs.get? ("PLUGIN_" ++ E.upper (F k)) = some t

/-- The pipeline `q` is the pipeline `p` of the file for the axis with this number, with the values
filled in, and runs what it should. -/
structure AxisRun (F : String → String) (axis : GoMap String) (i : Nat) (p : Drone.Pipeline)
    (ss sv : List Drone.Container) (q : Drone.Pipeline) : Prop where
  name : q.name = "matrix-" ++ toString (i + 1)
  kind : q.kind = p.kind ∧ q.type = p.type
  platform : q.platform = { os := "linux", arch := "amd64" }
  clone : q.clone = p.clone
  trigger : q.trigger = mapConditions F p.trigger
  workspace : q.workspace = { base := F p.workspace.base, path := F p.workspace.path }
  volumes : q.volumes = p.volumes.map (Option.map fun v =>
    { name := v.name, hostPath := v.hostPath.map fun h => { path := F h.path } })
  steps : ∃ es, q.steps = es.map some ∧ List.Forall₂ (Carried F) (kept axis ss) es
  services : ∃ es, q.services = es.map some ∧ List.Forall₂ (Carried F) (kept axis sv) es
  runs : ∀ (E : Ext) (K : Compiler) (rnd : Nat → String) (sp : Engine.Spec) (trusted : Bool), K.Std →
    K.transform = none → lint (.pipeline q) trusted = .ok () → compile E K rnd q = some sp →
    ∀ d ∈ ss, copies axis d ≠ 0 → RunsFilled E F sp d ∧
      (d.commands ≠ [] → F d.name ≠ ".git-credentials" → RunsScript E sp (F d.name) (F d.image) (d.commands.map F))

end Spec

/-- A container as the converter makes it. -/
structure Fresh (d : Drone.Container) : Prop where
  pull : d.pull = "always" ∨ d.pull = "if-not-exists"
  mounts : ∀ o ∈ d.volumes, ∃ s t, s ≠ "" ∧ o = some { name := hexName s, mountPath := t }
  rest : NothingElse d

theorem fill_hexName {F : String → String} (hf : Replaces F) (s : String) : F (hexName s) = hexName s :=
  hf.plain _ fun hd => absurd (hexName_isHex hd) (by unfold Spec.isHex; decide)

/-- The entries of the map that was filled in, stored and read. -/
theorem filled_get? {α β : Type} {F : String → String} {f : α → α} {g : α → Option α} {r : α → Option β}
    {m : GoMap (Option α)}
    (hn : (GoMap.keys ((mapGoMap F (Option.map f) m).map fun kv => (kv.1, kv.2.bind g))).Nodup) {k : String} {v : α}
    (hm : (k, some v) ∈ m) :
    (keptMapS r ((mapGoMap F (Option.map f) m).map fun kv => (kv.1, kv.2.bind g))).get? (F k) =
      ((g (f v)).bind r).map some := by
  have : (F k, g (f v)) ∈ (mapGoMap F (Option.map f) m).map fun kv => (kv.1, kv.2.bind g) :=
    List.mem_map.2 ⟨(F k, some (f v)), List.mem_map.2 ⟨_, hm, rfl⟩, rfl⟩
  rw [keptMapS_get? _ hn, GoMap.get?_of_mem hn this]
  rfl

theorem filled_source {α β : Type} {F : String → String} {f : α → α} {g : α → Option α} {r : α → Option β}
    {m : GoMap (Option α)}
    (hn : (GoMap.keys ((mapGoMap F (Option.map f) m).map fun kv => (kv.1, kv.2.bind g))).Nodup) {k : String} {o : Option β}
    (h : (keptMapS r ((mapGoMap F (Option.map f) m).map fun kv => (kv.1, kv.2.bind g))).get? k = some o) :
    ∃ k' v, (k', some v) ∈ m ∧ k = F k' := by
  rw [keptMapS_get? _ hn] at h
  obtain ⟨a, h1, h2⟩ := Option.bind_eq_some_iff.1 h
  obtain ⟨⟨k1, o1⟩, hm, e⟩ := List.mem_map.1 (GoMap.mem_of_get? h1)
  obtain ⟨⟨k2, o2⟩, hm2, e2⟩ := List.mem_map.1 hm
  cases e
  cases e2
  cases o2 with
  | none => simp at h2
  | some v => exact ⟨k2, v, hm2, rfl⟩

theorem carried {L : PrettyLib} {ram : String → Option Int} {F : String → String} (hf : Replaces F) {d : Drone.Container}
    (hok : ContainerOk R L ram (storedContainer (mapContainer F d))) (hd : Fresh d) (hne : ¬ EmptyEntry d) :
    Carried F d (readContainer (storedContainer (mapContainer F d))) := by
  have e0 : F "" = "" := (hf.empty "").2 rfl
  obtain ⟨r1, r2, r3, r4, r5, r6, r7, r8, r9, r10, r11, r12, r13, r14⟩ := hd.rest
  refine ⟨rfl, rfl, rfl, rfl, rfl, rfl, rfl, rfl, rfl, rfl, ?_, ?_, ?_, ?_, ?_, ?_, ?_, rfl, ?_⟩
  · rcases hd.pull with h | h
    · show F d.pull = d.pull
      rw [h]
      exact hf.plain _ (by decide)
    · show F d.pull = d.pull
      rw [h]
      exact hf.plain _ (by decide)
  · intro k v hm hs
    have hv : v.value ≠ "" := fun hv => hne (.inl ⟨k, v, hm, hv, hs⟩)
    have hv' : F v.value ≠ "" := fun h => hv ((hf.empty _).1 h)
    refine (filled_get? hok.environment.1 hm).trans ?_
    simp [mapVariable, storedVariable, hs, e0, hv', keptVariable]
  · intro k v hm hs
    have hs' : F v.secret ≠ "" := fun h => hs ((hf.empty _).1 h)
    refine (filled_get? hok.environment.1 hm).trans ?_
    simp [mapVariable, storedVariable, hs', keptVariable]
  · intro k o h
    exact filled_source hok.environment.1 h
  · intro k v hm hs
    have e1 : storedParameter (mapParameter F v) = some { value := plainNumbers (mapValue F v.value) } := by
      have hn : storedParameter (mapParameter F v) ≠ none := by
        rw [Ne, storedParameter_none]
        rintro ⟨_, h⟩
        refine hne (.inr ⟨k, v, hm, hs, ?_⟩)
        have hmv : (mapParameter F v).value = mapValue F v.value := rfl
        rw [hmv] at h
        revert h
        cases v.value <;> simp [mapValue]
        exact fun h => (hf.empty _).1 h
      obtain ⟨w, hw⟩ := Option.ne_none_iff_exists'.1 hn
      rw [hw]
      unfold storedParameter at hw
      have hs2 : ¬ (mapParameter F v).secret ≠ "" := by simp [mapParameter, hs, e0]
      rw [if_neg hs2] at hw
      have hmv : (mapParameter F v).value = mapValue F v.value := rfl
      rw [hmv] at hw
      split at hw
      · cases hw
      · cases hw
      · exact hw.symm
    have e2 := filled_get? (r := sortParam) hok.settings.1 hm
    rw [e1] at e2
    refine ⟨_, e2, sortV_same (R := R) L _ ?_⟩
    have hm' : (F k, storedParameter (mapParameter F v)) ∈ (storedContainer (mapContainer F d)).settings :=
      List.mem_map.2 ⟨(F k, some (mapParameter F v)), List.mem_map.2 ⟨_, hm, rfl⟩, rfl⟩
    rw [e1] at hm'
    exact ((hok.settings.2 _ _ (GoMap.get?_of_mem hok.settings.1 hm')).2.2 rfl).1
  · intro k o h
    exact filled_source hok.settings.1 h
  · show keepList keptMount (d.volumes.map _) = _
    have hl := hd.mounts
    generalize d.volumes = l at hl
    unfold keepList
    induction l with
    | nil => rfl
    | cons o l ih =>
      obtain ⟨s, t, hs, rfl⟩ := hl o List.mem_cons_self
      have ih := ih fun o ho => hl o (List.mem_cons_of_mem _ ho)
      have e : keptMount { name := F (hexName s), mountPath := F t } = some { name := hexName s, mountPath := F t } := by
        unfold keptMount
        rw [fill_hexName hf, if_neg]
        intro hc
        exact hexName_ne hs (congrArg VolumeMount.name hc)
      rw [List.map_cons, List.filterMap_cons, Option.map_some, Option.bind_some, e, List.map_cons, List.map_cons, ih]
      rfl
  · have hc : mapCondition F {} = {} := rfl
    refine ⟨?_, ?_, ?_, ?_, ?_, ?_, ?_, ?_, ?_, ?_, ?_, ?_, ?_, ?_⟩
    · show ((d.build.map _).bind keptBuild).map sortBuild = none
      rw [r1]; rfl
    · show keepList keptDevice (d.devices.map _) = []
      rw [r2]; rfl
    · show F d.failure = ""
      rw [r3, e0]
    · show F d.network = ""
      rw [r4, e0]
    · show keepList some (d.ports.map _) = []
      rw [r5]; rfl
    · show (d.push.map _).bind keptPush = none
      rw [r6]; rfl
    · show d.resources.bind keptResources = none
      rw [r7]; rfl
    · show F d.shell = ""
      rw [r8, e0]
    · show F d.user = ""
      rw [r9, e0]
    · show F d.workingDir = ""
      rw [r10, e0]
    · show d.dependsOn.map F = []
      rw [r11]; rfl
    · show mapCondition F d.cond.action = {}
      rw [r12, hc]
    · show mapCondition F d.cond.cron = {}
      rw [r13, hc]
    · show mapCondition F d.cond.paths = {}
      rw [r14, hc]

/-! ### Pipelines -/

theorem mem_kept {axis : GoMap String} {l : List Drone.Container} {d : Drone.Container} :
    d ∈ kept axis l ↔ d ∈ l ∧ copies axis d ≠ 0 := by
  unfold kept
  rw [List.mem_flatMap]
  constructor
  · rintro ⟨e, he, hd⟩
    obtain ⟨h1, rfl⟩ := List.mem_replicate.1 hd
    exact ⟨he, h1⟩
  · rintro ⟨h1, h2⟩
    exact ⟨d, h1, List.mem_replicate.2 ⟨h2, rfl⟩⟩

theorem kept_filled (axis : GoMap String) (f : Drone.Container → Drone.Container) (l : List Drone.Container) :
    List.map (Option.map storedContainer) (List.map (Option.map f)
      (l.flatMap fun c => List.replicate (copies axis c) (some c))) =
      ((kept axis l).map fun d => storedContainer (f d)).map some := by
  unfold kept
  rw [List.map_map, List.map_map, List.map_flatMap, List.map_flatMap]
  congr 1
  funext d
  simp

theorem toContainer_fresh {X : LegacyLib} {x : Legacy.Container} {d : Drone.Container} (h : toContainer X x = some d)
    (hv : ∀ v, some v ∈ x.volumes → v.source ≠ "") : Fresh d := by
  have hvol := toContainer_volumes h
  unfold toContainer at h
  obtain ⟨env, _, h⟩ := Option.bind_eq_some_iff.1 h
  obtain ⟨vols, _, rfl⟩ := Option.map_eq_some_iff.1 h
  refine ⟨?_, fun o ho => ?_, ⟨rfl, rfl, rfl, rfl, rfl, rfl, rfl, rfl, rfl, rfl, rfl, rfl, rfl, rfl⟩⟩
  · dsimp only
    unfold Legacy.toPullPolicy
    split_ifs
    · exact .inl rfl
    · exact .inr rfl
  · obtain ⟨v, hm, y, rfl, rfl⟩ := forall₂_right hvol ho
    exact ⟨_, _, hv y hm, rfl⟩

theorem toPipeline_fresh {X : LegacyLib} {env : Env} {c : Config} {remote : String} {p : Drone.Pipeline}
    (h : toPipeline X env c remote = some p)
    (hv : ∀ x ∈ c.clone ++ c.pipeline ++ c.services, ∀ v, some v ∈ x.volumes → v.source ≠ "")
    {steps services : List Drone.Container} (hs : p.steps = steps.map some) (hs' : p.services = services.map some) :
    (∀ d ∈ steps ++ services, Fresh d) ∧
      (∀ o ∈ p.volumes, ∃ s, s ≠ "" ∧ o = some { name := hexName s, hostPath := some { path := s } }) ∧
      p.kind = "pipeline" ∧ p.version = "" ∧ p.platform = {} ∧ (p.type = "" ∨ p.type = "kubernetes") := by
  obtain ⟨steps', services', volumes, h1, h2, h3, e1, e2, e3, _⟩ := toPipeline_inv h
  have inj : Function.Injective (some : Drone.Container → Option Drone.Container) := Option.some_injective _
  have es : steps = renameLoop [] 0 steps' := List.map_injective_iff.2 inj (hs.symm.trans e1)
  have ev : services = services' := List.map_injective_iff.2 inj (hs'.symm.trans e2)
  have hx : ∀ {l r}, (∀ x ∈ l, x ∈ c.clone ++ c.pipeline ++ c.services) → mapAll (toContainer X) l = some r →
      ∀ d ∈ r, Fresh d := by
    intro l r hl hr d hd
    obtain ⟨x, h1, h2⟩ := forall₂_right (mapAll_forall₂ hr) hd
    exact toContainer_fresh h2 (hv x (hl x h1))
  refine ⟨?_, ?_, ?_⟩
  · intro d hd
    rcases List.mem_append.1 hd with hd | hd
    · rw [es] at hd
      obtain ⟨e, he, n, rfl⟩ := forall₂_right (renameLoop_alike steps' [] 0) hd
      have : Fresh e := by
        unfold toSteps at h1
        split at h1
        · exact hx (fun x h => List.mem_append_left _ h) h1 e he
        · obtain ⟨r, hr, rfl⟩ := Option.map_eq_some_iff.1 h1
          have hin : ∀ x ∈ c.pipeline, x ∈ c.clone ++ c.pipeline ++ c.services :=
            fun x h => List.mem_append_left _ (List.mem_append_right _ h)
          split at he
          · rcases List.mem_cons.1 he with rfl | he
            · exact ⟨.inr rfl, nofun, ⟨rfl, rfl, rfl, rfl, rfl, rfl, rfl, rfl, rfl, rfl, rfl, rfl, rfl, rfl⟩⟩
            · exact hx hin hr e he
          · exact hx hin hr e he
      exact ⟨this.1, this.2, this.3⟩
    · rw [ev] at hd
      exact hx (fun x h => List.mem_append_right _ h) h2 d hd
  · obtain ⟨set, i1, i2, i3, i4, i5⟩ := volumesLoop_inv (set := []) (vs := []) ⟨by simp, by simp, by simp⟩ h3
    intro o ho
    rw [e3] at ho
    obtain ⟨w, hw, rfl⟩ := List.mem_map.1 ho
    obtain ⟨s, rfl⟩ := i1.paths w hw
    rcases i5 _ hw with hn | ⟨x, hx, y, hy, e⟩
    · simp at hn
    · simp only [Option.some.injEq, VolumeHostPath.mk.injEq] at e
      subst e
      exact ⟨_, hv x (by simp only [List.mem_append] at hx ⊢; tauto) y hy, rfl⟩
  · simp only [toPipeline, Option.bind_eq_some_iff, Option.map_eq_some_iff] at h
    obtain ⟨s, _, v, _, w, _, rfl⟩ := h
    refine ⟨rfl, rfl, rfl, ?_⟩
    dsimp only
    split_ifs
    · exact .inr rfl
    · exact .inl rfl

theorem number_plain (i : Nat) : '$' ∉ ("matrix-" ++ toString i).toList := by
  rw [String.toList_append, List.mem_append]
  rintro (h | h)
  · exact absurd h (by decide)
  · change '$' ∈ (Nat.repr i).toList at h
    unfold Nat.repr at h
    rw [String.toList_ofList] at h
    exact absurd (Nat.isDigit_of_mem_toDigits (by decide) (by decide) h) (by decide)

/-- The pipeline of an axis that is read. -/
theorem axis_run {X : LegacyLib} (ram : String → Option Int) {env : Env} {c : Config} {remote : String} {p : Drone.Pipeline}
    (hp : toPipeline X env c remote = some p)
    (hsrc : ∀ x ∈ c.clone ++ c.pipeline ++ c.services, ∀ v, some v ∈ x.volumes → v.source ≠ "")
    {steps services : List Drone.Container} (hs : p.steps = steps.map some) (hv : p.services = services.map some)
    (i : Nat) (axis : GoMap String) {F : String → String} (hf : Replaces F)
    (hok : PipelineOk R X.pretty ram (storedPipeline (mapPipeline F (axisPipeline p steps services i axis))))
    (hne : ∀ d ∈ steps ++ services, copies axis d ≠ 0 → ¬ EmptyEntry d) :
    AxisRun F axis i p steps services (readPipeline (storedPipeline (mapPipeline F (axisPipeline p steps services i axis)))) := by
  obtain ⟨hfresh, hvols, hkind, hver, hplat, htype⟩ := toPipeline_fresh hp hsrc hs hv
  obtain ⟨_, _, hnode, htrig⟩ := toPipeline_parts hp
  have e0 : F "" = "" := (hf.empty "").2 rfl
  generalize hq : readPipeline (storedPipeline (mapPipeline F (axisPipeline p steps services i axis))) = q
  have hone : ∀ d ∈ steps ++ services, copies axis d ≠ 0 → ContainerOk R X.pretty ram (storedContainer (mapContainer F d)) →
      Carried F d (readContainer (storedContainer (mapContainer F d))) ∧
      ¬ blankContainer (storedContainer (mapContainer F d)) := by
    intro d hd hc hdok
    refine ⟨carried hf hdok (hfresh d hd) (hne d hd hc), fun hb => ?_⟩
    have h1 : F d.pull = "" := hb.2.1
    have h2 := (hf.empty _).1 h1
    rcases (hfresh d hd).pull with h | h <;> rw [h] at h2 <;> exact absurd h2 (by decide)
  have hlist : ∀ l : List Drone.Container, (∀ d ∈ l, d ∈ steps ++ services) →
      (∀ d ∈ kept axis l, ContainerOk R X.pretty ram (storedContainer (mapContainer F d))) →
      keepList (fun c => if blankContainer c then none else some (readContainer c))
        (((kept axis l).map fun d => storedContainer (mapContainer F d)).map some) =
        ((kept axis l).map fun d => readContainer (storedContainer (mapContainer F d))).map some ∧
      List.Forall₂ (Carried F) (kept axis l) ((kept axis l).map fun d => readContainer (storedContainer (mapContainer F d))) := by
    intro l hl hk
    constructor
    · rw [keepList_map (g := readContainer), List.map_map (f := fun d => storedContainer (mapContainer F d))]
      · rfl
      · intro a ha
        obtain ⟨d, hd, rfl⟩ := List.mem_map.1 ha
        exact if_neg (hone d (hl d (mem_kept.1 hd).1) (mem_kept.1 hd).2 (hk d hd)).2
    · rw [List.forall₂_map_right_iff, List.forall₂_same]
      intro d hd
      exact (hone d (hl d (mem_kept.1 hd).1) (mem_kept.1 hd).2 (hk d hd)).1
  have hstep : ∀ d ∈ kept axis steps, ContainerOk R X.pretty ram (storedContainer (mapContainer F d)) := by
    intro d hd
    refine hok.steps _ ?_
    show _ ∈ List.map (Option.map storedContainer) (List.map (Option.map (mapContainer F)) _)
    have hk := kept_filled axis (mapContainer F) steps
    show _ ∈ List.map (Option.map storedContainer) (List.map (Option.map (mapContainer F))
      (steps.flatMap fun c => List.replicate (copies axis c) (some c)))
    rw [hk]
    exact List.mem_map_of_mem (List.mem_map.2 ⟨d, hd, rfl⟩)
  have hserv : ∀ d ∈ kept axis services, ContainerOk R X.pretty ram (storedContainer (mapContainer F d)) := by
    intro d hd
    refine hok.services _ ?_
    have hk := kept_filled axis (mapContainer F) services
    show _ ∈ List.map (Option.map storedContainer) (List.map (Option.map (mapContainer F))
      (services.flatMap fun c => List.replicate (copies axis c) (some c)))
    rw [hk]
    exact List.mem_map_of_mem (List.mem_map.2 ⟨d, hd, rfl⟩)
  obtain ⟨k1, f1⟩ := hlist steps (fun d hd => List.mem_append_left _ hd) hstep
  obtain ⟨k2, f2⟩ := hlist services (fun d hd => List.mem_append_right _ hd) hserv
  have qs : q.steps = ((kept axis steps).map fun d => readContainer (storedContainer (mapContainer F d))).map some := by
    rw [← k1, ← kept_filled axis (mapContainer F) steps, ← hq]
    rfl
  have qv : q.services = ((kept axis services).map fun d => readContainer (storedContainer (mapContainer F d))).map some := by
    rw [← k2, ← kept_filled axis (mapContainer F) services, ← hq]
    rfl
  have qp : q.platform = { os := "linux", arch := "amd64" } := by
    rw [← hq]
    show keptPlatform { os := F p.platform.os, arch := F p.platform.arch, variant := F p.platform.variant, version := F p.platform.version } = _
    rw [hplat]
    simp [e0, keptPlatform]
  refine ⟨?_, ⟨?_, ?_⟩, qp, ?_, ?_, ?_, ?_, ⟨_, qs, f1⟩, ⟨_, qv, f2⟩, ?_⟩
  · rw [← hq]
    exact hf.plain _ (number_plain (i + 1))
  · rw [← hq]
    show F p.kind = p.kind
    rw [hkind]
    exact hf.plain _ (by decide)
  · rw [← hq]
    show F p.type = p.type
    rcases htype with h | h <;> rw [h] <;> exact hf.plain _ (by decide)
  · rw [← hq]; rfl
  · rw [← hq]
    show keptConditions (mapConditions F p.trigger) = mapConditions F p.trigger
    unfold keptConditions mapConditions
    rw [htrig]
    rfl
  · rw [← hq]; rfl
  · rw [← hq]
    show keepList keptVolume (p.volumes.map (Option.map (mapVolume F))) = _
    generalize p.volumes = l at hvols
    unfold keepList
    induction l with
    | nil => rfl
    | cons o l ih =>
      obtain ⟨s, hsn, rfl⟩ := hvols o List.mem_cons_self
      have ih := ih fun o ho => hvols o (List.mem_cons_of_mem _ ho)
      have hsn' : F s ≠ "" := fun h => hsn ((hf.empty _).1 h)
      have e : keptVolume (mapVolume F { name := hexName s, hostPath := some { path := s } }) =
          some { name := hexName s, hostPath := some { path := F s } } := by
        unfold keptVolume mapVolume
        rw [if_neg]
        · simp only [Option.map_some, Option.bind_some, Option.map_none, fill_hexName hf, keptHost]
          rw [if_neg]
          intro hc
          exact hsn' (congrArg VolumeHostPath.path hc)
        · intro hc
          have := congrArg Volume.name hc
          simp only [fill_hexName hf] at this
          exact hexName_ne hsn this
      rw [List.map_cons, List.filterMap_cons, Option.map_some, Option.bind_some, e, List.map_cons, List.map_cons, ih]
      rfl
  · intro E K rnd sp trusted hK hT hl hcmp d hd hc
    have hk : d ∈ kept axis steps := mem_kept.2 ⟨hd, hc⟩
    have hcar := (hone d (List.mem_append_left _ hd) hc (hstep d hk)).1
    have hdok := hstep d hk
    have hin : some (readContainer (storedContainer (mapContainer F d))) ∈ q.steps := by
      rw [qs]
      exact List.mem_map_of_mem (List.mem_map.2 ⟨d, hk, rfl⟩)
    have hos : q.platform.os ≠ "windows" := by rw [qp]; decide
    have hb : builds q = [] := by
      unfold builds
      rw [List.filterMap_eq_nil_iff, qs]
      intro e he
      obtain ⟨o, ho, hoe⟩ := List.mem_filterMap.1 he
      obtain ⟨d1, hd1, rfl⟩ := List.mem_map.1 ho
      cases hoe
      obtain ⟨d2, _, hc2⟩ := forall₂_right f1 hd1
      rw [hc2.rest.1]
    have hn1 : (readContainer (storedContainer (mapContainer F d))).environment.keys.Nodup :=
      keptMapS_nodup _ hdok.environment.1
    have hn2 : (readContainer (storedContainer (mapContainer F d))).settings.keys.Nodup :=
      keptMapS_nodup _ hdok.settings.1
    generalize readContainer (storedContainer (mapContainer F d)) = e at hcar hin hn1 hn2
    have hm : (Role.step, e) ∈ sources q := by
      unfold sources
      exact List.mem_append_right _ (List.mem_map.2 ⟨e, List.mem_filterMap.2 ⟨_, hin, rfl⟩, rfl⟩)
    have hnb : ¬ IsBuild (Role.step, e) := by
      rintro ⟨_, h⟩
      simp [hcar.rest.1] at h
    have h1 := C87_environment hK hT hcmp
    obtain ⟨s, hz⟩ := mem_zip_of_forall₂ h1 hm
    have h1 := forall₂_zip h1 hz hnb hn1
    have h2 := forall₂_zip (C22_attributes hK hT hcmp) hz
    have h3 := (redirect_core hK hT hcmp (by rw [hb]; simp) (.inl (by rw [hb]; simp)) _ hz hnb).2 (by rw [hb]; simp)
    have h4 := forall₂_zip (C87_settings hK hT hcmp) hz hnb hn2
    refine ⟨⟨s, (List.of_mem_zip hz).2, ?_, ?_, ?_, ?_⟩, ?_⟩
    · rw [← hcar.name]; exact h2.1
    · rw [h3, hcar.image]
    · intro k v hmv hsec hw hset
      refine h1 (F k) _ (GoMap.mem_of_get? (hcar.literal k v hmv hsec)) rfl hw (.inr (.inl hos)) ?_
      intro k' v' hm' _
      obtain ⟨k2, v2, hm2, rfl⟩ := hcar.noSetting k' _ (GoMap.get?_of_mem hn2 hm')
      exact hset k2 v2 hm2
    · intro k v t hmv hsec htext hu
      obtain ⟨w, ew, hw⟩ := hcar.settings k v hmv hsec
      refine h4 (F k) _ t (GoMap.mem_of_get? ew) rfl ?_ ?_
      · rw [settingText_same htext hw]
        exact htext
      · intro k' v' hm' _ hk'
        obtain ⟨k2, v2, hm2, rfl⟩ := hcar.noSetting k' _ (GoMap.get?_of_mem hn2 hm')
        exact hu k2 v2 hm2 hk'
    · intro hcmd hname
      have hcmd' : e.commands ≠ [] := by
        rw [hcar.commands]
        simpa using hcmd
      have := runs_script hK hT hcmp hl hos hb hin hcmd' (by rw [hcar.name]; exact hname) hcar.rest.1
      rwa [hcar.commands, hcar.name, hcar.image] at this

/-- C111.  The text converted from a legacy file with a matrix is parsed as one pipeline for every axis and the
declared secrets.  The pipeline of an axis has the steps and services of the file that the axis selects, with
the values filled in, and compiled it runs their commands with their variables and settings.  Missing, besides
what C98 and C102 leave out: a text that is not read as written once the values are in it (`ReadsFilled`). -/
theorem C111_matrix_partial (X : LegacyLib) (ram : String → Option Int) (float : Rat → String)
    (hfl : ∀ q, float q ≠ "from_secret") (emit : Yaml.Node → String) (mtree : String → Except String Yaml.Node)
    (tree : Bytes → Except String Yaml.Node) (ht : Parses R tree) (env : Env) (file text : Bytes) (remote : String)
    (c : Config) (p : Drone.Pipeline) (axes : List (GoMap String))
    (hd : X.decode (if hasMergeKeys file then X.expand file else file) = .ok c) (hm : c.hasMatrix = true)
    (hp : toPipeline X env c remote = some p)
    (ha : parseMatrix X (if hasMergeKeys file then X.expand file else file) = some (.ok axes)) (hax : axes ≠ [])
    (steps services : List Drone.Container) (hs : p.steps = steps.map some) (hv : p.services = services.map some)
    (hg : ∀ i axis, axes[i]? = some axis → GoodAxis X float emit mtree axis (axisPipeline p steps services i axis))
    (h : Legacy.convert (treeLegacy X ram float emit mtree) env file remote = some (.ok text))
    (hmaps : ∀ x ∈ c.clone ++ c.pipeline ++ c.services, x.Maps)
    (hsrc : ∀ x ∈ c.clone ++ c.pipeline ++ c.services, ∀ v, some v ∈ x.volumes → v.source ≠ "")
    (hok : ∀ i axis, axes[i]? = some axis → PipelineOk R X.pretty ram
      (storedPipeline (mapPipeline (fillString X axis) (axisPipeline p steps services i axis))))
    (hsec : c.secrets.keys.Nodup ∧ ∀ k v, (k, v) ∈ c.secrets → Readable R k ∧ Readable R v.path ∧ Readable R v.vault ∧
      ∀ o t, (o, t) ∈ v.driverOpts → Readable R t)
    (hlen : ∃ ls, IsLines text ls ∧ ∀ l ∈ ls, l.length < 65536) :
    ∃ (qs : List Drone.Pipeline) (secrets : List Drone.Secret) (pre clones ss : List Drone.Container),
      parseBytes (treeLib ram tree) text = .ok ⟨qs.map .pipeline ++ secrets.map .secret⟩ ∧
      qs.length = axes.length ∧
      (∀ i axis q, axes[i]? = some axis → qs[i]? = some q → AxisRun (fillString X axis) axis i p steps services q) ∧
      steps = pre ++ (clones ++ ss) ∧
      List.Forall₂ (Converted X.upper) c.clone clones ∧
      List.Forall₂ (fun x d => Converted X.upper x d ∧ MountsResolve p.volumes x d) c.pipeline ss ∧
      List.Forall₂ (fun x d => (Converted X.upper x d ∧ d.name = x.name) ∧ MountsResolve p.volumes x d) c.services services ∧
      (pre = [] ∧ ¬ (c.clone = [] ∧ env.clone = true) ∨
        pre = [{ name := "clone", image := "plugins/git", pull := "if-not-exists" }] ∧ c.clone = [] ∧ env.clone = true) ∧
      (p.clone.disable = true ↔ c.clone ≠ [] ∨ env.clone = true) ∧
      ∃ secrets', secrets'.Perm secrets ∧ List.Forall₂ ArrivedSecret c.secrets secrets' := by
  have hnempty : ∀ (i : Nat) axis, axes[i]? = some axis → ∀ d ∈ steps ++ services, copies axis d ≠ 0 → ¬ EmptyEntry d := by
    intro i axis hi d hdm hc hem
    have := C98_panics X ram float hfl emit mtree env file c remote p axes hd hp hm ha steps services hs hv hg d
      (List.mem_append.1 hdm) axis (List.mem_of_getElem? hi) hc hem
    rw [this] at h
    cases h
  have hman := C98_manifest_partial X ram float hfl emit mtree env (if hasMergeKeys file then X.expand file else file) c remote p
    axes hp hm ha steps services hs hv hg
  -- the same file without the matrix
  have hp' : toPipeline X env { c with hasMatrix := false } remote = some p := hp
  have hman' : toManifest X env [] { c with hasMatrix := false } remote =
      some (.ok ⟨.pipeline p :: (toSecrets c).map Resource.secret⟩) := by
    unfold toManifest
    rw [hp']
    rfl
  obtain ⟨p1, rest1, pre, all, sv1, r1, a1, a2, a3, a4, a5, a6, a7⟩ :=
    C71_containers X env [] { c with hasMatrix := false } remote _ rfl hman' hmaps
  obtain ⟨p2, rest2, pre2, steps2, r2, b1, b2, ⟨sv2, b3, b4⟩, _⟩ :=
    C60_mounts_partial X env [] { c with hasMatrix := false } remote _ rfl hman'
  cases r1
  cases r2
  obtain ⟨clones, ss, rfl, c1, c2⟩ := forall₂_append_split a3
  have inj : Function.Injective (some : Drone.Container → Option Drone.Container) := Option.some_injective _
  have e3 : steps2 = ss := by
    have hl : (pre2 ++ steps2).map some = ((pre ++ clones) ++ ss).map some := by rw [← b1, a1, List.append_assoc]
    have hl := List.map_injective_iff.2 inj hl
    exact (List.append_inj' hl (by rw [← b2.length_eq, ← c2.length_eq])).2
  have e4 : sv2 = services := List.map_injective_iff.2 inj (b3.symm.trans hv)
  have e5 : sv1 = services := List.map_injective_iff.2 inj (a2.symm.trans hv)
  have e6 : steps = pre ++ (clones ++ ss) := List.map_injective_iff.2 inj (hs.symm.trans a1)
  subst e3 e4 e5
  unfold Legacy.convert at h
  have hd' : (treeLegacy X ram float emit mtree).decode
      (if hasMergeKeys file then (treeLegacy X ram float emit mtree).expand file else file) = .ok c := hd
  simp only [hd'] at h
  have ee : (treeLegacy X ram float emit mtree).expand = X.expand := rfl
  rw [ee, hman] at h
  obtain ⟨m, hm1, h⟩ := andThen_ok h
  cases hm1
  obtain ⟨text', hprint, e⟩ := Option.map_eq_some_iff.1 h
  cases e
  generalize hps : (axes.mapIdx fun i axis =>
    storedPipeline (mapPipeline (fillString X axis) (axisPipeline p steps sv1 i axis))) = ps at hprint
  have hget : ∀ (i : Nat) axis, axes[i]? = some axis → ps[i]? =
      some (storedPipeline (mapPipeline (fillString X axis) (axisPipeline p steps sv1 i axis))) := by
    intro i axis hi
    rw [← hps, List.getElem?_mapIdx, hi]
    rfl
  have hlenps : ps.length = axes.length := by rw [← hps, List.length_mapIdx]
  have hall : ∀ q ∈ ps, ∃ (i : Nat) (axis : GoMap String), axes[i]? = some axis ∧
      q = storedPipeline (mapPipeline (fillString X axis) (axisPipeline p steps sv1 i axis)) := by
    intro q hq
    obtain ⟨i, hi⟩ := List.mem_iff_getElem?.1 hq
    rw [← hps, List.getElem?_mapIdx] at hi
    obtain ⟨axis, h1, h2⟩ := Option.map_eq_some_iff.1 hi
    exact ⟨i, axis, h1, h2.symm⟩
  have hprintable : Spec.printable ⟨ps.map Resource.pipeline ++ (toSecrets c).map Resource.secret⟩ =
      ps.map Resource.pipeline ++ (toSecrets c).map Resource.secret := by
    unfold Spec.printable
    rw [List.filter_eq_self]
    intro r hr
    rcases List.mem_append.1 hr with hr | hr <;> obtain ⟨s, _, rfl⟩ := List.mem_map.1 hr <;> rfl
  have hkind : p.kind = "pipeline" := (toPipeline_fresh hp hsrc hs hv).2.2.1
  have hpars := readBack (R := R) X.pretty ram ht hprint (by
    rw [hprintable]
    intro hc
    have h0 := (List.append_eq_nil_iff.1 hc).1
    rw [List.map_eq_nil_iff] at h0
    rw [h0] at hlenps
    exact hax (List.length_eq_zero_iff.1 hlenps.symm)) hlen (by
    intro r hmr
    rcases List.mem_append.1 hmr with hr | hr <;> obtain ⟨s, hs', rfl⟩ := List.mem_map.1 hr
    · obtain ⟨i, axis, hi, rfl⟩ := hall s hs'
      refine ⟨hok i axis hi, ?_⟩
      show fillString X axis p.kind ∉ _
      rw [hkind, (fillString_replaces X axis (hg i axis hi).values).plain _ (by decide)]
      decide
    · obtain ⟨⟨k, v⟩, he, rfl⟩ := List.mem_map.1 ((toSecrets_perm hsec.1).mem_iff.1 hs')
      obtain ⟨s1, s2, s3, s4⟩ := hsec.2 k v he
      exact ⟨toSecret_ok s1 s2 s3 s4, by rw [toSecret_place]⟩)
  refine ⟨ps.map readPipeline, (toSecrets c).map keptSecret, pre, clones, steps2, ?_, ?_, ?_, e6, c1, forall₂_both c2 b2,
    forall₂_both a5 b4, a6, a7, (c.secrets.map fun e => toSecret e.1 e.2).map keptSecret,
    ((toSecrets_perm hsec.1).map _).symm, ?_⟩
  · rw [hpars, hprintable, List.map_append, List.map_map, List.map_map, List.map_map, List.map_map]
    rfl
  · rw [List.length_map, hlenps]
  · intro i axis q hi hq
    rw [List.getElem?_map, hget i axis hi] at hq
    cases hq
    exact axis_run ram hp hsrc hs hv i axis (fillString_replaces X axis (hg i axis hi).values) (hok i axis hi)
      (hnempty i axis hi)
  · rw [List.map_map, List.forall₂_map_right_iff, List.forall₂_same]
    rintro ⟨k, v⟩ _
    exact toSecret_arrived k v

/-! ### An example -/

/-- Two versions; one step runs for the older one only. -/
def exGo : Config where
  hasMatrix := true
  pipeline := [
    { name := "build", image := "golang:${GO}", commands := ["go${GO} test"], environment := [("VERSION", "${GO}")] },
    { name := "lint", image := "linter", constraints := { matrix := [("GO", "1.10")] } }]

def exGoBuild (image command version : String) : Drone.Container :=
  { name := "build", image := image, commands := [command], environment := [("VERSION", some { value := version })],
    pull := "if-not-exists" }

def exGoLint : Drone.Container :=
  { name := "lint", image := "linter", pull := "if-not-exists", cond := { matrix := [("GO", "1.10")] } }

def exGoPipeline : Drone.Pipeline :=
  { kind := "pipeline", name := "default", steps := [some (exGoBuild "golang:${GO}" "go${GO} test" "${GO}"), some exGoLint] }

def exGoAxis1 : Drone.Pipeline :=
  { kind := "pipeline", name := "matrix-1", steps := [some (exGoBuild "golang:1.11" "go1.11 test" "1.11")] }

def exGoAxis2 : Drone.Pipeline :=
  { kind := "pipeline", name := "matrix-2", steps := [some (exGoBuild "golang:1.10" "go1.10 test" "1.10"), some exGoLint] }

def exGoLib : LegacyLib :=
  { exLegacy with decode := fun _ => .ok exGo, matrixList := fun _ => .ok [[("GO", "1.11")], [("GO", "1.10")]] }

/-- An encoder and a parser that agree on these pipelines. -/
def exGoEmit (_ : Yaml.Node) : String := "${GO}"
def exGoTree (s : String) : Except String Yaml.Node :=
  .ok (encPipeline (fun _ => "2") (if s = "1.11" then exGoAxis1 else exGoAxis2))

def exGoText : Bytes :=
  match Legacy.convert (treeLegacy exGoLib (fun _ => none) (fun _ => "2") exGoEmit exGoTree) {} [] "" with
  | some (.ok t) => t
  | _ => []

theorem exGo_axis1 : mapPipeline (fillString exGoLib [("GO", "1.11")]) (axisPipeline exGoPipeline
    [exGoBuild "golang:${GO}" "go${GO} test" "${GO}", exGoLint] [] 0 [("GO", "1.11")]) = exGoAxis1 := by
  rfl
theorem exGo_axis2 : mapPipeline (fillString exGoLib [("GO", "1.10")]) (axisPipeline exGoPipeline
    [exGoBuild "golang:${GO}" "go${GO} test" "${GO}", exGoLint] [] 1 [("GO", "1.10")]) = exGoAxis2 := by
  rfl

theorem exGoBuild_ok (ram : String → Option Int) {a b v : String} (ha : Readable exResolver a) (hb : Readable exResolver b)
    (hv : Readable exResolver v) : ContainerOk exResolver exPretty ram (exGoBuild a b v) where
  name := rd "build"
  pull := rd "if-not-exists"
  image := ha
  build := nofun
  push := nofun
  user := rd ""
  shell := rd ""
  entrypoint := nofun
  command := nofun
  commands := by simpa [exGoBuild] using hb
  dns := nofun
  dnsSearch := nofun
  extraHosts := nofun
  network := rd ""
  settings := ⟨by simp [exGoBuild, GoMap.keys], fun k p h => by simp [exGoBuild, GoMap.get?] at h⟩
  environment := by
    refine ⟨by simp [exGoBuild, GoMap.keys], fun k p h => ?_⟩
    have := GoMap.mem_of_get? h
    simp only [exGoBuild, List.mem_cons, List.not_mem_nil, or_false, Prod.mk.injEq, Option.some.injEq] at this
    obtain ⟨rfl, rfl⟩ := this
    exact ⟨wk _ _, fun _ => hv, rd ""⟩
  failure := rd ""
  workingDir := rd ""
  devices := nofun
  ports := nofun
  resources := nofun
  volumes := nofun
  cond := ⟨⟨nofun, nofun⟩, ⟨nofun, nofun⟩, ⟨nofun, nofun⟩, ⟨nofun, nofun⟩, ⟨nofun, nofun⟩, ⟨nofun, nofun⟩, ⟨nofun, nofun⟩,
    ⟨nofun, nofun⟩, ⟨nofun, nofun⟩, ⟨nofun, nofun⟩⟩
  dependsOn := nofun

theorem exGoLint_ok (ram : String → Option Int) : ContainerOk exResolver exPretty ram exGoLint where
  name := rd "lint"
  pull := rd "if-not-exists"
  image := rd "linter"
  build := nofun
  push := nofun
  user := rd ""
  shell := rd ""
  entrypoint := nofun
  command := nofun
  commands := nofun
  dns := nofun
  dnsSearch := nofun
  extraHosts := nofun
  network := rd ""
  settings := ⟨by decide, fun k p h => by simp [exGoLint, GoMap.get?] at h⟩
  environment := ⟨by decide, fun k p h => by simp [exGoLint, GoMap.get?] at h⟩
  failure := rd ""
  workingDir := rd ""
  devices := nofun
  ports := nofun
  resources := nofun
  volumes := nofun
  cond := ⟨⟨nofun, nofun⟩, ⟨nofun, nofun⟩, ⟨nofun, nofun⟩, ⟨nofun, nofun⟩, ⟨nofun, nofun⟩, ⟨nofun, nofun⟩, ⟨nofun, nofun⟩,
    ⟨nofun, nofun⟩, ⟨nofun, nofun⟩, ⟨nofun, nofun⟩⟩
  dependsOn := nofun

theorem exGo_pipeline_ok (ram : String → Option Int) {name : String} (hn : Readable exResolver name) {l : List Drone.Container}
    (hl : ∀ d ∈ l, ContainerOk exResolver exPretty ram d) :
    PipelineOk exResolver exPretty ram { kind := "pipeline", name := name, steps := l.map some } where
  version := rd ""
  kind := rd "pipeline"
  type := rd ""
  name := hn
  platform := ⟨rd "", rd "", rd "", rd ""⟩
  clone := by simp
  concurrency := by simp
  workspace := ⟨rd "", rd ""⟩
  steps := fun c hc => by
    obtain ⟨d, hd, e⟩ := List.mem_map.1 hc
    cases e
    exact hl _ hd
  services := by simp
  volumes := by simp
  pullSecrets := by simp
  node := ⟨List.nodup_nil, fun k p h => by simp [GoMap.get?] at h⟩
  trigger := ⟨⟨nofun, nofun⟩, ⟨nofun, nofun⟩, ⟨nofun, nofun⟩, ⟨nofun, nofun⟩, ⟨nofun, nofun⟩, ⟨nofun, nofun⟩, ⟨nofun, nofun⟩,
    ⟨nofun, nofun⟩, ⟨nofun, nofun⟩, ⟨nofun, nofun⟩⟩
  dependsOn := nofun

theorem exGo_storable {name : String} {l : List Drone.Container} (hl : ∀ d ∈ l, StorableContainer d) :
    StorablePipeline { kind := "pipeline", name := name, steps := l.map some } := by
  refine ⟨List.nodup_nil, by simp, fun c hc => ?_, List.nodup_nil, (by decide : Fits64 0), (by decide : Fits64 0), by simp⟩
  obtain ⟨d, hd, e⟩ := List.mem_map.1 hc
  cases e
  exact hl _ hd

theorem exGo_storable_build (a b v : String) : StorableContainer (exGoBuild a b v) :=
  ⟨nofun, by simp [exGoBuild, GoMap.keys], by simp [exGoBuild, GoMap.keys], nofun, List.nodup_nil,
    by simp [exGoBuild], by simp [exGoBuild]⟩

theorem exGo_storable_lint : StorableContainer exGoLint :=
  ⟨nofun, List.nodup_nil, List.nodup_nil, nofun, by simp [exGoLint, GoMap.keys], by simp [exGoLint],
    by simp [exGoLint]⟩

theorem exGo_axes {P : Nat → GoMap String → Prop} (h1 : P 0 [("GO", "1.11")]) (h2 : P 1 [("GO", "1.10")]) :
    ∀ i axis, ([[("GO", "1.11")], [("GO", "1.10")]] : List (GoMap String))[i]? = some axis → P i axis := by
  intro i axis h
  match i, h with
  | 0, h => cases h; exact h1
  | 1, h => cases h; exact h2
  | n + 2, h => simp at h

theorem forall_one {α : Type} {P : α → Prop} {a : α} (h : P a) : ∀ x ∈ [a], P x := fun x hx => List.mem_singleton.1 hx ▸ h

theorem forall_two {α : Type} {P : α → Prop} {a b : α} (h : P a) (h' : P b) : ∀ x ∈ [a, b], P x :=
  List.forall_mem_cons.2 ⟨h, forall_one h'⟩

theorem exGoAxis1_ok (ram : String → Option Int) : PipelineOk exResolver exPretty ram (storedPipeline exGoAxis1) :=
  exGo_pipeline_ok ram (l := [exGoBuild "golang:1.11" "go1.11 test" "1.11"]) (rd "matrix-1")
    (forall_one (exGoBuild_ok ram (rd "golang:1.11") (rd "go1.11 test") (rd "1.11")))

theorem exGoAxis2_ok (ram : String → Option Int) : PipelineOk exResolver exPretty ram (storedPipeline exGoAxis2) :=
  exGo_pipeline_ok ram (l := [exGoBuild "golang:1.10" "go1.10 test" "1.10", exGoLint]) (rd "matrix-2")
    (forall_two (exGoBuild_ok ram (rd "golang:1.10") (rd "go1.10 test") (rd "1.10")) (exGoLint_ok ram))

theorem exGo_good : ∀ (i : Nat) (axis : GoMap String), ([[("GO", "1.11")], [("GO", "1.10")]] : List (GoMap String))[i]? = some axis →
    GoodAxis exGoLib (fun _ => "2") exGoEmit exGoTree axis (axisPipeline exGoPipeline
      [exGoBuild "golang:${GO}" "go${GO} test" "${GO}", exGoLint] [] i axis) := by
  refine exGo_axes ⟨by decide, by decide, ?_, ?_⟩ ⟨by decide, by decide, ?_, ?_⟩
  · refine ⟨_, rfl, ?_⟩
    rw [map_pipeline (fillString_replaces _ _ (by decide)), exGo_axis1]
    exact Yaml.SameText.refl _ _
  · rw [exGo_axis1]
    exact exGo_storable (l := [exGoBuild "golang:1.11" "go1.11 test" "1.11"]) (forall_one (exGo_storable_build _ _ _))
  · refine ⟨_, rfl, ?_⟩
    rw [map_pipeline (fillString_replaces _ _ (by decide)), exGo_axis2]
    exact Yaml.SameText.refl _ _
  · rw [exGo_axis2]
    exact exGo_storable (l := [exGoBuild "golang:1.10" "go1.10 test" "1.10", exGoLint])
      (forall_two (exGo_storable_build _ _ _) exGo_storable_lint)

/-- C111.  The example meets the hypotheses: two pipelines, each with the version of its axis, and the step with the
condition in one of them. -/
theorem C111_example : ∃ tree, Parses exResolver tree ∧
    Legacy.convert (treeLegacy exGoLib (fun _ => none) (fun _ => "2") exGoEmit exGoTree) {} [] "" = some (.ok exGoText) ∧
    ∃ q1 q2, parseBytes (treeLib (fun _ => none) tree) exGoText = .ok ⟨[.pipeline q1, .pipeline q2]⟩ ∧
      q1.name = "matrix-1" ∧ q2.name = "matrix-2" ∧
      (∃ d, q1.steps = [some d] ∧ d.image = "golang:1.11" ∧ d.commands = ["go1.11 test"] ∧
        d.environment.get? "VERSION" = some (some { value := "1.11", secret := "" })) ∧
      ∃ d e, q2.steps = [some d, some e] ∧ d.image = "golang:1.10" ∧ d.commands = ["go1.10 test"] ∧ e.name = "lint" := by
  obtain ⟨tree, ht⟩ := parser_exists exResolver
  have hconv : Legacy.convert (treeLegacy exGoLib (fun _ => none) (fun _ => "2") exGoEmit exGoTree) {} [] "" =
      some (.ok exGoText) := by decide +kernel
  have hlen : ∃ ls, IsLines exGoText ls ∧ ∀ l ∈ ls, l.length < 65536 :=
    ⟨rawLines _, rawLines_isLines _, by decide +kernel⟩
  obtain ⟨qs, secrets, pre, clones, ss, h1, h2, h3, _, _, _, _, _, _, secrets', hp, hsec⟩ :=
    C111_matrix_partial exGoLib (fun _ => none) (fun _ => "2") (by simp) exGoEmit exGoTree tree ht {} [] exGoText "" exGo exGoPipeline
      [[("GO", "1.11")], [("GO", "1.10")]] rfl rfl rfl rfl (by simp)
      [exGoBuild "golang:${GO}" "go${GO} test" "${GO}", exGoLint] [] rfl rfl
      exGo_good hconv
      (forall_two ⟨by decide, by decide⟩ ⟨by decide, by decide⟩) (forall_two (by simp) (by simp))
      (exGo_axes (by rw [exGo_axis1]; exact exGoAxis1_ok _) (by rw [exGo_axis2]; exact exGoAxis2_ok _))
      ⟨List.nodup_nil, fun _ _ h => absurd h List.not_mem_nil⟩ hlen
  cases hsec
  rw [List.nil_perm] at hp
  subst hp
  match qs, h2 with
  | [q1, q2], _ =>
    have a1 := h3 0 _ q1 rfl rfl
    have a2 := h3 1 _ q2 rfl rfl
    refine ⟨tree, ht, hconv, q1, q2, h1, a1.name, a2.name, ?_, ?_⟩
    · obtain ⟨es, he, hf⟩ := a1.steps
      have hk : kept [("GO", "1.11")] [exGoBuild "golang:${GO}" "go${GO} test" "${GO}", exGoLint] =
          [exGoBuild "golang:${GO}" "go${GO} test" "${GO}"] := rfl
      rw [hk] at hf
      cases hf with
      | @cons _ d _ ds a b =>
        cases b
        exact ⟨d, he, a.image, a.commands, a.literal "VERSION" { value := "${GO}" } List.mem_cons_self rfl⟩
    · obtain ⟨es, he, hf⟩ := a2.steps
      have hk : kept [("GO", "1.10")] [exGoBuild "golang:${GO}" "go${GO} test" "${GO}", exGoLint] =
          [exGoBuild "golang:${GO}" "go${GO} test" "${GO}", exGoLint] := rfl
      rw [hk] at hf
      cases hf with
      | @cons _ d _ ds a b =>
        cases b with
        | @cons _ e _ es c d' =>
          cases d'
          exact ⟨d, e, he, a.image, a.commands, c.name⟩

end Drone
