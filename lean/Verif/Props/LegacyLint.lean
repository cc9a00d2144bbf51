/-
C109: which converted legacy and Bitbucket files the linter accepts.
-/
import Verif.Props.MatrixTree
import Verif.Props.ServiceName
import Verif.Props.LegacyRun
import Verif.Props.Crash

namespace Drone
open Spec Legacy

namespace Spec

/-- What steps are called: a name that is already used gets the number of the step. -/
def Renamed (orig new : List String) : Prop :=
  new.length = orig.length ∧
  ∀ i a, orig[i]? = some a → new[i]? = some (if a ∈ new.take i then a ++ "_" ++ toString i else a)

/-- What a container needs. -/
structure PlainOK (trusted : Bool) (name image : String) (privileged : Bool) (dns dnsSearch extraHosts : List String) : Prop where
  name : name ≠ ""
  image : image ≠ ""
  untrusted : trusted = false → privileged = false ∧ dns = [] ∧ dnsSearch = [] ∧ extraHosts = []

end Spec

/-! ### Pipelines with containers of this kind -/

/-- What all converted containers have in common. -/
structure Simple (d : Drone.Container) : Prop where
  build : d.build = none
  devices : d.devices = []
  network : d.network = ""
  ports : d.ports = []
  deps : d.dependsOn = []
  mounts : ∀ m ∈ d.volumes, ∃ v, m = some v ∧ ¬ ReservedVolume v.name

abbrev plainOK (trusted : Bool) (d : Drone.Container) : Prop :=
  PlainOK trusted d.name d.image d.privileged d.dns d.dnsSearch d.extraHosts

theorem containerOK_simple {trusted : Bool} {d : Drone.Container} (h : Simple d) : ContainerOK trusted d ↔ plainOK trusted d := by
  constructor
  · rintro ⟨h1, h2, _, _, h5⟩
    exact ⟨h1, h2 h.build, fun ht => ⟨(h5 ht).1, (h5 ht).2.2.1, (h5 ht).2.2.2.1, (h5 ht).2.2.2.2.1⟩⟩
  · rintro ⟨h1, h2, h3⟩
    refine ⟨h1, fun _ => h2, fun b hb => ?_, h.mounts, fun ht => ?_⟩
    · rw [h.build] at hb; cases hb
    · obtain ⟨a, b, c, d⟩ := h3 ht
      refine ⟨a, h.devices, b, c, d, h.network, ?_⟩
      rw [h.ports]
      exact nofun

theorem depsEarlier_simple {steps : List Drone.Container} (names : List String) (h : ∀ d ∈ steps, Simple d) :
    DepsEarlier names (nodes steps) := by
  intro pre n post e d hd
  have hn : n ∈ nodes steps := by rw [e]; simp
  obtain ⟨c, hc, rfl⟩ := List.mem_map.1 hn
  rw [(h c hc).deps] at hd
  cases hd

theorem lint_simple {trusted : Bool} {p : Drone.Pipeline} {steps services : List Drone.Container}
    (hs : p.steps = steps.map some) (hv : p.services = services.map some) (hp : p.platform = {})
    (hsimple : ∀ d ∈ steps ++ services, Simple d)
    (hvol : ∀ v ∈ p.volumes, ∃ w, v = some w ∧ w.hostPath ≠ none ∧ w.emptyDir = none ∧ ¬ ReservedVolume w.name) :
    lint (.pipeline p) trusted = .ok () ↔
      (cloneNames p ++ (steps ++ services).map (·.name)).Nodup ∧ (∀ d ∈ steps ++ services, plainOK trusted d) ∧
      (trusted = false → p.volumes = []) := by
  rw [C12_lint_iff]
  have inj : Function.Injective (some : Drone.Container → Option Drone.Container) := Option.some_injective _
  constructor
  · rintro ⟨s, v, h⟩
    have e1 : s = steps := List.map_injective_iff.2 inj (h.steps_eq.symm.trans hs)
    have e2 : v = services := List.map_injective_iff.2 inj (h.services_eq.symm.trans hv)
    subst e1 e2
    refine ⟨h.unique, fun d hd => (containerOK_simple (hsimple d hd)).1 (h.containers d hd), fun ht => ?_⟩
    rw [List.eq_nil_iff_forall_not_mem]
    intro v hv
    obtain ⟨w, rfl, hw⟩ := h.volumes v hv
    obtain ⟨w', e, hne, _⟩ := hvol _ hv
    cases e
    exact hne (hw.untrusted ht).1
  · rintro ⟨h1, h2, h3⟩
    refine ⟨steps, services, hs, hv, fun v hv => ?_, ?_, fun d hd => (containerOK_simple (hsimple d hd)).2 (h2 d hd), h1,
      depsEarlier_simple _ fun d hd => hsimple d (by simp [hd])⟩
    · obtain ⟨w, rfl, _, he, hr⟩ := hvol v hv
      refine ⟨w, rfl, hr, fun ht => ?_⟩
      rw [h3 ht] at hv
      cases hv
    · rw [hp]
      exact ⟨by decide, by decide⟩

theorem hexName_free (s : String) : ¬ ReservedVolume (hexName s) := by
  have hx : ∀ (t : String), (∃ c ∈ t.toList, ¬ Spec.isHex c) → hexName s ≠ t := by
    rintro t ⟨c, hc, hn⟩ rfl
    exact hn (hexName_isHex hc)
  rintro (h | h | h)
  · exact hx _ ⟨'w', by decide, by unfold Spec.isHex; decide⟩ h
  · exact hx _ ⟨'_', by decide, by unfold Spec.isHex; decide⟩ h
  · exact hx _ ⟨'_', by decide, by unfold Spec.isHex; decide⟩ h

theorem toContainer_simple {X : LegacyLib} {x : Legacy.Container} {d : Drone.Container} (h : toContainer X x = some d) :
    Simple d ∧ d.name = x.name ∧ d.image = x.image ∧ d.privileged = x.privileged ∧ d.dns = x.dns ∧
      d.dnsSearch = x.dnsSearch ∧ d.extraHosts = x.extraHosts := by
  have hv := toContainer_volumes h
  unfold toContainer at h
  obtain ⟨env, _, h⟩ := Option.bind_eq_some_iff.1 h
  obtain ⟨vols, _, rfl⟩ := Option.map_eq_some_iff.1 h
  refine ⟨⟨rfl, rfl, rfl, rfl, rfl, fun m hm => ?_⟩, rfl, rfl, rfl, rfl, rfl, rfl⟩
  obtain ⟨v, _, x, _, rfl⟩ := forall₂_right hv hm
  exact ⟨_, rfl, hexName_free _⟩

/-! ### Names -/

theorem renameLoop_at (cs : List Drone.Container) : ∀ (seen pre : List String), (∀ s, s ∈ seen ↔ s ∈ pre) →
    ∀ i a, (cs.map (·.name))[i]? = some a →
      ((renameLoop seen pre.length cs).map (·.name))[i]? =
        some (if a ∈ pre ++ ((renameLoop seen pre.length cs).map (·.name)).take i then
          a ++ "_" ++ toString (pre.length + i) else a) := by
  induction cs with
  | nil => intro _ _ _ i a h; simp at h
  | cons c cs ih =>
    intro seen pre hseen i a h
    unfold renameLoop
    have hmem : (c.name ∈ seen) = (c.name ∈ pre) := propext (hseen _)
    cases i with
    | zero =>
      simp only [List.map_cons, List.getElem?_cons_zero, Option.some.injEq] at h
      subst h
      simp [hmem]
    | succ i =>
      simp only [List.map_cons, List.getElem?_cons_succ] at h
      generalize hn : (if c.name ∈ seen then c.name ++ "_" ++ toString pre.length else c.name) = n
      have := ih (n :: seen) (pre ++ [n]) (fun s => by simp [hseen, or_comm]) i a h
      simp only [List.length_append, List.length_singleton] at this
      simp only [List.map_cons, List.getElem?_cons_succ, List.take_succ_cons]
      rw [this]
      simp [show pre.length + (i + 1) = pre.length + 1 + i by omega]

theorem renamed_loop (cs : List Drone.Container) :
    Renamed (cs.map (·.name)) ((renameLoop [] 0 cs).map (·.name)) := by
  have hl : ∀ (cs : List Drone.Container) (seen : List String) (i : Nat), (renameLoop seen i cs).length = cs.length := by
    intro cs
    induction cs with
    | nil => intros; rfl
    | cons c cs ih => intro seen i; simp [renameLoop, ih]
  refine ⟨by simp [hl], fun i a h => ?_⟩
  simpa using renameLoop_at cs [] [] (by simp) i a h

theorem renamed_unique {orig a b : List String} (ha : Renamed orig a) (hb : Renamed orig b) : a = b := by
  have key : ∀ i, a.take i = b.take i := by
    intro i
    induction i with
    | zero => simp
    | succ i ih =>
      rw [List.take_add_one, List.take_add_one, ih]
      congr 1
      cases h : orig[i]? with
      | some x => rw [ha.2 i x h, hb.2 i x h, ih]
      | none =>
        rw [List.getElem?_eq_none_iff] at h
        rw [List.getElem?_eq_none (by rw [ha.1]; exact h), List.getElem?_eq_none (by rw [hb.1]; exact h)]
  have := key orig.length
  rwa [List.take_of_length_le (by rw [ha.1]), List.take_of_length_le (by rw [hb.1])] at this

theorem renamed_ne {orig new : List String} (h : Renamed orig new) : (∀ a ∈ new, a ≠ "") ↔ ∀ a ∈ orig, a ≠ "" := by
  have suffix : ∀ (a b : String), a ++ "_" ++ b ≠ "" := by
    intro a b e
    have := congrArg (fun s => s.toList.length) e
    simp at this
  constructor
  · intro hn a ha e
    subst e
    obtain ⟨i, hi⟩ := List.mem_iff_getElem?.1 ha
    have := h.2 i "" hi
    by_cases hm : "" ∈ new.take i
    · exact hn _ (List.mem_of_mem_take hm) rfl
    · rw [if_neg hm] at this
      exact hn _ (List.mem_of_getElem? this) rfl
  · intro ho a ha
    obtain ⟨i, hi⟩ := List.mem_iff_getElem?.1 ha
    have hl : i < orig.length := by rw [← h.1]; exact (List.getElem?_eq_some_iff.1 hi).1
    have := h.2 i orig[i] (by simp [hl])
    rw [hi, Option.some.injEq] at this
    rw [this]
    split
    · exact suffix _ _
    · exact ho _ (List.getElem_mem hl)

/-- Names that are all different are kept. -/
theorem renamed_nodup {orig : List String} (h : orig.Nodup) : Renamed orig orig := by
  refine ⟨rfl, fun i a ha => ?_⟩
  rw [ha, if_neg]
  intro hm
  obtain ⟨j, hj⟩ := List.mem_iff_getElem?.1 hm
  rw [List.getElem?_take] at hj
  split at hj
  · rename_i hlt
    have := (List.getElem?_inj (List.getElem?_eq_some_iff.1 hj).1 h).1 (hj.trans ha.symm)
    omega
  · cases hj

/-! ### Files without a matrix -/

namespace Spec

/-- The names of the steps, as written. -/
def stepNames (env : Env) (c : Config) : List String :=
  if c.clone = [] ∧ env.clone then "clone" :: c.pipeline.map (·.name) else (c.clone ++ c.pipeline).map (·.name)

/-- When a legacy file is accepted once it is converted; `names` are the names of its steps. -/
structure LegacyOK (trusted : Bool) (env : Env) (c : Config) (names : List String) : Prop where
  unique : ((if c.clone = [] ∧ env.clone = false then ["clone"] else []) ++ names ++ c.services.map (·.name)).Nodup
  containers : ∀ x ∈ c.clone ++ c.pipeline ++ c.services,
    PlainOK trusted x.name x.image x.privileged x.dns x.dnsSearch x.extraHosts
  volumes : trusted = false → ∀ x ∈ c.pipeline ++ c.services, x.volumes = []

end Spec

theorem volumesLoop_null (l : List Legacy.Container) : ∀ set to_, (∃ x ∈ l, none ∈ x.volumes) → volumesLoop set to_ l = none := by
  induction l with
  | nil => rintro _ _ ⟨x, hx, _⟩; cases hx
  | cons y l ih =>
    rintro set to_ ⟨x, hx, hn⟩
    unfold volumesLoop
    cases hy : volumeLoop set to_ y.volumes with
    | none => rfl
    | some r =>
      rcases List.mem_cons.1 hx with rfl | hx
      · rw [(volumeLoop_none _ _ _).2 hn] at hy; cases hy
      · exact ih _ _ ⟨x, hx, hn⟩

theorem toVolumes_nil {c : Config} {vols : List Drone.Volume} (h : toVolumes c = some vols) :
    vols = [] ↔ ∀ x ∈ c.pipeline ++ c.services, x.volumes = [] := by
  obtain ⟨set, h1, _, _, h4, h5⟩ := volumesLoop_inv (set := []) (vs := []) ⟨by simp, by simp, by simp⟩ h
  constructor
  · rintro rfl x hx
    rw [List.eq_nil_iff_forall_not_mem]
    intro o ho
    cases o with
    | some v => exact absurd ((h1.names _).1 (h4 x hx v ho)) (by simp)
    | none =>
      have : toVolumes c = none := volumesLoop_null _ [] [] ⟨x, hx, ho⟩
      rw [h] at this
      cases this
  · intro hall
    rw [List.eq_nil_iff_forall_not_mem]
    intro v hv
    rcases h5 v hv with hv | ⟨x, hx, y, hy, _⟩
    · cases hv
    · rw [hall x hx] at hy
      cases hy

theorem toVolumes_plain {c : Config} {vols : List Drone.Volume} (h : toVolumes c = some vols) :
    ∀ v ∈ vols, ∃ s, v = { name := hexName s, hostPath := some { path := s } } := by
  obtain ⟨set, h1, _⟩ := volumesLoop_inv (set := []) (vs := []) ⟨by simp, by simp, by simp⟩ h
  exact h1.paths

theorem renameLoop_alike (cs : List Drone.Container) : ∀ (seen : List String) (i : Nat),
    List.Forall₂ (fun e d => ∃ n, d = { e with name := n }) cs (renameLoop seen i cs) := by
  induction cs with
  | nil => intros; exact .nil
  | cons c cs ih => intro seen i; exact .cons ⟨_, rfl⟩ (ih _ _)

theorem forall₂_all {α β : Type} {R : α → β → Prop} {P : α → Prop} {Q : β → Prop} {l : List α} {r : List β}
    (h : List.Forall₂ R l r) (hpq : ∀ a b, R a b → (P a ↔ Q b)) : (∀ a ∈ l, P a) ↔ ∀ b ∈ r, Q b := by
  induction h with
  | nil => simp
  | cons h _ ih => simp only [List.forall_mem_cons, hpq _ _ h, ih]

theorem plainOK_rename {trusted : Bool} (cs : List Drone.Container) :
    (∀ d ∈ renameLoop [] 0 cs, plainOK trusted d) ↔ ∀ d ∈ cs, plainOK trusted d := by
  have split : ∀ l : List Drone.Container, (∀ d ∈ l, plainOK trusted d) ↔ (∀ a ∈ l.map (·.name), a ≠ "") ∧
      ∀ d ∈ l, PlainOK trusted "x" d.image d.privileged d.dns d.dnsSearch d.extraHosts := by
    intro l
    constructor
    · intro h
      refine ⟨fun a ha => ?_, fun d hd => ⟨by decide, (h d hd).image, (h d hd).untrusted⟩⟩
      obtain ⟨d, hd, rfl⟩ := List.mem_map.1 ha
      exact (h d hd).name
    · rintro ⟨h1, h2⟩ d hd
      exact ⟨h1 _ (List.mem_map_of_mem hd), (h2 d hd).image, (h2 d hd).untrusted⟩
  rw [split, split, renamed_ne (renamed_loop cs)]
  refine and_congr Iff.rfl (forall₂_all (renameLoop_alike cs [] 0) ?_).symm
  rintro a b ⟨n, rfl⟩
  exact Iff.rfl

theorem mapAll_plain {trusted : Bool} {X : LegacyLib} {l : List Legacy.Container} {r : List Drone.Container}
    (h : mapAll (toContainer X) l = some r) :
    (∀ d ∈ r, Simple d) ∧ r.map (·.name) = l.map (·.name) ∧
      ((∀ d ∈ r, plainOK trusted d) ↔
        ∀ x ∈ l, PlainOK trusted x.name x.image x.privileged x.dns x.dnsSearch x.extraHosts) := by
  have hf := mapAll_forall₂ h
  refine ⟨fun d hd => ?_, ?_, ?_⟩
  · obtain ⟨x, _, hx⟩ := forall₂_right hf hd
    exact (toContainer_simple hx).1
  · clear h
    induction hf with
    | nil => rfl
    | cons h _ ih => rw [List.map_cons, List.map_cons, ih, (toContainer_simple h).2.1]
  · symm
    refine forall₂_all hf fun a b hab => ?_
    obtain ⟨_, h1, h2, h3, h4, h5, h6⟩ := toContainer_simple hab
    unfold plainOK
    rw [h1, h2, h3, h4, h5, h6]

theorem toSteps_plain {trusted : Bool} {X : LegacyLib} {env : Env} {c : Config} {steps : List Drone.Container}
    (h : toSteps X env c = some steps) :
    (∀ d ∈ steps, Simple d) ∧ steps.map (·.name) = stepNames env c ∧
      ((∀ d ∈ steps, plainOK trusted d) ↔
        ∀ x ∈ c.clone ++ c.pipeline, PlainOK trusted x.name x.image x.privileged x.dns x.dnsSearch x.extraHosts) := by
  unfold toSteps at h
  unfold stepNames
  by_cases hc : c.clone = []
  · rw [if_neg (by simp [hc])] at h
    obtain ⟨r, hr, rfl⟩ := Option.map_eq_some_iff.1 h
    obtain ⟨h1, h2, h3⟩ := mapAll_plain (trusted := trusted) hr
    cases he : env.clone with
    | true =>
      have hs : Simple cloneStep := ⟨rfl, rfl, rfl, rfl, rfl, nofun⟩
      have hp : plainOK trusted cloneStep := ⟨by decide, by decide, fun _ => ⟨rfl, rfl, rfl, rfl⟩⟩
      simp only [hc, if_true, List.forall_mem_cons, List.nil_append, and_self, List.map_cons]
      exact ⟨⟨hs, h1⟩, by rw [h2]; rfl, by rw [← h3]; exact ⟨fun h => h.2, fun h => ⟨hp, h⟩⟩⟩
    | false =>
      simp only [hc, List.nil_append, Bool.false_eq_true, if_false, and_false]
      exact ⟨h1, h2, h3⟩
  · rw [if_pos (by simpa using hc)] at h
    rw [if_neg (by simp [hc])]
    exact mapAll_plain h

/-- C109: a legacy file without a matrix is accepted by the linter once it is converted exactly if it
meets `LegacyOK`. -/
theorem C109_legacy (X : LegacyLib) (env : Env) (c : Config) (remote : String) (p : Drone.Pipeline) (trusted : Bool)
    (h : toPipeline X env c remote = some p) (names : List String) (hn : Renamed (stepNames env c) names) :
    lint (.pipeline p) trusted = .ok () ↔ LegacyOK trusted env c names := by
  obtain ⟨steps, services, volumes, h1, h2, h3, e1, e2, e3, _, e5, _⟩ := toPipeline_inv h
  obtain ⟨a1, a2, a3⟩ := toSteps_plain (trusted := trusted) h1
  obtain ⟨b1, b2, b3⟩ := mapAll_plain (trusted := trusted) h2
  have hpl : p.platform = {} := by
    simp only [toPipeline, Option.bind_eq_some_iff, Option.map_eq_some_iff] at h
    obtain ⟨s, _, v, _, w, _, rfl⟩ := h
    rfl
  have hnames : (renameLoop [] 0 steps).map (·.name) = names := by
    have := renamed_loop steps
    rw [a2] at this
    exact renamed_unique this hn
  have hclone : cloneNames p = if c.clone = [] ∧ env.clone = false then ["clone"] else [] := by
    unfold cloneNames
    rw [e5]
    by_cases hc : c.clone = [] <;> cases env.clone <;> simp [hc]
  rw [lint_simple e1 e2 hpl]
  · rw [List.map_append, hnames, b2, hclone, List.forall_mem_append, plainOK_rename, a3, b3, ← List.forall_mem_append, e3,
      List.map_eq_nil_iff, toVolumes_nil h3, ← List.append_assoc]
    exact ⟨fun ⟨h1, h2, h3⟩ => ⟨h1, h2, h3⟩, fun ⟨h1, h2, h3⟩ => ⟨h1, h2, h3⟩⟩
  · intro d hd
    rcases List.mem_append.1 hd with hd | hd
    · obtain ⟨e, he, n, rfl⟩ := forall₂_right (renameLoop_alike steps [] 0) hd
      have := a1 e he
      exact ⟨this.1, this.2, this.3, this.4, this.5, this.6⟩
    · exact b1 d hd
  · rw [e3]
    intro v hv
    obtain ⟨w, hw, rfl⟩ := List.mem_map.1 hv
    obtain ⟨s, rfl⟩ := toVolumes_plain h3 w hw
    exact ⟨_, rfl, by simp, rfl, hexName_free s⟩

/-- C109: the names of the steps are determined by the file. -/
theorem C109_names (orig : List String) : (∃! names, Renamed orig names) ∧ (orig.Nodup → Renamed orig orig) := by
  refine ⟨?_, renamed_nodup⟩
  have h := renamed_loop (orig.map fun n => ({ name := n } : Drone.Container))
  have e : (orig.map fun n => ({ name := n } : Drone.Container)).map (·.name) = orig := by
    rw [List.map_map]; exact List.map_id _
  rw [e] at h
  exact ⟨_, h, fun _ hb => renamed_unique hb h⟩

/-- C109: a service with the name of a step that is the first with it. -/
theorem C109_service_clash (X : LegacyLib) (env : Env) (c : Config) (remote : String) (p : Drone.Pipeline) (trusted : Bool)
    (h : toPipeline X env c remote = some p) (x y : Legacy.Container) (hx : x ∈ c.clone ++ c.pipeline) (hy : y ∈ c.services)
    (hxy : x.name = y.name) : lint (.pipeline p) trusted ≠ .ok () := by
  obtain ⟨names, hn, _⟩ := (C109_names (stepNames env c)).1
  rw [Ne, C109_legacy X env c remote p trusted h names hn]
  intro hok
  have hm : x.name ∈ stepNames env c := by
    unfold stepNames
    split
    · rename_i hc
      rw [hc.1, List.nil_append] at hx
      exact List.mem_cons_of_mem _ (List.mem_map_of_mem hx)
    · exact List.mem_map_of_mem hx
  have hin : ∀ a ∈ stepNames env c, a ∈ names := by
    intro a ha
    obtain ⟨i, hi⟩ := List.mem_iff_getElem?.1 ha
    have := hn.2 i a hi
    by_cases ht : a ∈ names.take i
    · exact List.mem_of_mem_take ht
    · rw [if_neg ht] at this
      exact List.mem_of_getElem? this
  have := hok.unique
  rw [List.nodup_append] at this
  exact this.2.2 _ (List.mem_append_right _ (hin _ hm)) _ (List.mem_map_of_mem hy) hxy

/-- C109: without a clone section, and if none is added, no step may be called clone. -/
theorem C109_clone (X : LegacyLib) (env : Env) (c : Config) (remote : String) (p : Drone.Pipeline) (trusted : Bool)
    (h : toPipeline X env c remote = some p) (hc : c.clone = []) (he : env.clone = false) (x : Legacy.Container)
    (hx : x ∈ c.pipeline ++ c.services) (hn : x.name = "clone") : lint (.pipeline p) trusted ≠ .ok () := by
  obtain ⟨names, hr, _⟩ := (C109_names (stepNames env c)).1
  rw [Ne, C109_legacy X env c remote p trusted h names hr]
  intro hok
  have := hok.unique
  rw [if_pos ⟨hc, he⟩, List.append_assoc, List.nodup_append] at this
  refine this.2.2 "clone" (by simp) "clone" ?_ rfl
  rcases List.mem_append.1 hx with hx | hx
  · refine List.mem_append_left _ ?_
    have hm : "clone" ∈ stepNames env c := by
      unfold stepNames
      rw [if_neg (by simp [he]), hc, List.nil_append, ← hn]
      exact List.mem_map_of_mem hx
    obtain ⟨i, hi⟩ := List.mem_iff_getElem?.1 hm
    have := hr.2 i _ hi
    by_cases ht : "clone" ∈ names.take i
    · exact List.mem_of_mem_take ht
    · rw [if_neg ht] at this
      exact List.mem_of_getElem? this
  · refine List.mem_append_right _ ?_
    rw [← hn]
    exact List.mem_map_of_mem hx

/-! ### Files with a matrix -/

theorem mapContainer_simple {f : String → String} (hf : Replaces f) {d : Drone.Container} (h : Simple d)
    (hm : ∀ v, some v ∈ d.volumes → '$' ∉ v.name.toList) : Simple (storedContainer (mapContainer f d)) := by
  refine ⟨?_, ?_, ?_, ?_, ?_, ?_⟩
  · simp [storedContainer, mapContainer, h.build]
  · simp [storedContainer, mapContainer, h.devices]
  · simp [storedContainer, mapContainer, h.network, (hf.empty "").2]
  · simp [storedContainer, mapContainer, h.ports]
  · simp [storedContainer, mapContainer, h.deps]
  · intro m hm'
    simp only [storedContainer, mapContainer, List.mem_map] at hm'
    obtain ⟨o, ho, rfl⟩ := hm'
    obtain ⟨v, rfl, hv⟩ := h.mounts o ho
    refine ⟨_, rfl, ?_⟩
    show ¬ ReservedVolume (f v.name)
    rw [hf.plain _ (hm v ho)]
    exact hv

theorem mapContainer_plain {f : String → String} (hf : Replaces f) {trusted : Bool} {d : Drone.Container} :
    plainOK trusted (storedContainer (mapContainer f d)) ↔ plainOK trusted d := by
  constructor
  · rintro ⟨h1, h2, h3⟩
    refine ⟨fun e => h1 ((hf.empty _).2 e), fun e => h2 ((hf.empty _).2 e), fun ht => ?_⟩
    have := h3 ht
    simp only [storedContainer, mapContainer, List.map_eq_nil_iff] at this
    exact this
  · rintro ⟨h1, h2, h3⟩
    refine ⟨fun e => h1 ((hf.empty _).1 e), fun e => h2 ((hf.empty _).1 e), fun ht => ?_⟩
    simp only [storedContainer, mapContainer, List.map_eq_nil_iff]
    exact h3 ht

/-- The containers that an axis keeps, in the multiplicity that C70 states. -/
def Spec.kept (axis : GoMap String) (l : List Drone.Container) : List Drone.Container :=
  l.flatMap fun c => List.replicate (copies axis c) c

/-- C109: the pipeline of an axis is accepted exactly if the names of the containers it keeps differ
once the values are filled in, all of these have names and images, and, in an untrusted repository,
nothing needs trust: here volumes count even if no container that is kept mounts them. -/
theorem C109_axis (X : LegacyLib) (env : Env) (c : Config) (remote : String) (p : Drone.Pipeline) (trusted : Bool)
    (h : toPipeline X env c remote = some p) (steps services : List Drone.Container)
    (hs : p.steps = steps.map some) (hv : p.services = services.map some) (i : Nat) (axis : GoMap String)
    (ha : ∀ kv ∈ axis, kv.2 ≠ "") :
    lint (.pipeline (storedPipeline (mapPipeline (fillString X axis) (axisPipeline p steps services i axis)))) trusted = .ok () ↔
      ((if c.clone = [] ∧ env.clone = false then ["clone"] else []) ++
        (kept axis steps ++ kept axis services).map fun d => fillString X axis d.name).Nodup ∧
      (∀ d ∈ steps ++ services, copies axis d ≠ 0 →
        PlainOK trusted d.name d.image d.privileged d.dns d.dnsSearch d.extraHosts) ∧
      (trusted = false → ∀ x ∈ c.pipeline ++ c.services, x.volumes = []) := by
  have hf := fillString_replaces X axis ha
  obtain ⟨steps', services', volumes, h1, h2, h3, e1, e2, e3, _, e5, _⟩ := toPipeline_inv h
  have inj : Function.Injective (some : Drone.Container → Option Drone.Container) := Option.some_injective _
  have es : steps = renameLoop [] 0 steps' := List.map_injective_iff.2 inj (hs.symm.trans e1)
  have ev : services = services' := List.map_injective_iff.2 inj (hv.symm.trans e2)
  have hpl : p.platform = {} := by
    simp only [toPipeline, Option.bind_eq_some_iff, Option.map_eq_some_iff] at h
    obtain ⟨s, _, v, _, w, _, rfl⟩ := h
    rfl
  have hclone : cloneNames p = if c.clone = [] ∧ env.clone = false then ["clone"] else [] := by
    unfold cloneNames
    rw [e5]
    by_cases hc : c.clone = [] <;> cases env.clone <;> simp [hc]
  have hmounts : ∀ d ∈ steps ++ services, Simple d ∧ ∀ v, some v ∈ d.volumes → '$' ∉ v.name.toList := by
    have hx : ∀ {l r}, mapAll (toContainer X) l = some r → ∀ d ∈ r, Simple d ∧ ∀ v, some v ∈ d.volumes → '$' ∉ v.name.toList := by
      intro l r hr d hd
      obtain ⟨x, _, hx⟩ := forall₂_right (mapAll_forall₂ hr) hd
      refine ⟨(toContainer_simple hx).1, fun v hv => ?_⟩
      obtain ⟨_, _, y, _, e⟩ := forall₂_right (toContainer_volumes hx) hv
      rw [Option.some.inj e]
      intro hd
      exact absurd (hexName_isHex hd) (by unfold Spec.isHex; decide)
    intro d hd
    rcases List.mem_append.1 hd with hd | hd
    · rw [es] at hd
      obtain ⟨e, he, n, rfl⟩ := forall₂_right (renameLoop_alike steps' [] 0) hd
      have : Simple e ∧ ∀ v, some v ∈ e.volumes → '$' ∉ v.name.toList := by
        unfold toSteps at h1
        split at h1
        · exact hx h1 e he
        · obtain ⟨r, hr, rfl⟩ := Option.map_eq_some_iff.1 h1
          split at he
          · rcases List.mem_cons.1 he with rfl | he
            · exact ⟨⟨rfl, rfl, rfl, rfl, rfl, nofun⟩, nofun⟩
            · exact hx hr e he
          · exact hx hr e he
      exact ⟨⟨this.1.1, this.1.2, this.1.3, this.1.4, this.1.5, this.1.6⟩, this.2⟩
    · rw [ev] at hd
      exact hx h2 d hd
  have hmap : ∀ l : List Drone.Container,
      List.map (Option.map storedContainer) (List.map (Option.map (mapContainer (fillString X axis)))
        (l.flatMap fun c => List.replicate (copies axis c) (some c))) =
      ((kept axis l).map fun d => storedContainer (mapContainer (fillString X axis) d)).map some := by
    intro l
    unfold kept
    rw [List.map_map, List.map_map, List.map_flatMap, List.map_flatMap]
    congr 1
    funext d
    simp
  have hmem : ∀ (l : List Drone.Container) d, d ∈ kept axis l ↔ d ∈ l ∧ copies axis d ≠ 0 := by
    intro l d
    unfold kept
    rw [List.mem_flatMap]
    constructor
    · rintro ⟨e, he, hd⟩
      obtain ⟨h1, rfl⟩ := List.mem_replicate.1 hd
      exact ⟨he, h1⟩
    · rintro ⟨h1, h2⟩
      exact ⟨d, h1, List.mem_replicate.2 ⟨h2, rfl⟩⟩
  rw [lint_simple (steps := (kept axis steps).map fun d => storedContainer (mapContainer (fillString X axis) d))
    (services := (kept axis services).map fun d => storedContainer (mapContainer (fillString X axis) d)) (hmap steps)
    (hmap services)]
  · have ec : cloneNames (storedPipeline (mapPipeline (fillString X axis) (axisPipeline p steps services i axis))) =
        if c.clone = [] ∧ env.clone = false then ["clone"] else [] := hclone
    have evol : (storedPipeline (mapPipeline (fillString X axis) (axisPipeline p steps services i axis))).volumes =
        p.volumes.map (Option.map (mapVolume (fillString X axis))) := rfl
    rw [ec, evol, List.map_eq_nil_iff, e3, List.map_eq_nil_iff, toVolumes_nil h3, ← List.map_append, List.map_map]
    refine and_congr Iff.rfl (and_congr ?_ Iff.rfl)
    constructor
    · intro hall d hd hc
      refine (mapContainer_plain hf).1 (hall _ (List.mem_map.2 ⟨d, ?_, rfl⟩))
      rw [List.mem_append, hmem, hmem, ← or_and_right, ← List.mem_append]
      exact ⟨hd, hc⟩
    · intro hall b hb
      obtain ⟨d, hd, rfl⟩ := List.mem_map.1 hb
      rw [List.mem_append, hmem, hmem, ← or_and_right, ← List.mem_append] at hd
      exact (mapContainer_plain hf).2 (hall d hd.1 hd.2)
  · have e0 : fillString X axis "" = "" := (hf.empty "").2 rfl
    simp only [storedPipeline, mapPipeline, axisPipeline, hpl, e0]
  · intro d hd
    rw [← List.map_append] at hd
    obtain ⟨e, he, rfl⟩ := List.mem_map.1 hd
    rw [List.mem_append, hmem, hmem, ← or_and_right, ← List.mem_append] at he
    exact mapContainer_simple hf (hmounts e he.1).1 (hmounts e he.1).2
  · intro v hv
    have hv' : v ∈ p.volumes.map (Option.map (mapVolume (fillString X axis))) := hv
    rw [e3, List.map_map] at hv'
    obtain ⟨w, hw, rfl⟩ := List.mem_map.1 hv'
    obtain ⟨s, rfl⟩ := toVolumes_plain h3 w hw
    refine ⟨_, rfl, by simp [mapVolume], rfl, ?_⟩
    show ¬ ReservedVolume (fillString X axis (hexName s))
    rw [hf.plain]
    · exact hexName_free s
    · intro hd
      exact absurd (hexName_isHex hd) (by unfold Spec.isHex; decide)

/-- C109: a container that meets two entries of its matrix condition makes the pipeline unusable. -/
theorem C109_twice (X : LegacyLib) (env : Env) (c : Config) (remote : String) (p : Drone.Pipeline) (trusted : Bool)
    (h : toPipeline X env c remote = some p) (steps services : List Drone.Container)
    (hs : p.steps = steps.map some) (hv : p.services = services.map some) (i : Nat) (axis : GoMap String)
    (ha : ∀ kv ∈ axis, kv.2 ≠ "") (d : Drone.Container) (hd : d ∈ steps ++ services) (k l v w : String) (hkl : k ≠ l)
    (hk : (k, v) ∈ d.cond.matrix) (hl : (l, w) ∈ d.cond.matrix) (hak : axis.get? k = some v) (hal : axis.get? l = some w) :
    lint (.pipeline (storedPipeline (mapPipeline (fillString X axis) (axisPipeline p steps services i axis)))) trusted ≠ .ok () := by
  rw [Ne, C109_axis X env c remote p trusted h steps services hs hv i axis ha]
  rintro ⟨hnd, _⟩
  have hcop : 2 ≤ copies axis d := by
    unfold copies
    rw [if_neg (List.ne_nil_of_mem hk)]
    have hsp : [(k, v), (l, w)].Subperm (d.cond.matrix.filter fun kv => axis.get? kv.1 = some kv.2) := by
      refine List.subperm_of_subset (by simp [hkl]) fun x hx => ?_
      rw [List.mem_filter]
      simp only [List.mem_cons, List.not_mem_nil, or_false] at hx
      rcases hx with rfl | rfl
      · exact ⟨hk, by simpa using hak⟩
      · exact ⟨hl, by simpa using hal⟩
    exact hsp.length_le
  have hsub : List.Sublist [d, d] (kept axis steps ++ kept axis services) := by
    have h1 : List.Sublist [d, d] (List.replicate (copies axis d) d) := (List.replicate_sublist_replicate d).2 hcop
    have h2 : ∀ l : List Drone.Container, d ∈ l → List.Sublist (List.replicate (copies axis d) d) (kept axis l) := by
      intro l hl
      unfold kept
      rw [List.flatMap_def]
      exact List.sublist_flatten_of_mem (List.mem_map.2 ⟨d, hl, rfl⟩)
    rcases List.mem_append.1 hd with hd | hd
    · exact h1.trans ((h2 _ hd).trans (List.sublist_append_left _ _))
    · exact h1.trans ((h2 _ hd).trans (List.sublist_append_right _ _))
  have := (hsub.map fun d => fillString X axis d.name)
  have := (List.nodup_append.1 hnd).2.1.sublist this
  simp at this

/-- C109: a mount that leads to a host directory in the pipeline before the values are filled in leads
to the directory with the values filled in, and the names of the volumes are still different. -/
theorem C109_axis_mounts (X : LegacyLib) (env : Env) (c : Config) (remote : String) (p : Drone.Pipeline)
    (h : toPipeline X env c remote = some p) (steps services : List Drone.Container) (i : Nat) (axis : GoMap String)
    (ha : ∀ kv ∈ axis, kv.2 ≠ "") (q : Drone.Pipeline)
    (hq : q = storedPipeline (mapPipeline (fillString X axis) (axisPipeline p steps services i axis))) :
    (q.volumes.map fun v => v.map (·.name)).Nodup ∧
    (∀ d ∈ steps ++ services, copies axis d ≠ 0 → ∃ e, some e ∈ q.steps ++ q.services ∧
      e.name = fillString X axis d.name ∧
      List.Forall₂ (fun m m' => ∀ v, m = some v → ∀ path, (∃ w, some w ∈ p.volumes ∧ w.name = v.name ∧ w.hostPath = some { path := path }) →
        ∃ v', m' = some v' ∧ v'.mountPath = fillString X axis v.mountPath ∧
          ∃ w', some w' ∈ q.volumes ∧ w'.name = v'.name ∧ w'.hostPath = some { path := fillString X axis path }) d.volumes e.volumes) := by
  have hf := fillString_replaces X axis ha
  obtain ⟨steps', services', volumes, h1, h2, h3, e1, e2, e3, _, e5, _⟩ := toPipeline_inv h
  have evol : q.volumes = p.volumes.map (Option.map (mapVolume (fillString X axis))) := by rw [hq]; rfl
  have hname : ∀ w, w ∈ volumes → fillString X axis w.name = w.name := by
    intro w hw
    obtain ⟨s, rfl⟩ := toVolumes_plain h3 w hw
    exact hf.plain _ fun hd => absurd (hexName_isHex hd) (by unfold Spec.isHex; decide)
  constructor
  · rw [evol, e3, List.map_map, List.map_map]
    obtain ⟨set, hi, _⟩ := volumesLoop_inv (set := []) (vs := []) ⟨by simp, by simp, by simp⟩ h3
    have : List.map (((fun v => Option.map (fun x => x.name) v) ∘ Option.map (mapVolume (fillString X axis))) ∘ some) volumes =
        (volumes.map (·.name)).map some := by
      rw [List.map_map]
      refine List.map_congr_left fun w hw => ?_
      show some (fillString X axis w.name) = some w.name
      rw [hname w hw]
    rw [this]
    exact (List.nodup_map_iff (Option.some_injective _)).2 hi.nodup
  · intro d hd hc
    refine ⟨storedContainer (mapContainer (fillString X axis) d), ?_, rfl, ?_⟩
    · have key : ∀ l : List Drone.Container, d ∈ l → some (storedContainer (mapContainer (fillString X axis) d)) ∈
          List.map (Option.map storedContainer) (List.map (Option.map (mapContainer (fillString X axis)))
            (l.flatMap fun c => List.replicate (copies axis c) (some c))) := by
        intro l hl
        rw [List.map_map]
        exact List.mem_map.2 ⟨some d, List.mem_flatMap.2 ⟨d, hl, List.mem_replicate.2 ⟨hc, rfl⟩⟩, rfl⟩
      rw [hq]
      rcases List.mem_append.1 hd with hd | hd
      · exact List.mem_append_left _ (key steps hd)
      · exact List.mem_append_right _ (key services hd)
    · show List.Forall₂ _ d.volumes (d.volumes.map _)
      rw [List.forall₂_map_right_iff, List.forall₂_same]
      rintro m hm v rfl path ⟨w, hw, hwn, hwp⟩
      refine ⟨_, rfl, rfl, mapVolume (fillString X axis) w, ?_, ?_, ?_⟩
      · rw [evol]
        exact List.mem_map.2 ⟨some w, hw, rfl⟩
      · show fillString X axis w.name = fillString X axis v.name
        rw [hwn]
      · show w.hostPath.map _ = _
        rw [hwp]
        rfl

/-! ### Bitbucket files -/

/-- When a Bitbucket file is accepted once it is converted; `steps` are the steps of the chosen pipeline. -/
structure Spec.BitbucketOK (c : Bitbucket.Config) (steps : List Bitbucket.Step) : Prop where
  unique : ("clone" :: (steps.mapIdx fun i s => if s.name = "" then "step_" ++ toString i else s.name) ++ c.services.keys).Nodup
  images : ∀ s ∈ steps, s.image ≠ "" ∨ c.image ≠ ""
  services : ∀ n s, (n, some s) ∈ c.services → n ≠ "" ∧ s.image ≠ ""

/-- The container of a step. -/
def builtStep (image : String) (i : Nat) (s : Bitbucket.Step) : Drone.Container :=
  { name := if s.name = "" then "step_" ++ toString i else s.name
    image := if s.image = "" then image else s.image
    commands := s.script }

theorem serviceLoop_services : ∀ (l : GoMap (Option Bitbucket.Step)) (sv : List Drone.Container), Bitbucket.serviceLoop l = some sv →
    sv.map (·.name) = l.keys ∧
    (∀ d ∈ sv, ∃ n s, (n, some s) ∈ l ∧ d = { name := n, image := s.image, commands := s.script }) ∧
    ∀ n s, (n, some s) ∈ l → ({ name := n, image := s.image, commands := s.script } : Drone.Container) ∈ sv := by
  intro l
  unfold Bitbucket.serviceLoop
  induction l with
  | nil =>
    intro sv h
    simp only [mapAll, Option.some.injEq] at h
    subst h
    exact ⟨rfl, nofun, nofun⟩
  | cons kv l ih =>
    intro sv h
    unfold mapAll at h
    obtain ⟨d, hd, h⟩ := Option.bind_eq_some_iff.1 h
    obtain ⟨r, hr, rfl⟩ := Option.map_eq_some_iff.1 h
    obtain ⟨e, he, rfl⟩ := Option.map_eq_some_iff.1 hd
    obtain ⟨k, o⟩ := kv
    obtain ⟨s, rfl, rfl⟩ := Option.map_eq_some_iff.1 he
    obtain ⟨h1, h2, h3⟩ := ih r hr
    refine ⟨?_, ?_, ?_⟩
    · rw [List.map_cons, h1]; rfl
    · intro d hd
      rcases List.mem_cons.1 hd with rfl | hd
      · exact ⟨k, s, List.mem_cons_self, rfl⟩
      · obtain ⟨n, t, ht, e⟩ := h2 d hd
        exact ⟨n, t, List.mem_cons_of_mem _ ht, e⟩
    · intro n t ht
      rcases List.mem_cons.1 ht with ht | ht
      · cases ht
        exact List.mem_cons_self
      · exact List.mem_cons_of_mem _ (h3 n t ht)

theorem stepLoop_steps (image : String) : ∀ (l : List (Option Bitbucket.Step)) (i : Nat) (r : List Drone.Container),
    Bitbucket.stepLoop image i l = some r → ∃ steps : List Bitbucket.Step, l = steps.map some ∧
      r = steps.mapIdx fun j s => builtStep image (i + j) s
  | [], i, r, h => by
    simp only [Bitbucket.stepLoop, Option.some.injEq] at h
    exact ⟨[], rfl, h ▸ rfl⟩
  | o :: l, i, r, h => by
    unfold Bitbucket.stepLoop at h
    obtain ⟨c, hc, h⟩ := Option.bind_eq_some_iff.1 h
    obtain ⟨cs, hcs, rfl⟩ := Option.map_eq_some_iff.1 h
    obtain ⟨s, rfl, rfl⟩ := Option.map_eq_some_iff.1 hc
    obtain ⟨steps, rfl, rfl⟩ := stepLoop_steps image l (i + 1) cs hcs
    refine ⟨s :: steps, rfl, ?_⟩
    rw [List.mapIdx_cons]
    congr 1
    congr 1
    funext j t
    rw [show i + 1 + j = i + (j + 1) by omega]

/-- C109: a Bitbucket file is accepted once it is converted exactly if it meets `BitbucketOK`; it does
not matter whether the repository is trusted. -/
theorem C109_bitbucket (g : Glob) (it : Orders (List (Option Bitbucket.Step))) (its : Orders (Option Bitbucket.Step))
    (c : Bitbucket.Config) (ref : String) (p : Drone.Pipeline) (trusted : Bool) (steps : List Bitbucket.Step)
    (hs : c.pipeline g it ref = steps.map some) (h : Bitbucket.toPipeline g it its c ref = some p) :
    lint (.pipeline p) trusted = .ok () ↔ BitbucketOK c steps := by
  unfold Bitbucket.toPipeline at h
  obtain ⟨cs, hcs, h⟩ := Option.bind_eq_some_iff.1 h
  obtain ⟨sv, hsv, rfl⟩ := Option.map_eq_some_iff.1 h
  obtain ⟨steps', e, rfl⟩ := stepLoop_steps _ _ _ _ hcs
  rw [hs] at e
  have := List.map_injective_iff.2 (Option.some_injective _) e
  subst this
  simp only [Nat.zero_add]
  obtain ⟨hsvn, hsimple, hall⟩ := serviceLoop_services _ _ hsv
  rw [lint_simple rfl rfl rfl]
  · have en : (List.mapIdx (fun j s => builtStep c.image j s) steps).map (·.name) =
        steps.mapIdx fun i s => if s.name = "" then "step_" ++ toString i else s.name := by
      apply List.ext_getElem?
      intro j
      simp [builtStep, Function.comp_def]
    rw [List.map_append, en, hsvn]
    have hperm : (["clone"] ++ ((steps.mapIdx fun i s => if s.name = "" then "step_" ++ toString i else s.name) ++
        (its.order 0 c.services).keys)).Nodup ↔
        ("clone" :: (steps.mapIdx fun i s => if s.name = "" then "step_" ++ toString i else s.name) ++ c.services.keys).Nodup := by
      apply List.Perm.nodup_iff
      exact (List.Perm.append_left _ ((its.perm 0 c.services).map Prod.fst)).cons _
    constructor
    · rintro ⟨h1, h2, _⟩
      refine ⟨hperm.1 h1, fun s hs => ?_, fun n s hm => ?_⟩
      · obtain ⟨j, hj, rfl⟩ := List.mem_iff_getElem.1 hs
        have := (h2 _ (List.mem_append_left _ (List.mem_mapIdx.2 ⟨j, hj, rfl⟩))).image
        by_contra hne
        push Not at hne
        exact this (by simp [builtStep, hne.1, hne.2])
      · have := h2 _ (List.mem_append_right _ (hall n s ((its.perm 0 c.services).mem_iff.2 hm)))
        exact ⟨this.name, this.image⟩
    · rintro ⟨h1, h2, h3⟩
      refine ⟨hperm.2 h1, fun d hd => ?_, fun _ => rfl⟩
      rcases List.mem_append.1 hd with hd | hd
      · obtain ⟨j, hj, rfl⟩ := List.mem_mapIdx.1 hd
        refine ⟨?_, ?_, fun _ => ⟨rfl, rfl, rfl, rfl⟩⟩
        · dsimp only [builtStep]
          split
          · intro e
            have := congrArg (fun s => s.toList.length) e
            simp at this
          · assumption
        · dsimp only [builtStep]
          split
          · rename_i he
            exact (h2 _ (List.getElem_mem hj)).resolve_left fun hn => hn he
          · assumption
      · obtain ⟨n, s, hm, rfl⟩ := hsimple d hd
        have hm := (its.perm 0 c.services).mem_iff.1 hm
        exact ⟨(h3 n s hm).1, (h3 n s hm).2, fun _ => ⟨rfl, rfl, rfl, rfl⟩⟩
  · intro d hd
    rcases List.mem_append.1 hd with hd | hd
    · obtain ⟨j, hj, rfl⟩ := List.mem_mapIdx.1 hd
      exact ⟨rfl, rfl, rfl, rfl, rfl, nofun⟩
    · obtain ⟨n, s, _, rfl⟩ := hsimple d hd
      exact ⟨rfl, rfl, rfl, rfl, rfl, nofun⟩
  · exact nofun

/-! ### Cases -/

def exRestart : Config :=
  { pipeline := [{ name := "build", image := "golang" }, { name := "build", image := "golang" }]
    services := [{ name := "redis", image := "redis" }] }

/-- A file with a service and two steps with the same name. -/
example : LegacyOK false {} exRestart ["build", "build_1"] := by
  refine ⟨by decide, ?_, ?_⟩
  · intro x hx
    simp only [exRestart, List.nil_append, List.mem_append, List.mem_cons, List.not_mem_nil, or_false] at hx
    rcases hx with (rfl | rfl) | rfl <;> exact ⟨by decide, by decide, by decide⟩
  · intro _ x hx
    simp only [exRestart, List.mem_append, List.mem_cons, List.not_mem_nil, or_false] at hx
    rcases hx with (rfl | rfl) | rfl <;> rfl

example : Renamed ["build", "build"] ["build", "build_1"] := by
  refine ⟨rfl, fun i a h => ?_⟩
  match i with
  | 0 => cases h; decide
  | 1 => cases h; decide
  | i + 2 => cases h

/-- A legacy file in which a step and a service are called redis, and one with a step called clone. -/
example (X : LegacyLib) (p q : Drone.Pipeline)
    (h : toPipeline X {} { pipeline := [{ name := "redis", image := "redis" }], services := [{ name := "redis", image := "redis" }] } "" = some p)
    (h' : toPipeline X {} { pipeline := [{ name := "clone", image := "git" }] } "" = some q) :
    lint (.pipeline p) true ≠ .ok () ∧ lint (.pipeline q) true ≠ .ok () :=
  ⟨C109_service_clash X {} _ "" p true h { name := "redis", image := "redis" } { name := "redis", image := "redis" } (by simp)
    (by simp) rfl, C109_clone X {} _ "" q true h' rfl rfl { name := "clone", image := "git" } (by simp) rfl⟩

/-- A step for `GO=1.11` and `DB=mysql`. -/
def exBoth : Drone.Container :=
  { name := "test", image := "golang", pull := "if-not-exists", cond := { matrix := [("GO", "1.11"), ("DB", "mysql")] } }

def exBothFile : Config :=
  { hasMatrix := true
    pipeline := [{ name := "test", image := "golang", constraints := { matrix := [("GO", "1.11"), ("DB", "mysql")] } }] }

/-- In the axis with both values it comes twice, and the linter refuses the pipeline. -/
example : ∃ p, toPipeline exLegacy {} exBothFile "" = some p ∧
    lint (.pipeline (storedPipeline (mapPipeline (fillString exLegacy [("GO", "1.11"), ("DB", "mysql")])
      (axisPipeline p [exBoth] [] 0 [("GO", "1.11"), ("DB", "mysql")])))) true ≠ .ok () :=
  ⟨_, rfl, C109_twice exLegacy {} exBothFile "" _ true rfl [exBoth] [] rfl rfl 0 _ (by decide) exBoth (by simp) "GO" "DB" "1.11" "mysql"
    (by decide) (by decide) (by decide) rfl rfl⟩

/-- A Bitbucket file with a step that has a name and one that has none. -/
example : BitbucketOK { image := "node" } [{ name := "build" }, {}] :=
  ⟨by decide, fun _ _ => .inr (by decide), nofun⟩

/-- A step that is called like the default of another. -/
example : ¬ BitbucketOK { image := "node" } [{}, { name := "step_0" }] := fun h =>
  absurd h.unique (by decide)

end Drone
