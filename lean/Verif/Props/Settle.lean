/-
C95: formatting settles.
-/
import Mathlib.Tactic.Common
import Verif.Proof.Resettle
import Verif.Props.PrettyNil

namespace Drone
open Spec Yaml Pretty

variable {R : Resolver} {L : PrettyLib} {ram : String → Option Int}

namespace Spec

/-- Reading a file and printing it. -/
def format (L : PrettyLib) (Y : YamlLib) (text : Bytes) : Option Bytes :=
  match parseBytes Y text with
  | .ok m => print L m
  | .error _ => none

/-- Formatting a number of times. -/
def formatN (L : PrettyLib) (Y : YamlLib) : Nat → Bytes → Option Bytes
  | 0, text => some text
  | n + 1, text => (formatN L Y n text).bind (format L Y)

/-- No line is longer than the reader of the program allows. -/
def ShortLines (text : Bytes) : Prop := ∃ ls, IsLines text ls ∧ ∀ l ∈ ls, l.length < 65536

end Spec

/-! ### Containers -/

/-- The limits that are kept of limits that were kept. -/
theorem resources_settle (o : Option Resources) :
    ((o.bind keptResources).bind keptResources).bind keptResources = (o.bind keptResources).bind keptResources := by
  have hk : ∀ o : Option ResourceObject, (o.bind keptObject).bind keptObject = o.bind keptObject := by
    intro o
    cases o with
    | none => rfl
    | some r =>
      simp only [Option.bind_some, keptObject]
      split
      · rfl
      · rename_i h; simp [keptObject, h]
  cases o with
  | none => rfl
  | some r =>
    by_cases h : r = {}
    · simp [keptResources, h]
    · have e : (some r).bind keptResources =
          some { limits := r.limits.bind keptObject, requests := r.requests.bind keptObject } := by
        simp [keptResources, h]
      rw [e]
      generalize hl : r.limits.bind keptObject = l
      generalize hq : r.requests.bind keptObject = q
      have kl : l.bind keptObject = l := by rw [← hl]; exact hk _
      have kq : q.bind keptObject = q := by rw [← hq]; exact hk _
      by_cases h2 : (⟨l, q⟩ : Resources) = {}
      · simp [keptResources, h2]
      · have : (some (⟨l, q⟩ : Resources)).bind keptResources = some ⟨l, q⟩ := by
          rw [Option.bind_some, keptResources, if_neg h2, kl, kq]
        rw [this, this]

/-- Formatting keeps every part of the container. -/
structure Stable (c : Container) : Prop where
  build : c.build.bind keptBuild = c.build
  push : c.push.bind keptPush = c.push
  settings : keepMap keptParameter c.settings = c.settings
  environment : keepMap keptVariable c.environment = c.environment
  devices : keepList keptDevice c.devices = c.devices
  ports : keepList some c.ports = c.ports
  resources : c.resources.bind keptResources = c.resources
  volumes : keepList keptMount c.volumes = c.volumes
  cond : keptConditions c.cond = c.cond

theorem Stable.kept {c : Container} (h : Stable c) (hb : ¬ blankContainer c) : keptContainer c = some c := by
  unfold keptContainer
  rw [if_neg hb, h.build, h.push, h.settings, h.environment, h.devices, h.ports, h.resources, h.volumes, h.cond]

theorem keepList_fix {α : Type} {f : α → Option α} {l : List (Option α)} (h : ∀ o ∈ l, ∃ a, o = some a ∧ f a = some a) :
    keepList f l = l := by
  unfold keepList
  induction l with
  | nil => rfl
  | cons o l ih =>
    obtain ⟨a, rfl, ha⟩ := h o List.mem_cons_self
    rw [List.filterMap_cons, Option.bind_some, ha, List.map_cons, ih fun o ho => h o (List.mem_cons_of_mem _ ho)]

theorem keepMap_fix {α : Type} {f : α → Option α} {m : GoMap (Option α)}
    (h : ∀ k o, (k, o) ∈ m → ∃ a, o = some a ∧ f a = some a) : keepMap f m = m := by
  unfold keepMap
  induction m with
  | nil => rfl
  | cons p m ih =>
    obtain ⟨k, o⟩ := p
    obtain ⟨a, rfl, ha⟩ := h k o List.mem_cons_self
    rw [List.filterMap_cons]
    simp only [Option.bind_some, ha, Option.map_some]
    rw [ih fun k o ho => h k o (List.mem_cons_of_mem _ ho)]

theorem keepList_mem_some {α β : Type} {f : α → Option β} {l : List (Option α)} {o : Option β} (h : o ∈ keepList f l) :
    ∃ a b, some a ∈ l ∧ f a = some b ∧ o = some b := by
  unfold keepList at h
  obtain ⟨b, h1, rfl⟩ := List.mem_map.1 h
  obtain ⟨o', h2, h3⟩ := List.mem_filterMap.1 h1
  obtain ⟨a, rfl, h4⟩ := Option.bind_eq_some_iff.1 h3
  exact ⟨a, b, h2, h4, rfl⟩

/-- A function that keeps a value or drops it, and keeps what it kept. -/
theorem keepList_twice {α : Type} {f : α → Option α} (hf : ∀ a b, f a = some b → f b = some b) (l : List (Option α)) :
    keepList f (keepList f l) = keepList f l := by
  refine keepList_fix fun o ho => ?_
  obtain ⟨a, b, _, h2, rfl⟩ := keepList_mem_some ho
  exact ⟨b, rfl, hf a b h2⟩

theorem sortBuild_ne {b : Build} (h : BuildOk R L b) (hb : b ≠ {}) : sortBuild b ≠ {} := by
  intro e
  apply hb
  cases b
  simp only [sortBuild, Build.mk.injEq] at e ⊢
  obtain ⟨e1, e2, e3, e4, e5, e6⟩ := e
  exact ⟨(sorted_eq_nil h.1.1).1 e1, e2, e3, e4, e5, (sorted_eq_nil h.2.2.2.2.2.1).1 e6⟩

theorem stable_read {c : Container} (h : ContainerOk R L ram c) : Stable (readContainer (readContainer c)) := by
  have h2 := containerOk_read h
  constructor
  · show Option.bind _ _ = Option.map sortBuild _
    show ((((readContainer c).build.bind keptBuild).map sortBuild).bind keptBuild) = _
    cases hb : (readContainer c).build with
    | none => rfl
    | some b =>
      by_cases hb0 : b = {}
      · simp [keptBuild, hb0]
      · have := sortBuild_ne (h2.build b hb) hb0
        simp [keptBuild, hb0, this]
  · show ((readContainer c).push.bind keptPush).bind keptPush = _
    show _ = (readContainer c).push.bind keptPush
    cases hb : (readContainer c).push with
    | none => rfl
    | some b =>
      by_cases hb0 : b = {}
      · simp [keptPush, hb0]
      · simp [keptPush, hb0]
  · refine keepMap_fix fun k o hm => ?_
    obtain ⟨a, b, rfl, _, hb⟩ := keptMapS_mem sortParam h2.settings.1 hm
    refine ⟨b, rfl, ?_⟩
    unfold sortParam at hb
    split at hb
    · simp only [Option.some.injEq] at hb; subst hb; rfl
    · rename_i hs
      simp only [Option.some.injEq] at hb; subst hb
      simp [keptParameter, hs]
  · refine keepMap_fix fun k o hm => ?_
    obtain ⟨a, b, rfl, _, hb⟩ := keptMapS_mem keptVariable h2.environment.1 hm
    refine ⟨b, rfl, ?_⟩
    unfold keptVariable at hb ⊢
    split at hb
    · rename_i hs
      split at hb
      · simp at hb
      · rename_i hv
        simp only [Option.some.injEq] at hb; subst hb
        simp [hs, hv]
    · rename_i hs
      simp only [Option.some.injEq] at hb; subst hb
      simp [hs]
  · refine keepList_twice (fun a b hb => ?_) _
    unfold keptDevice at hb
    split at hb
    · simp at hb
    · rename_i hn; simp only [Option.some.injEq] at hb; subst hb; simp [keptDevice, hn]
  · exact keepList_twice (fun a b hb => rfl) _
  · exact resources_settle _
  · refine keepList_twice (fun a b hb => ?_) _
    unfold keptMount at hb
    split at hb
    · simp at hb
    · rename_i hn; simp only [Option.some.injEq] at hb; subst hb; simp [keptMount, hn]
  · rfl

theorem keptMapS_eq_nil {α β : Type} (g : α → Option β) {m : GoMap (Option α)} (hn : m.keys.Nodup) :
    keptMapS g m = [] ↔ keepMap g m = [] := by
  have hp := keptMapS_perm g hn
  constructor
  · intro h
    rw [h] at hp
    exact hp.nil_eq.symm
  · intro h
    rw [h] at hp
    exact hp.eq_nil

theorem keepMap_param_eq_nil (m : GoMap (Option Parameter)) :
    keepMap sortParam m = [] ↔ keepMap keptParameter m = [] := by
  unfold keepMap
  simp only [List.filterMap_eq_nil_iff]
  refine forall_congr' fun kv => imp_congr_right fun _ => ?_
  cases kv.2 with
  | none => simp
  | some p =>
    simp only [Option.bind_some, Option.map_eq_none_iff, sortParam, keptParameter]
    split <;> simp

theorem blank_read {c : Container} (h : ContainerOk R L ram c) (hs : Stable c) :
    blankContainer (readContainer c) ↔ blankContainer c := by
  have e1 : (readContainer c).build.bind keptBuild = none ↔ c.build.bind keptBuild = none := by
    show ((c.build.bind keptBuild).map sortBuild).bind keptBuild = none ↔ _
    cases hb : c.build with
    | none => simp
    | some b =>
      by_cases hb0 : b = {}
      · simp [keptBuild, hb0]
      · have := sortBuild_ne (h.build b hb) hb0
        simp [keptBuild, hb0, this]
  have e2 : (readContainer c).push.bind keptPush = none ↔ c.push.bind keptPush = none := by
    show (c.push.bind keptPush).bind keptPush = none ↔ _
    rw [hs.push, hs.push]
  have e3 : (readContainer c).settings = [] ↔ c.settings = [] := by
    show keptMapS sortParam c.settings = [] ↔ _
    rw [keptMapS_eq_nil _ h.settings.1, keepMap_param_eq_nil, hs.settings]
  have e4 : (readContainer c).environment = [] ↔ c.environment = [] := by
    show keptMapS keptVariable c.environment = [] ↔ _
    rw [keptMapS_eq_nil _ h.environment.1, hs.environment]
  have e5 : (readContainer c).devices = c.devices := hs.devices
  have e6 : (readContainer c).ports = c.ports := hs.ports
  have e7 : (readContainer c).resources = c.resources := hs.resources
  have e8 : (readContainer c).volumes = c.volumes := hs.volumes
  have e9 : (readContainer c).cond = c.cond := hs.cond
  unfold blankContainer
  rw [e1, e2, e3, e4, e5, e6, e7, e8, e9]
  exact Iff.rfl

/-! ### Documents -/

/-- The containers that are read. -/
abbrev readContainers (l : List (Option Container)) : List (Option Container) :=
  keepList (fun c => if blankContainer c then none else some (readContainer c)) l

theorem mem_readContainers {l : List (Option Container)} {o : Option Container} (h : o ∈ readContainers l) :
    ∃ c, some c ∈ l ∧ ¬ blankContainer c ∧ o = some (readContainer c) := by
  obtain ⟨a, b, h1, h2, rfl⟩ := keepList_mem_some h
  split at h2
  · simp at h2
  · rename_i hb
    simp only [Option.some.injEq] at h2
    subst h2
    exact ⟨a, h1, hb, rfl⟩

theorem containers_settle {l : List (Option Container)} (h : ∀ c, some c ∈ l → ContainerOk R L ram c) :
    keepList keptContainer (readContainers (readContainers (readContainers l))) =
      readContainers (readContainers (readContainers l)) := by
  refine keepList_fix fun o ho => ?_
  obtain ⟨c2, h2, b2, rfl⟩ := mem_readContainers ho
  obtain ⟨c1, h1, b1, e1⟩ := mem_readContainers h2
  cases e1
  obtain ⟨c0, h0, b0, e0⟩ := mem_readContainers h1
  cases e0
  have ok0 := h c0 h0
  have ok2 := containerOk_read (containerOk_read ok0)
  exact ⟨_, rfl, (stable_read (containerOk_read ok0)).kept fun hb => b2 ((blank_read ok2 (stable_read ok0)).1 hb)⟩

theorem volumes_settle (l : List (Option Volume)) :
    keepList keptVolume (keepList keptVolume (keepList keptVolume l)) = keepList keptVolume (keepList keptVolume l) := by
  refine keepList_fix fun o ho => ?_
  obtain ⟨a1, b1, h1, e1, rfl⟩ := keepList_mem_some ho
  obtain ⟨a0, b0, h0, e0, e⟩ := keepList_mem_some h1
  cases e
  refine ⟨b1, rfl, ?_⟩
  have hk : ∀ o : Option VolumeHostPath, (o.bind keptHost).bind keptHost = o.bind keptHost := by
    intro o
    cases o with
    | none => rfl
    | some r =>
      simp only [Option.bind_some, keptHost]
      split
      · rfl
      · rename_i h; simp [keptHost, h]
  unfold keptVolume at e0 e1 ⊢
  split at e0
  · simp at e0
  simp only [Option.some.injEq] at e0
  split at e1
  · simp at e1
  rename_i hne
  simp only [Option.some.injEq] at e1
  subst e0
  dsimp only at e1 hne
  rw [hk] at e1
  subst e1
  rw [if_neg hne]
  dsimp only
  rw [hk]

theorem platform_settle (p : Platform) : keptPlatform (keptPlatform p) = keptPlatform p := by
  unfold keptPlatform
  by_cases h : p = {}
  · rw [if_pos h]; decide
  · rw [if_neg h, if_neg h]

theorem resource_settle {r : Resource} (h : ResourceOk R L ram r) (hr : ∀ x, r ≠ .registry x) :
    keptResource (readResource (readResource (readResource r))) = some (readResource (readResource (readResource r))) := by
  cases r with
  | registry x => exact absurd rfl (hr x)
  | cron c => rfl
  | signature c => rfl
  | secret s =>
    simp only [readResource, keptResource, Option.some.injEq, Resource.secret.injEq]
    have k : ∀ s : Secret, DataOk s.data → keptSecret (keptSecret s) = keptSecret s := by
      intro s hd
      simp only [keptSecret, keptData_keptData, keptData_eq_nil hd]
      by_cases hc : s.data = "" ∧ s.get = {}
      · simp [hc]
      · simp [hc]
    have k1 := k s h.1.data
    rw [k1, k1, k1]
  | pipeline p =>
    simp only [readResource, keptResource, Option.some.injEq, Resource.pipeline.injEq]
    have ht : ∀ c, keptConditions (keptConditions c) = keptConditions c := fun _ => rfl
    have e1 := containers_settle h.1.steps
    have e2 := containers_settle h.1.services
    have e3 := volumes_settle p.volumes
    unfold keptPipeline readPipeline
    dsimp only
    rw [e1, e2, e3, e3, platform_settle, platform_settle, platform_settle, ht, ht, ht]

/-! ### The printer does not panic on what was read -/

theorem noNil_read {p : Pipeline} (h : PipelineOk R L ram p) : NoNilPipeline (readPipeline p) := by
  have key : ∀ c, ContainerOk R L ram c → NoNilContainer (readContainer c) := by
    intro c hc
    have nm : ∀ {α β : Type} (f : α → Option β) (l : List (Option α)), none ∉ keepList f l := by
      intro α β f l hm
      obtain ⟨a, b, _, _, e⟩ := keepList_mem_some hm
      cases e
    refine ⟨fun kv hkv e => ?_, fun kv hkv e => ?_, nm _ _, nm _ _, nm _ _⟩
    · obtain ⟨k, o⟩ := kv
      obtain ⟨a, b, rfl, _⟩ := keptMapS_mem sortParam hc.settings.1 hkv
      simp at e
    · obtain ⟨k, o⟩ := kv
      obtain ⟨a, b, rfl, _⟩ := keptMapS_mem keptVariable hc.environment.1 hkv
      simp at e
  refine ⟨fun c hc => ?_, fun c hc => ?_, fun hm => ?_⟩
  · obtain ⟨c0, h0, _, e⟩ := mem_readContainers hc
    cases e
    exact key _ (h.steps _ h0)
  · obtain ⟨c0, h0, _, e⟩ := mem_readContainers hc
    cases e
    exact key _ (h.services _ h0)
  · obtain ⟨a, b, _, _, e⟩ := keepList_mem_some hm
    cases e

theorem print_read {rs : List Resource} (h : ∀ r ∈ rs, ResourceOk R L ram r) :
    ∃ text, print L ⟨rs.map readResource⟩ = some text := by
  cases hp : print L ⟨rs.map readResource⟩ with
  | some t => exact ⟨t, rfl⟩
  | none =>
    exfalso
    have hsrc : ∀ p, Resource.pipeline p ∈ rs.map readResource → ∃ q, p = readPipeline q ∧ PipelineOk R L ram q := by
      intro p hp
      obtain ⟨r, h1, h2⟩ := List.mem_map.1 hp
      have hr := h r h1
      cases r with
      | pipeline q => cases h2; exact ⟨q, rfl, hr.1⟩
      | _ => cases h2
    obtain ⟨p, h1, h2⟩ := (C69_panic L ⟨rs.map readResource⟩ (by
      intro p hp c hc
      obtain ⟨q, rfl, hq⟩ := hsrc p hp
      have hq := pipelineOk_read hq
      rcases hc with hc | hc
      · exact ⟨(hq.steps c hc).settings.1, (hq.steps c hc).environment.1⟩
      · exact ⟨(hq.services c hc).settings.1, (hq.services c hc).environment.1⟩)).1 hp
    obtain ⟨q, rfl, hq⟩ := hsrc p h1
    exact h2 (noNil_read hq)

/-! ### C95 -/

/-- The resources that are read. -/
def readAll (m : Manifest) : Manifest := ⟨(Spec.printable m).map readResource⟩

theorem printable_readAll (m : Manifest) : Spec.printable (readAll m) = (readAll m).resources := by
  unfold readAll Spec.printable
  dsimp only
  rw [List.filter_eq_self]
  intro r hr
  obtain ⟨r0, h1, rfl⟩ := List.mem_map.1 hr
  have := (List.mem_filter.1 h1).2
  cases r0 <;> simp_all [readResource]

theorem readAll_ok {m : Manifest} (h : ∀ r ∈ m.resources, ResourceOk R L ram r) :
    ∀ r ∈ (readAll m).resources, ResourceOk R L ram r := by
  intro r hr
  obtain ⟨r0, h1, rfl⟩ := List.mem_map.1 hr
  exact resourceOk_read (h r0 (List.mem_filter.1 h1).1)

theorem readAll_ne {m : Manifest} (h : Spec.printable m ≠ []) : Spec.printable (readAll m) ≠ [] := by
  rw [printable_readAll]
  simpa [readAll] using h

theorem readAll_print {m : Manifest} (h : ∀ r ∈ m.resources, ResourceOk R L ram r) :
    ∃ text, print L (readAll m) = some text :=
  print_read fun r hr => h r (List.mem_filter.1 hr).1

theorem readAll_settle {m : Manifest} (h : ∀ r ∈ m.resources, ResourceOk R L ram r) :
    keptManifest (readAll (readAll (readAll m))) = readAll (readAll (readAll m)) := by
  have e : readAll (readAll (readAll m)) =
      ⟨(Spec.printable m).map fun r => readResource (readResource (readResource r))⟩ := by
    have : ∀ m, readAll (readAll m) = ⟨(readAll m).resources.map readResource⟩ := by
      intro m
      conv_lhs => rw [readAll, printable_readAll]
    rw [this, this]
    simp [readAll, List.map_map, Function.comp_def]
  rw [e]
  unfold keptManifest
  dsimp only
  rw [List.filterMap_map]
  congr 1
  have key : ∀ r ∈ Spec.printable m, (keptResource ∘ fun r => readResource (readResource (readResource r))) r =
      some (readResource (readResource (readResource r))) := by
    intro r hr
    obtain ⟨h1, h2⟩ := List.mem_filter.1 hr
    refine resource_settle (h r h1) ?_
    rintro x rfl
    simp at h2
  rw [List.filterMap_congr key, ← List.filterMap_eq_map]
  rfl

theorem format_read {tree : Bytes → Except String Yaml.Node} (ht : Parses R tree) {m : Manifest} {text : Bytes}
    (h : print L m = some text) (hne : Spec.printable m ≠ []) (hlen : ShortLines text)
    (hok : ∀ r ∈ m.resources, ResourceOk R L ram r) : format L (treeLib ram tree) text = print L (readAll m) := by
  unfold format
  rw [readBack L ram ht h hne hlen hok]
  rfl

/-- C95.  Formatting settles: the text of the fourth formatting is never changed by another one. -/
theorem C95_settles_partial (R : Resolver) (L : PrettyLib) (ram : String → Option Int)
    (tree : Bytes → Except String Yaml.Node) (ht : Parses R tree) (m : Manifest) (text : Bytes)
    (h : print L m = some text) (hne : Spec.printable m ≠ [])
    (hlen : ∀ n t, n ≤ 3 → formatN L (treeLib ram tree) n text = some t → ShortLines t)
    (hok : ∀ r ∈ m.resources, ResourceOk R L ram r) :
    ∃ t, formatN L (treeLib ram tree) 3 text = some t ∧ ∀ n ≥ 3, formatN L (treeLib ram tree) n text = some t := by
  have hok1 := readAll_ok hok
  have hok2 := readAll_ok hok1
  have hok3 := readAll_ok hok2
  have hne1 := readAll_ne hne
  have hne2 := readAll_ne hne1
  have hne3 := readAll_ne hne2
  obtain ⟨t1, h1⟩ := readAll_print hok
  obtain ⟨t2, h2⟩ := readAll_print hok1
  obtain ⟨t3, h3⟩ := readAll_print hok2
  have f0 : formatN L (treeLib ram tree) 0 text = some text := rfl
  have f1 : formatN L (treeLib ram tree) 1 text = some t1 := by
    rw [formatN, f0, Option.bind_some, format_read ht h hne (hlen 0 _ (by omega) f0) hok, h1]
  have f2 : formatN L (treeLib ram tree) 2 text = some t2 := by
    rw [formatN, f1, Option.bind_some, format_read ht h1 hne1 (hlen 1 _ (by omega) f1) hok1, h2]
  have f3 : formatN L (treeLib ram tree) 3 text = some t3 := by
    rw [formatN, f2, Option.bind_some, format_read ht h2 hne2 (hlen 2 _ (by omega) f2) hok2, h3]
  have g3 : format L (treeLib ram tree) t3 = some t3 := by
    rw [format_read ht h3 hne3 (hlen 3 _ (by omega) f3) hok3]
    have hs := keptManifest_same hok3
    rw [show (⟨(readAll (readAll (readAll m))).resources⟩ : Manifest) = readAll (readAll (readAll m)) from rfl,
      readAll_settle hok] at hs
    have := C53_order L _ (readAll (readAll (readAll (readAll m)))) hs
    rw [← this, h3]
  refine ⟨t3, f3, fun n hn => ?_⟩
  induction n, hn using Nat.le_induction with
  | base => exact f3
  | succ n _ ih => rw [formatN, ih, Option.bind_some, g3]

/-! ### Examples -/

/-- A step of which only empty limits are given. -/
def slStep : Container := { resources := some { limits := some {} } }

/-- A pipeline with that step. -/
def slManifest : Manifest := ⟨[.pipeline { kind := "pipeline", name := "default", steps := [some slStep] }]⟩

theorem slStep_ok (ram : String → Option Int) : ContainerOk exResolver exPretty ram slStep where
  name := rd _
  pull := rd _
  image := rd _
  build := by simp [slStep]
  push := by simp [slStep]
  user := rd _
  shell := rd _
  entrypoint := by simp [slStep]
  command := by simp [slStep]
  commands := by simp [slStep]
  dns := by simp [slStep]
  dnsSearch := by simp [slStep]
  extraHosts := by simp [slStep]
  network := rd _
  settings := ⟨by decide, fun k p h => by simp [slStep, GoMap.get?] at h⟩
  environment := ⟨by decide, fun k p h => by simp [slStep, GoMap.get?] at h⟩
  failure := rd _
  workingDir := rd _
  devices := by simp [slStep]
  ports := by simp [slStep]
  resources := by
    intro r hr
    simp only [slStep, Option.some.injEq] at hr
    subst hr
    refine ⟨fun o ho => ?_, fun o ho => by simp at ho⟩
    simp only [Option.some.injEq] at ho
    subst ho
    exact ⟨fun h => absurd rfl h, fun h => absurd rfl h⟩
  volumes := by simp [slStep]
  cond := by
    refine ⟨⟨?_, ?_⟩, ⟨?_, ?_⟩, ⟨?_, ?_⟩, ⟨?_, ?_⟩, ⟨?_, ?_⟩, ⟨?_, ?_⟩, ⟨?_, ?_⟩, ⟨?_, ?_⟩, ⟨?_, ?_⟩, ⟨?_, ?_⟩⟩ <;> simp [slStep]
  dependsOn := by simp [slStep]

theorem slManifest_ok (ram : String → Option Int) : ∀ r ∈ slManifest.resources, ResourceOk exResolver exPretty ram r := by
  intro r hr
  simp only [slManifest, List.mem_cons, List.not_mem_nil, or_false] at hr
  subst hr
  refine ⟨?_, by decide⟩
  constructor
  case steps =>
    intro c hc
    simp only [List.mem_cons, List.not_mem_nil, or_false, Option.some.injEq] at hc
    subst hc
    exact slStep_ok ram
  case trigger =>
    refine ⟨⟨?_, ?_⟩, ⟨?_, ?_⟩, ⟨?_, ?_⟩, ⟨?_, ?_⟩, ⟨?_, ?_⟩, ⟨?_, ?_⟩, ⟨?_, ?_⟩, ⟨?_, ?_⟩, ⟨?_, ?_⟩, ⟨?_, ?_⟩⟩ <;> simp
  case node => exact ⟨by decide, fun k p h => by simp [GoMap.get?] at h⟩
  case platform => exact ⟨rd _, rd _, rd _, rd _⟩
  case workspace => exact ⟨rd _, rd _⟩
  case version => exact rd _
  case kind => exact rd _
  case type => exact rd _
  case name => exact rd _
  all_goals first | decide | simp

/-- The texts of the four formattings. -/
def slText (m : Manifest) : Bytes := (print exPretty m).getD []

/-- C95.  Three formattings are not enough: a step of which only empty limits are given loses the
limits, then the resources, then the step, and every time the text changes. -/
theorem C95_sharp (ram : String → Option Int) (tree : Bytes → Except String Yaml.Node) (ht : Parses exResolver tree) :
    ∃ t0 t1 t2 t3, print exPretty slManifest = some t0 ∧ format exPretty (treeLib ram tree) t0 = some t1 ∧
      format exPretty (treeLib ram tree) t1 = some t2 ∧ format exPretty (treeLib ram tree) t2 = some t3 ∧
      t0 ≠ t1 ∧ t1 ≠ t2 ∧ t2 ≠ t3 := by
  have hok := slManifest_ok ram
  have hok1 := readAll_ok hok
  have hok2 := readAll_ok hok1
  have hne : Spec.printable slManifest ≠ [] := by simp [Spec.printable, slManifest]
  have hne1 := readAll_ne hne
  have hne2 := readAll_ne hne1
  have h0 : print exPretty slManifest = some (slText slManifest) := by decide +kernel
  have h1 : print exPretty (readAll slManifest) = some (slText (readAll slManifest)) := by decide +kernel
  have h2 : print exPretty (readAll (readAll slManifest)) = some (slText (readAll (readAll slManifest))) := by
    decide +kernel
  have h3 : print exPretty (readAll (readAll (readAll slManifest))) =
      some (slText (readAll (readAll (readAll slManifest)))) := by decide +kernel
  refine ⟨_, _, _, _, h0, (format_read ht h0 hne ⟨rawLines _, rawLines_isLines _, ?_⟩ hok).trans h1,
    (format_read ht h1 hne1 ⟨rawLines _, rawLines_isLines _, ?_⟩ hok1).trans h2,
    (format_read ht h2 hne2 ⟨rawLines _, rawLines_isLines _, ?_⟩ hok2).trans h3, ?_, ?_, ?_⟩ <;> decide +kernel

/-- The hypotheses are met: that file settles. -/
example (ram : String → Option Int) : ∃ tree t, Parses exResolver tree ∧ print exPretty slManifest = some (slText slManifest) ∧
    ∀ n ≥ 3, formatN exPretty (treeLib ram tree) n (slText slManifest) = some t := by
  obtain ⟨tree, ht⟩ := parser_exists exResolver
  have h0 : print exPretty slManifest = some (slText slManifest) := by decide +kernel
  have hok := slManifest_ok ram
  have hok1 := readAll_ok hok
  have hok2 := readAll_ok hok1
  have hne : Spec.printable slManifest ≠ [] := by simp [Spec.printable, slManifest]
  have h1 : print exPretty (readAll slManifest) = some (slText (readAll slManifest)) := by decide +kernel
  have h2 : print exPretty (readAll (readAll slManifest)) = some (slText (readAll (readAll slManifest))) := by
    decide +kernel
  have h3 : print exPretty (readAll (readAll (readAll slManifest))) =
      some (slText (readAll (readAll (readAll slManifest)))) := by decide +kernel
  have s0 : ShortLines (slText slManifest) := ⟨rawLines _, rawLines_isLines _, by decide +kernel⟩
  have s1 : ShortLines (slText (readAll slManifest)) := ⟨rawLines _, rawLines_isLines _, by decide +kernel⟩
  have s2 : ShortLines (slText (readAll (readAll slManifest))) := ⟨rawLines _, rawLines_isLines _, by decide +kernel⟩
  have s3 : ShortLines (slText (readAll (readAll (readAll slManifest)))) :=
    ⟨rawLines _, rawLines_isLines _, by decide +kernel⟩
  have f1 : formatN exPretty (treeLib ram tree) 1 (slText slManifest) = some (slText (readAll slManifest)) :=
    (format_read ht h0 hne s0 hok).trans h1
  have f2 : formatN exPretty (treeLib ram tree) 2 (slText slManifest) = some (slText (readAll (readAll slManifest))) := by
    rw [formatN, f1, Option.bind_some]
    exact (format_read ht h1 (readAll_ne hne) s1 hok1).trans h2
  have f3 : formatN exPretty (treeLib ram tree) 3 (slText slManifest) =
      some (slText (readAll (readAll (readAll slManifest)))) := by
    rw [formatN, f2, Option.bind_some]
    exact (format_read ht h2 (readAll_ne (readAll_ne hne)) s2 hok2).trans h3
  obtain ⟨t, _, h5⟩ := C95_settles_partial exResolver exPretty ram tree ht slManifest (slText slManifest) h0 hne (by
    intro n t hn hf
    match n, hn, hf with
    | 0, _, hf => cases hf; exact s0
    | 1, _, hf => rw [f1] at hf; cases hf; exact s1
    | 2, _, hf => rw [f2] at hf; cases hf; exact s2
    | 3, _, hf => rw [f3] at hf; cases hf; exact s3) hok
  exact ⟨tree, t, ht, h0, h5⟩

end Drone
