/-
C104: how the services of a converted GitLab file are called, and which converted GitLab
files the linter accepts.
-/
import Verif.Props.Foreign
import Verif.Props.ImageName
import Verif.Props.Lint

namespace Drone
open Spec Img

/-! ### Specification -/

namespace Spec

/-- The parts of the short form of an image name: no tag, no digest, no Docker Hub host, no
`library` namespace. -/
def ImageName.shortParts (n : ImageName) : List (List Char) :=
  if n.fullHost = "docker.io".toList then
    if n.full.comps.length = 2 ∧ n.full.comps.head? = some "library".toList then n.full.comps.tail else n.full.comps
  else n.fullHost :: n.full.comps

/-- The name a GitLab service gets: its alias, else the parts of the image name in its short
form, joined by two underscores. -/
inductive ServiceName (ok : List Char → Bool) (i : Gitlab.Image) : String → Prop
  | alias : i.alias ≠ "" → ServiceName ok i i.alias
  | image (n : ImageName) : i.alias = "" → n.Valid ok → i.name.toList = n.text →
      ServiceName ok i (String.ofList (['_', '_'].intercalate n.shortParts))
  /-- what is no image name is taken as it is written -/
  | other (parts : List (List Char)) : i.alias = "" → (∀ n : ImageName, n.Valid ok → n.text ≠ i.name.toList) →
      parts ≠ [] → (∀ p ∈ parts, '/' ∉ p) → i.name.toList = ['/'].intercalate parts →
      ServiceName ok i (String.ofList (['_', '_'].intercalate parts))

/-- The jobs of a stage; without stages every job is a stage of its own. -/
def JobOf (c : Gitlab.Config) (stage name : String) (j : Gitlab.Job) : Prop :=
  (name, some j) ∈ c.jobs ∧ (c.stages = [] ∧ name = stage ∨ c.stages ≠ [] ∧ j.stage = stage)

/-- What a GitLab file must fulfil so that the linter accepts what a stage becomes; `names` are
the names of the services. -/
structure StageOK (c : Gitlab.Config) (names : List String) (stage : String) : Prop where
  job : ∀ name j, JobOf c stage name j →
    name ≠ "" ∧ name ≠ "clone" ∧ (j.image.name ≠ "" ∨ c.image.name ≠ "")
  image : ∀ i, some i ∈ c.services → i.name ≠ ""
  clone : "clone" ∉ names
  distinct : names.Nodup
  apart : ∀ name j, JobOf c stage name j → name ∉ names

end Spec

/-! ### The name of a service -/

theorem slug_parts {f : Char → List Char} (hf : ∀ c, f c = if c = '/' then ['_', '_'] else [c]) :
    ∀ parts : List (List Char), (∀ p ∈ parts, '/' ∉ p) →
      (['/'].intercalate parts).flatMap f = ['_', '_'].intercalate parts := by
  have one : ∀ p : List Char, '/' ∉ p → p.flatMap f = p := by
    intro p hp
    induction p with
    | nil => rfl
    | cons c p ih =>
      have hc : c ≠ '/' := fun e => hp (by simp [e])
      rw [List.flatMap_cons, hf, if_neg hc, ih (fun h => hp (by simp [h]))]
      rfl
  intro parts
  induction parts with
  | nil => intro _; rfl
  | cons a l ih =>
    intro h
    cases l with
    | nil => simpa [List.intercalate] using one a (h a (by simp))
    | cons b bs =>
      rw [inter_cons a (by simp), List.flatMap_append, List.flatMap_cons, one a (h a (by simp)),
        ih (fun p hp => h p (List.mem_cons_of_mem _ hp)), hf, if_pos rfl]
      simp [List.intercalate]

theorem short_parts (n : ImageName) (hne : n.full.comps ≠ []) : n.short = ['/'].intercalate n.shortParts := by
  unfold ImageName.short ImageName.shortParts
  split
  · rcases hc : n.full.comps with _ | ⟨a, _ | ⟨b, _ | ⟨d, l⟩⟩⟩
    · exact absurd hc hne
    · simp
    · by_cases ha : a = "library".toList
      · simp [ha, List.intercalate]
      · rw [if_neg fun h => ha (by simpa using h.2)]
        simp only [if_neg ha]
    · simp
  · show ['/'].intercalate (n.full.host.toList ++ n.full.comps) = _
    rfl

theorem shortParts_no {dg : Img.DigestLib} {n : ImageName} (h : n.Valid dg.ok) : ∀ p ∈ n.shortParts, '/' ∉ p := by
  intro p hp
  have hc : ∀ p ∈ n.full.comps, '/' ∉ p := fun p hp => (component_no (h.full_comps p hp)).1
  unfold ImageName.shortParts at hp
  split_ifs at hp
  · exact hc p (List.mem_of_mem_tail hp)
  · exact hc p hp
  · rcases List.mem_cons.1 hp with rfl | hp
    · exact (host_noSlash h.fullHost.2).1
    · exact hc p hp

/-- C104: the slug of an image name. -/
theorem C104_slug {dg : Img.DigestLib} {n : ImageName} (h : n.Valid dg.ok) :
    Gitlab.serviceSlug dg (String.ofList n.text) = String.ofList (['_', '_'].intercalate n.shortParts) := by
  unfold Gitlab.serviceSlug
  rw [C90_trim h, String.toList_ofList, short_parts n h.full_ne, slug_parts (fun _ => rfl) _ (shortParts_no h)]

/-- C104: the slug of anything else. -/
theorem C104_slug_other {dg : Img.DigestLib} {s : String} (h : ∀ n : ImageName, n.Valid dg.ok → n.text ≠ s.toList)
    (parts : List (List Char)) (hp : ∀ p ∈ parts, '/' ∉ p) (hs : s.toList = ['/'].intercalate parts) :
    Gitlab.serviceSlug dg s = String.ofList (['_', '_'].intercalate parts) := by
  unfold Gitlab.serviceSlug
  rw [(C90_other h).2, hs, slug_parts (fun _ => rfl) _ hp]

theorem serviceName_iff {dg : Img.DigestLib} {i : Gitlab.Image} {s : String} :
    ServiceName dg.ok i s ↔ s = if i.alias = "" then Gitlab.serviceSlug dg i.name else i.alias := by
  constructor
  · rintro (ha | ⟨n, ha, hv, ht⟩ | ⟨parts, ha, hn, hne, hp, hs⟩)
    · rw [if_neg ha]
    · rw [if_pos ha, ← C104_slug hv, ← ht, String.ofList_toList]
    · rw [if_pos ha, C104_slug_other hn parts hp hs]
  · rintro rfl
    by_cases ha : i.alias = ""
    · rw [if_pos ha]
      by_cases hn : ∃ n : ImageName, n.Valid dg.ok ∧ n.text = i.name.toList
      · obtain ⟨n, hv, ht⟩ := hn
        have := C104_slug hv
        rw [ht, String.ofList_toList] at this
        rw [this]
        exact .image n ha hv ht.symm
      · have hn' : ∀ n : ImageName, n.Valid dg.ok → n.text ≠ i.name.toList := fun n hv ht => hn ⟨n, hv, ht⟩
        have hp := Img.segs_no '/' i.name.toList
        have hs := (Img.inter_segs '/' i.name.toList).symm
        rw [C104_slug_other hn' _ hp hs]
        exact .other _ ha hn' (Img.segs_ne_nil _ _) hp hs
    · rw [if_neg ha]; exact .alias ha

/-- C104: every service has exactly one such name. -/
theorem C104_name_unique (dg : Img.DigestLib) (i : Gitlab.Image) : ∃! s, ServiceName dg.ok i s :=
  ⟨_, serviceName_iff.2 rfl, fun _ h => serviceName_iff.1 h⟩

theorem flatMap_ne_nil {f : Char → List Char} (hf : ∀ c, f c ≠ []) {s : List Char} (h : s ≠ []) : s.flatMap f ≠ [] := by
  cases s with
  | nil => exact absurd rfl h
  | cons c s => simp [hf c]

theorem component_ne {s : List Char} (h : Component s) : s ≠ [] := by
  cases h with
  | run r h _ => exact h
  | more r s t h _ _ _ => simp [h]

theorem serviceName_ne {dg : Img.DigestLib} {i : Gitlab.Image} {s : String} (h : ServiceName dg.ok i s)
    (hi : i.name ≠ "") : s ≠ "" := by
  intro e
  have e' : s.toList = [] := by rw [e]; rfl
  rw [serviceName_iff.1 h] at e'
  by_cases ha : i.alias = ""
  · rw [if_pos ha] at e'
    unfold Gitlab.serviceSlug at e'
    rw [String.toList_ofList] at e'
    refine flatMap_ne_nil (fun c => ?_) ?_ e'
    · split_ifs <;> simp
    · by_cases hn : ∃ n : ImageName, n.Valid dg.ok ∧ n.text = i.name.toList
      · obtain ⟨n, hv, ht⟩ := hn
        have := C90_trim hv
        rw [ht, String.ofList_toList] at this
        rw [this, String.toList_ofList, short_parts n hv.full_ne]
        have hne : ∀ p ∈ n.full.comps, p ≠ [] := fun p hp => component_ne (hv.full_comps p hp)
        have key : ∀ l : List (List Char), l ≠ [] → (∀ p ∈ l, p ≠ []) → ['/'].intercalate l ≠ [] := by
          intro l hl hp
          cases l with
          | nil => exact absurd rfl hl
          | cons a l =>
            cases l with
            | nil => rw [Img.inter_one]; exact hp a (by simp)
            | cons b l => rw [Img.inter_cons a (by simp)]; simp
        unfold ImageName.shortParts
        split_ifs with h1 h2
        · refine key _ ?_ fun p hp => hne p (List.mem_of_mem_tail hp)
          intro e
          have := congrArg List.length e
          simp [h2.1] at this
        · exact key _ hv.full_ne hne
        · rw [Img.inter_cons _ hv.full_ne]; simp
      · rw [(C90_other fun n hv ht => hn ⟨n, hv, ht⟩).2]
        intro e2
        exact hi (by rw [← String.ofList_toList (s := i.name), e2])
  · rw [if_neg ha] at e'
    exact ha (by rw [← String.ofList_toList (s := i.alias), e'])

/-! ### The converted pipelines -/

namespace Gitlab

theorem stageSteps_map {c : Config} {stage : String} : ∀ {jobs : GoMap (Option Job)} {r : List Container},
    stageSteps c stage jobs = some r → ∃ l : List (String × Job),
      (l.map fun x => (x.1, some x.2)) = jobs.filter (fun x => x.2.any fun j => decide (j.stage = stage)) ∧
      r = l.map fun x => jobStep c x.1 x.2
  | [], r, h => by
    simp only [stageSteps, Option.some.injEq] at h
    exact ⟨[], rfl, h ▸ rfl⟩
  | (n, none) :: jobs, r, h => by simp [stageSteps] at h
  | (n, some j) :: jobs, r, h => by
    unfold stageSteps at h
    by_cases hs : j.stage = stage
    · rw [if_neg (by simpa using hs)] at h
      obtain ⟨r', h', rfl⟩ := Option.map_eq_some_iff.1 h
      obtain ⟨l, h1, h2⟩ := stageSteps_map h'
      exact ⟨(n, j) :: l, by rw [List.filter_cons, ← h1]; simp [hs], by rw [h2]; rfl⟩
    · rw [if_pos hs] at h
      obtain ⟨l, h1, h2⟩ := stageSteps_map h
      exact ⟨l, by rw [List.filter_cons, ← h1]; simp [hs], h2⟩

theorem stageLoop_mem {dg : Img.DigestLib} {it : Orders (Option Job)} {c : Config} :
    ∀ {stages : List String} {n : Nat} {prev : String} {ps : List Pipeline} {p : Pipeline},
    stageLoop dg it c n prev stages = some ps → p ∈ ps →
      ∃ (l : List (String × Job)) (services : List Container) (deps : List String),
        (l.map fun x => (x.1, some x.2)).Perm (c.jobs.filter fun x => x.2.any fun j => decide (j.stage = p.name)) ∧
        mapAll (toService dg) c.services = some services ∧
        p = { name := p.name, kind := "pipeline", steps := l.map fun x => some (jobStep c x.1 x.2),
              services := services.map some, dependsOn := deps }
  | [], n, prev, ps, p, h, hp => by
    simp only [stageLoop, Option.some.injEq] at h
    subst h
    cases hp
  | stage :: stages, n, prev, ps, p, h, hp => by
    unfold stageLoop at h
    obtain ⟨steps, h1, h⟩ := Option.bind_eq_some_iff.1 h
    obtain ⟨services, h2, h⟩ := Option.bind_eq_some_iff.1 h
    obtain ⟨rest, h3, rfl⟩ := Option.map_eq_some_iff.1 h
    rcases List.mem_cons.1 hp with rfl | hp
    · obtain ⟨l, hl1, hl2⟩ := stageSteps_map h1
      refine ⟨l, services, if prev ≠ "" then [prev] else [], ?_, h2, ?_⟩
      · rw [hl1]; exact (it.perm n c.jobs).filter _
      · rw [hl2, List.map_map]; rfl
    · exact stageLoop_mem h3 hp

end Gitlab

/-- What a converted pipeline looks like, with or without stages. -/
theorem gitlab_pipeline {dg : Img.DigestLib} {it : Orders (Option Gitlab.Job)} {c : Gitlab.Config} {ps : List Pipeline}
    (h : Gitlab.toPipelines dg it c = some ps) (hk : c.jobs.keys.Nodup) {p : Pipeline} (hp : p ∈ ps) :
    ∃ (l : List (String × Gitlab.Job)) (services : List Container) (deps : List String),
      (∀ n j, (n, j) ∈ l → ∃ j', JobOf c p.name n j' ∧ j.image = j'.image) ∧
      (∀ n j', JobOf c p.name n j' → ∃ j, (n, j) ∈ l ∧ j.image = j'.image) ∧
      (l.map Prod.fst).Nodup ∧
      mapAll (Gitlab.toService dg) c.services = some services ∧
      p = { name := p.name, kind := "pipeline", steps := l.map fun x => some (Gitlab.jobStep c x.1 x.2),
            services := services.map some, dependsOn := deps } := by
  unfold Gitlab.toPipelines at h
  obtain ⟨c', hc, h⟩ := Option.bind_eq_some_iff.1 h
  obtain ⟨l, services, deps, hl, hs, hpe⟩ := Gitlab.stageLoop_mem h hp
  have hnd : ∀ {jobs : GoMap (Option Gitlab.Job)} {q : String × Option Gitlab.Job → Bool}, (GoMap.keys jobs).Nodup →
      (l.map fun x => (x.1, some x.2)).Perm (jobs.filter q) → (l.map Prod.fst).Nodup := by
    intro jobs q hj hperm
    have h1 : ((l.map fun x => (x.1, some x.2)).map Prod.fst).Perm ((jobs.filter q).map Prod.fst) := hperm.map _
    rw [List.map_map] at h1
    exact h1.nodup_iff.2 (List.Nodup.sublist ((List.filter_sublist (l := jobs)).map _) hj)
  unfold Gitlab.withStages at hc
  by_cases hst : c.stages = []
  · rw [if_pos (by simp [hst])] at hc
    by_cases hnil : c.jobs.any (fun kv => kv.2.isNone) = true
    · rw [if_pos hnil] at hc; cases hc
    rw [if_neg hnil, Option.some.injEq] at hc
    subst hc
    dsimp only at hl hs
    refine ⟨l, services, deps, fun n j hm => ?_, fun n j' hj => ?_, ?_, hs, hpe⟩
    · have := hl.mem_iff.1 (List.mem_map.2 ⟨(n, j), hm, rfl⟩)
      rw [List.mem_filter] at this
      obtain ⟨hm1, hm2⟩ := this
      obtain ⟨⟨k, o⟩, ho, he⟩ := List.mem_map.1 hm1
      simp only [Prod.mk.injEq] at he
      obtain ⟨rfl, he⟩ := he
      cases o with
      | none => simp at he
      | some j' =>
        simp only [Option.map_some, Option.some.injEq] at he
        simp only [Option.any_some, decide_eq_true_eq] at hm2
        subst he
        exact ⟨j', ⟨ho, .inl ⟨hst, hm2⟩⟩, rfl⟩
    · obtain ⟨hm, ⟨_, hnm⟩ | ⟨hne, _⟩⟩ := hj
      · have : (n, some { j' with stage := n }) ∈ (l.map fun x => (x.1, some x.2)) := by
          rw [hl.mem_iff, List.mem_filter]
          refine ⟨List.mem_map.2 ⟨_, hm, rfl⟩, by simpa using hnm⟩
        obtain ⟨⟨k, j⟩, hm2, he⟩ := List.mem_map.1 this
        simp only [Prod.mk.injEq, Option.some.injEq] at he
        obtain ⟨rfl, rfl⟩ := he
        exact ⟨_, hm2, rfl⟩
      · exact absurd hst hne
    · refine hnd ?_ hl
      unfold GoMap.keys
      rw [List.map_map]
      exact hk
  · rw [if_neg (by simpa using hst), Option.some.injEq] at hc
    subst hc
    refine ⟨l, services, deps, fun n j hm => ?_, fun n j' hj => ?_, hnd hk hl, hs, hpe⟩
    · have := hl.mem_iff.1 (List.mem_map.2 ⟨(n, j), hm, rfl⟩)
      rw [List.mem_filter] at this
      exact ⟨j, ⟨this.1, .inr ⟨hst, by simpa using this.2⟩⟩, rfl⟩
    · obtain ⟨hm, ⟨he, _⟩ | ⟨_, he⟩⟩ := hj
      · exact absurd he hst
      · have : (n, some j') ∈ (l.map fun x => (x.1, some x.2)) := by
          rw [hl.mem_iff, List.mem_filter]
          exact ⟨hm, by simpa using he⟩
        obtain ⟨⟨k, j⟩, hm2, he⟩ := List.mem_map.1 this
        simp only [Prod.mk.injEq, Option.some.injEq] at he
        obtain ⟨rfl, rfl⟩ := he
        exact ⟨_, hm2, rfl⟩

/-- C104: every converted pipeline, with or without stages, has all the services of the file, in
order, each with its name. -/
theorem C104_services (dg : Img.DigestLib) (it : Orders (Option Gitlab.Job)) (c : Gitlab.Config) (ps : List Pipeline)
    (h : Gitlab.toPipelines dg it c = some ps) (p : Pipeline) (hp : p ∈ ps) :
    List.Forall₂ (fun x s => ∃ i d, x = some i ∧ s = some d ∧ ServiceName dg.ok i d.name ∧ d.image = i.name ∧
      d.command = i.command ∧ d.entrypoint = i.entrypoint) c.services p.services := by
  have key : ∀ {l r}, mapAll (Gitlab.toService dg) l = some r →
      List.Forall₂ (fun x s => ∃ i d, x = some i ∧ s = some d ∧ ServiceName dg.ok i d.name ∧ d.image = i.name ∧
        d.command = i.command ∧ d.entrypoint = i.entrypoint) l (r.map some) := by
    intro l r h
    have := mapAll_forall₂ h
    clear h
    induction this with
    | nil => exact .nil
    | cons h _ ih =>
      refine .cons ?_ ih
      unfold Gitlab.toService at h
      obtain ⟨i, rfl, rfl⟩ := Option.map_eq_some_iff.1 h
      exact ⟨i, _, rfl, rfl, serviceName_iff.2 rfl, rfl, rfl, rfl⟩
  unfold Gitlab.toPipelines at h
  obtain ⟨c', hc, h⟩ := Option.bind_eq_some_iff.1 h
  obtain ⟨l, services, deps, hl, hs, hpe⟩ := Gitlab.stageLoop_mem h hp
  have hsv : c'.services = c.services := by
    unfold Gitlab.withStages at hc
    split_ifs at hc <;> cases hc <;> rfl
  rw [hpe, ← hsv]
  exact key hs

/-- C104: exactly when the linter accepts a converted pipeline. -/
theorem C104_lint_iff (dg : Img.DigestLib) (it : Orders (Option Gitlab.Job)) (c : Gitlab.Config) (ps : List Pipeline)
    (names : List String) (trusted : Bool) (hk : c.jobs.keys.Nodup)
    (hn : List.Forall₂ (fun x s => ∃ i, x = some i ∧ ServiceName dg.ok i s) c.services names)
    (h : Gitlab.toPipelines dg it c = some ps) (p : Pipeline) (hp : p ∈ ps) :
    lint (.pipeline p) trusted = .ok () ↔ StageOK c names p.name := by
  obtain ⟨l, services, deps, hl1, hl2, hnd, hs, hpe⟩ := gitlab_pipeline h hk hp
  have hsn : services.map (·.name) = names ∧ (∀ d ∈ services, ∃ i, some i ∈ c.services ∧ d.image = i.name ∧
      ServiceName dg.ok i d.name ∧
      d = { name := d.name, image := d.image, command := d.command, entrypoint := d.entrypoint }) ∧
      ∀ i, some i ∈ c.services → ∃ d ∈ services, d.image = i.name := by
    clear hpe hl1 hl2 hnd hp h
    revert hn hs
    generalize c.services = sv
    intro hn hs
    induction hn generalizing services with
    | nil =>
      simp only [mapAll, Option.some.injEq] at hs
      subst hs
      exact ⟨rfl, nofun, nofun⟩
    | @cons x s xs ss hx _ ih =>
      obtain ⟨i, rfl, hx⟩ := hx
      unfold mapAll at hs
      obtain ⟨d, hd, hs⟩ := Option.bind_eq_some_iff.1 hs
      obtain ⟨r, hr, rfl⟩ := Option.map_eq_some_iff.1 hs
      obtain ⟨i1, i2, i3⟩ := ih r hr
      unfold Gitlab.toService at hd
      simp only [Option.map_some, Option.some.injEq] at hd
      have hdn : d.name = s := by rw [serviceName_iff.1 hx, ← hd]
      refine ⟨by rw [List.map_cons, i1, hdn], ?_, ?_⟩
      · intro e he
        rcases List.mem_cons.1 he with rfl | he
        · exact ⟨i, by simp, by rw [← hd], by rw [hdn]; exact hx, by rw [← hd]⟩
        · obtain ⟨k, hk, h⟩ := i2 e he
          exact ⟨k, by simp [hk], h⟩
      · intro k hk
        rcases List.mem_cons.1 hk with hk | hk
        · cases hk
          exact ⟨d, by simp, by rw [← hd]⟩
        · obtain ⟨e, he, h⟩ := i3 k hk
          exact ⟨e, by simp [he], h⟩
  obtain ⟨hnames, hsv, hsv2⟩ := hsn
  rw [C12_lint_iff]
  constructor
  · rintro ⟨steps, services', ok⟩
    have e1 : steps = l.map fun x => Gitlab.jobStep c x.1 x.2 := by
      have := ok.steps_eq
      rw [hpe] at this
      have := congrArg (List.filterMap id) this
      simpa [List.filterMap_map, Function.comp_def] using this.symm
    have e2 : services' = services := by
      have := ok.services_eq
      rw [hpe] at this
      have := congrArg (List.filterMap id) this
      simpa [List.filterMap_map, Function.comp_def] using this.symm
    subst e1 e2
    have hu := ok.unique
    rw [hpe] at hu
    have hcl : ∀ q : Pipeline, q.clone.disable = false → cloneNames q = ["clone"] := by
      intro q hq
      unfold cloneNames
      rw [hq]; rfl
    rw [hcl _ rfl, List.map_append, List.map_map, hnames] at hu
    have e3 : l.map ((·.name) ∘ fun x => Gitlab.jobStep c x.1 x.2) = l.map Prod.fst := rfl
    rw [e3] at hu
    obtain ⟨hu1, hu2⟩ := List.nodup_cons.1 (show ("clone" :: (l.map Prod.fst ++ names)).Nodup from hu)
    rw [List.nodup_append] at hu2
    obtain ⟨_, hu3, hu4⟩ := hu2
    refine ⟨fun name j hj => ?_, fun i hi => ?_, fun hm => hu1 (by simp [hm]), hu3, fun name j hj hm => ?_⟩
    · obtain ⟨j', hm, hji⟩ := hl2 name j hj
      have hc := ok.containers (Gitlab.jobStep c name j')
        (List.mem_append_left _ (List.mem_map.2 ⟨_, hm, rfl⟩))
      refine ⟨hc.name, fun e => hu1 (List.mem_append_left _ (List.mem_map.2 ⟨_, hm, e⟩)), ?_⟩
      have := hc.image rfl
      by_cases hj0 : j.image.name = ""
      · refine .inr fun e => this ?_
        show (if j'.image.name = "" then c.image.name else j'.image.name) = ""
        rw [hji, if_pos hj0, e]
      · exact .inl hj0
    · obtain ⟨d, hd, hdi⟩ := hsv2 i hi
      obtain ⟨i', hi', _, _, hd0⟩ := hsv d hd
      have hc := ok.containers d (List.mem_append_right _ hd)
      rw [← hdi]
      exact hc.image (by rw [hd0])
    · obtain ⟨j', hm', _⟩ := hl2 name j hj
      exact hu4 name (List.mem_map.2 ⟨_, hm', rfl⟩) name hm rfl
  · intro ok
    have hcont : ∀ (d : Container), d.name ≠ "" → d.image ≠ "" → d.build = none → d.volumes = [] → d.privileged = false →
        d.devices = [] → d.dns = [] → d.dnsSearch = [] → d.extraHosts = [] → d.network = "" → d.ports = [] →
        ContainerOK trusted d := by
      intro d h1 h2 h3 h4 h5 h6 h7 h8 h9 h10 h11
      exact ⟨h1, fun _ => h2, by rw [h3]; nofun, by rw [h4]; nofun, fun _ => ⟨h5, h6, h7, h8, h9, h10, by rw [h11]; nofun⟩⟩
    refine ⟨l.map fun x => Gitlab.jobStep c x.1 x.2, services, ?_⟩
    refine ⟨by rw [hpe, List.map_map]; rfl, by rw [hpe], by rw [hpe]; nofun, by rw [hpe]; exact ⟨by simp, by simp⟩, ?_, ?_, ?_⟩
    · intro d hd
      rcases List.mem_append.1 hd with hd | hd
      · obtain ⟨⟨n, j⟩, hm, rfl⟩ := List.mem_map.1 hd
        obtain ⟨j', hj', hji⟩ := hl1 n j hm
        obtain ⟨o1, o2, o3⟩ := ok.job n j' hj'
        refine hcont _ o1 ?_ rfl rfl rfl rfl rfl rfl rfl rfl rfl
        show (if j.image.name = "" then c.image.name else j.image.name) ≠ ""
        rw [hji]
        by_cases h0 : j'.image.name = ""
        · rw [if_pos h0]
          exact o3.resolve_left fun h => h h0
        · rw [if_neg h0]; exact h0
      · obtain ⟨i, hi, hdi, hdn, hd0⟩ := hsv d hd
        have hi0 := ok.image i hi
        rw [hd0]
        exact hcont _ (serviceName_ne hdn hi0) (by rw [hdi]; exact hi0) rfl rfl rfl rfl rfl rfl rfl rfl rfl
    · rw [hpe]
      show (["clone"] ++ _).Nodup
      rw [List.map_append, List.map_map, hnames]
      have e3 : l.map ((·.name) ∘ fun x => Gitlab.jobStep c x.1 x.2) = l.map Prod.fst := rfl
      rw [e3]
      show ("clone" :: (l.map Prod.fst ++ names)).Nodup
      refine List.nodup_cons.2 ⟨fun hm => ?_, List.nodup_append.2 ⟨hnd, ok.distinct, ?_⟩⟩
      · rcases List.mem_append.1 hm with hm | hm
        · obtain ⟨⟨n, j⟩, hm, e⟩ := List.mem_map.1 hm
          obtain ⟨j', hj', _⟩ := hl1 n j hm
          exact (ok.job n j' hj').2.1 e
        · exact ok.clone hm
      · rintro a ha b hb rfl
        obtain ⟨⟨n, j⟩, hm, rfl⟩ := List.mem_map.1 ha
        obtain ⟨j', hj', _⟩ := hl1 n j hm
        exact ok.apart n j' hj' hb
    · intro pre n post hn d hd
      have hm : n ∈ nodes (l.map fun x => Gitlab.jobStep c x.1 x.2) := by rw [hn]; simp
      unfold nodes at hm
      rw [List.map_map] at hm
      obtain ⟨x, _, rfl⟩ := List.mem_map.1 hm
      cases hd

/-- C104: two services without alias whose images differ in nothing but tag and digest (or the
spelling of the host) make the linter refuse every converted pipeline. -/
theorem C104_clash (dg : Img.DigestLib) (it : Orders (Option Gitlab.Job)) (c : Gitlab.Config) (ps : List Pipeline)
    (trusted : Bool) (a b : Nat) (hab : a ≠ b) (i j : Gitlab.Image) (m n : ImageName)
    (hi : c.services[a]? = some (some i)) (hj : c.services[b]? = some (some j))
    (hia : i.alias = "") (hja : j.alias = "") (hm : m.Valid dg.ok) (hn : n.Valid dg.ok)
    (him : i.name.toList = m.text) (hjn : j.name.toList = n.text) (hs : m.shortParts = n.shortParts)
    (hk : c.jobs.keys.Nodup) (h : Gitlab.toPipelines dg it c = some ps) (p : Pipeline) (hp : p ∈ ps) :
    lint (.pipeline p) trusted ≠ .ok () := by
  have hsv := C104_services dg it c ps h p hp
  obtain ⟨names, hnames⟩ : ∃ names,
      List.Forall₂ (fun x s => ∃ i, x = some i ∧ ServiceName dg.ok i s) c.services names := by
    clear hi hj
    generalize c.services = sv at hsv
    generalize p.services = ps at hsv
    induction hsv with
    | nil => exact ⟨[], .nil⟩
    | cons h _ ih =>
      obtain ⟨names, hn⟩ := ih
      obtain ⟨i, d, rfl, _, hd, _⟩ := h
      exact ⟨d.name :: names, .cons ⟨i, rfl, hd⟩ hn⟩
  rw [Ne, C104_lint_iff dg it c ps names trusted hk hnames h p hp]
  intro ok
  have get : ∀ (k : Nat) (x : Gitlab.Image), c.services[k]? = some (some x) →
      ∃ s, names[k]? = some s ∧ ServiceName dg.ok x s := by
    intro k x hx
    have hlen := hnames.length_eq
    obtain ⟨hlt, hget⟩ := List.getElem?_eq_some_iff.1 hx
    have hlt' : k < names.length := hlen ▸ hlt
    have := (List.forall₂_iff_get.1 hnames).2 k hlt hlt'
    obtain ⟨y, hy, hs⟩ := this
    have : x = y := by
      have h3 : c.services.get ⟨k, hlt⟩ = some x := hget
      rw [h3] at hy
      exact Option.some.inj hy
    subst this
    exact ⟨_, List.getElem?_eq_getElem hlt', hs⟩
  obtain ⟨s, hs1, hs2⟩ := get a i hi
  obtain ⟨t, ht1, ht2⟩ := get b j hj
  have e1 := (C104_name_unique dg i).unique hs2 (.image m hia hm him)
  have e2 := (C104_name_unique dg j).unique ht2 (.image n hja hn hjn)
  have : s = t := by rw [e1, e2, hs]
  subst this
  exact hab ((List.getElem?_inj (List.getElem?_eq_some_iff.1 hs1).1 ok.distinct).1 (hs1.trans ht1.symm))

/-! ### Examples -/

/-- A file with three services: an image with a tag, one of another registry, and one with an alias. -/
def exServed : Gitlab.Config where
  image := { name := "ruby" }
  services := [some { name := "postgres:9.6" }, some { name := "gcr.io/team/db" },
    some { name := "redis", «alias» := "cache" }]
  jobs := [("unit", some { script := ["unit"] }), ("lint", some { script := ["lint"] })]

/-- Their names. -/
def exServedNames : List String := ["postgres", "gcr.io__team__db", "cache"]

theorem exServed_names :
    List.Forall₂ (fun x s => ∃ i, x = some i ∧ ServiceName shaDigests.ok i s) exServed.services exServedNames :=
  .cons ⟨_, rfl, .image (nm none ["postgres"] (some "9.6") none) rfl (valid_of_check (by decide +kernel)) rfl⟩
    (.cons ⟨_, rfl, .image (nm (some "gcr.io") ["team", "db"] none none) rfl (valid_of_check (by decide +kernel)) rfl⟩
      (.cons ⟨_, rfl, .alias (by decide)⟩ .nil))

/-- The pipelines of the file; the loops over the jobs visit them as written. -/
def exServedPipelines : List Pipeline :=
  [{ name := "unit", kind := "pipeline", steps := [some { name := "unit", image := "ruby", commands := ["unit"] }],
     services := [some { name := "postgres", image := "postgres:9.6" },
      some { name := "gcr.io__team__db", image := "gcr.io/team/db" }, some { name := "cache", image := "redis" }] },
   { name := "lint", kind := "pipeline", steps := [some { name := "lint", image := "ruby", commands := ["lint"] }],
     services := [some { name := "postgres", image := "postgres:9.6" },
      some { name := "gcr.io__team__db", image := "gcr.io/team/db" }, some { name := "cache", image := "redis" }],
     dependsOn := ["unit"] }]

theorem exServed_pipelines : Gitlab.toPipelines shaDigests (exOrders _) exServed = some exServedPipelines := by
  rfl

/-- The linter accepts both pipelines. -/
example : ∀ p ∈ exServedPipelines, lint (.pipeline p) false = .ok () := by
  intro p hp
  rw [C104_lint_iff shaDigests (exOrders _) exServed _ exServedNames false (by decide) exServed_names
    exServed_pipelines p hp]
  have hj : ∀ name j, JobOf exServed p.name name j → (name = "unit" ∨ name = "lint") := by
    rintro name j ⟨hm, _⟩
    simp only [exServed, List.mem_cons, Prod.mk.injEq, List.not_mem_nil, or_false] at hm
    rcases hm with h | h
    · exact .inl h.1
    · exact .inr h.1
  refine ⟨fun name j h => ?_, fun i hi => ?_, by decide, by decide, fun name j h => ?_⟩
  · rcases hj name j h with rfl | rfl <;> exact ⟨by decide, by decide, .inr (by decide)⟩
  · simp only [exServed, List.mem_cons, Option.some.injEq, List.not_mem_nil, or_false] at hi
    rcases hi with rfl | rfl | rfl <;> decide
  · rcases hj name j h with rfl | rfl <;> decide

/-- Two versions of one image as services. -/
def exTwice : Gitlab.Config where
  image := { name := "ruby" }
  stages := ["test"]
  services := [some { name := "postgres:9.6" }, some { name := "docker.io/library/postgres:10" }]
  jobs := [("unit", some { stage := "test", script := ["unit"] })]

/-- The linter refuses what the file becomes. -/
example (ps : List Pipeline) (h : Gitlab.toPipelines shaDigests (exOrders _) exTwice = some ps) (p : Pipeline)
    (hp : p ∈ ps) : lint (.pipeline p) true ≠ .ok () :=
  C104_clash shaDigests (exOrders _) exTwice ps true 0 1 (by decide) { name := "postgres:9.6" }
    { name := "docker.io/library/postgres:10" } (nm none ["postgres"] (some "9.6") none)
    (nm (some "docker.io") ["library", "postgres"] (some "10") none) rfl rfl rfl rfl
    (valid_of_check (by decide +kernel)) (valid_of_check (by decide +kernel)) rfl rfl rfl (by decide) h p hp

/-- C104: different repositories may get the same name. -/
theorem C104_not_injective :
    ∃ m n : ImageName, m.Valid shaDigests.ok ∧ n.Valid shaDigests.ok ∧ m.shortParts ≠ n.shortParts ∧
      Gitlab.serviceSlug shaDigests (String.ofList m.text) = Gitlab.serviceSlug shaDigests (String.ofList n.text) := by
  refine ⟨nm none ["team", "db"] none none, nm none ["team__db"] none none, valid_of_check (by decide +kernel),
    valid_of_check (by decide +kernel), by decide, ?_⟩
  rw [C104_slug (valid_of_check (by decide +kernel)), C104_slug (valid_of_check (by decide +kernel))]
  decide +kernel

/-- What is no image name is taken as it is written. -/
example : Gitlab.serviceSlug shaDigests "Team/DB:1" = "Team__DB:1" :=
  C104_slug_other (not_valid (by decide +kernel)) ["Team".toList, "DB:1".toList] (by decide) rfl

end Drone
