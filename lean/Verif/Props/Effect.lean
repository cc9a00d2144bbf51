/-
C94: formatting a file that the linter accepts changes neither the verdict nor what is run.
-/
import Verif.Proof.Alike
import Verif.Props.Lint
import Verif.Props.ReadBack
import Verif.Props.Settle
import Verif.Props.Cli
import Verif.Props.Encode

namespace Drone
open Spec Pretty

namespace Spec

/-- Everything in the container that has an effect is written when it is formatted: no empty
variable, mount or resource section. -/
structure Shown (c : Container) : Prop where
  vars : ∀ k v, (k, some v) ∈ c.environment → v.value ≠ "" ∨ v.secret ≠ ""
  mounts : some {} ∉ c.volumes
  resources : ∀ r, c.resources = some r → r ≠ {} ∧ r.limits ≠ some {} ∧ r.requests ≠ some {}

/-- The same for a volume. -/
def ShownVolume (v : Volume) : Prop := v ≠ {} ∧ (v.emptyDir = none → v.hostPath ≠ some {})

/-- The same for a pipeline. -/
structure ShownPipeline (p : Pipeline) : Prop where
  containers : ∀ c, some c ∈ p.services ∨ some c ∈ p.steps → Shown c
  volumes : ∀ v, some v ∈ p.volumes → ShownVolume v

/-- The text of a setting does not depend on the order of the maps in it. -/
def SettledText (E : Ext) (c : Container) : Prop :=
  ∀ k p w, (k, some p) ∈ c.settings → SameValue p.value w → encodeValue E p.value = encodeValue E w

end Spec

/-- The callbacks of the compiler do not see what formatting changes. -/
def Compiler.FormatBlind (c : Compiler) : Prop :=
  ∀ a a' b, keptContainer a = some a' → SameContainer a' b →
    c.skip.any (· a) = c.skip.any (· b) ∧ c.privileged.any (· a) = c.privileged.any (· b)

/-! ### The linter and the order of maps -/

theorem checkContainer_same {t : Bool} {c c' : Container} (h : SameContainer c c') :
    checkContainer t c' = checkContainer t c := by
  obtain ⟨b, e, s, m, hb, -, -, -, rfl⟩ := h
  unfold checkContainer
  dsimp only
  have h1 : (b = none ∧ c.image = "") = (c.build = none ∧ c.image = "") := by
    revert hb; generalize c.build = o; intro hb
    cases hb <;> simp
  have h2 : b.map (fun b => b.image) = c.build.map (fun b => b.image) := by
    revert hb; generalize c.build = o; intro hb
    cases hb with
    | none => rfl
    | some h => obtain ⟨_, _, _, _, rfl⟩ := h; rfl
  simp only [h1, h2]

theorem checkSteps_same {t : Bool} {l l' : List (Option Container)} (h : List.Forall₂ (Option.Rel SameContainer) l l') :
    ∀ names, checkSteps t names l' = checkSteps t names l := by
  induction h with
  | nil => intro names; rfl
  | cons h _ ih =>
    intro names
    cases h with
    | none => rfl
    | @some a b h =>
      have hn : b.name = a.name ∧ b.dependsOn = a.dependsOn := by
        obtain ⟨_, _, _, _, _, _, _, _, rfl⟩ := h; exact ⟨rfl, rfl⟩
      simp only [checkSteps, checkContainer_same h, hn.1, hn.2, ih]

theorem checkServices_same {t : Bool} {l l' : List (Option Container)}
    (h : List.Forall₂ (Option.Rel SameContainer) l l') :
    ∀ names, checkServices t names l' = checkServices t names l := by
  induction h with
  | nil => intro names; rfl
  | cons h _ ih =>
    intro names
    cases h with
    | none => rfl
    | @some a b h =>
      have hn : b.name = a.name := by
        obtain ⟨_, _, _, _, _, _, _, _, rfl⟩ := h; rfl
      simp only [checkServices, checkContainer_same h, hn, ih]

/-- C94.  The verdict of the linter does not depend on the order of maps. -/
theorem C94_lint_order (r r' : Resource) (h : SameResource r r') (t : Bool) : lint r' t = lint r t := by
  cases h with
  | cron c => rfl
  | secret c => rfl
  | signature c => rfl
  | registry r data hd =>
    have : data.length = r.data.length := hd.1.length_eq.symm
    simp only [lint, Registry.validate, this]
  | @pipeline p p' hp =>
    obtain ⟨n, st, sv, m, -, h1, h2, -, rfl⟩ := hp
    simp only [lint, checkPipeline, checkSteps_same h1, checkServices_same h2]

/-! ### The linter and what is lost -/

theorem kept_name {c : Container} (h : c.name ≠ "") : ∃ c', keptContainer c = some c' := by
  unfold keptContainer
  rw [if_neg fun hb => h hb.1]
  exact ⟨_, rfl⟩

theorem mem_keepList {α β : Type} {f : α → Option β} {l : List (Option α)} {o : Option β} :
    o ∈ keepList f l ↔ ∃ a b, some a ∈ l ∧ f a = some b ∧ o = some b := by
  unfold keepList
  simp only [List.mem_map, List.mem_filterMap, Option.bind_eq_some_iff]
  constructor
  · rintro ⟨b, ⟨o', ho, a, rfl, hb⟩, rfl⟩
    exact ⟨a, b, ho, hb, rfl⟩
  · rintro ⟨a, b, h1, h2, rfl⟩
    exact ⟨b, ⟨_, h1, a, rfl, h2⟩, rfl⟩

theorem kept_containerOK {t : Bool} {c c' : Container} (h : ContainerOK t c) (hk : keptContainer c = some c') :
    ContainerOK t c' ∧ c'.name = c.name ∧ c'.dependsOn = c.dependsOn := by
  unfold keptContainer at hk
  split at hk
  · simp at hk
  simp only [Option.some.injEq] at hk
  subst hk
  refine ⟨⟨h.name, ?_, ?_, ?_, ?_⟩, rfl, rfl⟩
  · dsimp only
    intro hb
    cases hc : c.build with
    | none => exact h.image hc
    | some b =>
      rw [hc, Option.bind_some, keptBuild] at hb
      split at hb
      · rename_i he
        have := h.build b hc
        rw [he] at this
        exact absurd rfl this
      · simp at hb
  · dsimp only
    intro b hb
    obtain ⟨b', h1, h2⟩ := Option.bind_eq_some_iff.1 hb
    unfold keptBuild at h2
    split at h2
    · simp at h2
    · simp only [Option.some.injEq] at h2
      subst h2
      exact h.build _ h1
  · dsimp only
    intro m hm
    obtain ⟨a, b, h1, h2, rfl⟩ := mem_keepList.1 hm
    obtain ⟨v, e, hv⟩ := h.mounts _ h1
    cases e
    unfold keptMount at h2
    split at h2
    · simp at h2
    · simp only [Option.some.injEq] at h2
      subst h2
      exact ⟨_, rfl, hv⟩
  · dsimp only
    intro ht
    obtain ⟨a1, a2, a3, a4, a5, a6, a7⟩ := h.untrusted ht
    refine ⟨a1, ?_, a3, a4, a5, a6, ?_⟩
    · rw [a2]; rfl
    · intro p hp
      obtain ⟨a, b, h1, h2, rfl⟩ := mem_keepList.1 hp
      simp only [Option.some.injEq] at h2
      subst h2
      exact a7 _ h1

theorem keepList_map {α β : Type} {f : α → Option β} {g : α → β} (l : List α) (h : ∀ a ∈ l, f a = some (g a)) :
    keepList f (l.map some) = (l.map g).map some := by
  unfold keepList
  induction l with
  | nil => rfl
  | cons a l ih =>
    have ih := ih fun a ha => h a (List.mem_cons_of_mem _ ha)
    simp only [List.map_cons, List.filterMap_cons, Option.bind_some, h a List.mem_cons_self, List.cons.injEq,
      true_and]
    exact ih

theorem kept_pipelineOK {t : Bool} {p : Pipeline} {ss sv : List Container} (h : PipelineOK t p ss sv) :
    ∃ ss' sv', PipelineOK t (keptPipeline p) ss' sv' := by
  have hg : ∀ c ∈ ss ++ sv, keptContainer c = some ((keptContainer c).getD c) := by
    intro c hc
    obtain ⟨c', e⟩ := kept_name (h.containers c hc).name
    rw [e]
    rfl
  have hok : ∀ c ∈ ss ++ sv, ContainerOK t ((keptContainer c).getD c) ∧
      ((keptContainer c).getD c).name = c.name ∧ ((keptContainer c).getD c).dependsOn = c.dependsOn :=
    fun c hc => kept_containerOK (h.containers c hc) (hg c hc)
  refine ⟨ss.map fun c => (keptContainer c).getD c, sv.map fun c => (keptContainer c).getD c, ?_, ?_, ?_, ?_, ?_, ?_, ?_⟩
  · show keepList keptContainer p.steps = _
    rw [h.steps_eq]
    exact keepList_map _ fun c hc => hg c (List.mem_append_left _ hc)
  · show keepList keptContainer p.services = _
    rw [h.services_eq]
    exact keepList_map _ fun c hc => hg c (List.mem_append_right _ hc)
  · intro v hv
    obtain ⟨a, b, h1, h2, rfl⟩ := mem_keepList.1 hv
    obtain ⟨w, e, hw⟩ := h.volumes _ h1
    cases e
    refine ⟨b, rfl, ?_⟩
    unfold keptVolume at h2
    split at h2
    · simp at h2
    · simp only [Option.some.injEq] at h2
      subst h2
      refine ⟨hw.name, fun ht => ?_⟩
      obtain ⟨h3, h4⟩ := hw.untrusted ht
      exact ⟨by simp [h3], h4⟩
  · show PlatformOK (keptPlatform p.platform)
    unfold keptPlatform
    split
    · exact ⟨by simp, by simp⟩
    · exact h.platform
  · intro c hc
    rw [← List.map_append, List.mem_map] at hc
    obtain ⟨a, ha, rfl⟩ := hc
    exact (hok a ha).1
  · have : ((ss.map fun c => (keptContainer c).getD c) ++ sv.map fun c => (keptContainer c).getD c).map (·.name) =
        (ss ++ sv).map (·.name) := by
      rw [← List.map_append, List.map_map]
      exact List.map_congr_left fun c hc => (hok c hc).2.1
    rw [this]
    exact h.unique
  · have : nodes (ss.map fun c => (keptContainer c).getD c) = nodes ss := by
      unfold nodes
      rw [List.map_map]
      refine List.map_congr_left fun c hc => ?_
      have := hok c (List.mem_append_left _ hc)
      simp only [Function.comp, this.2.1, this.2.2]
    rw [this]
    exact h.deps

theorem keptData_ne {d : String} (h : ∃ c ∈ d.toList, c ≠ ' ' ∧ c ≠ '\n') : keptData d ≠ "" := by
  obtain ⟨c, h1, h2⟩ := h
  unfold keptData
  have ht : d.toList.filter (fun c => decide (c ≠ ' ' ∧ c ≠ '\n')) ≠ [] := by
    intro e
    have : c ∈ d.toList.filter (fun c => decide (c ≠ ' ' ∧ c ≠ '\n')) := by
      rw [List.mem_filter]; exact ⟨h1, by simpa using h2⟩
    rw [e] at this
    simp at this
  dsimp only
  rw [if_neg ht]
  intro e
  have := congrArg String.toList e
  simp at this

/-- C94.  What is kept of an accepted resource is accepted; the data of a secret has to have
something in it besides blanks. -/
theorem C94_lint_kept (r r' : Resource) (t : Bool) (hk : keptResource r = some r')
    (hd : ∀ s, r = .secret s → s.data ≠ "" → ∃ c ∈ s.data.toList, c ≠ ' ' ∧ c ≠ '\n')
    (h : lint r t = .ok ()) : lint r' t = .ok () := by
  obtain ⟨k1, k2, k3, k4⟩ := C17_other_resources t
  cases r with
  | registry x => simp [keptResource] at hk
  | cron c =>
    simp only [keptResource, Option.some.injEq] at hk; subst hk
    rw [k1] at h ⊢
    exact h
  | secret s =>
    simp only [keptResource, Option.some.injEq] at hk; subst hk
    rw [k2] at h ⊢
    rcases h with h | h
    · exact .inl (keptData_ne (hd s rfl h))
    · exact .inr h
  | signature s =>
    simp only [keptResource, Option.some.injEq] at hk; subst hk
    exact h
  | pipeline p =>
    simp only [keptResource, Option.some.injEq] at hk; subst hk
    obtain ⟨ss, sv, hp⟩ := (C12_lint_iff p t).1 h
    exact (C12_lint_iff _ t).2 (kept_pipelineOK hp)

/-! ### The linter of manifests -/

theorem checkPlatform_kept (p : Platform) : checkPlatform (keptPlatform p) = checkPlatform p := by
  unfold keptPlatform
  split
  · rename_i h; subst h; rfl
  · rfl

theorem checkPipelines_kept (rs : List Resource) :
    ∀ names, checkPipelines names (rs.filterMap keptResource) = checkPipelines names rs := by
  induction rs with
  | nil => intro names; rfl
  | cons r rs ih =>
    intro names
    cases r with
    | registry x => exact ih names
    | cron x => exact ih names
    | secret x => exact ih names
    | signature x => exact ih names
    | pipeline p =>
      simp only [List.filterMap_cons, keptResource, checkPipelines, ih]
      have : whenSome (if ((keptPipeline p).kind = "pipeline" ∨ (keptPipeline p).kind = "") ∧
            ((keptPipeline p).type = "" ∨ (keptPipeline p).type = "docker") then some (keptPipeline p).platform else none)
            checkPlatform =
          whenSome (if (p.kind = "pipeline" ∨ p.kind = "") ∧ (p.type = "" ∨ p.type = "docker") then some p.platform
            else none) checkPlatform := by
        by_cases hd : (p.kind = "pipeline" ∨ p.kind = "") ∧ (p.type = "" ∨ p.type = "docker")
        · rw [if_pos hd, if_pos (by exact hd)]
          exact checkPlatform_kept _
        · rw [if_neg hd, if_neg (by exact hd)]
      rw [this]
      rfl

theorem checkPipelines_same {rs rs' : List Resource} (h : List.Forall₂ SameResource rs rs') :
    ∀ names, checkPipelines names rs' = checkPipelines names rs := by
  induction h with
  | nil => intro names; rfl
  | cons h _ ih =>
    intro names
    cases h with
    | registry x => exact ih names
    | cron x => exact ih names
    | secret x => exact ih names
    | signature x => exact ih names
    | pipeline hp =>
      obtain ⟨_, _, _, _, _, _, _, _, rfl⟩ := hp
      simp only [checkPipelines, ih]

/-- C94.  The linter for manifests gives the same answer before and after formatting, whatever
it is. -/
theorem C94_manifest (m m' : Manifest) (t : Bool) (h : List.Forall₂ SameResource (keptManifest m).resources m'.resources) :
    lintManifest m' t = lintManifest m t := by
  unfold lintManifest
  rw [checkPipelines_same h]
  exact checkPipelines_kept _ _

/-! ### Containers -/

theorem plainEnv_kept {m : GoMap (Option Variable)} (h : ∀ k v, (k, some v) ∈ m → v.value ≠ "" ∨ v.secret ≠ "") :
    plainEnv (keepMap keptVariable m) = plainEnv m ∧ secretEnv (keepMap keptVariable m) = secretEnv m := by
  unfold plainEnv secretEnv keepMap
  simp only [List.filterMap_filterMap]
  constructor <;> refine List.filterMap_congr fun kv hkv => ?_
  all_goals
    obtain ⟨k, v⟩ := kv
    cases v with
    | none => rfl
    | some v =>
      have := h k v hkv
      by_cases hs : v.secret = ""
      · have hv : v.value ≠ "" := by simpa [hs] using this
        simp [keptVariable, hs, hv]
      · simp [keptVariable, hs]

theorem plainSettings_kept (E : Ext) (m : GoMap (Option Parameter)) :
    plainSettings E (keepMap keptParameter m) = plainSettings E m ∧
    secretSettings E (keepMap keptParameter m) = secretSettings E m := by
  unfold plainSettings secretSettings keepMap
  simp only [List.filterMap_filterMap]
  constructor <;> refine List.filterMap_congr fun kv hkv => ?_
  all_goals
    obtain ⟨k, v⟩ := kv
    cases v with
    | none => rfl
    | some v => by_cases hs : v.secret = "" <;> simp [keptParameter, hs]

theorem settings_same {E : Ext} {m mid : GoMap (Option Parameter)}
    (h : List.Forall₂ (fun a b => a.1 = b.1 ∧ (a.2 = b.2 ∨
      ∃ p q, a.2 = some p ∧ b.2 = some q ∧ p.secret = q.secret ∧ SameValue p.value q.value)) m mid)
    (hb : ∀ k p w, (k, some p) ∈ m → p.secret = "" → SameValue p.value w → encodeValue E p.value = encodeValue E w) :
    plainSettings E mid = plainSettings E m ∧ secretSettings E mid = secretSettings E m := by
  unfold plainSettings secretSettings
  induction h with
  | nil => exact ⟨rfl, rfl⟩
  | @cons a b l l' h _ ih =>
    obtain ⟨i1, i2⟩ := ih fun k p w hm => hb k p w (List.mem_cons_of_mem _ hm)
    obtain ⟨k, o⟩ := a
    obtain ⟨k', o'⟩ := b
    obtain ⟨hk, h⟩ := h
    simp only at hk h
    subst hk
    rcases h with rfl | ⟨p, q, rfl, rfl, hs, hv⟩
    · simp only [List.filterMap_cons, i1, i2, and_self]
    · by_cases he : p.secret = ""
      · have hq : q.secret = "" := by rw [← hs]; exact he
        have := hb k p q.value List.mem_cons_self he hv
        simp only [List.filterMap_cons, Option.bind_some, he, hq, if_true, i1, i2, this, and_self]
      · have hq : q.secret ≠ "" := by rw [← hs]; exact he
        simp only [List.filterMap_cons, Option.bind_some, he, hq, if_false, i1, i2, hs, and_self]

theorem toPorts_kept {c : Container} {ps : List Engine.Port} (h : toPorts c = some ps) : keepList some c.ports = c.ports := by
  unfold toPorts at h
  revert ps
  generalize c.ports = l
  induction l with
  | nil => intro ps _; rfl
  | cons o l ih =>
    intro ps h
    cases o with
    | none => simp [toPort] at h
    | some p =>
      simp only [List.mapM_cons, toPort, Option.pure_def, Option.bind_eq_bind, Option.bind_some,
        Option.bind_eq_some_iff] at h
      obtain ⟨a, h1, _⟩ := h
      unfold keepList at ih ⊢
      simp only [List.filterMap_cons, Option.bind_some, List.map_cons, List.cons.injEq, true_and]
      exact ih h1

theorem stepMounts_kept {l : List (Option VolumeMount)} {ms : List Engine.VolumeMount} (hv : some {} ∉ l)
    (h : stepMounts l = some ms) : keepList keptMount l = l := by
  induction l generalizing ms with
  | nil => rfl
  | cons o l ih =>
    have hv' : some {} ∉ l := fun h => hv (List.mem_cons_of_mem _ h)
    cases o with
    | none => simp [stepMounts] at h
    | some v =>
      have hne : v ≠ {} := by rintro rfl; exact hv List.mem_cons_self
      have hl : ∃ ms, stepMounts l = some ms := by
        unfold stepMounts at h
        split at h
        · exact ⟨_, h⟩
        · obtain ⟨a, h1, _⟩ := Option.map_eq_some_iff.1 h
          exact ⟨a, h1⟩
      obtain ⟨ms', h1⟩ := hl
      have ih := ih hv' h1
      unfold keepList at ih ⊢
      simp only [List.filterMap_cons, Option.bind_some, keptMount, hne, if_false, List.map_cons, List.cons.injEq,
        true_and]
      exact ih

theorem toResources_kept {c : Container} (h : ∀ r, c.resources = some r → r ≠ {} ∧ r.limits ≠ some {} ∧ r.requests ≠ some {}) :
    c.resources.bind keptResources = c.resources := by
  cases hr : c.resources with
  | none => rfl
  | some r =>
    obtain ⟨h1, h2, h3⟩ := h r hr
    rw [Option.bind_some, keptResources, if_neg h1]
    obtain ⟨l, q⟩ := r
    simp only at h2 h3 ⊢
    have hk : ∀ o : Option ResourceObject, o ≠ some {} → o.bind keptObject = o := by
      intro o ho
      cases o with
      | none => rfl
      | some x =>
        have : x ≠ {} := by rintro rfl; exact ho rfl
        simp [keptObject, this]
    rw [hk l h2, hk q h3]

/-- A container that shows all its effects compiles to the same step when it was formatted. -/
theorem alike_kept {E : Ext} {c : Compiler} (hfb : c.FormatBlind) {a a' b : Container} (hk : keptContainer a = some a')
    (hs : SameContainer a' b) (hv : Shown a) (hb : ∀ x, a.build = some x → x.image ≠ "") (hn : NoCollision E a)
    (ht : SettledText E a) : Alike E c a b := by
  have hcb := hfb a a' b hk hs
  unfold keptContainer at hk
  split at hk
  · simp at hk
  simp only [Option.some.injEq] at hk
  subst hk
  obtain ⟨bd, env, set, mat, h1, h2, h3, h4, rfl⟩ := hs
  dsimp only at *
  obtain ⟨mid, m1, m2, m3⟩ := h3
  obtain ⟨v1, v2⟩ := plainEnv_kept hv.vars
  obtain ⟨p1, p2⟩ := plainSettings_kept E a.settings
  have hblind : ∀ k p w, (k, some p) ∈ keepMap keptParameter a.settings → p.secret = "" → SameValue p.value w →
      encodeValue E p.value = encodeValue E w := by
    intro k p w hm he hw
    unfold keepMap at hm
    simp only [List.mem_filterMap, Option.map_eq_some_iff, Option.bind_eq_some_iff] at hm
    obtain ⟨⟨k', o⟩, hmem, q, ⟨x, hx, hq⟩, e⟩ := hm
    simp only [Prod.mk.injEq, Option.some.injEq] at e hx
    obtain ⟨rfl, rfl⟩ := e
    subst hx
    unfold keptParameter at hq
    split at hq
    · simp only [Option.some.injEq] at hq
      subst hq
      exact ht _ _ _ hmem hw
    · simp only [Option.some.injEq] at hq
      subst hq
      exact absurd he ‹_›
  obtain ⟨q1, q2⟩ := settings_same m1 hblind
  have e1 : (plainEnv a.environment).Perm (plainEnv env) := by rw [← v1]; exact h2.1.filterMap _
  have e2 : (secretEnv a.environment).Perm (secretEnv env) := by rw [← v2]; exact h2.1.filterMap _
  have e3 : (plainSettings E a.settings).Perm (plainSettings E set) := by
    rw [← p1, ← q1]; exact m2.filterMap _
  have e4 : (secretSettings E a.settings).Perm (secretSettings E set) := by
    rw [← p2, ← q2]; exact m2.filterMap _
  have n1 := plainEnv_nodup hn.1
  refine ⟨rfl, ?_, rfl, ?_, ?_, ?_, ?_, ?_, hcb.1, hcb.2⟩
  · dsimp only
    cases hab : a.build with
    | none =>
      rw [hab] at h1
      cases h1
      exact .none
    | some x =>
      have hne : x ≠ {} := by
        rintro rfl
        exact hb _ hab rfl
      rw [hab, Option.bind_some, keptBuild, if_neg hne] at h1
      cases h1 with
      | some h => obtain ⟨_, _, _, _, rfl⟩ := h; exact .some ⟨rfl, rfl, rfl, rfl⟩
  · intro ps hp
    have := toPorts_kept hp
    unfold toPorts at hp ⊢
    dsimp only
    rw [this]
    exact hp
  · intro ms hm
    dsimp only
    rw [stepMounts_kept hv.mounts hm]
    exact hm
  · unfold toResources
    dsimp only
    rw [toResources_kept hv.resources]
  · intro k
    rw [stepEnvs_eq, stepEnvs_eq]
    have n1' : ((plainEnv env).map Prod.fst).Nodup := (e1.map _).nodup_iff.mp n1
    simp only
    rw [setAll_get_fn hn.2, setAll_get_fn (hn.2.perm e3), setAll_get n1, setAll_get n1',
      GoMap.keys_perm_get? e1 n1, hn.2.get e3]
  · rw [stepEnvs_eq, stepEnvs_eq]
    exact e2.append e4

/-! ### Pipelines -/

theorem containers_alike {E : Ext} {c : Compiler} (hfb : c.FormatBlind) {l : List Container} {l' : List (Option Container)}
    (hs : List.Forall₂ (Option.Rel SameContainer) (keepList keptContainer (l.map some)) l')
    (hv : ∀ a ∈ l, a.name ≠ "" ∧ Shown a ∧ (∀ x, a.build = some x → x.image ≠ "") ∧ NoCollision E a ∧ SettledText E a) :
    List.Forall₂ (Option.Rel (Alike E c)) (l.map some) l' := by
  induction l generalizing l' with
  | nil => cases hs; exact .nil
  | cons a l ih =>
    obtain ⟨g1, g2, g3, g4, g5⟩ := hv a List.mem_cons_self
    obtain ⟨a', ha⟩ := kept_name g1
    have e : keepList keptContainer ((a :: l).map some) = some a' :: keepList keptContainer (l.map some) := by
      unfold keepList
      simp [ha]
    rw [e] at hs
    cases hs with
    | cons h1 h2 =>
      refine .cons ?_ (ih h2 fun x hx => hv x (List.mem_cons_of_mem _ hx))
      cases h1 with
      | some h => exact .some (alike_kept hfb ha h g2 g3 g4 g5)

theorem keptPlatform_plan (p : Platform) : (keptPlatform p).os = "windows" ↔ p.os = "windows" := by
  unfold keptPlatform
  split
  · rename_i h; subst h; decide
  · exact Iff.rfl

theorem keptPlatform_image (p : Platform) : cloneImageOf (keptPlatform p) = cloneImageOf p := by
  unfold keptPlatform
  split
  · rename_i h; subst h; rfl
  · rfl

theorem rawVolumes_kept (rnd : Nat → String) (ns : String) {l : List Volume} (h : ∀ v ∈ l, ShownVolume v) :
    ((keepList keptVolume (l.map some)).filterMap id).length = l.length ∧
    ∀ n, rawVolumes rnd ns n ((keepList keptVolume (l.map some)).filterMap id) = rawVolumes rnd ns n l := by
  induction l with
  | nil => exact ⟨rfl, fun _ => rfl⟩
  | cons v l ih =>
    obtain ⟨i1, i2⟩ := ih fun v hv => h v (List.mem_cons_of_mem _ hv)
    obtain ⟨h1, h2⟩ := h v List.mem_cons_self
    have e : (keepList keptVolume ((v :: l).map some)).filterMap id =
        { v with hostPath := v.hostPath.bind keptHost } :: (keepList keptVolume (l.map some)).filterMap id := by
      unfold keepList
      simp [keptVolume, h1]
    rw [e]
    refine ⟨by rw [List.length_cons, i1, List.length_cons], fun n => ?_⟩
    simp only [rawVolumes, i2, List.cons.injEq, and_true]
    cases he : v.emptyDir with
    | some d => simp
    | none =>
      have h2 := h2 he
      cases hh : v.hostPath with
      | none => simp
      | some p =>
        have : p ≠ {} := by rintro rfl; exact h2 hh
        simp [keptHost, this]

/-- What is the same in the states after compiling a pipeline and its formatted version. -/
structure SameState (pl pl' : Engine.Platform) (st st' : St) : Prop where
  n : st'.n = st.n
  spec : st'.spec = { st.spec with platform := pl', steps := st'.spec.steps }
  platform : st.spec.platform = pl
  steps : List.Forall₂ SameStep st.spec.steps st'.spec.steps

/-- The platform of the specification of a pipeline. -/
def enginePlatform (p : Platform) : Engine.Platform := ⟨p.os, p.arch, p.variant, p.version⟩

theorem compileCore_kept {E : Ext} {c : Compiler} (hc : c.Std) (hfb : c.FormatBlind) {rnd : Nat → String} {p q : Pipeline}
    {st : St} (hs : SamePipeline (keptPipeline p) q) (hv : ShownPipeline p)
    (hn : ∀ a, some a ∈ p.services ∨ some a ∈ p.steps → a.name ≠ "" ∧ (∀ x, a.build = some x → x.image ≠ "") ∧
      NoCollision E a ∧ SettledText E a)
    (h : compileCore E c rnd p = some st) :
    ∃ st', compileCore E c rnd q = some st' ∧
      SameState (enginePlatform p.platform) (enginePlatform (keptPlatform p.platform)) st st' := by
  obtain ⟨node, steps, services, mat, h1, h2, h3, h4, rfl⟩ := hs
  obtain ⟨vn, svn, stn⟩ := compileCore_no_nil h
  have hcs : ∀ a, some a ∈ p.services ∨ some a ∈ p.steps → a.name ≠ "" ∧ Shown a ∧
      (∀ x, a.build = some x → x.image ≠ "") ∧ NoCollision E a ∧ SettledText E a := by
    intro a hm
    obtain ⟨g1, g2, g3⟩ := hn a hm
    exact ⟨g1, hv.containers a hm, g2, g3⟩
  have mem : ∀ {α : Type} {l : List (Option α)} {a : α}, a ∈ l.filterMap id → some a ∈ l := by
    intro α l a ha
    rw [List.mem_filterMap] at ha
    obtain ⟨o, ho, rfl⟩ := ha
    exact ho
  have ev := map_some_of_no_nil vn
  have es := map_some_of_no_nil svn
  have et := map_some_of_no_nil stn
  have rv := rawVolumes_kept rnd (rnd 0) (l := p.volumes.filterMap id) (fun v hv' => hv.volumes v (mem hv'))
  rw [← ev] at rv
  change List.Forall₂ _ (keepList keptContainer p.steps) steps at h2
  change List.Forall₂ _ (keepList keptContainer p.services) services at h3
  rw [et] at h2
  rw [es] at h3
  have k1 := containers_alike hfb h2 fun a ha => hcs a (.inr (mem ha))
  have k2 := containers_alike hfb h3 fun a ha => hcs a (.inl (mem ha))
  rw [← et] at k1
  rw [← es] at k2
  obtain ⟨a0, st', a1, a2, a3, a4⟩ := compileCore_alike (E := E) (p := p)
    (q := { keptPipeline p with
      node := node, steps := steps, services := services, trigger := { (keptPipeline p).trigger with matrix := mat } }) hc
    ⟨rfl, rfl, keptPlatform_plan p.platform⟩ rfl rfl rfl (keptPlatform_image p.platform)
    (fun hm => by obtain ⟨_, _, _, _, e⟩ := mem_keepList.1 hm; cases e) rv.1 rv.2 k2 k1 h
  exact ⟨st', a1, a2, a3, a0, a4⟩

/-- C94.  A pipeline that the linter accepts and that shows all its effects compiles to the same
specification before and after formatting: only the order of variables and of secret references
may differ, and an empty platform is spelled out. -/
theorem C94_compile (E : Ext) (c : Compiler) (hc : c.Std) (ht : c.transform = none) (hfb : c.FormatBlind)
    (rnd : Nat → String) (p q : Pipeline) (sp : Engine.Spec) (t : Bool) (hs : SamePipeline (keptPipeline p) q)
    (hl : lint (.pipeline p) t = .ok ()) (hv : ShownPipeline p)
    (hn : ∀ a, some a ∈ p.services ∨ some a ∈ p.steps → NoCollision E a ∧ SettledText E a)
    (h : compile E c rnd p = some sp) :
    ∃ sp', compile E c rnd q = some sp' ∧ List.Forall₂ SameStep sp.steps sp'.steps ∧
      sp' = { sp with steps := sp'.steps, platform := sp'.platform } ∧
      (p.platform ≠ {} → sp'.platform = sp.platform) ∧
      (p.platform = {} → sp'.platform = { os := "linux", arch := "amd64" }) := by
  obtain ⟨ss, sv, hp⟩ := (C12_lint_iff p t).1 hl
  have hok : ∀ a, some a ∈ p.services ∨ some a ∈ p.steps → a ∈ ss ++ sv := by
    intro a ha
    rw [hp.services_eq, hp.steps_eq] at ha
    simp only [List.mem_map, Option.some.injEq, exists_eq_right] at ha
    exact List.mem_append.2 ha.symm
  unfold compile at h ⊢
  obtain ⟨st, hst, rfl⟩ := Option.map_eq_some_iff.1 h
  obtain ⟨st', h1, h2⟩ := compileCore_kept hc hfb hs hv (fun a ha =>
    ⟨(hp.containers a (hok a ha)).name, (hp.containers a (hok a ha)).build, hn a ha⟩) hst
  rw [h1, ht]
  refine ⟨st'.spec, rfl, h2.steps, ?_, fun hne => ?_, fun he => ?_⟩
  · rw [h2.spec]
  · rw [h2.spec, h2.platform]
    simp only [keptPlatform, if_neg hne]
  · rw [h2.spec]
    simp only [keptPlatform, if_pos he]
    rfl

/-! ### The command line program -/

theorem compilerFor_blind (X : Cli.CliLib) (fl : Cli.CompileFlags) : (Cli.compilerFor X fl).FormatBlind := by
  intro a a' b hk hs
  unfold keptContainer at hk
  split at hk
  · simp at hk
  simp only [Option.some.injEq] at hk
  subst hk
  obtain ⟨bd, env, set, mat, h1, h2, h3, h4, rfl⟩ := hs
  exact ⟨rfl, rfl⟩

section
open Transform

/-- A transform that cannot tell the two apart. -/
def Respects (T : Transform.Transform) : Prop :=
  ∀ pl pl' st st' r, SameState pl pl' st st' → T st = some r → ∃ r', T st' = some r' ∧ SameState pl pl' r r'

theorem forall₂_map_same {f : Engine.Step → Engine.Step} (hf : ∀ s s', SameStep s s' → SameStep (f s) (f s'))
    {l l' : List Engine.Step} (h : List.Forall₂ SameStep l l') : List.Forall₂ SameStep (l.map f) (l'.map f) :=
  forall₂_map_map h hf

theorem SameState.each {f : Engine.Step → Engine.Step} (hf : ∀ s s', SameStep s s' → SameStep (f s) (f s'))
    {pl pl' : Engine.Platform} {st st' : St} (h : SameState pl pl' st st') :
    SameState pl pl' (eachStep f st) (eachStep f st') := by
  obtain ⟨h1, h2, h3, h4⟩ := h
  refine ⟨h1, ?_, h3, forall₂_map_same hf h4⟩
  unfold eachStep
  rw [h2]

theorem sameStep_envs {s s' : Engine.Step} (h : SameStep s s') (g : GoMap String → GoMap String)
    (hg : ∀ m m', (∀ k, GoMap.get? m k = GoMap.get? m' k) → ∀ k, GoMap.get? (g m) k = GoMap.get? (g m') k) :
    SameStep { s with envs := g s.envs } { s' with envs := g s'.envs } := by
  obtain ⟨h1, h2, h3⟩ := h
  refine ⟨?_, hg _ _ h2, h3⟩
  rw [h1]

theorem respects_environ (envs : GoMap String) : Respects (withEnviron envs) := by
  intro pl pl' st st' r h hr
  simp only [withEnviron, Option.some.injEq] at hr
  subst hr
  refine ⟨_, rfl, ?_⟩
  induction envs generalizing st st' with
  | nil => exact h
  | cons kv envs ih =>
    exact ih _ _ (h.each fun s s' hs => sameStep_envs hs (fun m => m.set kv.1 kv.2) fun m m' hm => set_same hm _ _)

theorem respects_netrc (a b c : String) : Respects (withNetrc a b c) := by
  intro pl pl' st st' r h hr
  unfold withNetrc at hr ⊢
  split at hr
  · rename_i hc
    rw [if_pos hc]
    simp only [Option.some.injEq] at hr
    subst hr
    exact ⟨_, rfl, h⟩
  · rename_i hc
    rw [if_neg hc]
    simp only [Option.some.injEq] at hr
    subst hr
    refine ⟨_, rfl, h.each fun s s' hs => ?_⟩
    exact sameStep_envs hs (fun e => (((((e.set "CI_NETRC_MACHINE" a).set "CI_NETRC_USERNAME" b).set
      "CI_NETRC_PASSWORD" c).set "DRONE_NETRC_MACHINE" a).set "DRONE_NETRC_USERNAME" b).set "DRONE_NETRC_PASSWORD" c)
      fun m m' hm => set_same (set_same (set_same (set_same (set_same (set_same hm _ _) _ _) _ _) _ _) _ _) _ _

theorem respects_limits (a b : Int) : Respects (withLimits a b) := by
  intro pl pl' st st' r h hr
  unfold withLimits at hr ⊢
  split at hr
  · rename_i hc
    rw [if_pos hc]
    simp only [Option.some.injEq] at hr
    subst hr
    exact ⟨_, rfl, h⟩
  · rename_i hc
    rw [if_neg hc]
    simp only [Option.some.injEq] at hr
    subst hr
    refine ⟨_, rfl, h.each fun s s' hs => ?_⟩
    obtain ⟨h1, h2, h3⟩ := hs
    refine ⟨?_, h2, h3⟩
    rw [h1]

theorem respects_networks (l : List String) : Respects (withNetworks l) := by
  intro pl pl' st st' r h hr
  simp only [withNetworks, Option.some.injEq] at hr
  subst hr
  refine ⟨_, rfl, h.each fun s s' hs => ?_⟩
  obtain ⟨h1, h2, h3⟩ := hs
  refine ⟨?_, h2, h3⟩
  rw [h1]

theorem respects_auths (l : List Engine.DockerAuth) : Respects (withAuths l) := by
  intro pl pl' st st' r h hr
  simp only [withAuths, Option.some.injEq] at hr
  subst hr
  obtain ⟨h1, h2, h3, h4⟩ := h
  refine ⟨_, rfl, h1, ?_, h3, h4⟩
  dsimp only
  rw [h2]

theorem SameState.secret {rnd : Nat → String} {s : Engine.Secret} {pl pl' : Engine.Platform} {st st' : St}
    (h : SameState pl pl' st st') : SameState pl pl' (addSecret rnd s st) (addSecret rnd s st') := by
  obtain ⟨h1, h2, h3, h4⟩ := h
  refine ⟨by simp only [addSecret, h1], ?_, h3, h4⟩
  unfold addSecret
  rw [h1, h2]

theorem respects_secrets (rnd : Nat → String) (m : GoMap String) : Respects (withSecrets rnd m) := by
  intro pl pl' st st' r h hr
  simp only [withSecrets, Option.some.injEq] at hr
  subst hr
  refine ⟨_, rfl, ?_⟩
  induction m generalizing st st' with
  | nil => exact h
  | cons kv m ih => exact ih _ _ h.secret

theorem respects_volumes (rnd : Nat → String) (m : GoMap String) : Respects (withVolumes rnd m) := by
  intro pl pl' st st' r h hr
  simp only [withVolumes, Option.some.injEq] at hr
  subst hr
  refine ⟨_, rfl, ?_⟩
  induction m generalizing st st' with
  | nil => exact h
  | cons kv m ih =>
    refine ih _ _ ?_
    have hmd : st'.spec.md = st.spec.md := by rw [h.spec]
    have hvol : st'.spec.volumes = st.spec.volumes := by rw [h.spec]
    unfold addGlobalVolume
    simp only [h.n, hmd, hvol]
    refine SameState.each (fun s s' hs => ?_) ⟨rfl, ?_, h.platform, h.steps⟩
    · obtain ⟨h1, h2, h3⟩ := hs
      refine ⟨?_, h2, h3⟩
      rw [h1]
    · dsimp only
      rw [h.spec]

theorem labelSteps_same {ord : Nat → GoMap String} {l l' : List Engine.Step} (h : List.Forall₂ SameStep l l') :
    ∀ {i r}, labelSteps ord i l = some r → ∃ r', labelSteps ord i l' = some r' ∧ List.Forall₂ SameStep r r' := by
  induction h with
  | nil =>
    intro i r hr
    simp only [labelSteps, Option.some.injEq] at hr
    subst hr
    exact ⟨[], rfl, .nil⟩
  | @cons s s' l l' h _ ih =>
    intro i r hr
    simp only [labelSteps, Option.bind_eq_some_iff, Option.map_eq_some_iff] at hr ⊢
    obtain ⟨m, h1, q, h2, rfl⟩ := hr
    obtain ⟨q', h3, h4⟩ := ih h2
    have hm : s'.md = s.md := by rw [h.1]
    refine ⟨_, ⟨m, by rw [hm, h1], q', h3, rfl⟩, .cons ⟨?_, h.2.1, h.2.2⟩ h4⟩
    rw [h.1]

theorem respects_labels (ord : Nat → GoMap String) : Respects (withLables ord) := by
  intro pl pl' st st' r h hr
  simp only [withLables, Option.bind_eq_some_iff, Option.map_eq_some_iff] at hr ⊢
  obtain ⟨m, h1, vs, h2, ss, h3, rfl⟩ := hr
  have hmd : st'.spec.md = st.spec.md := by rw [h.spec]
  have hvol : st'.spec.volumes = st.spec.volumes := by rw [h.spec]
  obtain ⟨ss', h4, h5⟩ := labelSteps_same h.steps h3
  refine ⟨_, ⟨m, by rw [hmd, h1], vs, by rw [hvol, h2], ss', by rw [hvol, h4], rfl⟩, h.n, ?_, h.platform, h5⟩
  dsimp only
  rw [h.spec]

theorem respects_combine {fns : List Transform.Transform} (h : ∀ T ∈ fns, Respects T) : Respects (combine fns) := by
  intro pl pl' st st' r hs hr
  have key : ∀ (fns : List Transform.Transform), (∀ T ∈ fns, Respects T) → ∀ o o' : Option St,
      (∀ a, o = some a → ∃ a', o' = some a' ∧ SameState pl pl' a a') →
      ∀ a, fns.foldl (fun (r : Option St) fn => r.bind fn) o = some a →
        ∃ a', fns.foldl (fun (r : Option St) fn => r.bind fn) o' = some a' ∧ SameState pl pl' a a' := by
    intro fns
    induction fns with
    | nil => intro _ o o' ho; exact ho
    | cons T fns ih =>
      intro hT o o' ho
      refine ih (fun T h => hT T (List.mem_cons_of_mem _ h)) _ _ ?_
      intro a ha
      obtain ⟨b, rfl, hb⟩ := Option.bind_eq_some_iff.1 ha
      obtain ⟨b', rfl, hbb⟩ := ho b rfl
      exact hT T List.mem_cons_self _ _ _ _ _ hbb hb
  exact key fns h (some st) (some st') (fun a ha => ⟨st', rfl, by cases ha; exact hs⟩) r hr

theorem respects_transforms (X : Cli.CliLib) (fl : Cli.CompileFlags) : Respects (combine (Cli.transforms X fl)) := by
  refine respects_combine fun T hT => ?_
  simp only [Cli.transforms, List.mem_cons, List.not_mem_nil, or_false] at hT
  rcases hT with rfl | rfl | rfl | rfl | rfl | rfl | rfl | rfl | rfl | rfl
  · exact respects_auths _
  · exact respects_environ _
  · exact respects_environ _
  · exact respects_labels _
  · exact respects_limits _ _
  · exact respects_netrc _ _ _
  · exact respects_networks _
  · exact respects_environ _
  · exact respects_secrets _ _
  · exact respects_volumes _ _

end


/-- The pipeline of that name is found in both. -/
theorem findPipeline_kept (name : String) {rs rs' : List Resource}
    (h : List.Forall₂ SameResource (rs.filterMap keptResource) rs') :
    match Cli.findPipeline name rs with
    | none => Cli.findPipeline name rs' = none
    | some p => Resource.pipeline p ∈ rs ∧ ∃ q, Cli.findPipeline name rs' = some q ∧ SamePipeline (keptPipeline p) q := by
  induction rs generalizing rs' with
  | nil => cases h; rfl
  | cons r rs ih =>
    have other : ∀ {rs'}, List.Forall₂ SameResource (rs.filterMap keptResource) rs' →
        match Cli.findPipeline name rs with
        | none => Cli.findPipeline name rs' = none
        | some p => Resource.pipeline p ∈ r :: rs ∧
            ∃ q, Cli.findPipeline name rs' = some q ∧ SamePipeline (keptPipeline p) q := by
      intro rs' h
      have := ih h
      cases hf : Cli.findPipeline name rs with
      | none => rw [hf] at this; exact this
      | some p => rw [hf] at this; exact ⟨List.mem_cons_of_mem _ this.1, this.2⟩
    cases r with
    | registry x => exact other h
    | cron x => cases h with | cons h1 h2 => cases h1; simp only [Cli.findPipeline]; exact other h2
    | secret x => cases h with | cons h1 h2 => cases h1; simp only [Cli.findPipeline]; exact other h2
    | signature x => cases h with | cons h1 h2 => cases h1; simp only [Cli.findPipeline]; exact other h2
    | pipeline p =>
      cases h with
      | cons h1 h2 =>
        cases h1 with
        | pipeline hp =>
          rename_i rest q
          have hn : q.name = p.name := by
            obtain ⟨_, _, _, _, _, _, _, _, rfl⟩ := hp
            rfl
          by_cases hc : name = "" ∨ name = p.name
          · rw [Cli.findPipeline, if_pos hc]
            exact ⟨List.mem_cons_self, _, by rw [Cli.findPipeline, if_pos (by rw [hn]; exact hc)], hp⟩
          · rw [Cli.findPipeline, if_neg hc, Cli.findPipeline, if_neg (by rw [hn]; exact hc)]
            exact other h2

theorem disableClone_kept (b : Bool) {p q : Pipeline} (h : SamePipeline (keptPipeline p) q) :
    SamePipeline (keptPipeline (Cli.disableClone b p)) (Cli.disableClone b q) := by
  unfold Cli.disableClone
  split
  · obtain ⟨n, st, sv, m, h1, h2, h3, h4, rfl⟩ := h
    exact ⟨n, st, sv, m, h1, h2, h3, h4, rfl⟩
  · exact h

theorem disableClone_parts (b : Bool) (p : Pipeline) : (Cli.disableClone b p).steps = p.steps ∧
    (Cli.disableClone b p).services = p.services ∧ (Cli.disableClone b p).volumes = p.volumes ∧
    (Cli.disableClone b p).platform = p.platform := by
  unfold Cli.disableClone
  split <;> exact ⟨rfl, rfl, rfl, rfl⟩

namespace Spec

/-- Two specifications that differ only in the order of variables and secret references, and in
whether the default platform is spelled out. -/
structure SameSpec (s s' : Engine.Spec) : Prop where
  steps : List.Forall₂ SameStep s.steps s'.steps
  rest : s' = { s with steps := s'.steps, platform := s'.platform }
  platform : (s.platform ≠ {} → s'.platform = s.platform) ∧
    (s.platform = {} → s'.platform = { os := "linux", arch := "amd64" })

/-- All effects of a pipeline are written down in a form that survives formatting. -/
structure Effective (E : Ext) (p : Pipeline) : Prop where
  shown : ShownPipeline p
  settings : ∀ a, some a ∈ p.services ∨ some a ∈ p.steps → NoCollision E a ∧ SettledText E a

end Spec

theorem enginePlatform_eq {p : Platform} : enginePlatform p = {} ↔ p = {} := by
  cases p
  simp [enginePlatform]

theorem compileManifest_kept (X : Cli.CliLib) (fl : Cli.CompileFlags) {m m' : Manifest} {sp : Engine.Spec} {t : Bool}
    (hs : List.Forall₂ SameResource (keptManifest m).resources m'.resources)
    (hl : ∀ r ∈ m.resources, lint r t = .ok ())
    (he : ∀ p, Resource.pipeline p ∈ m.resources → Effective X.ext p)
    (h : Cli.compileManifest X fl m = some (.ok sp)) :
    ∃ sp', Cli.compileManifest X fl m' = some (.ok sp') ∧ SameSpec sp sp' := by
  unfold Cli.compileManifest at h ⊢
  have hf := findPipeline_kept fl.name hs
  cases hp : Cli.findPipeline fl.name m.resources with
  | none => rw [hp] at h; simp at h
  | some p =>
    rw [hp] at h hf
    obtain ⟨hm, q, hq, hpq⟩ := hf
    rw [hq]
    simp only [Option.map_eq_some_iff, Except.ok.injEq, exists_eq_right] at h
    obtain ⟨e1, e2, e3, e4⟩ := disableClone_parts fl.clone p
    unfold Cli.compileWith at h
    obtain ⟨st, hst, hr⟩ := Option.bind_eq_some_iff.1 h
    obtain ⟨r, hr', rfl⟩ := Option.map_eq_some_iff.1 hr
    obtain ⟨ss, sv, hok⟩ := (C12_lint_iff p t).1 (hl _ hm)
    have hmem : ∀ a, some a ∈ p.services ∨ some a ∈ p.steps → a ∈ ss ++ sv := by
      intro a ha
      rw [hok.services_eq, hok.steps_eq] at ha
      simp only [List.mem_map, Option.some.injEq, exists_eq_right] at ha
      exact List.mem_append.2 ha.symm
    obtain ⟨hv, hn⟩ := he p hm
    obtain ⟨st', h1, h2⟩ := compileCore_kept (compilerFor_std X fl) (compilerFor_blind X fl)
      (disableClone_kept fl.clone hpq)
      ⟨by rw [e1, e2]; exact hv.containers, by rw [e3]; exact hv.volumes⟩
      (by
        rw [e1, e2]
        exact fun a ha => ⟨(hok.containers a (hmem a ha)).name, (hok.containers a (hmem a ha)).build, hn a ha⟩) hst
    obtain ⟨r', h3, h4⟩ := respects_transforms X fl _ _ _ _ _ h2 hr'
    refine ⟨r'.spec, ?_, h4.steps, ?_, fun hne => ?_, fun hpl => ?_⟩
    · unfold Cli.compileWith
      dsimp only
      rw [h1]
      simp only [Option.bind_some, h3, Option.map_some]
    · rw [h4.spec]
    · rw [h4.spec, h4.platform]
      rw [h4.platform, ne_eq, enginePlatform_eq] at hne
      simp only [keptPlatform, if_neg hne]
    · rw [h4.spec]
      rw [h4.platform, enginePlatform_eq] at hpl
      simp only [keptPlatform, if_pos hpl]
      rfl

/-! ### Formatting a file -/

namespace Spec

/-- A file whose resources survive formatting: the program reads it with a parser that agrees with
the grammar, prints it, and may write it. -/
structure Formattable (R : Resolver) (X : Cli.CliLib) (w : Cli.World) (name : String) (m : Manifest) (text : Bytes) :
    Prop where
  reads : ∃ ram tree, X.sig.toYamlLib = Yaml.treeLib ram tree ∧ Parses R tree ∧
    ∀ r ∈ m.resources, ResourceOk R X.conv.pretty ram r
  file : ∃ d, w.files.get? name = some d ∧ parseReader X.sig.toYamlLib { data := d } = .ok m
  prints : print X.conv.pretty m = some text
  something : printable m ≠ []
  short : ShortLines text
  writable : X.writable name = true

end Spec

/-- What is in the file after formatting. -/
theorem fmt_file {R : Resolver} {X : Cli.CliLib} {w : Cli.World} {name : String} {m : Manifest} {text : Bytes}
    (h : Formattable R X w name m text) :
    Cli.runFormat X { formatSave := true } name w = (some (.ok ()), { w with files := w.files.set name text }) ∧
    ∃ m', parseReader X.sig.toYamlLib { data := text } = .ok m' ∧
      List.Forall₂ SameResource (keptManifest m).resources m'.resources := by
  obtain ⟨ram, tree, e, ht, hok⟩ := h.reads
  obtain ⟨d, hd, hp⟩ := h.file
  constructor
  · unfold Cli.runFormat Cli.withFile
    simp only [hd, hp, Cli.withResult, h.prints, Option.map_some, if_true, Cli.writeFile, h.writable]
  · rw [e]
    exact C84_read_back_partial R _ ram tree ht m text h.prints h.something h.short hok

/-- C94.  A file the linter accepts is accepted after it has been formatted. -/
theorem C94_fmt_lint_partial (R : Resolver) (X : Cli.CliLib) (w : Cli.World) (name : String) (m : Manifest)
    (text : Bytes) (fl : Cli.Flags) (h : Formattable R X w name m text)
    (hl : (Cli.runLint X fl name w).1 = some (.ok ())) :
    (Cli.runFormat X { formatSave := true } name w).1 = some (.ok ()) ∧
    (Cli.runLint X fl name (Cli.runFormat X { formatSave := true } name w).2).1 = some (.ok ()) := by
  obtain ⟨hw, m', hp', hs⟩ := fmt_file h
  obtain ⟨ram, tree, e, ht, hok⟩ := h.reads
  obtain ⟨d, hd, hp⟩ := h.file
  obtain ⟨d2, m2, hd2, hp2, hl⟩ := (C76_lint_iff X fl name w).1 hl
  rw [hd] at hd2
  cases hd2
  rw [hp] at hp2
  cases hp2
  rw [hw]
  refine ⟨rfl, (C76_lint_iff X fl name _).2 ⟨text, m', ?_, hp', ?_⟩⟩
  · exact GoMap.get?_set_self _ _ _
  · intro r' hr'
    obtain ⟨r1, hr1, hsame⟩ : ∃ r1 ∈ (keptManifest m).resources, SameResource r1 r' := by
      clear hp' hw
      generalize (keptManifest m).resources = l at hs
      generalize m'.resources = l' at hs hr'
      induction hs with
      | nil => simp at hr'
      | cons h _ ih =>
        rcases List.mem_cons.1 hr' with rfl | hr'
        · exact ⟨_, List.mem_cons_self, h⟩
        · obtain ⟨r1, h1, h2⟩ := ih hr'
          exact ⟨r1, List.mem_cons_of_mem _ h1, h2⟩
    rw [C94_lint_order _ _ hsame]
    obtain ⟨r, hr, hk⟩ := List.mem_filterMap.1 hr1
    refine C94_lint_kept r r1 fl.lintPriv hk ?_ (hl r hr)
    rintro s rfl hne
    exact (hok _ hr).1.data.text hne

/-- C94.  A file the linter accepts is compiled to the same specification after it has been
formatted, if its pipelines show all their effects. -/
theorem C94_fmt_compile_partial (R : Resolver) (X : Cli.CliLib) (w : Cli.World) (name : String) (m : Manifest)
    (text : Bytes) (fl : Cli.Flags) (cf : Cli.CompileFlags) (sp : Engine.Spec) (h : Formattable R X w name m text)
    (hl : (Cli.runLint X fl name w).1 = some (.ok ()))
    (he : ∀ p, Resource.pipeline p ∈ m.resources → Effective X.ext p)
    (hc : Cli.compileManifest X cf m = some (.ok sp)) :
    ∃ sp', SameSpec sp sp' ∧ Cli.runCompile X cf name w = (some (.ok ()), { w with stdout := w.stdout ++ X.json sp }) ∧
      Cli.runCompile X cf name (Cli.runFormat X { formatSave := true } name w).2 =
        (some (.ok ()), { files := w.files.set name text, stdout := w.stdout ++ X.json sp', stderr := w.stderr }) := by
  obtain ⟨hw, m', hp', hs⟩ := fmt_file h
  obtain ⟨d, hd, hp⟩ := h.file
  obtain ⟨d2, m2, hd2, hp2, hl⟩ := (C76_lint_iff X fl name w).1 hl
  rw [hd] at hd2
  cases hd2
  rw [hp] at hp2
  cases hp2
  obtain ⟨sp', h1, h2⟩ := compileManifest_kept X cf hs hl he hc
  refine ⟨sp', h2, ?_, ?_⟩
  · unfold Cli.runCompile Cli.withFile
    simp only [hd, hp, Cli.withResult, hc]
  · rw [hw]
    unfold Cli.runCompile Cli.withFile
    simp only [GoMap.get?_set_self, hp', Cli.withResult, h1]

/-- C94.  The texts of settings do not depend on the order of maps, if the keys of their maps have
distinct texts. -/
theorem settledText_encoding (X : Encode.Floats) (E : Ext) (c : Container)
    (h : ∀ k p, (k, some p) ∈ c.settings → ∀ kvs, Occurs kvs p.value → KeysOk X.key kvs) :
    SettledText (E.encoding X) c := fun k p w hm hs => C93_order X E p.value w hs (h k p hm)

/-! ### Examples -/

section
open Example

/-- The libraries of the examples with a parser. -/
def exFmt (ram : String → Option Int) (tree : Bytes → Except String Yaml.Node) : Cli.CliLib :=
  { exCli with
    conv := { exCli.conv with pretty := exPretty }
    sig := { toYamlLib := Yaml.treeLib ram tree, sigHmac := fun _ => .error "not used" }
    ext := exExt.encoding exFloats }

/-- The step of the example as it is read. -/
def efStep : Container :=
  { rbStep with
    environment := [("GOOS", some { value := "linux" }), ("TOKEN", some { secret := "token" })]
    settings := [("build", some { value := .map [(.str "a", .int (-3)), (.str "b", .str "x y")] }),
      ("force", some { value := .bool true }), ("tags", some { value := .seq [.str "latest", .int 1] })] }

theorem efStep_distinct : NoCollision (exExt.encoding exFloats) efStep := by
  unfold Ext.encoding
  apply noCollision_of_nodup <;> decide +kernel

def efManifest : Manifest :=
  ⟨[.pipeline { rbPipeline with steps := [some efStep], node := [("cpu", "arm"), ("disk", "ssd")] }, .cron rbCron,
    .secret rbSecret, .signature rbSignature]⟩

theorem efManifest_read : readAll rbManifest = efManifest := by rfl

/-- A file with that text. -/
def efWorld : Cli.World := { files := [(".drone.yml", rbText)] }

/-- The hypotheses of C94 are met by a file with a pipeline with settings of all shapes, a schedule,
a secret and a signature: it is accepted and compiled before and after. -/
example (ram : String → Option Int) : ∃ tree sp, Parses exResolver tree ∧
    Formattable exResolver (exFmt ram tree) efWorld ".drone.yml" efManifest rbText ∧
    (Cli.runLint (exFmt ram tree) { lintPriv := true } ".drone.yml" efWorld).1 = some (.ok ()) ∧
    (∀ p, Resource.pipeline p ∈ efManifest.resources → Effective (exFmt ram tree).ext p) ∧
    Cli.compileManifest (exFmt ram tree) {} efManifest = some (.ok sp) ∧ sp.steps ≠ [] := by
  obtain ⟨tree, ht⟩ := parser_exists exResolver
  have hne : Spec.printable rbManifest ≠ [] := by simp [Spec.printable, rbManifest]
  have hp : parseReader (exFmt ram tree).sig.toYamlLib { data := rbText } = .ok efManifest := by
    rw [← efManifest_read]
    exact readBack exPretty ram ht rbText_print hne rbText_lines (rbManifest_ok ram)
  have hok := readAll_ok (rbManifest_ok ram)
  rw [efManifest_read] at hok
  have hl : ∀ r ∈ efManifest.resources, lint r true = .ok () := by decide +kernel
  obtain ⟨sp, hsp, hne'⟩ : ∃ sp, Cli.compileManifest { exCli with ext := exExt.encoding exFloats } {} efManifest = some (.ok sp) ∧
      sp.steps ≠ [] := by
    have : (match Cli.compileManifest { exCli with ext := exExt.encoding exFloats } {} efManifest with
      | some (.ok sp) => sp.steps.length
      | _ => 0) ≠ 0 := by decide +kernel
    revert this
    cases Cli.compileManifest { exCli with ext := exExt.encoding exFloats } {} efManifest with
    | none => simp
    | some r =>
      cases r with
      | error e => simp
      | ok sp => intro h; exact ⟨sp, rfl, fun e => h (by simp [e])⟩
  refine ⟨tree, sp, ht, ⟨⟨ram, tree, rfl, ht, hok⟩, ⟨rbText, rfl, hp⟩, ?_, ?_, rbText_lines, rfl⟩, ?_, ?_, hsp, hne'⟩
  · show print exPretty efManifest = some rbText
    decide +kernel
  · simp [Spec.printable, efManifest]
  · exact (C76_lint_iff _ _ _ _).2 ⟨rbText, efManifest, rfl, hp, hl⟩
  · intro p hp
    simp only [efManifest, List.mem_cons, List.not_mem_nil, or_false, Resource.pipeline.injEq, reduceCtorEq] at hp
    subst hp
    refine ⟨⟨fun c hc => ?_, fun v hv => by simp [rbPipeline] at hv⟩, fun a ha => ?_⟩
    · simp only [rbPipeline, List.mem_cons, List.not_mem_nil, or_false, Option.some.injEq, false_or] at hc
      subst hc
      refine ⟨fun k v hm => ?_, by decide, fun r hr => by simp [efStep, rbStep] at hr⟩
      simp only [efStep, List.mem_cons, Prod.mk.injEq, Option.some.injEq, List.not_mem_nil, or_false] at hm
      rcases hm with ⟨-, rfl⟩ | ⟨-, rfl⟩ <;> simp
    · simp only [rbPipeline, List.mem_cons, List.not_mem_nil, or_false, Option.some.injEq, false_or] at ha
      subst ha
      refine ⟨efStep_distinct, settledText_encoding exFloats exExt _ fun k p hm kvs ho => ?_⟩
      simp only [efStep, List.mem_cons, Prod.mk.injEq, Option.some.injEq, List.not_mem_nil, or_false] at hm
      rcases hm with ⟨-, rfl⟩ | ⟨-, rfl⟩ | ⟨-, rfl⟩
      · cases ho with
        | here => exact ⟨["a", "b"], .cons (.str _) (.cons (.str _) .nil), by decide⟩
        | entry h => cases h with
          | head h => cases h
          | tail h => cases h with
            | head h => cases h
            | tail h => cases h
      · cases ho
      · cases ho with
        | item h => cases h with
          | head h => cases h
          | tail h => cases h with
            | head h => cases h
            | tail h => cases h

/-- C94.  Effects that formatting does not show are lost: a step with an empty variable is accepted
and compiled with the variable; what is read after formatting is accepted and compiled without. -/
theorem C94_empty_variable (ram : String → Option Int) (tree : Bytes → Except String Yaml.Node)
    (ht : Parses exResolver tree) :
    ∃ m', print exPretty rbEmpty = some rbEmptyText ∧
      parseReader (exFmt ram tree).sig.toYamlLib { data := rbEmptyText } = .ok m' ∧
      (∀ r ∈ rbEmpty.resources, lint r false = .ok ()) ∧ (∀ r ∈ m'.resources, lint r false = .ok ()) ∧
      ∃ sp sp', Cli.compileManifest (exFmt ram tree) {} rbEmpty = some (.ok sp) ∧
        Cli.compileManifest (exFmt ram tree) {} m' = some (.ok sp') ∧
        sp.steps.map (fun s => s.envs.get? "A") = [some ""] ∧ sp'.steps.map (fun s => s.envs.get? "A") = [none] ∧
        ¬ SameSpec sp sp' := by
  have hp : print exPretty rbEmpty = some rbEmptyText := by decide +kernel
  have hread : parseReader (exFmt ram tree).sig.toYamlLib { data := rbEmptyText } = .ok (readAll rbEmpty) :=
    readBack exPretty ram ht hp (by decide +kernel) ⟨rawLines rbEmptyText, rawLines_isLines _, by decide +kernel⟩
      (rbEmpty_ok ram)
  have key : ∀ m, (match Cli.compileManifest { exCli with ext := exExt.encoding exFloats } {} m with
      | some (.ok sp) => some (sp.steps.map (fun s => s.envs.get? "A"))
      | _ => none) ≠ none → ∃ sp, Cli.compileManifest (exFmt ram tree) {} m = some (.ok sp) ∧
        some (sp.steps.map (fun s => s.envs.get? "A")) = (match Cli.compileManifest { exCli with ext := exExt.encoding exFloats } {} m with
      | some (.ok sp) => some (sp.steps.map (fun s => s.envs.get? "A"))
      | _ => none) := by
    intro m
    show (match Cli.compileManifest { exCli with ext := exExt.encoding exFloats } {} m with
      | some (.ok sp) => some (sp.steps.map (fun s => s.envs.get? "A"))
      | _ => none) ≠ none → ∃ sp, Cli.compileManifest { exCli with ext := exExt.encoding exFloats } {} m = some (.ok sp) ∧ _
    cases Cli.compileManifest { exCli with ext := exExt.encoding exFloats } {} m with
    | none => simp
    | some r =>
      cases r with
      | error e => simp
      | ok sp => intro _; exact ⟨sp, rfl, rfl⟩
  obtain ⟨sp, h1, h2⟩ := key rbEmpty (by decide +kernel)
  obtain ⟨sp', h3, h4⟩ := key (readAll rbEmpty) (by decide +kernel)
  have e1 : sp.steps.map (fun s => s.envs.get? "A") = [some ""] :=
    Option.some.inj (h2.trans (by decide +kernel))
  have e2 : sp'.steps.map (fun s => s.envs.get? "A") = [none] :=
    Option.some.inj (h4.trans (by decide +kernel))
  refine ⟨_, hp, hread, by decide +kernel, by decide +kernel, sp, sp', h1, h3, e1, e2, fun hs => ?_⟩
  have : sp'.steps.map (fun s => s.envs.get? "A") = sp.steps.map (fun s => s.envs.get? "A") := by
    have hst := hs.steps
    clear e1 e2 h1 h2 h3 h4 hs
    generalize sp.steps = l at hst
    generalize sp'.steps = l' at hst
    induction hst with
    | nil => rfl
    | cons h _ ih => rw [List.map_cons, List.map_cons, ih, h.2.1 "A"]
  rw [e1, e2] at this
  simp at this

/-- C94.  The converse is false: formatting can make the linter accept a file it refused, because
what it refused is not written: an invalid registry, an empty step. -/
theorem C94_refused_accepted : ∃ m : Manifest, (∃ r ∈ m.resources, lint r false ≠ .ok ()) ∧
    (∀ r ∈ (keptManifest m).resources, lint r false = .ok ()) ∧ (keptManifest m).resources ≠ [] :=
  ⟨⟨[.registry {}, .pipeline { kind := "pipeline", name := "default", steps := [none, some { name := "a", image := "b" }] }]⟩,
    by decide +kernel, by decide +kernel, by decide +kernel⟩

end

end Drone
