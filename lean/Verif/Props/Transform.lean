/- C46-C51: the transforms of a compiled specification. -/
import Verif.Model.Transform
import Verif.Props.Volumes
import Mathlib.Data.List.Forall2
import Mathlib.Data.List.Induction

namespace Drone
open Transform
open Engine (Step Spec Metadata)

namespace Spec

/-- `st'` is `st` with its steps related one by one by `R`, and nothing else changed. -/
def StepsOnly (R : Engine.Step → Engine.Step → Prop) (st st' : St) : Prop :=
  st'.n = st.n ∧ st'.spec = { st.spec with steps := st'.spec.steps } ∧
    List.Forall₂ R st.spec.steps st'.spec.steps

/-- `s'` is `s`, disabled if `P`. -/
def DisabledIf (P : Prop) (s s' : Engine.Step) : Prop :=
  (P → s'.runPolicy = .never) ∧ (¬ P → s'.runPolicy = s.runPolicy) ∧
    s' = { s with runPolicy := s'.runPolicy }

/-- `s'` is `s` with the variables of `m` added (and overriding). -/
def EnvAdded (m : String → Option String) (s s' : Engine.Step) : Prop :=
  s' = { s with envs := s'.envs } ∧ ∀ k, s'.envs.get? k = (m k).or (s.envs.get? k)

end Spec
open Spec

theorem eachStep_stepsOnly {R : Step → Step → Prop} {f : Step → Step} (st : St)
    (h : ∀ s, R s (f s)) : StepsOnly R st (eachStep f st) := by
  refine ⟨rfl, rfl, ?_⟩
  show List.Forall₂ R st.spec.steps (st.spec.steps.map f)
  rw [List.forall₂_map_right_iff]
  exact List.forall₂_same.mpr fun s _ => h s

/-! ### C46 -/

theorem disabledIf_disable {P : Prop} (h : P) (s : Step) : DisabledIf P s (disable s) :=
  ⟨fun _ => rfl, fun hn => absurd h hn, rfl⟩

theorem disabledIf_refl {P : Prop} (h : ¬ P) (s : Step) : DisabledIf P s s :=
  ⟨fun hp => absurd hp h, fun _ => rfl, rfl⟩

/-- C46, Include: a non-empty list disables exactly the steps that are neither listed
nor named clone. -/
theorem C46_include (names : List String) (st : St) (hn : names ≠ []) :
    ∃ st', includeOnly names st = some st' ∧
      StepsOnly (fun s => DisabledIf (s.md.name ∉ names ∧ s.md.name ≠ "clone") s) st st' := by
  refine ⟨_, if_neg (by simpa using hn), eachStep_stepsOnly st fun s => ?_⟩
  by_cases h1 : s.md.name = "clone"
  · rw [if_pos h1]; exact disabledIf_refl (fun h => h.2 h1) s
  · rw [if_neg h1]
    by_cases h2 : s.md.name ∈ names
    · rw [if_pos h2]; exact disabledIf_refl (fun h => h.1 h2) s
    · rw [if_neg h2]; exact disabledIf_disable ⟨h2, h1⟩ s

/-- C46, Exclude: a non-empty list disables exactly the listed steps not named clone. -/
theorem C46_exclude (names : List String) (st : St) :
    ∃ st', excludeAll names st = some st' ∧
      StepsOnly (fun s => DisabledIf (s.md.name ∈ names ∧ s.md.name ≠ "clone") s) st st' := by
  unfold excludeAll
  by_cases hn : names = []
  · subst hn
    refine ⟨st, rfl, rfl, rfl, List.forall₂_same.mpr fun s _ => disabledIf_refl (by simp) s⟩
  · refine ⟨_, if_neg (by simpa using hn), eachStep_stepsOnly st fun s => ?_⟩
    by_cases h1 : s.md.name = "clone"
    · rw [if_pos h1]; exact disabledIf_refl (fun h => h.2 h1) s
    · rw [if_neg h1]
      by_cases h2 : s.md.name ∈ names
      · rw [if_pos h2]; exact disabledIf_disable ⟨h2, h1⟩ s
      · rw [if_neg h2]; exact disabledIf_refl (fun h => h2 h.1) s

theorem resumeLoop_length (name : String) : ∀ ss : List Step, (resumeLoop name ss).length = ss.length
  | [] => rfl
  | s :: ss => by
    unfold resumeLoop
    split
    · rfl
    · split <;> simp [resumeLoop_length name ss]

theorem resumeLoop_get (name : String) : ∀ (ss : List Step) (i : Nat) (s s' : Step),
    ss[i]? = some s → (resumeLoop name ss)[i]? = some s' →
    DisabledIf (s.md.name ≠ "clone" ∧ name ∉ (ss.take (i + 1)).map (·.md.name)) s s'
  | [], i, s, s', h, _ => by simp at h
  | t :: ss, i, s, s', h, h' => by
    unfold resumeLoop at h'
    by_cases h1 : t.md.name = name
    · rw [if_pos h1, h] at h'
      cases h'
      exact disabledIf_refl (fun hh => hh.2 (by simp [h1])) s
    · rw [if_neg h1] at h'
      have hne : ¬ name = t.md.name := fun e => h1 e.symm
      cases i with
      | zero =>
        simp only [List.getElem?_cons_zero, Option.some.injEq] at h
        subst h
        by_cases h2 : t.md.name = "clone"
        · rw [if_pos h2] at h'
          simp only [List.getElem?_cons_zero, Option.some.injEq] at h'
          subst h'
          exact disabledIf_refl (fun hh => hh.1 h2) _
        · rw [if_neg h2] at h'
          simp only [List.getElem?_cons_zero, Option.some.injEq] at h'
          subst h'
          exact disabledIf_disable ⟨h2, by simp [hne]⟩ _
      | succ i =>
        simp only [List.getElem?_cons_succ] at h
        have h'' : (resumeLoop name ss)[i]? = some s' := by
          by_cases h2 : t.md.name = "clone"
          · rw [if_pos h2] at h'; simpa using h'
          · rw [if_neg h2] at h'; simpa using h'
        have := resumeLoop_get name ss i s s' h h''
        simpa [hne] using this

/-- C46, ResumeAt: a non-empty name disables exactly the steps, except clone, for which
no step up to and including themselves has the name. -/
theorem C46_resumeAt (name : String) (st : St) (hn : name ≠ "") :
    ∃ st', resumeAt name st = some st' ∧ st'.n = st.n ∧
      st'.spec = { st.spec with steps := st'.spec.steps } ∧
      st'.spec.steps.length = st.spec.steps.length ∧
      ∀ i s s', st.spec.steps[i]? = some s → st'.spec.steps[i]? = some s' →
        DisabledIf (s.md.name ≠ "clone" ∧ ∀ t ∈ st.spec.steps.take (i + 1), t.md.name ≠ name) s s' := by
  refine ⟨_, if_neg hn, rfl, rfl, resumeLoop_length _ _, ?_⟩
  intro i s s' h h'
  have := resumeLoop_get name _ i s s' h h'
  have e : (name ∉ (st.spec.steps.take (i + 1)).map (·.md.name)) =
      ∀ t ∈ st.spec.steps.take (i + 1), t.md.name ≠ name := by
    simp only [List.mem_map, not_exists, not_and]
  rw [e] at this
  exact this

/-- C46: an empty argument changes nothing. -/
theorem C46_empty (st : St) :
    includeOnly [] st = some st ∧ excludeAll [] st = some st ∧ resumeAt "" st = some st :=
  ⟨rfl, rfl, rfl⟩

namespace Example
/-- Three steps. -/
def trSt : St where
  n := 7
  spec := {
    md := { name := "n", namespc := "ns", labels := some [] }
    steps := [
      { md := { name := "clone", labels := some [] }, envs := [("A", "1")] },
      { md := { name := "build", labels := some [] }, secrets := [⟨"tok", "TOK"⟩, ⟨"key", "KEY"⟩] },
      { md := { name := "test", labels := some [] }, secrets := [⟨"tok", "T"⟩] }] }
end Example
open Example

example : (includeOnly ["test"] trSt).map (fun st => st.spec.steps.map (·.runPolicy)) =
    some [.onSuccess, .never, .onSuccess] := by decide
example : (excludeAll ["test", "clone"] trSt).map (fun st => st.spec.steps.map (·.runPolicy)) =
    some [.onSuccess, .onSuccess, .never] := by decide
example : (resumeAt "test" trSt).map (fun st => st.spec.steps.map (·.runPolicy)) =
    some [.onSuccess, .never, .onSuccess] := by decide

/-- Resuming at a name no step has disables every step except clone. -/
theorem C46_resumeAt_unknown (name : String) (st : St) (hn : name ≠ "")
    (hu : ∀ s ∈ st.spec.steps, s.md.name ≠ name) :
    ∃ st', resumeAt name st = some st' ∧
      ∀ s' ∈ st'.spec.steps, s'.md.name ≠ "clone" → s'.runPolicy = .never := by
  obtain ⟨st', h, _, _, hl, h4⟩ := C46_resumeAt name st hn
  refine ⟨st', h, ?_⟩
  intro s' hs' hc
  obtain ⟨i, hi⟩ := List.mem_iff_getElem?.mp hs'
  have hi' : i < st.spec.steps.length := by
    rw [← hl]
    exact (List.getElem?_eq_some_iff.mp hi).1
  have := h4 i st.spec.steps[i] s' (List.getElem?_eq_getElem hi') hi
  apply this.1
  refine ⟨?_, fun t ht => hu t (List.mem_of_mem_take ht)⟩
  rw [this.2.2] at hc
  exact hc

/-! ### C47 -/

theorem foldl_set_get? (m : GoMap String) (hn : (m.map Prod.fst).Nodup) : ∀ (l : GoMap String) (k : String),
    (m.foldl (fun l kv => l.set kv.1 kv.2) l).get? k = (m.get? k).or (l.get? k) := by
  induction m with
  | nil => intro l k; simp
  | cons p m ih =>
    obtain ⟨a, b⟩ := p
    intro l k
    simp only [List.map_cons, List.nodup_cons] at hn
    rw [List.foldl_cons, ih hn.2, GoMap.get?_set, GoMap.get?_cons]
    by_cases h : k = a
    · subst h
      rw [GoMap.get?_eq_none.mpr hn.1]
      simp
    · simp [h]

theorem withEnviron_eq (envs : GoMap String) (st : St) :
    withEnviron envs st = some (eachStep
      (fun s => { s with envs := envs.foldl (fun l kv => l.set kv.1 kv.2) s.envs }) st) := by
  unfold withEnviron
  congr 1
  induction envs generalizing st with
  | nil => simp [eachStep]
  | cons p m ih =>
    rw [List.foldl_cons, ih]
    simp [eachStep]

/-- C47, WithEnviron: every given variable is set in every step, nothing else changes.
The map is a list in iteration order and the condition mentions only lookups, so the
order does not matter. -/
theorem C47_environ (envs : GoMap String) (hn : (envs.map Prod.fst).Nodup) (st : St) :
    ∃ st', withEnviron envs st = some st' ∧ StepsOnly (EnvAdded envs.get?) st st' := by
  refine ⟨_, withEnviron_eq envs st, eachStep_stepsOnly st fun s => ⟨rfl, fun k => ?_⟩⟩
  exact foldl_set_get? envs hn s.envs k

/-- C47: two iteration orders of one map give steps with the same variables. -/
theorem C47_order (e₁ e₂ : GoMap String) (hp : e₁.Perm e₂) (hn : (e₁.map Prod.fst).Nodup) (st : St) :
    ∃ s₁ s₂, withEnviron e₁ st = some s₁ ∧ withEnviron e₂ st = some s₂ ∧
      StepsOnly (EnvAdded e₁.get?) st s₁ ∧ StepsOnly (EnvAdded e₁.get?) st s₂ := by
  obtain ⟨s₁, h1, h2⟩ := C47_environ e₁ hn st
  obtain ⟨s₂, h3, h4⟩ := C47_environ e₂ ((hp.map _).nodup_iff.mp hn) st
  refine ⟨s₁, s₂, h1, h3, h2, ?_⟩
  have : e₂.get? = e₁.get? := funext fun k => (GoMap.keys_perm_get? hp hn k).symm
  rwa [this] at h4

namespace Spec
/-- The netrc variables. -/
def netrcVars (machine username password : String) (k : String) : Option String :=
  if k = "CI_NETRC_MACHINE" ∨ k = "DRONE_NETRC_MACHINE" then some machine
  else if k = "CI_NETRC_USERNAME" ∨ k = "DRONE_NETRC_USERNAME" then some username
  else if k = "CI_NETRC_PASSWORD" ∨ k = "DRONE_NETRC_PASSWORD" then some password
  else none

/-- A variable of the process environment, upper case first; empty counts as unset. -/
def osVar (os : String → String) (upper lower : String) : Option String :=
  ([os upper, os lower].filter (· ≠ "")).head?

/-- The proxy variables. -/
def proxyVars (os : String → String) (k : String) : Option String :=
  if k = "no_proxy" ∨ k = "NO_PROXY" then osVar os "NO_PROXY" "no_proxy"
  else if k = "http_proxy" ∨ k = "HTTP_PROXY" then osVar os "HTTP_PROXY" "http_proxy"
  else if k = "https_proxy" ∨ k = "HTTPS_PROXY" then osVar os "HTTPS_PROXY" "https_proxy"
  else none
end Spec

/-- C47, WithNetrc: with a user name and a password the six variables are set in every
step. -/
theorem C47_netrc (machine username password : String) (st : St)
    (hu : username ≠ "") (hp : password ≠ "") :
    ∃ st', withNetrc machine username password st = some st' ∧
      StepsOnly (EnvAdded (netrcVars machine username password)) st st' := by
  refine ⟨_, if_neg (by simp [hu, hp]), eachStep_stepsOnly st fun s => ⟨rfl, fun k => ?_⟩⟩
  simp only [GoMap.get?_set]
  unfold netrcVars
  by_cases h1 : k = "CI_NETRC_MACHINE"
  · subst h1; simp
  by_cases h2 : k = "CI_NETRC_USERNAME"
  · subst h2; simp
  by_cases h3 : k = "CI_NETRC_PASSWORD"
  · subst h3; simp
  by_cases h4 : k = "DRONE_NETRC_MACHINE"
  · subst h4; simp
  by_cases h5 : k = "DRONE_NETRC_USERNAME"
  · subst h5; simp
  by_cases h6 : k = "DRONE_NETRC_PASSWORD"
  · subst h6; simp
  simp [h1, h2, h3, h4, h5, h6]

/-- C47, WithNetrc: otherwise nothing changes. -/
theorem C47_netrc_off (machine username password : String) (st : St)
    (h : username = "" ∨ password = "") : withNetrc machine username password st = some st :=
  if_pos h

theorem getenv_osVar (os : String → String) (u l : String) :
    osVar os u l = if getenv os u l ≠ "" then some (getenv os u l) else none := by
  unfold osVar getenv
  by_cases h1 : os u = "" <;> by_cases h2 : os l = "" <;> simp [h1, h2]

theorem proxyVar_get? (os : String → String) (u l : String) (m : GoMap String) (k : String) :
    (proxyVar os u l m).get? k =
      if k = l ∨ k = u then (osVar os u l).or (m.get? k) else m.get? k := by
  unfold proxyVar
  rw [getenv_osVar]
  simp only
  by_cases h : getenv os u l = ""
  · simp [h]
  · rw [if_pos h, if_pos h, GoMap.get?_set, GoMap.get?_set]
    by_cases h1 : k = u <;> by_cases h2 : k = l <;> simp [h1, h2]

theorem proxyVar_nodup (os : String → String) (u l : String) (m : GoMap String)
    (h : (m.map Prod.fst).Nodup) : ((proxyVar os u l m).map Prod.fst).Nodup := by
  unfold proxyVar
  simp only
  split
  · exact (GoMap.set_keys_nodup _ _ (GoMap.set_keys_nodup _ _ h).1).1
  · exact h

/-- C47, WithProxy: the variables set in the process environment are set in every step
under both spellings, upper case taking precedence. -/
theorem C47_proxy (os : String → String) (iter : GoMap String → GoMap String)
    (hi : ∀ m, (iter m).Perm m) (st : St) :
    ∃ st', withProxy os iter st = some st' ∧ StepsOnly (EnvAdded (proxyVars os)) st st' := by
  have hn : ((proxyEnviron os).map Prod.fst).Nodup :=
    proxyVar_nodup _ _ _ _ (proxyVar_nodup _ _ _ _ (proxyVar_nodup _ _ _ _ (by simp)))
  have hn' : ((iter (proxyEnviron os)).map Prod.fst).Nodup := ((hi _).map _).nodup_iff.mpr hn
  obtain ⟨st', h1, h2⟩ := C47_environ _ hn' st
  refine ⟨st', h1, ?_⟩
  have e : (iter (proxyEnviron os)).get? = proxyVars os := by
    funext k
    rw [GoMap.keys_perm_get? (hi _) hn']
    unfold proxyEnviron proxyVars
    rw [proxyVar_get?, proxyVar_get?, proxyVar_get?]
    by_cases h1 : k = "no_proxy" ∨ k = "NO_PROXY"
    · have h2 : ¬ (k = "http_proxy" ∨ k = "HTTP_PROXY") := by
        rcases h1 with rfl | rfl <;> decide
      have h3 : ¬ (k = "https_proxy" ∨ k = "HTTPS_PROXY") := by
        rcases h1 with rfl | rfl <;> decide
      simp [h1, h2, h3]
    · by_cases h2 : k = "http_proxy" ∨ k = "HTTP_PROXY"
      · have h3 : ¬ (k = "https_proxy" ∨ k = "HTTPS_PROXY") := by
          rcases h2 with rfl | rfl <;> decide
        simp [h1, h2, h3]
      · by_cases h3 : k = "https_proxy" ∨ k = "HTTPS_PROXY" <;> simp [h1, h2, h3]
  rwa [e] at h2

example : (withEnviron [("A", "2"), ("B", "3")] trSt).map (fun st => st.spec.steps.map (·.envs)) =
    some [[("A", "2"), ("B", "3")], [("A", "2"), ("B", "3")], [("A", "2"), ("B", "3")]] := by decide
example : proxyVars (fun k => if k = "http_proxy" then "low" else if k = "HTTP_PROXY" then "UP" else "")
    "http_proxy" = some "UP" := by decide
example : ((withNetrc "m" "u" "p" trSt).map fun st => st.spec.steps.map (·.envs.get? "CI_NETRC_PASSWORD")) =
    some [some "p", some "p", some "p"] := by decide

/-! ### C48 -/

namespace Spec
/-- `m'` is `m` with the labels `l` added (and overriding). -/
def LabelsAdded (l : String → Option String) (m m' : Engine.Metadata) : Prop :=
  m' = { m with labels := m'.labels } ∧
    ∃ old new, m.labels = some old ∧ m'.labels = some new ∧
      ∀ k, new.get? k = (l k).or (old.get? k)

/-- Every resource that gets labels has a label map. -/
def Labelled (s : Engine.Spec) : Prop :=
  s.md.labels.isSome ∧ (∀ v ∈ s.volumes, v.md.labels.isSome) ∧ ∀ t ∈ s.steps, t.md.labels.isSome
end Spec

theorem addLabels_some {labels : GoMap String} (hn : (labels.map Prod.fst).Nodup) {m : Metadata}
    (h : m.labels.isSome) : ∃ m', addLabels labels m = some m' ∧ LabelsAdded labels.get? m m' := by
  obtain ⟨old, ho⟩ := Option.isSome_iff_exists.mp h
  unfold addLabels
  cases labels with
  | nil => exact ⟨m, rfl, rfl, old, old, ho, ho, fun k => by simp⟩
  | cons p ps =>
    simp only [ho]
    exact ⟨_, rfl, rfl, old, _, ho, rfl, fun k => foldl_set_get? _ hn old k⟩

theorem labelVolumes_some {labels : GoMap String} (hn : (labels.map Prod.fst).Nodup)
    {ord : Nat → GoMap String} (ho : ∀ i, (ord i).Perm labels) :
    ∀ (vs : List Engine.Volume) (i : Nat), (∀ v ∈ vs, v.md.labels.isSome) →
    ∃ vs', labelVolumes ord i vs = some vs' ∧
      List.Forall₂ (fun v v' => v' = { v with md := v'.md } ∧ LabelsAdded labels.get? v.md v'.md) vs vs'
  | [], _, _ => ⟨[], rfl, .nil⟩
  | v :: vs, i, h => by
    have hni := ((ho i).map Prod.fst).nodup_iff.mpr hn
    obtain ⟨m', h1, h2⟩ := addLabels_some hni (h v (by simp))
    rw [show (ord i).get? = labels.get? from funext fun k => GoMap.keys_perm_get? (ho i) hni k] at h2
    obtain ⟨vs', h3, h4⟩ := labelVolumes_some hn ho vs (i + 1) (fun w hw => h w (by simp [hw]))
    exact ⟨{ v with md := m' } :: vs', by simp [labelVolumes, h1, h3], .cons ⟨rfl, h2⟩ h4⟩

theorem labelSteps_some {labels : GoMap String} (hn : (labels.map Prod.fst).Nodup)
    {ord : Nat → GoMap String} (ho : ∀ i, (ord i).Perm labels) :
    ∀ (vs : List Step) (i : Nat), (∀ v ∈ vs, v.md.labels.isSome) →
    ∃ vs', labelSteps ord i vs = some vs' ∧
      List.Forall₂ (fun v v' => v' = { v with md := v'.md } ∧ LabelsAdded labels.get? v.md v'.md) vs vs'
  | [], _, _ => ⟨[], rfl, .nil⟩
  | v :: vs, i, h => by
    have hni := ((ho i).map Prod.fst).nodup_iff.mpr hn
    obtain ⟨m', h1, h2⟩ := addLabels_some hni (h v (by simp))
    rw [show (ord i).get? = labels.get? from funext fun k => GoMap.keys_perm_get? (ho i) hni k] at h2
    obtain ⟨vs', h3, h4⟩ := labelSteps_some hn ho vs (i + 1) (fun w hw => h w (by simp [hw]))
    exact ⟨{ v with md := m' } :: vs', by simp [labelSteps, h1, h3], .cons ⟨rfl, h2⟩ h4⟩

/-- C48, WithLables: if every resource has a label map, exactly the given labels are
added to the pipeline, every volume and every step.

Not covered: a resource without a label map, for which the transform panics
(`C48_labels_panic`); the library itself creates one, `C48_host_workspace_panic`. -/
theorem C48_labels_partial (labels : GoMap String) (hn : (labels.map Prod.fst).Nodup)
    (ord : Nat → GoMap String) (ho : ∀ i, (ord i).Perm labels) (st : St) (hl : Labelled st.spec) :
    ∃ st', withLables ord st = some st' ∧ st'.n = st.n ∧
      st'.spec = { st.spec with
        md := st'.spec.md, volumes := st'.spec.volumes, steps := st'.spec.steps } ∧
      LabelsAdded labels.get? st.spec.md st'.spec.md ∧
      List.Forall₂ (fun v v' => v' = { v with md := v'.md } ∧ LabelsAdded labels.get? v.md v'.md)
        st.spec.volumes st'.spec.volumes ∧
      List.Forall₂ (fun s s' => s' = { s with md := s'.md } ∧ LabelsAdded labels.get? s.md s'.md)
        st.spec.steps st'.spec.steps := by
  have hn0 := ((ho 0).map Prod.fst).nodup_iff.mpr hn
  obtain ⟨m', h1, h2⟩ := addLabels_some hn0 hl.1
  rw [show (ord 0).get? = labels.get? from funext fun k => GoMap.keys_perm_get? (ho 0) hn0 k] at h2
  obtain ⟨vs', h3, h4⟩ := labelVolumes_some hn ho st.spec.volumes 1 hl.2.1
  obtain ⟨ss', h5, h6⟩ := labelSteps_some hn ho st.spec.steps (1 + st.spec.volumes.length) hl.2.2
  exact ⟨{ st with spec := { st.spec with md := m', volumes := vs', steps := ss' } },
    by simp [withLables, h1, h3, h5], rfl, rfl, h2, h4, h6⟩

theorem addLabels_none {labels : GoMap String} (hn : labels ≠ []) {m : Metadata}
    (h : m.labels = none) : addLabels labels m = none := by
  unfold addLabels
  cases labels with
  | nil => exact absurd rfl hn
  | cons p ps => simp [h]

theorem labelVolumes_none {ord : Nat → GoMap String} (ho : ∀ i, ord i ≠ []) :
    ∀ (vs : List Engine.Volume) (i : Nat), ¬ (∀ v ∈ vs, v.md.labels.isSome) →
    labelVolumes ord i vs = none
  | [], _, h => absurd (by simp) h
  | v :: vs, i, h => by
    unfold labelVolumes
    cases hm : v.md.labels with
    | none => rw [addLabels_none (ho i) hm]; rfl
    | some l =>
      rw [labelVolumes_none ho vs (i + 1) (fun hh => h (by simp [hm]; simpa using hh))]
      cases addLabels (ord i) v.md <;> rfl

theorem labelSteps_none {ord : Nat → GoMap String} (ho : ∀ i, ord i ≠ []) :
    ∀ (vs : List Step) (i : Nat), ¬ (∀ v ∈ vs, v.md.labels.isSome) →
    labelSteps ord i vs = none
  | [], _, h => absurd (by simp) h
  | v :: vs, i, h => by
    unfold labelSteps
    cases hm : v.md.labels with
    | none => rw [addLabels_none (ho i) hm]; rfl
    | some l =>
      rw [labelSteps_none ho vs (i + 1) (fun hh => h (by simp [hm]; simpa using hh))]
      cases addLabels (ord i) v.md <;> rfl

/-- C48, WithLables: it panics iff there is a label to add and a resource without a map. -/
theorem C48_labels_panic (labels : GoMap String) (hn : (labels.map Prod.fst).Nodup)
    (ord : Nat → GoMap String) (ho : ∀ i, (ord i).Perm labels) (st : St) :
    withLables ord st = none ↔ labels ≠ [] ∧ ¬ Labelled st.spec := by
  constructor
  · intro h
    refine ⟨?_, ?_⟩
    · rintro rfl
      have e : ∀ i, ord i = [] := fun i => (ho i).eq_nil
      have hv : ∀ (vs : List Engine.Volume) i, labelVolumes ord i vs = some vs := by
        intro vs
        induction vs with
        | nil => intro i; rfl
        | cons v vs ih => intro i; simp [labelVolumes, ih, e, addLabels]
      have hs : ∀ (vs : List Step) i, labelSteps ord i vs = some vs := by
        intro vs
        induction vs with
        | nil => intro i; rfl
        | cons v vs ih => intro i; simp [labelSteps, ih, e, addLabels]
      simp [withLables, hv, hs, e, addLabels] at h
    · intro hl
      obtain ⟨st', h', _⟩ := C48_labels_partial labels hn ord ho st hl
      rw [h'] at h
      cases h
  · rintro ⟨h1, h2⟩
    have ho' : ∀ i, ord i ≠ [] := fun i e => h1 (by have := ho i; rw [e] at this; exact this.nil_eq.symm)
    unfold withLables
    cases hm : st.spec.md.labels with
    | none => rw [addLabels_none (ho' 0) hm]; rfl
    | some l =>
      by_cases hv : ∀ v ∈ st.spec.volumes, v.md.labels.isSome
      · by_cases hs : ∀ v ∈ st.spec.steps, v.md.labels.isSome
        · exact absurd ⟨by simp [hm], hv, hs⟩ h2
        · rw [labelSteps_none ho' _ _ hs]
          cases addLabels (ord 0) st.spec.md <;> cases labelVolumes ord 1 st.spec.volumes <;> rfl
      · rw [labelVolumes_none ho' _ _ hv]
        cases addLabels (ord 0) st.spec.md <;> rfl

/-- The host workspace of the library makes any later WithLables with a label panic. -/
theorem C48_host_workspace_panic (rnd : Nat → String) (d : String) (labels : GoMap String)
    (hn : (labels.map Prod.fst).Nodup) (hne : labels ≠ [])
    (ord : Nat → GoMap String) (ho : ∀ i, (ord i).Perm labels) (st : St) :
    withLables ord (createHostWorkspace rnd d st) = none := by
  rw [C48_labels_panic labels hn ord ho]
  refine ⟨hne, fun h => ?_⟩
  have := h.2.1 { md := { uid := rnd (createWorkspaceVolume rnd st).n, name := "host" }, hostPath := some d }
    (by simp [createHostWorkspace, St.addVolume])
  simp at this

/-- C48: a compiled pipeline has label maps everywhere iff the compiler does not use the
library's host workspace. -/
theorem C48_compiled_labelled {E : Ext} {c : Compiler} (hc : c.Std) (ht : c.transform = none)
    {rnd : Nat → String} {p : Pipeline} {sp : Engine.Spec} (h : compile E c rnd p = some sp) :
    Labelled sp ↔ ∀ d, c.workspace ≠ .host d := by
  obtain ⟨n, sock, hv, hs⟩ := compile_volumes hc ht h
  have hsteps : ∀ t ∈ sp.steps, t.md.labels.isSome := by
    have := compile_forall hc ht h (P := fun _ s => s.md.labels.isSome) (by
      intro rename y s _ hy
      obtain ⟨uid, hcm⟩ := hy.common hc
      rw [hcm.md]
      rfl)
    intro t ht'
    obtain ⟨_, _, h'⟩ := forall₂_mem_right this ht'
    exact h'
  have hmd : sp.md.labels.isSome := by
    obtain ⟨_, _, _, r, _, rfl⟩ := compile_shape hc ht h
    rfl
  have hraw : ∀ (vs : List Volume) (k : Nat), ∀ v ∈ rawVolumes rnd (rnd 0) k vs, v.md.labels.isSome := by
    intro vs
    induction vs with
    | nil => intro k v hv; simp [rawVolumes] at hv
    | cons w vs ih =>
      intro k v hv
      simp only [rawVolumes, List.mem_cons] at hv
      rcases hv with rfl | hv
      · rfl
      · exact ih _ v hv
  constructor
  · rintro ⟨_, h2, _⟩ d hd
    have : (⟨{ uid := rnd 2, name := "host" }, none, some d⟩ : Engine.Volume) ∈ sp.volumes := by
      rw [hv]
      simp [wsVolumes, hd]
    have := h2 _ this
    simp at this
  · intro hd
    refine ⟨hmd, ?_, hsteps⟩
    intro v hv'
    rw [hv] at hv'
    rcases List.mem_append.mp hv' with hv' | hv'
    · rcases List.mem_append.mp hv' with hv' | hv'
      · unfold wsVolumes at hv'
        cases hw : c.workspace with
        | default => rw [hw] at hv'; simp at hv'; subst hv'; rfl
        | host d => exact absurd hw (hd d)
        | custom f => exact absurd hw (hc.1 f)
      · exact hraw _ _ v hv'
    · rcases hs with ⟨rfl, _⟩ | ⟨⟨k, rfl⟩, _⟩
      · simp at hv'
      · simp at hv'; subst hv'; rfl

namespace Spec
/-- `s'` is `s` with these limits; requests are kept. -/
def Limited (mem cpu : Int) (s s' : Engine.Step) : Prop :=
  s' = { s with resources := s'.resources } ∧
    ∃ r, s'.resources = some r ∧ r.limits = some { cpu := cpu, memory := mem } ∧
      r.requests = s.resources.bind (·.requests)
end Spec

/-- C48, WithLimits: every step gets both limits and keeps its requests. -/
theorem C48_limits (mem cpu : Int) (st : St) (h : mem ≠ 0 ∨ cpu ≠ 0) :
    ∃ st', withLimits mem cpu st = some st' ∧ StepsOnly (Limited mem cpu) st st' := by
  refine ⟨_, if_neg (by tauto), eachStep_stepsOnly st fun s => ⟨rfl, _, rfl, rfl, ?_⟩⟩
  cases s.resources <;> rfl

/-- C48, WithLimits: without limits nothing changes. -/
theorem C48_limits_zero (st : St) : withLimits 0 0 st = some st := rfl

/-- C48, WithNetworks: exactly the given networks are appended in every step. -/
theorem C48_networks (ns : List String) (st : St) :
    ∃ st', withNetworks ns st = some st' ∧
      StepsOnly (fun s s' => s' = { s with docker := { s.docker with networks := s'.docker.networks } } ∧
        s'.docker.networks = s.docker.networks ++ ns) st st' :=
  ⟨_, rfl, eachStep_stepsOnly st fun _ => ⟨rfl, rfl⟩⟩

/-- C48, WithAuths and WithAuthsFunc: exactly the given credentials are appended. -/
theorem C48_auths (as : List Engine.DockerAuth) (st : St) :
    ∃ st', withAuths as st = some st' ∧ withAuthsFunc as st = some st' ∧ st'.n = st.n ∧
      st'.spec = { st.spec with auths := st'.spec.auths } ∧
      st'.spec.auths = st.spec.auths ++ as := by
  refine ⟨_, rfl, ?_, rfl, rfl, rfl⟩
  unfold withAuthsFunc
  by_cases h : as = []
  · subst h; simp
  · rw [if_pos (by simpa using h)]

/-- Applying a memory limit alone removes the processor limit a step had. -/
theorem C48_limits_clobber : ∃ (st st' : St) (r r' : Engine.Resources),
    st.spec.steps.map (·.resources) = [some r] ∧ withLimits 1024 0 st = some st' ∧
    st'.spec.steps.map (·.resources) = [some r'] ∧
    r.limits.map (·.cpu) = some 500 ∧ r'.limits.map (·.cpu) = some 0 :=
  ⟨{ n := 0, spec := { steps := [{ resources := some { limits := some { cpu := 500 } } }] } }, _,
    _, _, rfl, rfl, rfl, by decide, by decide⟩

example : Labelled trSt.spec := ⟨rfl, by decide, by decide⟩
example : (withLables (fun _ => [("k", "v")]) trSt).map (fun st => st.spec.steps.map (·.md.labels)) =
    some [some [("k", "v")], some [("k", "v")], some [("k", "v")]] := by decide

/-! ### C49 -/

theorem setAdd_mem (set : List String) (a x : String) : x ∈ setAdd set a ↔ x ∈ set ∨ x = a := by
  unfold setAdd
  by_cases h : a ∈ set
  · rw [if_pos h]
    constructor
    · exact Or.inl
    · rintro (h' | rfl)
      · exact h'
      · exact h
  · rw [if_neg h]; simp

theorem setAdd_nodup {set : List String} (a : String) (h : set.Nodup) : (setAdd set a).Nodup := by
  unfold setAdd
  by_cases ha : a ∈ set
  · rwa [if_pos ha]
  · rw [if_neg ha, List.nodup_append]
    exact ⟨h, by simp, by simpa using fun x hx (e : x = a) => ha (e ▸ hx)⟩

theorem setAdd_fold {α : Type} (f : α → String) : ∀ (vs : List α) (set : List String), set.Nodup →
    (vs.foldl (fun set v => setAdd set (f v)) set).Nodup ∧
    ∀ x, x ∈ vs.foldl (fun set v => setAdd set (f v)) set ↔ x ∈ set ∨ ∃ v ∈ vs, f v = x
  | [], set, h => by simpa using h
  | v :: vs, set, h => by
    obtain ⟨h1, h2⟩ := setAdd_fold f vs (setAdd set (f v)) (setAdd_nodup _ h)
    refine ⟨h1, fun x => ?_⟩
    rw [List.foldl_cons, h2, setAdd_mem]
    simp only [List.mem_cons, exists_eq_or_imp]
    rw [or_assoc, eq_comm (a := x)]

namespace Spec
/-- The secret is used by a step that may run. -/
def SecretNeeded (s : Engine.Spec) (name : String) : Prop :=
  ∃ t ∈ s.steps, t.runPolicy ≠ .never ∧ ∃ v ∈ t.secrets, v.name = name

/-- The secrets `l` are the results `rs` with an identifier and a namespace filled in. -/
def Stamped (ns : String) (rs l : List Engine.Secret) : Prop :=
  List.Forall₂ (fun r s => s = { r with md := { r.md with uid := s.md.uid, namespc := ns } }) rs l
end Spec

theorem secretSet_spec (steps : List Step) : (secretSet steps).Nodup ∧
    ∀ x, x ∈ secretSet steps ↔ ∃ t ∈ steps, t.runPolicy ≠ .never ∧ ∃ v ∈ t.secrets, v.name = x := by
  suffices ∀ set : List String, set.Nodup →
      (steps.foldl (fun set s =>
        if s.runPolicy = .never then set
        else s.secrets.foldl (fun set v => setAdd set v.name) set) set).Nodup ∧
      ∀ x, x ∈ steps.foldl (fun set s =>
        if s.runPolicy = .never then set
        else s.secrets.foldl (fun set v => setAdd set v.name) set) set ↔
          x ∈ set ∨ ∃ t ∈ steps, t.runPolicy ≠ .never ∧ ∃ v ∈ t.secrets, v.name = x by
    have := this [] (by simp)
    simpa [secretSet] using this
  induction steps with
  | nil => intro set h; simpa using h
  | cons s ss ih =>
    intro set h
    rw [List.foldl_cons]
    by_cases hr : s.runPolicy = .never
    · rw [if_pos hr]
      obtain ⟨h1, h2⟩ := ih set h
      refine ⟨h1, fun x => ?_⟩
      rw [h2]
      simp [hr]
    · rw [if_neg hr]
      obtain ⟨h3, h4⟩ := setAdd_fold (fun v : Engine.SecretVar => v.name) s.secrets set h
      obtain ⟨h1, h2⟩ := ih _ h3
      refine ⟨h1, fun x => ?_⟩
      rw [h2, h4]
      simp [hr, or_assoc]

/-- The answers the callback gives when asked for `names` in turn. -/
def answers (f : List String → String → Option Engine.Secret) :
    List String → List String → List (Option Engine.Secret)
  | [], _ => []
  | n :: ns, asked => f asked n :: answers f ns (asked ++ [n])

theorem addSecret_facts (rnd : Nat → String) (s : Engine.Secret) (st : St) :
    (addSecret rnd s st).spec.md = st.spec.md := rfl

theorem askSecrets_spec (rnd : Nat → String) (f : List String → String → Option Engine.Secret) :
    ∀ (names asked : List String) (st : St), ∃ l,
      (askSecrets rnd f names asked st).1 = asked ++ names ∧
      (askSecrets rnd f names asked st).2.spec = { st.spec with secrets := st.spec.secrets ++ l } ∧
      Stamped st.spec.md.namespc ((answers f names asked).filterMap id) l ∧
      l.map (·.md.uid) = (List.range' st.n l.length).map rnd
  | [], asked, st => ⟨[], by simp [askSecrets], by simp [askSecrets], .nil, rfl⟩
  | n :: ns, asked, st => by
    unfold askSecrets
    cases hf : f asked n with
    | none =>
      obtain ⟨l, h1, h2, h3, h4⟩ := askSecrets_spec rnd f ns (asked ++ [n]) st
      exact ⟨l, by simp [h1], h2, by simpa [answers, hf] using h3, h4⟩
    | some s =>
      obtain ⟨l, h1, h2, h3, h4⟩ := askSecrets_spec rnd f ns (asked ++ [n]) (addSecret rnd s st)
      refine ⟨{ s with md := { s.md with uid := rnd st.n, namespc := st.spec.md.namespc } } :: l,
        by simp [h1], ?_, ?_, ?_⟩
      · simp only [h2]
        simp [addSecret]
      · rw [addSecret_facts] at h3
        simp only [answers, hf, List.filterMap_cons, id_eq]
        exact .cons rfl h3
      · simp only [List.map_cons, h4, List.length_cons, List.range'_succ]
        rfl

/-- C49, WithSecretFunc: the requests are exactly the names used by some step that may
run, each once; exactly the secrets returned are added, each with a random identifier of
its own and the namespace of the pipeline; nothing else changes.  The callback may answer
depending on earlier requests. -/
theorem C49_secretFunc (rnd : Nat → String) (iter : List String → List String)
    (hi : ∀ l, (iter l).Perm l) (f : List String → String → Option Engine.Secret) (st : St) :
    ∃ asked st' l, withSecretFunc rnd iter f st = (asked, st') ∧
      asked.Nodup ∧ (∀ name, name ∈ asked ↔ SecretNeeded st.spec name) ∧
      st'.spec = { st.spec with secrets := st.spec.secrets ++ l } ∧
      Stamped st.spec.md.namespc
        ((List.range asked.length).filterMap fun i => f (asked.take i) (asked.getD i "")) l ∧
      l.map (·.md.uid) = (List.range' st.n l.length).map rnd := by
  obtain ⟨hs1, hs2⟩ := secretSet_spec st.spec.steps
  have hp := hi (secretSet st.spec.steps)
  obtain ⟨l, h1, h2, h3, h4⟩ := askSecrets_spec rnd f (iter (secretSet st.spec.steps)) [] st
  refine ⟨_, _, l, rfl, ?_, ?_, h2, ?_, h4⟩
  · show (askSecrets _ _ _ _ _).1.Nodup
    rw [h1]
    simpa using hp.nodup_iff.mpr hs1
  · intro name
    show name ∈ (askSecrets _ _ _ _ _).1 ↔ _
    rw [h1]
    simp only [List.nil_append, hp.mem_iff]
    exact hs2 name
  · show Stamped _ ((List.range (askSecrets _ _ _ _ _).1.length).filterMap fun i =>
      f ((askSecrets _ _ _ _ _).1.take i) ((askSecrets _ _ _ _ _).1.getD i "")) l
    rw [h1]
    simp only [List.nil_append]
    have key : ∀ names pre : List String, (answers f names pre).filterMap id =
        (List.range names.length).filterMap
          fun i => f (pre ++ names.take i) (names.getD i "") := by
      intro names
      induction names with
      | nil => intro pre; rfl
      | cons n ns ih =>
        intro pre
        rw [List.length_cons, List.range_succ_eq_map, List.filterMap_cons]
        have e : (answers f (n :: ns) pre).filterMap id =
            (f pre n).toList ++ (answers f ns (pre ++ [n])).filterMap id := by
          cases h : f pre n <;> simp [answers, h]
        rw [e, ih, List.filterMap_map]
        cases h : f pre n with
        | none => simp [h, Function.comp_def]
        | some s => simp [h, Function.comp_def]
    have := key (iter (secretSet st.spec.steps)) []
    simp only [List.nil_append] at this
    rw [← this]
    exact h3

theorem withSecrets_spec (rnd : Nat → String) : ∀ (secrets : GoMap String) (st : St), ∃ l,
    (secrets.foldl (fun st kv => addSecret rnd { md := { name := kv.1 }, data := kv.2 } st) st).spec =
      { st.spec with secrets := st.spec.secrets ++ l } ∧
    l.map (fun s => (s.md.name, s.data)) = secrets ∧
    (∀ s ∈ l, s.md.namespc = st.spec.md.namespc ∧ s.md.labels = none) ∧
    l.map (·.md.uid) = (List.range' st.n l.length).map rnd
  | [], st => ⟨[], by simp, rfl, by simp, rfl⟩
  | (k, v) :: m, st => by
    obtain ⟨l, h1, h2, h3, h4⟩ :=
      withSecrets_spec rnd m (addSecret rnd { md := { name := k }, data := v } st)
    refine ⟨{ md := { name := k, uid := rnd st.n, namespc := st.spec.md.namespc }, data := v } :: l, ?_, ?_, ?_, ?_⟩
    · rw [List.foldl_cons, h1]; simp [addSecret]
    · simp [h2]
    · intro s hs
      rcases List.mem_cons.mp hs with rfl | hs
      · exact ⟨rfl, rfl⟩
      · exact h3 s hs
    · simp only [List.map_cons, h4, List.length_cons, List.range'_succ]
      rfl

/-- C49, WithSecrets: exactly one secret per entry is added. -/
theorem C49_secrets (rnd : Nat → String) (secrets : GoMap String) (st : St) :
    ∃ st' l, withSecrets rnd secrets st = some st' ∧
      st'.spec = { st.spec with secrets := st.spec.secrets ++ l } ∧
      l.map (fun s => (s.md.name, s.data)) = secrets ∧
      (∀ s ∈ l, s.md.namespc = st.spec.md.namespc ∧ s.md.labels = none) ∧
      l.map (·.md.uid) = (List.range' st.n l.length).map rnd := by
  obtain ⟨l, h⟩ := withSecrets_spec rnd secrets st
  exact ⟨_, l, rfl, h⟩

/-- C49: after Exclude no secret is requested that only excluded steps use. -/
theorem C49_excluded (rnd : Nat → String) (iter : List String → List String)
    (hi : ∀ l, (iter l).Perm l) (f : List String → String → Option Engine.Secret)
    (names : List String) (st : St) (name : String) :
    ∃ st₁, excludeAll names st = some st₁ ∧
      (name ∈ (withSecretFunc rnd iter f st₁).1 ↔
        ∃ t ∈ st.spec.steps, t.runPolicy ≠ .never ∧ (t.md.name = "clone" ∨ t.md.name ∉ names) ∧
          ∃ v ∈ t.secrets, v.name = name) := by
  obtain ⟨st₁, h1, _, _, h2⟩ := C46_exclude names st
  refine ⟨st₁, h1, ?_⟩
  obtain ⟨asked, st', l, e, _, h3, _⟩ := C49_secretFunc rnd iter hi f st₁
  rw [e]
  simp only
  rw [h3]
  unfold SecretNeeded
  constructor
  · rintro ⟨t, ht, hr, hv⟩
    obtain ⟨i, hi⟩ := List.mem_iff_getElem.mp ht
    obtain ⟨hlt, rfl⟩ := hi
    have hl := h2.length_eq
    have := h2.get (i := i) (by omega) hlt
    simp only [List.get_eq_getElem] at this
    refine ⟨st.spec.steps[i], List.getElem_mem _, ?_, ?_, ?_⟩
    · intro hn
      apply hr
      by_cases hd : st.spec.steps[i].md.name ∈ names ∧ st.spec.steps[i].md.name ≠ "clone"
      · exact this.1 hd
      · rw [this.2.1 hd, hn]
    · by_contra hd
      exact hr (this.1 (by tauto))
    · rw [this.2.2] at hv
      exact hv
  · rintro ⟨t, ht, hr, hd, hv⟩
    obtain ⟨i, hi⟩ := List.mem_iff_getElem.mp ht
    obtain ⟨hlt, rfl⟩ := hi
    have hl := h2.length_eq
    have := h2.get (i := i) hlt (by omega)
    simp only [List.get_eq_getElem] at this
    refine ⟨st₁.spec.steps[i], List.getElem_mem _, ?_, ?_⟩
    · rw [this.2.1 (by tauto)]; exact hr
    · rw [this.2.2]; exact hv

example : (withSecretFunc (fun n => toString n) id
      (fun _ n => if n = "tok" then some { md := { name := n }, data := "s3" } else none) trSt).1 =
    ["tok", "key"] := by decide
example : (withSecretFunc (fun n => toString n) id
      (fun _ n => if n = "tok" then some { md := { name := n }, data := "s3" } else none) trSt).2.spec.secrets.length =
    1 := by decide
example : SecretNeeded trSt.spec "key" := ⟨_, .tail _ (.head _), by decide, ⟨"key", "KEY"⟩, by decide, rfl⟩

/-! ### C50 -/

namespace Spec
/-- The names given to the volumes: every second identifier. -/
def volNames (rnd : Nat → String) (n : Nat) (k : Nat) : List String :=
  (List.range k).map fun i => rnd (n + 2 * i + 1)
end Spec

theorem addGlobalVolume_fold (rnd : Nat → String) : ∀ (m : GoMap String) (st : St), ∃ vs,
    (m.foldl (addGlobalVolume rnd) st).n = st.n + 2 * m.length ∧
    (m.foldl (addGlobalVolume rnd) st).spec =
      { st.spec with
        volumes := st.spec.volumes ++ vs
        steps := st.spec.steps.map fun s => { s with
          volumes := s.volumes ++ ((volNames rnd st.n m.length).zip m).map fun p => ⟨p.1, p.2.2⟩ } } ∧
    vs.map (fun v => (v.md.name, v.hostPath)) =
      ((volNames rnd st.n m.length).zip m).map (fun p => (p.1, some p.2.1)) ∧
    (∀ v ∈ vs, v.md.namespc = st.spec.md.name ∧ v.emptyDir = none ∧ v.md.labels = some []) ∧
    vs.map (·.md.uid) = (List.range m.length).map fun i => rnd (st.n + 2 * i)
  | [], st => ⟨[], by simp, by simp [volNames], rfl, by simp, rfl⟩
  | (k, p) :: m, st => by
    obtain ⟨vs, h0, h1, h2, h3, h4⟩ := addGlobalVolume_fold rnd m (addGlobalVolume rnd st (k, p))
    have hN : volNames rnd st.n (m.length + 1) = rnd (st.n + 1) :: volNames rnd (st.n + 2) m.length := by
      unfold volNames
      rw [List.range_succ_eq_map]
      simp only [List.map_cons, List.map_map, Function.comp_def]
      congr 1
      apply List.map_congr_left
      intro i _
      congr 1
      omega
    have hn : (addGlobalVolume rnd st (k, p)).n = st.n + 2 := rfl
    rw [hn] at h0 h1 h2 h4
    let v : Engine.Volume :=
      { md := { uid := rnd st.n, name := rnd (st.n + 1), namespc := st.spec.md.name, labels := some [] },
        hostPath := some k }
    refine ⟨v :: vs, ?_, ?_, ?_, ?_, ?_⟩
    · rw [List.foldl_cons, h0]; simp; omega
    · rw [List.foldl_cons, h1, List.length_cons, hN]
      simp [addGlobalVolume, eachStep, v]
    · rw [List.length_cons, hN]
      simp [h2, v]
    · intro v hv
      rcases List.mem_cons.mp hv with rfl | hv
      · exact ⟨rfl, rfl, rfl⟩
      · exact h3 v hv
    · rw [List.length_cons, List.range_succ_eq_map]
      simp only [List.map_cons, h4, List.map_map, Function.comp_def]
      congr 1
      apply List.map_congr_left
      intro i _
      congr 1
      omega

/-- C50, WithVolumes: one host volume per entry under a random name, mounted at the given
path in every step; nothing else changes. -/
theorem C50_volumes (rnd : Nat → String) (m : GoMap String) (st : St) :
    ∃ st' names vs, withVolumes rnd m st = some st' ∧ names.length = m.length ∧
      (∀ name ∈ names, ∃ i, st.n ≤ i ∧ i < st'.n ∧ name = rnd i) ∧
      st'.spec = { st.spec with volumes := st'.spec.volumes, steps := st'.spec.steps } ∧
      st'.spec.volumes = st.spec.volumes ++ vs ∧
      vs.map (·.md.name) = names ∧
      vs.map (·.hostPath) = m.map (fun kv => some kv.1) ∧
      (∀ v ∈ vs, v.emptyDir = none) ∧
      List.Forall₂ (fun s s' => ∃ ms, s' = { s with volumes := s.volumes ++ ms } ∧
          ms.map (·.name) = names ∧ ms.map (·.path) = m.map Prod.snd)
        st.spec.steps st'.spec.steps := by
  obtain ⟨vs, h0, h1, h2, h3, h4⟩ := addGlobalVolume_fold rnd m st
  have hl : (volNames rnd st.n m.length).length = m.length := by simp [volNames]
  refine ⟨_, volNames rnd st.n m.length, vs, rfl, hl, ?_, ?_, ?_, ?_, ?_, fun v hv => (h3 v hv).2.1, ?_⟩
  · intro name hn
    obtain ⟨i, hi, rfl⟩ := List.mem_map.mp hn
    rw [List.mem_range] at hi
    exact ⟨st.n + 2 * i + 1, by omega, by rw [h0]; omega, rfl⟩
  · rw [h1]
  · rw [h1]
  · have := congrArg (List.map Prod.fst) h2
    simp only [List.map_map, Function.comp_def] at this
    rw [this]
    exact List.map_fst_zip (by omega)
  · have := congrArg (List.map Prod.snd) h2
    simp only [List.map_map, Function.comp_def] at this
    rw [this]
    have e : (fun p : String × String × String => some p.2.1) =
        (fun kv : String × String => some kv.1) ∘ Prod.snd := rfl
    rw [e, ← List.map_map, List.map_snd_zip (by omega)]
  · rw [h1]
    show List.Forall₂ _ _ (List.map _ _)
    rw [List.forall₂_map_right_iff]
    refine List.forall₂_same.mpr fun s _ => ⟨_, rfl, ?_, ?_⟩
    · simp only [List.map_map, Function.comp_def]
      exact List.map_fst_zip (by omega)
    · simp only [List.map_map, Function.comp_def]
      have e : (fun p : String × String × String => p.2.2) = Prod.snd ∘ Prod.snd := rfl
      rw [e, ← List.map_map, List.map_snd_zip (by omega)]

namespace Spec
/-- `s` is `host:path` with no further colon. -/
def Entry (s host path : String) : Prop :=
  s.toList = host.toList ++ ':' :: path.toList ∧ ':' ∉ host.toList ∧ ':' ∉ path.toList

/-- The last entry for `host` in the list gives `path`. -/
def LastEntry (l : List String) (host path : String) : Prop :=
  ∃ pre s post, l = pre ++ s :: post ∧ Entry s host path ∧ ∀ t ∈ post, ∀ p, ¬ Entry t host p
end Spec

theorem splitOn_one {l v : List Char} : l.splitOn ':' = [v] ↔ ':' ∉ l ∧ l = v := by
  constructor
  · intro h
    by_cases hm : ':' ∈ l
    · obtain ⟨a, b, rfl⟩ := List.append_of_mem hm
      rw [List.splitOn_append_cons_of_beq a b (by simp)] at h
      have := congrArg List.length h
      have h1 := List.length_pos_of_ne_nil (List.splitOn_ne_nil ':' a)
      have h2 := List.length_pos_of_ne_nil (List.splitOn_ne_nil ':' b)
      simp at this
      omega
    · rw [List.splitOn_eq_singleton hm] at h
      simpa [hm] using h
  · rintro ⟨h, rfl⟩
    exact List.splitOn_eq_singleton h

theorem splitOn_two {l k v : List Char} : l.splitOn ':' = [k, v] ↔
    l = k ++ ':' :: v ∧ ':' ∉ k ∧ ':' ∉ v := by
  induction l generalizing k with
  | nil => simp
  | cons c l ih =>
    rw [List.splitOn_cons_eq_if_modifyHead]
    by_cases hc : c = ':'
    · subst hc
      simp only [beq_self_eq_true, if_true]
      constructor
      · intro h
        simp only [List.cons.injEq] at h
        obtain ⟨rfl, h⟩ := h
        have := splitOn_one.mp h
        exact ⟨by simp [this.2], by simp, this.2 ▸ this.1⟩
      · rintro ⟨h1, h2, h3⟩
        cases k with
        | nil =>
          simp only [List.nil_append, List.cons.injEq, true_and] at h1
          subst h1
          simp only [List.cons.injEq, true_and]
          exact splitOn_one.mpr ⟨h3, rfl⟩
        | cons d k =>
          simp only [List.cons_append, List.cons.injEq] at h1
          exact absurd (by rw [h1.1]; simp) h2
    · have : (c == ':') = false := by simpa using hc
      simp only [this]
      constructor
      · intro h
        cases hs : l.splitOn ':' with
        | nil => exact absurd hs (List.splitOn_ne_nil _ _)
        | cons a as =>
          rw [hs] at h
          simp only [Bool.false_eq_true, if_false, List.modifyHead_cons, List.cons.injEq] at h
          obtain ⟨rfl, rfl⟩ := h
          have := ih.mp hs
          refine ⟨by simp [this.1], ?_, this.2.2⟩
          simp only [List.mem_cons, not_or]
          exact ⟨fun e => hc e.symm, this.2.1⟩
      · rintro ⟨h1, h2, h3⟩
        cases k with
        | nil => simp at h1; exact absurd h1.1 hc
        | cons d k =>
          simp only [List.cons_append, List.cons.injEq] at h1
          obtain ⟨rfl, h1⟩ := h1
          have := ih.mpr ⟨h1, fun h => h2 (by simp [h]), h3⟩
          rw [this]
          rfl

theorem entry_iff {s host path : String} : Entry s host path ↔
    s.toList.splitOn ':' = [host.toList, path.toList] := splitOn_two.symm

/-- One step of the loop in `WithVolumeSlice`. -/
def volumeStep (t : GoMap String) (s : String) : GoMap String :=
  match s.toList.splitOn ':' with
  | [key, val] => t.set (String.ofList key) (String.ofList val)
  | _ => t

theorem volumeStep_entry {s host path : String} (h : Entry s host path) (t : GoMap String) :
    volumeStep t s = t.set host path := by
  unfold volumeStep
  rw [entry_iff.mp h]
  simp

theorem volumeStep_no {s : String} (h : ∀ host path, ¬ Entry s host path) (t : GoMap String) :
    volumeStep t s = t := by
  unfold volumeStep
  split
  · rename_i key val e
    exact absurd (entry_iff.mpr (by simpa using e)) (h (String.ofList key) (String.ofList val))
  · rfl

theorem entry_unique {s h p h' p' : String} (e : Entry s h p) (e' : Entry s h' p') : h = h' ∧ p = p' := by
  rw [entry_iff] at e e'
  rw [e] at e'
  simp only [List.cons.injEq, and_true] at e'
  exact ⟨String.toList_inj.mp e'.1, String.toList_inj.mp e'.2⟩

theorem volumeMap_spec (l : List String) : ((volumeMap l).map Prod.fst).Nodup ∧
    ∀ host path, (volumeMap l).get? host = some path ↔ LastEntry l host path := by
  have e : volumeMap l = l.foldl volumeStep [] := rfl
  rw [e]
  induction l using List.reverseRecOn with
  | nil =>
    refine ⟨by simp, fun host path => ?_⟩
    simp [LastEntry]
  | append_singleton l s ih =>
    rw [List.foldl_append, List.foldl_cons, List.foldl_nil]
    obtain ⟨ih1, ih2⟩ := ih rfl
    have old : ∀ host path, (∀ p, ¬ Entry s host p) →
        (LastEntry (l ++ [s]) host path ↔ LastEntry l host path) := by
      intro host path hno
      constructor
      · rintro ⟨pre, t, post, e, ht, hp⟩
        rcases List.eq_nil_or_concat post with rfl | ⟨post', u, rfl⟩
        · have := List.append_inj' e rfl
          simp only [List.cons.injEq, and_true] at this
          exact absurd (this.2 ▸ ht) (hno path)
        · have e' : l ++ [s] = (pre ++ t :: post') ++ [u] := by simp [e]
          have := List.append_inj' e' rfl
          exact ⟨pre, t, post', this.1, ht, fun x hx => hp x (by simp [hx])⟩
      · rintro ⟨pre, t, post, rfl, ht, hp⟩
        refine ⟨pre, t, post ++ [s], by simp, ht, ?_⟩
        intro x hx
        rcases List.mem_append.mp hx with hx | hx
        · exact hp x hx
        · simp only [List.mem_singleton] at hx
          subst hx
          exact hno
    by_cases h : ∃ host path, Entry s host path
    · obtain ⟨h0, p0, he⟩ := h
      rw [volumeStep_entry he]
      refine ⟨(GoMap.set_keys_nodup _ _ ih1).1, fun host path => ?_⟩
      rw [GoMap.get?_set]
      by_cases hh : host = h0
      · subst hh
        simp only [if_true, Option.some.injEq]
        constructor
        · rintro rfl
          exact ⟨l, s, [], by simp, he, by simp⟩
        · rintro ⟨pre, t, post, e, ht, hp⟩
          rcases List.eq_nil_or_concat post with rfl | ⟨post', u, rfl⟩
          · have := List.append_inj' e rfl
            simp only [List.cons.injEq, and_true] at this
            exact (entry_unique he (this.2 ▸ ht)).2
          · have e' : l ++ [s] = (pre ++ t :: post') ++ [u] := by simp [e]
            have := List.append_inj' e' rfl
            simp only [List.cons.injEq, and_true] at this
            exact absurd (this.2 ▸ he) (hp u (by simp) _)
      · rw [if_neg hh, ih2, old]
        intro p hp
        exact hh (entry_unique hp he).1
    · rw [volumeStep_no (fun a b hab => h ⟨a, b, hab⟩)]
      refine ⟨ih1, fun host path => ?_⟩
      rw [ih2, old]
      intro p hp
      exact h ⟨host, p, hp⟩

/-- C50, WithVolumeSlice: it behaves as WithVolumes on a map that holds exactly the last
well-formed entry of every host path. -/
theorem C50_volumeSlice (rnd : Nat → String) (iter : GoMap String → GoMap String)
    (hi : ∀ m, (iter m).Perm m) (l : List String) (st : St) :
    ∃ m : GoMap String, withVolumeSlice rnd iter l st = withVolumes rnd m st ∧
      (m.map Prod.fst).Nodup ∧ ∀ host path, (host, path) ∈ m ↔ LastEntry l host path := by
  obtain ⟨h1, h2⟩ := volumeMap_spec l
  have hp := hi (volumeMap l)
  refine ⟨_, rfl, (hp.map _).nodup_iff.mpr h1, fun host path => ?_⟩
  rw [← h2, hp.mem_iff]
  exact ⟨fun h => GoMap.get?_of_mem h1 h, GoMap.mem_of_get?⟩

example : volumeMap ["/a:/b", "/c:/d:ro", "x", "/a:/z"] = [("/a", "/z")] := by decide
example : Entry "/a:/b" "/a" "/b" := ⟨by decide, by decide, by decide⟩
example : (withVolumes (fun n => toString n) [("/a", "/z")] trSt).map (fun st =>
      (st.spec.volumes.map (·.md.name), st.spec.steps.map (·.volumes))) =
    some (["8"], [[⟨"8", "/z"⟩], [⟨"8", "/z"⟩], [⟨"8", "/z"⟩]]) := by decide

/-! ### C51 -/

theorem foldl_bind_none (fns : List Transform) :
    fns.foldl (fun (r : Option St) fn => r.bind fn) none = none := by
  induction fns with
  | nil => rfl
  | cons f fs ih => exact ih

/-- C51: combining nothing changes nothing. -/
theorem C51_nil (st : St) : combine [] st = some st := rfl

/-- C51: the first transform runs first, the others on its result. -/
theorem C51_cons (f : Transform) (fs : List Transform) (st : St) :
    combine (f :: fs) st = match f st with | none => none | some st' => combine fs st' := by
  unfold combine
  rw [List.foldl_cons]
  show fs.foldl _ (f st) = _
  cases f st with
  | none => exact foldl_bind_none fs
  | some st' => rfl

/-- C51: nested combinations flatten. -/
theorem C51_flatten (fss : List (List Transform)) :
    combine (fss.map combine) = combine fss.flatten := by
  induction fss with
  | nil => rfl
  | cons fs fss ih =>
    funext st
    rw [List.map_cons, C51_cons, List.flatten_cons, ih]
    induction fs generalizing st with
    | nil => rfl
    | cons f fs ih2 =>
      rw [C51_cons, List.cons_append, C51_cons]
      cases f st with
      | none => rfl
      | some st' => exact ih2 st'

/-- The order matters: excluding after asking for secrets asks for more. -/
example : (combine [excludeAll ["build"], resumeAt "test", withNetworks ["n"]] trSt).map
      (fun st => st.spec.steps.map (·.docker.networks)) = some [["n"], ["n"], ["n"]] := by decide

end Drone
