/-
C136: what the random identifiers are for.  Compiling with other identifiers, and applying the transforms of
the library with them, gives the same specification with the identifiers exchanged.
-/
import Verif.Props.Confine
import Verif.Props.Cli

namespace Drone
open Transform
open Engine (Step)

namespace Spec

/-- The identifiers in a piece of metadata exchanged. -/
def renamedMd (ρ : String → String) (m : Engine.Metadata) : Engine.Metadata :=
  { m with uid := ρ m.uid, namespc := ρ m.namespc }

/-- The identifiers in a step exchanged, and the names of the volumes it mounts; with `b`, the image and the
alias of a built image are left out. -/
def renamedStep (ρ ν : String → String) (b : Bool) (s : Step) : Step :=
  { s with
    md := renamedMd ρ s.md
    volumes := s.volumes.map fun m => { m with name := ν m.name }
    envs := s.envs.map fun kv => (kv.1, if b = true ∧ kv.1 = "DOCKER_BUILD_IMAGE_ALIAS" then "" else kv.2)
    docker := { s.docker with image := if b = true then "" else s.docker.image } }

/-- The identifiers in a specification exchanged: `ρ` is applied to those of the pipeline and its name, of the
steps, files, secrets and volumes; `ν` to the names of the volumes, where they are declared and where they are
mounted. -/
def renamed (ρ ν : String → String) (b : Bool) (s : Engine.Spec) : Engine.Spec :=
  { s with
    md := { renamedMd ρ s.md with name := ρ s.md.name }
    secrets := s.secrets.map fun x => { x with md := renamedMd ρ x.md }
    steps := s.steps.map (renamedStep ρ ν b)
    files := s.files.map fun f => { f with md := renamedMd ρ f.md }
    volumes := s.volumes.map fun v => { v with md := { renamedMd ρ v.md with name := ν v.md.name } } }

/-- The names of volumes a pipeline mentions, and those the compiler uses. -/
def volumeNames (p : Pipeline) : List String :=
  ["workspace", "host", "_docker_socket"] ++ p.volumes.filterMap (·.map (·.name)) ++
    (p.services ++ p.steps).flatMap fun c => (c.elim [] fun c => c.volumes.filterMap (·.map (·.name)))

end Spec
open Spec

namespace Renamed

variable {ρ ν : String → String} {b : Bool}

/-- The variables of a step without the alias. -/
def env (b : Bool) (m : GoMap String) : GoMap String :=
  m.map fun kv => (kv.1, if b = true ∧ kv.1 = "DOCKER_BUILD_IMAGE_ALIAS" then "" else kv.2)

theorem env_set (m : GoMap String) (k v : String) :
    env b (m.set k v) = (env b m).set k (if b = true ∧ k = "DOCKER_BUILD_IMAGE_ALIAS" then "" else v) := by
  induction m with
  | nil => rfl
  | cons a m ih =>
    obtain ⟨k', v'⟩ := a
    show env b (if k' = k then (k, v) :: m else (k', v') :: GoMap.set m k v) =
      (if k' = k then (k, _) :: env b m else (k', _) :: GoMap.set (env b m) k _)
    by_cases h : k' = k
    · rw [if_pos h, if_pos h]; rfl
    · rw [if_neg h, if_neg h, ← ih]; rfl

theorem env_idem (m : GoMap String) : env b (env b m) = env b m := by
  unfold env
  rw [List.map_map]
  refine List.map_congr_left fun kv _ => ?_
  by_cases h : b = true ∧ kv.1 = "DOCKER_BUILD_IMAGE_ALIAS"
  · simp [h.1, h.2]
  · simp only [Function.comp, if_neg h]

theorem env_foldl (e : GoMap String) : ∀ m m' : GoMap String, env b m' = env b m →
    env b (e.foldl (fun l kv => l.set kv.1 kv.2) m') = env b (e.foldl (fun l kv => l.set kv.1 kv.2) m) := by
  induction e with
  | nil => intro m m' h; exact h
  | cons kv e ih =>
    intro m m' h
    rw [List.foldl_cons, List.foldl_cons]
    exact ih _ _ (by rw [env_set, env_set, h])

/-- Two steps that differ in the identifiers. -/
structure SStep (ρ ν : String → String) (b : Bool) (s s' : Step) : Prop where
  rest : s' = { s with md := renamedMd ρ s.md, volumes := s.volumes.map (fun m => { m with name := ν m.name }),
                       envs := s'.envs, docker := { s.docker with image := s'.docker.image } }
  envs : env b s'.envs = env b s.envs
  image : b = false → s'.docker.image = s.docker.image

theorem SStep.eq {s s' : Step} (h : SStep ρ ν b s s') : renamedStep id id b s' = renamedStep ρ ν b s := by
  obtain ⟨h1, h2, h3⟩ := h
  unfold env at h2
  cases b with
  | false =>
    have h3 := h3 rfl
    rw [h3] at h1
    unfold renamedStep
    rw [h2, h1]
    simp [renamedMd]
  | true =>
    unfold renamedStep
    rw [h2, h1]
    simp [renamedMd]

/-- Two states that differ in the identifiers. -/
structure Sim (ρ ν : String → String) (b : Bool) (st st' : St) : Prop where
  n : st'.n = st.n
  md : st'.spec.md = { renamedMd ρ st.spec.md with name := ρ st.spec.md.name }
  platform : st'.spec.platform = st.spec.platform
  auths : st'.spec.auths = st.spec.auths
  secrets : st'.spec.secrets = st.spec.secrets.map fun x => { x with md := renamedMd ρ x.md }
  files : st'.spec.files = st.spec.files.map fun x => { x with md := renamedMd ρ x.md }
  volumes : st'.spec.volumes = st.spec.volumes.map fun v => { v with md := { renamedMd ρ v.md with name := ν v.md.name } }
  steps : List.Forall₂ (SStep ρ ν b) st.spec.steps st'.spec.steps

theorem Sim.ns {st st' : St} (h : Sim ρ ν b st st') : st'.spec.md.namespc = ρ st.spec.md.namespc := by
  rw [h.md]; rfl

theorem Sim.eq {st st' : St} (h : Sim ρ ν b st st') :
    st'.n = st.n ∧ renamed id id b st'.spec = renamed ρ ν b st.spec := by
  refine ⟨h.n, ?_⟩
  have hs : st'.spec.steps.map (renamedStep id id b) = st.spec.steps.map (renamedStep ρ ν b) := by
    have := h.steps
    generalize st.spec.steps = l, st'.spec.steps = l' at this
    induction this with
    | nil => rfl
    | cons h _ ih => rw [List.map_cons, List.map_cons, ih, h.eq]
  unfold renamed
  rw [hs, h.md, h.platform, h.auths, h.secrets, h.files, h.volumes]
  simp [renamedMd, Function.comp_def]

/-- An update of steps that keeps the relation. -/
abbrev Keeps (ρ ν : String → String) (b : Bool) (g : Step → Step) : Prop :=
  ∀ s s', SStep ρ ν b s s' → SStep ρ ν b (g s) (g s')

theorem keeps_env (e : GoMap String) : Keeps ρ ν b fun s => { s with envs := e.foldl (fun l kv => l.set kv.1 kv.2) s.envs } := by
  intro s s' h
  refine ⟨?_, env_foldl e _ _ h.envs, h.image⟩
  have := h.rest
  rw [this]

theorem keeps_comp {g f : Step → Step} (hg : Keeps ρ ν b g) (hf : Keeps ρ ν b f) : Keeps ρ ν b fun s => g (f s) :=
  fun _ _ h => hg _ _ (hf _ _ h)

theorem keeps_workingDir (src : Container) (path : String) : Keeps ρ ν b fun s => setupWorkingDir src s path := by
  intro s s' h
  have h1 : s'.workingDir = s.workingDir := by rw [h.rest]
  have h2 : s'.detach = s.detach := by rw [h.rest]
  unfold setupWorkingDir
  dsimp only
  rw [h1, h2]
  split
  · exact h
  · split
    · exact h
    · refine ⟨?_, h.envs, h.image⟩
      rw [h.rest]

/-- The variables `setupWorkspaceEnv` sets. -/
def workspaceVars (w : WorkspaceDirs) : GoMap String :=
  [("DRONE_WORKSPACE_BASE", w.base), ("DRONE_WORKSPACE_PATH", w.path), ("DRONE_WORKSPACE", w.full),
   ("CI_WORKSPACE_BASE", w.base), ("CI_WORKSPACE_PATH", w.path), ("CI_WORKSPACE", w.full)]

theorem keeps_workspaceEnv (w : WorkspaceDirs) : Keeps ρ ν b fun s => setupWorkspaceEnv s w := by
  exact keeps_env (workspaceVars w)

theorem keeps_volume (name path : String) (hn : ν name = name) :
    Keeps ρ ν b fun s => { s with volumes := s.volumes ++ [⟨name, path⟩] } := by
  intro s s' h
  refine ⟨?_, h.envs, h.image⟩
  rw [h.rest]
  simp [hn]

theorem keeps_mount {c : Compiler} (hc : c.Std) (w : WorkspaceDirs) (h1 : ν "workspace" = "workspace") (h2 : ν "host" = "host") :
    Keeps ρ ν b fun s => setupWorkspaceMount c s w := by
  intro s s' h
  unfold setupWorkspaceMount
  cases hm : c.mount with
  | default => exact keeps_volume _ _ h1 s s' h
  | host =>
    show SStep ρ ν b (mountHostWorkspace s w) (mountHostWorkspace s' w)
    unfold mountHostWorkspace
    dsimp only
    split
    · exact keeps_comp (keeps_volume _ _ h1) (keeps_volume _ _ h2) s s' h
    · exact keeps_volume _ _ h2 s s' h
  | custom f => exact absurd hm (hc.2 f)

theorem keeps_never : Keeps ρ ν b fun s => { s with runPolicy := .never } := by
  intro s s' h
  refine ⟨?_, h.envs, h.image⟩
  rw [h.rest]

theorem keeps_privileged : Keeps ρ ν b fun s => { s with docker := { s.docker with privileged := true } } := by
  intro s s' h
  refine ⟨?_, h.envs, h.image⟩
  rw [h.rest]

theorem keeps_pull (q : Engine.PullPolicy) : Keeps ρ ν b fun s => { s with docker := { s.docker with pullPolicy := q } } := by
  intro s s' h
  refine ⟨?_, h.envs, h.image⟩
  rw [h.rest]

theorem keeps_detach : Keeps ρ ν b fun s => { s with detach := true } := by
  intro s s' h
  refine ⟨?_, h.envs, h.image⟩
  rw [h.rest]

theorem keeps_depends (l : List String) : Keeps ρ ν b fun s => { s with dependsOn := s.dependsOn ++ l } := by
  intro s s' h
  refine ⟨?_, h.envs, h.image⟩
  rw [h.rest]

theorem keeps_files (l : List Engine.FileMount) : Keeps ρ ν b fun s => { s with files := s.files ++ l } := by
  intro s s' h
  refine ⟨?_, h.envs, h.image⟩
  rw [h.rest]

theorem keeps_run (cmd args : List String) : Keeps ρ ν b fun s => { s with docker := { s.docker with command := cmd, args := args } } := by
  intro s s' h
  refine ⟨?_, h.envs, h.image⟩
  rw [h.rest]

theorem keeps_finish {c : Compiler} (hc : c.Std) (w : WorkspaceDirs) (src : Container) (h1 : ν "workspace" = "workspace")
    (h2 : ν "host" = "host") : Keeps ρ ν b (finishStep c w src) := by
  intro s s' h
  have := keeps_comp (keeps_mount hc w h1 h2) (keeps_comp (keeps_workspaceEnv w) (keeps_workingDir src w.full)) s s' h
  unfold finishStep
  dsimp only at this ⊢
  by_cases hs : c.skip.any (· src) = true
  · by_cases hp : c.privileged.any (· src) = true
    · simp only [hs, hp, if_true]
      exact keeps_comp keeps_privileged keeps_never _ _ this
    · simp only [hs, hp, if_true]
      exact keeps_never _ _ this
  · by_cases hp : c.privileged.any (· src) = true
    · simp only [hs, hp, if_true]
      exact keeps_privileged _ _ this
    · simp only [hs, hp]
      exact this

theorem keeps_depth (p : Pipeline) : Keeps ρ ν b (setupCloneDepth p) := by
  intro s s' h
  unfold setupCloneDepth
  by_cases h1 : p.clone.depth > 0
  · by_cases h2 : p.clone.skipVerify = true
    · simp only [h1, h2, if_true]
      exact keeps_env [("PLUGIN_DEPTH", toString p.clone.depth), ("GIT_SSL_NO_VERIFY", "true"), ("PLUGIN_SKIP_VERIFY", "true")] s s' h
    · simp only [h1, h2, if_true]
      exact keeps_env [("PLUGIN_DEPTH", toString p.clone.depth)] s s' h
  · by_cases h2 : p.clone.skipVerify = true
    · simp only [h1, h2, if_true, if_false]
      exact keeps_env [("GIT_SSL_NO_VERIFY", "true"), ("PLUGIN_SKIP_VERIFY", "true")] s s' h
    · simp only [h1, h2, if_false]
      exact h

theorem keeps_win (E : Ext) (src : Container) : Keeps ρ ν b fun s => setupScriptWin E s src := by
  intro s s' h
  exact keeps_comp (keeps_env [("CI_SCRIPT", String.ofList (Script.base64 (utf8 (Script.windows E.isPrint src.commands)))),
    ("SHELL", "powershell.exe")]) (keeps_run ["powershell", "-noprofile", "-noninteractive", "-command"]
      ["[System.Text.Encoding]::UTF8.GetString([System.Convert]::FromBase64String($Env:CI_SCRIPT)) | iex"]) s s' h

/-! ### States -/

theorem Sim.addStep {st st' : St} (h : Sim ρ ν b st st') {s s' : Step} (hs : SStep ρ ν b s s') :
    Sim ρ ν b (st.addStep s) (st'.addStep s') :=
  { h with
    steps := List.rel_append h.steps (.cons hs .nil) }

theorem Sim.draw {st st' : St} (h : Sim ρ ν b st st') : Sim ρ ν b { st with n := st.n + 1 } { st' with n := st'.n + 1 } :=
  { h with n := by simp only [h.n] }

theorem Sim.addFile {st st' : St} (h : Sim ρ ν b st st') (md : Engine.Metadata) (data : Bytes)
    {md' : Engine.Metadata} (hm : md' = renamedMd ρ md) :
    Sim ρ ν b { n := st.n + 1, spec := { st.spec with files := st.spec.files ++ [{ md := md, data := data }] } }
      { n := st'.n + 1, spec := { st'.spec with files := st'.spec.files ++ [{ md := md', data := data }] } } :=
  { h with
    n := by simp only [h.n]
    files := by simp only [h.files, List.map_append, List.map_cons, List.map_nil, hm] }

theorem Sim.addVolume {st st' : St} (h : Sim ρ ν b st st') (v v' : Engine.Volume)
    (hm : v' = { v with md := { renamedMd ρ v.md with name := ν v.md.name } }) :
    Sim ρ ν b (st.addVolume v) (st'.addVolume v') :=
  { h with
    n := by simp only [St.addVolume, h.n]
    volumes := by simp only [St.addVolume, h.volumes, List.map_append, List.map_cons, List.map_nil, hm] }

/-- Both panic, or the results are related. -/
inductive Both {α β : Type} (R : α → β → Prop) : Option α → Option β → Prop
  | none : Both R none none
  | some {a b} : R a b → Both R (some a) (some b)

theorem Both.bind {α β γ δ : Type} {R : α → β → Prop} {S : γ → δ → Prop} {x : Option α} {y : Option β} (h : Both R x y)
    {f : α → Option γ} {g : β → Option δ} (hf : ∀ a b, R a b → Both S (f a) (g b)) : Both S (x.bind f) (y.bind g) := by
  cases h with
  | none => exact .none
  | some h => exact hf _ _ h

theorem Both.map {α β γ δ : Type} {R : α → β → Prop} {S : γ → δ → Prop} {x : Option α} {y : Option β} (h : Both R x y)
    {f : α → γ} {g : β → δ} (hf : ∀ a b, R a b → S (f a) (g b)) : Both S (x.map f) (y.map g) := by
  cases h with
  | none => exact .none
  | some h => exact .some (hf _ _ h)

abbrev SPair (ρ ν : String → String) (b : Bool) (r r' : Step × St) : Prop := SStep ρ ν b r.1 r'.1 ∧ Sim ρ ν b r.2 r'.2

/-- The names of volumes a container mounts. -/
def mountNames (c : Container) : List String := c.volumes.filterMap (·.map (·.name))

theorem stepMounts_fixed : ∀ (l : List (Option VolumeMount)) (ms : List Engine.VolumeMount), stepMounts l = some ms →
    (∀ n ∈ l.filterMap (·.map (·.name)), ν n = n) → ms.map (fun m => { m with name := ν m.name }) = ms
  | [], ms, h, _ => by
    simp only [stepMounts, Option.some.injEq] at h
    subst h
    rfl
  | none :: l, ms, h, _ => by simp [stepMounts] at h
  | some v :: l, ms, h, hn => by
    simp only [List.filterMap_cons, Option.map_some, List.forall_mem_cons] at hn
    rw [stepMounts] at h
    split at h
    · exact stepMounts_fixed l ms h hn.2
    · obtain ⟨ms', h1, rfl⟩ := Option.map_eq_some_iff.1 h
      rw [List.map_cons, stepMounts_fixed l ms' h1 hn.2, hn.1]

variable (E : Ext) (rnd : Nat → String)

theorem createStep_sim {st st' : St} (h : Sim ρ ν b st st') (src : Container) (hn : ∀ n ∈ mountNames src, ν n = n) :
    Both (SPair ρ ν b) (createStep E rnd st src) (createStep E (fun i => ρ (rnd i)) st' src) := by
  unfold createStep
  cases toPorts src with
  | none => exact .none
  | some ports =>
    cases hm : stepMounts src.volumes with
    | none => exact .none
    | some mounts =>
      simp only [Option.bind_some]
      have hms := stepMounts_fixed (ν := ν) _ _ hm hn
      have h0 : SStep ρ ν b (createStep0 E (rnd st.n) st.spec.md.namespc src ports mounts)
          (createStep0 E (ρ (rnd st'.n)) st'.spec.md.namespc src ports mounts) := by
        refine ⟨?_, rfl, fun _ => rfl⟩
        rw [h.n, h.ns]
        simp only [createStep0, renamedMd, hms]
      rw [h.platform]
      split
      · split
        · exact .some ⟨keeps_win E src _ _ h0, h.draw⟩
        · refine .some ⟨?_, ?_⟩
          · exact keeps_comp (keeps_run ["/bin/sh"] ["/usr/drone/bin/init"])
              (keeps_files [{ name := src.name, path := "/usr/drone/bin/init", mode := 0o777 }]) _ _ h0
          · exact h.draw.addFile _ _ (by simp only [renamedMd, h.n, h.ns])
      · exact .some ⟨h0, h.draw⟩

theorem buildEnvs_env (uid uid' : String) (x : Build) (hb : b = true) :
    env b (buildEnvs E uid' x) = env b (buildEnvs E uid x) := by
  unfold buildEnvs
  extract_lets _ e1 e2 e3
  by_cases hi : x.image ≠ ""
  · rw [if_pos hi, if_pos hi, env_set, env_set _ "DOCKER_BUILD_IMAGE_ALIAS", if_pos ⟨hb, rfl⟩, if_pos ⟨hb, rfl⟩]
  · rw [if_neg hi, if_neg hi]

theorem createBuildStep_sim {st st' : St} (h : Sim ρ ν b st st') (src : Container) (x : Build) (hb : b = true)
    (hn : ν "_docker_socket" = "_docker_socket") :
    SPair ρ ν b (createBuildStep E rnd st src x) (createBuildStep E (fun i => ρ (rnd i)) st' src x) := by
  refine ⟨⟨?_, buildEnvs_env E _ _ x hb, fun _ => rfl⟩, h.draw⟩
  simp only [createBuildStep, renamedMd, h.n, h.ns, List.map_cons, List.map_nil, hn]

theorem workspace_sim {c : Compiler} (hc : c.Std) {st st' : St} (h : Sim ρ ν b st st') (h0 : ρ "" = "")
    (h1 : ν "workspace" = "workspace") (h2 : ν "host" = "host") :
    Sim ρ ν b (setupWorkspace c rnd st) (setupWorkspace c (fun i => ρ (rnd i)) st') := by
  have hw : Sim ρ ν b (createWorkspaceVolume rnd st) (createWorkspaceVolume (fun i => ρ (rnd i)) st') :=
    h.addVolume _ _ (by simp only [renamedMd, h.n, h.ns, h1])
  unfold setupWorkspace
  cases hm : c.workspace with
  | default => exact hw
  | host d => exact hw.addVolume _ _ (by simp only [renamedMd, hw.n, h0, h2])
  | custom f => exact absurd hm (hc.1 f)

theorem addVolumes_sim (ns : String) : ∀ (l : List (Option Volume)) (st st' : St), Sim ρ ν b st st' →
    (∀ n ∈ l.filterMap (·.map (·.name)), ν n = n) →
    Both (Sim ρ ν b) (addVolumes rnd ns l st) (addVolumes (fun i => ρ (rnd i)) (ρ ns) l st')
  | [], _, _, h, _ => .some h
  | none :: _, _, _, _, _ => .none
  | some v :: l, st, st', h, hn => by
    simp only [List.filterMap_cons, Option.map_some, List.forall_mem_cons] at hn
    rw [addVolumes, addVolumes]
    exact addVolumes_sim ns l _ _ (h.addVolume _ _ (by simp only [renamedMd, h.n, hn.1])) hn.2

theorem credentials_sim {st st' : St} (h : Sim ρ ν b st st') {s s' : Step} (hs : SStep ρ ν b s s') (d : Bytes) :
    SPair ρ ν b (setupCloneCredentials rnd st s d) (setupCloneCredentials (fun i => ρ (rnd i)) st' s' d) := by
  unfold setupCloneCredentials
  split
  · exact ⟨hs, h⟩
  · exact ⟨keeps_files _ _ _ hs, h.addFile _ _ (by simp only [renamedMd, h.n, h.ns])⟩

theorem addClone_sim {c : Compiler} (hc : c.Std) (p : Pipeline) (w : WorkspaceDirs) {st st' : St} (h : Sim ρ ν b st st')
    (h1 : ν "workspace" = "workspace") (h2 : ν "host" = "host") :
    Both (Sim ρ ν b) (addClone E c rnd p w st) (addClone E c (fun i => ρ (rnd i)) p w st') := by
  unfold addClone
  split
  · exact .some h
  · refine (createStep_sim E rnd h (createClone p) (fun n hn => by simp [mountNames, createClone] at hn)).map ?_
    rintro ⟨s, t⟩ ⟨s', t'⟩ ⟨hs, ht⟩
    have := credentials_sim rnd ht (keeps_depth p _ _ (keeps_pull .ifNotExists _ _ hs)) (c.gitCredentials.getD [])
    exact this.2.addStep (keeps_mount hc w h1 h2 _ _ (keeps_workspaceEnv w _ _ (keeps_workingDir _ w.full _ _ this.1)))

theorem addServices_sim {c : Compiler} (hc : c.Std) (p : Pipeline) (w : WorkspaceDirs) (serial : Bool)
    (h1 : ν "workspace" = "workspace") (h2 : ν "host" = "host") : ∀ (l : List (Option Container)) (st st' : St),
    Sim ρ ν b st st' → (∀ n ∈ l.flatMap fun c => c.elim [] mountNames, ν n = n) →
    Both (Sim ρ ν b) (addServices E c rnd p w serial l st) (addServices E c (fun i => ρ (rnd i)) p w serial l st')
  | [], _, _, h, _ => .some h
  | none :: _, _, _, _, _ => .none
  | some s :: l, st, st', h, hn => by
    simp only [List.flatMap_cons, List.mem_append, Option.elim_some] at hn
    rw [addServices, addServices]
    refine Both.bind (R := Sim ρ ν b) ?_ fun t t' ht => addServices_sim hc p w serial h1 h2 l t t' ht fun n h => hn n (.inr h)
    unfold addService
    refine (createStep_sim E rnd h s fun n h => hn n (.inl h)).map ?_
    rintro ⟨s1, t⟩ ⟨s1', t'⟩ ⟨hs, ht⟩
    have := keeps_finish hc w s h1 h2 _ _ (keeps_detach _ _ hs)
    dsimp only
    split
    · exact ht.addStep (keeps_depends _ _ _ this)
    · exact ht.addStep this

/-- The renamings known so far, without the identifiers. -/
abbrev SRen (b : Bool) (rn rn' : GoMap String) : Prop := rn'.keys = rn.keys ∧ (b = false → rn = [])

theorem keys_set {m m' : GoMap String} (k v v' : String) (h : m'.keys = m.keys) : (m'.set k v').keys = (m.set k v).keys := by
  induction m generalizing m' with
  | nil =>
    cases m' with
    | nil => rfl
    | cons _ _ => simp [GoMap.keys] at h
  | cons a m ih =>
    cases m' with
    | nil => simp [GoMap.keys] at h
    | cons a' m' =>
      obtain ⟨x, y⟩ := a
      obtain ⟨x', y'⟩ := a'
      simp only [GoMap.keys, List.map_cons, List.cons.injEq] at h
      obtain ⟨rfl, h⟩ := h
      have := ih h
      show GoMap.keys (if x' = k then (k, v') :: m' else (x', y') :: GoMap.set m' k v') =
        GoMap.keys (if x' = k then (k, v) :: m else (x', y) :: GoMap.set m k v)
      split
      · simp only [GoMap.keys, List.map_cons, h]
      · simp only [GoMap.keys, List.map_cons] at this ⊢
        rw [this]

theorem addSteps_sim {c : Compiler} (hc : c.Std) (p : Pipeline) (w : WorkspaceDirs) (serial : Bool)
    (h1 : ν "workspace" = "workspace") (h2 : ν "host" = "host") (h3 : ν "_docker_socket" = "_docker_socket") :
    ∀ (l : List (Option Container)) (st st' : St) (rn rn' : GoMap String),
    Sim ρ ν b st st' → SRen b rn rn' → (∀ n ∈ l.flatMap fun c => c.elim [] mountNames, ν n = n) →
    (b = true ∨ ∀ s, some s ∈ l → s.build = none) →
    Both (fun r r' => Sim ρ ν b r.1 r'.1 ∧ SRen b r.2 r'.2) (addSteps E c rnd p w serial l st rn)
      (addSteps E c (fun i => ρ (rnd i)) p w serial l st' rn')
  | [], _, _, _, _, h, hr, _, _ => .some ⟨h, hr⟩
  | none :: _, _, _, _, _, _, _, _, _ => .none
  | some s :: l, st, st', rn, rn', h, hr, hn, hb => by
    simp only [List.flatMap_cons, List.mem_append, Option.elim_some] at hn
    rw [addSteps, addSteps]
    refine Both.bind (R := fun r r' => Sim ρ ν b r.1 r'.1 ∧ SRen b r.2 r'.2) ?_ fun t t' ht =>
      addSteps_sim hc p w serial h1 h2 h3 l t.1 t'.1 t.2 t'.2 ht.1 ht.2 (fun n h => hn n (.inr h))
        (hb.imp id fun hb s hs => hb s (List.mem_cons_of_mem _ hs))
    unfold addPipelineStep
    refine Both.map (R := fun (r r' : Step × St × GoMap String) => SStep ρ ν b r.1 r'.1 ∧ Sim ρ ν b r.2.1 r'.2.1 ∧ SRen b r.2.2 r'.2.2) ?_ ?_
    · cases hx : s.build with
      | none =>
        refine (createStep_sim E rnd h s fun n h => hn n (.inl h)).map ?_
        rintro ⟨s1, t⟩ ⟨s1', t'⟩ ⟨hs, ht⟩
        exact ⟨hs, ht, hr⟩
      | some x =>
        have hb : b = true := by
          rcases hb with hb | hb
          · exact hb
          · rw [hb s List.mem_cons_self] at hx
            cases hx
        have := createBuildStep_sim E rnd h s x hb h3
        exact .some ⟨this.1, this.2, keys_set _ _ _ hr.1, fun h => by rw [hb] at h; cases h⟩
    · rintro ⟨s1, t, r⟩ ⟨s1', t', r'⟩ ⟨hs, ht, hr⟩
      have := keeps_finish hc w s h1 h2 _ _ hs
      have hd : (finishStep c w s s1').dependsOn = (finishStep c w s s1).dependsOn := by rw [this.rest]
      dsimp only at hd ⊢
      rw [hd]
      split
      · have h4 := keeps_depends ["clone"] _ _ this
        dsimp only at h4
        rw [hd] at h4
        exact ⟨ht.addStep h4, hr⟩
      · exact ⟨ht.addStep this, hr⟩

theorem socket_sim {st st' : St} (h : Sim ρ ν b st st') (ns : String) {rn rn' : GoMap String} (hr : SRen b rn rn')
    (h3 : ν "_docker_socket" = "_docker_socket") :
    Sim ρ ν b (addSocket rnd ns rn st) (addSocket (fun i => ρ (rnd i)) (ρ ns) rn' st') := by
  have hl : rn'.length = rn.length := by
    have := congrArg List.length hr.1
    simpa [GoMap.keys] using this
  unfold addSocket
  rw [hl]
  split
  · exact h.addVolume _ _ (by simp only [renamedMd, h.n, h3])
  · exact h

theorem renameSteps_sim {rn rn' : GoMap String} (hr : SRen b rn rn') : ∀ (l l' : List Step) (i : Nat),
    List.Forall₂ (SStep ρ ν b) l l' → List.Forall₂ (SStep ρ ν b) (renameSteps E rn i l) (renameSteps E rn' i l')
  | _, _, _, .nil => .nil
  | s :: l, s' :: l', i, .cons h hs => by
    refine .cons ⟨?_, h.envs, fun hb => ?_⟩ (renameSteps_sim hr l l' (i + 1) hs)
    · have := h.rest
      generalize renameImage E s'.docker.image (E.iter i rn') = x
      rw [this]
    · have h1 := hr.2 hb
      have h2 : rn' = [] := by
        have := hr.1
        rw [h1] at this
        simpa [GoMap.keys] using this
      subst h1 h2
      rw [(E.iter_perm i []).eq_nil]
      exact h.image hb

theorem core_sim {c : Compiler} (hc : c.Std) (p : Pipeline) (h0 : ρ "" = "") (hn : ∀ n ∈ volumeNames p, ν n = n)
    (hb : b = true ∨ ∀ s, some s ∈ p.steps → s.build = none) :
    Both (Sim ρ ν b) (compileCore E c rnd p) (compileCore E c (fun i => ρ (rnd i)) p) := by
  simp only [volumeNames, List.mem_append, List.flatMap_append] at hn
  have h1 : ν "workspace" = "workspace" := hn _ (.inl (.inl (by simp)))
  have h2 : ν "host" = "host" := hn _ (.inl (.inl (by simp)))
  have h3 : ν "_docker_socket" = "_docker_socket" := hn _ (.inl (.inl (by simp)))
  unfold compileCore
  cases isSerial p.steps with
  | none => exact .none
  | some serial =>
    simp only [Option.bind_some]
    have hi : Sim ρ ν b { n := 1, spec := initSpec p (rnd 0) } { n := 1, spec := initSpec p (ρ (rnd 0)) } :=
      ⟨rfl, rfl, rfl, rfl, rfl, rfl, rfl, .nil⟩
    refine (addVolumes_sim rnd _ p.volumes _ _ (workspace_sim rnd hc hi h0 h1 h2) fun n h => hn n (.inl (.inr h))).bind ?_
    intro t t' ht
    refine (addClone_sim E rnd hc p _ ht h1 h2).bind ?_
    intro t t' ht
    refine (addServices_sim E rnd hc p _ serial h1 h2 p.services _ _ ht fun n h => hn n (.inr (.inl h))).bind ?_
    intro t t' ht
    refine (addSteps_sim E rnd hc p _ serial h1 h2 h3 p.steps _ _ [] [] ht ⟨rfl, fun _ => rfl⟩ (fun n h => hn n (.inr (.inr h))) hb).map ?_
    rintro ⟨t, r⟩ ⟨t', r'⟩ ⟨ht, hr⟩
    have := socket_sim rnd ht (rnd 0) hr h3
    exact { this with steps := renameSteps_sim E hr _ _ 0 this.steps }

/-! ### Transforms -/

theorem each_sim {g : Step → Step} (hg : Keeps ρ ν b g) {st st' : St} (h : Sim ρ ν b st st') :
    Sim ρ ν b (eachStep g st) (eachStep g st') :=
  { h with
    steps := by
      have := h.steps
      simp only [eachStep]
      generalize st.spec.steps = l, st'.spec.steps = l' at this
      induction this with
      | nil => exact .nil
      | cons h _ ih => exact .cons (hg _ _ h) ih }

theorem SStep.name {s s' : Step} (h : SStep ρ ν b s s') : s'.md.name = s.md.name := by rw [h.rest]; rfl

theorem keeps_disable : Keeps ρ ν b disable := keeps_never

theorem resume_sim (name : String) : ∀ (l l' : List Step), List.Forall₂ (SStep ρ ν b) l l' →
    List.Forall₂ (SStep ρ ν b) (resumeLoop name l) (resumeLoop name l')
  | _, _, .nil => .nil
  | s :: l, s' :: l', .cons h hs => by
    rw [resumeLoop, resumeLoop, h.name]
    split
    · exact .cons h hs
    · split
      · exact .cons h (resume_sim name l l' hs)
      · exact .cons (keeps_disable _ _ h) (resume_sim name l l' hs)

theorem environ_sim (e : GoMap String) {st st' : St} (h : Sim ρ ν b st st') :
    Both (Sim ρ ν b) (withEnviron e st) (withEnviron e st') := by
  rw [withEnviron_eq, withEnviron_eq]
  exact .some (each_sim (keeps_env e) h)

theorem addLabels_sim (l : GoMap String) (m : Engine.Metadata) (u n x : String) :
    addLabels l { m with uid := u, namespc := n, name := x } =
      (addLabels l m).map fun m => { m with uid := u, namespc := n, name := x } := by
  unfold addLabels
  obtain ⟨mu, mn, mx, ml⟩ := m
  cases l <;> cases ml <;> rfl

theorem addLabels_fields {l : GoMap String} {m m' : Engine.Metadata} (h : addLabels l m = some m') :
    m'.uid = m.uid ∧ m'.namespc = m.namespc ∧ m'.name = m.name := by
  unfold addLabels at h
  obtain ⟨mu, mn, mx, ml⟩ := m
  cases l <;> cases ml <;> simp at h <;> subst h <;> exact ⟨rfl, rfl, rfl⟩

theorem labelVolumes_sim (ord : Nat → GoMap String) : ∀ (l : List Engine.Volume) (i : Nat),
    labelVolumes ord i (l.map fun v => { v with md := { renamedMd ρ v.md with name := ν v.md.name } }) =
      (labelVolumes ord i l).map (List.map fun v => { v with md := { renamedMd ρ v.md with name := ν v.md.name } })
  | [], _ => rfl
  | v :: l, i => by
    rw [List.map_cons, labelVolumes, labelVolumes, labelVolumes_sim ord l]
    have := addLabels_sim (ord i) v.md (ρ v.md.uid) (ρ v.md.namespc) (ν v.md.name)
    simp only [renamedMd] at this ⊢
    rw [this]
    cases h : addLabels (ord i) v.md with
    | none => rfl
    | some m =>
      obtain ⟨h1, h2, h3⟩ := addLabels_fields h
      cases labelVolumes ord (i + 1) l with
      | none => rfl
      | some vs => simp [h1, h2, h3]

theorem labelSteps_sim (ord : Nat → GoMap String) : ∀ (l l' : List Step) (i : Nat), List.Forall₂ (SStep ρ ν b) l l' →
    Both (List.Forall₂ (SStep ρ ν b)) (labelSteps ord i l) (labelSteps ord i l')
  | _, _, _, .nil => .some .nil
  | s :: l, s' :: l', i, .cons h hs => by
    rw [labelSteps, labelSteps]
    have hm : s'.md = renamedMd ρ s.md := by rw [h.rest]
    have := addLabels_sim (ord i) s.md (ρ s.md.uid) (ρ s.md.namespc) s.md.name
    rw [hm]
    simp only [renamedMd] at this ⊢
    rw [this]
    cases ha : addLabels (ord i) s.md with
    | none => exact .none
    | some m =>
      obtain ⟨h1, h2, h3⟩ := addLabels_fields ha
      refine (labelSteps_sim ord l l' (i + 1) hs).map fun ss ss' hss => .cons ⟨?_, h.envs, h.image⟩ hss
      rw [h.rest]
      simp only [renamedMd, h1, h2, h3]

theorem labels_sim (ord : Nat → GoMap String) {st st' : St} (h : Sim ρ ν b st st') :
    Both (Sim ρ ν b) (withLables ord st) (withLables ord st') := by
  unfold withLables
  have := addLabels_sim (ord 0) st.spec.md (ρ st.spec.md.uid) (ρ st.spec.md.namespc) (ρ st.spec.md.name)
  have hm := h.md
  simp only [renamedMd] at this hm
  rw [hm, this]
  cases ha : addLabels (ord 0) st.spec.md with
  | none => exact .none
  | some m =>
    obtain ⟨h1, h2, h3⟩ := addLabels_fields ha
    simp only [Option.map_some, Option.bind_some]
    rw [h.volumes, labelVolumes_sim, List.length_map]
    cases labelVolumes ord 1 st.spec.volumes with
    | none => exact .none
    | some vs =>
      simp only [Option.map_some, Option.bind_some]
      refine (labelSteps_sim ord _ _ _ h.steps).map fun ss ss' hss => ?_
      exact { h with
        md := by simp only [renamedMd, h1, h2, h3]
        volumes := rfl
        steps := hss }

theorem addSecret_sim (s : Engine.Secret) {st st' : St} (h : Sim ρ ν b st st') :
    Sim ρ ν b (addSecret rnd s st) (addSecret (fun i => ρ (rnd i)) s st') :=
  { h with
    n := by simp only [addSecret, h.n]
    secrets := by simp only [addSecret, h.secrets, List.map_append, List.map_cons, List.map_nil, renamedMd, h.n, h.ns] }

theorem secrets_sim : ∀ (m : GoMap String) (st st' : St), Sim ρ ν b st st' →
    Both (Sim ρ ν b) (withSecrets rnd m st) (withSecrets (fun i => ρ (rnd i)) m st')
  | [], _, _, h => .some h
  | kv :: m, _, _, h => secrets_sim m _ _ (addSecret_sim rnd { md := { name := kv.1 }, data := kv.2 } h)

theorem askSecrets_sim (f : List String → String → Option Engine.Secret) : ∀ (names asked : List String) (st st' : St),
    Sim ρ ν b st st' → Sim ρ ν b (askSecrets rnd f names asked st).2 (askSecrets (fun i => ρ (rnd i)) f names asked st').2
  | [], _, _, _, h => h
  | name :: names, asked, st, st', h => by
    rw [askSecrets, askSecrets]
    refine askSecrets_sim f names _ _ _ ?_
    cases f asked name with
    | none => exact h
    | some s => exact addSecret_sim rnd s h

theorem secretSet_sim {l l' : List Step} (h : List.Forall₂ (SStep ρ ν b) l l') : secretSet l' = secretSet l := by
  unfold secretSet
  generalize ([] : List String) = acc
  induction h generalizing acc with
  | nil => rfl
  | cons h _ ih =>
    rw [List.foldl_cons, List.foldl_cons, ih]
    congr 1
    rw [h.rest]

theorem volumes_sim (hv : ∀ i, ν (rnd i) = ρ (rnd i)) : ∀ (m : GoMap String) (st st' : St), Sim ρ ν b st st' →
    Both (Sim ρ ν b) (withVolumes rnd m st) (withVolumes (fun i => ρ (rnd i)) m st')
  | [], _, _, h => .some h
  | kv :: m, st, st', h => by
    refine volumes_sim hv m _ _ ?_
    unfold addGlobalVolume
    have hname : st'.spec.md.name = ρ st.spec.md.name := by rw [h.md]
    have h1 : Sim ρ ν b
        { n := st.n + 2, spec := { st.spec with volumes := st.spec.volumes ++ [{
          md := { uid := rnd st.n, name := rnd (st.n + 1), namespc := st.spec.md.name, labels := some [] }
          hostPath := some kv.1 }] } }
        { n := st'.n + 2, spec := { st'.spec with volumes := st'.spec.volumes ++ [{
          md := { uid := ρ (rnd st'.n), name := ρ (rnd (st'.n + 1)), namespc := st'.spec.md.name, labels := some [] }
          hostPath := some kv.1 }] } } :=
      { h with
        n := by simp only [h.n]
        volumes := by simp only [h.volumes, List.map_append, List.map_cons, List.map_nil, renamedMd, h.n, hname, hv] }
    have h2 : List.Forall₂ (SStep ρ ν b) (st.spec.steps.map fun s => { s with volumes := s.volumes ++ [⟨rnd (st.n + 1), kv.2⟩] })
        (st'.spec.steps.map fun s => { s with volumes := s.volumes ++ [⟨ρ (rnd (st'.n + 1)), kv.2⟩] }) := by
      have := h.steps
      rw [h.n]
      generalize st.spec.steps = l, st'.spec.steps = l' at this
      induction this with
      | nil => exact .nil
      | cons h _ ih =>
        refine .cons ⟨?_, h.envs, h.image⟩ ih
        rw [h.rest]
        simp [hv]
    exact { h1 with steps := h2 }

end Renamed
open Renamed

/-- A transform of the library that draws its identifiers from one source, and the same one drawing from
another, whose identifiers are those of the first exchanged.  `WithVolumes` makes the names of its volumes from
identifiers too. -/
inductive Spec.OtherIds (rnd : Nat → String) (ρ ν : String → String) : Transform → Transform → Prop
  | includeOnly (names) : OtherIds rnd ρ ν (includeOnly names) (includeOnly names)
  | excludeAll (names) : OtherIds rnd ρ ν (excludeAll names) (excludeAll names)
  | resumeAt (name) : OtherIds rnd ρ ν (resumeAt name) (resumeAt name)
  | environ (e) : OtherIds rnd ρ ν (withEnviron e) (withEnviron e)
  | netrc (m u p) : OtherIds rnd ρ ν (withNetrc m u p) (withNetrc m u p)
  | proxy (os iter) : OtherIds rnd ρ ν (withProxy os iter) (withProxy os iter)
  | lables (ord) : OtherIds rnd ρ ν (withLables ord) (withLables ord)
  | limits (mem cpu) : OtherIds rnd ρ ν (withLimits mem cpu) (withLimits mem cpu)
  | networks (ns) : OtherIds rnd ρ ν (withNetworks ns) (withNetworks ns)
  | auths (as) : OtherIds rnd ρ ν (withAuths as) (withAuths as)
  | authsFunc (as) : OtherIds rnd ρ ν (withAuthsFunc as) (withAuthsFunc as)
  | secrets (m) : OtherIds rnd ρ ν (withSecrets rnd m) (withSecrets (fun i => ρ (rnd i)) m)
  | secretFunc (iter f) : OtherIds rnd ρ ν (fun st => some (withSecretFunc rnd iter f st).2)
      (fun st => some (withSecretFunc (fun i => ρ (rnd i)) iter f st).2)
  | volumes (m) : (∀ i, ν (rnd i) = ρ (rnd i)) →
      OtherIds rnd ρ ν (withVolumes rnd m) (withVolumes (fun i => ρ (rnd i)) m)
  | volumeSlice (iter l) : (∀ i, ν (rnd i) = ρ (rnd i)) →
      OtherIds rnd ρ ν (withVolumeSlice rnd iter l) (withVolumeSlice (fun i => ρ (rnd i)) iter l)
  | nothing (m) : m = [] → OtherIds rnd ρ ν (withVolumes rnd m) (withVolumes (fun i => ρ (rnd i)) m)

namespace Renamed

variable {ρ ν : String → String} {b : Bool} {rnd : Nat → String}

theorem transform_sim {f f' : Transform} (hf : OtherIds rnd ρ ν f f') {st st' : St} (h : Sim ρ ν b st st') :
    Both (Sim ρ ν b) (f st) (f' st') := by
  cases hf with
  | includeOnly names =>
    unfold includeOnly
    split
    · exact .some h
    · refine .some (each_sim ?_ h)
      intro s s' h
      dsimp only
      rw [h.name]
      split
      · exact h
      · split
        · exact h
        · exact keeps_disable _ _ h
  | excludeAll names =>
    unfold excludeAll
    split
    · exact .some h
    · refine .some (each_sim ?_ h)
      intro s s' h
      dsimp only
      rw [h.name]
      split
      · exact h
      · split
        · exact keeps_disable _ _ h
        · exact h
  | resumeAt name =>
    unfold resumeAt
    split
    · exact .some h
    · exact .some { h with steps := resume_sim name _ _ h.steps }
  | environ e => exact environ_sim e h
  | netrc m u p =>
    unfold withNetrc
    split
    · exact .some h
    · exact .some (each_sim (keeps_env [("CI_NETRC_MACHINE", m), ("CI_NETRC_USERNAME", u), ("CI_NETRC_PASSWORD", p),
        ("DRONE_NETRC_MACHINE", m), ("DRONE_NETRC_USERNAME", u), ("DRONE_NETRC_PASSWORD", p)]) h)
  | proxy os iter => exact environ_sim _ h
  | lables ord => exact labels_sim ord h
  | limits mem cpu =>
    unfold withLimits
    split
    · exact .some h
    · refine .some (each_sim ?_ h)
      intro s s' h
      refine ⟨?_, h.envs, h.image⟩
      rw [h.rest]
  | networks ns =>
    refine .some (each_sim ?_ h)
    intro s s' h
    refine ⟨?_, h.envs, h.image⟩
    rw [h.rest]
  | auths as => exact .some { h with auths := by simp only [h.auths] }
  | authsFunc as =>
    unfold withAuthsFunc
    split
    · exact .some { h with auths := by simp only [h.auths] }
    · exact .some h
  | secrets m => exact secrets_sim rnd m _ _ h
  | secretFunc iter f =>
    refine .some ?_
    unfold withSecretFunc
    rw [secretSet_sim h.steps]
    exact askSecrets_sim rnd f _ _ _ _ h
  | volumes m hv => exact volumes_sim rnd hv m _ _ h
  | volumeSlice iter l hv => exact volumes_sim rnd hv _ _ _ h
  | nothing m hm => subst hm; exact .some h

theorem combine_sim {fs fs' : List Transform} (hf : List.Forall₂ (OtherIds rnd ρ ν) fs fs') : ∀ {x x' : Option St},
    Both (Sim ρ ν b) x x' → Both (Sim ρ ν b) (fs.foldl (fun (r : Option St) fn => r.bind fn) x)
      (fs'.foldl (fun (r : Option St) fn => r.bind fn) x') := by
  induction hf with
  | nil => exact fun h => h
  | cons h _ ih => exact fun hx => ih (hx.bind fun _ _ hs => transform_sim h hs)

theorem produced_sim (E : Ext) {c : Compiler} (hc : c.Std) (p : Pipeline) (h0 : ρ "" = "") (hn : ∀ n ∈ volumeNames p, ν n = n)
    (hb : b = true ∨ ∀ s, some s ∈ p.steps → s.build = none) {fs fs' : List Transform}
    (hf : List.Forall₂ (OtherIds rnd ρ ν) fs fs') :
    (produced E c (fun i => ρ (rnd i)) p fs').map (renamed id id b) = (produced E c rnd p fs).map (renamed ρ ν b) := by
  unfold produced
  have : Both (Sim ρ ν b) ((compileCore E c rnd p).bind (combine fs))
      ((compileCore E c (fun i => ρ (rnd i)) p).bind (combine fs')) :=
    (core_sim E rnd hc p h0 hn hb).bind fun _ _ hs => combine_sim hf (.some hs)
  generalize (compileCore E c rnd p).bind (combine fs) = x,
    (compileCore E c (fun i => ρ (rnd i)) p).bind (combine fs') = x' at this
  cases this with
  | none => rfl
  | some h => exact congrArg some h.eq.2

end Renamed

/-- **C136.** The identifiers are only names.  Take a pipeline without build steps, and exchange the identifiers
of the random source for others: compiling, and then applying the transforms of the library in any number and
order, gives the same specification with the identifiers exchanged, and panics in the same cases. -/
theorem C136_renamed (E : Ext) (c : Compiler) (hc : c.Std) (rnd : Nat → String) (ρ ν : String → String) (p : Pipeline)
    (h0 : ρ "" = "") (hn : ∀ n ∈ volumeNames p, ν n = n) (hb : ∀ s, some s ∈ p.steps → s.build = none)
    (fs fs' : List Transform) (hf : List.Forall₂ (OtherIds rnd ρ ν) fs fs') :
    produced E c (fun i => ρ (rnd i)) p fs' = (produced E c rnd p fs).map (renamed ρ ν false) := by
  have := produced_sim (b := false) E hc p h0 hn (.inr hb) hf
  rw [← this]
  have e1 : renamedStep id id false = id := by
    funext s
    simp [renamedMd, renamedStep]
  have e : renamed id id false = id := by
    funext s
    simp [renamed, renamedMd, e1]
  rw [e, Option.map_id_fun, id]

/-- **C136.** With build steps: the same, up to the image each step is run from and the alias under which an image is
built. -/
theorem C136_build (E : Ext) (c : Compiler) (hc : c.Std) (rnd : Nat → String) (ρ ν : String → String) (p : Pipeline)
    (h0 : ρ "" = "") (hn : ∀ n ∈ volumeNames p, ν n = n)
    (fs fs' : List Transform) (hf : List.Forall₂ (OtherIds rnd ρ ν) fs fs') :
    (produced E c (fun i => ρ (rnd i)) p fs').map (renamed id id true) = (produced E c rnd p fs).map (renamed ρ ν true) :=
  produced_sim (b := true) E hc p h0 hn (.inl rfl) hf

/-- **C136.** Two runs of the compiler on one pipeline without build steps differ in nothing but the identifiers:
with these blanked, what they give is the same, whatever the two random sources. -/
theorem C136_blank (E : Ext) (c : Compiler) (hc : c.Std) (ht : c.transform = none) (rnd rnd' : Nat → String) (p : Pipeline)
    (hb : ∀ s, some s ∈ p.steps → s.build = none) :
    (compile E c rnd' p).map (renamed (fun _ => "") id false) = (compile E c rnd p).map (renamed (fun _ => "") id false) := by
  have key : ∀ r, (compile E c r p).map (renamed (fun _ => "") id false) = compile E c (fun _ => "") p := by
    intro r
    have := C136_renamed E c hc r (fun _ => "") id p rfl (fun _ _ => rfl) hb [] [] .nil
    have e : (combine [] : Transform) = some := rfl
    simp only [produced, e, Option.bind_fun_some] at this
    simp only [compile, ht]
    exact this.symm
  rw [key, key]

/-- **C136.** Let a random source never give the same identifier twice, nor the empty one, nor the name of a volume of
the pipeline.  Then whatever another source gives, there is one exchange of identifiers that turns every result obtained with
the first into the one obtained with the second; it leaves alone all that is not an identifier of the first. -/
theorem C136_alpha (E : Ext) (c : Compiler) (hc : c.Std) (rnd rnd' : Nat → String) (p : Pipeline)
    (hi : ∀ i j, rnd i = rnd j → i = j) (h0 : ∀ i, rnd i ≠ "") (hn : ∀ i, rnd i ∉ volumeNames p)
    (hb : ∀ s, some s ∈ p.steps → s.build = none) :
    ∃ ρ : String → String, (∀ i, ρ (rnd i) = rnd' i) ∧ (∀ x, (∀ i, rnd i ≠ x) → ρ x = x) ∧
      (∀ fs fs', List.Forall₂ (OtherIds rnd ρ ρ) fs fs' →
        produced E c rnd' p fs' = (produced E c rnd p fs).map (renamed ρ ρ false)) := by
  classical
  refine ⟨fun x => if h : ∃ i, rnd i = x then rnd' h.choose else x, fun i => ?_, fun x hx => ?_, fun fs fs' hf => ?_⟩
  · have h : ∃ j, rnd j = rnd i := ⟨i, rfl⟩
    show (if h : ∃ j, rnd j = rnd i then rnd' h.choose else rnd i) = rnd' i
    rw [dif_pos h, hi _ _ h.choose_spec]
  · exact dif_neg fun ⟨i, h⟩ => hx i h
  · have hr : (fun i => (fun x => if h : ∃ i, rnd i = x then rnd' h.choose else x) (rnd i)) = rnd' := by
      funext i
      have h : ∃ j, rnd j = rnd i := ⟨i, rfl⟩
      show (if h : ∃ j, rnd j = rnd i then rnd' h.choose else rnd i) = rnd' i
      rw [dif_pos h, hi _ _ h.choose_spec]
    have := C136_renamed E c hc rnd (fun x => if h : ∃ i, rnd i = x then rnd' h.choose else x)
      (fun x => if h : ∃ i, rnd i = x then rnd' h.choose else x) p
      (dif_neg fun ⟨i, h⟩ => h0 i h) (fun n h => dif_neg fun ⟨i, e⟩ => hn i (e ▸ h)) hb fs fs' hf
    rwa [hr] at this

/-- **C136.** The compile command: with other identifiers it compiles a pipeline without build steps to the same
specification with the identifiers exchanged, the generated names of the volumes of the command line among them. -/
theorem C136_command (X : Cli.CliLib) (fl : Cli.CompileFlags) (ρ : String → String) (p : Pipeline)
    (h0 : ρ "" = "") (hn : ∀ n ∈ volumeNames p, ρ n = n) (hb : ∀ s, some s ∈ p.steps → s.build = none) :
    Cli.compileWith { X with rnd := fun i => ρ (X.rnd i) } fl p = (Cli.compileWith X fl p).map (renamed ρ ρ false) := by
  have e : ∀ Y : Cli.CliLib, Cli.compileWith Y fl p = produced Y.ext (Cli.compilerFor Y fl) Y.rnd p (Cli.transforms Y fl) := by
    intro Y
    unfold Cli.compileWith produced
    rw [Option.map_bind]
    rfl
  rw [e, e]
  exact C136_renamed X.ext (Cli.compilerFor X fl) (compilerFor_std X fl) X.rnd ρ ρ p h0 hn hb
    (Cli.transforms X fl) (Cli.transforms { X with rnd := fun i => ρ (X.rnd i) } fl)
    (.cons (.auths _) (.cons (.environ _) (.cons (.environ _) (.cons (.lables _) (.cons (.limits _ _) (.cons (.netrc _ _ _)
      (.cons (.networks _) (.cons (.proxy _ _) (.cons (.secrets _) (.cons (.volumes _ fun _ => rfl) .nil))))))))))

/-! ### Examples -/

/-- Another source of identifiers. -/
def rdSource (n : Nat) : String := "x" ++ exRnd n

/-- Transforms that draw identifiers. -/
def rdTransforms (r : Nat → String) : List Transform :=
  [withSecrets r [("token", "t")], withVolumes r [("/tmp", "/tmp")], withLables fun _ => [("a", "b")]]

/-- The exchange that turns the first source into the second. -/
def rdExchange (x : String) : String := if x.toList.head? = some 'u' then "x" ++ x else x

/-- A pipeline without build steps. -/
def rdPipeline : Pipeline :=
  { kind := "pipeline", type := "docker", name := "default"
    volumes := [some { name := "cache", emptyDir := some {} }]
    services := [some { name := "redis", image := "redis" }]
    steps := [some { name := "test", image := "golang"
                     volumes := [some { name := "cache", mountPath := "/go" }] }] }

example : List.Forall₂ (OtherIds exRnd rdExchange rdExchange) (rdTransforms exRnd) (rdTransforms fun i => rdExchange (exRnd i)) :=
  .cons (.secrets _) (.cons (.volumes _ fun _ => rfl) (.cons (.lables _) .nil))

example : rdExchange "" = "" ∧ (∀ n ∈ volumeNames rdPipeline, rdExchange n = n) ∧
    ∀ s, some s ∈ rdPipeline.steps → s.build = none := by
  refine ⟨by decide, by decide, fun s h => ?_⟩
  simp only [rdPipeline, List.mem_singleton, Option.some.injEq] at h
  subst h
  rfl

/-- The two results differ, and the exchange turns one into the other. -/
example : produced exExt {} rdSource rdPipeline (rdTransforms rdSource) ≠ produced exExt {} exRnd rdPipeline (rdTransforms exRnd) ∧
    produced exExt {} rdSource rdPipeline (rdTransforms rdSource) =
      (produced exExt {} exRnd rdPipeline (rdTransforms exRnd)).map (renamed rdExchange rdExchange false) ∧
    (produced exExt {} exRnd rdPipeline (rdTransforms exRnd)).isSome = true := by
  refine ⟨?_, ?_, ?_⟩ <;> decide +kernel

/-- With a build step the identifiers reach an image as well, so that exchanging the metadata is not enough. -/
example : (produced exExt {} rdSource exCompiled []).map (fun s => s.steps.map (·.docker.image)) ≠
    ((produced exExt {} exRnd exCompiled []).map (renamed rdExchange rdExchange false)).map
      (fun s => s.steps.map (·.docker.image)) := by
  decide +kernel

end Drone
