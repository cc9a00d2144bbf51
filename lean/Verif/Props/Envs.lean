/-
C30 and C34: environment variables, settings and secret references of compiled steps.
-/
import Verif.Props.Volumes

namespace Drone
open Engine (Step File SecretVar)
open Spec (Role sources IsBuild)

namespace Spec

/-- Environment entries with a plain value. -/
def plainEnv (m : GoMap (Option Variable)) : GoMap String :=
  m.filterMap fun kv => kv.2.bind fun v => if v.secret = "" then some (kv.1, v.value) else none

/-- Environment entries taken from a secret. -/
def secretEnv (m : GoMap (Option Variable)) : List SecretVar :=
  m.filterMap fun kv => kv.2.bind fun v => if v.secret = "" then none else some ⟨v.secret, kv.1⟩

/-- Settings with a plain value, under their variable name. -/
def plainSettings (E : Ext) (m : GoMap (Option Parameter)) : GoMap String :=
  m.filterMap fun kv => kv.2.bind fun v =>
    if v.secret = "" then some ("PLUGIN_" ++ E.upper kv.1, encodeValue E v.value) else none

/-- Settings taken from a secret, under their variable name. -/
def secretSettings (E : Ext) (m : GoMap (Option Parameter)) : List SecretVar :=
  m.filterMap fun kv => kv.2.bind fun v =>
    if v.secret = "" then none else some ⟨v.secret, "PLUGIN_" ++ E.upper kv.1⟩

end Spec

open Spec (plainEnv secretEnv plainSettings secretSettings)

/-- Writes all entries of a list, in order. -/
def setAll (l : GoMap String) (m : GoMap String) : GoMap String := l.foldl (fun m kv => m.set kv.1 kv.2) m

theorem foldl_addEnviron (l : GoMap (Option Variable)) : ∀ acc : EnvAcc,
    l.foldl addEnviron acc = (setAll (plainEnv l) acc.1, acc.2 ++ secretEnv l) := by
  induction l with
  | nil => intro acc; simp [setAll, plainEnv, secretEnv]
  | cons kv l ih =>
    intro acc
    rw [List.foldl_cons, ih]
    obtain ⟨k, v⟩ := kv
    cases v with
    | none => simp [addEnviron, plainEnv, secretEnv]
    | some v =>
      by_cases h : v.secret = ""
      · simp [addEnviron, plainEnv, secretEnv, h, setAll]
      · simp [addEnviron, plainEnv, secretEnv, h]

theorem foldl_addSetting (E : Ext) (l : GoMap (Option Parameter)) : ∀ acc : EnvAcc,
    l.foldl (addSetting E) acc = (setAll (plainSettings E l) acc.1, acc.2 ++ secretSettings E l) := by
  induction l with
  | nil => intro acc; simp [setAll, plainSettings, secretSettings]
  | cons kv l ih =>
    intro acc
    rw [List.foldl_cons, ih]
    obtain ⟨k, v⟩ := kv
    cases v with
    | none => simp [addSetting, plainSettings, secretSettings]
    | some v =>
      by_cases h : v.secret = ""
      · simp [addSetting, plainSettings, secretSettings, h, setAll]
      · simp [addSetting, plainSettings, secretSettings, h]

theorem stepEnvs_eq (E : Ext) (c : Container) :
    stepEnvs E c = (setAll (plainSettings E c.settings) (setAll (plainEnv c.environment) []),
      secretEnv c.environment ++ secretSettings E c.settings) := by
  unfold stepEnvs
  rw [foldl_addEnviron, foldl_addSetting]
  simp

theorem setAll_get_mem {l m : GoMap String} {k v : String} (h : (setAll l m).get? k = some v) :
    (k, v) ∈ l ∨ m.get? k = some v := by
  induction l generalizing m with
  | nil => exact .inr h
  | cons kv l ih =>
    simp only [setAll, List.foldl_cons] at h
    rcases ih h with h | h
    · exact .inl (by simp [h])
    · rw [GoMap.get?_set] at h
      split at h
      · rename_i hk
        simp only [Option.some.injEq] at h
        left
        rw [hk, ← h]
        simp
      · exact .inr h

theorem setAll_get {l : GoMap String} (hn : (l.map Prod.fst).Nodup) (m : GoMap String) (k : String) :
    (setAll l m).get? k = (l.get? k).or (m.get? k) := by
  induction l generalizing m with
  | nil => simp [setAll]
  | cons kv l ih =>
    obtain ⟨a, b⟩ := kv
    simp only [List.map_cons, List.nodup_cons] at hn
    have : setAll ((a, b) :: l) m = setAll l (m.set a b) := rfl
    rw [this, ih hn.2, GoMap.get?_cons, GoMap.get?_set]
    by_cases hk : k = a
    · subst hk
      have : GoMap.get? l k = none := GoMap.get?_eq_none.mpr hn.1
      simp [this]
    · simp [hk]

/-- Entries of the same name have the same value. -/
def Spec.Functional (l : GoMap String) : Prop := ∀ x ∈ l, ∀ y ∈ l, x.1 = y.1 → x.2 = y.2

theorem setAll_get_fn {l : GoMap String} (hf : Spec.Functional l) (m : GoMap String) (k : String) :
    (setAll l m).get? k = (l.get? k).or (m.get? k) := by
  induction l generalizing m with
  | nil => simp [setAll]
  | cons kv l ih =>
    obtain ⟨a, b⟩ := kv
    have : setAll ((a, b) :: l) m = setAll l (m.set a b) := rfl
    rw [this, ih (fun x hx y hy => hf x (by simp [hx]) y (by simp [hy])), GoMap.get?_cons, GoMap.get?_set]
    by_cases hk : k = a
    · subst hk
      simp only [if_true, Option.some_or]
      cases e : GoMap.get? l k with
      | none => rfl
      | some v =>
        have := hf (k, v) (by simp [GoMap.mem_of_get? e]) (k, b) (by simp) rfl
        simp only at this
        rw [this]; rfl
    · simp [hk]

theorem Spec.Functional.perm {l l' : GoMap String} (h : Spec.Functional l) (hp : l.Perm l') : Spec.Functional l' :=
  fun x hx y hy => h x (hp.mem_iff.2 hx) y (hp.mem_iff.2 hy)

theorem Spec.Functional.get {l l' : GoMap String} (h : Spec.Functional l) (hp : l.Perm l') (k : String) :
    GoMap.get? l k = GoMap.get? l' k := by
  cases e : GoMap.get? l k with
  | none =>
    rw [GoMap.get?_eq_none] at e
    symm
    rw [GoMap.get?_eq_none]
    intro hm
    exact e ((hp.map Prod.fst).mem_iff.mpr hm)
  | some v =>
    have hm := hp.mem_iff.1 (GoMap.mem_of_get? e)
    cases e' : GoMap.get? l' k with
    | none =>
      rw [GoMap.get?_eq_none] at e'
      exact absurd (List.mem_map.2 ⟨_, hm, rfl⟩) e'
    | some v' =>
      have := h.perm hp (k, v) hm (k, v') (GoMap.mem_of_get? e') rfl
      simp only at this
      rw [this]

/-! ### C30 -/

/-- C30 (secrets): the secret references of a compiled container are exactly the
environment variables and settings of its source that come from a secret, with the name
of the variable resp. `PLUGIN_` and the upper case setting.  Build steps have none. -/
theorem C30_secret_references {E : Ext} {c : Compiler} (hc : c.Std) (ht : c.transform = none)
    {rnd : Nat → String} {p : Pipeline} {sp : Engine.Spec} (h : compile E c rnd p = some sp) :
    List.Forall₂ (fun y s => s.secrets = if IsBuild y then []
      else secretEnv y.2.environment ++ secretSettings E y.2.settings) (sources p) sp.steps := by
  refine compile_forall hc ht h ?_
  intro rename y s hmem ⟨k, raw, i, hr, hs⟩
  subst hs
  show raw.secrets = _
  by_cases hb : IsBuild y
  · rw [if_pos hb]
    obtain ⟨role, src⟩ := y
    obtain ⟨h1, h2⟩ := hb
    obtain rfl : role = Role.step := h1
    cases hbb : src.build with
    | none => simp [hbb] at h2
    | some b => exact (rawStep_build hc hbb hr).secrets
  · rw [if_neg hb, (rawStep_plain hc hb hr).secrets, stepEnvs_eq]
    rfl

/-- The same by membership: a reference belongs to the step iff some variable or setting
of the source asks for it. -/
theorem C30_secret_iff {E : Ext} {c : Compiler} (hc : c.Std) (ht : c.transform = none)
    {rnd : Nat → String} {p : Pipeline} {sp : Engine.Spec} (h : compile E c rnd p = some sp) :
    List.Forall₂ (fun y s => ¬ IsBuild y → ∀ name env, (⟨name, env⟩ : SecretVar) ∈ s.secrets ↔ name ≠ "" ∧
      ((∃ v, (env, some v) ∈ y.2.environment ∧ v.secret = name) ∨
       (∃ k v, (k, some v) ∈ y.2.settings ∧ v.secret = name ∧ env = "PLUGIN_" ++ E.upper k)))
      (sources p) sp.steps := by
  refine (C30_secret_references hc ht h).imp ?_
  intro y s hs hb name env
  rw [hs, if_neg hb, List.mem_append]
  have h1 : (⟨name, env⟩ : SecretVar) ∈ secretEnv y.2.environment ↔
      name ≠ "" ∧ ∃ v, (env, some v) ∈ y.2.environment ∧ v.secret = name := by
    unfold secretEnv
    rw [List.mem_filterMap]
    constructor
    · rintro ⟨⟨k, v⟩, hm, he⟩
      rw [Option.bind_eq_some_iff] at he
      obtain ⟨w, hw, he⟩ := he
      split at he
      · simp at he
      · rename_i hn
        simp only [Option.some.injEq, SecretVar.mk.injEq] at he
        obtain ⟨e1, e2⟩ := he
        simp only at hw e2
        subst hw e1 e2
        exact ⟨hn, w, hm, rfl⟩
    · rintro ⟨hn, v, hm, rfl⟩
      exact ⟨_, hm, by simp [hn]⟩
  have h2 : (⟨name, env⟩ : SecretVar) ∈ secretSettings E y.2.settings ↔
      name ≠ "" ∧ ∃ k v, (k, some v) ∈ y.2.settings ∧ v.secret = name ∧ env = "PLUGIN_" ++ E.upper k := by
    unfold secretSettings
    rw [List.mem_filterMap]
    constructor
    · rintro ⟨⟨k, v⟩, hm, he⟩
      rw [Option.bind_eq_some_iff] at he
      obtain ⟨w, hw, he⟩ := he
      split at he
      · simp at he
      · rename_i hn
        simp only [Option.some.injEq, SecretVar.mk.injEq] at he
        obtain ⟨e1, e2⟩ := he
        simp only at hw e2
        subst hw e1 e2
        exact ⟨hn, k, w, hm, rfl, rfl⟩
    · rintro ⟨hn, k, v, hm, rfl, rfl⟩
      exact ⟨_, hm, by simp [hn]⟩
  rw [h1, h2, and_or_left]

/-- The workspace variables. -/
def Spec.workspaceVars : List String := ["DRONE_WORKSPACE_BASE", "DRONE_WORKSPACE_PATH", "DRONE_WORKSPACE",
  "CI_WORKSPACE_BASE", "CI_WORKSPACE_PATH", "CI_WORKSPACE"]

/-- Where a plain variable of a compiled step may come from. -/
inductive Spec.Origin (E : Ext) (p : Pipeline) (y : Role × Container) : String → String → Prop where
  /-- the workspace -/
  | workspace {k v} : k ∈ Spec.workspaceVars → Spec.Origin E p y k v
  /-- a plain environment variable of the source -/
  | env {k : String} {v : Variable} : ¬ IsBuild y → (k, some v) ∈ y.2.environment → v.secret = "" →
      Spec.Origin E p y k v.value
  /-- a plain setting of the source -/
  | setting {k : String} {v : Parameter} : ¬ IsBuild y → (k, some v) ∈ y.2.settings → v.secret = "" →
      Spec.Origin E p y ("PLUGIN_" ++ E.upper k) (encodeValue E v.value)
  /-- the clone settings, in the clone step only -/
  | depth : y.1 = .clone → p.clone.depth > 0 → Spec.Origin E p y "PLUGIN_DEPTH" (toString p.clone.depth)
  | noVerify {k} : y.1 = .clone → p.clone.skipVerify = true → k ∈ ["GIT_SSL_NO_VERIFY", "PLUGIN_SKIP_VERIFY"] →
      Spec.Origin E p y k "true"
  /-- the build section, in build steps only -/
  | build {k v} : IsBuild y → k ∈ ["DOCKER_BUILD_CACHE_FROM", "DOCKER_BUILD_DOCKERFILE",
      "DOCKER_BUILD_CONTEXT", "DOCKER_BUILD_IMAGE", "DOCKER_BUILD_IMAGE_ALIAS"] → Spec.Origin E p y k v
  /-- the Windows script -/
  | script {k v} : ¬ IsBuild y → p.platform.os = "windows" → y.2.commands ≠ [] →
      k ∈ ["CI_SCRIPT", "SHELL"] → Spec.Origin E p y k v

theorem buildEnvs_keys {E : Ext} {uid : String} {b : Build} {k v : String}
    (h : (buildEnvs E uid b).get? k = some v) :
    k ∈ ["DOCKER_BUILD_CACHE_FROM", "DOCKER_BUILD_DOCKERFILE", "DOCKER_BUILD_CONTEXT",
      "DOCKER_BUILD_IMAGE", "DOCKER_BUILD_IMAGE_ALIAS"] := by
  by_cases hk : k ∈ ["DOCKER_BUILD_CACHE_FROM", "DOCKER_BUILD_DOCKERFILE", "DOCKER_BUILD_CONTEXT",
      "DOCKER_BUILD_IMAGE", "DOCKER_BUILD_IMAGE_ALIAS"]
  · exact hk
  · exfalso
    simp only [List.mem_cons, List.not_mem_nil, or_false, not_or] at hk
    obtain ⟨h1, h2, h3, h4, h5⟩ := hk
    have g1 : ∀ (P : Prop) [Decidable P] (m : GoMap String) (a w : String), k ≠ a →
        (if P then m.set a w else m).get? k = m.get? k := by
      intro P _ m a w hne
      split
      · rw [GoMap.get?_set, if_neg hne]
      · rfl
    unfold buildEnvs at h
    simp only at h
    split at h
    · rw [GoMap.get?_set, if_neg h5, GoMap.get?_set, if_neg h4, g1 _ _ _ _ h3, g1 _ _ _ _ h2,
        g1 _ _ _ _ h1] at h
      simp at h
    · rw [g1 _ _ _ _ h3, g1 _ _ _ _ h2, g1 _ _ _ _ h1] at h
      simp at h

/-- C30 (plain variables): every plain variable of a compiled step has one of the listed
origins; none of them is a variable or setting that names a secret. -/
theorem C30_provenance {E : Ext} {c : Compiler} (hc : c.Std) (ht : c.transform = none)
    {rnd : Nat → String} {p : Pipeline} {sp : Engine.Spec} (h : compile E c rnd p = some sp) :
    List.Forall₂ (fun y s => ∀ k v, s.envs.get? k = some v → Spec.Origin E p y k v)
      (sources p) sp.steps := by
  refine compile_forall hc ht h ?_
  intro rename y s hmem ⟨n, raw, i, hr, hs⟩
  subst hs
  intro k v hk
  replace hk : raw.envs.get? k = some v := hk
  by_cases hw : k ∈ Spec.workspaceVars
  · exact .workspace hw
  · have hws : ∀ e : GoMap String, (withWorkspace e (createWorkspace p)).get? k = e.get? k := by
      intro e
      simp only [Spec.workspaceVars, List.mem_cons, List.not_mem_nil, or_false, not_or] at hw
      rw [withWorkspace_get]
      simp [hw]
    by_cases hb : IsBuild y
    · obtain ⟨role, src⟩ := y
      have hb' := hb
      obtain ⟨h1, h2⟩ := hb
      obtain rfl : role = Role.step := h1
      cases hbb : src.build with
      | none => simp [hbb] at h2
      | some b =>
        rw [(rawStep_build hc hbb hr).envs] at hk
        have : (withWorkspace (buildEnvs E (rnd n) b) (createWorkspace p)).get? k = some v := hk
        rw [hws] at this
        exact .build hb' (buildEnvs_keys this)
    · rw [(rawStep_plain hc hb hr).envs] at hk
      have hk2 : (withWorkspace ((if y.1 = .clone then withClone p else id)
        (withScript E p.platform.os y.2 (stepEnvs E y.2).1)) (createWorkspace p)).get? k = some v := hk
      rw [hws] at hk2
      have hbase : ∀ v, (stepEnvs E y.2).1.get? k = some v → Spec.Origin E p y k v := by
        intro v hv
        rw [stepEnvs_eq] at hv
        rcases setAll_get_mem hv with hv | hv
        · obtain ⟨⟨k0, v0⟩, hm, he⟩ := List.mem_filterMap.mp hv
          rw [Option.bind_eq_some_iff] at he
          obtain ⟨w, hw, he⟩ := he
          split at he
          · rename_i hsec
            simp only [Option.some.injEq, Prod.mk.injEq] at he
            obtain ⟨e1, e2⟩ := he
            simp only at hw e1
            subst hw e1 e2
            exact .setting hb hm hsec
          · simp at he
        · rcases setAll_get_mem hv with hv | hv
          · obtain ⟨⟨k0, v0⟩, hm, he⟩ := List.mem_filterMap.mp hv
            rw [Option.bind_eq_some_iff] at he
            obtain ⟨w, hw, he⟩ := he
            split at he
            · rename_i hsec
              simp only [Option.some.injEq, Prod.mk.injEq] at he
              obtain ⟨e1, e2⟩ := he
              simp only at hw e1
              subst hw e1 e2
              exact .env hb hm hsec
            · simp at he
          · simp at hv
      have hscript : ∀ v, (withScript E p.platform.os y.2 (stepEnvs E y.2).1).get? k = some v →
          Spec.Origin E p y k v := by
        intro v hv
        unfold withScript at hv
        split at hv
        · rename_i hcond
          by_cases hk : k ∈ ["CI_SCRIPT", "SHELL"]
          · exact .script hb hcond.2 (by have := hcond.1; intro he; simp [he] at this) hk
          · simp only [List.mem_cons, List.not_mem_nil, or_false, not_or] at hk
            rw [GoMap.get?_set, if_neg hk.2, GoMap.get?_set, if_neg hk.1] at hv
            exact hbase v hv
        · exact hbase v hv
      by_cases hcl : y.1 = .clone
      · rw [if_pos hcl] at hk2
        unfold withClone setupCloneDepth at hk2
        simp only at hk2
        have hdep : ∀ m : GoMap String, (∀ v, m.get? k = some v → Spec.Origin E p y k v) →
            ∀ v, (if p.clone.depth > 0 then m.set "PLUGIN_DEPTH" (toString p.clone.depth) else m).get? k = some v →
            Spec.Origin E p y k v := by
          intro m hm v hv
          split at hv
          · rename_i hd
            rw [GoMap.get?_set] at hv
            split at hv
            · rename_i he
              simp only [Option.some.injEq] at hv
              subst he hv
              exact .depth hcl hd
            · exact hm v hv
          · exact hm v hv
        split at hk2
        · rename_i hsk
          rw [GoMap.get?_set] at hk2
          split at hk2
          · rename_i he
            simp only [Option.some.injEq] at hk2
            subst hk2
            exact .noVerify hcl hsk (by simp [he])
          · rw [GoMap.get?_set] at hk2
            split at hk2
            · rename_i he
              simp only [Option.some.injEq] at hk2
              subst hk2
              exact .noVerify hcl hsk (by simp [he])
            · exact hdep _ hscript v hk2
        · exact hdep _ hscript v hk2
      · rw [if_neg hcl] at hk2
        exact hscript v hk2

/-- C30: a variable taken from a secret has no plain value in the compiled step, unless
its name is one that the compiler itself sets. -/
theorem C30_secret_not_plain {E : Ext} {c : Compiler} (hc : c.Std) (ht : c.transform = none)
    {rnd : Nat → String} {p : Pipeline} {sp : Engine.Spec} (h : compile E c rnd p = some sp) :
    List.Forall₂ (fun y s => ∀ k v, ¬ IsBuild y → (y.2.environment.map Prod.fst).Nodup →
      (k, some v) ∈ y.2.environment → v.secret ≠ "" →
      k ∉ Spec.workspaceVars → k ∉ ["CI_SCRIPT", "SHELL"] →
      (∀ k' v', (k', some v') ∈ y.2.settings → v'.secret = "" → k ≠ "PLUGIN_" ++ E.upper k') →
      s.envs.get? k = none ∧ (⟨v.secret, k⟩ : SecretVar) ∈ s.secrets) (sources p) sp.steps := by
  have h1 := C30_provenance hc ht h
  have h2 := C30_secret_iff hc ht h
  rw [List.forall₂_iff_get] at h1 h2 ⊢
  refine ⟨h1.1, fun i i1 i2 k v hb hn hm hs hw hsc hset => ⟨?_, ?_⟩⟩
  · have hmem := List.get_mem (sources p) ⟨i, i1⟩
    have o := h1.2 i i1 i2 k
    generalize (sources p).get ⟨i, i1⟩ = y at *
    cases hg : (sp.steps.get ⟨i, i2⟩).envs.get? k with
    | none => rfl
    | some val =>
      exfalso
      have := o val hg
      have hcl : y.1 ≠ .clone := by
        intro hcl
        rcases mem_sources.mp hmem with ⟨_, rfl⟩ | ⟨e, _⟩ | ⟨e, _⟩
        · simp at hm
        · rw [hcl] at e; simp at e
        · rw [hcl] at e; simp at e
      cases this with
      | workspace h => exact hw h
      | env _ hm' hs' =>
        have a1 := GoMap.get?_of_mem hn hm
        have a2 := GoMap.get?_of_mem hn hm'
        rw [a1] at a2
        simp only [Option.some.injEq] at a2
        rw [a2] at hs
        exact hs hs'
      | setting _ hm' hs' => exact hset _ _ hm' hs' rfl
      | depth h => exact hcl h
      | noVerify h => exact hcl h
      | build h => exact hb h
      | script _ _ _ h => exact hsc h
  · exact (h2.2 i i1 i2 hb v.secret k).mpr ⟨hs, .inl ⟨v, hm, rfl⟩⟩

/-- A step with plain and secret variables and settings. -/
def exSecrets : Container where
  name := "a"
  image := "b"
  environment := [("A", some { value := "1" }), ("B", some { secret := "token" })]
  settings := [("key", some { secret := "pass" }), ("repo", some { value := .str "r" })]

example : (compile exExt {} exRnd { kind := "pipeline", steps := [some exSecrets] }).map
    (fun sp => sp.steps.map fun s => (s.secrets.map (fun v => [v.name, v.env]),
      ["A", "B", "PLUGIN_KEY", "PLUGIN_REPO"].map s.envs.get?)) =
    some [([], [none, none, none, none]),
      ([["token", "B"], ["pass", "PLUGIN_KEY"]], [some "1", none, none, some "r"])] := by decide +kernel

/-! ### C34 -/

/-- The same container up to the iteration order of its environment and settings. -/
def Spec.Reordered (a b : Container) : Prop :=
  ∃ e s, b = { a with environment := e, settings := s } ∧ a.environment.Perm e ∧ a.settings.Perm s

/-- Plain settings for the same variable give it the same text, and the environment is a map. -/
def Spec.NoCollision (E : Ext) (a : Container) : Prop :=
  (a.environment.map Prod.fst).Nodup ∧ Spec.Functional (plainSettings E a.settings)

/-- It is enough that no two settings have the same upper case name. -/
theorem noCollision_of_nodup {E : Ext} {a : Container} (h1 : (a.environment.map Prod.fst).Nodup)
    (h2 : (a.settings.map fun kv => "PLUGIN_" ++ E.upper kv.1).Nodup) : Spec.NoCollision E a := by
  refine ⟨h1, ?_⟩
  rintro ⟨k, x⟩ hx ⟨k', y⟩ hy e
  simp only at e
  subst e
  unfold plainSettings at hx hy
  simp only [List.mem_filterMap, Option.bind_eq_some_iff] at hx hy
  obtain ⟨⟨a1, o1⟩, m1, v1, r1, s1⟩ := hx
  obtain ⟨⟨a2, o2⟩, m2, v2, r2, s2⟩ := hy
  split at s1
  · split at s2
    · simp only [Option.some.injEq, Prod.mk.injEq] at s1 s2 r1 r2
      have := List.inj_on_of_nodup_map h2 m1 m2 (by simp only; rw [s1.1, s2.1])
      simp only [Prod.mk.injEq] at this
      obtain ⟨rfl, rfl⟩ := this
      subst r1
      simp only [Option.some.injEq] at r2
      subst r2
      exact s1.2.symm.trans s2.2
    · simp at s2
  · simp at s1

theorem plainEnv_nodup {m : GoMap (Option Variable)} (h : (m.map Prod.fst).Nodup) :
    ((plainEnv m).map Prod.fst).Nodup := by
  refine List.Nodup.sublist ?_ h
  unfold plainEnv
  rw [List.map_filterMap]
  clear h
  induction m with
  | nil => simp
  | cons kv m ih =>
    obtain ⟨k, v⟩ := kv
    cases v with
    | none => simpa using ih.trans (List.sublist_cons_self _ _)
    | some v =>
      by_cases hs : v.secret = ""
      · simpa [hs] using ih
      · simpa [hs] using ih.trans (List.sublist_cons_self _ _)

theorem stepEnvs_reordered {E : Ext} {a b : Container} (h : Spec.Reordered a b) (hn : Spec.NoCollision E a) :
    (∀ k, (stepEnvs E a).1.get? k = (stepEnvs E b).1.get? k) ∧
    (stepEnvs E a).2.Perm (stepEnvs E b).2 := by
  obtain ⟨e, s, rfl, he, hs⟩ := h
  rw [stepEnvs_eq, stepEnvs_eq]
  have p1 : (plainEnv a.environment).Perm (plainEnv e) := he.filterMap _
  have p2 : (plainSettings E a.settings).Perm (plainSettings E s) := hs.filterMap _
  have n1 := plainEnv_nodup hn.1
  constructor
  · intro k
    have n1' : ((plainEnv e).map Prod.fst).Nodup := (p1.map _).nodup_iff.mp n1
    simp only
    rw [setAll_get_fn hn.2, setAll_get_fn (hn.2.perm p2), setAll_get n1, setAll_get n1',
      GoMap.keys_perm_get? p1 n1, hn.2.get p2]
  · exact (he.filterMap _).append (hs.filterMap _)

/-- Equal up to the order of variables and secret references. -/
def Spec.SameStep (s s' : Step) : Prop :=
  s' = { s with envs := s'.envs, secrets := s'.secrets } ∧
  (∀ k, s.envs.get? k = s'.envs.get? k) ∧ s.secrets.Perm s'.secrets

/-- The same pipeline up to the order of environments and settings. -/
def Spec.ReorderedPipeline (p p' : Pipeline) : Prop :=
  ∃ sv st, p' = { p with services := sv, steps := st } ∧
    List.Forall₂ (Option.Rel Spec.Reordered) p.services sv ∧
    List.Forall₂ (Option.Rel Spec.Reordered) p.steps st

theorem set_same {m m' : GoMap String} (h : ∀ k, m.get? k = m'.get? k) (a v : String) :
    ∀ k, (m.set a v).get? k = (m'.set a v).get? k := by
  intro k; rw [GoMap.get?_set, GoMap.get?_set, h]

theorem withWorkspace_same {m m' : GoMap String} (h : ∀ k, m.get? k = m'.get? k) (w : WorkspaceDirs) :
    ∀ k, (withWorkspace m w).get? k = (withWorkspace m' w).get? k := by
  intro k; rw [withWorkspace_get, withWorkspace_get, h]

theorem withScript_same {E : Ext} {os : String} {a : Container} {m m' : GoMap String}
    (h : ∀ k, m.get? k = m'.get? k) :
    ∀ k, (withScript E os a m).get? k = (withScript E os a m').get? k := by
  intro k
  unfold withScript
  split
  · exact set_same (set_same h _ _) _ _ k
  · exact h k

theorem withClone_same {p : Pipeline} {m m' : GoMap String} (h : ∀ k, m.get? k = m'.get? k) :
    ∀ k, (withClone p m).get? k = (withClone p m').get? k := by
  intro k
  unfold withClone setupCloneDepth
  simp only
  split
  · split
    · exact set_same (set_same (set_same h _ _) _ _) _ _ k
    · exact set_same (set_same h _ _) _ _ k
  · split
    · exact set_same h _ _ k
    · exact h k

/-- The callbacks cannot see the order of a map. -/
def Compiler.OrderBlind (c : Compiler) : Prop :=
  ∀ a b, Spec.Reordered a b → c.skip.any (· a) = c.skip.any (· b) ∧
    c.privileged.any (· a) = c.privileged.any (· b)

theorem rawStep_reordered {x : Ctx} (hc : x.c.Std) (ho : x.c.OrderBlind) {sv st} {uid : String}
    {r : Role} {a b : Container} (hab : Spec.Reordered a b) (hn : Spec.NoCollision x.E a) {s : Step}
    (h : rawStep x uid (r, a) = some s) :
    ∃ s', rawStep { x with p := { x.p with services := sv, steps := st } } uid (r, b) = some s' ∧
      Spec.SameStep s s' := by
  have hblind := ho a b hab
  have hse := stepEnvs_reordered (E := x.E) hab hn
  obtain ⟨e, se, rfl, he, hs⟩ := hab
  generalize hbdef : ({ a with environment := e, settings := se } : Container) = b at *
  have hports : toPorts b = toPorts a := by rw [← hbdef]; rfl
  have hmounts : b.volumes = a.volumes := by rw [← hbdef]
  have hcmds : b.commands = a.commands := by rw [← hbdef]
  have hcs0 : ∀ ports mounts, createStep0 x.E uid x.ns b ports mounts =
      { createStep0 x.E uid x.ns a ports mounts with
        envs := (stepEnvs x.E b).1, secrets := (stepEnvs x.E b).2 } := by
    intro ports mounts; rw [← hbdef]; rfl
  have hsm : scriptMounts x.p.platform.os b = scriptMounts x.p.platform.os a := by rw [← hbdef]; rfl
  have hco : commandOf x.p.platform.os b = commandOf x.p.platform.os a := by rw [← hbdef]; rfl
  have hws : ∀ m, withScript x.E x.p.platform.os b m = withScript x.E x.p.platform.os a m := by
    intro m; rw [← hbdef]; rfl
  have hbase : ∀ d, stepBase x.E x.p.platform.os x.ns uid a = some d →
      ∃ d', stepBase x.E x.p.platform.os x.ns uid b = some d' ∧ Spec.SameStep d d' := by
    intro d hd
    simp only [stepBase, Option.bind_eq_some_iff, Option.map_eq_some_iff] at hd ⊢
    obtain ⟨ports, hp, mounts, hm, rfl⟩ := hd
    refine ⟨_, ⟨ports, by rw [hports, hp], mounts, by rw [hmounts, hm], rfl⟩, ?_⟩
    rw [scripted_eq, scripted_eq, hcs0, hcmds, hsm, hco, hws]
    exact ⟨rfl, withScript_same hse.1, hse.2⟩
  have hfin : ∀ d d', Spec.SameStep d d' → Spec.SameStep (finishStep x.c (createWorkspace x.p) a d)
      (finishStep x.c (createWorkspace x.p) b d') := by
    rintro d d' ⟨h1, h2, h3⟩
    rw [finishStep_eq hc, finishStep_eq hc, setupWorkingDir_eq, setupWorkingDir_eq, hblind.1, hblind.2]
    refine ⟨?_, withWorkspace_same h2 _, h3⟩
    rw [h1, hcmds]
  have hdep : ∀ bb d d', Spec.SameStep d d' → Spec.SameStep (cloneDep x bb d)
      (cloneDep { x with p := { x.p with services := sv, steps := st } } bb d') := by
    rintro bb d d' ⟨h1, h2, h3⟩
    rw [cloneDep_eq, cloneDep_eq]
    refine ⟨?_, h2, h3⟩
    rw [h1]
  cases r with
  | clone =>
    simp only [rawStep, Option.map_eq_some_iff] at h ⊢
    obtain ⟨d, hd, rfl⟩ := h
    obtain ⟨d', hd', h1, h2, h3⟩ := hbase d hd
    refine ⟨_, ⟨d', hd', rfl⟩, ?_⟩
    rw [setupWorkspaceMount_eq hc, setupWorkspaceMount_eq hc, setupWorkingDir_eq, setupWorkingDir_eq,
      credMount_eq, credMount_eq, hcmds]
    refine ⟨?_, withWorkspace_same (withClone_same h2) _, h3⟩
    rw [h1]
    rfl
  | service =>
    simp only [rawStep, Option.map_eq_some_iff] at h ⊢
    obtain ⟨d, hd, rfl⟩ := h
    obtain ⟨d', hd', h1, h2, h3⟩ := hbase d hd
    refine ⟨_, ⟨d', hd', rfl⟩, hdep _ _ _ (hfin _ _ ⟨?_, h2, h3⟩)⟩
    rw [h1]
  | step =>
    have hbld : b.build = a.build := by rw [← hbdef]
    simp only [rawStep, hbld] at h ⊢
    cases hb : a.build with
    | some bd =>
      rw [hb] at h
      simp only [Option.some.injEq] at h ⊢
      subst h
      refine ⟨_, rfl, hdep _ _ _ (hfin _ _ ?_)⟩
      have : buildBase x.E x.ns uid b bd = buildBase x.E x.ns uid a bd := by rw [← hbdef]; rfl
      rw [this]
      exact ⟨rfl, fun _ => rfl, List.Perm.refl _⟩
    | none =>
      rw [hb] at h
      simp only [Option.map_eq_some_iff] at h ⊢
      obtain ⟨d, hd, rfl⟩ := h
      obtain ⟨d', hd', hss⟩ := hbase d hd
      exact ⟨_, ⟨d', hd', rfl⟩, hdep _ _ _ (hfin _ _ hss)⟩

theorem rawFiles_reordered {x : Ctx} {sv st} {uid : String} {r : Role} {a b : Container}
    (hab : Spec.Reordered a b) :
    rawFiles { x with p := { x.p with services := sv, steps := st } } uid (r, b) = rawFiles x uid (r, a) := by
  obtain ⟨e, se, rfl, _, _⟩ := hab
  cases r <;> rfl

theorem emit_reordered {x : Ctx} (hc : x.c.Std) (ho : x.c.OrderBlind) {sv st} {rnd : Nat → String}
    {ys ys' : List (Role × Container)}
    (hy : List.Forall₂ (fun y y' => y.1 = y'.1 ∧ Spec.Reordered y.2 y'.2) ys ys') :
    ∀ {n : Nat} {r}, (∀ y ∈ ys, Spec.NoCollision x.E y.2) → emit x rnd n ys = some r →
    ∃ ss', emit { x with p := { x.p with services := sv, steps := st } } rnd n ys' = some (ss', r.2.1, r.2.2) ∧
      List.Forall₂ Spec.SameStep r.1 ss' := by
  induction hy with
  | nil =>
    intro n r _ h
    simp only [emit, Option.some.injEq] at h
    subst h
    exact ⟨[], rfl, .nil⟩
  | @cons y y' ys ys' h1 _ ih =>
    intro n r hcol h
    obtain ⟨role, a⟩ := y
    obtain ⟨role', b⟩ := y'
    obtain ⟨hr, hab⟩ := h1
    simp only at hr hab
    subst hr
    simp only [emit, Option.bind_eq_some_iff, Option.map_eq_some_iff] at h
    obtain ⟨s, hs, q, hq, rfl⟩ := h
    obtain ⟨s', hs', hss⟩ := rawStep_reordered (sv := sv) (st := st) hc ho hab (hcol (role, a) (by simp)) hs
    obtain ⟨ss', h3, h4⟩ := ih (fun y hy => hcol y (by simp [hy])) hq
    refine ⟨s' :: ss', ?_, .cons hss h4⟩
    simp only [emit, hs', Option.bind_some, rawFiles_reordered hab, h3, Option.map_some]

theorem Reordered.build {a b : Container} (h : Spec.Reordered a b) : b.build = a.build := by
  obtain ⟨e, s, rfl, _⟩ := h; rfl

theorem addRename_reordered {ys ys' : List (Role × Container)}
    (hy : List.Forall₂ (fun y y' => y.1 = y'.1 ∧ Spec.Reordered y.2 y'.2) ys ys') :
    ∀ {ss ss' : List Step}, List.Forall₂ Spec.SameStep ss ss' → ∀ rn,
    (List.zip ys' ss').foldl addRename rn = (List.zip ys ss).foldl addRename rn := by
  induction hy with
  | nil => intro ss ss' _ rn; simp
  | @cons y y' ys ys' h1 _ ih =>
    intro ss ss' h2 rn
    cases h2 with
    | nil => simp
    | @cons s s' ss ss' h3 h4 =>
      simp only [List.zip_cons_cons, List.foldl_cons]
      have : addRename rn (y', s') = addRename rn (y, s) := by
        have hm : s'.md = s.md := by rw [h3.1]
        unfold addRename
        rw [← h1.1, Reordered.build h1.2, hm]
      rw [this]
      exact ih h4 _

theorem renameSteps_reordered {E : Ext} {rn : GoMap String} {ss ss' : List Step}
    (h : List.Forall₂ Spec.SameStep ss ss') :
    ∀ i, List.Forall₂ Spec.SameStep (renameSteps E rn i ss) (renameSteps E rn i ss') := by
  induction h with
  | nil => intro i; exact .nil
  | @cons s s' ss ss' h1 _ ih =>
    intro i
    refine .cons ⟨?_, h1.2.1, h1.2.2⟩ (ih (i + 1))
    have hd : s'.docker = s.docker := by rw [h1.1]
    rw [hd]
    conv_lhs => rw [h1.1]

theorem filterMap_rel {l l' : List (Option Container)} (h : List.Forall₂ (Option.Rel Spec.Reordered) l l') :
    List.Forall₂ Spec.Reordered (l.filterMap id) (l'.filterMap id) := by
  induction h with
  | nil => exact .nil
  | cons h1 _ ih =>
    cases h1 with
    | some h => exact .cons h ih
    | none => exact ih

theorem forall₂_map_map {α β γ δ : Type} {R : α → β → Prop} {S : γ → δ → Prop} {f : α → γ} {g : β → δ}
    {as : List α} {bs : List β} (h : List.Forall₂ R as bs) (hS : ∀ a b, R a b → S (f a) (g b)) :
    List.Forall₂ S (as.map f) (bs.map g) := by
  induction h with
  | nil => exact .nil
  | cons h1 _ ih => exact .cons (hS _ _ h1) ih

theorem forall₂_append' {α β : Type} {R : α → β → Prop} {as as' : List α} {bs bs' : List β}
    (h : List.Forall₂ R as bs) (h' : List.Forall₂ R as' bs') : List.Forall₂ R (as ++ as') (bs ++ bs') := by
  induction h with
  | nil => exact h'
  | cons h1 _ ih => exact .cons h1 ih

/-- C34, for containers without collisions: recompiling a pipeline with another iteration
order of its maps gives the same specification, up to the order of the variables and secret
references of each step.  If two settings give different texts to the same variable the claim
is false (`C34_setting_collision`, and `C34_collision` in general), so this is marked partial. -/
theorem C34_map_order_partial {E : Ext} {c : Compiler} (hc : c.Std) (ht : c.transform = none)
    (ho : c.OrderBlind) {rnd : Nat → String} {p p' : Pipeline} {sp : Engine.Spec}
    (hpp : Spec.ReorderedPipeline p p')
    (hcol : ∀ a, some a ∈ p.services ∨ some a ∈ p.steps → Spec.NoCollision E a)
    (h : compile E c rnd p = some sp) :
    ∃ sp', compile E c rnd p' = some sp' ∧ sp' = { sp with steps := sp'.steps } ∧
      List.Forall₂ Spec.SameStep sp.steps sp'.steps := by
  obtain ⟨hv, hsv, hst, r, hr, rfl⟩ := compile_shape hc ht h
  obtain ⟨sv, st, rfl, h1, h2⟩ := hpp
  have hnil : ∀ {l l' : List (Option Container)}, List.Forall₂ (Option.Rel Spec.Reordered) l l' →
      none ∉ l → none ∉ l' := by
    intro l l' hf
    induction hf with
    | nil => simp
    | cons h _ ih =>
      cases h with
      | some _ => simpa using ih
      | none => simp
  have hser : serialOf { p with services := sv, steps := st } = serialOf p := by
    have := filterMap_rel h2
    unfold serialOf
    simp only
    rw [decide_eq_decide]
    have hd : ∀ {l l' : List Container}, List.Forall₂ Spec.Reordered l l' →
        ((∀ s ∈ l', s.dependsOn = []) ↔ ∀ s ∈ l, s.dependsOn = []) := by
      intro l l' hf
      induction hf with
      | nil => simp
      | @cons a b _ _ hab _ ih =>
        obtain ⟨e, s, rfl, _⟩ := hab
        simp [ih]
    exact hd this
  have hctx : ctxOf E c rnd { p with services := sv, steps := st } =
      { ctxOf E c rnd p with p := { p with services := sv, steps := st } } := by
    unfold ctxOf
    rw [hser]
  have hsrc : List.Forall₂ (fun y y' => y.1 = y'.1 ∧ Spec.Reordered y.2 y'.2) (sources p)
      (sources { p with services := sv, steps := st }) := by
    unfold sources
    refine forall₂_append' (forall₂_append' ?_ ?_) ?_
    · split
      · exact .nil
      · exact .cons ⟨rfl, [], [], rfl, List.Perm.refl _, List.Perm.refl _⟩ .nil
    · exact forall₂_map_map (filterMap_rel h1) fun a b hab => ⟨rfl, hab⟩
    · exact forall₂_map_map (filterMap_rel h2) fun a b hab => ⟨rfl, hab⟩
  have hcol' : ∀ y ∈ sources p, Spec.NoCollision (ctxOf E c rnd p).E y.2 := by
    intro y hy
    rcases mem_sources.mp hy with ⟨_, rfl⟩ | ⟨_, hm⟩ | ⟨_, hm⟩
    · exact noCollision_of_nodup (by simp) (by simp)
    · exact hcol _ (.inl hm)
    · exact hcol _ (.inr hm)
  obtain ⟨ss', h3, h4⟩ := emit_reordered (x := ctxOf E c rnd p) (sv := sv) (st := st) hc ho hsrc hcol' hr
  have hcomp : compileCore E c rnd { p with services := sv, steps := st } =
      some (finish E c rnd { p with services := sv, steps := st } (ss', r.2.1, r.2.2)) := by
    rw [compileCore_eq E c hc rnd { p with services := sv, steps := st } hv (hnil h1 hsv) (hnil h2 hst), hctx]
    have : firstDraw c rnd { p with services := sv, steps := st } = firstDraw c rnd p := rfl
    rw [this]
    show Option.map _ (emit { ctxOf E c rnd p with
      p := { (ctxOf E c rnd p).p with services := sv, steps := st } } rnd _ _) = _
    rw [h3]
    rfl
  refine ⟨_, by unfold compile; rw [hcomp, ht]; rfl, ?_, ?_⟩
  · unfold finish
    simp only [addRename_reordered hsrc h4]
    rfl
  · unfold finish
    simp only [addRename_reordered hsrc h4]
    exact renameSteps_reordered h4 0

/-- Settings whose names differ only in case: the compiled value depends on the order in
which the map is iterated. -/
theorem C34_setting_collision :
    let p (s : GoMap (Option Parameter)) : Pipeline :=
      { kind := "pipeline", steps := [some { name := "a", image := "b", settings := s }] }
    let m : GoMap (Option Parameter) := [("key", some { value := .str "1" }), ("KEY", some { value := .str "2" })]
    lint (.pipeline (p m)) false = .ok () ∧
    (compile exExt {} exRnd (p m)).map (fun sp => sp.steps.map (·.envs.get? "PLUGIN_KEY")) ≠
    (compile exExt {} exRnd (p m.reverse)).map (fun sp => sp.steps.map (·.envs.get? "PLUGIN_KEY")) := by
  decide +kernel

example : Spec.ReorderedPipeline exCompiled { exCompiled with steps :=
      [some { name := "image", build := some { image := "acme/app" } },
       some { name := "test", image := "acme/app", commands := ["make test"],
              environment := [("B", some { secret := "token" }), ("A", some { value := "1" })],
              dependsOn := ["image"] }] } := by
  refine ⟨_, _, rfl, .cons (.some ⟨_, _, rfl, .refl _, .refl _⟩) .nil,
    .cons (.some ⟨_, _, rfl, .refl _, .refl _⟩) (.cons (.some ⟨_, _, rfl, ?_, .refl _⟩) .nil)⟩
  exact List.Perm.swap _ _ _

end Drone
