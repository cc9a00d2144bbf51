/-
C70 - C73: the containers, matrix axes and secrets of a converted legacy file.
-/
import Verif.Props.Legacy
import Verif.Props.PrettyOrder
import Verif.Props.Matrix
import Mathlib.Algebra.BigOperators.Group.List.Basic

namespace Drone
open Legacy

namespace Spec

/-- An event of the old file and what it is called now. -/
def SameEvent (old new : String) : Prop :=
  (old = "deploy" ∨ old = "deployment") ∧ new = "promote" ∨ (old ≠ "deploy" ∧ old ≠ "deployment") ∧ new = old

/-- The container `d` does what the legacy container `c` did.  Names are left out. -/
structure Converted (upper : String → String) (c : Legacy.Container) (d : Drone.Container) : Prop where
  image : d.image = c.image
  command : d.command = c.command
  commands : d.commands = c.commands
  entrypoint : d.entrypoint = c.entrypoint
  detach : d.detach = c.detached
  dns : d.dns = c.dns
  dnsSearch : d.dnsSearch = c.dnsSearch
  extraHosts : d.extraHosts = c.extraHosts
  privileged : d.privileged = c.privileged
  pull : d.pull = "always" ∧ c.pull = true ∨ d.pull = "if-not-exists" ∧ c.pull = false
  settings : ∀ k, d.settings.get? k = (c.vargs.get? k).map fun v => some { value := v, secret := "" }
  /-- a variable that no secret is stored in has the given value -/
  plain : ∀ k, (∀ s, some s ∈ c.secrets → upper s.target ≠ k) →
    d.environment.get? k = (c.environment.get? k).map fun v => some { value := v, secret := "" }
  /-- the last secret stored in a variable wins, and wins over a given value -/
  secret : ∀ l s r, c.secrets = l ++ some s :: r → (∀ t, some t ∈ r → upper t.target ≠ upper s.target) →
    d.environment.get? (upper s.target) = some (some { value := "", secret := s.source })
  branch : d.cond.branch = c.constraints.branch
  ref : d.cond.ref = c.constraints.ref
  repo : d.cond.repo = c.constraints.repo
  inst : d.cond.inst = c.constraints.inst
  target : d.cond.target = c.constraints.environment
  status : d.cond.status = c.constraints.status
  events : List.Forall₂ SameEvent c.constraints.event.incl d.cond.event.incl
  noEvents : List.Forall₂ SameEvent c.constraints.event.excl d.cond.event.excl
  /-- nothing else is set -/
  rest : d.build = none ∧ d.devices = [] ∧ d.failure = "" ∧ d.network = "" ∧ d.ports = [] ∧ d.push = none ∧
    d.resources = none ∧ d.shell = "" ∧ d.user = "" ∧ d.workingDir = "" ∧ d.dependsOn = [] ∧
    d.cond.action = {} ∧ d.cond.cron = {} ∧ d.cond.paths = {}

end Spec

open Spec

theorem foldl_set_lookup {α β : Type} (f : α → β) (m : GoMap α) (hnd : m.keys.Nodup) :
    ∀ (a : GoMap β) k, (m.foldl (fun m kv => m.set kv.1 (f kv.2)) a).get? k =
      ((m.get? k).map f).or (a.get? k) := by
  induction m with
  | nil => intro a k; rfl
  | cons e m ih =>
    obtain ⟨x, v⟩ := e
    intro a k
    have hnd' := List.nodup_cons.1 (show (x :: GoMap.keys m).Nodup from hnd)
    rw [List.foldl_cons, ih hnd'.2, GoMap.get?_set, GoMap.get?_cons]
    by_cases hk : k = x
    · subst hk
      rw [if_pos rfl, if_pos rfl, GoMap.get?_eq_none.2 hnd'.1]
      rfl
    · rw [if_neg hk, if_neg hk]

theorem secretLoop_get? {upper : String → String} : ∀ {l : List (Option SecretRef)} {e r : GoMap (Option Variable)},
    secretLoop upper e l = some r →
    (∀ k, (∀ s, some s ∈ l → upper s.target ≠ k) → r.get? k = e.get? k) ∧
    (∀ a s b, l = a ++ some s :: b → (∀ t, some t ∈ b → upper t.target ≠ upper s.target) →
      r.get? (upper s.target) = some (some { secret := s.source }))
  | [], e, r, h => by
    simp only [secretLoop, Option.some.injEq] at h
    subst h
    exact ⟨fun _ _ => rfl, fun a s b h => by simp at h⟩
  | none :: l, e, r, h => by simp [secretLoop] at h
  | some x :: l, e, r, h => by
    obtain ⟨h1, h2⟩ := secretLoop_get? (l := l) h
    refine ⟨fun k hk => ?_, fun a s b hl hb => ?_⟩
    · rw [h1 k (fun s hs => hk s (List.mem_cons_of_mem _ hs)), GoMap.get?_set,
        if_neg (fun e => hk x (List.mem_cons_self ..) e.symm)]
    · cases a with
      | nil =>
        simp only [List.nil_append, List.cons.injEq, Option.some.injEq] at hl
        obtain ⟨rfl, rfl⟩ := hl
        rw [h1 _ hb, GoMap.get?_set_self]
      | cons y a =>
        simp only [List.cons_append, List.cons.injEq] at hl
        exact h2 a s b hl.2 hb

theorem toPromote_same (l : List String) : List.Forall₂ SameEvent l (toPromote l) := by
  induction l with
  | nil => exact .nil
  | cons s l ih =>
    refine .cons ?_ ih
    unfold SameEvent
    dsimp only
    split_ifs with h
    · exact .inl ⟨h, rfl⟩
    · exact .inr ⟨not_or.1 h, rfl⟩

theorem toContainer_converted {X : LegacyLib} {c : Legacy.Container} {d : Drone.Container}
    (henv : c.environment.keys.Nodup) (hvargs : c.vargs.keys.Nodup)
    (h : toContainer X c = some d) : Converted X.upper c d ∧ d.name = c.name := by
  unfold toContainer at h
  obtain ⟨env, he, h⟩ := Option.bind_eq_some_iff.1 h
  obtain ⟨vols, _, rfl⟩ := Option.map_eq_some_iff.1 h
  obtain ⟨h1, h2⟩ := secretLoop_get? he
  refine ⟨?_, rfl⟩
  constructor <;> try rfl
  · cases hp : c.pull <;> simp [Legacy.toPullPolicy]
  · intro k
    dsimp only [toSettings]
    rw [foldl_set_lookup (fun v : Value => some ({ value := v } : Parameter)) _ hvargs]
    simp
  · intro k hk
    dsimp only
    rw [h1 k hk, foldl_set_lookup (fun v : String => some ({ value := v } : Variable)) _ henv]
    simp
  · exact h2
  · exact toPromote_same _
  · exact toPromote_same _
  · exact ⟨rfl, rfl, rfl, rfl, rfl, rfl, rfl, rfl, rfl, rfl, rfl, rfl, rfl, rfl⟩

/-- The maps of a container are maps: keys occur once. -/
def Legacy.Container.Maps (c : Legacy.Container) : Prop := c.environment.keys.Nodup ∧ c.vargs.keys.Nodup

theorem mapAll_converted {X : LegacyLib} {l : List Legacy.Container} {r : List Drone.Container}
    (hl : ∀ c ∈ l, c.Maps) (h : mapAll (toContainer X) l = some r) :
    List.Forall₂ (fun c d => Converted X.upper c d ∧ d.name = c.name) l r := by
  have := mapAll_forall₂ h
  clear h
  induction this with
  | nil => exact .nil
  | cons h _ ih =>
    exact .cons (toContainer_converted (hl _ (List.mem_cons_self ..)).1 (hl _ (List.mem_cons_self ..)).2 h)
      (ih fun c hc => hl c (List.mem_cons_of_mem _ hc))

theorem Spec.Converted.rename {up : String → String} {c : Legacy.Container} {d : Drone.Container}
    (h : Converted up c d) (n : String) : Converted up c { d with name := n } := by
  obtain ⟨h1, h2, h3, h4, h5, h6, h7, h8, h9, h10, h11, h12, h13, h14, h15, h16, h17, h18, h19, h20, h21, h22⟩ := h
  exact ⟨h1, h2, h3, h4, h5, h6, h7, h8, h9, h10, h11, h12, h13, h14, h15, h16, h17, h18, h19, h20, h21, h22⟩

/-- Names after renaming: kept, or extended by the position if taken. -/
theorem renameLoop_names (cs : List Drone.Container) (names : List String) (i : Nat) (k : Nat) (c : Drone.Container)
    (hc : cs[k]? = some c) : ∃ n, (renameLoop names i cs)[k]? = some { c with name := n } ∧
      (n = c.name ∨ n = c.name ++ "_" ++ toString (i + k)) := by
  induction cs generalizing names i k with
  | nil => simp at hc
  | cons x cs ih =>
    cases k with
    | zero =>
      simp only [List.getElem?_cons_zero, Option.some.injEq] at hc
      subst hc
      unfold renameLoop
      refine ⟨_, rfl, ?_⟩
      split_ifs
      · exact .inr rfl
      · exact .inl rfl
    | succ k =>
      obtain ⟨n, h1, h2⟩ := ih ((if x.name ∈ names then x.name ++ "_" ++ toString i else x.name) :: names) (i + 1) k
        (by simpa using hc)
      exact ⟨n, by simpa [renameLoop] using h1, by rwa [show i + (k + 1) = i + 1 + k by omega]⟩

/-- C71: every clone and pipeline container becomes one step, in order and with the same
content, and every service one service.  The name of a step is kept or extended by its
position.  If the process environment asks for it (`DRONE_CONVERT_YAML_LEGACY_CLONE`) and there
are no clone containers, a clone step comes first. -/
theorem C71_containers (X : LegacyLib) (env : Env) (d : Bytes) (c : Config) (remote : String) (m : Manifest)
    (hm : c.hasMatrix = false) (h : toManifest X env d c remote = some (.ok m))
    (hmaps : ∀ x ∈ c.clone ++ c.pipeline ++ c.services, x.Maps) :
    ∃ p rest pre steps services, m.resources = Resource.pipeline p :: rest ∧
      p.steps = (pre ++ steps).map some ∧ p.services = services.map some ∧
      List.Forall₂ (Converted X.upper) (c.clone ++ c.pipeline) steps ∧
      (∀ i x y, (c.clone ++ c.pipeline)[i]? = some x → steps[i]? = some y →
        y.name = x.name ∨ y.name = x.name ++ "_" ++ toString (pre.length + i)) ∧
      List.Forall₂ (fun x y => Converted X.upper x y ∧ y.name = x.name) c.services services ∧
      (pre = [] ∧ ¬ (c.clone = [] ∧ env.clone = true) ∨
        pre = [{ name := "clone", image := "plugins/git", pull := "if-not-exists" }] ∧ c.clone = [] ∧ env.clone = true) ∧
      (p.clone.disable = true ↔ c.clone ≠ [] ∨ env.clone = true) := by
  obtain ⟨p, hp, hr⟩ := toManifest_plain hm h
  obtain ⟨all, services, volumes, hs, hv, _, e1, e2, _, _, e5, _⟩ := toPipeline_inv hp
  have hsv := mapAll_converted (fun x hx => hmaps x (List.mem_append_right _ hx)) hv
  have hall : ∃ pre steps, all = pre ++ steps ∧
      List.Forall₂ (fun x y => Converted X.upper x y ∧ y.name = x.name) (c.clone ++ c.pipeline) steps ∧
      (pre = [] ∧ ¬ (c.clone = [] ∧ env.clone = true) ∨ pre = [cloneStep] ∧ c.clone = [] ∧ env.clone = true) := by
    unfold toSteps at hs
    by_cases hc : c.clone = []
    · rw [if_neg (by simp [hc])] at hs
      obtain ⟨tail, ht, rfl⟩ := Option.map_eq_some_iff.1 hs
      have := mapAll_converted (fun x hx => hmaps x (List.mem_append_left _ (List.mem_append_right _ hx))) ht
      cases he : env.clone with
      | true => exact ⟨[cloneStep], tail, by simp, by simpa [hc] using this, .inr ⟨rfl, hc, rfl⟩⟩
      | false => exact ⟨[], tail, by simp, by simpa [hc] using this, .inl ⟨rfl, by simp⟩⟩
    · rw [if_pos (by simpa using hc)] at hs
      exact ⟨[], all, rfl, mapAll_converted (fun x hx => hmaps x (List.mem_append_left _ hx)) hs,
        .inl ⟨rfl, fun h => hc h.1⟩⟩
  obtain ⟨pre, steps, rfl, hst, hpre⟩ := hall
  have hlen := (renameLoop_forall₂ [] 0 (pre ++ steps)).length_eq
  have hren : ∃ steps', renameLoop [] 0 (pre ++ steps) = pre ++ steps' ∧ steps'.length = steps.length ∧
      ∀ i y, steps[i]? = some y → ∃ n, steps'[i]? = some { y with name := n } ∧
        (n = y.name ∨ n = y.name ++ "_" ++ toString (pre.length + i)) := by
    have key := renameLoop_names (pre ++ steps) [] 0
    rcases hpre with ⟨rfl, _⟩ | ⟨rfl, _⟩
    · exact ⟨_, rfl, hlen.symm, by simpa using key⟩
    · refine ⟨(renameLoop [] 0 ([cloneStep] ++ steps)).tail, by simp [renameLoop], by have := hlen; simp at this ⊢; omega, ?_⟩
      intro i y hy
      obtain ⟨n, h1, h2⟩ := key (i + 1) y (by simpa using hy)
      refine ⟨n, by simpa using h1, ?_⟩
      rwa [show ([cloneStep] : List Drone.Container).length + i = 0 + (i + 1) by simp; omega]
  obtain ⟨steps', hr1, hr2, hr3⟩ := hren
  refine ⟨p, _, pre, steps', services, hr, by rw [e1, hr1], e2, ?_, ?_, hsv, ?_, ?_⟩
  · rw [List.forall₂_iff_get] at hst ⊢
    refine ⟨by rw [hst.1, hr2], fun i h1 h2 => ?_⟩
    have h3 : i < steps.length := by omega
    obtain ⟨n, e, _⟩ := hr3 i steps[i] (List.getElem?_eq_getElem h3)
    have e' : steps'[i] = { steps[i] with name := n } := by
      rw [List.getElem?_eq_getElem h2] at e; simpa using e
    have := (hst.2 i h1 h3).1
    simp only [List.get_eq_getElem] at this ⊢
    rw [e']
    exact this.rename n
  · intro i x y hx hy
    rw [List.forall₂_iff_get] at hst
    have h1 : i < (c.clone ++ c.pipeline).length := by
      rcases Nat.lt_or_ge i (c.clone ++ c.pipeline).length with h | h
      · exact h
      · rw [List.getElem?_eq_none h] at hx; simp at hx
    have h3 : i < steps.length := by omega
    have hn := (hst.2 i h1 h3).2
    obtain ⟨n, e, hn'⟩ := hr3 i steps[i] (List.getElem?_eq_getElem h3)
    rw [List.getElem?_eq_getElem h1] at hx
    rw [e] at hy
    simp only [Option.some.injEq, List.get_eq_getElem] at hx hy hn
    rw [← hy, ← hx]
    dsimp only
    rw [← hn]
    exact hn'
  · rcases hpre with h | ⟨h1, h2⟩
    · exact .inl h
    · exact .inr ⟨h1, h2⟩
  · rw [e5]; simp

/-- A file with secrets, a variable that a secret replaces, and a deployment step. -/
def exContainers : Config where
  clone := [{ name := "git", image := "plugins/git", vargs := [("depth", .int 50)] }]
  pipeline := [{
    name := "deploy"
    image := "golang"
    commands := ["make"]
    environment := [("A", "1"), ("TOKEN", "x")]
    secrets := [some { source := "token", target := "TOKEN" }]
    constraints := { event := { incl := ["deployment", "push"] } } }]

example : (∀ x ∈ exContainers.clone ++ exContainers.pipeline ++ exContainers.services, x.Maps) ∧
    exContainers.hasMatrix = false ∧ (toManifest exLegacy {} [] exContainers "").isSome := by
  refine ⟨?_, rfl, by decide⟩
  intro x hx
  simp only [exContainers, List.cons_append, List.nil_append, List.append_nil, List.mem_cons, List.not_mem_nil,
    or_false] at hx
  rcases hx with rfl | rfl <;> exact ⟨by decide, by decide⟩

example : (toPipeline exLegacy {} exContainers "").map (fun p => p.steps.map fun s => s.map fun c =>
    (c.name, c.environment, c.cond.event.incl)) =
    some [some ("git", [], []), some ("deploy",
      [("A", some { value := "1" }), ("TOKEN", some { secret := "token" })], ["promote", "push"])] := by
  rfl

/-! ### C70 -/

namespace Spec

/-- The axis satisfies every entry of the matrix condition. -/
def Selected (axis : GoMap String) (c : Drone.Container) : Prop :=
  ∀ kv ∈ c.cond.matrix, axis.get? kv.1 = some kv.2

instance (axis : GoMap String) (c : Drone.Container) : Decidable (Selected axis c) :=
  inferInstanceAs (Decidable (∀ kv ∈ c.cond.matrix, _))

/-- How often a container is kept: once without matrix condition, else once for every entry
that the axis satisfies. -/
def copies (axis : GoMap String) (c : Drone.Container) : Nat :=
  if c.cond.matrix = [] then 1 else (c.cond.matrix.filter fun kv => axis.get? kv.1 = some kv.2).length

end Spec

theorem environ_match (environ : GoMap String) (hnd : environ.keys.Nodup) (w : String × String) (x : Option Drone.Container) :
    (environ.flatMap fun e => if w.1 = e.1 ∧ w.2 = e.2 then [x] else []) =
      if environ.get? w.1 = some w.2 then [x] else [] := by
  induction environ with
  | nil => simp
  | cons e m ih =>
    obtain ⟨k, v⟩ := e
    have hnd' := List.nodup_cons.1 (show (k :: GoMap.keys m).Nodup from hnd)
    rw [List.flatMap_cons, ih hnd'.2, GoMap.get?_cons]
    by_cases hk : w.1 = k
    · have hn : GoMap.get? m w.1 = none := by rw [hk]; exact GoMap.get?_eq_none.2 hnd'.1
      rw [hn]
      by_cases hv : w.2 = v
      · simp [hk, hv]
      · have : ¬ v = w.2 := fun e => hv e.symm
        simp [hk, hv, this]
    · simp [hk]

/-- C70: the exact result of the matrix filter. -/
theorem C70_copies (environ : GoMap String) (hnd : environ.keys.Nodup) (l : List Drone.Container) :
    filterMatrix environ (l.map some) = l.flatMap fun c => List.replicate (copies environ c) (some c) := by
  unfold filterMatrix
  rw [List.flatMap_map]
  congr 1
  funext c
  dsimp only
  unfold copies
  by_cases h : c.cond.matrix = []
  · simp [h]
  · rw [if_neg (by simpa using h), if_neg h]
    generalize c.cond.matrix = ws
    induction ws with
    | nil => rfl
    | cons w ws ih =>
      rw [List.flatMap_cons, environ_match _ hnd, ih, List.filter_cons]
      by_cases hw : environ.get? w.1 = some w.2
      · simp [hw, List.replicate_succ]
      · simp [hw]

/-- C70: a container is kept in an axis, once, iff the axis satisfies its matrix condition.
Missing: conditions with more than one entry, for which it is false (`C70_or`). -/
theorem C70_filter_partial (environ : GoMap String) (hnd : environ.keys.Nodup) (l : List Drone.Container)
    (h1 : ∀ c ∈ l, c.cond.matrix.length ≤ 1) :
    filterMatrix environ (l.map some) = (l.filter fun c => decide (Selected environ c)).map some := by
  rw [C70_copies _ hnd]
  induction l with
  | nil => rfl
  | cons c l ih =>
    rw [List.flatMap_cons, ih fun c hc => h1 c (List.mem_cons_of_mem _ hc), List.filter_cons]
    have hc := h1 c (List.mem_cons_self ..)
    have hk : copies environ c = if Selected environ c then 1 else 0 := by
      have hsel : Selected environ c ↔ ∀ kv ∈ c.cond.matrix, environ.get? kv.1 = some kv.2 := Iff.rfl
      unfold copies
      rw [if_congr hsel rfl rfl]
      match c.cond.matrix, hc with
      | [], _ => simp
      | [w], _ =>
        by_cases hw : environ.get? w.1 = some w.2
        · simp [hw]
        · simp [hw]
    rw [hk]
    by_cases hs : Selected environ c
    · simp [hs]
    · simp [hs]

/-- With two entries one is enough, and if both hold the step is there twice. -/
theorem C70_or :
    let c : Drone.Container := { name := "a", cond := { matrix := [("GO", "1.11"), ("DB", "mysql")] } }
    filterMatrix [("GO", "1.11"), ("DB", "redis")] [some c] = [some c] ∧
    ¬ Selected [("GO", "1.11"), ("DB", "redis")] c ∧
    filterMatrix [("GO", "1.11"), ("DB", "mysql")] [some c] = [some c, some c] :=
  ⟨rfl, by decide, rfl⟩

/-- A step for one value of `GO`. -/
example :
    let a : Drone.Container := { name := "a", cond := { matrix := [("GO", "1.11")] } }
    let b : Drone.Container := { name := "b" }
    filterMatrix [("GO", "1.10")] [some a, some b] = [some b] ∧ filterMatrix [("GO", "1.11")] [some a, some b] = [some a, some b] :=
  ⟨rfl, rfl⟩

/-! ### C72 -/

theorem axisPipelines_length {X : LegacyLib} {p : Drone.Pipeline} : ∀ {axes : List (GoMap String)} {i : Nat}
    {ps : List Drone.Pipeline}, axisPipelines X p i axes = .ok ps → ps.length = axes.length
  | [], i, ps, h => by
    simp only [axisPipelines, Except.ok.injEq] at h
    subst h; rfl
  | a :: axes, i, ps, h => by
    unfold axisPipelines at h
    cases h1 : toAxis X p i a with
    | error e => rw [h1] at h; simp [Except.bind] at h
    | ok q =>
      rw [h1] at h
      simp only [Except.bind] at h
      cases h2 : axisPipelines X p (i + 1) axes with
      | error e => rw [h2] at h; simp [Except.map] at h
      | ok qs =>
        rw [h2] at h
        simp only [Except.map, Except.ok.injEq] at h
        subst h
        simp [axisPipelines_length h2]

/-- What comes out of a conversion: pipelines, and then the secrets. -/
theorem toManifest_shape {X : LegacyLib} {env : Env} {d : Bytes} {c : Config} {remote : String} {m : Manifest}
    (h : toManifest X env d c remote = some (.ok m)) : ∃ ps : List Drone.Pipeline,
      m.resources = ps.map Resource.pipeline ++ (toSecrets c).map Resource.secret ∧
      (c.hasMatrix = false → ps.length = 1) ∧
      (c.hasMatrix = true → ∃ axes, parseMatrix X d = some (.ok axes) ∧ ps.length = axes.length) := by
  unfold toManifest at h
  obtain ⟨p, hp, h⟩ := Option.bind_eq_some_iff.1 h
  dsimp only at h
  cases hx : c.hasMatrix with
  | false =>
    rw [hx] at h
    simp only [Bool.false_eq_true, if_false, Outcome.andThen, Option.bind_some, Option.some.injEq, Except.ok.injEq] at h
    subst h
    exact ⟨[p], rfl, fun _ => rfl, by simp⟩
  | true =>
    rw [hx] at h
    simp only [if_true] at h
    cases h1 : parseMatrix X d with
    | none => simp [h1, Outcome.andThen] at h
    | some o =>
      cases o with
      | error e => simp [h1, Outcome.andThen] at h
      | ok axes =>
        cases h2 : axisPipelines X p 0 axes with
        | error e => simp [h1, h2, Outcome.andThen] at h
        | ok ps =>
          simp only [h1, h2, Outcome.andThen, Option.bind_some, Option.some.injEq, Except.ok.injEq] at h
          subst h
          exact ⟨ps, rfl, by simp, fun _ => ⟨axes, rfl, axisPipelines_length h2⟩⟩

/-- The pipelines of a manifest. -/
def Spec.pipelinesOf (m : Manifest) : Nat :=
  (m.resources.filter fun r => match r with | .pipeline _ => true | _ => false).length

theorem pipelinesOf_eq {m : Manifest} {ps : List Drone.Pipeline} {ss : List Drone.Secret}
    (h : m.resources = ps.map Resource.pipeline ++ ss.map Resource.secret) : pipelinesOf m = ps.length := by
  unfold pipelinesOf
  rw [h, List.filter_append, List.length_append]
  have h1 : ∀ l : List Drone.Pipeline, ((l.map Resource.pipeline).filter fun r => match r with | .pipeline _ => true | _ => false).length = l.length := by
    intro l; induction l with
    | nil => rfl
    | cons a l ih => simp [ih]
  have h2 : ∀ l : List Drone.Secret, ((l.map Resource.secret).filter fun r => match r with | .pipeline _ => true | _ => false).length = 0 := by
    intro l; induction l with
    | nil => rfl
    | cons a l ih => simp [ih]
  rw [h1, h2]; rfl

/-- C72: without a matrix there is one pipeline. -/
theorem C72_plain (X : LegacyLib) (env : Env) (d : Bytes) (c : Config) (remote : String) (m : Manifest)
    (hm : c.hasMatrix = false) (h : toManifest X env d c remote = some (.ok m)) : pipelinesOf m = 1 := by
  obtain ⟨ps, h1, h2, _⟩ := toManifest_shape h
  rw [pipelinesOf_eq h1, h2 hm]

/-- C72: with a list of axes (`include`) there is one pipeline for each of them. -/
theorem C72_list (X : LegacyLib) (env : Env) (d : Bytes) (c : Config) (remote : String) (m : Manifest)
    (hm : c.hasMatrix = true) (h : toManifest X env d c remote = some (.ok m)) (l : List (GoMap String))
    (hl : X.matrixList d = .ok l) (hne : l ≠ []) : pipelinesOf m = l.length := by
  obtain ⟨ps, h1, _, h2⟩ := toManifest_shape h
  obtain ⟨axes, h3, h4⟩ := h2 hm
  rw [pipelinesOf_eq h1, h4]
  unfold parseMatrix at h3
  rw [hl] at h3
  simp only [ne_eq, List.length_eq_zero_iff, hne, not_false_eq_true, if_true, Option.some.injEq, Except.ok.injEq] at h3
  rw [h3]

/-- C72: with lists of values there is one pipeline for every combination, up to 27. -/
theorem C72_product (X : LegacyLib) (env : Env) (d : Bytes) (c : Config) (remote : String) (m : Manifest)
    (hm : c.hasMatrix = true) (h : toManifest X env d c remote = some (.ok m)) (mx : GoMap (List String))
    (hl : X.matrixList d = .ok [] ∨ ∃ e, X.matrixList d = .error e) (hx : X.matrixMap d = .ok mx)
    (hmx : mx ≠ []) (hnd : mx.keys.Nodup) (hne : ∀ e ∈ mx, e.2 ≠ []) (hlt : Spec.size mx < 2 ^ 63) :
    pipelinesOf m = min 27 (mx.map fun e => e.2.length).prod := by
  obtain ⟨ps, h1, _, h2⟩ := toManifest_shape h
  obtain ⟨axes, h3, h4⟩ := h2 hm
  rw [pipelinesOf_eq h1, h4]
  have h5 : parseMatrix X d = (Matrix.axes mx).map .ok := by
    unfold parseMatrix
    rcases hl with hl | ⟨e, hl⟩ <;> rw [hl, hx] <;> simp [hmx]
  rw [h5, C59_cut mx hmx hnd hne hlt] at h3
  simp only [Option.map_some, Option.some.injEq, Except.ok.injEq] at h3
  rw [← h3]
  have hs : ∀ l : GoMap (List String), Spec.size l = (l.map fun e => e.2.length).prod := by
    intro l; induction l with
    | nil => rfl
    | cons e l ih => simp [Spec.size, ih]
  simp [Matrix.combinations_length, hs]

/-- The pipeline is lost if the matrix is there but empty. -/
theorem C72_lost : ∃ (c : Config) (m : Manifest), c.pipeline.length = 1 ∧
    toManifest exLegacy {} [] c "" = some (.ok m) ∧ pipelinesOf m = 0 :=
  ⟨{ hasMatrix := true, pipeline := [{ name := "build" }] }, _, rfl, rfl, rfl⟩

/-- C72: a matrix that is neither a list of axes nor lists of values is reported, with the reason. -/
theorem C72_reported (X : LegacyLib) (env : Env) (d : Bytes) (c : Config) (remote e e' : String)
    (hd : X.decode (if hasMergeKeys d then X.expand d else d) = .ok c) (hm : c.hasMatrix = true)
    (hl : X.matrixList (if hasMergeKeys d then X.expand d else d) = .error e')
    (hx : X.matrixMap (if hasMergeKeys d then X.expand d else d) = .error e)
    (hp : toPipeline X env c remote ≠ none) : Legacy.convert X env d remote = some (.error e) := by
  obtain ⟨p, hp⟩ := Option.ne_none_iff_exists'.1 hp
  unfold Legacy.convert
  simp only [hd, toManifest, hp, Option.bind_some, hm, if_true, parseMatrix, hl, hx]
  rfl

/-- C72: an axis with which the pipeline cannot be read is reported, with the reason. -/
theorem C72_reported_axis (X : LegacyLib) (env : Env) (d : Bytes) (c : Config) (remote e : String)
    (p : Drone.Pipeline) (done rest : List (GoMap String)) (axis : GoMap String)
    (hd : X.decode (if hasMergeKeys d then X.expand d else d) = .ok c) (hm : c.hasMatrix = true)
    (hp : toPipeline X env c remote = some p)
    (hl : X.matrixList (if hasMergeKeys d then X.expand d else d) = .ok (done ++ axis :: rest))
    (hok : ∀ i a, done[i]? = some a → ∃ q, toAxis X p i a = .ok q) (he : toAxis X p done.length axis = .error e) :
    Legacy.convert X env d remote = some (.error e) := by
  have loop : ∀ (done : List (GoMap String)) (k : Nat), (∀ i a, done[i]? = some a → ∃ q, toAxis X p (k + i) a = .ok q) →
      toAxis X p (k + done.length) axis = .error e → axisPipelines X p k (done ++ axis :: rest) = .error e := by
    intro done
    induction done with
    | nil =>
      intro k _ he
      simp only [List.length_nil, Nat.add_zero] at he
      simp only [List.nil_append, axisPipelines, he]
      rfl
    | cons a done ih =>
      intro k hok he
      obtain ⟨q, hq⟩ := hok 0 a rfl
      simp only [Nat.add_zero] at hq
      have := ih (k + 1) (fun i b hb => by
        obtain ⟨q, hq⟩ := hok (i + 1) b (by simpa using hb)
        exact ⟨q, by rw [← hq]; congr 1; omega⟩) (by rw [← he]; congr 1; simp only [List.length_cons]; omega)
      simp only [List.cons_append, axisPipelines, hq, this]
      rfl
  have := loop done 0 (fun i a h => by simpa using hok i a h) (by simpa using he)
  unfold Legacy.convert
  simp only [hd, toManifest, hp, Option.bind_some, hm, if_true, parseMatrix, hl]
  rw [if_pos (by simp)]
  simp only [Outcome.andThen, Option.bind_some, this]

/-- A matrix that is a string. -/
example : Legacy.convert { exLegacy with
      decode := fun _ => .ok { hasMatrix := true, pipeline := [{ name := "build" }] }
      matrixList := fun _ => .error "no list"
      matrixMap := fun _ => .error "no map" } {} [] "" = some (.error "no map") := rfl

end Drone
