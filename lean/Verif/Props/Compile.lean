/-
C22 - C29, C31 - C33: compiled steps, their graph, privileges, volumes and
identifiers.

Unless said otherwise the theorems are about every compiler that uses the
library's workspace functions (`Compiler.Std`) and no `TransformFunc`; the skip,
privileged and git credential callbacks are arbitrary.
-/
import Verif.Proof.Compiled
import Verif.Props.Cond
import Verif.Props.Lint
import Verif.Props.Image

namespace Drone
open Engine (Step File)
open Spec (Role sources IsBuild Node Edge Acyclic DepsEarlier)

/-! ### A concrete library and pipeline for the examples -/

/-- A concrete choice of the external functions. -/
def exExt : Ext where
  dg := shaDigests
  glob := fun p v => p == v
  upper := fun s => String.ofList (s.toList.map Char.toUpper)
  fmtFloat := fun _ => "0.5"
  encodeSlice := fun _ => "a,b"
  encodeMap := fun _ => "{}"
  isPrint := fun c => decide (32 ≤ c.toNat ∧ c.toNat < 127)
  iter := fun _ m => m
  iter_perm := fun _ _ => List.Perm.refl _

/-- Draws `u0`, `u1`, ... -/
def exRnd (n : Nat) : String := "u" ++ toString n

/-- A pipeline with services, a build step, volumes and dependencies. -/
def exCompiled : Pipeline where
  kind := "pipeline"
  name := "default"
  services := [some { name := "redis", image := "redis", ports := [some { port := 6379 }] }]
  steps := [some { name := "image", build := some { image := "acme/app" } },
            some { name := "test", image := "acme/app", commands := ["make test"],
                   environment := [("A", some { value := "1" }), ("B", some { secret := "token" })],
                   dependsOn := ["image"] }]
  volumes := [some { name := "cache", emptyDir := some {} }]

example : lint (.pipeline exCompiled) false = .ok () := by decide

/-! ### C22 -/

/-- C22: the compiled steps are the clone step unless disabled, the services and the
steps, in this order, under their names. -/
theorem C22_steps_in_order {E : Ext} {c : Compiler} (hc : c.Std) (ht : c.transform = none)
    {rnd : Nat → String} {p : Pipeline} {sp : Engine.Spec} (h : compile E c rnd p = some sp) :
    sp.steps.map (·.md.name) =
      (if p.clone.disable then [] else ["clone"]) ++
      (p.services.filterMap id).map (·.name) ++ (p.steps.filterMap id).map (·.name) ∧
    none ∉ p.services ∧ none ∉ p.steps := by
  obtain ⟨_, h2, h3, _⟩ := compile_shape hc ht h
  refine ⟨?_, h2, h3⟩
  have hf : List.Forall₂ (fun y s => s.md.name = y.2.name) (sources p) sp.steps := by
    refine compile_forall hc ht h ?_
    intro rename y s _ hy
    obtain ⟨k, hk⟩ := hy.common hc
    rw [hk.md]
  have := forall₂_map_eq (f := fun y : Role × Container => y.2.name) (g := fun s : Step => s.md.name) hf
  rw [this]
  unfold sources
  split <;> simp [Function.comp_def]

/-- C22: the name, platform and kind of the pipeline are carried over. -/
theorem C22_metadata {E : Ext} {c : Compiler} (hc : c.Std) (ht : c.transform = none)
    {rnd : Nat → String} {p : Pipeline} {sp : Engine.Spec} (h : compile E c rnd p = some sp) :
    sp.md.labels = some [("io.drone.pipeline.name", p.name), ("io.drone.pipeline.kind", p.kind),
      ("io.drone.pipeline.type", p.type)] ∧
    sp.platform = ⟨p.platform.os, p.platform.arch, p.platform.variant, p.platform.version⟩ ∧
    sp.md.uid = rnd 0 ∧ sp.md.name = rnd 0 ∧ sp.md.namespc = rnd 0 ∧ sp.secrets = [] ∧ sp.auths = [] := by
  obtain ⟨_, _, _, r, _, rfl⟩ := compile_shape hc ht h
  exact ⟨rfl, rfl, rfl, rfl, rfl, rfl, rfl⟩

/-- C22: the scalar attributes of each container reach its compiled step. -/
theorem C22_attributes {E : Ext} {c : Compiler} (hc : c.Std) (ht : c.transform = none)
    {rnd : Nat → String} {p : Pipeline} {sp : Engine.Spec} (h : compile E c rnd p = some sp) :
    List.Forall₂ (fun y s =>
      s.md.labels = some [("io.drone.step.name", y.2.name)] ∧
      s.docker.dns = y.2.dns ∧
      (¬ IsBuild y → s.docker.user = y.2.user ∧ s.docker.network = y.2.network ∧
        s.docker.dnsSearch = y.2.dnsSearch ∧ s.docker.extraHosts = y.2.extraHosts ∧
        y.2.ports.map (·.map fun q => (⟨q.port, q.host, q.protocol⟩ : Engine.Port)) =
          s.docker.ports.map some ∧
        (y.2.commands = [] → s.docker.command = y.2.entrypoint ∧ s.docker.args = y.2.command)) ∧
      (IsBuild y → s.docker.args = ["--build"] ∧ s.docker.command = [] ∧ s.docker.ports = []))
      (sources p) sp.steps := by
  refine compile_forall hc ht h ?_
  intro rename y s _ ⟨k, raw, i, hr, hs⟩
  have hcm := rawStep_common hc hr
  have hports : ∀ (ps : List (Option Port)) (qs : List Engine.Port), ps.mapM toPort = some qs →
      ps.map (·.map fun q => (⟨q.port, q.host, q.protocol⟩ : Engine.Port)) = qs.map some := by
    intro ps
    induction ps with
    | nil => intro qs h; simp at h; subst h; rfl
    | cons a ps ih =>
      intro qs h
      rw [List.mapM_cons] at h
      simp only [Option.bind_eq_bind, Option.bind_eq_some_iff, Option.pure_def, Option.some.injEq] at h
      obtain ⟨b, hb, bs, hbs, rfl⟩ := h
      cases a with
      | none => simp [toPort] at hb
      | some q =>
        simp only [toPort, Option.some.injEq] at hb
        subst hb
        simp [ih _ hbs]
  subst hs
  by_cases hb : IsBuild y
  · obtain ⟨role, src⟩ := y
    obtain ⟨h1, h2⟩ := hb
    cases hbb : src.build with
    | none => simp [hbb] at h2
    | some b =>
      obtain rfl : role = Role.step := h1
      have hd := (rawStep_build hc hbb hr).docker
      refine ⟨by show raw.md.labels = _; rw [hcm.md], by show raw.docker.dns = _; rw [hd], fun hn => ?_, fun _ => ?_⟩
      · exact absurd ⟨rfl, h2⟩ hn
      · refine ⟨?_, ?_, ?_⟩
        · show raw.docker.args = _; rw [hd]
        · show raw.docker.command = _; rw [hd]
        · show raw.docker.ports = _; rw [hd]
  · have hp := rawStep_plain hc hb hr
    refine ⟨by show raw.md.labels = _; rw [hcm.md], hp.dns, fun _ => ?_, fun hn => absurd hn hb⟩
    refine ⟨hp.user, hp.network, hp.dnsSearch, hp.extraHosts, hports _ _ hp.ports, fun hcmd => ?_⟩
    have := hp.command
    simp only [commandOf, hcmd, List.length_nil, gt_iff_lt, Nat.lt_irrefl, if_false, Prod.mk.injEq] at this
    exact this

example : (compile exExt {} exRnd exCompiled).map (fun sp => sp.steps.map (·.md.name)) =
    some ["clone", "redis", "image", "test"] := by decide +kernel

/-! ### C23 -/

/-- C23: services are detached, steps as declared, the clone step never. -/
theorem C23_detached {E : Ext} {c : Compiler} (hc : c.Std) (ht : c.transform = none)
    {rnd : Nat → String} {p : Pipeline} {sp : Engine.Spec} (h : compile E c rnd p = some sp) :
    List.Forall₂ (fun y s =>
      match y.1 with
      | .clone => s.detach = false
      | .service => s.detach = true
      | .step => s.detach = y.2.detach) (sources p) sp.steps := by
  refine compile_forall hc ht h ?_
  intro rename y s hmem hy
  obtain ⟨k, hk⟩ := hy.common hc
  have hd := hk.detach
  rcases mem_sources.mp hmem with ⟨_, rfl⟩ | ⟨hr, _⟩ | ⟨hr, _⟩
  · simpa using hd
  · rw [hr] at hd ⊢; simpa using hd
  · rw [hr] at hd ⊢; simpa using hd

example : (compile exExt {} exRnd exCompiled).map (fun sp => sp.steps.map (·.detach)) =
    some [false, true, false, false] := by decide +kernel

/-! ### C24 -/

/-- The status condition selects a successful build. -/
def Spec.SelectsSuccess (g : Glob) (st : Condition) : Prop :=
  (∀ p ∈ st.excl, g p "success" = false) ∧ (st.incl = [] ∨ ∃ p ∈ st.incl, g p "success" = true)

/-- The status condition selects a failed build. -/
def Spec.SelectsFailure (g : Glob) (st : Condition) : Prop :=
  (∀ p ∈ st.excl, g p "failure" = false) ∧ ∃ p ∈ st.incl, g p "failure" = true

/-- C24: a service or step never runs iff the skip callback says so or its own status
condition selects neither outcome; otherwise it runs on exactly the outcomes the
status condition selects.  The clone step runs on success. -/
theorem C24_run_policy {E : Ext} {c : Compiler} (hc : c.Std) (ht : c.transform = none)
    {rnd : Nat → String} {p : Pipeline} {sp : Engine.Spec} (h : compile E c rnd p = some sp) :
    List.Forall₂ (fun y s =>
      (y.1 = .clone → s.runPolicy = .onSuccess) ∧
      (y.1 ≠ .clone →
        (s.runPolicy = .never ↔ c.skip.any (· y.2) = true ∨
          (¬ Spec.SelectsSuccess E.glob y.2.cond.status ∧ ¬ Spec.SelectsFailure E.glob y.2.cond.status)) ∧
        (c.skip.any (· y.2) = false →
          (s.runPolicy.runsOnSuccess = true ↔ Spec.SelectsSuccess E.glob y.2.cond.status) ∧
          (s.runPolicy.runsOnFailure = true ↔ Spec.SelectsFailure E.glob y.2.cond.status))))
      (sources p) sp.steps := by
  refine compile_forall hc ht h ?_
  intro rename y s hmem hy
  obtain ⟨k, hk⟩ := hy.common hc
  have hp := hk.runPolicy
  have h20 := C20_run_policy E.glob y.2
  have hnever : ∀ r : RunPolicy, r = .never ↔ ¬ r.runsOnSuccess = true ∧ ¬ r.runsOnFailure = true := by
    intro r; cases r <;> simp [RunPolicy.runsOnSuccess, RunPolicy.runsOnFailure]
  constructor
  · intro hr
    rcases mem_sources.mp hmem with ⟨_, rfl⟩ | ⟨hr', _⟩ | ⟨hr', _⟩
    · simp only [ne_eq, not_true_eq_false, false_and, if_false] at hp
      rw [hp]
      exact C20_default _ _ rfl
    · rw [hr] at hr'; simp at hr'
    · rw [hr] at hr'; simp at hr'
  · intro hr
    by_cases hsk : c.skip.any (· y.2) = true
    · have : s.runPolicy = .never := by
        rw [hp, if_pos ⟨hr, hsk⟩]
      exact ⟨⟨fun _ => .inl hsk, fun _ => this⟩, fun hf => by rw [hsk] at hf; simp at hf⟩
    · have : s.runPolicy = toRunPolicy E.glob y.2 := by
        rw [hp, if_neg]
        · rfl
        · rintro ⟨_, h⟩; exact hsk h
      rw [this]
      refine ⟨?_, fun _ => ⟨h20.2, h20.1⟩⟩
      rw [hnever, h20.1, h20.2]
      simp only [hsk, Bool.false_eq_true, false_or]
      rfl

example : (compile exExt { skip := some fun c => c.name == "redis" } exRnd exCompiled).map
    (fun sp => sp.steps.map (·.runPolicy)) = some [.onSuccess, .never, .onSuccess, .onSuccess] := by
  decide +kernel

/-! ### C25, C26 -/

/-- The dependency graph of a compiled specification. -/
def Spec.compiledNodes (sp : Engine.Spec) : List Node := sp.steps.map fun s => (s.md.name, s.dependsOn)

/-- No step (services do not count) declares dependencies. -/
def Spec.Serial (p : Pipeline) : Prop := ∀ s, some s ∈ p.steps → s.dependsOn = []

theorem serialOf_iff (p : Pipeline) : serialOf p = true ↔ Spec.Serial p := by
  unfold serialOf Spec.Serial
  rw [decide_eq_true_eq]
  simp [List.mem_filterMap]

/-- C25: the dependencies of a compiled step are the declared ones, except that in a
pipeline with step dependencies and cloning enabled services also wait for the clone
step, and steps without dependencies wait for it. -/
theorem C25_dependencies {E : Ext} {c : Compiler} (hc : c.Std) (ht : c.transform = none)
    {rnd : Nat → String} {p : Pipeline} {sp : Engine.Spec} (h : compile E c rnd p = some sp) :
    (Spec.Serial p ∨ p.clone.disable = true →
      List.Forall₂ (fun y s => s.dependsOn = y.2.dependsOn) (sources p) sp.steps) ∧
    (¬ Spec.Serial p → p.clone.disable = false →
      List.Forall₂ (fun y s =>
        (y.1 = .clone → s.dependsOn = []) ∧
        (y.1 = .service → s.dependsOn = y.2.dependsOn ++ ["clone"]) ∧
        (y.1 = .step → s.dependsOn = if y.2.dependsOn = [] then ["clone"] else y.2.dependsOn))
        (sources p) sp.steps) := by
  constructor
  · intro hs
    refine compile_forall hc ht h ?_
    intro rename y s hmem hy
    obtain ⟨k, hk⟩ := hy.common hc
    rw [hk.dependsOn, if_neg]
    · simp
    · rintro ⟨h1, h2, _⟩
      rcases hs with hs | hs
      · rw [← serialOf_iff] at hs
        have : serialOf p = false := h1
        rw [hs] at this; simp at this
      · have : p.clone.disable = false := h2
        rw [hs] at this; simp at this
  · intro hs hd
    have hser : serialOf p = false := by
      cases hh : serialOf p with
      | false => rfl
      | true => exact absurd ((serialOf_iff p).mp hh) hs
    refine compile_forall hc ht h ?_
    intro rename y s hmem hy
    obtain ⟨k, hk⟩ := hy.common hc
    have hdep := hk.dependsOn
    simp only [show (ctxOf E c rnd p).serial = false from hser,
      show (ctxOf E c rnd p).p.clone.disable = false from hd, true_and] at hdep
    refine ⟨fun hr => ?_, fun hr => ?_, fun hr => ?_⟩
    · rcases mem_sources.mp hmem with ⟨_, rfl⟩ | ⟨hr', _⟩ | ⟨hr', _⟩
      · simpa using hdep
      · rw [hr] at hr'; simp at hr'
      · rw [hr] at hr'; simp at hr'
    · simpa [hr] using hdep
    · rw [hdep, hr]
      by_cases he : y.2.dependsOn = [] <;> simp [he]

theorem nodes_reach {roots : List String} {full : List Node} :
    ∀ (post pre : List Node), full = pre ++ post → DepsEarlier roots full →
    (∀ n ∈ full, n.2 ≠ []) →
    (∀ a ∈ pre.map Prod.fst, ∃ r ∈ roots, Relation.TransGen (Edge full) a r) →
    ∀ a ∈ full.map Prod.fst, ∃ r ∈ roots, Relation.TransGen (Edge full) a r
  | [], pre, he, _, _, hpre, a, ha => by
    simp only [List.append_nil] at he
    rw [he] at ha
    exact hpre a ha
  | n :: post, pre, he, hd, hne, hpre, a, ha => by
    refine nodes_reach post (pre ++ [n]) (by simp [he]) hd hne ?_ a ha
    intro b hb
    simp only [List.map_append, List.mem_append, List.map_cons, List.map_nil, List.mem_singleton] at hb
    rcases hb with hb | rfl
    · exact hpre b hb
    · have hn : n ∈ full := by rw [he]; simp
      obtain ⟨d, hdm⟩ := List.exists_mem_of_ne_nil _ (hne n hn)
      have hedge : Edge full n.1 d := ⟨n, hn, rfl, hdm⟩
      rcases hd pre n post he d hdm with h1 | h1
      · exact ⟨d, h1, .single hedge⟩
      · obtain ⟨r, hr, ht⟩ := hpre d h1
        exact ⟨r, hr, .head hedge ht⟩

/-- C25: in a pipeline accepted by the linter that has step dependencies and cloning
enabled, every compiled service and step waits for the clone step, directly or through
a chain of dependencies. -/
theorem C25_waits_for_clone {E : Ext} {c : Compiler} (hc : c.Std) (ht : c.transform = none)
    {rnd : Nat → String} {p : Pipeline} {sp : Engine.Spec} (h : compile E c rnd p = some sp)
    {trusted : Bool} (hl : lint (.pipeline p) trusted = .ok ())
    (hs : ¬ Spec.Serial p) (hd : p.clone.disable = false) :
    List.Forall₂ (fun y s => y.1 ≠ .clone →
      Relation.TransGen (Edge (Spec.compiledNodes sp)) s.md.name "clone") (sources p) sp.steps := by
  obtain ⟨ss, sv, hp⟩ := (C12_lint_iff p trusted).1 hl
  have hdeps := (C25_dependencies hc ht h).2 hs hd
  have hnames : List.Forall₂ (fun y s => s.md.name = y.2.name) (sources p) sp.steps := by
    refine compile_forall hc ht h ?_
    intro rename y s _ hy
    obtain ⟨k, hk⟩ := hy.common hc
    rw [hk.md]
  -- the graph of the steps with the implicit dependency
  let g : List Node := ss.map fun c => (c.name, if c.dependsOn = [] then ["clone"] else c.dependsOn)
  have hcn : Spec.cloneNames p = ["clone"] := by simp [Spec.cloneNames, hd]
  have hg : DepsEarlier ["clone"] g := by
    intro pre n post he d hdm
    have := hp.deps
    rw [hcn] at this
    obtain ⟨pre', rest, e1, e2, e3⟩ := List.map_eq_append_iff.mp he
    obtain ⟨c0, post', e4, e5, e6⟩ := List.map_eq_cons_iff.mp e3
    subst e5 e2
    simp only at hdm
    split at hdm
    · exact .inl hdm
    · have h2 := this (Spec.nodes pre') (c0.name, c0.dependsOn) (Spec.nodes post')
        (by rw [e1, e4]; simp [Spec.nodes]) d hdm
      simpa [Spec.nodes] using h2
  have hreach := nodes_reach g [] rfl hg (by
    intro n hn
    obtain ⟨c0, _, rfl⟩ := List.mem_map.mp hn
    simp only
    split
    · simp
    · assumption) (by simp)
  have hsub : ∀ a b, Edge g a b → Edge (Spec.compiledNodes sp) a b := by
    rintro a b ⟨n, hn, rfl, hb⟩
    obtain ⟨c0, hc0, rfl⟩ := List.mem_map.mp hn
    have hm : (Role.step, c0) ∈ sources p :=
      mem_sources.mpr (.inr (.inr ⟨rfl, by rw [hp.steps_eq]; exact List.mem_map.mpr ⟨c0, hc0, rfl⟩⟩))
    obtain ⟨i, hi, hget⟩ := List.getElem_of_mem hm
    have hlen := hdeps.length_eq
    have d1 := (List.forall₂_iff_get.mp hdeps).2 i hi (by omega)
    have n1 := (List.forall₂_iff_get.mp hnames).2 i hi (by omega)
    simp only [List.get_eq_getElem, hget] at d1 n1
    refine ⟨_, List.mem_map.mpr ⟨sp.steps[i]'(by omega), List.getElem_mem _, rfl⟩, n1, ?_⟩
    rw [d1.2.2 trivial]
    exact hb
  rw [List.forall₂_iff_get]
  have hlen := hdeps.length_eq
  refine ⟨hlen, fun i h1 h2 hne => ?_⟩
  have d1 := (List.forall₂_iff_get.mp hdeps).2 i h1 h2
  have n1 := (List.forall₂_iff_get.mp hnames).2 i h1 h2
  rcases mem_sources.mp (List.get_mem (sources p) ⟨i, h1⟩) with ⟨_, e⟩ | ⟨e, _⟩ | ⟨e, hmem⟩
  · rw [e] at hne; simp at hne
  · refine .single ⟨_, List.mem_map.mpr ⟨_, List.get_mem _ ⟨i, h2⟩, rfl⟩, rfl, ?_⟩
    rw [d1.2.1 e]
    simp
  · rw [hp.steps_eq] at hmem
    obtain ⟨c0, hc0, e0⟩ := List.mem_map.mp hmem
    simp only [Option.some.injEq] at e0
    obtain ⟨r, hr, hreach⟩ := hreach ((sources p).get ⟨i, h1⟩).2.name
      (List.mem_map.mpr ⟨_, List.mem_map.mpr ⟨c0, hc0, rfl⟩, by rw [e0]⟩)
    simp only [List.mem_singleton] at hr
    subst hr
    rw [n1]
    exact Relation.TransGen.mono (fun a b => hsub a b) _ _ hreach

example : (compile exExt {} exRnd exCompiled).map Spec.compiledNodes =
    some [("clone", []), ("redis", ["clone"]), ("image", ["clone"]), ("test", ["image"])] := by
  decide +kernel

theorem depsEarlier_append {roots : List String} : ∀ {A B : List Node},
    DepsEarlier roots A → DepsEarlier (roots ++ A.map Prod.fst) B → DepsEarlier roots (A ++ B)
  | [], B, _, hB => by simpa using hB
  | a :: A, B, hA, hB => by
    rw [List.cons_append, depsEarlier_cons]
    rw [depsEarlier_cons] at hA
    refine ⟨hA.1, depsEarlier_append hA.2 ?_⟩
    rintro pre n post rfl d hd
    rcases hB pre n post rfl d hd with h | h
    · left; simp only [List.map_cons, List.mem_append, List.mem_cons] at h ⊢; tauto
    · exact .inr h

/-- C26: a pipeline the linter accepts, without dependencies on services, compiles to
a graph in which every dependency names a step listed before; it has no cycle. -/
theorem C26_acyclic {E : Ext} {c : Compiler} (hc : c.Std) (ht : c.transform = none)
    {rnd : Nat → String} {p : Pipeline} {sp : Engine.Spec} (h : compile E c rnd p = some sp)
    {trusted : Bool} (hl : lint (.pipeline p) trusted = .ok ())
    (hsv : ∀ s, some s ∈ p.services → s.dependsOn = []) :
    ((Spec.compiledNodes sp).map Prod.fst).Nodup ∧
    DepsEarlier [] (Spec.compiledNodes sp) ∧ Acyclic (Spec.compiledNodes sp) := by
  obtain ⟨ss, sv, hp⟩ := (C12_lint_iff p trusted).1 hl
  let dep (y : Role × Container) : List String := y.2.dependsOn ++
    (if serialOf p = false ∧ p.clone.disable = false ∧
        (y.1 = .service ∨ (y.1 = .step ∧ y.2.dependsOn = [])) then ["clone"] else [])
  have hf : List.Forall₂ (fun y s => (s.md.name, s.dependsOn) = (y.2.name, dep y)) (sources p) sp.steps := by
    refine compile_forall hc ht h ?_
    intro rename y s _ hy
    obtain ⟨k, hk⟩ := hy.common hc
    rw [hk.md, hk.dependsOn]
    rfl
  have hn : Spec.compiledNodes sp = (sources p).map fun y => (y.2.name, dep y) :=
    forall₂_map_eq (f := fun y : Role × Container => (y.2.name, dep y))
      (g := fun s : Step => (s.md.name, s.dependsOn)) hf
  have hsv' : p.services.filterMap id = sv := by rw [hp.services_eq]; simp
  have hss' : p.steps.filterMap id = ss := by rw [hp.steps_eq]; simp
  have hsrc : (Spec.compiledNodes sp) =
      (Spec.cloneNames p).map (fun n => (n, [])) ++
      (sv.map (fun c => (c.name, dep (Role.service, c))) ++ ss.map (fun c => (c.name, dep (Role.step, c)))) := by
    rw [hn]
    unfold sources Spec.cloneNames
    rw [hsv', hss']
    by_cases hd : p.clone.disable = true
    · simp [hd, Function.comp_def]
    · simp [hd, Function.comp_def, dep]
  have hnames : (Spec.compiledNodes sp).map Prod.fst =
      Spec.cloneNames p ++ (sv.map (·.name) ++ ss.map (·.name)) := by
    rw [hsrc]; simp [Function.comp_def]
  have hnodup : ((Spec.compiledNodes sp).map Prod.fst).Nodup := by
    rw [hnames]
    have := hp.unique
    rw [List.map_append] at this
    exact (List.Perm.nodup_iff (List.Perm.append_left _ List.perm_append_comm)).mp this
  have hcl : ∀ (d : String), p.clone.disable = false → d ∈ ["clone"] → d ∈ Spec.cloneNames p := by
    intro d hd hm; simpa [Spec.cloneNames, hd] using hm
  have hdeps : DepsEarlier [] (Spec.compiledNodes sp) := by
    rw [hsrc]
    apply depsEarlier_append
    · rintro pre n post he d hd
      have : n ∈ (Spec.cloneNames p).map (fun n => ((n, []) : Node)) := by rw [he]; simp
      obtain ⟨_, _, rfl⟩ := List.mem_map.mp this
      simp at hd
    · apply depsEarlier_append
      · rintro pre n post he d hd
        have hm : n ∈ sv.map (fun c => ((c.name, dep (Role.service, c)) : Node)) := by rw [he]; simp
        obtain ⟨c0, hc0, rfl⟩ := List.mem_map.mp hm
        have h0 : c0.dependsOn = [] := hsv c0 (by rw [hp.services_eq]; exact List.mem_map.mpr ⟨c0, hc0, rfl⟩)
        simp only [dep, h0, List.nil_append] at hd
        split at hd
        · rename_i hh
          left
          simpa [Function.comp_def] using hcl d hh.2.1 hd
        · simp at hd
      · rintro pre n post he d hd
        obtain ⟨pre', rest, e1, e2, e3⟩ := List.map_eq_append_iff.mp he
        obtain ⟨c0, post', e4, e5, e6⟩ := List.map_eq_cons_iff.mp e3
        subst e5 e2
        simp only [dep, List.mem_append] at hd
        rcases hd with hd | hd
        · have h2 := hp.deps (Spec.nodes pre') (c0.name, c0.dependsOn) (Spec.nodes post')
            (by rw [e1, e4]; simp [Spec.nodes]) d hd
          rcases h2 with h2 | h2
          · left; simp [Function.comp_def, h2]
          · right; simpa [Spec.nodes, Function.comp_def] using h2
        · split at hd
          · rename_i hh
            left
            have := hcl d hh.2.1 hd
            simp [Function.comp_def, this]
          · simp at hd
  exact ⟨hnodup, hdeps, acyclic_of_earlier hnodup (by simp) hdeps⟩

example : lint (.pipeline exCompiled) false = .ok () ∧
    (∀ s, some s ∈ exCompiled.services → s.dependsOn = []) := by
  refine ⟨by decide, ?_⟩
  intro s hs
  simp [exCompiled] at hs
  subst hs
  rfl

/-- Why services must not declare dependencies: the linter ignores `depends_on` of
services, and this accepted pipeline compiles to a service waiting for itself. -/
theorem C26_service_cycle :
    let p : Pipeline := { kind := "pipeline", services := [some { name := "db", image := "db", dependsOn := ["db"] }] }
    lint (.pipeline p) false = .ok () ∧
    ∃ sp, compile exExt {} exRnd p = some sp ∧ ¬ Acyclic (Spec.compiledNodes sp) := by
  refine ⟨by decide, ?_⟩
  have h : (compile exExt {} exRnd
      { kind := "pipeline", services := [some { name := "db", image := "db", dependsOn := ["db"] }] }).map
      Spec.compiledNodes = some [("clone", []), ("db", ["db"])] := by decide +kernel
  rw [Option.map_eq_some_iff] at h
  obtain ⟨sp, h1, h2⟩ := h
  refine ⟨sp, h1, fun ha => ha "db" (.single ?_)⟩
  rw [h2]
  exact ⟨("db", ["db"]), by simp, rfl, by simp⟩

/-! ### C27 -/

theorem container_ok {trusted : Bool} {p : Pipeline} {ss sv : List Container}
    (hp : Spec.PipelineOK trusted p ss sv) {y : Role × Container} (hmem : y ∈ sources p)
    (hr : y.1 ≠ .clone) : Spec.ContainerOK trusted y.2 := by
  rcases mem_sources.mp hmem with ⟨_, rfl⟩ | ⟨_, hm⟩ | ⟨_, hm⟩
  · exact absurd rfl hr
  · rw [hp.services_eq] at hm
    obtain ⟨c0, hc0, e⟩ := List.mem_map.mp hm
    simp only [Option.some.injEq] at e
    rw [← e]
    exact hp.containers c0 (by simp [hc0])
  · rw [hp.steps_eq] at hm
    obtain ⟨c0, hc0, e⟩ := List.mem_map.mp hm
    simp only [Option.some.injEq] at e
    rw [← e]
    exact hp.containers c0 (by simp [hc0])

theorem CompiledFrom.privileged {x : Ctx} (hc : x.c.Std) {rnd rename y s}
    (h : CompiledFrom x rnd rename y s) :
    s.docker.privileged = ((decide (¬ IsBuild y) && y.2.privileged) ||
      (decide (y.1 ≠ .clone) && x.c.privileged.any (· y.2))) := by
  obtain ⟨k, raw, i, hr, rfl⟩ := h
  by_cases hb : IsBuild y
  · obtain ⟨role, src⟩ := y
    obtain ⟨h1, h2⟩ := hb
    obtain rfl : role = Role.step := h1
    cases hbb : src.build with
    | none => simp [hbb] at h2
    | some b =>
      have hd := (rawStep_build hc hbb hr).docker
      show raw.docker.privileged = _
      rw [hd]
      simp [IsBuild, hbb]
  · have hp := rawStep_plain hc hb hr
    show raw.docker.privileged = _
    rw [hp.privileged]
    simp [hb]

/-- C27: who runs privileged. -/
theorem C27_privileged {E : Ext} {c : Compiler} (hc : c.Std) (ht : c.transform = none)
    {rnd : Nat → String} {p : Pipeline} {sp : Engine.Spec} (h : compile E c rnd p = some sp) :
    List.Forall₂ (fun y s =>
      (y.1 = .clone → s.docker.privileged = false) ∧
      (y.1 ≠ .clone → (s.docker.privileged = true ↔
        c.privileged.any (· y.2) = true ∨ (¬ IsBuild y ∧ y.2.privileged = true)))) (sources p) sp.steps := by
  refine compile_forall hc ht h ?_
  intro rename y s hmem hy
  have := hy.privileged hc
  refine ⟨fun hr => ?_, fun hr => ?_⟩
  · rcases mem_sources.mp hmem with ⟨_, rfl⟩ | ⟨hr', _⟩ | ⟨hr', _⟩
    · simpa using this
    · rw [hr] at hr'; simp at hr'
    · rw [hr] at hr'; simp at hr'
  · rw [this, Bool.or_eq_true, Bool.and_eq_true, Bool.and_eq_true, decide_eq_true_eq, decide_eq_true_eq]
    constructor
    · rintro (h | h)
      · exact .inr h
      · exact .inl h.2
    · rintro (h | h)
      · exact .inr ⟨hr, h⟩
      · exact .inl h

/-- C27: for a pipeline accepted as untrusted only the callback grants privileges. -/
theorem C27_untrusted {E : Ext} {c : Compiler} (hc : c.Std) (ht : c.transform = none)
    {rnd : Nat → String} {p : Pipeline} {sp : Engine.Spec} (h : compile E c rnd p = some sp)
    (hl : lint (.pipeline p) false = .ok ()) :
    List.Forall₂ (fun y s => s.docker.privileged = true ↔
      y.1 ≠ .clone ∧ c.privileged.any (· y.2) = true) (sources p) sp.steps := by
  obtain ⟨ss, sv, hp⟩ := (C12_lint_iff p false).1 hl
  refine compile_forall hc ht h ?_
  intro rename y s hmem hy
  have hpr := hy.privileged hc
  have hsrc : y.2.privileged = false := by
    rcases mem_sources.mp hmem with ⟨_, rfl⟩ | ⟨_, hm⟩ | ⟨_, hm⟩
    · rfl
    all_goals exact ((container_ok hp hmem (by simp [*])).untrusted rfl).1
  rw [hpr, hsrc, Bool.and_false, Bool.false_or, Bool.and_eq_true, decide_eq_true_eq]
  rfl

example : (compile exExt { privileged := some (dindFunc exExt.dg ["acme/app"]) } exRnd
    { exCompiled with steps := [some { name := "a", image := "acme/app:1" }, some { name := "b", image := "x" }] }).map
    (fun sp => sp.steps.map (·.docker.privileged)) = some [false, false, true, false] := by decide +kernel

end Drone
