/-
C129: what the compiler does not look at, and what it does.
-/
import Verif.Proof.Unseen
import Verif.Props.Local
import Verif.Model.Cli

namespace Drone
open Engine (Step File)
open Spec.Unseen (SamePlain SameBuild SameBuilder SameAnswers SameService SameStep SameVolume SamePipeline Pointwise)

/-- **C129.** Two pipelines that agree in what the compiler looks at compile to the same, whatever
callbacks are set.  In particular devices, shells, push sections, build arguments and labels,
node labels, concurrency limits and pull secrets have no effect on what is compiled. -/
theorem C129_same (E : Ext) (c : Compiler) (rnd : Nat → String) {p q : Pipeline} (h : SamePipeline c p q) :
    compile E c rnd p = compile E c rnd q := by
  unfold compile
  rw [compileCore_same E c rnd h]

/-! ### Whole keys without effect -/

/-- A container without the keys that never count: devices, shell, push, and the arguments and labels
of its build section. -/
def Spec.Unseen.bareContainer (c : Container) : Container :=
  { c with devices := [], shell := "", push := none, build := c.build.map fun b => { b with args := [], labels := [] } }

/-- A pipeline without the keys that say when and where it is run, and with bare containers. -/
def Spec.Unseen.bare (p : Pipeline) : Pipeline :=
  { p with
    version := ""
    concurrency := {}
    dependsOn := []
    node := []
    pullSecrets := []
    trigger := {}
    services := p.services.map (·.map Spec.Unseen.bareContainer)
    steps := p.steps.map (·.map Spec.Unseen.bareContainer) }

/-- The callbacks do not look at the keys that never count. -/
structure Compiler.Bare (c : Compiler) : Prop where
  skip : ∀ f ∈ c.skip, ∀ a, f (Spec.Unseen.bareContainer a) = f a
  privileged : ∀ f ∈ c.privileged, ∀ a, f (Spec.Unseen.bareContainer a) = f a

theorem samePlain_bare (a : Container) : SamePlain (Spec.Unseen.bareContainer a) a := by
  constructor <;> first | rfl | exact fun _ => ⟨rfl, rfl⟩ | exact fun _ _ => rfl

theorem sameStep_bare {c : Compiler} (hc : c.Bare) (a : Container) : SameStep c (Spec.Unseen.bareContainer a) a := by
  refine ⟨?_, fun f hf => hc.skip f hf a, fun f hf => hc.privileged f hf a⟩
  cases hb : a.build with
  | none => exact .inl ⟨by simp [Spec.Unseen.bareContainer, hb], rfl, samePlain_bare a⟩
  | some b =>
    exact .inr
      { build := ⟨{ b with args := [], labels := [] }, b, by simp [Spec.Unseen.bareContainer, hb], hb, rfl, rfl, rfl, rfl⟩
        name := rfl
        detach := rfl
        dependsOn := rfl
        dns := rfl
        failure := rfl
        resources := rfl
        status := rfl
        idle := fun _ => Iff.rfl }

theorem pointwise_map {α : Type} {R : α → α → Prop} {f : α → α} (h : ∀ a, R (f a) a) :
    ∀ l : List (Option α), Pointwise R (l.map (·.map f)) l
  | [] => .nil
  | none :: l => .cons .none (pointwise_map h l)
  | some a :: l => .cons (.some (h a)) (pointwise_map h l)

theorem pointwise_refl {α : Type} {R : α → α → Prop} (h : ∀ a, R a a) : ∀ l : List (Option α), Pointwise R l l
  | [] => .nil
  | none :: l => .cons .none (pointwise_refl h l)
  | some a :: l => .cons (.some (h a)) (pointwise_refl h l)

theorem samePipeline_bare {c : Compiler} (hc : c.Bare) (p : Pipeline) : SamePipeline c (Spec.Unseen.bare p) p where
  name := rfl
  kind := rfl
  type := rfl
  platform := rfl
  workspace := rfl
  disable := rfl
  depth := fun _ => .inl rfl
  skipVerify := fun _ => rfl
  services := pointwise_map (fun a => ⟨samePlain_bare a, fun f hf => hc.skip f hf a, fun f hf => hc.privileged f hf a⟩) _
  steps := pointwise_map (fun a => sameStep_bare hc a) _
  volumes := pointwise_refl (fun _ => ⟨rfl, rfl, fun _ => rfl⟩) _

/-- **C129.** The keys `version`, `concurrency`, `depends_on`, `node`, `image_pull_secrets` and `trigger`
of a pipeline, `devices`, `shell` and `push` of a container and `args` and `labels` of a build section
can be left out without changing what is compiled. -/
theorem C129_bare (E : Ext) (c : Compiler) (hc : c.Bare) (rnd : Nat → String) (p : Pipeline) :
    compile E c rnd (Spec.Unseen.bare p) = compile E c rnd p :=
  C129_same E c rnd (samePipeline_bare hc p)

theorem compilerFor_bare (X : Cli.CliLib) (fl : Cli.CompileFlags) : (Cli.compilerFor X fl).Bare := by
  constructor
  · intro f hf a
    simp only [Cli.compilerFor, Option.mem_def, Option.some.injEq] at hf
    subst hf
    rfl
  · intro f hf a
    simp only [Cli.compilerFor, Option.mem_def, Option.some.injEq] at hf
    subst hf
    rfl

/-- **C129.** The same for the compile command with all its flags. -/
theorem C129_command (X : Cli.CliLib) (fl : Cli.CompileFlags) (p : Pipeline) :
    Cli.compileWith X fl (Spec.Unseen.bare p) = Cli.compileWith X fl p := by
  unfold Cli.compileWith
  rw [compileCore_same X.ext (Cli.compilerFor X fl) X.rnd (samePipeline_bare (compilerFor_bare X fl) p)]

/-! ### What does count -/

/-- **C129.** What counts: from what is compiled the name, kind, type and platform of the pipeline can be
read off, and of every container its name, nameservers and whether its failure is ignored; of those
without a build section also the user, network mode, search domains, hosts and ports, and the
entrypoint and command if there are no commands. -/
theorem C129_seen {E : Ext} {c : Compiler} (hc : c.Std) (ht : c.transform = none) {rnd : Nat → String}
    {p q : Pipeline} {sp : Engine.Spec} (hp : compile E c rnd p = some sp) (hq : compile E c rnd q = some sp) :
    p.name = q.name ∧ p.kind = q.kind ∧ p.type = q.type ∧ p.platform = q.platform ∧
    (Spec.sources p).length = (Spec.sources q).length ∧
    ∀ (i : Nat) (y z : Spec.Role × Container), (Spec.sources p)[i]? = some y → (Spec.sources q)[i]? = some z →
      y.2.name = z.2.name ∧ y.2.dns = z.2.dns ∧ toIgnoreErr y.2 = toIgnoreErr z.2 ∧
      (¬ Spec.IsBuild y → ¬ Spec.IsBuild z →
        y.2.user = z.2.user ∧ y.2.network = z.2.network ∧ y.2.dnsSearch = z.2.dnsSearch ∧
        y.2.extraHosts = z.2.extraHosts ∧ y.2.ports = z.2.ports ∧
        (y.2.commands = [] → z.2.commands = [] → y.2.entrypoint = z.2.entrypoint ∧ y.2.command = z.2.command)) := by
  obtain ⟨l1, f1, _⟩ := C22_metadata hc ht hp
  obtain ⟨l2, f2, _⟩ := C22_metadata hc ht hq
  rw [l1] at l2
  rw [f1] at f2
  have a1 := C22_attributes hc ht hp
  have a2 := C22_attributes hc ht hq
  have i1 : List.Forall₂ (fun (y : Spec.Role × Container) s => s.ignoreErr = toIgnoreErr y.2) (Spec.sources p) sp.steps :=
    compile_forall hc ht hp fun rn y s _ hy => by obtain ⟨k, hk⟩ := hy.common hc; exact hk.ignoreErr
  have i2 : List.Forall₂ (fun (y : Spec.Role × Container) s => s.ignoreErr = toIgnoreErr y.2) (Spec.sources q) sp.steps :=
    compile_forall hc ht hq fun rn y s _ hy => by obtain ⟨k, hk⟩ := hy.common hc; exact hk.ignoreErr
  simp only [Option.some.injEq, List.cons.injEq, Prod.mk.injEq, true_and, and_true] at l2
  refine ⟨l2.1, l2.2.1, l2.2.2, ?_, a1.length_eq.trans a2.length_eq.symm, ?_⟩
  · generalize p.platform = x at f2 ⊢
    generalize q.platform = y at f2 ⊢
    cases x
    cases y
    simpa using f2
  · intro i y z hy hz
    obtain ⟨hlt, _⟩ := List.getElem?_eq_some_iff.1 hy
    have hlt : i < sp.steps.length := a1.length_eq ▸ hlt
    have hs := List.getElem?_eq_getElem hlt
    obtain ⟨n1, d1, b1, _⟩ := forall₂_getElem? a1 hy hs
    obtain ⟨n2, d2, b2, _⟩ := forall₂_getElem? a2 hz hs
    have e1 := forall₂_getElem? i1 hy hs
    have e2 := forall₂_getElem? i2 hz hs
    rw [n1] at n2
    simp only [Option.some.injEq, List.cons.injEq, Prod.mk.injEq, true_and, and_true] at n2
    refine ⟨n2, d1.symm.trans d2, e1.symm.trans e2, fun h1 h2 => ?_⟩
    obtain ⟨u1, w1, s1, x1, p1, c1⟩ := b1 h1
    obtain ⟨u2, w2, s2, x2, p2, c2⟩ := b2 h2
    refine ⟨u1.symm.trans u2, w1.symm.trans w2, s1.symm.trans s2, x1.symm.trans x2, ?_, fun g1 g2 => ?_⟩
    · have := p1.trans p2.symm
      refine List.map_injective_iff.2 (Option.map_injective ?_) this
      intro a b hab
      cases a
      cases b
      simpa using hab
    · exact ⟨(c1 g1).1.symm.trans (c2 g2).1, (c1 g1).2.symm.trans (c2 g2).2⟩

/-! ### Cases -/

/-- A trusted pipeline that asks for a device and another shell, and builds an image with an argument. -/
def exUnseen : Pipeline :=
  { kind := "pipeline"
    name := "default"
    concurrency := { limit := 1 }
    node := [("disk", "ssd")]
    steps := [
      some { name := "flash", image := "golang", shell := "bash", commands := ["make flash"],
             devices := [some { name := "usb", devicePath := "/dev/ttyUSB0" }] },
      some { name := "image", build := some { image := "a/b", args := [("VERSION", "2")] }, settings := [("x", some { value := .str "y" })] }] }

/-- C129: the case is not trivial: something is left out, and something is compiled. -/
example : (Spec.Unseen.bare exUnseen).node ≠ exUnseen.node ∧
    (compile exExt {} exRnd exUnseen).map (fun sp => sp.steps.map fun s => (s.md.name, s.envs.length, s.docker.command)) =
      some [("clone", 6, []), ("flash", 6, ["/bin/sh"]), ("image", 8, [])] := by
  constructor
  · decide
  · decide +kernel

theorem bare_unset : ({} : Compiler).Bare where
  skip f hf := by cases hf
  privileged f hf := by cases hf

/-- C129: two containers that differ in all that is not looked at. -/
example : SamePlain
    { name := "a", image := "b", commands := ["c"], command := ["x"], workingDir := "/w", shell := "bash",
      environment := [("A", none), ("B", some { value := "1" })],
      volumes := [some { name := "_docker_socket", mountPath := "/s" }] }
    { name := "a", image := "b", commands := ["c"], entrypoint := ["y"],
      environment := [("B", some { value := "1" })] } := by
  constructor <;> first | rfl | (intro h; cases h)

/-- C129: a device makes the linter refuse an untrusted pipeline, but what is compiled for a trusted
one is the same with the device and without. -/
theorem C129_devices (devices : List (Option VolumeDevice)) (h : devices ≠ []) (E : Ext) (rnd : Nat → String)
    (p : Pipeline) (before after : List (Option Container)) (s : Container) :
    lint (.pipeline { p with steps := before ++ some { s with devices := devices } :: after }) false ≠ .ok () ∧
    compile E {} rnd { p with steps := before ++ some { s with devices := devices } :: after } =
      compile E {} rnd { p with steps := before ++ some { s with devices := [] } :: after } := by
  constructor
  · intro hl
    obtain ⟨ss, sv, hok⟩ := (C12_lint_iff _ _).1 hl
    have hs := container_ok hok (y := (.step, { s with devices := devices }))
      (mem_sources.2 (.inr (.inr ⟨rfl, by simp⟩))) (by simp)
    exact h (hs.untrusted rfl).2.1
  · rw [← C129_bare E {} bare_unset, ← C129_bare E {} bare_unset rnd { p with steps := before ++ some { s with devices := [] } :: after }]
    simp only [Spec.Unseen.bare, List.map_append, List.map_cons, Option.map_some, Spec.Unseen.bareContainer]

end Drone
