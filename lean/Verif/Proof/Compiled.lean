/- The shape of a compiled specification: steps in correspondence with the
containers of the pipeline, volumes, files and the identifiers drawn. -/
import Verif.Proof.Facts

namespace Drone
open Engine (Step File)
open Spec (Role sources IsBuild)

/-- The rename table of a compilation. -/
def renameOf (p : Pipeline) (raw : List Step) : GoMap String :=
  (List.zip (sources p) raw).foldl addRename []

/-- A step with another image. -/
def setImage (s : Step) (image : String) : Step := { s with docker := { s.docker with image := image } }

/-- The step is the compiled form of the container. -/
def CompiledFrom (x : Ctx) (rnd : Nat → String) (rename : GoMap String)
    (y : Role × Container) (s : Step) : Prop :=
  ∃ k raw i, rawStep x (rnd k) y = some raw ∧
    s = setImage raw (renameImage x.E raw.docker.image (x.E.iter i rename))

theorem emit_forall {x : Ctx} {rnd : Nat → String} : ∀ {ys : List (Role × Container)} {n : Nat} {r},
    emit x rnd n ys = some r → List.Forall₂ (fun y s => ∃ k, rawStep x (rnd k) y = some s) ys r.1
  | [], n, r, h => by simp [emit] at h; subst h; exact .nil
  | y :: ys, n, r, h => by
    simp only [emit, Option.bind_eq_some_iff, Option.map_eq_some_iff] at h
    obtain ⟨s, hs, q, hq, rfl⟩ := h
    exact .cons ⟨n, hs⟩ (emit_forall hq)

theorem renameSteps_forall {x : Ctx} {rnd : Nat → String} (rename : GoMap String)
    {ys : List (Role × Container)} {ss : List Step}
    (h : List.Forall₂ (fun y s => ∃ k, rawStep x (rnd k) y = some s) ys ss) :
    ∀ i, List.Forall₂ (CompiledFrom x rnd rename) ys (renameSteps x.E rename i ss) := by
  induction h with
  | nil => intro i; exact .nil
  | @cons y s ys ss h1 _ ih =>
    intro i
    obtain ⟨k, hk⟩ := h1
    exact .cons ⟨k, s, i, hk, rfl⟩ (ih (i + 1))

/-- What compilation without a transform returns. -/
theorem compile_shape {E : Ext} {c : Compiler} (hc : c.Std) (ht : c.transform = none)
    {rnd : Nat → String} {p : Pipeline} {sp : Engine.Spec} (h : compile E c rnd p = some sp) :
    none ∉ p.volumes ∧ none ∉ p.services ∧ none ∉ p.steps ∧
    ∃ r, emit (ctxOf E c rnd p) rnd (firstDraw c rnd p) (sources p) = some r ∧
      sp = (finish E c rnd p r).spec := by
  unfold compile at h
  rw [Option.map_eq_some_iff] at h
  obtain ⟨st, hst, he⟩ := h
  obtain ⟨h1, h2, h3⟩ := compileCore_no_nil hst
  refine ⟨h1, h2, h3, ?_⟩
  rw [compileCore_eq E c hc rnd p h1 h2 h3, Option.map_eq_some_iff] at hst
  obtain ⟨r, hr, rfl⟩ := hst
  refine ⟨r, hr, ?_⟩
  rw [ht] at he
  exact he.symm

/-- Compiled steps correspond to the containers one by one. -/
theorem compile_steps {E : Ext} {c : Compiler} (hc : c.Std) (ht : c.transform = none)
    {rnd : Nat → String} {p : Pipeline} {sp : Engine.Spec} (h : compile E c rnd p = some sp) :
    ∃ rename, List.Forall₂ (CompiledFrom (ctxOf E c rnd p) rnd rename) (sources p) sp.steps := by
  obtain ⟨_, _, _, r, hr, rfl⟩ := compile_shape hc ht h
  exact ⟨_, renameSteps_forall (x := ctxOf E c rnd p) _ (emit_forall hr) 0⟩

/-- Transfers a fact about single steps to the compiled specification. -/
theorem compile_forall {E : Ext} {c : Compiler} (hc : c.Std) (ht : c.transform = none)
    {rnd : Nat → String} {p : Pipeline} {sp : Engine.Spec} (h : compile E c rnd p = some sp)
    {P : Role × Container → Step → Prop}
    (hP : ∀ rename y s, y ∈ sources p → CompiledFrom (ctxOf E c rnd p) rnd rename y s → P y s) :
    List.Forall₂ P (sources p) sp.steps := by
  obtain ⟨rename, hf⟩ := compile_steps hc ht h
  rw [List.forall₂_iff_get] at hf ⊢
  refine ⟨hf.1, fun i h1 h2 => ?_⟩
  exact hP rename _ _ (List.get_mem _ _) (hf.2 i h1 h2)

theorem forall₂_mem_right {α β : Type} {R : α → β → Prop} {as : List α} {bs : List β}
    (h : List.Forall₂ R as bs) {b : β} (hb : b ∈ bs) : ∃ a ∈ as, R a b := by
  induction h with
  | nil => simp at hb
  | cons h1 _ ih =>
    rcases List.mem_cons.mp hb with rfl | hb
    · exact ⟨_, by simp, h1⟩
    · obtain ⟨a, ha, hr⟩ := ih hb
      exact ⟨a, by simp [ha], hr⟩

theorem forall₂_mem_left {α β : Type} {R : α → β → Prop} {as : List α} {bs : List β}
    (h : List.Forall₂ R as bs) {a : α} (ha : a ∈ as) : ∃ b ∈ bs, R a b := by
  induction h with
  | nil => simp at ha
  | cons h1 _ ih =>
    rcases List.mem_cons.mp ha with rfl | ha
    · exact ⟨_, by simp, h1⟩
    · obtain ⟨a, ha, hr⟩ := ih ha
      exact ⟨a, by simp [ha], hr⟩

theorem forall₂_map_eq {α β γ : Type} {f : α → γ} {g : β → γ} {as : List α} {bs : List β}
    (h : List.Forall₂ (fun a b => g b = f a) as bs) : bs.map g = as.map f := by
  induction h with
  | nil => rfl
  | cons h1 _ ih => simp [h1, ih]

theorem CompiledFrom.common {x : Ctx} (hc : x.c.Std) {rnd rename y s}
    (h : CompiledFrom x rnd rename y s) : ∃ k, Common x (rnd k) y s := by
  obtain ⟨k, raw, i, hr, rfl⟩ := h
  have := rawStep_common hc hr
  exact ⟨k, this.1, this.2, this.3, this.4, this.5, this.6, this.7⟩

/-- `sources` lists the steps, services and clone step of the pipeline. -/
theorem mem_sources {p : Pipeline} {y : Role × Container} : y ∈ sources p ↔
    (p.clone.disable = false ∧ y = (.clone, { name := "clone", image := Spec.cloneImageOf p.platform })) ∨
    (y.1 = .service ∧ some y.2 ∈ p.services) ∨ (y.1 = .step ∧ some y.2 ∈ p.steps) := by
  obtain ⟨r, c⟩ := y
  unfold sources
  simp only [List.mem_append, List.mem_map, List.mem_filterMap, id, exists_eq_right, Prod.mk.injEq]
  constructor
  · rintro ((h | ⟨a, h, rfl, rfl⟩) | ⟨a, h, rfl, rfl⟩)
    · split at h
      · simp at h
      · simp_all
    · exact .inr (.inl ⟨rfl, h⟩)
    · exact .inr (.inr ⟨rfl, h⟩)
  · rintro (⟨h, rfl, rfl⟩ | ⟨rfl, h⟩ | ⟨rfl, h⟩)
    · simp [h]
    · exact .inl (.inr ⟨c, h, rfl, rfl⟩)
    · exact .inr ⟨c, h, rfl, rfl⟩

/-! ### Identifiers -/

/-- The identifiers of emitted steps and files are the draws, each used once. -/
theorem emit_uids {x : Ctx} (hc : x.c.Std) {rnd : Nat → String} :
    ∀ {ys : List (Role × Container)} {n : Nat} {r},
    (∀ y ∈ ys, y.1 = .clone → y.2.commands = []) → emit x rnd n ys = some r →
    n ≤ r.2.2 ∧ r.2.2 - n = r.1.length + r.2.1.length ∧
    (r.1.map (·.md.uid) ++ r.2.1.map (·.md.uid)).Perm ((List.range' n (r.2.2 - n)).map rnd)
  | [], n, r, _, h => by simp [emit] at h; subst h; simp
  | y :: ys, n, r, hy, h => by
    simp only [emit, Option.bind_eq_some_iff, Option.map_eq_some_iff] at h
    obtain ⟨s, hs, q, hq, rfl⟩ := h
    obtain ⟨i1, i2, i3⟩ := emit_uids hc (fun z hz => hy z (by simp [hz])) hq
    have hu := (rawStep_common hc hs).md
    have hf : ∃ k, (rawFiles x (rnd (n + 1)) y).map (·.md.uid) = ((List.range' (n + 1) k).map rnd) := by
      have hsf : ∀ src, ∃ k, (scriptFiles x.E x.p.platform.os x.ns (rnd (n + 1)) src).map (·.md.uid) =
          (List.range' (n + 1) k).map rnd := by
        intro src
        unfold scriptFiles
        by_cases h1 : src.commands.length > 0
        · by_cases h2 : x.p.platform.os = "windows"
          · exact ⟨0, by simp [h2]⟩
          · exact ⟨1, by simp [h1, h2, List.range']⟩
        · exact ⟨0, by simp [h1]⟩
      obtain ⟨role, src⟩ := y
      cases role with
      | clone =>
        have hcm : src.commands = [] := hy (.clone, src) (by simp) rfl
        simp only [rawFiles, scriptFiles, hcm, credFiles]
        by_cases h1 : (x.c.gitCredentials.getD []).length = 0
        · exact ⟨0, by simp [h1]⟩
        · exact ⟨1, by simp [h1, List.range']⟩
      | service => exact hsf src
      | step =>
        simp only [rawFiles]
        split
        · exact ⟨0, by simp⟩
        · exact hsf src
    obtain ⟨k, hk⟩ := hf
    have hlen : (rawFiles x (rnd (n + 1)) y).length = k := by
      have := congrArg List.length hk
      simpa using this
    rw [hlen] at i1 i2 i3
    refine ⟨by show n ≤ q.2.2; omega, ?_, ?_⟩
    · show q.2.2 - n = (s :: q.1).length + (rawFiles x (rnd (n + 1)) y ++ q.2.1).length
      rw [List.length_cons, List.length_append, hlen]
      omega
    · show ((s :: q.1).map (·.md.uid) ++ (rawFiles x (rnd (n + 1)) y ++ q.2.1).map (·.md.uid)).Perm
        ((List.range' n (q.2.2 - n)).map rnd)
      have e : q.2.2 - n = 1 + (k + (q.2.2 - (n + 1 + k))) := by omega
      rw [e, List.range'_append_1.symm, List.range'_append_1.symm]
      simp only [List.map_cons, List.map_append, hk, hu, List.cons_append]
      simp only [List.range'_one, List.map_cons, List.map_nil, List.singleton_append]
      refine List.Perm.cons _ ?_
      rw [← List.append_assoc]
      refine ((List.perm_append_comm).append_right _).trans ?_
      rw [List.append_assoc]
      exact List.Perm.append_left _ i3

theorem rawVolumes_uids (rnd : Nat → String) (ns : String) : ∀ (vs : List Volume) (n : Nat),
    (rawVolumes rnd ns n vs).map (·.md.uid) = (List.range' n vs.length).map rnd
  | [], n => rfl
  | v :: vs, n => by
    simp only [rawVolumes, List.map_cons, List.length_cons, List.range'_succ]
    rw [rawVolumes_uids rnd ns vs]

theorem wsVolumes_uids (c : Compiler) (rnd : Nat → String) (ns : String) :
    (wsVolumes c rnd ns).map (·.md.uid) = (List.range' 1 (wsVolumes c rnd ns).length).map rnd := by
  unfold wsVolumes
  cases c.workspace <;> rfl

theorem rawVolumes_length (rnd : Nat → String) (ns : String) : ∀ (vs : List Volume) (n : Nat),
    (rawVolumes rnd ns n vs).length = vs.length
  | [], _ => rfl
  | _ :: vs, n => by simp [rawVolumes, rawVolumes_length rnd ns vs]

theorem socket_uids (rnd : Nat → String) (ns : String) (n : Nat) (rn : GoMap String) :
    (socketVolumes rnd ns n rn).map (·.md.uid) =
      (List.range' n (socketVolumes rnd ns n rn).length).map rnd := by
  unfold socketVolumes
  split <;> rfl

theorem sources_clone_commands (p : Pipeline) : ∀ y ∈ sources p, y.1 = .clone → y.2.commands = [] := by
  intro y hy hr
  rcases mem_sources.mp hy with ⟨_, rfl⟩ | ⟨h, _⟩ | ⟨h, _⟩
  · rfl
  · rw [hr] at h; simp at h
  · rw [hr] at h; simp at h

/-! ### Renaming and files -/

/-- There is a rename entry iff there is a build step. -/
theorem renameOf_pos {p : Pipeline} {raw : List Step} (hl : raw.length = (sources p).length) :
    (renameOf p raw).length > 0 ↔ ∃ y ∈ sources p, IsBuild y := by
  have key : ∀ (ys : List (Role × Container)) (ss : List Step) (rn : GoMap String),
      ss.length = ys.length →
      (((List.zip ys ss).foldl addRename rn).length > 0 ↔ rn.length > 0 ∨ ∃ y ∈ ys, IsBuild y) := by
    intro ys
    induction ys with
    | nil => intro ss rn _; simp
    | cons y ys ih =>
      intro ss rn hl
      cases ss with
      | nil => simp at hl
      | cons s ss =>
        simp only [List.zip_cons_cons, List.foldl_cons]
        rw [ih ss _ (by simpa using hl)]
        have hy : (addRename rn (y, s)).length > 0 ↔ rn.length > 0 ∨ IsBuild y := by
          unfold addRename IsBuild
          obtain ⟨role, src⟩ := y
          cases role with
          | clone => simp
          | service => simp
          | step =>
            cases hb : src.build with
            | none => simp
            | some b => simp [GoMap.set_ne_nil]
        rw [hy]
        simp [or_assoc]
  have := key (sources p) raw [] hl
  simpa [renameOf] using this

/-- Files of a container come from its script or the credentials. -/
theorem emit_files {x : Ctx} {rnd : Nat → String} : ∀ {ys : List (Role × Container)} {n : Nat} {r},
    emit x rnd n ys = some r →
    (∀ f ∈ r.2.1, ∃ y ∈ ys, ∃ k, f ∈ rawFiles x (rnd k) y) ∧
    (∀ y ∈ ys, ∃ k, ∀ f ∈ rawFiles x (rnd k) y, f ∈ r.2.1)
  | [], n, r, h => by simp [emit] at h; subst h; simp
  | y :: ys, n, r, h => by
    simp only [emit, Option.bind_eq_some_iff, Option.map_eq_some_iff] at h
    obtain ⟨s, hs, q, hq, rfl⟩ := h
    obtain ⟨i1, i2⟩ := emit_files hq
    constructor
    · intro f hf
      rcases List.mem_append.mp hf with hf | hf
      · exact ⟨y, by simp, n + 1, hf⟩
      · obtain ⟨z, hz, k, hk⟩ := i1 f hf
        exact ⟨z, by simp [hz], k, hk⟩
    · intro z hz
      rcases List.mem_cons.mp hz with rfl | hz
      · exact ⟨n + 1, fun f hf => List.mem_append.mpr (.inl hf)⟩
      · obtain ⟨k, hk⟩ := i2 z hz
        exact ⟨k, fun f hf => List.mem_append.mpr (.inr (hk f hf))⟩

end Drone
