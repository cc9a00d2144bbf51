/-
Containers that the compiler cannot tell apart, and what follows for the specification.
-/
import Verif.Props.Envs
import Verif.Props.PrettyOrder

namespace Drone
open Engine (Step File)
open Spec (Role sources)

/-- What the compiler sees of a build section. -/
def SeenBuild (b b' : Build) : Prop :=
  b.cacheFrom = b'.cacheFrom ∧ b.dockerfile = b'.dockerfile ∧ b.context = b'.context ∧ b.image = b'.image

/-- Two containers with the same observable parts. -/
structure Alike (E : Ext) (c : Compiler) (a b : Container) : Prop where
  rest : b = { a with
    build := b.build, push := b.push, environment := b.environment, settings := b.settings, cond := b.cond,
    devices := b.devices, ports := b.ports, resources := b.resources, volumes := b.volumes }
  build : Option.Rel SeenBuild a.build b.build
  status : a.cond.status = b.cond.status
  ports : ∀ ps, toPorts a = some ps → toPorts b = some ps
  mounts : ∀ ms, stepMounts a.volumes = some ms → stepMounts b.volumes = some ms
  resources : toResources a = toResources b
  envs : ∀ k, (stepEnvs E a).1.get? k = (stepEnvs E b).1.get? k
  secrets : (stepEnvs E a).2.Perm (stepEnvs E b).2
  skip : c.skip.any (· a) = c.skip.any (· b)
  privileged : c.privileged.any (· a) = c.privileged.any (· b)

theorem Alike.refl {E : Ext} {c : Compiler} (a : Container) : Alike E c a a where
  rest := rfl
  build := by cases a.build with
    | none => exact .none
    | some b => exact .some ⟨rfl, rfl, rfl, rfl⟩
  status := rfl
  ports := fun _ h => h
  mounts := fun _ h => h
  resources := rfl
  envs := fun _ => rfl
  secrets := .refl _
  skip := rfl
  privileged := rfl

theorem Alike.dependsOn {E : Ext} {c : Compiler} {a b : Container} (h : Alike E c a b) : b.dependsOn = a.dependsOn := by
  rw [h.rest]

/-- Pipelines that differ in what the containers are only, or in the platform as long as both are
or are not Windows. -/
structure SamePlan (p q : Pipeline) : Prop where
  clone : q.clone = p.clone
  workspace : q.workspace = p.workspace
  windows : q.platform.os = "windows" ↔ p.platform.os = "windows"

theorem rawStep_plan {x : Ctx} {q : Pipeline} (h : SamePlan x.p q) (uid : String) (y : Role × Container) :
    rawStep { x with p := q } uid y = rawStep x uid y := by
  have hb : ∀ ns uid src, stepBase x.E q.platform.os ns uid src = stepBase x.E x.p.platform.os ns uid src := by
    intro ns uid src
    simp only [stepBase, scripted, h.windows]
  have hw : createWorkspace q = createWorkspace x.p := by
    simp only [createWorkspace, h.windows, h.workspace]
  have hd : ∀ s, setupCloneDepth q s = setupCloneDepth x.p s := by
    intro s
    simp only [setupCloneDepth, h.clone]
  have hc : ∀ b s, cloneDep { x with p := q } b s = cloneDep x b s := by
    intro b s
    simp only [cloneDep, h.clone]
  obtain ⟨role, a⟩ := y
  cases role <;> simp only [rawStep, hb, hw, hd, hc]

theorem rawFiles_plan {x : Ctx} {q : Pipeline} (h : SamePlan x.p q) (uid : String) (y : Role × Container) :
    rawFiles { x with p := q } uid y = rawFiles x uid y := by
  have hb : ∀ ns uid src, scriptFiles x.E q.platform.os ns uid src = scriptFiles x.E x.p.platform.os ns uid src := by
    intro ns uid src
    simp only [scriptFiles, h.windows]
  obtain ⟨role, a⟩ := y
  cases role <;> simp only [rawFiles, hb]

theorem emit_plan {x : Ctx} {q : Pipeline} (h : SamePlan x.p q) (rnd : Nat → String) :
    ∀ (ys : List (Role × Container)) (n : Nat), emit { x with p := q } rnd n ys = emit x rnd n ys
  | [], n => rfl
  | y :: ys, n => by simp only [emit, rawStep_plan h, rawFiles_plan h, emit_plan h rnd ys]

theorem rawStep_alike {x : Ctx} (hc : x.c.Std) {uid : String} {r : Role} {a b : Container}
    (hab : Alike x.E x.c a b) {s : Step} (h : rawStep x uid (r, a) = some s) :
    ∃ s', rawStep x uid (r, b) = some s' ∧ Spec.SameStep s s' := by
  have hcmds : b.commands = a.commands := by rw [hab.rest]
  have hname : b.name = a.name := by rw [hab.rest]
  have hpol : toRunPolicy x.E.glob b = toRunPolicy x.E.glob a := by simp only [toRunPolicy, hab.status]
  have hcs0 : ∀ ports mounts, createStep0 x.E uid x.ns b ports mounts =
      { createStep0 x.E uid x.ns a ports mounts with
        envs := (stepEnvs x.E b).1, secrets := (stepEnvs x.E b).2 } := by
    intro ports mounts
    have hr := hab.resources
    revert hpol hr
    unfold createStep0
    generalize stepEnvs x.E b = eb
    generalize toRunPolicy x.E.glob b = rb
    generalize toResources b = sb
    rintro rfl rfl
    rw [hab.rest]
    rfl
  have hsm : scriptMounts x.p.platform.os b = scriptMounts x.p.platform.os a := by
    simp only [scriptMounts, hcmds, hname]
  have hco : commandOf x.p.platform.os b = commandOf x.p.platform.os a := by
    have h1 : b.entrypoint = a.entrypoint := by rw [hab.rest]
    have h2 : b.command = a.command := by rw [hab.rest]
    simp only [commandOf, hcmds, h1, h2]
  have hws : ∀ m, withScript x.E x.p.platform.os b m = withScript x.E x.p.platform.os a m := by
    intro m; simp only [withScript, hcmds]
  have hbase : ∀ d, stepBase x.E x.p.platform.os x.ns uid a = some d →
      ∃ d', stepBase x.E x.p.platform.os x.ns uid b = some d' ∧ Spec.SameStep d d' := by
    intro d hd
    simp only [stepBase, Option.bind_eq_some_iff, Option.map_eq_some_iff] at hd ⊢
    obtain ⟨ports, hp, mounts, hm, rfl⟩ := hd
    refine ⟨_, ⟨ports, hab.ports _ hp, mounts, hab.mounts _ hm, rfl⟩, ?_⟩
    rw [scripted_eq, scripted_eq, hcs0, hcmds, hsm, hco, hws]
    exact ⟨rfl, withScript_same hab.envs, hab.secrets⟩
  have hfin : ∀ d d', Spec.SameStep d d' → Spec.SameStep (finishStep x.c (createWorkspace x.p) a d)
      (finishStep x.c (createWorkspace x.p) b d') := by
    rintro d d' ⟨h1, h2, h3⟩
    rw [finishStep_eq hc, finishStep_eq hc, setupWorkingDir_eq, setupWorkingDir_eq, hab.skip, hab.privileged]
    refine ⟨?_, withWorkspace_same h2 _, h3⟩
    rw [h1, hcmds]
  have hdep : ∀ bb d d', Spec.SameStep d d' → Spec.SameStep (cloneDep x bb d) (cloneDep x bb d') := by
    rintro bb d d' ⟨h1, h2, h3⟩
    rw [cloneDep_eq, cloneDep_eq]
    refine ⟨?_, h2, h3⟩
    rw [h1]
  cases r with
  | clone =>
    simp only [rawStep, Option.map_eq_some_iff] at h ⊢
    obtain ⟨d, hd, rfl⟩ := h
    obtain ⟨d', hd', h1, h2, h3⟩ := hbase d hd
    refine ⟨_, ⟨d', hd', rfl⟩, ?_⟩
    rw [setupWorkspaceMount_eq hc, setupWorkspaceMount_eq hc, setupWorkingDir_eq, setupWorkingDir_eq,
      credMount_eq, credMount_eq, hcmds]
    refine ⟨?_, withWorkspace_same (withClone_same h2) _, h3⟩
    rw [h1]
    rfl
  | service =>
    simp only [rawStep, Option.map_eq_some_iff] at h ⊢
    obtain ⟨d, hd, rfl⟩ := h
    obtain ⟨d', hd', h1, h2, h3⟩ := hbase d hd
    refine ⟨_, ⟨d', hd', rfl⟩, hdep _ _ _ (hfin _ _ ⟨?_, h2, h3⟩)⟩
    rw [h1]
  | step =>
    have hbld := hab.build
    simp only [rawStep] at h ⊢
    cases hb : a.build with
    | some bd =>
      rw [hb] at h hbld
      obtain ⟨bd', hb', hseen⟩ : ∃ bd', b.build = some bd' ∧ SeenBuild bd bd' := by
        cases hbb : b.build with
        | none => rw [hbb] at hbld; cases hbld
        | some bd' => rw [hbb] at hbld; cases hbld with | some h => exact ⟨_, rfl, h⟩
      rw [hb']
      simp only [Option.some.injEq] at h ⊢
      subst h
      refine ⟨_, rfl, hdep _ _ _ (hfin _ _ ?_)⟩
      have : buildBase x.E x.ns uid b bd' = buildBase x.E x.ns uid a bd := by
        obtain ⟨s1, s2, s3, s4⟩ := hseen
        have h1 : b.detach = a.detach := by rw [hab.rest]
        have h2 : b.dependsOn = a.dependsOn := by rw [hab.rest]
        have h3 : b.dns = a.dns := by rw [hab.rest]
        have h4 : toIgnoreErr b = toIgnoreErr a := by rw [hab.rest]; rfl
        have h5 : buildEnvs x.E uid bd' = buildEnvs x.E uid bd := by simp only [buildEnvs, s1, s2, s3, s4]
        simp only [buildBase, hname, h1, h2, h3, h4, h5, hab.resources, hpol]
      rw [this]
      exact ⟨rfl, fun _ => rfl, List.Perm.refl _⟩
    | none =>
      rw [hb] at h hbld
      have hb' : b.build = none := by
        cases hbb : b.build with
        | none => rfl
        | some bd' => rw [hbb] at hbld; cases hbld
      rw [hb']
      simp only [Option.map_eq_some_iff] at h ⊢
      obtain ⟨d, hd, rfl⟩ := h
      obtain ⟨d', hd', hss⟩ := hbase d hd
      exact ⟨_, ⟨d', hd', rfl⟩, hdep _ _ _ (hfin _ _ hss)⟩

theorem rel_isSome {α : Type} {R : α → α → Prop} {o o' : Option α} (h : Option.Rel R o o') :
    o'.isSome = o.isSome := by cases h <;> rfl

theorem rawFiles_alike {x : Ctx} {uid : String} {r : Role} {a b : Container} (hab : Alike x.E x.c a b) :
    rawFiles x uid (r, b) = rawFiles x uid (r, a) := by
  have hcmds : b.commands = a.commands := by rw [hab.rest]
  have hname : b.name = a.name := by rw [hab.rest]
  cases r <;> simp only [rawFiles, scriptFiles, hcmds, hname, rel_isSome hab.build]

/-- The same role, and containers that are alike. -/
def AlikeSource (E : Ext) (c : Compiler) (y y' : Role × Container) : Prop := y.1 = y'.1 ∧ Alike E c y.2 y'.2

theorem emit_alike {x : Ctx} (hc : x.c.Std) {rnd : Nat → String} {ys ys' : List (Role × Container)}
    (hy : List.Forall₂ (AlikeSource x.E x.c) ys ys') :
    ∀ {n : Nat} {r}, emit x rnd n ys = some r →
    ∃ ss', emit x rnd n ys' = some (ss', r.2.1, r.2.2) ∧ List.Forall₂ Spec.SameStep r.1 ss' := by
  induction hy with
  | nil =>
    intro n r h
    simp only [emit, Option.some.injEq] at h
    subst h
    exact ⟨[], rfl, .nil⟩
  | @cons y y' ys ys' h1 _ ih =>
    intro n r h
    obtain ⟨role, a⟩ := y
    obtain ⟨role', b⟩ := y'
    obtain ⟨hr, hab⟩ := h1
    simp only at hr hab
    subst hr
    simp only [emit, Option.bind_eq_some_iff, Option.map_eq_some_iff] at h
    obtain ⟨s, hs, q, hq, rfl⟩ := h
    obtain ⟨s', hs', hss⟩ := rawStep_alike hc hab hs
    obtain ⟨ss', h3, h4⟩ := ih hq
    refine ⟨s' :: ss', ?_, .cons hss h4⟩
    simp only [emit, hs', Option.bind_some, rawFiles_alike hab, h3, Option.map_some]

theorem addRename_alike {E : Ext} {c : Compiler} {ys ys' : List (Role × Container)}
    (hy : List.Forall₂ (AlikeSource E c) ys ys') :
    ∀ {ss ss' : List Step}, List.Forall₂ Spec.SameStep ss ss' → ∀ rn,
    (List.zip ys' ss').foldl addRename rn = (List.zip ys ss).foldl addRename rn := by
  induction hy with
  | nil => intro ss ss' _ rn; simp
  | @cons y y' ys ys' h1 _ ih =>
    intro ss ss' h2 rn
    cases h2 with
    | nil => simp
    | @cons s s' ss ss' h3 h4 =>
      simp only [List.zip_cons_cons, List.foldl_cons]
      have : addRename rn (y', s') = addRename rn (y, s) := by
        have hm : s'.md = s.md := by rw [h3.1]
        have hb := h1.2.build
        unfold addRename
        rw [← h1.1, hm]
        revert hb
        generalize y.2.build = o
        generalize y'.2.build = o'
        intro hb
        cases hb with
        | none => rfl
        | some h => cases y.1 <;> simp only [h.2.2.2]
      rw [this]
      exact ih h4 _

/-- Pipelines whose containers are alike and whose volumes compile to the same compile to the same
specification, up to the order of variables and the platform. -/
theorem compileCore_alike {E : Ext} {c : Compiler} (hc : c.Std) {rnd : Nat → String}
    {p q : Pipeline} {st : St} (hplan : SamePlan p q) (hname : q.name = p.name) (hkind : q.kind = p.kind)
    (htype : q.type = p.type) (himg : Spec.cloneImageOf q.platform = Spec.cloneImageOf p.platform)
    (hv : none ∉ q.volumes) (hvl : (q.volumes.filterMap id).length = (p.volumes.filterMap id).length)
    (hvs : ∀ n, rawVolumes rnd (rnd 0) n (q.volumes.filterMap id) = rawVolumes rnd (rnd 0) n (p.volumes.filterMap id))
    (hsv : List.Forall₂ (Option.Rel (Alike E c)) p.services q.services)
    (hst : List.Forall₂ (Option.Rel (Alike E c)) p.steps q.steps)
    (h : compileCore E c rnd p = some st) :
    st.spec.platform = (initSpec p "").platform ∧
    ∃ st', compileCore E c rnd q = some st' ∧ st'.n = st.n ∧
      st'.spec = { st.spec with platform := (initSpec q "").platform, steps := st'.spec.steps } ∧
      List.Forall₂ Spec.SameStep st.spec.steps st'.spec.steps := by
  obtain ⟨npv, nsv, nst⟩ := compileCore_no_nil h
  rw [compileCore_eq E c hc rnd p npv nsv nst, Option.map_eq_some_iff] at h
  obtain ⟨r, hr, rfl⟩ := h
  have hnil : ∀ {l l' : List (Option Container)}, List.Forall₂ (Option.Rel (Alike E c)) l l' →
      none ∉ l → none ∉ l' := by
    intro l l' hf
    induction hf with
    | nil => simp
    | cons h _ ih =>
      cases h with
      | some _ => simpa using ih
      | none => simp
  have hfm : ∀ {l l' : List (Option Container)}, List.Forall₂ (Option.Rel (Alike E c)) l l' →
      List.Forall₂ (Alike E c) (l.filterMap id) (l'.filterMap id) := by
    intro l l' hf
    induction hf with
    | nil => exact .nil
    | cons h1 _ ih =>
      cases h1 with
      | some h => exact .cons h ih
      | none => exact ih
  have hser : serialOf q = serialOf p := by
    unfold serialOf
    rw [decide_eq_decide]
    have hd : ∀ {l l' : List Container}, List.Forall₂ (Alike E c) l l' →
        ((∀ s ∈ l', s.dependsOn = []) ↔ ∀ s ∈ l, s.dependsOn = []) := by
      intro l l' hf
      induction hf with
      | nil => simp
      | cons hab _ ih => simp [ih, hab.dependsOn]
    exact hd (hfm hst)
  have hctx : ctxOf E c rnd q = { ctxOf E c rnd p with p := q } := by
    unfold ctxOf
    rw [hser]
  have hsrc : List.Forall₂ (AlikeSource E c) (sources p) (sources q) := by
    unfold sources
    rw [hplan.clone, himg]
    refine forall₂_append' (forall₂_append' ?_ ?_) ?_
    · split
      · exact .nil
      · exact .cons ⟨rfl, .refl _⟩ .nil
    · exact forall₂_map_map (hfm hsv) fun a b hab => ⟨rfl, hab⟩
    · exact forall₂_map_map (hfm hst) fun a b hab => ⟨rfl, hab⟩
  obtain ⟨ss', h3, h4⟩ := emit_alike (x := ctxOf E c rnd p) hc hsrc hr
  have hcomp : compileCore E c rnd q = some (finish E c rnd q (ss', r.2.1, r.2.2)) := by
    rw [compileCore_eq E c hc rnd q hv (hnil hsv nsv) (hnil hst nst), hctx,
      emit_plan (x := ctxOf E c rnd p) (by exact hplan)]
    have : firstDraw c rnd q = firstDraw c rnd p := by unfold firstDraw; rw [hvl]
    rw [this, h3]
    rfl
  refine ⟨rfl, _, hcomp, ?_, ?_, ?_⟩
  · unfold finish
    simp only [addRename_alike hsrc h4]
  · unfold finish initSpec
    simp only [addRename_alike hsrc h4, hvs, hname, hkind, htype]
  · unfold finish
    simp only [addRename_alike hsrc h4]
    exact renameSteps_reordered h4 0

end Drone
