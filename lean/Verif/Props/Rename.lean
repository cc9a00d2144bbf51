/-
C35: references to images built by the pipeline are redirected to what was built.
-/
import Verif.Props.Envs

namespace Drone
open Engine (Step File)
open Spec (Role sources IsBuild)

/-- The build sections of the steps of a pipeline. -/
def Spec.builds (p : Pipeline) : List Build := (p.steps.filterMap id).filterMap (·.build)

/-- What the step of an image is tagged as by the build step with identifier `uid`. -/
def aliasOf (E : Ext) (image uid : String) : String :=
  Img.expand E.dg (Img.trim E.dg image ++ ":" ++ uid)

/-- Image and identifier of each build step. -/
def renamePairs (zs : List ((Role × Container) × Step)) : GoMap String :=
  zs.filterMap fun z => if z.1.1 = .step then z.1.2.build.map fun b => (b.image, z.2.md.uid) else none

theorem foldl_addRename (zs : List ((Role × Container) × Step)) : ∀ rn,
    zs.foldl addRename rn = setAll (renamePairs zs) rn := by
  induction zs with
  | nil => intro rn; rfl
  | cons z zs ih =>
    intro rn
    rw [List.foldl_cons, ih]
    obtain ⟨⟨role, src⟩, s⟩ := z
    cases role with
    | clone => simp [addRename, renamePairs]
    | service => simp [addRename, renamePairs]
    | step =>
      cases hb : src.build with
      | none => simp [addRename, renamePairs, hb]
      | some b => simp [addRename, renamePairs, hb, setAll]

theorem setAll_nodup {l m : GoMap String} (h : (m.map Prod.fst).Nodup) :
    ((setAll l m).map Prod.fst).Nodup := by
  induction l generalizing m with
  | nil => exact h
  | cons kv l ih => exact ih (GoMap.set_keys_nodup kv.1 kv.2 h).1

theorem setAll_mem {l : GoMap String} (hl : (l.map Prod.fst).Nodup) {kv : String × String} :
    kv ∈ setAll l [] ↔ kv ∈ l := by
  have h1 := setAll_get hl [] kv.1
  have hn : ((setAll l ([] : GoMap String)).map Prod.fst).Nodup := setAll_nodup (by simp)
  simp only [GoMap.get?_nil, Option.or_none] at h1
  constructor
  · intro h
    have := GoMap.get?_of_mem (k := kv.1) (v := kv.2) hn h
    rw [h1] at this
    exact GoMap.mem_of_get? this
  · intro h
    have := GoMap.get?_of_mem (k := kv.1) (v := kv.2) hl h
    rw [← h1] at this
    exact GoMap.mem_of_get? this

theorem renamePairs_keys {ys : List (Role × Container)} : ∀ {ss : List Step}, ys.length = ss.length →
    (renamePairs (ys.zip ss)).map Prod.fst =
      (ys.filterMap fun y => if y.1 = .step then y.2.build else none).map (·.image) := by
  induction ys with
  | nil => intro ss _; simp [renamePairs]
  | cons y ys ih =>
    intro ss h
    cases ss with
    | nil => simp at h
    | cons s ss =>
      have := ih (ss := ss) (by simpa using h)
      obtain ⟨role, src⟩ := y
      cases role with
      | clone => simpa [renamePairs] using this
      | service => simpa [renamePairs] using this
      | step =>
        cases hb : src.build with
        | none => simpa [renamePairs, hb] using this
        | some b => simpa [renamePairs, hb] using this

theorem builds_eq (p : Pipeline) :
    (sources p).filterMap (fun y => if y.1 = .step then y.2.build else none) = Spec.builds p := by
  unfold sources Spec.builds
  rw [List.filterMap_append, List.filterMap_append, List.filterMap_map, List.filterMap_map]
  have e1 : (if p.clone.disable then [] else
      [(Role.clone, ({ name := "clone", image := Spec.cloneImageOf p.platform } : Container))]).filterMap
      (fun y => if y.1 = .step then y.2.build else none) = [] := by split <;> rfl
  rw [e1]
  have e2 : (p.services.filterMap id).filterMap
      ((fun y : Role × Container => if y.1 = .step then y.2.build else none) ∘ fun c => (Role.service, c)) = [] := by
    rw [List.filterMap_eq_nil_iff]; intro a _; rfl
  rw [e2]
  rfl

theorem renameImage_spec {E : Ext} : ∀ {rn : GoMap String} {image : String},
    (rn.map fun kv => Img.expand E.dg kv.1).Nodup →
    (∀ kv ∈ rn, Img.expand E.dg image = Img.expand E.dg kv.1 → ∀ kv' ∈ rn, kv' ≠ kv →
      Img.expand E.dg (aliasOf E image kv.2) ≠ Img.expand E.dg kv'.1) →
    (∀ kv ∈ rn, Img.expand E.dg image = Img.expand E.dg kv.1 → renameImage E image rn = aliasOf E image kv.2) ∧
    ((∀ kv ∈ rn, Img.expand E.dg image ≠ Img.expand E.dg kv.1) → renameImage E image rn = image)
  | [], image, _, _ => by simp [renameImage]
  | (k, v) :: rest, image, hn, ha => by
    simp only [List.map_cons, List.nodup_cons] at hn
    have hstable : ∀ img : String, (∀ kv ∈ rest, Img.expand E.dg img ≠ Img.expand E.dg kv.1) →
        renameImage E img rest = img := by
      intro img hh
      apply renameImage_stable
      intro kv hkv
      unfold Img.matchTag
      simpa using hh kv hkv
    by_cases hm : Img.expand E.dg image = Img.expand E.dg k
    · have hmt : Img.matchTag E.dg image k = true := by unfold Img.matchTag; simpa using hm
      have hres : renameImage E image ((k, v) :: rest) = aliasOf E image v := by
        show renameImage E (if Img.matchTag E.dg image k then _ else image) rest = _
        rw [if_pos hmt]
        refine hstable _ fun kv hkv => ?_
        refine ha (k, v) (by simp) hm kv (by simp [hkv]) ?_
        rintro rfl
        exact hn.1 (List.mem_map.mpr ⟨_, hkv, rfl⟩)
      refine ⟨fun kv hkv he => ?_, fun hno => absurd hm (hno (k, v) (by simp))⟩
      rcases List.mem_cons.mp hkv with rfl | hkv
      · exact hres
      · exact absurd (List.mem_map.mpr ⟨kv, hkv, (he.symm.trans hm)⟩) hn.1
    · have hmt : Img.matchTag E.dg image k = false := by unfold Img.matchTag; simpa using hm
      have hres : renameImage E image ((k, v) :: rest) = renameImage E image rest := by
        show renameImage E (if Img.matchTag E.dg image k then _ else image) rest = _
        rw [hmt]; rfl
      obtain ⟨i1, i2⟩ := renameImage_spec (rn := rest) (image := image) hn.2
        (fun kv hkv he kv' hkv' hne => ha kv (by simp [hkv]) he kv' (by simp [hkv']) hne)
      rw [hres]
      refine ⟨fun kv hkv he => ?_, fun hno => i2 fun kv hkv => hno kv (by simp [hkv])⟩
      rcases List.mem_cons.mp hkv with rfl | hkv
      · exact absurd he hm
      · exact i1 kv hkv he

theorem forall₂_zip {α β : Type} {R : α → β → Prop} {as : List α} {bs : List β}
    (h : List.Forall₂ R as bs) {z : α × β} (hz : z ∈ as.zip bs) : R z.1 z.2 := by
  induction h with
  | nil => simp at hz
  | cons h1 _ ih =>
    simp only [List.zip_cons_cons, List.mem_cons] at hz
    rcases hz with rfl | hz
    · exact h1
    · exact ih hz

theorem zip_renameSteps {E : Ext} {rn : GoMap String} {ys : List (Role × Container)} :
    ∀ {ss : List Step} {i : Nat} {z : (Role × Container) × Step}, z ∈ ys.zip (renameSteps E rn i ss) →
    ∃ s, (z.1, s) ∈ ys.zip ss ∧ ∃ j, z.2 = setImage s (renameImage E s.docker.image (E.iter j rn)) := by
  induction ys with
  | nil => intro ss i z hz; simp at hz
  | cons y ys ih =>
    intro ss i z hz
    cases ss with
    | nil => simp [renameSteps] at hz
    | cons s ss =>
      simp only [renameSteps, List.zip_cons_cons, List.mem_cons] at hz
      rcases hz with rfl | hz
      · exact ⟨s, by simp, i, rfl⟩
      · obtain ⟨s', h1, h2⟩ := ih hz
        exact ⟨s', by simp [h1], h2⟩

theorem withWorkspace_alias (e : GoMap String) (w : WorkspaceDirs) :
    (withWorkspace e w).get? "DOCKER_BUILD_IMAGE_ALIAS" = e.get? "DOCKER_BUILD_IMAGE_ALIAS" := by
  rw [withWorkspace_get]; simp

theorem buildEnvs_alias {E : Ext} {uid : String} {b : Build} (h : b.image ≠ "") :
    (buildEnvs E uid b).get? "DOCKER_BUILD_IMAGE_ALIAS" = some (aliasOf E b.image uid) := by
  unfold buildEnvs
  simp only [h, ne_eq, not_false_eq_true, if_true, GoMap.get?_set, aliasOf]

theorem aliasOf_congr {E : Ext} {a b : String} (h : Img.expand E.dg a = Img.expand E.dg b) (uid : String) :
    aliasOf E a uid = aliasOf E b uid := by
  unfold aliasOf
  rw [Img.trim_eq_of_expand_eq h]

/-- The core of C35 with a general condition on repeated renaming. -/
theorem redirect_core {E : Ext} {c : Compiler} (hc : c.Std) (ht : c.transform = none)
    {rnd : Nat → String} {p : Pipeline} {sp : Engine.Spec} (h : compile E c rnd p = some sp)
    (hd : ((Spec.builds p).map fun b => Img.expand E.dg b.image).Nodup)
    (ha : (Spec.builds p).length ≤ 1 ∨ ∀ b ∈ Spec.builds p, ∀ b' ∈ Spec.builds p, ∀ n,
      Img.expand E.dg (aliasOf E b.image (rnd n)) ≠ Img.expand E.dg b'.image) :
    ∀ z ∈ (sources p).zip sp.steps, ¬ IsBuild z.1 →
      (∀ z' ∈ (sources p).zip sp.steps, ∀ b, z'.1.1 = .step → z'.1.2.build = some b → b.image ≠ "" →
        Img.expand E.dg z.1.2.image = Img.expand E.dg b.image →
        z'.2.envs.get? "DOCKER_BUILD_IMAGE_ALIAS" = some z.2.docker.image) ∧
      ((∀ b ∈ Spec.builds p, Img.expand E.dg z.1.2.image ≠ Img.expand E.dg b.image) →
        z.2.docker.image = Img.expand E.dg z.1.2.image) := by
  obtain ⟨_, _, _, r, hr, rfl⟩ := compile_shape hc ht h
  have hlen : (sources p).length = r.1.length := (emit_length _ _ _ _ _ hr).symm
  have hraw := emit_forall hr
  intro z hz hb
  obtain ⟨s, hs, j, hzs⟩ := zip_renameSteps hz
  obtain ⟨k, hk⟩ := forall₂_zip hraw hs
  have himg := (rawStep_plain (x := ctxOf E c rnd p) hc hb hk).image
  -- the table
  have hrn : (List.zip (sources p) r.1).foldl addRename [] = setAll (renamePairs ((sources p).zip r.1)) [] :=
    foldl_addRename _ _
  have hkeys := renamePairs_keys hlen
  rw [builds_eq] at hkeys
  have hkn : ((renamePairs ((sources p).zip r.1)).map Prod.fst).Nodup := by
    rw [hkeys]
    refine List.Nodup.of_map (f := Img.expand E.dg) ?_
    rw [List.map_map]
    exact hd
  have hmem : ∀ kv, kv ∈ E.iter j (setAll (renamePairs ((sources p).zip r.1)) []) ↔
      kv ∈ renamePairs ((sources p).zip r.1) := by
    intro kv
    rw [(E.iter_perm j _).mem_iff, setAll_mem hkn]
  have hperm : (E.iter j (setAll (renamePairs ((sources p).zip r.1)) [])).Perm
      (renamePairs ((sources p).zip r.1)) := by
    refine (List.perm_ext_iff_of_nodup ?_ ?_).mpr hmem
    · refine (E.iter_perm j _).nodup_iff.mpr ?_
      exact List.Nodup.of_map (f := Prod.fst) (setAll_nodup (by simp))
    · exact List.Nodup.of_map (f := Prod.fst) hkn
  have hn2 : ((E.iter j (setAll (renamePairs ((sources p).zip r.1)) [])).map
      fun kv => Img.expand E.dg kv.1).Nodup := by
    refine ((hperm.map _).nodup_iff).mpr ?_
    have : (renamePairs ((sources p).zip r.1)).map (fun kv => Img.expand E.dg kv.1) =
        ((renamePairs ((sources p).zip r.1)).map Prod.fst).map (Img.expand E.dg) := by simp
    rw [this, hkeys, List.map_map]
    exact hd
  have hbuild : ∀ kv ∈ renamePairs ((sources p).zip r.1), ∃ b ∈ Spec.builds p, kv.1 = b.image ∧
      ∃ n, kv.2 = rnd n := by
    intro kv hkv
    obtain ⟨zz, hzz, he⟩ := List.mem_filterMap.mp hkv
    split at he
    · rename_i hstep
      rw [Option.map_eq_some_iff] at he
      obtain ⟨b, hbb, rfl⟩ := he
      obtain ⟨n, hn⟩ := forall₂_zip hraw hzz
      refine ⟨b, ?_, rfl, n, ?_⟩
      · rw [← builds_eq]
        exact List.mem_filterMap.mpr ⟨zz.1, (List.of_mem_zip (a := zz.1) (b := zz.2) hzz).1, by simp [hstep, hbb]⟩
      · have := (rawStep_common (x := ctxOf E c rnd p) hc hn).md
        rw [this]
    · simp at he
  have hspec := renameImage_spec (E := E) (rn := E.iter j (setAll (renamePairs ((sources p).zip r.1)) []))
    (image := s.docker.image) hn2 (by
      intro kv hkv he kv' hkv' hne
      rcases ha with ha | ha
      · exfalso
        rw [hmem] at hkv hkv'
        have hl : (renamePairs ((sources p).zip r.1)).length ≤ 1 := by
          have := congrArg List.length hkeys
          simp only [List.length_map] at this
          omega
        generalize renamePairs ((sources p).zip r.1) = l at *
        match l, hl with
        | [], _ => simp at hkv
        | [q], _ => simp at hkv hkv'; rw [hkv, hkv'] at hne; exact hne rfl
      · rw [hmem] at hkv hkv'
        obtain ⟨b, hb1, hb2, n, hb3⟩ := hbuild kv hkv
        obtain ⟨b', hb1', hb2', _⟩ := hbuild kv' hkv'
        rw [hb2', hb3]
        have : aliasOf E s.docker.image (rnd n) = aliasOf E b.image (rnd n) :=
          aliasOf_congr (by rw [he, hb2]) _
        rw [this]
        exact ha b hb1 b' hb1' n)
  have hzimg : z.2.docker.image = renameImage E s.docker.image
      (E.iter j (setAll (renamePairs ((sources p).zip r.1)) [])) := by
    rw [hzs, hrn]; rfl
  have himg' : s.docker.image = Img.expand E.dg z.1.2.image := himg
  have hexp : Img.expand E.dg s.docker.image = Img.expand E.dg z.1.2.image := by
    rw [himg', Img.expand_idem]
  constructor
  · intro z' hz' b hst hbb hbi he
    obtain ⟨s', hs', j', hzs'⟩ := zip_renameSteps hz'
    obtain ⟨k', hk'⟩ := forall₂_zip hraw hs'
    obtain ⟨⟨role', src'⟩, st'⟩ := z'
    obtain rfl : role' = Role.step := hst
    have hbf := rawStep_build (x := ctxOf E c rnd p) hc hbb hk'
    have hcm := rawStep_common (x := ctxOf E c rnd p) hc hk'
    have hpair : (b.image, rnd k') ∈ renamePairs ((sources p).zip r.1) := by
      refine List.mem_filterMap.mpr ⟨_, hs', ?_⟩
      have : src'.build = some b := hbb
      simp only [if_true, this, Option.map_some, Option.some.injEq, Prod.mk.injEq, true_and]
      rw [hcm.md]
    have h1 := hspec.1 (b.image, rnd k') ((hmem _).mpr hpair) (by rw [hexp, he])
    have h2 : st'.envs = s'.envs := by
      have : st' = setImage s' _ := hzs'
      rw [this]; rfl
    show st'.envs.get? _ = _
    rw [h2, hbf.envs, withWorkspace_alias, hzimg, h1]
    have := buildEnvs_alias (E := E) (uid := rnd k') hbi
    have e3 : aliasOf E s.docker.image (rnd k') = aliasOf E b.image (rnd k') :=
      aliasOf_congr (by rw [hexp, he]) _
    rw [e3]
    exact this
  · intro hno
    rw [hzimg, ← himg']
    refine hspec.2 fun kv hkv => ?_
    obtain ⟨b, hb1, hb2, _⟩ := hbuild kv ((hmem _).mp hkv)
    rw [hb2, hexp]
    exact hno b hb1

/-- C35: with one build step, every container whose image denotes the name and tag that
the build section builds runs exactly the alias the build step tags; every other container
runs its own image in expanded form.  (`z` pairs a container with its compiled step.) -/
theorem C35_redirect_single {E : Ext} {c : Compiler} (hc : c.Std) (ht : c.transform = none)
    {rnd : Nat → String} {p : Pipeline} {sp : Engine.Spec} (h : compile E c rnd p = some sp)
    {b : Build} (hb : Spec.builds p = [b]) (hi : b.image ≠ "") :
    ∃ z₀ ∈ (sources p).zip sp.steps, z₀.1.1 = .step ∧ z₀.1.2.build = some b ∧
      ∃ a, z₀.2.envs.get? "DOCKER_BUILD_IMAGE_ALIAS" = some a ∧
      ∀ z ∈ (sources p).zip sp.steps, ¬ IsBuild z.1 →
        z.2.docker.image = if Img.expand E.dg z.1.2.image = Img.expand E.dg b.image then a
          else Img.expand E.dg z.1.2.image := by
  have hcore := redirect_core hc ht h (by simp [hb]) (.inl (by simp [hb]))
  have hm : b ∈ (sources p).filterMap (fun y => if y.1 = .step then y.2.build else none) := by
    rw [builds_eq, hb]; simp
  obtain ⟨y, hy, he⟩ := List.mem_filterMap.mp hm
  split at he
  · rename_i hst
    obtain ⟨i, hi1, hget⟩ := List.getElem_of_mem hy
    have hall : List.Forall₂ (CompiledFrom (ctxOf E c rnd p) rnd _) (sources p) sp.steps :=
      (compile_steps hc ht h).choose_spec
    have hlen := hall.length_eq
    have hz : (y, sp.steps[i]'(by omega)) ∈ (sources p).zip sp.steps := by
      rw [← hget, ← List.getElem_zip (h := by rw [List.length_zip]; omega)]
      exact List.getElem_mem _
    obtain ⟨k, raw, j, hr, hs⟩ := forall₂_zip hall hz
    obtain ⟨role, src⟩ := y
    obtain rfl : role = Role.step := hst
    have hbf := rawStep_build (x := ctxOf E c rnd p) hc he hr
    have halias : (sp.steps[i]'(by omega)).envs.get? "DOCKER_BUILD_IMAGE_ALIAS" = some (aliasOf E b.image (rnd k)) := by
      have : (sp.steps[i]'(by omega)).envs = raw.envs := by
        have : (sp.steps[i]'(by omega)) = setImage raw _ := hs
        rw [this]; rfl
      rw [this, hbf.envs, withWorkspace_alias]
      exact buildEnvs_alias (E := E) hi
    refine ⟨_, hz, rfl, he, _, halias, ?_⟩
    intro z hzz hnb
    obtain ⟨h1, h2⟩ := hcore z hzz hnb
    split
    · rename_i heq
      have := h1 _ hz b rfl he hi heq
      rw [halias] at this
      simpa using this.symm
    · rename_i hne
      apply h2
      rw [hb]
      simpa using hne
  · simp at he

/-- C35 for several build steps whose images denote different names: if no alias denotes
one of the built images, each container that uses a built image runs the alias of the step
that builds it, in whatever order the rename table is iterated. -/
theorem C35_redirect_many {E : Ext} {c : Compiler} (hc : c.Std) (ht : c.transform = none)
    {rnd : Nat → String} {p : Pipeline} {sp : Engine.Spec} (h : compile E c rnd p = some sp)
    (hd : ((Spec.builds p).map fun b => Img.expand E.dg b.image).Nodup)
    (ha : ∀ b ∈ Spec.builds p, ∀ b' ∈ Spec.builds p, ∀ n,
      Img.expand E.dg (Img.expand E.dg (Img.trim E.dg b.image ++ ":" ++ rnd n)) ≠ Img.expand E.dg b'.image) :
    ∀ z ∈ (sources p).zip sp.steps, ¬ IsBuild z.1 →
      (∀ z' ∈ (sources p).zip sp.steps, ∀ b, z'.1.1 = .step → z'.1.2.build = some b → b.image ≠ "" →
        Img.expand E.dg z.1.2.image = Img.expand E.dg b.image →
        z'.2.envs.get? "DOCKER_BUILD_IMAGE_ALIAS" = some z.2.docker.image) ∧
      ((∀ b ∈ Spec.builds p, Img.expand E.dg z.1.2.image ≠ Img.expand E.dg b.image) →
        z.2.docker.image = Img.expand E.dg z.1.2.image) :=
  redirect_core hc ht h hd (.inr ha)

example : Spec.builds exCompiled = [{ image := "acme/app" }] := by decide

example : (compile exExt {} exRnd exCompiled).map (fun sp => sp.steps.map fun s =>
      (s.docker.image, s.envs.get? "DOCKER_BUILD_IMAGE_ALIAS")) =
    some [("docker.io/drone/git:latest", none), ("docker.io/library/redis:latest", none),
      ("drone/docker", some "docker.io/acme/app:u5"), ("docker.io/acme/app:u5", none)] := by
  decide +kernel

/-- Why the images must denote different names: two build steps for `app` and
`app:latest` both tag an alias, and which one a later step runs depends on the iteration
order of the compiler's rename table. -/
theorem C35_ambiguous_builds :
    let p : Pipeline := { kind := "pipeline", steps := [
      some { name := "a", build := some { image := "app" } },
      some { name := "b", build := some { image := "app:latest" } },
      some { name := "c", image := "app" }] }
    let E' : Ext := { exExt with iter := fun _ m => m.reverse, iter_perm := fun _ m => List.reverse_perm m }
    (compile exExt {} exRnd p).map (fun sp => sp.steps.map (·.docker.image)) ≠
    (compile E' {} exRnd p).map (fun sp => sp.steps.map (·.docker.image)) := by decide +kernel

end Drone
