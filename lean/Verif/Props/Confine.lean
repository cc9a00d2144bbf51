/-
C131: where the values of secrets and credentials end up.  Compiling and transforming with other
values gives the same, except in the places made for them.
-/
import Verif.Props.TransformOrder

namespace Drone
open Transform
open Engine (Step Metadata)

namespace Spec

/-- The variables that hold the credentials for git. -/
def secretVars : List String :=
  ["CI_NETRC_USERNAME", "CI_NETRC_PASSWORD", "DRONE_NETRC_USERNAME", "DRONE_NETRC_PASSWORD"]

/-- A step without the values of some variables. -/
def publicStep (V : List String) (s : Step) : Step :=
  { s with envs := s.envs.map fun kv => (kv.1, if kv.1 ∈ V then "" else kv.2) }

/-- What is left of a specification when all values of secrets, all names and passwords for
registries, the values of some variables and the contents of the files called .git-credentials are
blanked. -/
def blanked (V : List String) (s : Engine.Spec) : Engine.Spec :=
  { s with
    secrets := s.secrets.map fun x => { x with data := "" }
    auths := s.auths.map fun a => { a with username := "", password := "" }
    files := s.files.map fun f => if f.md.name = ".git-credentials" then { f with data := [] } else f
    steps := s.steps.map (publicStep V) }

/-- The same transform with other values of secrets; those of the netrc variables may differ if these
are among the variables that are blanked. -/
inductive OtherValues (V : List String) : Transform → Transform → Prop
  | same {a f} : About a f → OtherValues V f f
  | netrc (m u p u' p') : secretVars ⊆ V → ((u = "" ∨ p = "") ↔ (u' = "" ∨ p' = "")) →
      OtherValues V (withNetrc m u p) (withNetrc m u' p')
  | secrets (rnd) (m m' : GoMap String) : m.keys = m'.keys → OtherValues V (withSecrets rnd m) (withSecrets rnd m')
  | secretFunc (rnd iter) (f f' : List String → String → Option Engine.Secret) :
      (∀ asked name, (f asked name).map (·.md) = (f' asked name).map (·.md)) →
      OtherValues V (fun st => some (withSecretFunc rnd iter f st).2) (fun st => some (withSecretFunc rnd iter f' st).2)
  | auths (as as' : List Engine.DockerAuth) : as.map (·.address) = as'.map (·.address) →
      OtherValues V (withAuths as) (withAuths as')
  | authsFunc (as as' : List Engine.DockerAuth) : as.map (·.address) = as'.map (·.address) →
      OtherValues V (withAuthsFunc as) (withAuthsFunc as')

end Spec
open Spec

namespace Confine

variable {V : List String}

/-- The public part of a state. -/
def pub (V : List String) (st : St) : St := { st with spec := blanked V st.spec }

def pubEnv (V : List String) (m : GoMap String) : GoMap String :=
  m.map fun kv => (kv.1, if kv.1 ∈ V then "" else kv.2)

theorem pubEnv_set (m : GoMap String) (k v : String) :
    pubEnv V (m.set k v) = (pubEnv V m).set k (if k ∈ V then "" else v) := by
  induction m with
  | nil => rfl
  | cons a m ih =>
    obtain ⟨k', v'⟩ := a
    show pubEnv V (if k' = k then (k, v) :: m else (k', v') :: GoMap.set m k v) =
      (if k' = k then (k, _) :: pubEnv V m else (k', _) :: GoMap.set (pubEnv V m) k _)
    by_cases h : k' = k
    · rw [if_pos h, if_pos h]; rfl
    · rw [if_neg h, if_neg h, ← ih]; rfl

theorem pubEnv_idem (m : GoMap String) : pubEnv V (pubEnv V m) = pubEnv V m := by
  unfold pubEnv
  rw [List.map_map]
  refine List.map_congr_left fun kv _ => ?_
  by_cases h : kv.1 ∈ V <;> simp [h]

theorem pubEnv_foldl (e : GoMap String) : ∀ m : GoMap String,
    pubEnv V (e.foldl (fun l kv => l.set kv.1 kv.2) m) =
      pubEnv V (e.foldl (fun l kv => l.set kv.1 kv.2) (pubEnv V m)) := by
  induction e with
  | nil => intro m; exact (pubEnv_idem m).symm
  | cons kv e ih =>
    intro m
    rw [List.foldl_cons, List.foldl_cons, ih, ih ((pubEnv V m).set kv.1 kv.2), pubEnv_set, pubEnv_set, pubEnv_idem]

theorem publicStep_env (s : Step) : publicStep V s = { s with envs := pubEnv V s.envs } := rfl

/-- An update of the steps that gives the same on the public parts. -/
theorem pub_eachStep {g g' : Step → Step} (h : ∀ s, publicStep V (g s) = publicStep V (g' (publicStep V s))) (st : St) :
    pub V (eachStep g st) = pub V (eachStep g' (pub V st)) := by
  obtain ⟨n, sp⟩ := st
  have hs : (sp.secrets.map fun x => { x with data := "" }).map (fun x : Engine.Secret => { x with data := "" }) =
      sp.secrets.map fun x => { x with data := "" } := by rw [List.map_map]; rfl
  have ha : (sp.auths.map fun a => { a with username := "", password := "" }).map
        (fun a : Engine.DockerAuth => { a with username := "", password := "" }) =
      sp.auths.map fun a => { a with username := "", password := "" } := by rw [List.map_map]; rfl
  have hf : (sp.files.map fun f => if f.md.name = ".git-credentials" then { f with data := [] } else f).map
        (fun f : Engine.File => if f.md.name = ".git-credentials" then { f with data := [] } else f) =
      sp.files.map fun f => if f.md.name = ".git-credentials" then { f with data := [] } else f := by
    rw [List.map_map]
    refine List.map_congr_left fun f _ => ?_
    by_cases h : f.md.name = ".git-credentials" <;> simp [h]
  have ht : (sp.steps.map g).map (publicStep V) = ((sp.steps.map (publicStep V)).map g').map (publicStep V) := by
    rw [List.map_map, List.map_map, List.map_map]
    exact List.map_congr_left fun s _ => h s
  simp only [pub, blanked, eachStep, hs, ha, hf, ht]

theorem publicStep_idem (s : Step) : publicStep V (publicStep V s) = publicStep V s := by
  rw [publicStep_env, publicStep_env]
  simp only [pubEnv_idem]

theorem pub_idem (st : St) : pub V (pub V st) = pub V st := by
  have := pub_eachStep (V := V) (g := id) (g' := id) (fun s => (publicStep_idem s).symm) st
  simp only [eachStep, List.map_id] at this
  exact this.symm

/-- The public part of the result. -/
def obs (V : List String) (f : Transform) (st : St) : Option St := (f st).map (pub V)

theorem obs_each {f : Transform} {g : Step → Step} (hf : ∀ st, f st = some (eachStep g st))
    (h : ∀ s, publicStep V (g s) = publicStep V (g (publicStep V s))) (st : St) : obs V f st = obs V f (pub V st) := by
  unfold obs
  rw [hf, hf, Option.map_some, Option.map_some, pub_eachStep h]

theorem mask_each {c : Step → Bool} (h : ∀ s, c (publicStep V s) = c s) (s : Step) :
    publicStep V (if c s then s else disable s) =
      publicStep V (if c (publicStep V s) then publicStep V s else disable (publicStep V s)) := by
  rw [h]
  by_cases hc : c s = true
  · simp only [hc, if_true]; exact (publicStep_idem s).symm
  · simp only [hc, if_false, Bool.false_eq_true]
    show disable (publicStep V s) = disable (publicStep V (publicStep V s))
    rw [publicStep_idem]

theorem resume_public (name : String) : ∀ l : List Step,
    (resumeLoop name l).map (publicStep V) = (resumeLoop name (l.map (publicStep V))).map (publicStep V)
  | [] => rfl
  | s :: l => by
    have hn : (publicStep V s).md.name = s.md.name := rfl
    have ih := resume_public name l
    have hm : (l.map (publicStep V)).map (publicStep V) = l.map (publicStep V) := by
      rw [List.map_map]; exact List.map_congr_left fun s _ => publicStep_idem s
    rw [List.map_cons, resumeLoop, resumeLoop, hn]
    by_cases h1 : s.md.name = name
    · simp only [h1, if_true, List.map_cons, publicStep_idem, hm]
    · by_cases h2 : s.md.name = "clone"
      · have h3 : ¬ ("clone" = name) := h2 ▸ h1
        simp only [h2, h3, if_true, if_false, List.map_cons, publicStep_idem, ih]
      · simp only [h1, h2, if_false, List.map_cons, ih]
        congr 1
        show disable (publicStep V s) = disable (publicStep V (publicStep V s))
        rw [publicStep_idem]

theorem pub_steps {l l' : List Step} (h : l.map (publicStep V) = l'.map (publicStep V)) (st : St) :
    pub V { st with spec := { st.spec with steps := l } } =
      pub V { pub V st with spec := { (pub V st).spec with steps := l' } } := by
  have := pub_eachStep (V := V) (g := id) (g' := id) (fun s => (publicStep_idem s).symm) { st with spec := { st.spec with steps := [] } }
  simp only [eachStep, List.map_id, pub, blanked, List.map_nil] at this ⊢
  injection this with h1 h2
  injection h2 with _ _ h3 _ h4 h5 _
  rw [h, ← h3, ← h4, ← h5]

theorem secretSet_public (l : List Step) : secretSet (l.map (publicStep V)) = secretSet l := by
  unfold secretSet
  rw [List.foldl_map]
  rfl

theorem pub_addSecret (rnd : Nat → String) {s s' : Engine.Secret} (h : s.md = s'.md) {st st' : St} (he : pub V st = pub V st') :
    pub V (addSecret rnd s st) = pub V (addSecret rnd s' st') := by
  obtain ⟨n, sp⟩ := st
  obtain ⟨n', sp'⟩ := st'
  simp only [pub, blanked, St.mk.injEq, Engine.Spec.mk.injEq] at he
  obtain ⟨rfl, h1, h2, h3, h4, h5, h6, h7⟩ := he
  simp only [pub, blanked, addSecret, List.map_append, List.map_cons, List.map_nil, h, h1, h2, h3, h4, h5, h6, h7]

theorem pub_pub (st : St) : pub V st = pub V (pub V st) := (pub_idem st).symm

theorem withSecrets_public (rnd : Nat → String) : ∀ (m m' : GoMap String), m.keys = m'.keys → ∀ st st', pub V st = pub V st' →
    obs V (withSecrets rnd m) st = obs V (withSecrets rnd m') st'
  | [], [], _, st, st', h => by simp only [obs, withSecrets, List.foldl_nil, Option.map_some, h]
  | [], _ :: _, h, _, _, _ => by simp [GoMap.keys] at h
  | _ :: _, [], h, _, _, _ => by simp [GoMap.keys] at h
  | a :: m, b :: m', h, st, st', he => by
    simp only [GoMap.keys, List.map_cons, List.cons.injEq] at h
    exact withSecrets_public rnd m m' h.2 _ _ (pub_addSecret rnd (by simp [h.1]) he)

theorem askSecrets_public (rnd : Nat → String) {f f' : List String → String → Option Engine.Secret}
    (hf : ∀ asked name, (f asked name).map (·.md) = (f' asked name).map (·.md)) : ∀ (names asked : List String) (st st' : St),
    pub V st = pub V st' → pub V (askSecrets rnd f names asked st).2 = pub V (askSecrets rnd f' names asked st').2
  | [], _, _, _, h => h
  | name :: names, asked, st, st', h => by
    rw [askSecrets, askSecrets]
    refine askSecrets_public rnd hf names _ _ _ ?_
    have := hf asked name
    cases h1 : f asked name with
    | none =>
      rw [h1] at this
      rw [Option.map_eq_none_iff.1 this.symm]
      exact h
    | some s =>
      rw [h1] at this
      obtain ⟨s', h2, h3⟩ := Option.map_eq_some_iff.1 this.symm
      rw [h2]
      exact pub_addSecret rnd h3.symm h

theorem secretFunc_public (rnd : Nat → String) (iter : List String → List String)
    {f f' : List String → String → Option Engine.Secret}
    (hf : ∀ asked name, (f asked name).map (·.md) = (f' asked name).map (·.md)) {st st' : St} (h : pub V st = pub V st') :
    pub V (withSecretFunc rnd iter f st).2 = pub V (withSecretFunc rnd iter f' st').2 := by
  have hs : secretSet st.spec.steps = secretSet st'.spec.steps := by
    rw [← secretSet_public, ← secretSet_public st'.spec.steps]
    exact congrArg (fun s => secretSet s.spec.steps) h
  unfold withSecretFunc
  rw [hs]
  exact askSecrets_public rnd hf _ _ _ _ h

theorem auths_public {as as' : List Engine.DockerAuth} (ha : as.map (·.address) = as'.map (·.address)) {st st' : St}
    (he : pub V st = pub V st') : pub V { st with spec := { st.spec with auths := st.spec.auths ++ as } } =
      pub V { st' with spec := { st'.spec with auths := st'.spec.auths ++ as' } } := by
  have hm : as.map (fun a : Engine.DockerAuth => { a with username := "", password := "" }) =
      as'.map (fun a : Engine.DockerAuth => { a with username := "", password := "" }) := by
    have e : ∀ l : List Engine.DockerAuth, l.map (fun a : Engine.DockerAuth => { a with username := "", password := "" }) =
        (l.map (·.address)).map fun x => { address := x } := fun l => by rw [List.map_map]; rfl
    rw [e, e, ha]
  obtain ⟨n, sp⟩ := st
  obtain ⟨n', sp'⟩ := st'
  simp only [pub, blanked, St.mk.injEq, Engine.Spec.mk.injEq] at he
  obtain ⟨rfl, h1, h2, h3, h4, h5, h6, h7⟩ := he
  simp only [pub, blanked, List.map_append, hm, h1, h2, h3, h4, h5, h6, h7]

theorem labelSteps_public (ord : Nat → GoMap String) : ∀ (l : List Step) (i : Nat),
    labelSteps ord i (l.map (publicStep V)) = (labelSteps ord i l).map (List.map (publicStep V))
  | [], _ => rfl
  | s :: l, i => by
    rw [List.map_cons, labelSteps, labelSteps, labelSteps_public ord l]
    show (addLabels (ord i) s.md).bind _ = _
    cases addLabels (ord i) s.md with
    | none => rfl
    | some m => cases labelSteps ord (i + 1) l <;> rfl

theorem labels_public (ord : Nat → GoMap String) (st : St) : obs V (withLables ord) st = obs V (withLables ord) (pub V st) := by
  unfold obs withLables
  show Option.map (pub V) ((addLabels (ord 0) st.spec.md).bind _) = Option.map (pub V) ((addLabels (ord 0) st.spec.md).bind _)
  cases addLabels (ord 0) st.spec.md with
  | none => rfl
  | some m =>
    show Option.map (pub V) ((labelVolumes ord 1 st.spec.volumes).bind _) =
      Option.map (pub V) ((labelVolumes ord 1 st.spec.volumes).bind _)
    cases labelVolumes ord 1 st.spec.volumes with
    | none => rfl
    | some vs =>
      show Option.map (pub V) ((labelSteps ord (1 + st.spec.volumes.length) st.spec.steps).map _) =
        Option.map (pub V) ((labelSteps ord (1 + st.spec.volumes.length) (st.spec.steps.map (publicStep V))).map _)
      rw [labelSteps_public]
      cases labelSteps ord (1 + st.spec.volumes.length) st.spec.steps with
      | none => rfl
      | some ss =>
        simp only [Option.map_some, Option.some.injEq]
        have := pub_steps (V := V) (l := ss) (l' := ss.map (publicStep V))
          (by rw [List.map_map]; exact List.map_congr_left fun s _ => (publicStep_idem s).symm) st
        simp only [pub, blanked, St.mk.injEq, Engine.Spec.mk.injEq] at this ⊢
        simp only [true_and] at this ⊢
        exact ⟨this.1, this.2.1, this.2.2.1, this.2.2.2.1, trivial⟩

theorem volumes_public (rnd : Nat → String) : ∀ (m : GoMap String) (st st' : St), pub V st = pub V st' →
    obs V (withVolumes rnd m) st = obs V (withVolumes rnd m) st'
  | [], st, st', h => by simp only [obs, withVolumes, List.foldl_nil, Option.map_some, h]
  | kv :: m, st, st', he => by
    refine volumes_public rnd m _ _ ?_
    obtain ⟨n, sp⟩ := st
    obtain ⟨n', sp'⟩ := st'
    simp only [pub, blanked, St.mk.injEq, Engine.Spec.mk.injEq] at he
    obtain ⟨rfl, h1, h2, h3, h4, h5, h6, h7⟩ := he
    have hst : ∀ vs : List Engine.VolumeMount, (sp.steps.map fun s => { s with volumes := s.volumes ++ vs }).map (publicStep V) =
        (sp'.steps.map fun s => { s with volumes := s.volumes ++ vs }).map (publicStep V) := by
      intro vs
      have e : ∀ l : List Step, (l.map fun s => { s with volumes := s.volumes ++ vs }).map (publicStep V) =
          (l.map (publicStep V)).map fun s => { s with volumes := s.volumes ++ vs } := fun l => by
        rw [List.map_map, List.map_map]; rfl
      rw [e, e, h4]
    simp only [pub, blanked, addGlobalVolume, eachStep, hst, h1, h2, h3, h5, h6, h7]

/-- The public part of what a transform gives is determined by the public part of what it is given. -/
theorem about_public {a : Aspect} {f : Transform} (h : About a f) (st : St) : obs V f st = obs V f (pub V st) := by
  have env : ∀ e st, obs V (withEnviron e) st = obs V (withEnviron e) (pub V st) := by
    intro e st
    refine obs_each (withEnviron_eq e) (fun s => ?_) st
    simp only [publicStep_env]
    rw [pubEnv_foldl]
  cases h with
  | includeOnly names =>
    by_cases hn : names.length = 0
    · simp only [obs, includeOnly, if_pos hn, Option.map_some, pub_idem]
    · refine obs_each (g := fun s => if s.md.name = "clone" then s else if s.md.name ∈ names then s else disable s)
        (fun st => if_neg hn) (fun s => ?_) st
      have := mask_each (V := V) (c := fun s => s.md.name = "clone" || s.md.name ∈ names) (fun _ => rfl) s
      by_cases h1 : s.md.name = "clone" <;> by_cases h2 : s.md.name ∈ names <;>
        simpa [h1, h2, publicStep_env] using this
  | excludeAll names =>
    by_cases hn : names.length = 0
    · simp only [obs, excludeAll, if_pos hn, Option.map_some, pub_idem]
    · refine obs_each (g := fun s => if s.md.name = "clone" then s else if s.md.name ∈ names then disable s else s)
        (fun st => if_neg hn) (fun s => ?_) st
      have := mask_each (V := V) (c := fun s => s.md.name = "clone" || !(decide (s.md.name ∈ names))) (fun _ => rfl) s
      by_cases h1 : s.md.name = "clone" <;> by_cases h2 : s.md.name ∈ names <;>
        simpa [h1, h2, publicStep_env] using this
  | resumeAt name =>
    unfold obs resumeAt
    by_cases hn : name = ""
    · simp only [if_pos hn, Option.map_some, pub_idem]
    · simp only [if_neg hn, Option.map_some]
      rw [pub_steps (resume_public name st.spec.steps)]
      rfl
  | environ e => exact env e st
  | netrc m u p =>
    by_cases hn : u = "" ∨ p = ""
    · simp only [obs, withNetrc, if_pos hn, Option.map_some, pub_idem]
    · refine obs_each (f := withNetrc m u p) (fun st => if_neg hn) (fun s => ?_) st
      simp only [publicStep_env, pubEnv_set, pubEnv_idem]
  | proxy os iter => exact env _ st
  | limits mem cpu =>
    by_cases hn : mem = 0 ∧ cpu = 0
    · simp only [obs, withLimits, if_pos hn, Option.map_some, pub_idem]
    · refine obs_each (f := withLimits mem cpu) (fun st => if_neg hn) (fun s => ?_) st
      simp only [publicStep_env, pubEnv_idem]
  | networks ns =>
    refine obs_each (f := withNetworks ns) (fun st => rfl) (fun s => ?_) st
    simp only [publicStep_env, pubEnv_idem]
  | auths as => exact congrArg some (auths_public rfl (pub_pub st))
  | authsFunc as =>
    unfold obs withAuthsFunc
    by_cases hn : as.length ≠ 0
    · simp only [if_pos hn]; exact congrArg some (auths_public rfl (pub_pub st))
    · simp only [if_neg hn, Option.map_some, pub_idem]
  | secrets rnd m => exact withSecrets_public rnd m m rfl _ _ (pub_pub st)
  | secretFunc rnd iter f => exact congrArg some (secretFunc_public rnd iter (fun _ _ => rfl) (pub_pub st))
  | volumes rnd m => exact volumes_public rnd m _ _ (pub_pub st)
  | volumeSlice rnd iter l => exact volumes_public rnd _ _ _ (pub_pub st)
  | labels ord => exact labels_public ord st

theorem other_public {f f' : Transform} (h : OtherValues V f f') {st st' : St} (he : pub V st = pub V st') :
    obs V f st = obs V f' st' := by
  cases h with
  | same h => rw [about_public h st, about_public h st', he]
  | netrc m u p u' p' hV hu =>
    rw [about_public (.netrc m u p) st, about_public (.netrc m u' p') st', he]
    unfold obs withNetrc
    by_cases hn : u = "" ∨ p = ""
    · rw [if_pos hn, if_pos (hu.1 hn)]
    · rw [if_neg hn, if_neg fun h => hn (hu.2 h), Option.map_some, Option.map_some]
      congr 1
      have e : ∀ g g' : Step → Step, (∀ s, publicStep V (g s) = publicStep V (g' s)) → ∀ st, pub V (eachStep g st) = pub V (eachStep g' st) := by
        intro g g' h st
        have : (st.spec.steps.map g).map (publicStep V) = (st.spec.steps.map g').map (publicStep V) := by
          rw [List.map_map, List.map_map]
          exact List.map_congr_left fun s _ => h s
        simp only [pub, blanked, eachStep, this]
      refine e _ _ (fun s => ?_) _
      simp only [publicStep_env, pubEnv_set]
      have m1 : "CI_NETRC_USERNAME" ∈ V := hV (by decide)
      have m2 : "CI_NETRC_PASSWORD" ∈ V := hV (by decide)
      have m3 : "DRONE_NETRC_USERNAME" ∈ V := hV (by decide)
      have m4 : "DRONE_NETRC_PASSWORD" ∈ V := hV (by decide)
      simp only [m1, m2, m3, m4, if_true]
  | secrets rnd m m' hm => exact withSecrets_public rnd m m' hm _ _ he
  | secretFunc rnd iter f f' hf => exact congrArg some (secretFunc_public rnd iter hf he)
  | auths as as' ha => exact congrArg some (auths_public ha he)
  | authsFunc as as' ha =>
    unfold obs withAuthsFunc
    have hl : as.length = as'.length := by simpa using congrArg List.length ha
    rw [← hl]
    by_cases hn : as.length ≠ 0
    · simp only [if_pos hn]; exact congrArg some (auths_public ha he)
    · simp only [if_neg hn, Option.map_some, he]

theorem combine_public {fs fs' : List Transform} (h : List.Forall₂ (OtherValues V) fs fs') : ∀ {r r' : Option St},
    r.map (pub V) = r'.map (pub V) →
    (fs.foldl (fun (r : Option St) fn => r.bind fn) r).map (pub V) = (fs'.foldl (fun (r : Option St) fn => r.bind fn) r').map (pub V) := by
  induction h with
  | nil => exact fun h => h
  | cons h _ ih =>
    intro r r' hr
    rw [List.foldl_cons, List.foldl_cons]
    refine ih ?_
    cases r with
    | none => cases r' with
      | none => rfl
      | some _ => simp at hr
    | some st => cases r' with
      | none => simp at hr
      | some st' => exact other_public h (Option.some.inj hr)

/-! ### The compiler -/

/-- More files in front. -/
def pre (A : List Engine.File) (st : St) : St := { st with spec := { st.spec with files := A ++ st.spec.files } }

theorem createStep_pre (E : Ext) (rnd : Nat → String) (A : List Engine.File) (st : St) (src : Container) :
    createStep E rnd (pre A st) src = (createStep E rnd st src).map fun r => (r.1, pre A r.2) := by
  unfold createStep
  cases toPorts src with
  | none => rfl
  | some ports =>
    cases stepMounts src.volumes with
    | none => rfl
    | some mounts =>
      simp only [Option.bind_some]
      by_cases h1 : src.commands.length > 0
      · rw [if_pos h1, if_pos h1]
        by_cases h2 : st.spec.platform.os = "windows"
        · rw [if_pos (show (pre A st).spec.platform.os = "windows" from h2), if_pos h2]; rfl
        · rw [if_neg (show ¬ (pre A st).spec.platform.os = "windows" from h2), if_neg h2]
          simp [setupScript, pre]
      · rw [if_neg h1, if_neg h1]; rfl

theorem addService_pre (E : Ext) (c : Compiler) (rnd : Nat → String) (p : Pipeline) (w : WorkspaceDirs) (serial : Bool)
    (A : List Engine.File) (s : Container) (st : St) :
    addService E c rnd p w serial s (pre A st) = (addService E c rnd p w serial s st).map (pre A) := by
  unfold addService
  rw [createStep_pre]
  cases createStep E rnd st s <;> rfl

theorem addServices_pre (E : Ext) (c : Compiler) (rnd : Nat → String) (p : Pipeline) (w : WorkspaceDirs) (serial : Bool)
    (A : List Engine.File) : ∀ (l : List (Option Container)) (st : St),
    addServices E c rnd p w serial l (pre A st) = (addServices E c rnd p w serial l st).map (pre A)
  | [], _ => rfl
  | none :: _, _ => rfl
  | some s :: l, st => by
    rw [addServices, addServices, addService_pre]
    cases addService E c rnd p w serial s st with
    | none => rfl
    | some st => exact addServices_pre E c rnd p w serial A l st

theorem addPipelineStep_pre (E : Ext) (c : Compiler) (rnd : Nat → String) (p : Pipeline) (w : WorkspaceDirs) (serial : Bool)
    (A : List Engine.File) (s : Container) (st : St) (rn : GoMap String) :
    addPipelineStep E c rnd p w serial s (pre A st) rn =
      (addPipelineStep E c rnd p w serial s st rn).map fun r => (pre A r.1, r.2) := by
  unfold addPipelineStep
  cases s.build with
  | some b => rfl
  | none =>
    simp only [createStep_pre]
    cases createStep E rnd st s <;> rfl

theorem addSteps_pre (E : Ext) (c : Compiler) (rnd : Nat → String) (p : Pipeline) (w : WorkspaceDirs) (serial : Bool)
    (A : List Engine.File) : ∀ (l : List (Option Container)) (st : St) (rn : GoMap String),
    addSteps E c rnd p w serial l (pre A st) rn = (addSteps E c rnd p w serial l st rn).map fun r => (pre A r.1, r.2)
  | [], _, _ => rfl
  | none :: _, _, _ => rfl
  | some s :: l, st, rn => by
    rw [addSteps, addSteps, addPipelineStep_pre]
    cases addPipelineStep E c rnd p w serial s st rn with
    | none => rfl
    | some r => exact addSteps_pre E c rnd p w serial A l r.1 r.2

/-- The compiler with other credentials for git. -/
def _root_.Drone.Spec.withCreds (c : Compiler) (d : Bytes) : Compiler := { c with gitCredentials := some d }

theorem credentials_ne (rnd : Nat → String) (st : St) (dst : Step) {d : Bytes} (h : d ≠ []) :
    setupCloneCredentials rnd st dst d =
      ({ dst with files := dst.files ++ [{ name := ".git-credentials", path := "/root/.git-credentials" }] },
       { n := st.n + 1
         spec := { st.spec with files := st.spec.files ++ [{
           md := { uid := rnd st.n, namespc := st.spec.md.namespc, name := ".git-credentials" }
           data := d }] } }) :=
  if_neg (by simpa using h)

theorem addClone_creds (E : Ext) (c : Compiler) (rnd : Nat → String) (p : Pipeline) (w : WorkspaceDirs) (st : St)
    {d d' : Bytes} (hd : d ≠ []) (hd' : d' ≠ []) :
    addClone E (withCreds c d) rnd p w st = addClone E (withCreds c d') rnd p w st ∨
    ∃ A md st0, md.name = ".git-credentials" ∧
      addClone E (withCreds c d) rnd p w st = some (pre (A ++ [{ md := md, data := d }]) st0) ∧
      addClone E (withCreds c d') rnd p w st = some (pre (A ++ [{ md := md, data := d' }]) st0) := by
  by_cases h : p.clone.disable = true
  · left
    unfold addClone
    rw [if_pos h, if_pos h]
  · cases hc : createStep E rnd st (createClone p) with
    | none =>
      left
      unfold addClone
      rw [if_neg h, if_neg h]
      simp only [hc, Option.map_none]
    | some r =>
      right
      obtain ⟨dst, st1⟩ := r
      refine ⟨st1.spec.files, { uid := rnd st1.n, namespc := st1.spec.md.namespc, name := ".git-credentials" },
        { n := st1.n + 1
          spec := { st1.spec with
            files := []
            steps := st1.spec.steps ++ [setupWorkspaceMount c (setupWorkspaceEnv (setupWorkingDir (createClone p)
              { setupCloneDepth p { dst with docker := { dst.docker with pullPolicy := .ifNotExists } } with
                files := (setupCloneDepth p { dst with docker := { dst.docker with pullPolicy := .ifNotExists } }).files ++
                  [{ name := ".git-credentials", path := "/root/.git-credentials" }] } w.full) w) w] } }, rfl, ?_, ?_⟩ <;>
      · unfold addClone
        rw [if_neg h]
        simp only [hc, Option.map_some, withCreds, Option.getD_some, credentials_ne _ _ _ hd, credentials_ne _ _ _ hd', pre,
          List.append_nil, St.addStep]
        rfl

end Confine
open Confine

/-- The result of compiling and of the transforms applied to it. -/
def Spec.produced (E : Ext) (c : Compiler) (rnd : Nat → String) (p : Pipeline) (fs : List Transform) : Option Engine.Spec :=
  ((compileCore E c rnd p).bind (combine fs)).map (·.spec)

theorem core_creds (V : List String) (E : Ext) (c : Compiler) (rnd : Nat → String) (p : Pipeline) {d d' : Bytes} (hd : d = [] ↔ d' = []) :
    (compileCore E (withCreds c d) rnd p).map (pub V) = (compileCore E (withCreds c d') rnd p).map (pub V) := by
  by_cases h0 : d = []
  · rw [h0, hd.1 h0]
  have h0' : d' ≠ [] := fun h => h0 (hd.2 h)
  unfold compileCore
  cases isSerial p.steps with
  | none => rfl
  | some serial =>
    simp only [Option.bind_some]
    have hw : ∀ st, setupWorkspace (withCreds c d) rnd st = setupWorkspace (withCreds c d') rnd st := fun st => rfl
    rw [hw]
    cases addVolumes rnd (rnd 0) p.volumes
        (setupWorkspace (withCreds c d') rnd { n := 1, spec := initSpec p (rnd 0) }) with
    | none => rfl
    | some st =>
      simp only [Option.bind_some]
      have hs : ∀ d w l st, addServices E (withCreds c d) rnd p w serial l st = addServices E c rnd p w serial l st := by
        intro d w l
        induction l with
        | nil => exact fun _ => rfl
        | cons s l ih =>
          intro st
          cases s with
          | none => rfl
          | some s =>
            rw [addServices, addServices]
            show (addService E c rnd p w serial s st).bind _ = _
            cases addService E c rnd p w serial s st with
            | none => rfl
            | some st => exact ih st
      have ht : ∀ d w l st rn, addSteps E (withCreds c d) rnd p w serial l st rn = addSteps E c rnd p w serial l st rn := by
        intro d w l
        induction l with
        | nil => exact fun _ _ => rfl
        | cons s l ih =>
          intro st rn
          cases s with
          | none => rfl
          | some s =>
            rw [addSteps, addSteps]
            show (addPipelineStep E c rnd p w serial s st rn).bind _ = _
            cases addPipelineStep E c rnd p w serial s st rn with
            | none => rfl
            | some r => exact ih r.1 r.2
      simp only [hs, ht]
      rcases addClone_creds E c rnd p (createWorkspace p) st h0 h0' with h | ⟨A, md, st0, hm, h1, h2⟩
      · rw [h]
      · rw [h1, h2]
        simp only [Option.bind_some, addServices_pre]
        cases addServices E c rnd p (createWorkspace p) serial p.services st0 with
        | none => rfl
        | some st1 =>
          simp only [Option.map_some, Option.bind_some, addSteps_pre]
          cases addSteps E c rnd p (createWorkspace p) serial p.steps st1 [] with
          | none => rfl
          | some r =>
            obtain ⟨st2, rn⟩ := r
            simp only [Option.map_some, Option.some.injEq]
            unfold addSocket
            by_cases hr : rn.length > 0
            · simp [hr, pub, blanked, pre, St.addVolume, hm]
            · simp [hr, pub, blanked, pre, hm]

/-- **C131.** Whatever the values of the secrets, the credentials for git and those for the registries:
compiling a pipeline and applying the transforms of the library to it, in any number and order, gives the
same result up to the places made for these values, and panics in the same cases. -/
theorem C131_confined (V : List String) (E : Ext) (c : Compiler) (rnd : Nat → String) (p : Pipeline) (d d' : Bytes) (hd : d = [] ↔ d' = [])
    (fs fs' : List Transform) (h : List.Forall₂ (OtherValues V) fs fs') :
    (produced E (withCreds c d) rnd p fs).map (blanked V) = (produced E (withCreds c d') rnd p fs').map (blanked V) := by
  unfold produced
  have := core_creds V E c rnd p hd
  have key : ((compileCore E (withCreds c d) rnd p).bind (combine fs)).map (pub V) =
      ((compileCore E (withCreds c d') rnd p).bind (combine fs')).map (pub V) := by
    cases h1 : compileCore E (withCreds c d) rnd p with
    | none => cases h2 : compileCore E (withCreds c d') rnd p with
      | none => rfl
      | some _ => rw [h1, h2] at this; simp at this
    | some st => cases h2 : compileCore E (withCreds c d') rnd p with
      | none => rw [h1, h2] at this; simp at this
      | some st' =>
        rw [h1, h2] at this
        exact combine_public h this
  rw [Option.map_map, Option.map_map]
  have := congrArg (Option.map (·.spec)) key
  rw [Option.map_map, Option.map_map] at this
  exact this

/-- **C131.** Values of secrets, passwords for registries and the credentials for cloning do not reach the steps: these
are the same, whatever the values.  (Transforms that differ in the netrc credentials are left out here.) -/
theorem C131_steps (E : Ext) (c : Compiler) (rnd : Nat → String) (p : Pipeline) (d d' : Bytes) (hd : d = [] ↔ d' = [])
    (fs fs' : List Transform) (h : List.Forall₂ (OtherValues []) fs fs') :
    (produced E (withCreds c d) rnd p fs).map (·.steps) = (produced E (withCreds c d') rnd p fs').map (·.steps) := by
  have := congrArg (Option.map (·.steps)) (C131_confined [] E c rnd p d d' hd fs fs' h)
  rw [Option.map_map, Option.map_map] at this
  have e : ((·.steps) ∘ blanked [] : Engine.Spec → List Step) = (·.steps) := by
    funext s
    show s.steps.map (publicStep []) = s.steps
    have : publicStep [] = id := by
      funext t
      simp [publicStep]
    rw [this, List.map_id]
  rwa [e] at this

/-- **C131.** Nor do they reach the metadata, the platform, the volumes, the names of the secrets and the addresses of the
registries; and the netrc credentials reach only the four variables made for them. -/
theorem C131_places (E : Ext) (c : Compiler) (rnd : Nat → String) (p : Pipeline) (d d' : Bytes) (hd : d = [] ↔ d' = [])
    (fs fs' : List Transform) (h : List.Forall₂ (OtherValues secretVars) fs fs') (s : Engine.Spec)
    (hs : produced E (withCreds c d) rnd p fs = some s) :
    ∃ s', produced E (withCreds c d') rnd p fs' = some s' ∧ s'.md = s.md ∧ s'.platform = s.platform ∧ s'.volumes = s.volumes ∧
      s'.secrets.map (·.md) = s.secrets.map (·.md) ∧ s'.auths.map (·.address) = s.auths.map (·.address) ∧
      List.Forall₂ (fun f f' : Engine.File => f'.md = f.md ∧ (f.md.name ≠ ".git-credentials" → f' = f)) s.files s'.files ∧
      List.Forall₂ (fun t t' : Step => t' = { t with envs := t'.envs } ∧
        List.Forall₂ (fun kv kv' : String × String => kv'.1 = kv.1 ∧ (kv.1 ∉ secretVars → kv' = kv)) t.envs t'.envs)
        s.steps s'.steps := by
  have key := C131_confined secretVars E c rnd p d d' hd fs fs' h
  rw [hs] at key
  obtain ⟨s', h1, h2⟩ := Option.map_eq_some_iff.1 key.symm
  refine ⟨s', h1, ?_⟩
  simp only [blanked, Engine.Spec.mk.injEq] at h2
  obtain ⟨e1, e2, e3, e4, e5, e6, e7⟩ := h2
  have proj : ∀ {α β γ : Type} (f : α → β) (g : β → γ) (g' : α → γ), (∀ a, g (f a) = g' a) → ∀ {l l' : List α},
      l.map f = l'.map f → l.map g' = l'.map g' := by
    intro α β γ f g g' hg l l' h
    have := congrArg (List.map g) h
    rwa [List.map_map, List.map_map, show g ∘ f = g' from funext hg] at this
  have rel : ∀ {α : Type} (f : α → α) (R : α → α → Prop), (∀ a a', f a' = f a → R a a') → ∀ {l l' : List α},
      l'.map f = l.map f → List.Forall₂ R l l' := by
    intro α f R hR l
    induction l with
    | nil => intro l' h; simp at h; subst h; exact .nil
    | cons a l ih =>
      intro l' h
      cases l' with
      | nil => simp at h
      | cons a' l' =>
        simp only [List.map_cons, List.cons.injEq] at h
        exact .cons (hR _ _ h.1) (ih h.2)
  refine ⟨e1, e2, e7, proj _ (·.md) _ (fun _ => rfl) e3, proj _ (·.address) _ (fun _ => rfl) e6, ?_, ?_⟩
  · refine rel _ _ (fun f f' hf => ?_) e5
    by_cases n : f.md.name = ".git-credentials"
    · by_cases n' : f'.md.name = ".git-credentials"
      · simp only [n, n', if_true, Engine.File.mk.injEq, and_true] at hf
        exact ⟨hf, fun h => absurd n h⟩
      · simp only [n, n', if_true, if_false] at hf
        rw [hf] at n'
        exact absurd n n'
    · by_cases n' : f'.md.name = ".git-credentials"
      · simp only [n, n', if_true, if_false] at hf
        rw [← hf] at n
        exact absurd n' n
      · simp only [n, n', if_false] at hf
        exact ⟨congrArg _ hf, fun _ => hf⟩
  · refine rel _ _ (fun t t' ht => ?_) e4
    simp only [publicStep, Step.mk.injEq] at ht
    obtain ⟨a1, a2, a3, a4, a5, a6, a7, a8, a9, a10, a11, a12⟩ := ht
    refine ⟨?_, rel _ _ (fun kv kv' hk => ?_) a5⟩
    · cases t; cases t'
      simp_all
    · simp only [Prod.mk.injEq] at hk
      refine ⟨hk.1, fun hn => ?_⟩
      have hn' : kv'.1 ∉ secretVars := hk.1 ▸ hn
      rw [if_neg hn, if_neg hn'] at hk
      exact Prod.ext hk.1 hk.2

/-! ### Examples -/

/-- Transforms with values of secrets. -/
def cfTransforms (v u w : String) : List Transform :=
  [withNetrc "github.com" u v, withSecrets exRnd [("token", v)],
   (fun st => some (withSecretFunc exRnd id (fun _ n => some { md := { name := n }, data := w }) st).2),
   withAuths [{ address := "docker.io", username := u, password := v }],
   withVolumes exRnd [("/tmp", "/tmp")]]

/-- The hypotheses can be met, and the values do arrive. -/
example : List.Forall₂ (OtherValues secretVars) (cfTransforms "a" "b" "c") (cfTransforms "d" "e" "f") := by
  refine .cons (.netrc _ _ _ _ _ (fun _ h => h) (by decide)) (.cons (.secrets _ _ _ rfl) (.cons (.secretFunc _ _ _ _ fun _ _ => rfl)
    (.cons (.auths _ _ rfl) (.cons (.same (.volumes _ _)) .nil))))

example : ∃ s s', produced exExt (withCreds {} [1]) exRnd exCompiled (cfTransforms "a" "b" "c") = some s ∧
    produced exExt (withCreds {} [2]) exRnd exCompiled (cfTransforms "d" "e" "f") = some s' ∧
    s.secrets.map (·.data) = ["a", "c"] ∧ s'.secrets.map (·.data) = ["d", "f"] ∧
    s.auths ≠ s'.auths ∧ s.files ≠ s'.files ∧ s.steps ≠ s'.steps := by
  refine ⟨_, _, rfl, rfl, ?_⟩
  decide +kernel

/-- Whether there are credentials at all does count. -/
example : (produced exExt (withCreds {} []) exRnd exCompiled []).map (blanked secretVars) ≠
    (produced exExt (withCreds {} [2]) exRnd exCompiled []).map (blanked secretVars) := by
  decide +kernel

end Drone
