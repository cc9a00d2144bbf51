/-
C113: which transforms of a compiled specification may change places.
-/
import Verif.Props.Transform

namespace Drone
open Transform
open Engine (Step Metadata)

namespace Spec

/-- What a transform is about. -/
inductive Aspect where
  | policy    -- which steps run
  | environ   -- variables
  | limits
  | networks
  | auths     -- credentials
  | secrets   -- secrets given as a map
  | resolved  -- secrets asked for
  | volumes
  | labels
  deriving DecidableEq, Repr

/-- The transforms of the package, by what they are about. -/
inductive About : Aspect → Transform → Prop
  | includeOnly (names) : About .policy (includeOnly names)
  | excludeAll (names) : About .policy (excludeAll names)
  | resumeAt (name) : About .policy (resumeAt name)
  | environ (e) : About .environ (withEnviron e)
  | netrc (m u p) : About .environ (withNetrc m u p)
  | proxy (os iter) : About .environ (withProxy os iter)
  | limits (mem cpu) : About .limits (withLimits mem cpu)
  | networks (ns) : About .networks (withNetworks ns)
  | auths (as) : About .auths (withAuths as)
  | authsFunc (as) : About .auths (withAuthsFunc as)
  | secrets (rnd m) : About .secrets (withSecrets rnd m)
  | secretFunc (rnd iter f) : About .resolved fun st => some (withSecretFunc rnd iter f st).2
  | volumes (rnd m) : About .volumes (withVolumes rnd m)
  | volumeSlice (rnd iter l) : About .volumes (withVolumeSlice rnd iter l)
  | labels (ord) : About .labels (withLables ord)

/-- Transforms about `a` and about `b` have nothing to do with each other: they are about different
things, or both about which steps run.  Not so: asking for secrets depends on which steps run, labels
on which volumes there are, and secrets and volumes are given random names from one source. -/
def Apart (a b : Aspect) : Prop :=
  (a ≠ b ∨ a = .policy) ∧
  ∀ x y, (x, y) ∈ [(Aspect.policy, Aspect.resolved), (.volumes, .labels), (.secrets, .resolved),
    (.secrets, .volumes), (.resolved, .volumes)] → ¬ (a = x ∧ b = y) ∧ ¬ (a = y ∧ b = x)

instance (a b : Aspect) : Decidable (Apart a b) :=
  decidable_of_iff ((a ≠ b ∨ a = .policy) ∧ ∀ p ∈ [(Aspect.policy, Aspect.resolved), (.volumes, .labels),
    (.secrets, .resolved), (.secrets, .volumes), (.resolved, .volumes)],
      ¬ (a = p.1 ∧ b = p.2) ∧ ¬ (a = p.2 ∧ b = p.1))
    ⟨fun h => ⟨h.1, fun x y hp => h.2 (x, y) hp⟩, fun h => ⟨h.1, fun p hp => h.2 p.1 p.2 hp⟩⟩

end Spec
open Spec

namespace Order

/-! ### What each kind does -/

/-- A step with other metadata. -/
def relabel (m : Metadata) (s : Step) : Step := { s with md := m }

/-- A step with more volumes mounted. -/
def mount (vs : List Engine.VolumeMount) (s : Step) : Step := { s with volumes := s.volumes ++ vs }

theorem labelSteps_cons (ord : Nat → GoMap String) (i : Nat) (s : Step) (l : List Step) :
    labelSteps ord i (s :: l) = (addLabels (ord i) s.md).bind fun m =>
      (labelSteps ord (i + 1) l).map fun l => relabel m s :: l := rfl

/-- The steps are replaced, nothing else. -/
def onSteps (F : List Step → List Step) : Transform := fun st =>
  some { st with spec := { st.spec with steps := F st.spec.steps } }

/-- The update of the steps looks at the names only, and only disables. -/
structure Mask (F : List Step → List Step) : Prop where
  /-- Other updates of the steps may be done before or after. -/
  map : ∀ g : Step → Step, (∀ s, (g s).md = s.md) → (∀ s, g (disable s) = disable (g s)) →
    ∀ l, F (l.map g) = (F l).map g
  labels : ∀ ord i l, labelSteps ord i (F l) = (labelSteps ord i l).map F

theorem addLabels_name {labels : GoMap String} {m m' : Metadata} (h : addLabels labels m = some m') :
    m'.name = m.name ∧ m'.namespc = m.namespc := by
  unfold addLabels at h
  split at h
  · cases h; exact ⟨rfl, rfl⟩
  · cases h
  · cases h; exact ⟨rfl, rfl⟩

/-- An update of each step that leaves its name, its secrets and its policy alone, and does not look
at its policy, its metadata or its volumes. -/
structure Local (g : Step → Step) : Prop where
  md : ∀ s, (g s).md = s.md
  policy : ∀ s, (g s).runPolicy = s.runPolicy
  secrets : ∀ s, (g s).secrets = s.secrets
  disable : ∀ s, g (disable s) = disable (g s)
  relabel : ∀ m s, g (relabel m s) = relabel m (g s)

theorem labelSteps_map (ord : Nat → GoMap String) {g : Step → Step} (hg : Local g) :
    ∀ i l, labelSteps ord i (l.map g) = (labelSteps ord i l).map (List.map g)
  | _, [] => rfl
  | i, s :: l => by
    rw [List.map_cons, labelSteps_cons, labelSteps_cons, hg.md, labelSteps_map ord hg (i + 1) l]
    cases addLabels (ord i) s.md with
    | none => rfl
    | some m =>
      cases labelSteps ord (i + 1) l with
      | none => rfl
      | some l' => exact congrArg some (congrArg (· :: _) (hg.relabel m s).symm)

/-- The update that disables the steps whose names satisfy `p`. -/
def off (p : String → Bool) (s : Step) : Step := if p s.md.name then disable s else s

theorem off_md (p : String → Bool) (s : Step) : (off p s).md = s.md := by
  unfold off; split <;> rfl

theorem off_comm (p : String → Bool) {g : Step → Step} (hm : ∀ s, (g s).md = s.md)
    (hd : ∀ s, g (disable s) = disable (g s)) (s : Step) : off p (g s) = g (off p s) := by
  unfold off
  rw [hm]
  split
  · exact (hd s).symm
  · rfl

theorem off_disable (p : String → Bool) (s : Step) : off p (disable s) = disable (off p s) := by
  have : (disable s).md = s.md := rfl
  unfold off
  rw [this]
  split <;> rfl

theorem mask_off (p : String → Bool) : Mask (List.map (off p)) where
  map := by
    intro g hm hd l
    simp only [List.map_map]
    exact List.map_congr_left fun s _ => off_comm p hm hd s
  labels := by
    intro ord i l
    induction l generalizing i with
    | nil => rfl
    | cons s l ih =>
      rw [List.map_cons, labelSteps_cons, labelSteps_cons, off_md, ih]
      cases hm : addLabels (ord i) s.md with
      | none => rfl
      | some m =>
        cases labelSteps ord (i + 1) l with
        | none => rfl
        | some l' =>
          refine congrArg some (congrArg (· :: _) ?_)
          have hn : (relabel m s).md.name = s.md.name := (addLabels_name hm).1
          show relabel m (off p s) = off p (relabel m s)
          unfold off
          rw [hn]
          split <;> rfl

theorem resumeLoop_cons (name : String) (s : Step) (l : List Step) : resumeLoop name (s :: l) =
    if s.md.name = name then s :: l
    else off (fun n => n != "clone") s :: resumeLoop name l := by
  unfold off
  by_cases h : s.md.name = "clone"
  · simp [resumeLoop, h]
  · simp [resumeLoop, h]

theorem mask_resume (name : String) : Mask (resumeLoop name) where
  map := by
    intro g hm hd l
    induction l with
    | nil => rfl
    | cons s l ih =>
      rw [List.map_cons, resumeLoop_cons, resumeLoop_cons, hm]
      split
      · rfl
      · rw [ih, List.map_cons, off_comm _ hm hd]
  labels := by
    intro ord i l
    induction l generalizing i with
    | nil => rfl
    | cons s l ih =>
      rw [resumeLoop_cons]
      by_cases h1 : s.md.name = name
      · rw [if_pos h1, labelSteps_cons]
        cases hm : addLabels (ord i) s.md with
        | none => rfl
        | some m =>
          cases labelSteps ord (i + 1) l with
          | none => rfl
          | some l' =>
            have hn : (relabel m s).md.name = s.md.name := (addLabels_name hm).1
            show some _ = some (resumeLoop name (_ :: l'))
            rw [resumeLoop_cons, hn, if_pos h1]
      · rw [if_neg h1, labelSteps_cons, labelSteps_cons, off_md, ih]
        cases hm : addLabels (ord i) s.md with
        | none => rfl
        | some m =>
          cases labelSteps ord (i + 1) l with
          | none => rfl
          | some l' =>
            have hn : (relabel m s).md.name = s.md.name := (addLabels_name hm).1
            show some (_ :: _) = some (resumeLoop name (_ :: l'))
            rw [resumeLoop_cons, hn, if_neg h1]
            refine congrArg some (congrArg (· :: _) ?_)
            unfold off
            rw [hn]
            split <;> rfl

theorem mask_id : Mask id where
  map _ _ _ _ := rfl
  labels _ _ _ := by simp

/-- What the transforms about which steps run do. -/
inductive Policy : (List Step → List Step) → Prop
  | keep : Policy id
  | off (p) : Policy (List.map (off p))
  | resume (name) : Policy (resumeLoop name)

theorem Policy.mask {F} (h : Policy F) : Mask F := by
  cases h with
  | keep => exact mask_id
  | off p => exact mask_off p
  | resume name => exact mask_resume name

theorem resume_comm (a b : String) (l : List Step) :
    resumeLoop a (resumeLoop b l) = resumeLoop b (resumeLoop a l) := by
  induction l with
  | nil => rfl
  | cons s l ih =>
    rw [resumeLoop_cons b, resumeLoop_cons a s l]
    by_cases ha : s.md.name = a <;> by_cases hb : s.md.name = b
    · rw [if_pos ha, if_pos hb, resumeLoop_cons, resumeLoop_cons, if_pos ha, if_pos hb]
    · rw [if_pos ha, if_neg hb, resumeLoop_cons, resumeLoop_cons, off_md, if_pos ha, if_neg hb]
    · rw [if_neg ha, if_pos hb, resumeLoop_cons, resumeLoop_cons, off_md, if_neg ha, if_pos hb]
    · rw [if_neg ha, if_neg hb, resumeLoop_cons, resumeLoop_cons, off_md, if_neg ha, if_neg hb, ih]

theorem Policy.comm {F G} (h : Policy F) (h' : Policy G) (l : List Step) : F (G l) = G (F l) := by
  cases h with
  | keep => rfl
  | off p => exact (h'.mask.map _ (off_md p) (off_disable p) l).symm
  | resume a =>
    cases h' with
    | keep => rfl
    | off p => exact (mask_resume a).map _ (off_md p) (off_disable p) l
    | resume b => exact resume_comm a b l

theorem local_envs (φ : GoMap String → GoMap String) : Local fun s => { s with envs := φ s.envs } := by
  constructor <;> intros <;> rfl

theorem local_resources (φ : Option Engine.Resources → Option Engine.Resources) :
    Local fun s => { s with resources := φ s.resources } := by
  constructor <;> intros <;> rfl

theorem local_networks (φ : List String → List String) :
    Local fun s => { s with docker := { s.docker with networks := φ s.docker.networks } } := by
  constructor <;> intros <;> rfl

theorem local_mount (vs : List Engine.VolumeMount) : Local (mount vs) := by
  constructor <;> intros <;> rfl

/-- Credentials are added, nothing else. -/
def addAuths (as : List Engine.DockerAuth) : Transform := fun st =>
  some { st with spec := { st.spec with auths := st.spec.auths ++ as } }

/-- Secrets are added that depend on the next identifier, the namespace and the names needed. -/
def addSecrets (k : List String → Nat) (L : Nat → String → List String → List Engine.Secret) : Transform :=
  fun st => some {
    n := st.n + k (secretSet st.spec.steps)
    spec := { st.spec with
      secrets := st.spec.secrets ++ L st.n st.spec.md.namespc (secretSet st.spec.steps) } }

/-- Volumes are added that depend on the next identifier and the name of the pipeline, and mounted in
every step. -/
def addVolumes (k : Nat) (V : Nat → String → List Engine.Volume) (W : Nat → List Engine.VolumeMount) : Transform :=
  fun st => some {
    n := st.n + k
    spec := { st.spec with
      volumes := st.spec.volumes ++ V st.n st.spec.md.name
      steps := st.spec.steps.map (mount (W st.n)) } }

/-- The transforms in the forms above. -/
inductive Form : Aspect → Transform → Prop
  | policy {F} (h : Policy F) : Form .policy (onSteps F)
  | environ (φ : GoMap String → GoMap String) : Form .environ
      (onSteps (List.map fun s => { s with envs := φ s.envs }))
  | limits (φ : Option Engine.Resources → Option Engine.Resources) : Form .limits
      (onSteps (List.map fun s => { s with resources := φ s.resources }))
  | networks (φ : List String → List String) : Form .networks
      (onSteps (List.map fun s => { s with docker := { s.docker with networks := φ s.docker.networks } }))
  | auths (as) : Form .auths (addAuths as)
  | secrets (k) (L : Nat → String → List Engine.Secret) :
    Form .secrets (addSecrets (fun _ => k) fun n ns _ => L n ns)
  | resolved (k L) : Form .resolved (addSecrets k L)
  | volumes (k V W) : Form .volumes (addVolumes k V W)
  | labels (ord) : Form .labels (withLables ord)

theorem mapped {g : Step → Step} {l : List Step} (h : ∀ s, g s = s) : l.map g = l := by
  rw [show g = id from funext h, List.map_id]

theorem withSecrets_form (rnd : Nat → String) (m : GoMap String) :
    ∃ L : Nat → String → List Engine.Secret,
      withSecrets rnd m = addSecrets (fun _ => m.length) fun n ns _ => L n ns := by
  suffices h : ∃ L : Nat → String → List Engine.Secret, ∀ st,
      m.foldl (fun st kv => addSecret rnd { md := { name := kv.1 }, data := kv.2 } st) st = {
        n := st.n + m.length
        spec := { st.spec with secrets := st.spec.secrets ++ L st.n st.spec.md.namespc } } by
    obtain ⟨L, h⟩ := h
    exact ⟨L, funext fun st => congrArg some (h st)⟩
  induction m with
  | nil => exact ⟨fun _ _ => [], fun st => by simp⟩
  | cons kv m ih =>
    obtain ⟨L, h⟩ := ih
    refine ⟨fun n ns => { md := { name := kv.1, uid := rnd n, namespc := ns }, data := kv.2 } :: L (n + 1) ns,
      fun st => ?_⟩
    rw [List.foldl_cons, h]
    simp [addSecret, Nat.add_assoc, Nat.add_comm 1]

theorem askSecrets_form (rnd : Nat → String) (f : List String → String → Option Engine.Secret) (names : List String) :
    ∀ asked, ∃ (k : Nat) (L : Nat → String → List Engine.Secret), ∀ st,
      (askSecrets rnd f names asked st).2 = {
        n := st.n + k
        spec := { st.spec with secrets := st.spec.secrets ++ L st.n st.spec.md.namespc } } := by
  induction names with
  | nil => exact fun _ => ⟨0, fun _ _ => [], fun st => by simp [askSecrets]⟩
  | cons x names ih =>
    intro asked
    obtain ⟨k, L, h⟩ := ih (asked ++ [x])
    cases hf : f asked x with
    | none => exact ⟨k, L, fun st => by rw [askSecrets, hf]; exact h st⟩
    | some s =>
      refine ⟨k + 1, fun n ns => { s with md := { s.md with uid := rnd n, namespc := ns } } :: L (n + 1) ns,
        fun st => ?_⟩
      rw [askSecrets, hf]
      simp only [h]
      simp [addSecret, Nat.add_assoc, Nat.add_comm 1]

theorem withSecretFunc_form (rnd : Nat → String) (iter : List String → List String)
    (f : List String → String → Option Engine.Secret) :
    ∃ k L, (fun st => some (withSecretFunc rnd iter f st).2) = addSecrets k L := by
  choose k L h using fun N => askSecrets_form rnd f (iter N) []
  exact ⟨k, fun n ns N => L N n ns, funext fun st => congrArg some (h _ st)⟩

theorem withVolumes_form (rnd : Nat → String) (m : GoMap String) :
    ∃ k V W, withVolumes rnd m = addVolumes k V W := by
  suffices h : ∃ (k : Nat) (V : Nat → String → List Engine.Volume) (W : Nat → List Engine.VolumeMount), ∀ st,
      m.foldl (addGlobalVolume rnd) st = {
        n := st.n + k
        spec := { st.spec with
          volumes := st.spec.volumes ++ V st.n st.spec.md.name
          steps := st.spec.steps.map (mount (W st.n)) } } by
    obtain ⟨k, V, W, h⟩ := h
    exact ⟨k, V, W, funext fun st => congrArg some (h st)⟩
  induction m with
  | nil =>
    refine ⟨0, fun _ _ => [], fun _ => [], fun st => ?_⟩
    have : st.spec.steps.map (mount []) = st.spec.steps := mapped fun s => by simp [mount]
    simp [this]
  | cons kv m ih =>
    obtain ⟨k, V, W, h⟩ := ih
    refine ⟨k + 2, fun n ns =>
      { md := { uid := rnd n, name := rnd (n + 1), namespc := ns, labels := some [] }, hostPath := some kv.1 } ::
        V (n + 2) ns, fun n => ⟨rnd (n + 1), kv.2⟩ :: W (n + 2), fun st => ?_⟩
    rw [List.foldl_cons, h]
    have e : (mount (W (st.n + 2)) ∘ fun s : Step => { s with volumes := s.volumes ++ [⟨rnd (st.n + 1), kv.2⟩] }) =
        mount (⟨rnd (st.n + 1), kv.2⟩ :: W (st.n + 2)) := by
      funext s
      simp [mount]
    simp [addGlobalVolume, eachStep, e, Nat.add_assoc, Nat.add_comm 2]

theorem onSteps_id (F : List Step → List Step) (h : ∀ l, F l = l) : (fun st => some st : Transform) = onSteps F := by
  funext st
  show some st = some { st with spec := { st.spec with steps := F st.spec.steps } }
  rw [h]

theorem form {a : Aspect} {f : Transform} (h : About a f) : Form a f := by
  cases h with
  | includeOnly names =>
    by_cases hn : names.length = 0
    · rw [show includeOnly names = onSteps id by
        funext st; simp only [includeOnly, if_pos hn]; rfl]
      exact .policy .keep
    · rw [show includeOnly names = onSteps (List.map (off fun n => n != "clone" && !decide (n ∈ names))) by
        funext st
        simp only [includeOnly, if_neg hn, onSteps, eachStep]
        congr 4
        funext s
        unfold off
        by_cases h1 : s.md.name = "clone" <;> by_cases h2 : s.md.name ∈ names <;> simp [h1, h2]
        ]
      exact .policy (.off _)
  | excludeAll names =>
    by_cases hn : names.length = 0
    · rw [show excludeAll names = onSteps id by
        funext st; simp only [excludeAll, if_pos hn]; rfl]
      exact .policy .keep
    · rw [show excludeAll names = onSteps (List.map (off fun n => n != "clone" && decide (n ∈ names))) by
        funext st
        simp only [excludeAll, if_neg hn, onSteps, eachStep]
        congr 4
        funext s
        unfold off
        by_cases h1 : s.md.name = "clone" <;> by_cases h2 : s.md.name ∈ names <;> simp [h1, h2]
        ]
      exact .policy (.off _)
  | resumeAt name =>
    by_cases hn : name = ""
    · rw [show resumeAt name = onSteps id by
        funext st; simp only [resumeAt, if_pos hn]; rfl]
      exact .policy .keep
    · rw [show resumeAt name = onSteps (resumeLoop name) by
        funext st; simp only [resumeAt, if_neg hn]; rfl]
      exact .policy (.resume name)
  | environ e => 
    rw [show withEnviron e = _ from funext (withEnviron_eq e)]
    exact .environ fun m => e.foldl (fun l kv => l.set kv.1 kv.2) m
  | netrc m u p =>
    by_cases hn : u = "" ∨ p = ""
    · rw [show withNetrc m u p = onSteps (List.map fun s => { s with envs := id s.envs }) by
        funext st
        simp only [withNetrc, if_pos hn]
        exact congrFun (onSteps_id _ fun l => mapped fun s => rfl) st]
      exact .environ id
    · rw [show withNetrc m u p = _ from funext fun st => if_neg hn]
      exact .environ fun e => (((((e.set "CI_NETRC_MACHINE" m).set "CI_NETRC_USERNAME" u).set
        "CI_NETRC_PASSWORD" p).set "DRONE_NETRC_MACHINE" m).set "DRONE_NETRC_USERNAME" u).set
        "DRONE_NETRC_PASSWORD" p
  | proxy os iter => 
    rw [show withProxy os iter = _ from funext (withEnviron_eq _)]
    exact .environ fun m => (iter (proxyEnviron os)).foldl (fun l kv => l.set kv.1 kv.2) m
  | limits mem cpu =>
    by_cases hn : mem = 0 ∧ cpu = 0
    · rw [show withLimits mem cpu = onSteps (List.map fun s => { s with resources := id s.resources }) by
        funext st
        simp only [withLimits, if_pos hn]
        exact congrFun (onSteps_id _ fun l => mapped fun s => rfl) st]
      exact .limits id
    · rw [show withLimits mem cpu = _ from funext fun st => if_neg hn]
      exact .limits fun r =>
        some { r.getD {} with limits := some { (r.getD {}).limits.getD {} with memory := mem, cpu := cpu } }
  | networks ns => exact .networks (· ++ ns)
  | auths as => exact .auths as
  | authsFunc as =>
    rw [show withAuthsFunc as = addAuths as by
      funext st
      cases as with
      | nil => simp [withAuthsFunc, addAuths]
      | cons => rfl]
    exact .auths as
  | secrets rnd m => obtain ⟨L, h⟩ := withSecrets_form rnd m; rw [h]; exact .secrets _ L
  | secretFunc rnd iter f => obtain ⟨k, L, h⟩ := withSecretFunc_form rnd iter f; rw [h]; exact .resolved k L
  | volumes rnd m => obtain ⟨k, V, W, h⟩ := withVolumes_form rnd m; rw [h]; exact .volumes k V W
  | volumeSlice rnd iter l =>
    obtain ⟨k, V, W, h⟩ := withVolumes_form rnd (iter (volumeMap l))
    rw [show withVolumeSlice rnd iter l = _ from h]; exact .volumes k V W
  | labels ord => exact .labels ord

/-! ### Changing places -/

/-- Two transforms give the same in either order. -/
def Commute (f g : Transform) : Prop := ∀ st, (f st).bind g = (g st).bind f

theorem Commute.symm {f g} (h : Commute f g) : Commute g f := fun st => (h st).symm

theorem comm_steps {F G : List Step → List Step} (h : ∀ l, F (G l) = G (F l)) : Commute (onSteps F) (onSteps G) :=
  fun st => by
    show some { st with spec := { st.spec with steps := G (F st.spec.steps) } } =
      some { st with spec := { st.spec with steps := F (G st.spec.steps) } }
    rw [h]

theorem comm_maps {f g : Step → Step} (h : ∀ s, f (g s) = g (f s)) :
    Commute (onSteps (List.map f)) (onSteps (List.map g)) :=
  comm_steps fun l => by
    simp only [List.map_map]
    exact List.map_congr_left fun s _ => h s

theorem comm_policy {F} (hF : Policy F) {g : Step → Step} (hg : Local g) :
    Commute (onSteps F) (onSteps (List.map g)) :=
  comm_steps fun l => hF.mask.map g hg.md hg.disable l

theorem secretSet_map {g : Step → Step} (hg : Local g) (l : List Step) :
    secretSet (l.map g) = secretSet l := by
  unfold secretSet
  rw [List.foldl_map]
  simp only [hg.policy, hg.secrets]

theorem comm_steps_auths (F : List Step → List Step) (as) : Commute (onSteps F) (addAuths as) := fun _ => rfl

theorem comm_auths_secrets (as k L) : Commute (addAuths as) (addSecrets k L) := fun _ => rfl

theorem comm_auths_volumes (as k V W) : Commute (addAuths as) (addVolumes k V W) := fun _ => rfl

theorem comm_steps_secrets (F : List Step → List Step) (k) (L : Nat → String → List Engine.Secret) :
    Commute (onSteps F) (addSecrets (fun _ => k) fun n ns _ => L n ns) := fun _ => rfl

theorem comm_local_secrets {g : Step → Step} (hg : Local g) (k L) :
    Commute (onSteps (List.map g)) (addSecrets k L) := fun st => by
  show some _ = some _
  simp only [secretSet_map hg]

theorem comm_mask_volumes {F} (hF : Mask F) (k V W) : Commute (onSteps F) (addVolumes k V W) := fun st => by
  show some _ = some _
  simp only [hF.map _ (local_mount (W st.n)).md (local_mount (W st.n)).disable]

theorem comm_maps_volumes {g : Step → Step} (h : ∀ vs s, g (mount vs s) = mount vs (g s)) (k V W) :
    Commute (onSteps (List.map g)) (addVolumes k V W) := fun st => by
  show some _ = some _
  have : (st.spec.steps.map g).map (mount (W st.n)) = (st.spec.steps.map (mount (W st.n))).map g := by
    simp only [List.map_map]
    exact List.map_congr_left fun s _ => (h _ s).symm
  simp only [this]

theorem comm_steps_labels {F} (h : ∀ ord i l, labelSteps ord i (F l) = (labelSteps ord i l).map F) (ord) :
    Commute (onSteps F) (withLables ord) := fun st => by
  show withLables ord _ = _
  unfold withLables
  simp only [h]
  cases addLabels (ord 0) st.spec.md with
  | none => rfl
  | some m =>
    cases labelVolumes ord 1 st.spec.volumes with
    | none => rfl
    | some vs =>
      cases hs : labelSteps ord (1 + st.spec.volumes.length) st.spec.steps with
      | none => simp
      | some ss => simp [onSteps]

theorem comm_auths_labels (as ord) : Commute (addAuths as) (withLables ord) := fun st => by
  show withLables ord _ = _
  unfold withLables
  cases addLabels (ord 0) st.spec.md with
  | none => rfl
  | some m =>
    cases labelVolumes ord 1 st.spec.volumes with
    | none => rfl
    | some vs =>
      cases hs : labelSteps ord (1 + st.spec.volumes.length) st.spec.steps with
      | none => simp
      | some ss => simp [addAuths]

theorem labelSteps_secretSet (ord : Nat → GoMap String) : ∀ (l : List Step) (i : Nat) (l' : List Step),
    labelSteps ord i l = some l' → secretSet l' = secretSet l := by
  intro l i l' h
  suffices hk : l'.map (fun s => (s.runPolicy, s.secrets)) = l.map (fun s => (s.runPolicy, s.secrets)) by
    have e : ∀ l : List Step, secretSet l = (l.map fun s => (s.runPolicy, s.secrets)).foldl (fun set p =>
        if p.1 = .never then set else p.2.foldl (fun set v => setAdd set v.name) set) [] := fun l => by
      rw [List.foldl_map]; rfl
    rw [e, e, hk]
  induction l generalizing i l' with
  | nil => cases h; rfl
  | cons s l ih =>
    rw [labelSteps_cons] at h
    cases hm : addLabels (ord i) s.md with
    | none => simp [hm] at h
    | some m =>
      cases hl : labelSteps ord (i + 1) l with
      | none => simp [hm, hl] at h
      | some l₁ =>
        simp only [hm, hl, Option.bind_some, Option.map_some, Option.some.injEq] at h
        rw [← h, List.map_cons, List.map_cons, ih _ _ hl]
        rfl

theorem comm_secrets_labels (k L ord) : Commute (addSecrets k L) (withLables ord) := fun st => by
  show withLables ord _ = _
  unfold withLables
  cases hm : addLabels (ord 0) st.spec.md with
  | none => simp
  | some m =>
    cases hv : labelVolumes ord 1 st.spec.volumes with
    | none => simp
    | some vs =>
      cases hs : labelSteps ord (1 + st.spec.volumes.length) st.spec.steps with
      | none => simp
      | some ss =>
        simp [addSecrets, labelSteps_secretSet ord _ _ _ hs, (addLabels_name hm).2]

theorem Form.comm {a b : Aspect} {f g : Transform} (hf : Form a f) (hg : Form b g) (hab : Apart a b) :
    Commute f g := by
  cases hf <;> cases hg <;> first
    | exact absurd hab (by decide)
    | exact comm_steps (Policy.comm ‹_› ‹_›)
    | exact comm_policy ‹_› (local_envs _)
    | exact comm_policy ‹_› (local_resources _)
    | exact comm_policy ‹_› (local_networks _)
    | exact (comm_policy ‹_› (local_envs _)).symm
    | exact (comm_policy ‹_› (local_resources _)).symm
    | exact (comm_policy ‹_› (local_networks _)).symm
    | exact comm_maps fun _ => rfl
    | exact comm_steps_auths _ _
    | exact (comm_steps_auths _ _).symm
    | exact comm_steps_secrets _ _ _
    | exact (comm_steps_secrets _ _ _).symm
    | exact comm_local_secrets (local_envs _) _ _
    | exact comm_local_secrets (local_resources _) _ _
    | exact comm_local_secrets (local_networks _) _ _
    | exact (comm_local_secrets (local_envs _) _ _).symm
    | exact (comm_local_secrets (local_resources _) _ _).symm
    | exact (comm_local_secrets (local_networks _) _ _).symm
    | exact comm_mask_volumes (Policy.mask ‹_›) _ _ _
    | exact (comm_mask_volumes (Policy.mask ‹_›) _ _ _).symm
    | exact comm_maps_volumes (fun _ _ => rfl) _ _ _
    | exact (comm_maps_volumes (fun _ _ => rfl) _ _ _).symm
    | exact comm_auths_secrets _ _ _
    | exact (comm_auths_secrets _ _ _).symm
    | exact comm_auths_volumes _ _ _ _
    | exact (comm_auths_volumes _ _ _ _).symm
    | exact comm_auths_labels _ _
    | exact (comm_auths_labels _ _).symm
    | exact comm_secrets_labels _ _ _
    | exact (comm_secrets_labels _ _ _).symm
    | exact comm_steps_labels (Policy.mask ‹_›).labels _
    | exact (comm_steps_labels (Policy.mask ‹_›).labels _).symm
    | exact comm_steps_labels (fun ord => labelSteps_map ord (local_envs _)) _
    | exact comm_steps_labels (fun ord => labelSteps_map ord (local_resources _)) _
    | exact comm_steps_labels (fun ord => labelSteps_map ord (local_networks _)) _
    | exact (comm_steps_labels (fun ord => labelSteps_map ord (local_envs _)) _).symm
    | exact (comm_steps_labels (fun ord => labelSteps_map ord (local_resources _)) _).symm
    | exact (comm_steps_labels (fun ord => labelSteps_map ord (local_networks _)) _).symm

end Order
open Order (Commute form)

/-! ### C113 -/

/-- C113: two transforms that have nothing to do with each other give the same in either order, the
panics included. -/
theorem C113_commute {a b : Aspect} {f g : Transform} (hf : About a f) (hg : About b g) (hab : Apart a b) (st : St) :
    (f st).bind g = (g st).bind f :=
  (form hf).comm (form hg) hab st

/-- A specification with one step that needs a secret. -/
def orderSt : St where
  n := 0
  spec := {
    md := { uid := "u", name := "p", namespc := "ns", labels := some [] }
    steps := [{ md := { uid := "s", name := "a", namespc := "ns", labels := some [] }
                secrets := [{ name := "token", env := "T" }] }] }

/-- Excluding steps and labelling: the hypotheses can be met, and the result is not trivial. -/
example : Apart .policy .labels ∧ About .policy (excludeAll ["a"]) ∧
    About .labels (withLables fun _ => [("k", "v")]) ∧
    (∃ st', ((excludeAll ["a"] orderSt).bind (withLables fun _ => [("k", "v")])) = some st') :=
  ⟨by decide, .excludeAll _, .labels _, ⟨_, rfl⟩⟩

/-- C113: transforms that have nothing to do with each other may be given to `Combine` in any order. -/
theorem C113_order {fs gs : List (Aspect × Transform)} (hp : fs.Perm gs) (ha : ∀ p ∈ fs, About p.1 p.2)
    (hi : fs.Pairwise fun p q => Apart p.1 q.1) (st : St) :
    combine (fs.map Prod.snd) st = combine (gs.map Prod.snd) st := by
  have hs : ∀ {x y : Aspect × Transform}, Apart x.1 y.1 → Apart y.1 x.1 := by
    rintro ⟨x, _⟩ ⟨y, _⟩; revert x y; simp only; intro x y; cases x <;> cases y <;> decide
  induction hp generalizing st with
  | nil => rfl
  | @cons x l l' _ ih =>
    rw [List.map_cons, List.map_cons, C51_cons, C51_cons]
    cases x.2 st with
    | none => rfl
    | some st' =>
      exact ih (fun p hp => ha p (List.mem_cons_of_mem _ hp)) hi.of_cons st'
  | swap x y l =>
    have hc : (y.2 st).bind x.2 = (x.2 st).bind y.2 :=
      C113_commute (ha y (by simp)) (ha x (by simp)) ((List.pairwise_cons.mp hi).1 x (by simp)) st
    have e : ∀ (f g : Transform), (f st).bind (fun st => (g st).bind (combine (l.map Prod.snd))) =
        ((f st).bind g).bind (combine (l.map Prod.snd)) := fun f g => (Option.bind_assoc _ _ _).symm
    have hx : combine (x.2 :: l.map Prod.snd) = fun st => (x.2 st).bind (combine (l.map Prod.snd)) :=
      funext fun st => by rw [C51_cons]; cases x.2 st <;> rfl
    have hy : combine (y.2 :: l.map Prod.snd) = fun st => (y.2 st).bind (combine (l.map Prod.snd)) :=
      funext fun st => by rw [C51_cons]; cases y.2 st <;> rfl
    have e₁ : combine (y.2 :: x.2 :: l.map Prod.snd) st = (y.2 st).bind (combine (x.2 :: l.map Prod.snd)) := by
      rw [C51_cons]; cases y.2 st <;> rfl
    have e₂ : combine (x.2 :: y.2 :: l.map Prod.snd) st = (x.2 st).bind (combine (y.2 :: l.map Prod.snd)) := by
      rw [C51_cons]; cases x.2 st <;> rfl
    rw [List.map_cons, List.map_cons, List.map_cons, List.map_cons, e₁, e₂, hx, hy, e, e, hc]
  | trans h₁ _ ih₁ ih₂ =>
    rw [ih₁ ha hi st]
    exact ih₂ (fun p hp => ha p (h₁.mem_iff.mpr hp)) ((h₁.pairwise_iff hs).mp hi) st

/-- The order in which a runner might give them, and another one. -/
example (rnd : Nat → String) (st : St) :
    combine [excludeAll ["a"], withEnviron [("A", "1")], withLimits 1 2, withNetworks ["n"], withAuths [],
      withSecrets rnd [("s", "x")], withLables fun _ => [("k", "v")]] st =
    combine [withLables fun _ => [("k", "v")], withSecrets rnd [("s", "x")], withAuths [], withNetworks ["n"],
      withLimits 1 2, withEnviron [("A", "1")], excludeAll ["a"]] st :=
  C113_order (fs := [(.policy, excludeAll ["a"]), (.environ, withEnviron [("A", "1")]), (.limits, withLimits 1 2),
      (.networks, withNetworks ["n"]), (.auths, withAuths []), (.secrets, withSecrets rnd [("s", "x")]),
      (.labels, withLables fun _ => [("k", "v")])])
    (gs := [(.labels, withLables fun _ => [("k", "v")]), (.secrets, withSecrets rnd [("s", "x")]),
      (.auths, withAuths []), (.networks, withNetworks ["n"]), (.limits, withLimits 1 2),
      (.environ, withEnviron [("A", "1")]), (.policy, excludeAll ["a"])])
    (List.reverse_perm _).symm
    (by
      simp only [List.mem_cons, List.not_mem_nil, or_false]
      rintro ⟨a, f⟩ (h | h | h | h | h | h | h) <;> cases h
      · exact About.excludeAll ["a"]
      · exact About.environ _
      · exact About.limits 1 2
      · exact About.networks _
      · exact About.auths _
      · exact About.secrets _ _
      · exact About.labels fun _ => [("k", "v")])
    (by simp only [List.pairwise_cons, List.mem_cons, List.not_mem_nil, or_false, forall_eq_or_imp, forall_eq,
          false_imp_iff, implies_true, List.Pairwise.nil, and_true]
        decide) st

/-- Any number of transforms about which steps run, in any order. -/
example (a b : List String) (c : String) (st : St) :
    combine [includeOnly a, excludeAll b, resumeAt c] st = combine [resumeAt c, excludeAll b, includeOnly a] st :=
  C113_order (fs := [(.policy, includeOnly a), (.policy, excludeAll b), (.policy, resumeAt c)])
    (gs := [(.policy, resumeAt c), (.policy, excludeAll b), (.policy, includeOnly a)])
    (List.reverse_perm _).symm
    (by
      simp only [List.mem_cons, List.not_mem_nil, or_false]
      rintro ⟨a, f⟩ (h | h | h) <;> cases h
      · exact About.includeOnly _
      · exact About.excludeAll _
      · exact About.resumeAt _)
    (by simp only [List.pairwise_cons, List.mem_cons, List.not_mem_nil, or_false, forall_eq_or_imp, forall_eq,
          false_imp_iff, implies_true, List.Pairwise.nil, and_true]
        decide) st

/-- C113: of two sets of variables given one after the other the later wins. -/
theorem C113_environ (e₁ e₂ : GoMap String) (h₁ : (e₁.map Prod.fst).Nodup) (h₂ : (e₂.map Prod.fst).Nodup) (st : St) :
    ∃ st', combine [withEnviron e₁, withEnviron e₂] st = some st' ∧
      StepsOnly (EnvAdded fun k => (e₂.get? k).or (e₁.get? k)) st st' := by
  refine ⟨eachStep (fun s => { s with
      envs := e₂.foldl (fun l kv => l.set kv.1 kv.2) (e₁.foldl (fun l kv => l.set kv.1 kv.2) s.envs) }) st, ?_,
    eachStep_stepsOnly st fun s => ⟨rfl, fun k => ?_⟩⟩
  · show ((some st).bind (withEnviron e₁)).bind (withEnviron e₂) = _
    rw [Option.bind_some, withEnviron_eq, Option.bind_some, withEnviron_eq]
    simp only [eachStep, List.map_map]
    rfl
  · simp only [foldl_set_get? _ h₂, foldl_set_get? _ h₁, Option.or_assoc]

/-- C113: of two pairs of limits, neither of them 0 and 0, the later is what remains. -/
theorem C113_limits (m₁ c₁ m₂ c₂ : Int) (h : m₂ ≠ 0 ∨ c₂ ≠ 0) (st : St) :
    combine [withLimits m₁ c₁, withLimits m₂ c₂] st = withLimits m₂ c₂ st := by
  show ((some st).bind (withLimits m₁ c₁)).bind (withLimits m₂ c₂) = _
  have hn : ¬ (m₂ = 0 ∧ c₂ = 0) := by omega
  rw [Option.bind_some]
  by_cases h₁ : m₁ = 0 ∧ c₁ = 0
  · rw [show withLimits m₁ c₁ st = some st from if_pos h₁, Option.bind_some]
  · rw [show withLimits m₁ c₁ st = _ from if_neg h₁, Option.bind_some]
    simp only [withLimits, if_neg hn, eachStep, List.map_map]
    rfl

/-- C113: labels given first do not reach the volumes that are added afterwards. -/
theorem C113_labels_first (ord : Nat → GoMap String) (rnd : Nat → String) (m : GoMap String) (st st' : St)
    (h : combine [withLables ord, withVolumes rnd m] st = some st') :
    ∃ old new, st'.spec.volumes = old ++ new ∧ old.length = st.spec.volumes.length ∧ new.length = m.length ∧
      ∀ v ∈ new, v.md.labels = some [] := by
  have h' : ((some st).bind (withLables ord)).bind (withVolumes rnd m) = some st' := h
  rw [Option.bind_some] at h'
  obtain ⟨st₁, hl, hv⟩ := Option.bind_eq_some_iff.mp h'
  obtain ⟨vs, -, h1, h2, h3, -⟩ := addGlobalVolume_fold rnd m st₁
  have e : m.foldl (addGlobalVolume rnd) st₁ = st' := Option.some.inj hv
  rw [e] at h1
  refine ⟨st₁.spec.volumes, vs, congrArg (·.volumes) h1, ?_, ?_, fun v hv => (h3 v hv).2.2⟩
  · have hlen : ∀ (l : List Engine.Volume) (i : Nat) (l' : List Engine.Volume),
        labelVolumes ord i l = some l' → l'.length = l.length := by
      intro l
      induction l with
      | nil => intro i l' h; cases h; rfl
      | cons v l ih =>
        intro i l' h
        unfold labelVolumes at h
        obtain ⟨m, -, h⟩ := Option.bind_eq_some_iff.mp h
        obtain ⟨l₁, h₁, rfl⟩ := Option.map_eq_some_iff.mp h
        simp [ih _ _ h₁]
    unfold withLables at hl
    obtain ⟨m, -, hl⟩ := Option.bind_eq_some_iff.mp hl
    obtain ⟨vs, hvs, hl⟩ := Option.bind_eq_some_iff.mp hl
    obtain ⟨ss, -, rfl⟩ := Option.map_eq_some_iff.mp hl
    exact hlen _ _ _ hvs
  · have := congrArg List.length h2
    simpa [volNames] using this

/-- C113: asking for secrets before excluding steps asks for the secrets of the steps excluded, which
the other order does not. -/
theorem C113_resolve_first : ∃ (rnd : Nat → String) (f : List String → String → Option Engine.Secret) (st : St),
    (∃ st₁, combine [fun st => some (withSecretFunc rnd id f st).2, excludeAll ["a"]] st = some st₁ ∧
      st₁.spec.secrets.map (·.md.name) = ["token"]) ∧
    (∃ st₂, combine [excludeAll ["a"], fun st => some (withSecretFunc rnd id f st).2] st = some st₂ ∧
      st₂.spec.secrets = []) :=
  ⟨fun _ => "r", fun _ n => some { md := { name := n }, data := "x" }, orderSt, ⟨_, rfl, rfl⟩, ⟨_, rfl, rfl⟩⟩

/-- Identifiers for the cases below. -/
def orderRnd (n : Nat) : String := String.ofList (List.replicate n 'x')

/-- C113: no two aspects are counted as depending on each other without reason: for each such pair there
are transforms and a specification for which the order matters. -/
theorem C113_apart_exact (a b : Aspect) (h : ¬ Apart a b) : ∃ (f g : Transform) (st : St),
    About a f ∧ About b g ∧ (f st).bind g ≠ (g st).bind f := by
  have res := About.secretFunc orderRnd id (fun _ n => some { md := { name := n }, data := "x" })
  have res' := About.secretFunc orderRnd id (fun _ n => some { md := { name := n }, data := "y" })
  have vol := About.volumes orderRnd [("/h", "/c")]
  have vol' := About.volumes orderRnd [("/i", "/d")]
  have lab := About.labels fun _ => [("k", "v")]
  have lab' := About.labels fun _ => [("k", "w")]
  have sec := About.secrets orderRnd [("s", "x")]
  have sec' := About.secrets orderRnd [("s", "y")]
  have pol := About.excludeAll ["a"]
  -- what differs
  let uids : Option St → List String := fun r => (r.map fun st => st.spec.secrets.map (·.md.uid)).getD []
  let data : Option St → List String := fun r => (r.map fun st => st.spec.secrets.map (·.data)).getD []
  let labels : Option St → List (Option (GoMap String)) := fun r =>
    (r.map fun st => st.spec.volumes.map (·.md.labels)).getD []
  let paths : Option St → List (Option String) := fun r => (r.map fun st => st.spec.volumes.map (·.hostPath)).getD []
  let own : Option St → Option (GoMap String) := fun r => (r.map fun st => st.spec.md.labels).getD none
  let envs : Option St → List (GoMap String) := fun r => (r.map fun st => st.spec.steps.map (·.envs)).getD []
  let nets : Option St → List (List String) := fun r =>
    (r.map fun st => st.spec.steps.map (·.docker.networks)).getD []
  let auths : Option St → List String := fun r => (r.map fun st => st.spec.auths.map (·.address)).getD []
  let mem : Option St → List (Option Int) := fun r =>
    (r.map fun st => st.spec.steps.map (fun s => s.resources.bind fun r => r.limits.map (·.memory))).getD []
  cases a <;> cases b <;> first
    | exact absurd (by decide) h
    | exact ⟨_, _, orderSt, .environ [("A", "1")], .environ [("A", "2")], fun e => absurd (congrArg envs e) (by decide)⟩
    | exact ⟨_, _, orderSt, .limits 1 1, .limits 2 2, fun e => absurd (congrArg mem e) (by decide)⟩
    | exact ⟨_, _, orderSt, .networks ["n"], .networks ["m"], fun e => absurd (congrArg nets e) (by decide)⟩
    | exact ⟨_, _, orderSt, .auths [{ address := "a" }], .auths [{ address := "b" }],
        fun e => absurd (congrArg auths e) (by decide)⟩
    | exact ⟨_, _, orderSt, pol, res, fun e => absurd (congrArg uids e) (by decide)⟩
    | exact ⟨_, _, orderSt, res, pol, fun e => absurd (congrArg uids e) (by decide)⟩
    | exact ⟨_, _, orderSt, vol, lab, fun e => absurd (congrArg labels e) (by decide)⟩
    | exact ⟨_, _, orderSt, lab, vol, fun e => absurd (congrArg labels e) (by decide)⟩
    | exact ⟨_, _, orderSt, sec, vol, fun e => absurd (congrArg uids e) (by decide)⟩
    | exact ⟨_, _, orderSt, vol, sec, fun e => absurd (congrArg uids e) (by decide)⟩
    | exact ⟨_, _, orderSt, res, vol, fun e => absurd (congrArg uids e) (by decide)⟩
    | exact ⟨_, _, orderSt, vol, res, fun e => absurd (congrArg uids e) (by decide)⟩
    | exact ⟨_, _, orderSt, sec, sec', fun e => absurd (congrArg data e) (by decide)⟩
    | exact ⟨_, _, orderSt, res, res', fun e => absurd (congrArg data e) (by decide)⟩
    | exact ⟨_, _, orderSt, sec', res, fun e => absurd (congrArg data e) (by decide)⟩
    | exact ⟨_, _, orderSt, res, sec', fun e => absurd (congrArg data e) (by decide)⟩
    | exact ⟨_, _, orderSt, vol, vol', fun e => absurd (congrArg paths e) (by decide)⟩
    | exact ⟨_, _, orderSt, lab, lab', fun e => absurd (congrArg own e) (by decide)⟩

end Drone
