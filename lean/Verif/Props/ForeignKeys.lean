/-
C107: the converters read every key of a foreign file into its own field.
-/
import Verif.Props.DecodeConvert
import Verif.Props.Exact
import Verif.Props.Foreign

namespace Drone
open Yaml Spec

namespace Spec

/-- The entries of a mapping under other keys than these. -/
def otherEntries (known : List String) (kvs : List (Yaml.Node × Yaml.Node)) : List (String × Yaml.Node) :=
  kvs.filterMap fun kv => (textOf kv.1).bind fun t => if t ∈ known then none else some (t, kv.2)

/-- A map filled with entries one after the other. -/
def collect {α : Type} (val : Yaml.Node → α) (es : List (String × Yaml.Node)) : GoMap α :=
  es.foldl (fun m e => m.set e.1 (val e.2)) []

/-- What is read under the key `x` of a nested mapping; null resets it. -/
def inner {α : Type} (zero : α) (x : String) (d : Dec α) : Dec α := fun n old =>
  match n with
  | .null => { val := zero }
  | .map kvs => { val := fill d old (valuesOf kvs x) }
  | _ => { val := old }

/-- Some key is not a text, or a value does not fit its key. -/
def Misfit (wrong : List (String × (Yaml.Node → Bool))) (rest : Yaml.Node → Bool) (kvs : List (Yaml.Node × Yaml.Node)) : Prop :=
  ∃ k v, (k, v) ∈ kvs ∧ (textOf k = none ∨ ∃ t, textOf k = some t ∧ ((wrong.lookup t).getD rest) v = true)

end Spec

/-! ### Tables with a field for all other keys -/

theorem fills_inline {σ α : Type} {tbl : List (String × Yaml.Field σ)} {rest : String → Yaml.Field σ} {x : String} {get : σ → α}
    {d : Dec α} (here : ∃ g, tbl.lookup x = some g ∧ ∀ n s, get (g n s).1 = (d n (get s)).val)
    (others : ∀ p ∈ tbl, p.1 ≠ x → ∀ n s, get (p.2 n s).1 = get s)
    (hrest : ∀ k n s, get (rest k n s).1 = get s) :
    Spec.Fills (fun k => some ((tbl.lookup k).getD (rest k))) x get d := by
  obtain ⟨g, hg, hh⟩ := here
  refine ⟨⟨g, by simp [hg], hh⟩, fun k g hk hf n s => ?_⟩
  cases hl : tbl.lookup k with
  | none =>
    rw [hl] at hf
    simp only [Option.getD_none, Option.some.injEq] at hf
    subst hf
    exact hrest k n s
  | some g' =>
    rw [hl] at hf
    simp only [Option.getD_some, Option.some.injEq] at hf
    subst hf
    exact others (k, g') (GoMap.mem_of_get? hl) hk n s

theorem inline_val {σ α : Type} {tbl : List (String × Yaml.Field σ)} {rest : String → Yaml.Field σ} {get : σ → GoMap α}
    {val : Yaml.Node → α} (others : ∀ p ∈ tbl, ∀ n s, get (p.2 n s).1 = get s)
    (hrest : ∀ k n s, get (rest k n s).1 = (get s).set k (val n)) (kvs : List (Yaml.Node × Yaml.Node)) : ∀ s,
    get (decFields (fun k => some ((tbl.lookup k).getD (rest k))) kvs s).val =
      (otherEntries (tbl.map Prod.fst) kvs).foldl (fun m e => m.set e.1 (val e.2)) (get s) := by
  induction kvs with
  | nil => intro s; rfl
  | cons p kvs ih =>
    intro s
    obtain ⟨k, v⟩ := p
    rw [decFields_cons, ih]
    unfold otherEntries
    rw [List.filterMap_cons]
    cases ht : textOf k with
    | none => simp
    | some t =>
      simp only [Option.bind_some]
      cases hl : tbl.lookup t with
      | none =>
        have : t ∉ tbl.map Prod.fst := by
          intro hm
          obtain ⟨⟨a, b⟩, h1, rfl⟩ := List.mem_map.1 hm
          rw [List.lookup_eq_none_iff] at hl
          exact absurd (hl (a, b) h1) (by simp)
        simp only [this, if_false, List.foldl_cons, Option.getD_none, hrest]
      | some g =>
        have hm : (t, g) ∈ tbl := GoMap.mem_of_get? hl
        have : t ∈ tbl.map Prod.fst := List.mem_map.2 ⟨_, hm, rfl⟩
        simp only [this, if_true, Option.getD_some, others (t, g) hm]

theorem nested_fills {σ α : Type} {reset : σ → σ} {f : String → Option (Yaml.Field σ)} {get : σ → α} {x : String} {d : Dec α}
    {zero : α} (h : Spec.Fills f x get d) (hz : ∀ s, get (reset s) = zero) (n : Yaml.Node) (s : σ) :
    get (nested reset f n s).1 = (inner zero x d n (get s)).val := by
  cases n with
  | null => exact hz s
  | map kvs => exact fills_val h kvs s
  | _ => rfl

theorem nested_keeps {σ α : Type} {reset : σ → σ} {f : String → Option (Yaml.Field σ)} {get : σ → α}
    (hf : ∀ k g, f k = some g → ∀ n s, get (g n s).1 = get s) (hz : ∀ s, get (reset s) = get s) (n : Yaml.Node) (s : σ) :
    get (nested reset f n s).1 = get s := by
  cases n with
  | null => exact hz s
  | map kvs =>
    show get (decFields f kvs s).val = get s
    induction kvs generalizing s with
    | nil => rfl
    | cons p kvs ih =>
      obtain ⟨k, v⟩ := p
      rw [decFields_cons, ih]
      cases ht : (textOf k).bind f with
      | none => rfl
      | some g =>
        obtain ⟨t, _, hg⟩ := Option.bind_eq_some_iff.1 ht
        exact hf t g hg v s
  | _ => rfl

theorem misfit {σ : Type} {tbl : List (String × Yaml.Field σ)} {rest : String → Yaml.Field σ}
    {wrong : List (String × (Yaml.Node → Bool))} {wrest : Yaml.Node → Bool} {s0 : σ}
    (hs : ∀ p ∈ tbl, ∀ n s s', (p.2 n s).2 = (p.2 n s').2) (hw : wrong = tbl.map fun p => (p.1, fun n => (p.2 n s0).2))
    (hr : ∀ k n s, (rest k n s).2 = wrest n) (kvs : List (Yaml.Node × Yaml.Node)) (s : σ) :
    (decFields (fun k => some ((tbl.lookup k).getD (rest k))) kvs s).err = true ↔ Misfit wrong wrest kvs := by
  have hl : ∀ t v, ((wrong.lookup t).getD wrest) v = (((tbl.lookup t).getD (rest t)) v s0).2 := by
    intro t v
    rw [hw]
    clear hs hw
    induction tbl with
    | nil => exact (hr t v s0).symm
    | cons p tbl ih =>
      simp only [List.map_cons, List.lookup]
      cases t == p.1 with
      | true => rfl
      | false => exact ih
  rw [decFields_err _ ?_ kvs s s0]
  · unfold Misfit
    simp only [Option.some.injEq, hl]
    constructor
    · rintro ⟨k, v, hm, h⟩
      exact ⟨k, v, hm, h.imp id fun ⟨t, g, h1, h2, h3⟩ => ⟨t, h1, by rw [h2]; exact h3⟩⟩
    · rintro ⟨k, v, hm, h⟩
      exact ⟨k, v, hm, h.imp id fun ⟨t, h1, h2⟩ => ⟨t, _, h1, rfl, h2⟩⟩
  · intro k g hg n s s'
    simp only [Option.some.injEq] at hg
    subst hg
    cases hl : tbl.lookup k with
    | none => simp only [Option.getD_none, hr]
    | some g => exact hs (k, g) (GoMap.mem_of_get? hl) n s s'

theorem misfit_table {σ : Type} {tbl : List (String × Yaml.Field σ)} {wrong : List (String × (Yaml.Node → Bool))} {s0 : σ}
    (hs : ∀ p ∈ tbl, ∀ n s s', (p.2 n s).2 = (p.2 n s').2) (hw : wrong = tbl.map fun p => (p.1, fun n => (p.2 n s0).2))
    (kvs : List (Yaml.Node × Yaml.Node)) (s : σ) :
    (decFields (fun k => tbl.lookup k) kvs s).err = true ↔ Misfit wrong (fun _ => false) kvs := by
  have hl : ∀ t v, ((wrong.lookup t).getD fun _ => false) v = true ↔ ∃ g, tbl.lookup t = some g ∧ (g v s0).2 = true := by
    intro t v
    rw [hw]
    clear hs hw
    induction tbl with
    | nil => simp
    | cons p tbl ih =>
      simp only [List.map_cons, List.lookup]
      cases t == p.1 with
      | true => simp
      | false => exact ih
  rw [decFields_err (fun k => tbl.lookup k) (fun k g h => hs (k, g) (GoMap.mem_of_get? h)) kvs s s0]
  unfold Misfit
  simp only [hl]
  constructor
  · rintro ⟨k, v, hm, h⟩
    exact ⟨k, v, hm, h.imp id fun ⟨t, g, h1, h2, h3⟩ => ⟨t, h1, g, h2, h3⟩⟩
  · rintro ⟨k, v, hm, h⟩
    exact ⟨k, v, hm, h.imp id fun ⟨t, h1, g, h2, h3⟩ => ⟨t, g, h1, h2, h3⟩⟩

macro "row_others" : tactic => `(tactic| (
  repeat refine List.forall_mem_cons.mpr ⟨by first | exact fun h => absurd rfl h | exact fun _ _ _ => rfl, ?_⟩
  exact List.forall_mem_nil _))

macro "table_field" : tactic => `(tactic|
  exact fills_table ⟨_, rfl, fun _ _ => rfl⟩ (by row_others))

macro "inline_field" : tactic => `(tactic|
  exact fills_inline ⟨_, rfl, fun _ _ => rfl⟩ (by row_others) (fun _ _ _ => rfl))

macro "row_keep" : tactic => `(tactic| (
  repeat refine List.forall_mem_cons.mpr ⟨fun _ _ => rfl, ?_⟩
  exact List.forall_mem_nil _))

attribute [ext] Legacy.SecretRef Legacy.SecretDecl Legacy.Constraints Legacy.Container Legacy.Config
attribute [ext] Gitlab.Image Gitlab.Job Gitlab.Config Bitbucket.Step Bitbucket.Config Condition

/-! ### Legacy files -/

/-- C107: the keys of a secret of a container. -/
theorem C107_secret_ref (kvs : List (Yaml.Node × Yaml.Node)) :
    (decSecretRef (.map kvs) {}).val =
      { source := fill decString "" (valuesOf kvs "source")
        target := fill decString "" (valuesOf kvs "target") } := by
  ext1
  · exact fills_val (x := "source") (by table_field) kvs _
  · exact fills_val (x := "target") (by table_field) kvs _

/-- C107: the keys of a declared secret. -/
theorem C107_secret_decl (kvs : List (Yaml.Node × Yaml.Node)) :
    (decSecretDecl (.map kvs) {}).val =
      { driver := fill decString "" (valuesOf kvs "driver")
        driverOpts := fill decStringMap [] (valuesOf kvs "driver_opts")
        path := fill decString "" (valuesOf kvs "path")
        vault := fill decString "" (valuesOf kvs "vault") } := by
  ext1
  · exact fills_val (x := "driver") (by table_field) kvs _
  · exact fills_val (x := "driver_opts") (by table_field) kvs _
  · exact fills_val (x := "path") (by table_field) kvs _
  · exact fills_val (x := "vault") (by table_field) kvs _

/-- C107: the keys of `when`. -/
theorem C107_constraints (kvs : List (Yaml.Node × Yaml.Node)) :
    (decConstraints (.map kvs) {}).val =
      { ref := fill decConstraint {} (valuesOf kvs "ref")
        repo := fill decConstraint {} (valuesOf kvs "repo")
        inst := fill decConstraint {} (valuesOf kvs "instance")
        environment := fill decConstraint {} (valuesOf kvs "environment")
        event := fill decConstraint {} (valuesOf kvs "event")
        branch := fill decConstraint {} (valuesOf kvs "branch")
        status := fill decConstraint {} (valuesOf kvs "status")
        matrix := fill decStringMap [] (valuesOf kvs "matrix") } := by
  ext1
  · exact fills_val (x := "ref") (by table_field) kvs _
  · exact fills_val (x := "repo") (by table_field) kvs _
  · exact fills_val (x := "instance") (by table_field) kvs _
  · exact fills_val (x := "environment") (by table_field) kvs _
  · exact fills_val (x := "event") (by table_field) kvs _
  · exact fills_val (x := "branch") (by table_field) kvs _
  · exact fills_val (x := "status") (by table_field) kvs _
  · exact fills_val (x := "matrix") (by table_field) kvs _

/-- The keys of a legacy container that are not settings. -/
def Spec.legacyKeys : List String :=
  ["command", "commands", "detach", "devices", "allow_failure", "tmpfs", "dns", "dns_search", "entrypoint", "environment",
    "extra_hosts", "image", "name", "privileged", "pull", "shell", "volumes", "secrets", "when"]

/-- A volume of a legacy container -/
abbrev Spec.decMount : Dec (Option Legacy.Volume) := decPtr {} (custom {} unmarshalLegacyVolume)

/-- C107: the keys of a legacy container.  Every key that has no meaning of its own is a setting. -/
theorem C107_container (kvs : List (Yaml.Node × Yaml.Node)) :
    (decLegacyContainer (.map kvs) {}).val =
      { name := fill decString "" (valuesOf kvs "name")
        image := fill decString "" (valuesOf kvs "image")
        detached := fill decBool false (valuesOf kvs "detach")
        command := fill decStringSlice [] (valuesOf kvs "command")
        commands := fill decStringSlice [] (valuesOf kvs "commands")
        dns := fill decStringSlice [] (valuesOf kvs "dns")
        dnsSearch := fill decStringSlice [] (valuesOf kvs "dns_search")
        entrypoint := fill decStringSlice [] (valuesOf kvs "entrypoint")
        environment := fill (custom [] unmarshalSliceMap) [] (valuesOf kvs "environment")
        extraHosts := fill decStrings [] (valuesOf kvs "extra_hosts")
        pull := fill decBool false (valuesOf kvs "pull")
        privileged := fill decBool false (valuesOf kvs "privileged")
        vargs := collect (fun n => (decAny n .null).val) (otherEntries legacyKeys kvs)
        volumes := fill (decSlice none decMount) [] (valuesOf kvs "volumes")
        secrets := fill (custom [] unmarshalSecrets) [] (valuesOf kvs "secrets")
        constraints := fill decConstraints {} (valuesOf kvs "when") } := by
  ext1
  · exact fills_val (x := "name") (by inline_field) kvs _
  · exact fills_val (x := "image") (by inline_field) kvs _
  · exact fills_val (x := "detach") (by inline_field) kvs _
  · exact fills_val (x := "command") (by inline_field) kvs _
  · exact fills_val (x := "commands") (by inline_field) kvs _
  · exact fills_val (x := "dns") (by inline_field) kvs _
  · exact fills_val (x := "dns_search") (by inline_field) kvs _
  · exact fills_val (x := "entrypoint") (by inline_field) kvs _
  · exact fills_val (x := "environment") (by inline_field) kvs _
  · exact fills_val (x := "extra_hosts") (by inline_field) kvs _
  · exact fills_val (x := "pull") (by inline_field) kvs _
  · exact fills_val (x := "privileged") (by inline_field) kvs _
  · exact inline_val (get := Legacy.Container.vargs) (val := fun n => (decAny n .null).val) (by row_keep) (fun _ _ _ => rfl) kvs {}
  · exact fills_val (x := "volumes") (by inline_field) kvs _
  · exact fills_val (x := "secrets") (by inline_field) kvs _
  · exact fills_val (x := "when") (by inline_field) kvs _

/-! ### GitLab files -/

/-- C107: the keys of an image. -/
theorem C107_image (kvs : List (Yaml.Node × Yaml.Node)) :
    (decGitlabImageLong (.map kvs) {}).val =
      { name := fill decString "" (valuesOf kvs "name")
        entrypoint := fill decStringSlice [] (valuesOf kvs "entrypoint")
        command := fill decStringSlice [] (valuesOf kvs "command")
        «alias» := fill decString "" (valuesOf kvs "alias") } := by
  ext1
  · exact fills_val (x := "name") (by table_field) kvs _
  · exact fills_val (x := "entrypoint") (by table_field) kvs _
  · exact fills_val (x := "command") (by table_field) kvs _
  · exact fills_val (x := "alias") (by table_field) kvs _

/-- C107: the keys of a GitLab job. -/
theorem C107_gitlab_job (kvs : List (Yaml.Node × Yaml.Node)) :
    (decGitlabJob (.map kvs) {}).val =
      { stage := fill decString "" (valuesOf kvs "stage")
        image := fill (custom {} unmarshalGitlabImage) {} (valuesOf kvs "image")
        script := fill decStringSlice [] (valuesOf kvs "script")
        before := fill decStringSlice [] (valuesOf kvs "before_script")
        after := fill decStringSlice [] (valuesOf kvs "after_script")
        allowFailure := fill decBool false (valuesOf kvs "allowfailure") } := by
  ext1
  · exact fills_val (x := "stage") (by table_field) kvs _
  · exact fills_val (x := "image") (by table_field) kvs _
  · exact fills_val (x := "script") (by table_field) kvs _
  · exact fills_val (x := "before_script") (by table_field) kvs _
  · exact fills_val (x := "after_script") (by table_field) kvs _
  · exact fills_val (x := "allowfailure") (by table_field) kvs _

/-- The keys of a GitLab file that are not jobs. -/
def Spec.gitlabKeys : List String := ["image", "stages", "services", "variables", "before_script", "after_script"]

/-- C107: the keys of a GitLab file.  Every other key is a job. -/
theorem C107_gitlab (kvs : List (Yaml.Node × Yaml.Node)) :
    (decStruct {} (fun k => some (gitlabField k)) (.map kvs) {}).val =
      { image := fill (custom {} unmarshalGitlabImage) {} (valuesOf kvs "image")
        stages := fill decStrings [] (valuesOf kvs "stages")
        services := fill (decSlice none (decPtr {} (custom {} unmarshalGitlabImage))) [] (valuesOf kvs "services")
        before := fill decStringSlice [] (valuesOf kvs "before_script")
        after := fill decStringSlice [] (valuesOf kvs "after_script")
        jobs := collect (fun n => (decPtr {} decGitlabJob n none).val) (otherEntries gitlabKeys kvs) } := by
  ext1
  · exact fills_val (x := "image") (by inline_field) kvs _
  · exact fills_val (x := "stages") (by inline_field) kvs _
  · exact fills_val (x := "services") (by inline_field) kvs _
  · exact fills_val (x := "before_script") (by inline_field) kvs _
  · exact fills_val (x := "after_script") (by inline_field) kvs _
  · show Gitlab.Config.jobs (decFields (fun k => some (gitlabField k)) kvs {}).val = _
    unfold gitlabField
    refine inline_val (get := Gitlab.Config.jobs) (val := fun n => (decPtr {} decGitlabJob n none).val) ?_ ?_ kvs {}
    · row_keep
    · exact fun _ _ _ => rfl

/-! ### Bitbucket files -/

/-- C107: the keys of a Bitbucket step. -/
theorem C107_bitbucket_step (kvs : List (Yaml.Node × Yaml.Node)) :
    (decBitbucketStep (.map kvs) {}).val =
      { name := fill decString "" (valuesOf kvs "name")
        image := fill decString "" (valuesOf kvs "image")
        script := fill decStrings [] (valuesOf kvs "script") } := by
  ext1
  · exact fills_val (x := "name") (by table_field) kvs _
  · exact fills_val (x := "image") (by table_field) kvs _
  · exact fills_val (x := "script") (by table_field) kvs _

/-! ### Whole files -/

/-- Whether something is written. -/
def Spec.decPresent : Dec Bool := fun n _ => { val := match n with | .null => false | _ => true }

theorem table_keeps {σ α : Type} {tbl : List (String × Yaml.Field σ)} {get : σ → α}
    (h : ∀ p ∈ tbl, ∀ n s, get (p.2 n s).1 = get s) :
    ∀ k g, tbl.lookup k = some g → ∀ n s, get (g n s).1 = get s :=
  fun k g hl => h (k, g) (GoMap.mem_of_get? hl)

theorem workspace_keeps {α : Type} {get : Legacy.Config → α} (hb : ∀ (s : Legacy.Config) v, get { s with base := v } = get s)
    (hp : ∀ (s : Legacy.Config) v, get { s with path := v } = get s) (n : Yaml.Node) (s : Legacy.Config) :
    get (nested (fun s => { s with base := "", path := "" }) legacyWorkspaceField n s).1 = get s := by
  refine nested_keeps (table_keeps ?_) (fun s => ?_) n s
  · refine List.forall_mem_cons.mpr ⟨fun n s => hb s _, List.forall_mem_cons.mpr ⟨fun n s => hp s _, List.forall_mem_nil _⟩⟩
  · exact (hp { s with base := "" } "").trans (hb s "")

macro "config_others" : tactic => `(tactic| (
  repeat refine List.forall_mem_cons.mpr ⟨by first
    | exact fun h => absurd rfl h
    | exact fun _ _ _ => rfl
    | exact fun _ n s => workspace_keeps (fun _ _ => rfl) (fun _ _ => rfl) n s
    | (intro _ n s; cases n <;> rfl), ?_⟩
  exact List.forall_mem_nil _))

/-- C107: the keys of a legacy file. -/
theorem C107_legacy (text : Scalar → String) (kvs : List (Yaml.Node × Yaml.Node)) :
    (decStruct {} (legacyConfigField text) (.map kvs) {}).val =
      { base := fill (inner "" "base" decString) "" (valuesOf kvs "workspace")
        path := fill (inner "" "path" decString) "" (valuesOf kvs "workspace")
        clone := fill (custom [] (unmarshalContainers text)) [] (valuesOf kvs "clone")
        pipeline := fill (custom [] (unmarshalContainers text)) [] (valuesOf kvs "pipeline")
        services := fill (custom [] (unmarshalContainers text)) [] (valuesOf kvs "services")
        branches := fill decConstraint {} (valuesOf kvs "branches")
        hasMatrix := fill decPresent false (valuesOf kvs "matrix")
        secrets := fill (decMap {} decSecretDecl) [] (valuesOf kvs "secrets") } := by
  have hb : Spec.Fills legacyWorkspaceField "base" Legacy.Config.base decString := by unfold legacyWorkspaceField; table_field
  have hp : Spec.Fills legacyWorkspaceField "path" Legacy.Config.path decString := by unfold legacyWorkspaceField; table_field
  ext1
  · exact fills_val (x := "workspace") (by exact fills_table ⟨_, rfl, fun n s => nested_fills hb (fun _ => rfl) n s⟩ (by config_others)) kvs _
  · exact fills_val (x := "workspace") (by exact fills_table ⟨_, rfl, fun n s => nested_fills hp (fun _ => rfl) n s⟩ (by config_others)) kvs _
  · exact fills_val (x := "clone") (by exact fills_table ⟨_, rfl, fun _ _ => rfl⟩ (by config_others)) kvs _
  · exact fills_val (x := "pipeline") (by exact fills_table ⟨_, rfl, fun _ _ => rfl⟩ (by config_others)) kvs _
  · exact fills_val (x := "services") (by exact fills_table ⟨_, rfl, fun _ _ => rfl⟩ (by config_others)) kvs _
  · exact fills_val (x := "branches") (by exact fills_table ⟨_, rfl, fun _ _ => rfl⟩ (by config_others)) kvs _
  · exact fills_val (x := "matrix") (by exact fills_table ⟨_, rfl, fun n s => by cases n <;> rfl⟩ (by config_others)) kvs _
  · exact fills_val (x := "secrets") (by exact fills_table ⟨_, rfl, fun _ _ => rfl⟩ (by config_others)) kvs _


theorem bitbucket_clone_keeps {α : Type} {get : Bitbucket.Config → α}
    (h : ∀ (s : Bitbucket.Config) v, get { s with depth := v } = get s) (n : Yaml.Node) (s : Bitbucket.Config) :
    get (nested (fun s => { s with depth := 0 }) (fun k => if k = "depth" then
      some (field Bitbucket.Config.depth (fun s v => { s with depth := v }) decInt) else none) n s).1 = get s := by
  refine nested_keeps (fun k g hf n s => ?_) (fun s => h s _) n s
  split_ifs at hf
  cases hf
  exact h s _

theorem bitbucket_pipelines_keeps {α : Type} {get : Bitbucket.Config → α}
    (h1 : ∀ (s : Bitbucket.Config) v, get { s with default_ := v } = get s)
    (h2 : ∀ (s : Bitbucket.Config) v, get { s with tags := v } = get s)
    (h3 : ∀ (s : Bitbucket.Config) v, get { s with branches := v } = get s) (n : Yaml.Node) (s : Bitbucket.Config) :
    get (nested (fun s => { s with default_ := [], tags := [], branches := [] }) bitbucketPipelinesField n s).1 = get s := by
  refine nested_keeps (table_keeps ?_) (fun s => ?_) n s
  · refine List.forall_mem_cons.mpr ⟨fun n s => h1 s _, List.forall_mem_cons.mpr ⟨fun n s => h2 s _,
      List.forall_mem_cons.mpr ⟨fun n s => h3 s _, List.forall_mem_nil _⟩⟩⟩
  · exact (h3 { s with default_ := [], tags := [] } []).trans ((h2 { s with default_ := [] } []).trans (h1 s []))

theorem bitbucket_definitions_keeps {α : Type} {get : Bitbucket.Config → α}
    (h : ∀ (s : Bitbucket.Config) v, get { s with services := v } = get s) (n : Yaml.Node) (s : Bitbucket.Config) :
    get (nested (fun s => { s with services := [] }) (fun k => if k = "services" then
      some (field Bitbucket.Config.services (fun s v => { s with services := v }) (decMap none (decPtr {} decBitbucketStep)))
      else if k = "caches" then some (unread [] decStringMap) else none) n s).1 = get s := by
  refine nested_keeps (fun k g hf n s => ?_) (fun s => h s _) n s
  split_ifs at hf
  · cases hf
    exact h s _
  · cases hf
    rfl

macro "bitbucket_others" : tactic => `(tactic| (
  repeat refine List.forall_mem_cons.mpr ⟨by first
    | exact fun h => absurd rfl h
    | exact fun _ _ _ => rfl
    | exact fun _ n s => bitbucket_clone_keeps (fun _ _ => rfl) n s
    | exact fun _ n s => bitbucket_pipelines_keeps (fun _ _ => rfl) (fun _ _ => rfl) (fun _ _ => rfl) n s
    | exact fun _ n s => bitbucket_definitions_keeps (fun _ _ => rfl) n s, ?_⟩
  exact List.forall_mem_nil _))

/-- C107: the keys of a Bitbucket file. -/
theorem C107_bitbucket (kvs : List (Yaml.Node × Yaml.Node)) :
    (decStruct {} bitbucketField (.map kvs) {}).val =
      { image := fill decString "" (valuesOf kvs "image")
        depth := fill (inner 0 "depth" decInt) 0 (valuesOf kvs "clone")
        default_ := fill (inner [] "default" decStage) [] (valuesOf kvs "pipelines")
        tags := fill (inner [] "tags" (decMap [] decStage)) [] (valuesOf kvs "pipelines")
        branches := fill (inner [] "branches" (decMap [] decStage)) [] (valuesOf kvs "pipelines")
        services := fill (inner [] "services" (decMap none (decPtr {} decBitbucketStep))) [] (valuesOf kvs "definitions") } := by
  have hd : Spec.Fills (fun k => if k = "depth" then
      some (field Bitbucket.Config.depth (fun s v => { s with depth := v }) decInt) else none) "depth" Bitbucket.Config.depth decInt :=
    ⟨⟨_, rfl, fun _ _ => rfl⟩, fun k g hk hf => by simp [hk] at hf⟩
  have h1 : Spec.Fills bitbucketPipelinesField "default" Bitbucket.Config.default_ decStage := by unfold bitbucketPipelinesField; table_field
  have h2 : Spec.Fills bitbucketPipelinesField "tags" Bitbucket.Config.tags (decMap [] decStage) := by unfold bitbucketPipelinesField; table_field
  have h3 : Spec.Fills bitbucketPipelinesField "branches" Bitbucket.Config.branches (decMap [] decStage) := by unfold bitbucketPipelinesField; table_field
  have h4 : Spec.Fills (fun k => if k = "services" then
      some (field Bitbucket.Config.services (fun s v => { s with services := v }) (decMap none (decPtr {} decBitbucketStep)))
      else if k = "caches" then some (unread [] decStringMap) else none) "services" Bitbucket.Config.services
      (decMap none (decPtr {} decBitbucketStep)) :=
    ⟨⟨_, rfl, fun _ _ => rfl⟩, fun k g hk hf => by
      simp only [hk, if_false] at hf
      split_ifs at hf
      cases hf
      exact fun _ _ => rfl⟩
  ext1
  · exact fills_val (x := "image") (by exact fills_table ⟨_, rfl, fun _ _ => rfl⟩ (by bitbucket_others)) kvs _
  · exact fills_val (x := "clone") (by exact fills_table ⟨_, rfl, fun n s => nested_fills hd (fun _ => rfl) n s⟩ (by bitbucket_others)) kvs _
  · exact fills_val (x := "pipelines") (by exact fills_table ⟨_, rfl, fun n s => nested_fills h1 (fun _ => rfl) n s⟩ (by bitbucket_others)) kvs _
  · exact fills_val (x := "pipelines") (by exact fills_table ⟨_, rfl, fun n s => nested_fills h2 (fun _ => rfl) n s⟩ (by bitbucket_others)) kvs _
  · exact fills_val (x := "pipelines") (by exact fills_table ⟨_, rfl, fun n s => nested_fills h3 (fun _ => rfl) n s⟩ (by bitbucket_others)) kvs _
  · exact fills_val (x := "definitions") (by exact fills_table ⟨_, rfl, fun n s => nested_fills h4 (fun _ => rfl) n s⟩ (by bitbucket_others)) kvs _

/-! ### Which files are refused -/

theorem steady_stringSlice : Spec.Steady decStringSlice := steady_custom _ fun n a b => by
  simp only [unmarshalStringSlice]
  split
  · rfl
  · split <;> rfl
theorem steady_sliceMap : Spec.Steady (custom [] unmarshalSliceMap) := steady_custom _ fun n a b => rfl
theorem steady_secrets : Spec.Steady (custom [] unmarshalSecrets) := steady_custom _ fun n a b => by
  simp only [unmarshalSecrets]
  split
  · rfl
  · exact steady_slice _ _ n a b
theorem steady_constraint : Spec.Steady decConstraint := steady_custom _ fun n a b => rfl
theorem steady_gitlabImage : Spec.Steady (custom {} unmarshalGitlabImage) := steady_custom _ fun n a b => by
  simp only [unmarshalGitlabImage]
  split
  · rfl
  · split <;> rfl
theorem steady_constraints : Spec.Steady decConstraints := by
  apply steady_table
  repeat refine List.forall_mem_cons.mpr ⟨by apply steady_field; first
    | exact steady_constraint | exact steady_map _ _, ?_⟩
  exact List.forall_mem_nil _

macro "steady_foreign" : tactic => `(tactic| (
  repeat refine List.forall_mem_cons.mpr ⟨by first
    | exact fun _ _ _ => rfl
    | (apply steady_field; first
      | steady_base | exact steady_stringSlice | exact steady_sliceMap | exact steady_secrets | exact steady_constraints
      | exact steady_gitlabImage), ?_⟩
  exact List.forall_mem_nil _))

/-- What is wrong with a value of a legacy container, by key. -/
def Spec.legacyWrong : List (String × (Yaml.Node → Bool)) :=
  [ ("command", fun n => (decStringSlice n []).err),
    ("commands", fun n => (decStringSlice n []).err),
    ("detach", fun n => (decBool n false).err),
    ("devices", fun n => (decStrings n []).err),
    ("allow_failure", fun n => (decBool n false).err),
    ("tmpfs", fun n => (decStrings n []).err),
    ("dns", fun n => (decStringSlice n []).err),
    ("dns_search", fun n => (decStringSlice n []).err),
    ("entrypoint", fun n => (decStringSlice n []).err),
    ("environment", fun n => (custom [] unmarshalSliceMap n []).err),
    ("extra_hosts", fun n => (decStrings n []).err),
    ("image", fun n => (decString n "").err),
    ("name", fun n => (decString n "").err),
    ("privileged", fun n => (decBool n false).err),
    ("pull", fun n => (decBool n false).err),
    ("shell", fun n => (decString n "").err),
    ("volumes", fun n => (decSlice none decMount n []).err),
    ("secrets", fun n => (custom [] unmarshalSecrets n []).err),
    ("when", fun n => (decConstraints n {}).err) ]

/-- C107: a legacy container is refused exactly if a value does not fit its key. -/
theorem C107_container_refused (kvs : List (Yaml.Node × Yaml.Node)) :
    (decLegacyContainer (.map kvs) {}).err = true ↔ Misfit legacyWrong (fun n => (decAny n .null).err) kvs := by
  refine misfit (s0 := ({} : Legacy.Container)) ?_ ?_ ?_ kvs {}
  · steady_foreign
  · rfl
  · exact fun _ _ _ => rfl

/-- What is wrong with a value of a GitLab job, by key. -/
def Spec.jobWrong : List (String × (Yaml.Node → Bool)) :=
  [ ("name", fun n => (decString n "").err),
    ("stage", fun n => (decString n "").err),
    ("image", fun n => (custom {} unmarshalGitlabImage n {}).err),
    ("script", fun n => (decStringSlice n []).err),
    ("before_script", fun n => (decStringSlice n []).err),
    ("after_script", fun n => (decStringSlice n []).err),
    ("services", fun n => (decSlice none (decPtr {} (custom {} unmarshalGitlabImage)) n []).err),
    ("only", fun n => (decStringSlice n []).err),
    ("except", fun n => (decStringSlice n []).err),
    ("variables", fun n => (decStringMap n []).err),
    ("allowfailure", fun n => (decBool n false).err),
    ("when", fun n => (decStringSlice n []).err) ]

/-- C107: a GitLab job is refused exactly if a value does not fit its key; other keys are not looked at. -/
theorem C107_job_refused (kvs : List (Yaml.Node × Yaml.Node)) :
    (decGitlabJob (.map kvs) {}).err = true ↔ Misfit jobWrong (fun _ => false) kvs := by
  refine misfit_table (s0 := ({} : Gitlab.Job)) ?_ ?_ kvs {}
  · steady_foreign
  · rfl

/-- What is wrong with a value of a GitLab file, by key. -/
def Spec.gitlabWrong : List (String × (Yaml.Node → Bool)) :=
  [ ("image", fun n => (custom {} unmarshalGitlabImage n {}).err),
    ("stages", fun n => (decStrings n []).err),
    ("services", fun n => (decSlice none (decPtr {} (custom {} unmarshalGitlabImage)) n []).err),
    ("variables", fun n => (decStringMap n []).err),
    ("before_script", fun n => (decStringSlice n []).err),
    ("after_script", fun n => (decStringSlice n []).err) ]

/-- C107: a GitLab file is refused exactly if a value does not fit its key; what is not one of the keys
has to be a job. -/
theorem C107_gitlab_refused (kvs : List (Yaml.Node × Yaml.Node)) :
    (∃ e, unmarshalGitlab (.map kvs) = .error e) ↔ Misfit gitlabWrong (fun n => (decPtr {} decGitlabJob n none).err) kvs := by
  have key : (decFields (fun k => some (gitlabField k)) kvs {}).err = true ↔
      Misfit gitlabWrong (fun n => (decPtr {} decGitlabJob n none).err) kvs := by
    unfold gitlabField
    refine misfit (s0 := ({} : Gitlab.Config)) ?_ ?_ ?_ kvs {}
    · steady_foreign
    · rfl
    · exact fun _ _ _ => rfl
  rw [← key]
  unfold unmarshalGitlab unmarshalDoc
  show (∃ e, (if (decFields (fun k => some (gitlabField k)) kvs {}).err = true then _ else _) = _) ↔ _
  by_cases h : (decFields (fun k => some (gitlabField k)) kvs {}).err = true
  · simp [h]
  · simp [h]

/-- What is wrong with a value of a Bitbucket step, by key. -/
def Spec.bitbucketStepWrong : List (String × (Yaml.Node → Bool)) :=
  [ ("name", fun n => (decString n "").err),
    ("image", fun n => (decString n "").err),
    ("script", fun n => (decStrings n []).err),
    ("variables", fun n => (decStringMap n []).err),
    ("artifacts", fun n => (decStrings n []).err) ]

/-- C107: a Bitbucket step is refused exactly if a value does not fit its key. -/
theorem C107_step_refused (kvs : List (Yaml.Node × Yaml.Node)) :
    (decBitbucketStep (.map kvs) {}).err = true ↔ Misfit bitbucketStepWrong (fun _ => false) kvs := by
  refine misfit_table (s0 := ({} : Bitbucket.Step)) ?_ ?_ kvs {}
  · steady_foreign
  · rfl

/-- A legacy step in which a setting is misspelt as a key of its own: it becomes a setting. -/
example : (decLegacyContainer (.map [(key "image", key "plugins/docker"), (key "repo", key "octocat/hello"),
      (key "commnads", .seq [key "make"])]) {}).val.vargs =
    [("repo", .str "octocat/hello"), ("commnads", .seq [.str "make"])] := by
  rw [C107_container]
  rfl

/-- A GitLab file that is refused because of a global key that is not known, and one with a global key
that becomes a job. -/
example : (∃ e, unmarshalGitlab (.map [(key "include", key "/templates/go.yml")]) = .error e) ∧
    (decStruct {} (fun k => some (gitlabField k)) (.map [(key "cache", single "key" (key "go"))]) {}).val.jobs =
      [("cache", some {})] := by
  constructor
  · rw [C107_gitlab_refused]
    exact ⟨_, _, List.mem_cons_self, .inr ⟨"include", rfl, rfl⟩⟩
  · rw [C107_gitlab]
    rfl

theorem collect_keys {α : Type} (val : Yaml.Node → α) (es : List (String × Yaml.Node)) :
    (collect val es).keys.Nodup ∧ ∀ k, k ∈ (collect val es).keys ↔ k ∈ es.map Prod.fst := by
  have key : ∀ (es : List (String × Yaml.Node)) (m : GoMap α), m.keys.Nodup →
      (es.foldl (fun m e => m.set e.1 (val e.2)) m).keys.Nodup ∧
      ∀ k, k ∈ (es.foldl (fun m e => m.set e.1 (val e.2)) m).keys ↔ k ∈ m.keys ∨ k ∈ es.map Prod.fst := by
    intro es
    induction es with
    | nil => intro m hm; exact ⟨hm, fun k => by simp⟩
    | cons e es ih =>
      intro m hm
      obtain ⟨h1, h2⟩ := ih (m.set e.1 (val e.2)) (GoMap.set_keys_nodup e.1 (val e.2) hm).1
      refine ⟨h1, fun k => ?_⟩
      have h3 := h2 k
      simp only [List.foldl_cons]
      rw [h3]
      have hk : k ∈ (m.set e.1 (val e.2)).keys ↔ k ∈ m.keys ∨ k = e.1 := by
        clear h1 h2 h3 ih hm
        induction m with
        | nil => simp [GoMap.set, GoMap.keys]
        | cons a m ih =>
          obtain ⟨a, b⟩ := a
          unfold GoMap.set
          split_ifs with h
          · simp only [GoMap.keys, List.map_cons, List.mem_cons] at *
            grind
          · simp only [GoMap.keys, List.map_cons, List.mem_cons] at *
            grind
      rw [hk, List.map_cons, List.mem_cons, or_assoc]
  obtain ⟨h1, h2⟩ := key es [] (by simp [GoMap.keys])
  exact ⟨h1, fun k => (h2 k).trans (by simp [GoMap.keys])⟩

theorem mem_otherEntries {known : List String} {kvs : List (Yaml.Node × Yaml.Node)} {k : String} :
    k ∈ (otherEntries known kvs).map Prod.fst ↔ k ∉ known ∧ ∃ kv ∈ kvs, textOf kv.1 = some k := by
  unfold otherEntries
  simp only [List.mem_map, List.mem_filterMap]
  constructor
  · rintro ⟨⟨a, b⟩, ⟨kv, hm, h⟩, rfl⟩
    obtain ⟨t, ht, h⟩ := Option.bind_eq_some_iff.1 h
    split_ifs at h with hk
    cases h
    exact ⟨hk, kv, hm, ht⟩
  · rintro ⟨hk, kv, hm, ht⟩
    exact ⟨(k, kv.2), ⟨kv, hm, by simp [ht, hk]⟩, rfl⟩

/-- C107: in a GitLab file without stages every global key that the converter does not know, like
`cache` or `default`, becomes a pipeline of its own. -/
theorem C107_global_key (dg : Img.DigestLib) (it : Orders (Option Gitlab.Job)) (kvs : List (Yaml.Node × Yaml.Node))
    (c : Gitlab.Config) (ps : List Pipeline) (hc : unmarshalGitlab (.map kvs) = .ok c) (hs : c.stages = [])
    (he : ∀ kv ∈ kvs, textOf kv.1 ≠ some "") (h : Gitlab.toPipelines dg it c = some ps) (x : String) :
    x ∈ ps.map (·.name) ↔ x ∉ gitlabKeys ∧ ∃ kv ∈ kvs, textOf kv.1 = some x := by
  have hc' : c = (decStruct {} (fun k => some (gitlabField k)) (.map kvs) {}).val := by
    unfold unmarshalGitlab unmarshalDoc at hc
    dsimp only at hc
    split_ifs at hc
    exact (Except.ok.inj hc).symm
  have hj : c.jobs = collect (fun n => (decPtr {} decGitlabJob n none).val) (otherEntries gitlabKeys kvs) := by
    rw [hc', C107_gitlab]
  obtain ⟨h1, h2⟩ := collect_keys (fun n => (decPtr {} decGitlabJob n none).val) (otherEntries gitlabKeys kvs)
  rw [← hj] at h1 h2
  have hne : "" ∉ c.jobs.keys := by
    rw [h2, mem_otherEntries]
    rintro ⟨_, kv, hm, ht⟩
    exact he kv hm ht
  obtain ⟨hp, _⟩ := C63_no_stages dg it c ps hs h1 hne h
  rw [hp.mem_iff, h2, mem_otherEntries]

/-- A file with a cache for all jobs. -/
example (dg : Img.DigestLib) (it : Orders (Option Gitlab.Job)) (ps : List Pipeline)
    (h : Gitlab.toPipelines dg it { jobs := [("cache", some {}), ("test", some { script := ["make"] })] } = some ps) :
    "cache" ∈ ps.map (·.name) :=
  (C107_global_key dg it [(key "cache", single "key" (key "go")), (key "test", single "script" (key "make"))] _ ps rfl rfl
    (by simp [key, textOf]) h "cache").2 ⟨by decide, _, List.mem_cons_self, rfl⟩

end Drone
