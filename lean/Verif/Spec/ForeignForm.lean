/-
Which YAML trees describe a legacy, GitLab or Bitbucket configuration, and what they say.
Independent of the model of the decoder.
-/
import Verif.Spec.YamlForm
import Verif.Model.Convert

namespace Drone.Spec
open Yaml (Node)

/-- A key that is checked and then not used -/
def check {σ α : Type} (name : String) (e : Form α) : Line σ :=
  ⟨name, e.fits, fun _ => True, fun _ _ => True, fun _ _ => True⟩

/-- The entries under none of the keys -/
def extras {σ : Type} (ls : List (Line σ)) (kvs : List (Node × Node)) : List (Node × Node) :=
  kvs.filter fun kv => ls.all fun l => textOf kv.1 ≠ some l.name

/-- A record with a map for all other keys -/
def Form.wide {σ α : Type} (ls : List (Line σ)) (get : σ → GoMap α) (e : Form α) : Form σ where
  fits n := n = .null ∨ ∃ kvs, n = .map kvs ∧ ∀ kv ∈ kvs, ∃ k, textOf kv.1 = some k ∧
    (∀ l ∈ ls, l.name = k → l.fits kv.2) ∧ ((∀ l ∈ ls, l.name ≠ k) → e.fits kv.2)
  once n := (Form.obj ls).once n ∧ ∀ kvs, n = .map kvs →
    ((extras ls kvs).map fun kv => textOf kv.1).Nodup ∧ ∀ kv ∈ extras ls kvs, e.once kv.2
  tells n s := ∃ kvs, (n = .map kvs ∨ n = .null ∧ kvs = []) ∧ (∀ l ∈ ls, ∃ u, Gives kvs l.name u ∧ l.tells u s) ∧
    List.Forall₂ (fun kv w => textOf kv.1 = some w.1 ∧ e.tells kv.2 w.2) (extras ls kvs) (get s)

section
open Form

/-- A text or a list of texts
(/repo/yaml/converter/internal/string_slice.go:11-24) -/
def sliceForm : Form (List String) := short (fun t => [t]) (list str)

/-- Definitions `name=value` in a list of texts; texts without `=` do not count. -/
inductive Definitions : List String → GoMap String → Prop
  | nil : Definitions [] []
  | skip {t ts m} : '=' ∉ t.toList → Definitions ts m → Definitions (t :: ts) m
  | take {k v ts m} : '=' ∉ k.toList → Definitions ts m → Definitions ((k ++ "=" ++ v) :: ts) ((k, v) :: m)

/-- A map of texts, or a list of definitions
(/repo/yaml/converter/legacy/internal/slice_map.go:15-36) -/
def sliceMapForm : Form (GoMap String) where
  fits n := (map str).fits n ∨ (list str).fits n
  once n := (map str).once n ∧ ∀ ts m, (list str).tells n ts → Definitions ts m → m.keys.Nodup
  tells n m := (map str).tells n m ∨ ∃ ts, (list str).tells n ts ∧ Definitions ts m

/-- What a text says about a volume: nothing without a colon, else source and destination, and after
a second colon something that does not count
(/repo/yaml/converter/legacy/internal/volume.go:17-33). -/
inductive NamesVolume : String → Legacy.Volume → Prop
  | none {t} : ':' ∉ t.toList → NamesVolume t {}
  | short {a b} : ':' ∉ a.toList → ':' ∉ b.toList → NamesVolume (a ++ ":" ++ b) ⟨a, b⟩
  | long {a b c} : ':' ∉ a.toList → ':' ∉ b.toList → NamesVolume (a ++ ":" ++ b ++ ":" ++ c) ⟨a, b⟩

def legacyVolumeForm : Form Legacy.Volume where
  fits n := ∃ t, textOf n = some t
  once _ := True
  tells n v := ∃ t, textOf n = some t ∧ NamesVolume t v

/-- /repo/yaml/converter/legacy/internal/secret.go:14-17 -/
def secretRefForm : Form Legacy.SecretRef := obj
  [line "source" Legacy.SecretRef.source str, line "target" Legacy.SecretRef.target str]

/-- A list of texts, each of which is source and target, or a list of records
(/repo/yaml/converter/legacy/internal/secret.go:21-34) -/
def secretsForm : Form (List (Option Legacy.SecretRef)) where
  fits n := (list str).fits n ∨ (list (ptr secretRefForm)).fits n
  once n := (list (ptr secretRefForm)).once n
  tells n v := (∃ ts, (list str).tells n ts ∧ v = ts.map fun t => some ⟨t, t⟩) ∨
    (¬ (list str).fits n ∧ (list (ptr secretRefForm)).tells n v)

/-- A text, or a list of nothing but texts; anything else counts as nothing. -/
def slice : Node → List String
  | .scalar t _ => [t]
  | .seq xs => (xs.mapM textOf).getD []
  | _ => []

/-- A constraint is never refused
(/repo/yaml/converter/legacy/internal/constraint.go:34-51). -/
def constraintForm : Form Condition where
  fits _ := True
  once n := ∀ kvs, n = .map kvs → ∀ name ∈ ["include", "exclude"],
    kvs.Pairwise fun a b => ¬ (textOf a.1 = some name ∧ textOf b.1 = some name)
  tells n c := ((∀ kvs, n ≠ .map kvs) ∧ c = { incl := slice n }) ∨
    ∃ kvs i e, n = .map kvs ∧ Gives kvs "include" i ∧ Gives kvs "exclude" e ∧ c = { incl := slice i, excl := slice e }

/-- /repo/yaml/converter/legacy/internal/constraint.go:9-18 -/
def constraintsForm : Form Legacy.Constraints := obj
  [ line "ref" Legacy.Constraints.ref constraintForm, line "repo" Legacy.Constraints.repo constraintForm,
    line "instance" Legacy.Constraints.inst constraintForm,
    line "environment" Legacy.Constraints.environment constraintForm,
    line "event" Legacy.Constraints.event constraintForm, line "branch" Legacy.Constraints.branch constraintForm,
    line "status" Legacy.Constraints.status constraintForm, line "matrix" Legacy.Constraints.matrix (map str) ]

/-- The keys of a legacy container (/repo/yaml/converter/legacy/internal/container.go:20-41) -/
def legacyContainerLines : List (Line Legacy.Container) :=
  [ line "command" Legacy.Container.command sliceForm, line "commands" Legacy.Container.commands sliceForm,
    line "detach" Legacy.Container.detached bool, check "devices" (list str), check "allow_failure" bool,
    check "tmpfs" (list str), line "dns" Legacy.Container.dns sliceForm,
    line "dns_search" Legacy.Container.dnsSearch sliceForm, line "entrypoint" Legacy.Container.entrypoint sliceForm,
    line "environment" Legacy.Container.environment sliceMapForm,
    line "extra_hosts" Legacy.Container.extraHosts (list str), line "image" Legacy.Container.image str,
    line "name" Legacy.Container.name str, line "privileged" Legacy.Container.privileged bool,
    line "pull" Legacy.Container.pull bool, check "shell" str,
    line "volumes" Legacy.Container.volumes (list (ptr legacyVolumeForm)),
    line "secrets" Legacy.Container.secrets secretsForm, line "when" Legacy.Container.constraints constraintsForm ]

/-- A legacy container: all other keys are settings. -/
def legacyContainerForm : Form Legacy.Container := wide legacyContainerLines Legacy.Container.vargs any

/-- The tree after its numbers and Booleans have been written anew (`text`) -/
inductive Rewritten (text : Yaml.Scalar → String) : Node → Node → Prop
  | null : Rewritten text .null .null
  | str {t} : Rewritten text (.scalar t .str) (.scalar t .str)
  | other {t r} : r ≠ .str → Rewritten text (.scalar t r) (.scalar (text r) r)
  | seq {xs ys} : List.Forall₂ (Rewritten text) xs ys → Rewritten text (.seq xs) (.seq ys)
  | map {kvs : List (Node × Node)} {ks vs : List Node} : List.Forall₂ (Rewritten text) (kvs.map Prod.fst) ks →
      List.Forall₂ (Rewritten text) (kvs.map Prod.snd) vs → Rewritten text (.map kvs) (.map (List.zip ks vs))

/-- The name that a key gives to a container -/
inductive Names (text : Yaml.Scalar → String) : Node → String → Prop
  | null : Names text .null "<nil>"
  | str {t} : Names text (.scalar t .str) t
  | other {t r} : r ≠ .str → Names text (.scalar t r) (text r)

/-- A section of containers: a map from names to containers, in the order of the file
(/repo/yaml/converter/legacy/internal/container.go:45-62) -/
def sectionForm (text : Yaml.Scalar → String) : Form (List Legacy.Container) where
  fits n := n = .null ∨ ∃ kvs, n = .map kvs ∧ ∀ kv ∈ kvs, ∃ v, Rewritten text kv.2 v ∧ legacyContainerForm.fits v
  once n := ∀ kvs, n = .map kvs → ∀ kv ∈ kvs, (textOf kv.1).isSome ∧
    ∃ v, Rewritten text kv.2 v ∧ legacyContainerForm.once v
  tells n l := (n = .null ∧ l = []) ∨ ∃ kvs, n = .map kvs ∧ List.Forall₂ (fun kv c => ∃ v c', Rewritten text kv.2 v ∧
    legacyContainerForm.tells v c' ∧ Names text kv.1 c.name ∧ c = { c' with name := c.name }) kvs l

/-- /repo/yaml/converter/legacy/internal/config.go:34-39 -/
def secretDeclForm : Form Legacy.SecretDecl := obj
  [ line "driver" Legacy.SecretDecl.driver str, line "driver_opts" Legacy.SecretDecl.driverOpts (map str),
    line "path" Legacy.SecretDecl.path str, line "vault" Legacy.SecretDecl.vault str ]

/-- Whether there is something -/
def present : Form Bool where
  fits := Keyed
  once _ := True
  tells n b := b = true ↔ n ≠ .null

/-- /repo/yaml/converter/legacy/internal/config.go:24-40 -/
def legacyForm (text : Yaml.Scalar → String) : Form Legacy.Config := obj
  [ group "workspace" [line "base" Legacy.Config.base str, line "path" Legacy.Config.path str],
    line "clone" Legacy.Config.clone (sectionForm text), line "pipeline" Legacy.Config.pipeline (sectionForm text),
    line "services" Legacy.Config.services (sectionForm text), line "branches" Legacy.Config.branches constraintForm,
    line "matrix" Legacy.Config.hasMatrix present, line "secrets" Legacy.Config.secrets (map secretDeclForm) ]

/-- The axes of the matrix (/repo/yaml/converter/legacy/matrix/matrix.go:103-109) -/
def axesForm : Form (GoMap (List String)) := obj [line "matrix" id (map (list str))]

/-- The listed builds of the matrix (/repo/yaml/converter/legacy/matrix/matrix.go:111-120) -/
def buildsForm : Form (List (GoMap String)) := obj [group "matrix" [line "include" id (list (map str))]]

/-- /repo/yaml/converter/gitlab/config.go:98-129 -/
def gitlabImageForm : Form Gitlab.Image := short (fun t => { name := t }) <| obj
  [ line "name" Gitlab.Image.name str, line "entrypoint" Gitlab.Image.entrypoint sliceForm,
    line "command" Gitlab.Image.command sliceForm, line "alias" Gitlab.Image.alias str ]

/-- /repo/yaml/converter/gitlab/config.go:47-95 -/
def gitlabJobForm : Form Gitlab.Job := obj
  [ check "name" str, line "stage" Gitlab.Job.stage str, line "image" Gitlab.Job.image gitlabImageForm,
    line "script" Gitlab.Job.script sliceForm, line "before_script" Gitlab.Job.before sliceForm,
    line "after_script" Gitlab.Job.after sliceForm, check "services" (list (ptr gitlabImageForm)),
    check "only" sliceForm, check "except" sliceForm, check "variables" (map str),
    line "allowfailure" Gitlab.Job.allowFailure bool, check "when" sliceForm ]

/-- The global keys (/repo/yaml/converter/gitlab/config.go:13-44) -/
def gitlabLines : List (Line Gitlab.Config) :=
  [ line "image" Gitlab.Config.image gitlabImageForm, line "stages" Gitlab.Config.stages (list str),
    line "services" Gitlab.Config.services (list (ptr gitlabImageForm)), check "variables" (map str),
    line "before_script" Gitlab.Config.before sliceForm, line "after_script" Gitlab.Config.after sliceForm ]

/-- A GitLab file: all other keys are jobs. -/
def gitlabForm : Form Gitlab.Config := wide gitlabLines Gitlab.Config.jobs (ptr gitlabJobForm)

/-- /repo/yaml/converter/bitbucket/config.go:48-69 -/
def bitbucketStepForm : Form Bitbucket.Step := obj
  [ line "name" Bitbucket.Step.name str, line "image" Bitbucket.Step.image str,
    line "script" Bitbucket.Step.script (list str), check "variables" (map str), check "artifacts" (list str) ]

/-- A list of records with a step (/repo/yaml/converter/bitbucket/config.go:96-108) -/
def stageForm : Form (List (Option Bitbucket.Step)) := list (obj [line "step" id (ptr bitbucketStepForm)])

/-- /repo/yaml/converter/bitbucket/config.go:14-45 -/
def bitbucketForm : Form Bitbucket.Config := obj
  [ line "image" Bitbucket.Config.image str, group "clone" [line "depth" Bitbucket.Config.depth int],
    group "pipelines" [ line "default" Bitbucket.Config.default_ stageForm,
      line "tags" Bitbucket.Config.tags (map stageForm), line "branches" Bitbucket.Config.branches (map stageForm) ],
    group "definitions" [ line "services" Bitbucket.Config.services (map (ptr bitbucketStepForm)),
      check "caches" (map str) ] ]

end
end Drone.Spec
