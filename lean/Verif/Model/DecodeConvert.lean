/-
The decoders of the converters: the `UnmarshalYAML` methods and struct tags of
/repo/yaml/converter/internal, legacy/internal, legacy/matrix, gitlab and bitbucket, on top of
the tree decoder of Model/Node.lean.
-/
import Verif.Model.Decode
import Verif.Model.Convert

namespace Drone
namespace Yaml

/-- `StringSlice.UnmarshalYAML` (/repo/yaml/converter/internal/string_slice.go:11-24,
/repo/yaml/converter/legacy/internal/string_slice.go) -/
def unmarshalStringSlice (n : Node) (old : List String) : List String × Bool :=
  let r := decString n ""
  if r.err = false then ([r.val], false)
  else
    let l := decStrings n []
    if l.err = false then (l.val, false) else (old, true)

def decStringSlice : Dec (List String) := custom [] unmarshalStringSlice

/-- `strings.SplitN(s, sep, 2)` on the characters: `none` without a separator -/
def cut (sep : Char) : List Char → Option (List Char × List Char)
  | [] => none
  | c :: cs => if c = sep then some ([], cs) else (cut sep cs).map fun p => (c :: p.1, p.2)

/-- The loop at /repo/yaml/converter/legacy/internal/slice_map.go:27-34 -/
def sliceEntries (m : GoMap String) : List String → GoMap String
  | [] => m
  | s :: ss =>
    match cut '=' s.toList with
    | some (k, v) => sliceEntries (m.set (String.ofList k) (String.ofList v)) ss
    | none => sliceEntries m ss

/-- `SliceMap.UnmarshalYAML` (/repo/yaml/converter/legacy/internal/slice_map.go:15-36); the map
keeps what the first attempt put there -/
def unmarshalSliceMap (n : Node) (_ : GoMap String) : GoMap String × Bool :=
  let r := decStringMap n []
  if r.err = false then (r.val, false)
  else
    let l := decStrings n []
    if l.err = false then (sliceEntries r.val l.val, false) else (r.val, true)

/-- `Volume.UnmarshalYAML` (/repo/yaml/converter/legacy/internal/volume.go:17-33); `ReadOnly` is
not read by the converter -/
def unmarshalLegacyVolume (n : Node) (old : Legacy.Volume) : Legacy.Volume × Bool :=
  let r := decString n ""
  if r.err then (old, true)
  else
    match cut ':' r.val.toList with
    | none => (old, false)
    | some (a, b) =>
      match cut ':' b with
      | none => ({ source := String.ofList a, destination := String.ofList b }, false)
      | some (b, _) => ({ source := String.ofList a, destination := String.ofList b }, false)

/-- /repo/yaml/converter/legacy/internal/secret.go:14-17 -/
def decSecretRef : Dec Legacy.SecretRef := decStruct {} fun k =>
  List.lookup k
  [ ("source", field Legacy.SecretRef.source (fun s v => { s with source := v }) decString),
    ("target", field Legacy.SecretRef.target (fun s v => { s with target := v }) decString) ]

/-- `Secrets.UnmarshalYAML` (/repo/yaml/converter/legacy/internal/secret.go:21-34) -/
def unmarshalSecrets (n : Node) (old : List (Option Legacy.SecretRef)) : List (Option Legacy.SecretRef) × Bool :=
  let l := decStrings n []
  if l.err = false then (old ++ l.val.map fun s => some { source := s, target := s }, false)
  else
    let r := decSlice none (decPtr {} decSecretRef) n old
    (r.val, r.err)

/-- The struct at /repo/yaml/converter/legacy/internal/constraint.go:35-38 -/
def decInclExclSlices : Dec Condition := decStruct {} fun k =>
  List.lookup k
  [ ("include", field Condition.incl (fun s v => { s with incl := v }) decStringSlice),
    ("exclude", field Condition.excl (fun s v => { s with excl := v }) decStringSlice) ]

/-- `Constraint.UnmarshalYAML` (/repo/yaml/converter/legacy/internal/constraint.go:34-51): it
never fails -/
def unmarshalConstraint (n : Node) (_ : Condition) : Condition × Bool :=
  let out1 := decInclExclSlices n {}
  let out2 := decStringSlice n []
  ({ incl := out1.val.incl ++ out2.val, excl := out1.val.excl }, false)

def decConstraint : Dec Condition := custom {} unmarshalConstraint

/-- /repo/yaml/converter/legacy/internal/constraint.go:9-18 -/
def decConstraints : Dec Legacy.Constraints := decStruct {} fun k =>
  List.lookup k
  [ ("ref", field Legacy.Constraints.ref (fun s v => { s with ref := v }) decConstraint),
    ("repo", field Legacy.Constraints.repo (fun s v => { s with repo := v }) decConstraint),
    ("instance", field Legacy.Constraints.inst (fun s v => { s with inst := v }) decConstraint),
    ("environment", field Legacy.Constraints.environment (fun s v => { s with environment := v }) decConstraint),
    ("event", field Legacy.Constraints.event (fun s v => { s with event := v }) decConstraint),
    ("branch", field Legacy.Constraints.branch (fun s v => { s with branch := v }) decConstraint),
    ("status", field Legacy.Constraints.status (fun s v => { s with status := v }) decConstraint),
    ("matrix", field Legacy.Constraints.matrix (fun s v => { s with matrix := v }) decStringMap) ]

/-- A field the converter does not read: only its errors count. -/
def unread {σ α : Type} (zero : α) (d : Dec α) : Field σ := fun n s => (s, (d n zero).err)

/-- /repo/yaml/converter/legacy/internal/container.go:20-41; every other key goes to the inline map -/
def legacyContainerField (k : String) : Field Legacy.Container :=
  (List.lookup k
  [ ("command", field Legacy.Container.command (fun s v => { s with command := v }) decStringSlice),
    ("commands", field Legacy.Container.commands (fun s v => { s with commands := v }) decStringSlice),
    ("detach", field Legacy.Container.detached (fun s v => { s with detached := v }) decBool),
    ("devices", unread [] decStrings),
    ("allow_failure", unread false decBool),
    ("tmpfs", unread [] decStrings),
    ("dns", field Legacy.Container.dns (fun s v => { s with dns := v }) decStringSlice),
    ("dns_search", field Legacy.Container.dnsSearch (fun s v => { s with dnsSearch := v }) decStringSlice),
    ("entrypoint", field Legacy.Container.entrypoint (fun s v => { s with entrypoint := v }) decStringSlice),
    ("environment", field Legacy.Container.environment (fun s v => { s with environment := v }) (custom [] unmarshalSliceMap)),
    ("extra_hosts", field Legacy.Container.extraHosts (fun s v => { s with extraHosts := v }) decStrings),
    ("image", field Legacy.Container.image (fun s v => { s with image := v }) decString),
    ("name", field Legacy.Container.name (fun s v => { s with name := v }) decString),
    ("privileged", field Legacy.Container.privileged (fun s v => { s with privileged := v }) decBool),
    ("pull", field Legacy.Container.pull (fun s v => { s with pull := v }) decBool),
    ("shell", unread "" decString),
    ("volumes", field Legacy.Container.volumes (fun s v => { s with volumes := v }) (decSlice none (decPtr {} (custom {} unmarshalLegacyVolume)))),
    ("secrets", field Legacy.Container.secrets (fun s v => { s with secrets := v }) (custom [] unmarshalSecrets)),
    ("when", field Legacy.Container.constraints (fun s v => { s with constraints := v }) decConstraints) ]).getD
  (fun n s => let r := decAny n .null; ({ s with vargs := s.vargs.set k r.val }, r.err))

/-- Into a legacy container -/
def decLegacyContainer : Dec Legacy.Container := decStruct {} fun k => some (legacyContainerField k)

mutual
/-- `yaml.Marshal` of a decoded value and reading it back: numbers and Booleans are written anew
(`text`), everything else stays -/
def rewrite (text : Scalar → String) : Node → Node
  | .null => .null
  | .scalar t .str => .scalar t .str
  | .scalar _ r => .scalar (text r) r
  | .seq xs => .seq (rewriteList text xs)
  | .map kvs => .map (rewriteEntries text kvs)
def rewriteList (text : Scalar → String) : List Node → List Node
  | [] => []
  | x :: xs => rewrite text x :: rewriteList text xs
def rewriteEntries (text : Scalar → String) : List (Node × Node) → List (Node × Node)
  | [] => []
  | (k, v) :: kvs => (rewrite text k, rewrite text v) :: rewriteEntries text kvs
end

/-- `fmt.Sprintf("%v", key)` of a decoded key; lists and maps are not modelled -/
def keyName (text : Scalar → String) : Node → String
  | .null => "<nil>"
  | .scalar t .str => t
  | .scalar _ r => text r
  | _ => ""

/-- The loop at /repo/yaml/converter/legacy/internal/container.go:51-60 -/
def namedContainers (text : Scalar → String) : List (Node × Node) → List Legacy.Container × Bool
  | [] => ([], false)
  | (k, v) :: kvs =>
    let r := decLegacyContainer (rewrite text v) {}
    if r.err then ([], true)
    else
      let rest := namedContainers text kvs
      ({ r.val with name := keyName text k } :: rest.1, rest.2)

/-- `Containers.UnmarshalYAML` (/repo/yaml/converter/legacy/internal/container.go:45-62); decoding
into a `yaml.MapSlice` fails for anything but a map -/
def unmarshalContainers (text : Scalar → String) (n : Node) (old : List Legacy.Container) :
    List Legacy.Container × Bool :=
  match n with
  | .map kvs =>
    let r := namedContainers text kvs
    (old ++ r.1, r.2)
  | _ => (old, true)

/-- /repo/yaml/converter/legacy/internal/config.go:34-39 -/
def decSecretDecl : Dec Legacy.SecretDecl := decStruct {} fun k =>
  List.lookup k
  [ ("driver", field Legacy.SecretDecl.driver (fun s v => { s with driver := v }) decString),
    ("driver_opts", field Legacy.SecretDecl.driverOpts (fun s v => { s with driverOpts := v }) decStringMap),
    ("path", field Legacy.SecretDecl.path (fun s v => { s with path := v }) decString),
    ("vault", field Legacy.SecretDecl.vault (fun s v => { s with vault := v }) decString) ]

/-- /repo/yaml/converter/legacy/internal/config.go:25-28 -/
def legacyWorkspaceField (k : String) : Option (Field Legacy.Config) :=
  List.lookup k
  [ ("base", field Legacy.Config.base (fun s v => { s with base := v }) decString),
    ("path", field Legacy.Config.path (fun s v => { s with path := v }) decString) ]

/-- /repo/yaml/converter/legacy/internal/config.go:24-40 -/
def legacyConfigField (text : Scalar → String) (k : String) : Option (Field Legacy.Config) :=
  List.lookup k
  [ ("workspace", nested (fun s => { s with base := "", path := "" }) legacyWorkspaceField),
    ("clone", field Legacy.Config.clone (fun s v => { s with clone := v }) (custom [] (unmarshalContainers text))),
    ("pipeline", field Legacy.Config.pipeline (fun s v => { s with pipeline := v }) (custom [] (unmarshalContainers text))),
    ("services", field Legacy.Config.services (fun s v => { s with services := v }) (custom [] (unmarshalContainers text))),
    ("branches", field Legacy.Config.branches (fun s v => { s with branches := v }) decConstraint),
    ("matrix", fun n s => match n with | .null => ({ s with hasMatrix := false }, false) | n => ({ s with hasMatrix := true }, (decAny n .null).err)),
    ("secrets", field Legacy.Config.secrets (fun s v => { s with secrets := v }) (decMap {} decSecretDecl)) ]

/-- `yaml.Unmarshal` at /repo/yaml/converter/legacy/internal/config.go:53 -/
def unmarshalLegacy (text : Scalar → String) (n : Node) : Except String Legacy.Config :=
  unmarshalDoc {} (legacyConfigField text) n

/-- `parse` (/repo/yaml/converter/legacy/matrix/matrix.go:103-109) -/
def unmarshalMatrix (n : Node) : Except String (GoMap (List String)) :=
  unmarshalDoc [] (fun k =>
    List.lookup k
  [ ("matrix", field id (fun _ v => v) (decMap [] decStrings)) ]) n

/-- `parseList` (/repo/yaml/converter/legacy/matrix/matrix.go:111-120) -/
def unmarshalMatrixList (n : Node) : Except String (List (GoMap String)) :=
  unmarshalDoc [] (fun k =>
    List.lookup k
  [ ("matrix", nested (fun _ => []) fun k => if k = "include" then some (field id (fun _ v => v) (decSlice [] decStringMap)) else none) ]) n

/-! ### GitLab -/

/-- The struct at /repo/yaml/converter/gitlab/config.go:114-119 -/
def decGitlabImageLong : Dec Gitlab.Image := decStruct {} fun k =>
  List.lookup k
  [ ("name", field Gitlab.Image.name (fun s v => { s with name := v }) decString),
    ("entrypoint", field Gitlab.Image.entrypoint (fun s v => { s with entrypoint := v }) decStringSlice),
    ("command", field Gitlab.Image.command (fun s v => { s with command := v }) decStringSlice),
    ("alias", field Gitlab.Image.alias (fun s v => { s with alias := v }) decString) ]

/-- `Image.UnmarshalYAML` (/repo/yaml/converter/gitlab/config.go:107-129) -/
def unmarshalGitlabImage (n : Node) (old : Gitlab.Image) : Gitlab.Image × Bool :=
  let r := decString n ""
  if r.err = false then ({ old with name := r.val }, false)
  else
    let d := decGitlabImageLong n {}
    if d.err then (old, true) else (d.val, false)

/-- /repo/yaml/converter/gitlab/config.go:47-95; a field without a tag has its name in lower case -/
def decGitlabJob : Dec Gitlab.Job := decStruct {} fun k =>
  List.lookup k
  [ ("name", unread "" decString),
    ("stage", field Gitlab.Job.stage (fun s v => { s with stage := v }) decString),
    ("image", field Gitlab.Job.image (fun s v => { s with image := v }) (custom {} unmarshalGitlabImage)),
    ("script", field Gitlab.Job.script (fun s v => { s with script := v }) decStringSlice),
    ("before_script", field Gitlab.Job.before (fun s v => { s with before := v }) decStringSlice),
    ("after_script", field Gitlab.Job.after (fun s v => { s with after := v }) decStringSlice),
    ("services", unread [] (decSlice none (decPtr {} (custom {} unmarshalGitlabImage)))),
    ("only", unread [] decStringSlice),
    ("except", unread [] decStringSlice),
    ("variables", unread [] decStringMap),
    ("allowfailure", field Gitlab.Job.allowFailure (fun s v => { s with allowFailure := v }) decBool),
    ("when", unread [] decStringSlice) ]

/-- /repo/yaml/converter/gitlab/config.go:13-44; every other key is a job -/
def gitlabField (k : String) : Field Gitlab.Config :=
  (List.lookup k
  [ ("image", field Gitlab.Config.image (fun s v => { s with image := v }) (custom {} unmarshalGitlabImage)),
    ("stages", field Gitlab.Config.stages (fun s v => { s with stages := v }) decStrings),
    ("services", field Gitlab.Config.services (fun s v => { s with services := v }) (decSlice none (decPtr {} (custom {} unmarshalGitlabImage)))),
    ("variables", unread [] decStringMap),
    ("before_script", field Gitlab.Config.before (fun s v => { s with before := v }) decStringSlice),
    ("after_script", field Gitlab.Config.after (fun s v => { s with after := v }) decStringSlice) ]).getD
  (fun n s => let r := decPtr {} decGitlabJob n none; ({ s with jobs := s.jobs.set k r.val }, r.err))

/-- `yaml.Unmarshal` at /repo/yaml/converter/gitlab/convert.go:22 -/
def unmarshalGitlab (n : Node) : Except String Gitlab.Config :=
  unmarshalDoc {} (fun k => some (gitlabField k)) n

/-! ### Bitbucket -/

/-- /repo/yaml/converter/bitbucket/config.go:48-69 -/
def decBitbucketStep : Dec Bitbucket.Step := decStruct {} fun k =>
  List.lookup k
  [ ("name", field Bitbucket.Step.name (fun s v => { s with name := v }) decString),
    ("image", field Bitbucket.Step.image (fun s v => { s with image := v }) decString),
    ("script", field Bitbucket.Step.script (fun s v => { s with script := v }) decStrings),
    ("variables", unread [] decStringMap),
    ("artifacts", unread [] decStrings) ]

/-- The struct at /repo/yaml/converter/bitbucket/config.go:97-99 -/
def decStageEntry : Dec (Option Bitbucket.Step) := decStruct none fun k =>
  List.lookup k
  [ ("step", field id (fun _ v => v) (decPtr {} decBitbucketStep)) ]

/-- `Stage.UnmarshalYAML` (/repo/yaml/converter/bitbucket/config.go:96-108) -/
def unmarshalStage (n : Node) (old : List (Option Bitbucket.Step)) : List (Option Bitbucket.Step) × Bool :=
  let r := decSlice none decStageEntry n []
  if r.err then (old, true) else (old ++ r.val, false)

def decStage : Dec (List (Option Bitbucket.Step)) := custom [] unmarshalStage

/-- /repo/yaml/converter/bitbucket/config.go:28-32 -/
def bitbucketPipelinesField (k : String) : Option (Field Bitbucket.Config) :=
  List.lookup k
  [ ("default", field Bitbucket.Config.default_ (fun s v => { s with default_ := v }) decStage),
    ("tags", field Bitbucket.Config.tags (fun s v => { s with tags := v }) (decMap [] decStage)),
    ("branches", field Bitbucket.Config.branches (fun s v => { s with branches := v }) (decMap [] decStage)) ]

/-- /repo/yaml/converter/bitbucket/config.go:14-38 -/
def bitbucketField (k : String) : Option (Field Bitbucket.Config) :=
  List.lookup k
  [ ("image", field Bitbucket.Config.image (fun s v => { s with image := v }) decString),
    ("clone", nested (fun s => { s with depth := 0 }) fun k => if k = "depth" then some (field Bitbucket.Config.depth (fun s v => { s with depth := v }) decInt) else none),
    ("pipelines", nested (fun s => { s with default_ := [], tags := [], branches := [] }) bitbucketPipelinesField),
    ("definitions", nested (fun s => { s with services := [] }) fun k => if k = "services" then some (field Bitbucket.Config.services (fun s v => { s with services := v }) (decMap none (decPtr {} decBitbucketStep))) else if k = "caches" then some (unread [] decStringMap) else none) ]

/-- `yaml.Unmarshal` at /repo/yaml/converter/bitbucket/convert.go:21 -/
def unmarshalBitbucket (n : Node) : Except String Bitbucket.Config :=
  unmarshalDoc {} bitbucketField n

end Yaml
end Drone
