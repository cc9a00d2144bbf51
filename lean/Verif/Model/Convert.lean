/-
The converters for GitLab and Bitbucket files and the dispatcher:
/repo/yaml/converter/gitlab, /repo/yaml/converter/bitbucket, /repo/yaml/converter/convert.go.

Decoding YAML is a parameter.  Every `range` over a map may visit it in another order:
`Orders` gives the order of the n-th loop.
-/
import Verif.Model.Legacy
import Verif.Model.Image
import Verif.Model.Cond

namespace Drone

/-- The order in which the n-th loop over a map visits it. -/
structure Orders (α : Type) where
  order : Nat → GoMap α → GoMap α
  perm : ∀ n m, (order n m).Perm m

namespace Gitlab

/-- /repo/yaml/converter/gitlab/config.go:98-103 -/
structure Image where
  name : String := ""
  entrypoint : List String := []
  command : List String := []
  alias : String := ""

/-- /repo/yaml/converter/gitlab/config.go:47-95; the fields the converter does not read are
left out -/
structure Job where
  stage : String := ""
  image : Image := {}
  script : List String := []
  before : List String := []
  after : List String := []
  allowFailure : Bool := false

/-- /repo/yaml/converter/gitlab/config.go:13-44 without variables; a job or service may be nil -/
structure Config where
  image : Image := {}
  stages : List String := []
  services : List (Option Image) := []
  before : List String := []
  after : List String := []
  jobs : GoMap (Option Job) := []

/-- /repo/yaml/converter/gitlab/convert.go:30-35: without stages every job is a stage of its own;
a nil job panics -/
def withStages (it : Orders (Option Job)) (c : Config) : Option Config :=
  if c.stages.length = 0 then
    if c.jobs.any (fun kv => kv.2.isNone) then none
    else some { c with
      stages := (it.order 0 c.jobs).keys
      jobs := c.jobs.map fun kv => (kv.1, kv.2.map fun j => { j with stage := kv.1 }) }
  else some c

/-- The step for a job (/repo/yaml/converter/gitlab/convert.go:49-69) -/
def jobStep (c : Config) (name : String) (j : Job) : Container :=
  { name := name
    image := if j.image.name = "" then c.image.name else j.image.name
    command := j.image.command
    entrypoint := j.image.entrypoint
    commands := c.before ++ j.before ++ j.script ++ j.after ++ c.after
    failure := if j.allowFailure then "ignore" else "" }

/-- The loop over the jobs (/repo/yaml/converter/gitlab/convert.go:44-77); a nil job panics -/
def stageSteps (c : Config) (stage : String) : GoMap (Option Job) → Option (List Container)
  | [] => some []
  | (_, none) :: _ => none
  | (name, some j) :: jobs =>
    if j.stage ≠ stage then stageSteps c stage jobs
    else (stageSteps c stage jobs).map fun l => jobStep c name j :: l

/-- /repo/yaml/converter/gitlab/convert.go:102-106 -/
def serviceSlug (dg : Img.DigestLib) (s : String) : String :=
  String.ofList ((Img.trim dg s).toList.flatMap fun c => if c = '/' then ['_', '_'] else [c])

/-- The service for an image (/repo/yaml/converter/gitlab/convert.go:79-89); a nil service panics -/
def toService (dg : Img.DigestLib) (i : Option Image) : Option Container :=
  i.map fun i =>
    { name := if i.alias = "" then serviceSlug dg i.name else i.alias
      image := i.name, command := i.command, entrypoint := i.entrypoint }

/-- The loop over the stages (/repo/yaml/converter/gitlab/convert.go:38-95); `n` counts the loops
over maps, `prev` is `prevstage` -/
def stageLoop (dg : Img.DigestLib) (it : Orders (Option Job)) (c : Config) (n : Nat) (prev : String) :
    List String → Option (List Pipeline)
  | [] => some []
  | stage :: stages =>
    (stageSteps c stage (it.order n c.jobs)).bind fun steps =>
    (mapAll (toService dg) c.services).bind fun services =>
    (stageLoop dg it c (n + 1) stage stages).map fun ps =>
      { name := stage, kind := "pipeline", steps := steps.map some, services := services.map some,
        dependsOn := if prev ≠ "" then [prev] else [] } :: ps

/-- The manifest (/repo/yaml/converter/gitlab/convert.go:26-95) -/
def toPipelines (dg : Img.DigestLib) (it : Orders (Option Job)) (c : Config) : Option (List Pipeline) :=
  (withStages it c).bind fun c => stageLoop dg it c 1 "" c.stages

/-- `Convert` (/repo/yaml/converter/gitlab/convert.go:20-100) -/
def convert (L : Pretty.PrettyLib) (dg : Img.DigestLib) (it : Orders (Option Job))
    (decode : Bytes → Except String Config) (d : Bytes) : Outcome Bytes :=
  match decode d with
  | .error e => some (.error e)
  | .ok c => (toPipelines dg it c).bind fun ps => (Pretty.print L ⟨ps.map .pipeline⟩).map .ok

end Gitlab

namespace Bitbucket

/-- /repo/yaml/converter/bitbucket/config.go:48-70; the fields the converter does not read are left
out -/
structure Step where
  name : String := ""
  image : String := ""
  script : List String := []

/-- /repo/yaml/converter/bitbucket/config.go:14-45; a stage is its list of steps, which may be nil -/
structure Config where
  image : String := ""
  depth : Int := 0
  default_ : List (Option Step) := []
  tags : GoMap (List (Option Step)) := []
  branches : GoMap (List (Option Step)) := []
  services : GoMap (Option Step) := []

/-- `strings.TrimPrefix` -/
def trimPrefix (p s : String) : String :=
  if p.toList <+: s.toList then String.ofList (s.toList.drop p.toList.length) else s

/-- `Pipeline` (/repo/yaml/converter/bitbucket/config.go:75-93); `g` is `path.Match`, where an
error counts as no match -/
def Config.pipeline (g : Glob) (it : Orders (List (Option Step))) (c : Config) (ref : String) : List (Option Step) :=
  match (it.order 0 c.tags).find? (fun kv => g kv.1 (trimPrefix "refs/tags/" ref)) with
  | some kv => kv.2
  | none =>
    match (it.order 1 c.branches).find? (fun kv => g kv.1 (trimPrefix "refs/heads/" ref)) with
    | some kv => kv.2
    | none => c.default_

/-- /repo/yaml/converter/bitbucket/convert.go:80-86; a nil step panics -/
def toContainer (s : Option Step) : Option Container :=
  s.map fun s => { name := s.name, image := s.image, commands := s.script }

/-- The loop at /repo/yaml/converter/bitbucket/convert.go:45-56 -/
def stepLoop (image : String) (i : Nat) : List (Option Step) → Option (List Container)
  | [] => some []
  | s :: ss =>
    (toContainer s).bind fun c => (stepLoop image (i + 1) ss).map fun cs =>
      { c with
        image := if c.image = "" then image else c.image
        name := if c.name = "" then "step_" ++ toString i else c.name } :: cs

/-- The loop at /repo/yaml/converter/bitbucket/convert.go:62-66 -/
def serviceLoop (l : GoMap (Option Step)) : Option (List Container) :=
  mapAll (fun kv => (toContainer kv.2).map fun c => { c with name := kv.1 }) l

/-- The pipeline built at /repo/yaml/converter/bitbucket/convert.go:29-66 -/
def toPipeline (g : Glob) (it : Orders (List (Option Step))) (its : Orders (Option Step)) (c : Config)
    (ref : String) : Option Pipeline :=
  (stepLoop c.image 0 (c.pipeline g it ref)).bind fun steps =>
  (serviceLoop (its.order 0 c.services)).map fun services =>
    { name := "default", kind := "pipeline", clone := { depth := c.depth }, steps := steps.map some,
      services := services.map some }

/-- `Convert` (/repo/yaml/converter/bitbucket/convert.go:19-78) -/
def convert (L : Pretty.PrettyLib) (g : Glob) (it : Orders (List (Option Step))) (its : Orders (Option Step))
    (decode : Bytes → Except String Config) (d : Bytes) (ref : String) : Outcome Bytes :=
  match decode d with
  | .error e => some (.error e)
  | .ok c => (toPipeline g it its c ref).bind fun p => (Pretty.print L ⟨[.pipeline p]⟩).map .ok

end Bitbucket

/-- /repo/yaml/converter/metadata.go:12-25 -/
structure Metadata where
  filename : String := ""
  url : String := ""
  ref : String := ""

/-- What the converters need from outside. -/
structure ConvertLib extends Legacy.LegacyLib where
  env : Legacy.Env
  digest : Img.DigestLib
  glob : Glob
  decodeGitlab : Bytes → Except String Gitlab.Config
  decodeBitbucket : Bytes → Except String Bitbucket.Config
  orderJobs : Orders (Option Gitlab.Job)
  orderStages : Orders (List (Option Bitbucket.Step))
  orderServices : Orders (Option Bitbucket.Step)

/-- `Convert` (/repo/yaml/converter/convert.go:17-37, without the build tag `oss`) -/
def convert (X : ConvertLib) (d : Bytes) (m : Metadata) : Outcome Bytes :=
  if m.filename = "bitbucket-pipelines.yml" then
    Bitbucket.convert X.pretty X.glob X.orderStages X.orderServices X.decodeBitbucket d m.ref
  else if m.filename = ".gitlab-ci.yml" then
    Gitlab.convert X.pretty X.digest X.orderJobs X.decodeGitlab d
  else if Legacy.isLegacy d then Legacy.convert X.toLegacyLib X.env d m.url
  else some (.ok d)

end Drone
