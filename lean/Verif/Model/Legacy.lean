/-
The converter for legacy (0.8) files: /repo/yaml/converter/legacy.

Decoding and encoding YAML, `url.Parse` and `strings.ToUpper` are parameters
(`LegacyLib`).  A result is `none` for a panic, `some (.error e)` for an error.
-/
import Verif.Model.Matrix
import Verif.Model.Path
import Verif.Model.Pretty

namespace Drone

/-- Outcome of a function that may panic (`none`) or return an error. -/
abbrev Outcome (α : Type) := Option (Except String α)

/-- Sequencing of outcomes. -/
def Outcome.andThen {α β : Type} (o : Outcome α) (f : α → Outcome β) : Outcome β :=
  o.bind fun
    | .error e => some (.error e)
    | .ok a => f a

/-- A loop that builds a list and may panic. -/
def mapAll {α β : Type} (f : α → Option β) : List α → Option (List β)
  | [] => some []
  | a :: as => (f a).bind fun b => (mapAll f as).map fun bs => b :: bs

/-- A loop that builds a list and may fail. -/
def mapOutcome {α β : Type} (f : α → Outcome β) : List α → Outcome (List β)
  | [] => some (.ok [])
  | a :: as => (f a).andThen fun b => (mapOutcome f as).andThen fun bs => some (.ok (b :: bs))

namespace Legacy

/-- /repo/yaml/converter/legacy/internal/volume.go:9-13 -/
structure Volume where
  source : String := ""
  destination : String := ""

/-- /repo/yaml/converter/legacy/internal/secret.go:14-17 -/
structure SecretRef where
  source : String := ""
  target : String := ""

/-- /repo/yaml/converter/legacy/internal/constraint.go:9-18; a constraint has the fields of a
`Condition` -/
structure Constraints where
  ref : Condition := {}
  repo : Condition := {}
  inst : Condition := {}
  environment : Condition := {}
  event : Condition := {}
  branch : Condition := {}
  status : Condition := {}
  matrix : GoMap String := []

/-- /repo/yaml/converter/legacy/internal/container.go:20-41; the fields the converter does not
read (devices, allow_failure, tmpfs, shell) are left out.  Nil entries of `volumes` and
`secrets` are possible (a null in the list). -/
structure Container where
  name : String := ""
  image : String := ""
  detached : Bool := false
  command : List String := []
  commands : List String := []
  dns : List String := []
  dnsSearch : List String := []
  entrypoint : List String := []
  environment : GoMap String := []
  extraHosts : List String := []
  pull : Bool := false
  privileged : Bool := false
  vargs : GoMap Value := []
  volumes : List (Option Volume) := []
  secrets : List (Option SecretRef) := []
  constraints : Constraints := {}

/-- Value of `Config.Secrets` (/repo/yaml/converter/legacy/internal/config.go:34-39); nil
`DriverOpts` reads like an empty map. -/
structure SecretDecl where
  driver : String := ""
  driverOpts : GoMap String := []
  path : String := ""
  vault : String := ""

/-- /repo/yaml/converter/legacy/internal/config.go:24-40; `hasMatrix` is `Matrix != nil` -/
structure Config where
  base : String := ""
  path : String := ""
  clone : List Container := []
  pipeline : List Container := []
  services : List Container := []
  branches : Condition := {}
  hasMatrix : Bool := false
  secrets : GoMap SecretDecl := []

/-- Environment variables of the process
(/repo/yaml/converter/legacy/internal/config.go:80, 119, 181). -/
structure Env where
  kubernetes : Bool := false
  clone : Bool := false
  pullSecrets : Bool := false

/-- Libraries. -/
structure LegacyLib where
  pretty : Pretty.PrettyLib
  /-- `expandMergeKeys` (/repo/yaml/converter/legacy/internal/yaml.go:18-28), which returns its
  input on an error -/
  expand : Bytes → Bytes
  /-- `yaml.Unmarshal` into `Config` -/
  decode : Bytes → Except String Config
  /-- `parseList` (/repo/yaml/converter/legacy/matrix/matrix.go:111-120) -/
  matrixList : Bytes → Except String (List (GoMap String))
  /-- `parse` (/repo/yaml/converter/legacy/matrix/matrix.go:103-109) -/
  matrixMap : Bytes → Except String (GoMap (List String))
  /-- `strings.ToUpper` -/
  upper : String → String
  /-- `url.Parse`: host name and path -/
  url : String → Option (String × String)
  /-- `yaml.Marshal` of a pipeline -/
  marshal : Drone.Pipeline → Except String String
  /-- `yaml.Unmarshal` into an existing pipeline -/
  unmarshal : String → Drone.Pipeline → Except String Drone.Pipeline

/-- `fmt.Sprintf("%x", s)` of a string: two hexadecimal digits per byte -/
def hexName (s : String) : String :=
  String.ofList ((utf8 s).flatMap fun b => Script.hexN 2 b.toNat)

/-- /repo/yaml/converter/legacy/internal/config.go:415-424; a nil volume panics -/
def toVolumeMounts (l : List (Option Volume)) : Option (List (Option VolumeMount)) :=
  mapAll (fun v => v.map fun v => some { name := hexName v.source, mountPath := v.destination }) l

/-- The inner loop at /repo/yaml/converter/legacy/internal/config.go:437-449; `set` and the
volumes so far are accumulated -/
def volumeLoop (set : List String) (to_ : List Drone.Volume) : List (Option Volume) →
    Option (List String × List Drone.Volume)
  | [] => some (set, to_)
  | none :: _ => none
  | some v :: vs =>
    let name := hexName v.source
    if name ∈ set then volumeLoop set to_ vs
    else volumeLoop (name :: set) (to_ ++ [{ name := name, hostPath := some { path := v.source } }]) vs

/-- The outer loop at /repo/yaml/converter/legacy/internal/config.go:436-450 -/
def volumesLoop (set : List String) (to_ : List Drone.Volume) : List Container → Option (List Drone.Volume)
  | [] => some to_
  | c :: cs => (volumeLoop set to_ c.volumes).bind fun r => volumesLoop r.1 r.2 cs

/-- /repo/yaml/converter/legacy/internal/config.go:428-452 -/
def toVolumes (c : Config) : Option (List Drone.Volume) := volumesLoop [] [] (c.pipeline ++ c.services)

/-- /repo/yaml/converter/legacy/internal/config.go:325-333 -/
def toPromote (events : List String) : List String :=
  events.map fun s => if s = "deploy" ∨ s = "deployment" then "promote" else s

/-- /repo/yaml/converter/legacy/internal/config.go:289-321 -/
def toConditions (c : Constraints) : Conditions where
  ref := c.ref
  repo := c.repo
  inst := c.inst
  target := c.environment
  event := { incl := toPromote c.event.incl, excl := toPromote c.event.excl }
  branch := c.branch
  status := c.status
  matrix := c.matrix

/-- The second loop of `toEnvironment`
(/repo/yaml/converter/legacy/internal/config.go:344-349); a nil secret panics -/
def secretLoop (upper : String → String) (envs : GoMap (Option Variable)) : List (Option SecretRef) →
    Option (GoMap (Option Variable))
  | [] => some envs
  | none :: _ => none
  | some s :: ss => secretLoop upper (envs.set (upper s.target) (some { secret := s.source })) ss

/-- /repo/yaml/converter/legacy/internal/config.go:337-351 -/
def toEnvironment (X : LegacyLib) (c : Container) : Option (GoMap (Option Variable)) :=
  secretLoop X.upper (c.environment.foldl (fun m kv => m.set kv.1 (some { value := kv.2 })) []) c.secrets

/-- /repo/yaml/converter/legacy/internal/config.go:355-362 -/
def toPullPolicy (pull : Bool) : String := if pull then "always" else "if-not-exists"

/-- /repo/yaml/converter/legacy/internal/config.go:403-411 -/
def toSettings (m : GoMap Value) : GoMap (Option Parameter) :=
  m.foldl (fun p kv => p.set kv.1 (some { value := kv.2 })) []

/-- /repo/yaml/converter/legacy/internal/config.go:267-285 -/
def toContainer (X : LegacyLib) (c : Container) : Option Drone.Container :=
  (toEnvironment X c).bind fun env => (toVolumeMounts c.volumes).map fun vols =>
    { name := c.name, image := c.image, detach := c.detached, command := c.command,
      commands := c.commands, dns := c.dns, dnsSearch := c.dnsSearch, entrypoint := c.entrypoint,
      environment := env, extraHosts := c.extraHosts, pull := toPullPolicy c.pull,
      privileged := c.privileged, settings := toSettings c.vargs, volumes := vols,
      cond := toConditions c.constraints }

/-- /repo/yaml/converter/legacy/internal/config.go:453-466 -/
def toWorkspacePath (X : LegacyLib) (link : String) : String :=
  match X.url link with
  | none => "src"
  | some (host, path) =>
    if host = "" then "src"
    else
      let p := path.toList
      let p := if p.head? = some '/' then p.drop 1 else p
      let p := if p.getLast? = some '/' then p.dropLast else p
      "src/" ++ host ++ "/" ++ String.ofList p

/-- `filepath.Join` of two elements (on Unix) -/
def joinPath (a b : String) : String := String.ofList (Path.join a.toList b.toList)

/-- /repo/yaml/converter/legacy/internal/config.go:65-109 -/
def toWorkspace (X : LegacyLib) (env : Env) (c : Config) (remote : String) : Workspace :=
  let path := if c.path = "." then "" else c.path
  let w : Workspace :=
    if remote ≠ "" then
      { base := if c.base = "" then "/drone" else c.base,
        path := if path = "" then toWorkspacePath X remote else path }
    else { base := c.base, path := path }
  if env.kubernetes then
    if c.base ≠ "" ∧ c.path ≠ "" then { base := "", path := joinPath c.base c.path }
    else if c.base ≠ "" then { base := "", path := joinPath c.base (toWorkspacePath X remote) }
    else if c.path ≠ "" then { base := "", path := joinPath "/drone" c.path }
    else { base := "", path := joinPath "/drone" (toWorkspacePath X remote) }
  else w

/-- The clone step at /repo/yaml/converter/legacy/internal/config.go:120-124 -/
def cloneStep : Drone.Container := { name := "clone", image := "plugins/git", pull := "if-not-exists" }

/-- The loop at /repo/yaml/converter/legacy/internal/config.go:140-145 -/
def renameLoop (names : List String) (i : Nat) : List Drone.Container → List Drone.Container
  | [] => []
  | c :: cs =>
    let name := if c.name ∈ names then c.name ++ "_" ++ toString i else c.name
    { c with name := name } :: renameLoop (name :: names) (i + 1) cs

/-- /repo/yaml/converter/legacy/internal/config.go:472-479 -/
def sliceContains (m : String) (items : List String) : Bool := items.any (· = m)

/-- /repo/yaml/converter/legacy/internal/config.go:147-174 -/
def toTrigger (b : Condition) (steps : List Drone.Container) : Conditions :=
  if b.incl.length > 0 ∧ b.excl.length = 0 then
    { branch := { incl := [], excl := b.excl },
      ref := { incl := ["refs/pull/**", "refs/pull-requests/**", "refs/merge-requests/**"] ++
        b.incl.map ("refs/heads/" ++ ·) ++
        (if steps.any (fun s => sliceContains "tag" s.cond.event.incl) then ["refs/tags/**"] else []) } }
  else { branch := b }

/-- The steps before renaming (/repo/yaml/converter/legacy/internal/config.go:111-125, 133-137) -/
def toSteps (X : LegacyLib) (env : Env) (c : Config) : Option (List Drone.Container) :=
  if c.clone.length ≠ 0 then mapAll (toContainer X) (c.clone ++ c.pipeline)
  else (mapAll (toContainer X) c.pipeline).map fun steps => if env.clone then cloneStep :: steps else steps

/-- The pipeline built at /repo/yaml/converter/legacy/internal/config.go:61-183 -/
def toPipeline (X : LegacyLib) (env : Env) (c : Config) (remote : String) : Option Drone.Pipeline :=
  (toSteps X env c).bind fun steps => (mapAll (toContainer X) c.services).bind fun services =>
  (toVolumes c).map fun volumes =>
    let steps := renameLoop [] 0 steps
    { name := "default", kind := "pipeline", type := if env.kubernetes then "kubernetes" else "",
      workspace := toWorkspace X env c remote,
      clone := { disable := c.clone.length ≠ 0 || env.clone },
      steps := steps.map some, services := services.map some, volumes := volumes.map some,
      trigger := toTrigger c.branches steps,
      pullSecrets := if env.pullSecrets then [".dockerconfigjson"] else [] }

/-- `matrix.Parse` (/repo/yaml/converter/legacy/matrix/matrix.go:35-53); no axes if the
matrix is empty -/
def parseMatrix (X : LegacyLib) (d : Bytes) : Outcome (List (GoMap String)) :=
  let fromMap : Outcome (List (GoMap String)) :=
    match X.matrixMap d with
    | .error e => some (.error e)
    | .ok m => if m.length = 0 then some (.ok []) else (Matrix.axes m).map .ok
  match X.matrixList d with
  | .error _ => fromMap
  | .ok l => if l.length ≠ 0 then some (.ok l) else fromMap

/-- The filter loops at /repo/yaml/converter/legacy/internal/config.go:196-228: a container with a
matrix condition is added once for each entry of the condition found in the axis. -/
def filterMatrix (environ : GoMap String) (l : List (Option Drone.Container)) : List (Option Drone.Container) :=
  l.flatMap fun o => match o with
    | none => []
    | some c =>
      if c.cond.matrix.length = 0 then [some c]
      else c.cond.matrix.flatMap fun w => environ.flatMap fun e => if w.1 = e.1 ∧ w.2 = e.2 then [some c] else []

/-- `strings.Replace(s, old, new, -1)` for a non-empty `old`; the number bounds the rounds. -/
def replaceLoop (old new : List Char) : Nat → List Char → List Char
  | 0, s => s
  | _ + 1, [] => []
  | n + 1, c :: s =>
    if old <+: c :: s then new ++ replaceLoop old new n ((c :: s).drop old.length)
    else c :: replaceLoop old new n s

/-- `strings.Replace(s, old, new, -1)` -/
def replaceAll (old new s : List Char) : List Char := replaceLoop old new s.length s

/-- The loop at /repo/yaml/converter/legacy/internal/config.go:238-244 -/
def substitute (X : LegacyLib) (environ : GoMap String) (s : List Char) : List Char :=
  environ.foldl (fun s kv =>
    let value := if '\n' ∈ kv.2.toList then Script.quote X.pretty.isPrint kv.2.toList else kv.2.toList
    replaceAll ("${".toList ++ kv.1.toList ++ ['}']) value s) s

/-- One round of the loop at /repo/yaml/converter/legacy/internal/config.go:192-251 -/
def toAxis (X : LegacyLib) (p : Drone.Pipeline) (index : Nat) (environ : GoMap String) : Except String Drone.Pipeline :=
  let current : Drone.Pipeline :=
    { p with
      name := "matrix-" ++ toString (index + 1)
      services := filterMatrix environ p.services
      steps := filterMatrix environ p.steps }
  (X.marshal current).bind fun text =>
    X.unmarshal (String.ofList (substitute X environ text.toList)) current

/-- The loop at /repo/yaml/converter/legacy/internal/config.go:192-251 -/
def axisPipelines (X : LegacyLib) (p : Drone.Pipeline) : Nat → List (GoMap String) → Except String (List Drone.Pipeline)
  | _, [] => .ok []
  | i, a :: as => (toAxis X p i a).bind fun q => (axisPipelines X p (i + 1) as).map fun qs => q :: qs

/-- Body of the loop of `toSecrets` (/repo/yaml/converter/legacy/internal/config.go:375-391) -/
def toSecret (name : String) (val : SecretDecl) : Drone.Secret :=
  { name := name, kind := "secret",
    get :=
      if val.driver = "vault" then
        { path := (val.driverOpts.get? "path").getD "", name := (val.driverOpts.get? "key").getD "" }
      else if val.path ≠ "" then { path := val.path, name := "" }
      else { path := val.vault } }

/-- /repo/yaml/converter/legacy/internal/config.go:366-399 -/
def toSecrets (c : Config) : List Drone.Secret :=
  (Pretty.sortStrings c.secrets.keys).map fun k => toSecret k ((c.secrets.get? k).getD {})

/-- The manifest that is printed (/repo/yaml/converter/legacy/internal/config.go:59-259); `d` is the
expanded document -/
def toManifest (X : LegacyLib) (env : Env) (d : Bytes) (c : Config) (remote : String) : Outcome Manifest :=
  (toPipeline X env c remote).bind fun p =>
    let pipelines : Outcome (List Drone.Pipeline) :=
      if c.hasMatrix then (parseMatrix X d).andThen fun axes => some (axisPipelines X p 0 axes)
      else some (.ok [p])
    pipelines.andThen fun ps =>
      some (.ok ⟨ps.map Resource.pipeline ++ (toSecrets c).map Resource.secret⟩)

/-- `hasMergeKeys` (/repo/yaml/converter/legacy/internal/yaml.go:30-32): does the text contain
`<<:`? -/
def hasMergeKeys : Bytes → Bool
  | [] => false
  | b :: bs => decide ([60, 60, 58] <+: b :: bs) || hasMergeKeys bs

/-- `Convert` (/repo/yaml/converter/legacy/internal/config.go:44-265) -/
def convert (X : LegacyLib) (env : Env) (d : Bytes) (remote : String) : Outcome Bytes :=
  let d := if hasMergeKeys d then X.expand d else d
  match X.decode d with
  | .error e => some (.error e)
  | .ok c => (toManifest X env d c remote).andThen fun m => (Pretty.print X.pretty m).map .ok

/-! ### /repo/yaml/converter/legacy/match.go -/

/-- `\s` -/
def isBlank (b : UInt8) : Bool := b = 9 || b = 10 || b = 12 || b = 13 || b = 32

/-- `(\s+)?$` matches at the start of the text: some run of blanks is followed by a line
feed or the end. -/
def matchTail : Bytes → Bool
  | [] => true
  | b :: bs => b = 10 || (isBlank b && matchTail bs)

/-- `(?m)^pipeline:(\s+)?$` matches somewhere in the text; `bol` says whether the text is at
the beginning of a line. -/
def matchFrom (bol : Bool) : Bytes → Bool
  | [] => false
  | b :: bs =>
    (bol && decide (utf8 "pipeline:" <+: b :: bs) && matchTail ((b :: bs).drop 9)) || matchFrom (b = 10) bs

/-- `Match` (/repo/yaml/converter/legacy/match.go:15-18) -/
def isLegacy (d : Bytes) : Bool := matchFrom true d

end Legacy
end Drone
