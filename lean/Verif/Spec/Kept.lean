/-
What a manifest is after it has been printed and read again, apart from the order of its maps: a
small specification, stated without the printer.  Everything is kept except what is listed here.
-/
import Verif.Model.Types

namespace Drone.Spec

/-- The entries of a list of pointers that are kept, each as `f` keeps it. -/
def keepList {α β : Type} (f : α → Option β) (l : List (Option α)) : List (Option β) :=
  (l.filterMap fun o => o.bind f).map some

/-- The entries of a map of pointers that are kept. -/
def keepMap {α β : Type} (f : α → Option β) (m : GoMap (Option α)) : GoMap (Option β) :=
  m.filterMap fun kv => (kv.2.bind f).map fun b => (kv.1, some b)

/-- A variable without value and secret is lost; one with a secret loses its value. -/
def keptVariable (v : Variable) : Option Variable :=
  if v.secret = "" then if v.value = "" then none else some v else some { secret := v.secret }

/-- A parameter with a secret loses its value. -/
def keptParameter (p : Parameter) : Option Parameter :=
  if p.secret = "" then some p else some { secret := p.secret }

/-- Entries with nothing in them are lost. -/
def keptDevice (v : VolumeDevice) : Option VolumeDevice := if v = {} then none else some v
def keptMount (v : VolumeMount) : Option VolumeMount := if v = {} then none else some v

/-- Empty builds and pushes are lost. -/
def keptBuild (b : Build) : Option Build := if b = {} then none else some b
def keptPush (p : Push) : Option Push := if p = {} then none else some p

/-- Resource limits that are all zero are lost, and resources without limits and requests. -/
def keptObject (r : ResourceObject) : Option ResourceObject := if r = {} then none else some r
def keptResources (r : Resources) : Option Resources :=
  if r = {} then none else some { limits := r.limits.bind keptObject, requests := r.requests.bind keptObject }

/-- Conditions on the matrix are lost. -/
def keptConditions (c : Conditions) : Conditions := { c with matrix := [] }

/-- A host volume without path is no host volume. -/
def keptHost (h : VolumeHostPath) : Option VolumeHostPath := if h = {} then none else some h

/-- An empty volume is lost. -/
def keptVolume (v : Volume) : Option Volume :=
  if v = {} then none else some { v with hostPath := v.hostPath.bind keptHost }

/-- A container nothing of which is kept; `environment: {}` and the like count as something only
if they have entries. -/
def blankContainer (c : Container) : Prop :=
  c.name = "" ∧ c.pull = "" ∧ c.image = "" ∧ c.build.bind keptBuild = none ∧ c.push.bind keptPush = none ∧
  c.detach = false ∧ c.user = "" ∧ c.shell = "" ∧ c.entrypoint = [] ∧ c.command = [] ∧ c.commands = [] ∧ c.dns = [] ∧
  c.dnsSearch = [] ∧ c.extraHosts = [] ∧ c.network = "" ∧ c.settings = [] ∧ c.environment = [] ∧ c.failure = "" ∧
  c.privileged = false ∧ c.workingDir = "" ∧ c.devices = [] ∧ c.ports = [] ∧ c.resources = none ∧ c.volumes = [] ∧
  keptConditions c.cond = {} ∧ c.dependsOn = []

instance (c : Container) : Decidable (blankContainer c) := by unfold blankContainer; infer_instance

/-- A container. -/
def keptContainer (c : Container) : Option Container :=
  if blankContainer c then none
  else some { c with
    build := c.build.bind keptBuild
    push := c.push.bind keptPush
    settings := keepMap keptParameter c.settings
    environment := keepMap keptVariable c.environment
    devices := keepList keptDevice c.devices
    ports := keepList some c.ports
    resources := c.resources.bind keptResources
    volumes := keepList keptMount c.volumes
    cond := keptConditions c.cond }

/-- An empty platform becomes the default. -/
def keptPlatform (p : Platform) : Platform := if p = {} then { os := "linux", arch := "amd64" } else p

/-- A pipeline; nil containers are lost. -/
def keptPipeline (p : Pipeline) : Pipeline :=
  { p with
    platform := keptPlatform p.platform
    steps := keepList keptContainer p.steps
    services := keepList keptContainer p.services
    volumes := keepList keptVolume p.volumes
    trigger := keptConditions p.trigger }

/-- The type of a cron resource is lost. -/
def keptCron (c : Cron) : Cron := { c with type := "" }

/-- Text in pieces of a size. -/
def pieces (n : Nat) : Nat → List Char → List (List Char)
  | 0, _ => []
  | fuel + 1, s => if s = [] then [] else s.take n :: pieces n fuel (s.drop n)

/-- Data of a secret: without blanks and line feeds, then blanks between pieces of 60 characters
and a line feed at the end. -/
def keptData (d : String) : String :=
  let t := d.toList.filter fun c => c ≠ ' ' ∧ c ≠ '\n'
  if t = [] then "" else String.ofList ([' '].intercalate (pieces 60 t.length t) ++ ['\n'])

/-- A secret without data and path loses its name. -/
def keptSecret (s : Secret) : Secret :=
  { s with data := keptData s.data, name := if s.data = "" ∧ s.get = {} then "" else s.name }

/-- A registry is not printed. -/
def keptResource : Resource → Option Resource
  | .cron c => some (.cron (keptCron c))
  | .secret s => some (.secret (keptSecret s))
  | .signature s => some (.signature s)
  | .registry _ => none
  | .pipeline p => some (.pipeline (keptPipeline p))

def keptManifest (m : Manifest) : Manifest := ⟨m.resources.filterMap keptResource⟩

end Drone.Spec
