/-
Replacing references `${KEY}` in a text, and a function on strings applied to everything in a
pipeline.
-/
import Verif.Model.Types

namespace Drone.Spec

/-- A text with references. -/
inductive Piece where
  | text (l : List Char)
  | ref (key : List Char)

/-- How a piece is written. -/
def Piece.written : Piece → List Char
  | .text l => l
  | .ref k => '$' :: '{' :: k ++ ['}']

/-- What a piece stands for; a reference to an unknown key stays. -/
def Piece.filled (env : GoMap String) : Piece → List Char
  | .text l => l
  | .ref k => match env.get? (String.ofList k) with
    | some v => v.toList
    | none => (Piece.ref k).written

/-- Dollar signs only begin references, and closing braces end them. -/
def Piece.Tame : Piece → Prop
  | .text l => '$' ∉ l
  | .ref k => '$' ∉ k ∧ '}' ∉ k

mutual
def mapValue (f : String → String) : Value → Value
  | .str s => .str (f s)
  | .seq xs => .seq (mapValues f xs)
  | .map kvs => .map (mapPairs f kvs)
  | v => v
def mapValues (f : String → String) : List Value → List Value
  | [] => []
  | x :: xs => mapValue f x :: mapValues f xs
def mapPairs (f : String → String) : List (Value × Value) → List (Value × Value)
  | [] => []
  | (k, v) :: kvs => (mapValue f k, mapValue f v) :: mapPairs f kvs
end

def mapGoMap {α β : Type} (f : String → String) (g : α → β) (m : GoMap α) : GoMap β := m.map fun kv => (f kv.1, g kv.2)

def mapCondition (f : String → String) (c : Condition) : Condition := { incl := c.incl.map f, excl := c.excl.map f }

def mapConditions (f : String → String) (c : Conditions) : Conditions :=
  { action := mapCondition f c.action, cron := mapCondition f c.cron, ref := mapCondition f c.ref,
    repo := mapCondition f c.repo, inst := mapCondition f c.inst, target := mapCondition f c.target,
    event := mapCondition f c.event, branch := mapCondition f c.branch, status := mapCondition f c.status,
    paths := mapCondition f c.paths, matrix := mapGoMap f f c.matrix }

def mapVariable (f : String → String) (v : Variable) : Variable := { value := f v.value, secret := f v.secret }
def mapParameter (f : String → String) (p : Parameter) : Parameter := { value := mapValue f p.value, secret := f p.secret }

def mapBuild (f : String → String) (b : Build) : Build :=
  { args := mapGoMap f f b.args, cacheFrom := b.cacheFrom.map f, context := f b.context,
    dockerfile := f b.dockerfile, image := f b.image, labels := mapGoMap f f b.labels }

/-- Sizes, ports and switches stay; every string is mapped. -/
def mapContainer (f : String → String) (c : Container) : Container :=
  { build := c.build.map (mapBuild f), command := c.command.map f, commands := c.commands.map f, detach := c.detach,
    dependsOn := c.dependsOn.map f,
    devices := c.devices.map (Option.map fun v => { name := f v.name, devicePath := f v.devicePath }),
    dns := c.dns.map f, dnsSearch := c.dnsSearch.map f, entrypoint := c.entrypoint.map f,
    environment := mapGoMap f (Option.map (mapVariable f)) c.environment, extraHosts := c.extraHosts.map f,
    failure := f c.failure, image := f c.image, network := f c.network, name := f c.name,
    ports := c.ports.map (Option.map fun p => { p with protocol := f p.protocol }), privileged := c.privileged,
    pull := f c.pull, push := c.push.map fun p => { image := f p.image }, resources := c.resources,
    settings := mapGoMap f (Option.map (mapParameter f)) c.settings, shell := f c.shell, user := f c.user,
    volumes := c.volumes.map (Option.map fun v => { name := f v.name, mountPath := f v.mountPath }),
    cond := mapConditions f c.cond, workingDir := f c.workingDir }

def mapVolume (f : String → String) (v : Volume) : Volume :=
  { name := f v.name, emptyDir := v.emptyDir.map fun e => { e with medium := f e.medium },
    hostPath := v.hostPath.map fun h => { path := f h.path } }

def mapPipeline (f : String → String) (p : Pipeline) : Pipeline :=
  { version := f p.version, kind := f p.kind, type := f p.type, name := f p.name, clone := p.clone,
    concurrency := p.concurrency, dependsOn := p.dependsOn.map f, node := mapGoMap f f p.node,
    platform :=
      { os := f p.platform.os, arch := f p.platform.arch, variant := f p.platform.variant,
        version := f p.platform.version },
    pullSecrets := p.pullSecrets.map f, services := p.services.map (Option.map (mapContainer f)),
    steps := p.steps.map (Option.map (mapContainer f)), trigger := mapConditions f p.trigger,
    volumes := p.volumes.map (Option.map (mapVolume f)),
    workspace := { base := f p.workspace.base, path := f p.workspace.path } }

end Drone.Spec
