/-
Package transform (/repo/yaml/compiler/transform/*.go).

A transform works on the specification and the source of random identifiers (see
`Verif.Model.Compile`); `none` is a panic.  The maps given to a transform are
association lists in iteration order.  Not modelled: nil entries of `Steps` and
`Docker.Volumes`, a nil `Docker`, a nil `Envs` (compiled specifications have none
of them), and callbacks that return one pointer several times.
-/
import Verif.Model.Compile

namespace Drone
namespace Transform
open Engine (Step Spec Metadata)

/-- `func(*engine.Spec)` -/
abbrev Transform := St → Option St

/-- `for _, step := range spec.Steps { ... }` for a body that only updates `step`. -/
def eachStep (f : Step → Step) (st : St) : St :=
  { st with spec := { st.spec with steps := st.spec.steps.map f } }

/-- `step.RunPolicy = engine.RunNever` -/
def disable (s : Step) : Step := { s with runPolicy := .never }

/-- /repo/yaml/compiler/transform/filter.go:21-42 -/
def includeOnly (names : List String) : Transform := fun st =>
  if names.length = 0 then some st
  else some (eachStep (fun s =>
    if s.md.name = "clone" then s
    else if s.md.name ∈ names then s else disable s) st)

/-- /repo/yaml/compiler/transform/filter.go:46-67 -/
def excludeAll (names : List String) : Transform := fun st =>
  if names.length = 0 then some st
  else some (eachStep (fun s =>
    if s.md.name = "clone" then s
    else if s.md.name ∈ names then disable s else s) st)

/-- The loop of `ResumeAt` (/repo/yaml/compiler/transform/filter.go:76-84) -/
def resumeLoop (name : String) : List Step → List Step
  | [] => []
  | s :: ss =>
    if s.md.name = name then s :: ss
    else if s.md.name = "clone" then s :: resumeLoop name ss
    else disable s :: resumeLoop name ss

/-- /repo/yaml/compiler/transform/filter.go:71-86 -/
def resumeAt (name : String) : Transform := fun st =>
  if name = "" then some st
  else some { st with spec := { st.spec with steps := resumeLoop name st.spec.steps } }

/-- /repo/yaml/compiler/transform/env.go:21-29 -/
def withEnviron (envs : GoMap String) : Transform := fun st =>
  some (envs.foldl (fun st kv => eachStep (fun s => { s with envs := s.envs.set kv.1 kv.2 }) st) st)

/-- /repo/yaml/compiler/transform/netrc.go:34-82; mounting the file is switched off
by the constant `disableNetrcMount`. -/
def withNetrc (machine username password : String) : Transform := fun st =>
  if username = "" ∨ password = "" then some st
  else some (eachStep (fun s =>
    let e := s.envs.set "CI_NETRC_MACHINE" machine
    let e := e.set "CI_NETRC_USERNAME" username
    let e := e.set "CI_NETRC_PASSWORD" password
    let e := e.set "DRONE_NETRC_MACHINE" machine
    let e := e.set "DRONE_NETRC_USERNAME" username
    let e := e.set "DRONE_NETRC_PASSWORD" password
    { s with envs := e }) st)

/-- /repo/yaml/compiler/transform/proxy.go:43-53; `os` is `os.Getenv`, and the two
spellings of the name are passed in place of `ToUpper` and `ToLower`. -/
def getenv (os : String → String) (upper lower : String) : String :=
  if os upper ≠ "" then os upper
  else if os lower ≠ "" then os lower else ""

/-- One block of `WithProxy` (/repo/yaml/compiler/transform/proxy.go:28-31) -/
def proxyVar (os : String → String) (upper lower : String) (environ : GoMap String) : GoMap String :=
  let value := getenv os upper lower
  if value ≠ "" then (environ.set lower value).set upper value else environ

/-- The map `WithProxy` builds (/repo/yaml/compiler/transform/proxy.go:27-39) -/
def proxyEnviron (os : String → String) : GoMap String :=
  proxyVar os "HTTPS_PROXY" "https_proxy"
    (proxyVar os "HTTP_PROXY" "http_proxy"
      (proxyVar os "NO_PROXY" "no_proxy" []))

/-- /repo/yaml/compiler/transform/proxy.go:26-41; `iter` is the iteration order of the
map it builds. -/
def withProxy (os : String → String) (iter : GoMap String → GoMap String) : Transform :=
  withEnviron (iter (proxyEnviron os))

/-- `for k, v := range labels { m.Labels[k] = v }`; writing to a nil map panics. -/
def addLabels (labels : GoMap String) (m : Metadata) : Option Metadata :=
  match labels, m.labels with
  | [], _ => some m
  | _ :: _, none => none
  | kvs, some l => some { m with labels := some (kvs.foldl (fun l kv => l.set kv.1 kv.2) l) }

/-- The loop over the volumes; `ord i` is the iteration order of the labels at the
i-th resource. -/
def labelVolumes (ord : Nat → GoMap String) :
    Nat → List Engine.Volume → Option (List Engine.Volume)
  | _, [] => some []
  | i, v :: vs =>
    (addLabels (ord i) v.md).bind fun m =>
    (labelVolumes ord (i + 1) vs).map fun vs => { v with md := m } :: vs

/-- The loop over the steps. -/
def labelSteps (ord : Nat → GoMap String) : Nat → List Step → Option (List Step)
  | _, [] => some []
  | i, s :: ss =>
    (addLabels (ord i) s.md).bind fun m =>
    (labelSteps ord (i + 1) ss).map fun ss => { s with md := m } :: ss

/-- /repo/yaml/compiler/transform/labels.go:21-37; the loop over `labels` runs once for
the pipeline, once per volume and once per step, each in an order of its own. -/
def withLables (ord : Nat → GoMap String) : Transform := fun st =>
  (addLabels (ord 0) st.spec.md).bind fun m =>
  (labelVolumes ord 1 st.spec.volumes).bind fun vs =>
  (labelSteps ord (1 + st.spec.volumes.length) st.spec.steps).map fun ss =>
  { st with spec := { st.spec with md := m, volumes := vs, steps := ss } }

/-- /repo/yaml/compiler/transform/limits.go:21-40 -/
def withLimits (mem cpu : Int) : Transform := fun st =>
  if mem = 0 ∧ cpu = 0 then some st
  else some (eachStep (fun s =>
    let r := s.resources.getD {}
    let l := r.limits.getD {}
    { s with resources := some { r with limits := some { l with memory := mem, cpu := cpu } } }) st)

/-- /repo/yaml/compiler/transform/network.go:21-28 -/
def withNetworks (networks : List String) : Transform := fun st =>
  some (eachStep (fun s =>
    { s with docker := { s.docker with networks := s.docker.networks ++ networks } }) st)

/-- /repo/yaml/compiler/transform/auths.go:21-25 -/
def withAuths (auths : List Engine.DockerAuth) : Transform := fun st =>
  some { st with spec := { st.spec with auths := st.spec.auths ++ auths } }

/-- /repo/yaml/compiler/transform/auths.go:34-41; `auths` is what the callback returns. -/
def withAuthsFunc (auths : List Engine.DockerAuth) : Transform := fun st =>
  if auths.length ≠ 0 then
    some { st with spec := { st.spec with auths := st.spec.auths ++ auths } }
  else some st

/-- `spec.Secrets = append(spec.Secrets, s)` after drawing the identifier. -/
def addSecret (rnd : Nat → String) (s : Engine.Secret) (st : St) : St :=
  { n := st.n + 1, spec := { st.spec with secrets := st.spec.secrets ++ [
    { s with md := { s.md with uid := rnd st.n, namespc := st.spec.md.namespc } }] } }

/-- /repo/yaml/compiler/transform/secret.go:24-39 -/
def withSecrets (rnd : Nat → String) (secrets : GoMap String) : Transform := fun st =>
  some (secrets.foldl (fun st kv => addSecret rnd { md := { name := kv.1 }, data := kv.2 } st) st)

/-- `set[v.Name] = struct{}{}` on the keys of a map -/
def setAdd (set : List String) (name : String) : List String :=
  if name ∈ set then set else set ++ [name]

/-- The names needed (/repo/yaml/compiler/transform/secret.go:52-62) -/
def secretSet (steps : List Step) : List String :=
  steps.foldl (fun set s =>
    if s.runPolicy = .never then set
    else s.secrets.foldl (fun set v => setAdd set v.name) set) []

/-- The callback loop (/repo/yaml/compiler/transform/secret.go:67-74).  The callback may
depend on the names it was asked for before; the list of all requests is returned
too. -/
def askSecrets (rnd : Nat → String) (f : List String → String → Option Engine.Secret) :
    List String → List String → St → List String × St
  | [], asked, st => (asked, st)
  | name :: names, asked, st =>
    askSecrets rnd f names (asked ++ [name])
      (match f asked name with
       | some s => addSecret rnd s st
       | none => st)

/-- /repo/yaml/compiler/transform/secret.go:48-76, with the requests made; `iter` is the
iteration order of the set of names. -/
def withSecretFunc (rnd : Nat → String) (iter : List String → List String)
    (f : List String → String → Option Engine.Secret) (st : St) : List String × St :=
  askSecrets rnd f (iter (secretSet st.spec.steps)) [] st

/-- Body of `WithVolumes` (/repo/yaml/compiler/transform/volume.go:29-47) -/
def addGlobalVolume (rnd : Nat → String) (st : St) (kv : String × String) : St :=
  let name := rnd (st.n + 1)
  let volume : Engine.Volume := {
    md := { uid := rnd st.n, name := name, namespc := st.spec.md.name, labels := some [] }
    hostPath := some kv.1 }
  let st := { n := st.n + 2, spec := { st.spec with volumes := st.spec.volumes ++ [volume] } }
  eachStep (fun s => { s with volumes := s.volumes ++ [⟨name, kv.2⟩] }) st

/-- /repo/yaml/compiler/transform/volume.go:26-50 -/
def withVolumes (rnd : Nat → String) (volumes : GoMap String) : Transform := fun st =>
  some (volumes.foldl (addGlobalVolume rnd) st)

/-- The map `WithVolumeSlice` builds (/repo/yaml/compiler/transform/volume.go:56-65) -/
def volumeMap (volumes : List String) : GoMap String :=
  volumes.foldl (fun to s =>
    match s.toList.splitOn ':' with
    | [key, val] => to.set (String.ofList key) (String.ofList val)
    | _ => to) []

/-- /repo/yaml/compiler/transform/volume.go:55-67; `iter` is the iteration order of the
map it builds. -/
def withVolumeSlice (rnd : Nat → String) (iter : GoMap String → GoMap String)
    (volumes : List String) : Transform :=
  withVolumes rnd (iter (volumeMap volumes))

/-- /repo/yaml/compiler/transform/combine.go:21-27 -/
def combine (fns : List Transform) : Transform := fun st =>
  fns.foldl (fun (r : Option St) fn => r.bind fn) (some st)

end Transform
end Drone
