/-
Data types of package yaml (/repo/yaml/*.go).

Conventions (see DESIGN.md):
* a Go `string` is a Lean `String`;
* a Go `map[string]T` is an association list whose order is the iteration
  order of the map (arbitrary; theorems that claim order independence quantify
  over permutations);
* a pointer that may be nil inside a slice or map is an `Option`;
* `float64` (only `ResourceObject.CPU` and settings values) is the `Rat`
  it stands for; the one arithmetic operation on it is rounded (Model/Float64.lean), overflow and
  the values that are no numbers are not modelled;
* `int` and `int64` are unbounded `Int`.
-/

namespace Drone

/-- File contents. -/
abbrev Bytes := List UInt8

/-- A Go `map[string]α`; list order = iteration order. -/
abbrev GoMap (α : Type) := List (String × α)

namespace GoMap
variable {α : Type}

/-- Map read `m[k]` with presence. -/
def get? (m : GoMap α) (k : String) : Option α := List.lookup k m

/-- Map write `m[k] = v`. -/
def set (m : GoMap α) (k : String) (v : α) : GoMap α :=
  match m with
  | [] => [(k, v)]
  | (k', v') :: rest => if k' = k then (k, v) :: rest else (k', v') :: set rest k v

/-- The keys in iteration order. -/
def keys (m : GoMap α) : List String := m.map Prod.fst

end GoMap

/-- What a value decoded into `interface{}` by yaml.v2 can be
(/repo/yaml/param.go:41-43).  Timestamps decode to strings; `uint64` overflow
values and `[]byte` are not modelled. -/
inductive Value where
  | null
  | bool (b : Bool)
  | int (i : Int)
  | float (q : Rat)
  | str (s : String)
  | seq (xs : List Value)
  | map (kvs : List (Value × Value))
  deriving Inhabited, Repr

/-- /repo/yaml/cond.go:35-38 -/
structure Condition where
  incl : List String := []
  excl : List String := []
  deriving DecidableEq, Repr, Inhabited

/-- /repo/yaml/cond.go:20-32 -/
structure Conditions where
  action : Condition := {}
  cron : Condition := {}
  ref : Condition := {}
  repo : Condition := {}
  inst : Condition := {}
  target : Condition := {}
  event : Condition := {}
  branch : Condition := {}
  status : Condition := {}
  paths : Condition := {}
  matrix : GoMap String := []
  deriving DecidableEq, Repr, Inhabited

/-- /repo/yaml/env.go:21-24 -/
structure Variable where
  value : String := ""
  secret : String := ""
  deriving DecidableEq, Repr, Inhabited

/-- /repo/yaml/param.go:21-24 -/
structure Parameter where
  value : Value := .null
  secret : String := ""
  deriving Repr, Inhabited

/-- /repo/yaml/build.go:19-26 -/
structure Build where
  args : GoMap String := []
  cacheFrom : List String := []
  context : String := ""
  dockerfile : String := ""
  image : String := ""
  labels : GoMap String := []
  deriving DecidableEq, Repr, Inhabited

/-- /repo/yaml/push.go:19-21 -/
structure Push where
  image : String := ""
  deriving DecidableEq, Repr, Inhabited

/-- /repo/yaml/port.go:20-24 -/
structure Port where
  port : Int := 0
  host : Int := 0
  protocol : String := ""
  deriving DecidableEq, Repr, Inhabited

/-- /repo/yaml/pipeline.go:101-104 -/
structure ResourceObject where
  cpu : Rat := 0
  memory : Int := 0
  deriving DecidableEq, Repr, Inhabited

/-- /repo/yaml/pipeline.go:89-97 -/
structure Resources where
  limits : Option ResourceObject := none
  requests : Option ResourceObject := none
  deriving DecidableEq, Repr, Inhabited

/-- /repo/yaml/pipeline.go:123-126 -/
structure VolumeDevice where
  name : String := ""
  devicePath : String := ""
  deriving DecidableEq, Repr, Inhabited

/-- /repo/yaml/pipeline.go:130-133 -/
structure VolumeMount where
  name : String := ""
  mountPath : String := ""
  deriving DecidableEq, Repr, Inhabited

/-- /repo/yaml/pipeline.go:138-141 -/
structure VolumeEmptyDir where
  medium : String := ""
  sizeLimit : Int := 0
  deriving DecidableEq, Repr, Inhabited

/-- /repo/yaml/pipeline.go:145-147 -/
structure VolumeHostPath where
  path : String := ""
  deriving DecidableEq, Repr, Inhabited

/-- /repo/yaml/pipeline.go:115-119 -/
structure Volume where
  name : String := ""
  emptyDir : Option VolumeEmptyDir := none
  hostPath : Option VolumeHostPath := none
  deriving DecidableEq, Repr, Inhabited

/-- /repo/yaml/pipeline.go:58-85 -/
structure Container where
  build : Option Build := none
  command : List String := []
  commands : List String := []
  detach : Bool := false
  dependsOn : List String := []
  devices : List (Option VolumeDevice) := []
  dns : List String := []
  dnsSearch : List String := []
  entrypoint : List String := []
  environment : GoMap (Option Variable) := []
  extraHosts : List String := []
  failure : String := ""
  image : String := ""
  network : String := ""
  name : String := ""
  ports : List (Option Port) := []
  privileged : Bool := false
  pull : String := ""
  push : Option Push := none
  resources : Option Resources := none
  settings : GoMap (Option Parameter) := []
  shell : String := ""
  user : String := ""
  volumes : List (Option VolumeMount) := []
  cond : Conditions := {}   -- field `When`
  workingDir : String := ""
  deriving Repr, Inhabited

/-- /repo/yaml/pipeline.go:46-50 -/
structure Clone where
  disable : Bool := false
  depth : Int := 0
  skipVerify : Bool := false
  deriving DecidableEq, Repr, Inhabited

/-- /repo/yaml/pipeline.go:53-55 -/
structure Concurrency where
  limit : Int := 0
  deriving DecidableEq, Repr, Inhabited

/-- /repo/yaml/pipeline.go:107-112 -/
structure Platform where
  os : String := ""
  arch : String := ""
  variant : String := ""
  version : String := ""
  deriving DecidableEq, Repr, Inhabited

/-- /repo/yaml/pipeline.go:150-153 -/
structure Workspace where
  base : String := ""
  path : String := ""
  deriving DecidableEq, Repr, Inhabited

/-- /repo/yaml/pipeline.go:19-36 -/
structure Pipeline where
  version : String := ""
  kind : String := ""
  type : String := ""
  name : String := ""
  clone : Clone := {}
  concurrency : Concurrency := {}
  dependsOn : List String := []
  node : GoMap String := []
  platform : Platform := {}
  pullSecrets : List String := []
  services : List (Option Container) := []
  steps : List (Option Container) := []
  trigger : Conditions := {}
  volumes : List (Option Volume) := []
  workspace : Workspace := {}
  deriving Repr, Inhabited

/-- /repo/yaml/cron.go:22-41 (`Spec` and `Deploy` flattened into one record) -/
structure Cron where
  version : String := ""
  kind : String := ""
  type : String := ""
  name : String := ""
  schedule : String := ""
  branch : String := ""
  deployTarget : String := ""
  deriving DecidableEq, Repr, Inhabited

/-- /repo/yaml/secret.go:38-42 -/
structure SecretGet where
  path : String := ""
  name : String := ""
  key : String := ""
  deriving DecidableEq, Repr, Inhabited

/-- /repo/yaml/secret.go:25-33 -/
structure Secret where
  version : String := ""
  kind : String := ""
  type : String := ""
  name : String := ""
  data : String := ""
  get : SecretGet := {}
  deriving DecidableEq, Repr, Inhabited

/-- /repo/yaml/registry.go:23-29 -/
structure Registry where
  version : String := ""
  kind : String := ""
  type : String := ""
  data : GoMap String := []
  deriving DecidableEq, Repr, Inhabited

/-- /repo/yaml/signature.go:24-28 -/
structure Signature where
  version : String := ""
  kind : String := ""
  hmac : String := ""
  deriving DecidableEq, Repr, Inhabited

/-- The concrete types behind the `Resource` interface
(/repo/yaml/manifest.go:41-47). -/
inductive Resource where
  | cron (c : Cron)
  | secret (s : Secret)
  | signature (s : Signature)
  | registry (r : Registry)
  | pipeline (p : Pipeline)
  deriving Repr, Inhabited

/-- `GetKind` of each resource (/repo/yaml/cron.go:48, secret.go:56,
signature.go:35, registry.go:36, pipeline.go:42). -/
def Resource.getKind : Resource → String
  | .cron c => c.kind
  | .secret s => s.kind
  | .signature s => s.kind
  | .registry r => r.kind
  | .pipeline p => p.kind

/-- /repo/yaml/manifest.go:36-38 -/
structure Manifest where
  resources : List Resource := []
  deriving Repr, Inhabited

end Drone
