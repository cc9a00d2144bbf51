/-
The specification types of github.com/drone/drone-runtime/engine that the
compiler fills in (/repo/yaml/compiler/*.go).  The dependency is not in /repo;
the fields are those the compiler and the transforms read or write.

Maps that may be nil (`Labels` of volumes and files) are `Option`; a write to a
nil map panics.  `Envs` of a compiled step is never nil.
-/
import Verif.Model.Cond

namespace Drone
namespace Engine

/-- `engine.Metadata`; `labels = none` is a nil map. -/
structure Metadata where
  uid : String := ""
  namespc : String := ""
  name : String := ""
  labels : Option (GoMap String) := none
  deriving DecidableEq, Repr, Inhabited

/-- `engine.PullPolicy` -/
inductive PullPolicy where
  | default | always | ifNotExists | never
  deriving DecidableEq, Repr, Inhabited

/-- `engine.Port` -/
structure Port where
  port : Int := 0
  host : Int := 0
  protocol : String := ""
  deriving DecidableEq, Repr, Inhabited

/-- `engine.ResourceObject` (millicores, bytes) -/
structure ResourceObject where
  cpu : Int := 0
  memory : Int := 0
  deriving DecidableEq, Repr, Inhabited

/-- `engine.Resources` -/
structure Resources where
  limits : Option ResourceObject := none
  requests : Option ResourceObject := none
  deriving DecidableEq, Repr, Inhabited

/-- `engine.FileMount` -/
structure FileMount where
  name : String := ""
  path : String := ""
  mode : Nat := 0
  deriving DecidableEq, Repr, Inhabited

/-- `engine.File` -/
structure File where
  md : Metadata := {}
  data : Bytes := []
  deriving DecidableEq, Repr, Inhabited

/-- `engine.SecretVar` -/
structure SecretVar where
  name : String := ""
  env : String := ""
  deriving DecidableEq, Repr, Inhabited

/-- `engine.Secret` -/
structure Secret where
  md : Metadata := {}
  data : String := ""
  deriving DecidableEq, Repr, Inhabited

/-- `engine.VolumeMount` -/
structure VolumeMount where
  name : String := ""
  path : String := ""
  deriving DecidableEq, Repr, Inhabited

/-- `engine.VolumeEmptyDir` -/
structure VolumeEmptyDir where
  medium : String := ""
  sizeLimit : Int := 0
  deriving DecidableEq, Repr, Inhabited

/-- `engine.Volume`; `hostPath` is the path of `engine.VolumeHostPath`. -/
structure Volume where
  md : Metadata := {}
  emptyDir : Option VolumeEmptyDir := none
  hostPath : Option String := none
  deriving DecidableEq, Repr, Inhabited

/-- `engine.DockerAuth` -/
structure DockerAuth where
  address : String := ""
  username : String := ""
  password : String := ""
  deriving DecidableEq, Repr, Inhabited

/-- `engine.DockerStep` -/
structure DockerStep where
  args : List String := []
  command : List String := []
  dns : List String := []
  dnsSearch : List String := []
  extraHosts : List String := []
  image : String := ""
  network : String := ""
  networks : List String := []
  ports : List Port := []
  privileged : Bool := false
  pullPolicy : PullPolicy := .default
  user : String := ""
  deriving DecidableEq, Repr, Inhabited

/-- `engine.Step` -/
structure Step where
  md : Metadata := {}
  detach : Bool := false
  dependsOn : List String := []
  docker : DockerStep := {}
  envs : GoMap String := []
  files : List FileMount := []
  ignoreErr : Bool := false
  resources : Option Resources := none
  runPolicy : RunPolicy := .onSuccess
  secrets : List SecretVar := []
  volumes : List VolumeMount := []
  workingDir : String := ""
  deriving DecidableEq, Repr, Inhabited

/-- `engine.Platform` -/
structure Platform where
  os : String := ""
  arch : String := ""
  variant : String := ""
  version : String := ""
  deriving DecidableEq, Repr, Inhabited

/-- `engine.Spec`; `auths` and `volumes` are the fields of `engine.DockerConfig`,
which is never nil in compiled specifications
(/repo/yaml/compiler/compiler.go:99). -/
structure Spec where
  md : Metadata := {}
  platform : Platform := {}
  secrets : List Secret := []
  steps : List Step := []
  files : List File := []
  auths : List DockerAuth := []
  volumes : List Volume := []
  deriving DecidableEq, Repr, Inhabited

end Engine
end Drone
