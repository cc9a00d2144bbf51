/- The containers a pipeline asks for, in order, independent of the compiler's
state: what the theorems about `Compile` quantify over. -/
import Verif.Model.Compile

namespace Drone
namespace Spec

/-- Where a compiled container comes from. -/
inductive Role where
  | clone | service | step
  deriving DecidableEq, Repr

/-- Image of the automatic clone step by platform. -/
def cloneImageOf (p : Platform) : String :=
  if p.os = "linux" then
    if p.arch = "arm" then "drone/git:linux-arm"
    else if p.arch = "arm64" then "drone/git:linux-arm64"
    else "drone/git"
  else if p.os = "windows" then
    if p.version ∈ ["1903", "1803", "1709"] then "drone/git:windows-" ++ p.version ++ "-amd64"
    else "drone/git:windows-1809-amd64"
  else "drone/git"

/-- The containers of a pipeline: the automatic clone step unless disabled, then
the services, then the steps. -/
def sources (p : Pipeline) : List (Role × Container) :=
  (if p.clone.disable then []
    else [(Role.clone, { name := "clone", image := cloneImageOf p.platform })]) ++
  (p.services.filterMap id).map (fun c => (Role.service, c)) ++
  (p.steps.filterMap id).map (fun c => (Role.step, c))

/-- Only steps with a build section are build steps (services are not). -/
def IsBuild (x : Role × Container) : Prop := x.1 = .step ∧ x.2.build.isSome = true

instance (x : Role × Container) : Decidable (IsBuild x) := by unfold IsBuild; infer_instance

end Spec

/-- The compiler uses the library's workspace functions (unset, or
`CreateHostWorkspace` and `MountHostWorkspace`). -/
def Compiler.Std (c : Compiler) : Prop :=
  (∀ f, c.workspace ≠ .custom f) ∧ (∀ f, c.mount ≠ .custom f)

end Drone
