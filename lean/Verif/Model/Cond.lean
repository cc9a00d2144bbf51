import Verif.Model.Types
/-
/repo/yaml/cond.go (matching), /repo/yaml/compiler/skip.go and the run policy of
/repo/yaml/compiler/convert.go.
-/
namespace Drone

/-- Glob matching, `doublestar.Match` (/repo/yaml/cond.go:17,59,70); a malformed
pattern counts as no match because the error is dropped.  A parameter. -/
abbrev Glob := String → String → Bool

/-- /repo/yaml/cond.go:57-64 -/
def Condition.includes (g : Glob) (c : Condition) (v : String) : Bool :=
  c.incl.any (fun p => g p v)

/-- /repo/yaml/cond.go:68-75 -/
def Condition.excludes (g : Glob) (c : Condition) (v : String) : Bool :=
  c.excl.any (fun p => g p v)

/-- /repo/yaml/cond.go:42-53 -/
def Condition.matches (g : Glob) (c : Condition) (v : String) : Bool :=
  if c.excludes g v then false
  else if c.includes g v then true
  else if c.incl.length = 0 then true
  else false

/-- /repo/yaml/compiler/skip.go:21-30 -/
structure SkipData where
  branch : String := ""
  cron : String := ""
  event : String := ""
  inst : String := ""
  ref : String := ""
  repo : String := ""
  target : String := ""
  action : String := ""

/-- /repo/yaml/compiler/skip.go:34-57 -/
def skipFunc (g : Glob) (d : SkipData) (c : Container) : Bool :=
  if !c.cond.branch.matches g d.branch then true
  else if !c.cond.cron.matches g d.cron then true
  else if !c.cond.event.matches g d.event then true
  else if !c.cond.inst.matches g d.inst then true
  else if !c.cond.ref.matches g d.ref then true
  else if !c.cond.repo.matches g d.repo then true
  else if !c.cond.target.matches g d.target then true
  else if !c.cond.action.matches g d.action then true
  else false

/-- `engine.RunPolicy` (drone-runtime/engine, used at
/repo/yaml/compiler/convert.go:57). -/
inductive RunPolicy where
  | onSuccess | onFailure | always | never
  deriving DecidableEq, Repr, Inhabited

/-- /repo/yaml/compiler/convert.go:57-70 -/
def toRunPolicy (g : Glob) (c : Container) : RunPolicy :=
  let onFailure := c.cond.status.matches g "failure" && decide (c.cond.status.incl.length > 0)
  let onSuccess := c.cond.status.matches g "success"
  if onFailure && onSuccess then .always
  else if onFailure then .onFailure
  else if onSuccess then .onSuccess
  else .never

end Drone
