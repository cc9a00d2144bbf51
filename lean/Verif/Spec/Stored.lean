/-
What is left of a resource that was encoded as YAML and read again.
-/
import Verif.Model.Types

namespace Drone.Spec

mutual
/-- The value with whole numbers of up to six digits as integers: 2.0 becomes 2. -/
def plainNumbers : Value → Value
  | .float q => if q.den = 1 ∧ q.num.natAbs < 1000000 then .int q.num else .float q
  | .seq xs => .seq (plainList xs)
  | .map kvs => .map (plainEntries kvs)
  | v => v
def plainList : List Value → List Value
  | [] => []
  | x :: xs => plainNumbers x :: plainList xs
def plainEntries : List (Value × Value) → List (Value × Value)
  | [] => []
  | (k, v) :: kvs => (plainNumbers k, plainNumbers v) :: plainEntries kvs
end

/-- A variable: nothing of an empty one, only the reference of one that names a secret. -/
def storedVariable (v : Variable) : Option Variable :=
  if v.secret ≠ "" then some { secret := v.secret } else if v.value ≠ "" then some v else none

/-- A setting: nothing of an empty one, only the reference of one that names a secret. -/
def storedParameter (p : Parameter) : Option Parameter :=
  if p.secret ≠ "" then some { secret := p.secret }
  else match p.value with
    | .null => none
    | .str "" => none
    | v => some { value := plainNumbers v }

/-- A container: the keys of variables and settings stay. -/
def storedContainer (c : Container) : Container :=
  { c with
    environment := c.environment.map fun kv => (kv.1, kv.2.bind storedVariable)
    settings := c.settings.map fun kv => (kv.1, kv.2.bind storedParameter) }

def storedPipeline (p : Pipeline) : Pipeline :=
  { p with
    services := p.services.map (Option.map storedContainer)
    steps := p.steps.map (Option.map storedContainer) }

/-- A resource: only pipelines change. -/
def storedResource : Resource → Resource
  | .pipeline p => .pipeline (storedPipeline p)
  | r => r

end Drone.Spec
