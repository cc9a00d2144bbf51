/-
What is left of a resource that was encoded as JSON and read again.
-/
import Verif.Model.ManifestJson

namespace Drone.Spec

/-- The number has 53 bits and is not too small: a finite IEEE 754 double, but for the largest
exponent. -/
def Float64 (q : Rat) : Prop := ∃ m e : Int, m.natAbs < 2 ^ 53 ∧ -1074 ≤ e ∧ q = m * F64.pow2 e

/-- The value `w` is `v` or in a list in `v`. -/
inductive In (w : Value) : Value → Prop
  | here : In w w
  | inside {xs : List Value} {v : Value} : v ∈ xs → In w v → In w (.seq xs)

mutual
/-- The value with all numbers as doubles. -/
def floats : Value → Value
  | .int i => .float (Json.toFloat i)
  | .float q => .float (Json.toFloat q)
  | .seq xs => .seq (floatsList xs)
  | v => v
def floatsList : List Value → List Value
  | [] => []
  | x :: xs => floats x :: floatsList xs
end

/-- A container: only settings change. -/
def jsonContainer (c : Container) : Container :=
  { c with settings := c.settings.map fun kv => (kv.1, kv.2.map fun p => { p with value := floats p.value }) }

/-- A resource: only pipelines change. -/
def jsonResource : Resource → Resource
  | .pipeline p => .pipeline { p with
      services := p.services.map (Option.map jsonContainer)
      steps := p.steps.map (Option.map jsonContainer) }
  | r => r

/-- A setting of the resource -/
def Setting (r : Resource) (k : String) (v : Parameter) : Prop :=
  ∃ p c, r = .pipeline p ∧ some c ∈ p.services ++ p.steps ∧ (k, some v) ∈ c.settings

/-- What is known of the comparison of keys up to case: it is an equivalence, and on ASCII it only
ignores case. -/
structure Folds (fold : String → String → Bool) : Prop where
  symm : ∀ a b, fold a b = true → fold b a = true
  trans : ∀ a b c, fold a b = true → fold b c = true → fold a c = true
  ascii : ∀ a b : String, (∀ c ∈ a.toList, c.toNat < 128) → (∀ c ∈ b.toList, c.toNat < 128) →
    (fold a b = true ↔ a.toList.map Char.toLower = b.toList.map Char.toLower)

end Drone.Spec
