import Mathlib.Logic.Relation
import Mathlib.Data.List.Nodup
/-
Named nodes with dependencies, independent of the model.
-/
namespace Drone.Spec

/-- A node of a dependency graph: a name and the names it depends on. -/
abbrev Node := String × List String

/-- `a` depends directly on `b`. -/
def Edge (ns : List Node) (a b : String) : Prop := ∃ n ∈ ns, n.1 = a ∧ b ∈ n.2

/-- No node reaches itself, by a chain of any length. -/
def Acyclic (ns : List Node) : Prop := ∀ a, ¬ Relation.TransGen (Edge ns) a a

/-- Every dependency names one of the roots or a node listed before. -/
def DepsEarlier (roots : List String) (ns : List Node) : Prop :=
  ∀ pre n post, ns = pre ++ n :: post → ∀ d ∈ n.2, d ∈ roots ∨ d ∈ pre.map Prod.fst

end Drone.Spec
