/-
Running the nodes of a dependency graph, independent of the model: a node may start when all its
dependencies are finished.
-/
import Verif.Spec.Graph

namespace Drone.Spec

/-- The node may start when the nodes `done` are finished. -/
def Ready (ns : List Node) (done : List String) (n : Node) : Prop :=
  n ∈ ns ∧ n.1 ∉ done ∧ ∀ d ∈ n.2, d ∈ done

/-- An order in which nodes may finish; it need not be complete. -/
inductive Schedule (ns : List Node) : List String → Prop
  | start : Schedule ns []
  | next (r : List String) (n : Node) : Schedule ns r → Ready ns r n → Schedule ns (r ++ [n.1])

/-- All nodes are finished. -/
def Finished (ns : List Node) (r : List String) : Prop := ∀ n ∈ ns, n.1 ∈ r

/-- However far a run has come, it is finished or some node may start. -/
def NeverStuck (ns : List Node) : Prop :=
  ∀ r, Schedule ns r → Finished ns r ∨ ∃ n, Ready ns r n

/-- Every dependency names a node. -/
def Closed (ns : List Node) : Prop := ∀ n ∈ ns, ∀ d ∈ n.2, d ∈ ns.map Prod.fst

end Drone.Spec
