/-
Vocabulary for statements about decoded YAML trees: what a mapping says about a key, and what a
list of scalars contains.
-/
import Verif.Model.Node

namespace Drone
namespace Spec
open Yaml

/-- A plain key. -/
def key (k : String) : Node := .scalar k .str

/-- A mapping with one entry. -/
def single (k : String) (v : Node) : Node := .map [(key k, v)]

/-- The text of a node as a key or a string; null is the empty text. -/
def textOf : Node → Option String
  | .null => some ""
  | .scalar t _ => some t
  | _ => none

/-- The values a mapping gives for a key, in order. -/
def valuesOf (kvs : List (Node × Node)) (k : String) : List Node :=
  (kvs.filter fun kv => decide (textOf kv.1 = some k)).map Prod.snd

/-- Filling a value with one node after the other. -/
def fill {α : Type} (d : Dec α) (old : α) (vs : List Node) : α := vs.foldl (fun a v => (d v a).val) old

/-- The keys of a mapping are texts and differ. -/
def DistinctKeys (kvs : List (Node × Node)) : Prop :=
  (∀ kv ∈ kvs, textOf kv.1 ≠ none) ∧ (kvs.map fun kv => textOf kv.1).Nodup

/-- A list whose elements are scalars with these texts. -/
def scalars : List (String × Scalar) → List Node
  | l => l.map fun p => .scalar p.1 p.2

/-- The patterns a scalar or a list names. -/
def listed : Node → List String
  | .scalar t _ => [t]
  | .seq xs => xs.filterMap textOf
  | _ => []

/-- What a condition says: a scalar or list is what is included, a mapping says it under `include`
and `exclude`. -/
def meant : Node → Condition
  | .map kvs => { incl := (valuesOf kvs "include").flatMap listed, excl := (valuesOf kvs "exclude").flatMap listed }
  | n => { incl := listed n }

/-- `include` and `exclude` are given at most once. -/
def OnceEach (n : Node) : Prop := ∀ kvs, n = .map kvs →
  (valuesOf kvs "include").length ≤ 1 ∧ (valuesOf kvs "exclude").length ≤ 1

/-- The node has no list or mapping inside a list. -/
def FlatList (n : Node) : Prop := ∀ xs, n = .seq xs → ∀ x ∈ xs, textOf x ≠ none

end Spec
end Drone
