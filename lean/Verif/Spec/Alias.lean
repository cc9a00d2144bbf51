/-
What a YAML document with anchors, aliases and merge keys stands for, stated without reference to
the order in which a decoder follows them.
-/
import Verif.Model.Alias

namespace Drone.Spec
open Drone.Yaml

variable (anchors : List (String × ANode))

mutual
/-- The node stands for the tree.  A node that contains itself stands for none, since there is no
finite derivation. -/
inductive Denotes : ANode → Node → Prop where
  | null : Denotes .null .null
  | scalar (t : String) (r : Scalar) : Denotes (.scalar t r) (.scalar t r)
  | mark : Denotes .mark (.scalar "<<" .str)
  | seq {xs : List ANode} {ns : List Node} : DenotesList xs ns → Denotes (.seq xs) (.seq ns)
  | map {es : List (ANode × ANode)} {kvs : List (Node × Node)} :
    DenotesEntries es kvs → Denotes (.map es) (.map kvs)
  | ref {x : String} {a : ANode} {n : Node} : anchors.lookup x = some a → Denotes a n → Denotes (.ref x) n
/-- One by one. -/
inductive DenotesList : List ANode → List Node → Prop where
  | nil : DenotesList [] []
  | cons {x : ANode} {xs : List ANode} {n : Node} {ns : List Node} :
    Denotes x n → DenotesList xs ns → DenotesList (x :: xs) (n :: ns)
/-- The entries, with those of merged maps in the place of the merge key. -/
inductive DenotesEntries : List (ANode × ANode) → List (Node × Node) → Prop where
  | nil : DenotesEntries [] []
  | pair {k v : ANode} {es : List (ANode × ANode)} {k' v' : Node} {b : List (Node × Node)} :
    k ≠ .mark → Denotes k k' → Denotes v v' → DenotesEntries es b → DenotesEntries ((k, v) :: es) ((k', v') :: b)
  | merge {v : ANode} {es : List (ANode × ANode)} {a b : List (Node × Node)} :
    Denotes v (.map a) → DenotesEntries es b → DenotesEntries ((.mark, v) :: es) (a ++ b)
  | mergeList {xs : List ANode} {es : List (ANode × ANode)} {as : List (List (Node × Node))} {b : List (Node × Node)} :
    DenotesMaps xs as → DenotesEntries es b →
      DenotesEntries ((.mark, .seq xs) :: es) (as.reverse.flatten ++ b)
/-- A list of maps. -/
inductive DenotesMaps : List ANode → List (List (Node × Node)) → Prop where
  | nil : DenotesMaps [] []
  | cons {x : ANode} {xs : List ANode} {a : List (Node × Node)} {as : List (List (Node × Node))} :
    Denotes x (.map a) → DenotesMaps xs as → DenotesMaps (x :: xs) (a :: as)
end

end Drone.Spec
