/-
Anchors, aliases and merge keys of YAML, as github.com/buildkite/yaml (yaml.v2) decodes them when
/repo/yaml/parse.go:94 calls it.  The library is not part of /repo and not in the sandbox: this
file states what it is trusted to do, as Model/Node.lean does for trees without aliases.

Not modelled: anchors that are defined twice in a document, or used before they are defined
(versions of the library differ on them); aliases under keys that no decoder looks at, where the
library notices neither unknown anchors nor wrong merges; merge keys in a `yaml.MapSlice`.
-/
import Verif.Model.Decode

namespace Drone
namespace Yaml

/-- A node of a document before aliases are followed.  `mark` is the plain scalar `<<`, which is a
merge key where it is the key of a map, and a string elsewhere (`isMerge` in the library looks at
the key only and not at what an alias stands for). -/
inductive ANode where
  | null
  | scalar (text : String) (r : Scalar)
  | mark
  | seq (xs : List ANode)
  | map (es : List (ANode × ANode))
  | ref (name : String)
  deriving Inhabited, Repr

/-- A merge key wants a map. -/
def asEntries : Node → Option (List (Node × Node))
  | .map kvs => some kvs
  | _ => none

mutual
/-- What the decoders see of a node, given what they see of the aliases in it (/repo/yaml/parse.go:94,
`decoder.unmarshal` in the library). -/
def expand (look : String → Option Node) : ANode → Option Node
  | .null => some .null
  | .scalar t r => some (.scalar t r)
  | .mark => some (.scalar "<<" .str)
  | .seq xs => (expandList look xs).map .seq
  | .map es => (expandEntries look es).map .map
  | .ref x => look x
/-- The elements of a list (/repo/yaml/parse.go:94, `decoder.sequence`). -/
def expandList (look : String → Option Node) : List ANode → Option (List Node)
  | [] => some []
  | x :: xs => (expand look x).bind fun n => (expandList look xs).map fun ns => n :: ns
/-- The entries of a map: those of a merged map are decoded at the place of the merge key
(/repo/yaml/parse.go:94, `decoder.mapping` and `decoder.mappingStruct`). -/
def expandEntries (look : String → Option Node) : List (ANode × ANode) → Option (List (Node × Node))
  | [] => some []
  | (.mark, v) :: es => (merged look v).bind fun a => (expandEntries look es).map fun b => a ++ b
  | (k, v) :: es =>
    (expand look k).bind fun k => (expand look v).bind fun v => (expandEntries look es).map fun b => (k, v) :: b
/-- The value of a merge key: a map, an alias of one or a list of these (/repo/yaml/parse.go:94,
`decoder.merge`). -/
def merged (look : String → Option Node) : ANode → Option (List (Node × Node))
  | .map es => expandEntries look es
  | .ref x => (look x).bind asEntries
  | .seq xs => mergedList look xs
  | _ => none
/-- The maps of a list are decoded from the last to the first (/repo/yaml/parse.go:94,
`decoder.merge`). -/
def mergedList (look : String → Option Node) : List ANode → Option (List (Node × Node))
  | [] => some []
  | .map es :: xs => (mergedList look xs).bind fun b => (expandEntries look es).map fun a => b ++ a
  | .ref x :: xs => (mergedList look xs).bind fun b => ((look x).bind asEntries).map fun a => b ++ a
  | _ :: _ => none
end

/-- An alias: its anchor must be known, and none of the aliases that are being followed; these are
`seen` (/repo/yaml/parse.go:94, `decoder.alias` in the library).  The number is at least that of
the anchors not in `seen`; it makes the recursion evidently finite. -/
def follow (anchors : List (String × ANode)) : Nat → List String → String → Option Node
  | 0, _, _ => none
  | n + 1, seen, x =>
    if x ∈ seen then none
    else (anchors.lookup x).bind fun a => expand (follow anchors n (x :: seen)) a

/-- What the decoders see of a document (/repo/yaml/parse.go:94). -/
def expandDoc (anchors : List (String × ANode)) (t : ANode) : Option Node :=
  expand (follow anchors (anchors.length + 1) []) t

/-- `yaml.Unmarshal(data, obj)` (/repo/yaml/parse.go:94) of a document with anchors; a wrong alias
or merge key is an error. -/
def unmarshalAliased (ram : String → Option Int) (t : ResType) (anchors : List (String × ANode)) (doc : ANode) :
    Except String Resource :=
  match expandDoc anchors doc with
  | none => .error "yaml: alias"
  | some n => unmarshalResource ram t n

end Yaml
end Drone
