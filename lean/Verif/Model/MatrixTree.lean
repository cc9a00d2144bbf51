/-
Expansion of the build matrix of a legacy file, with the encoder of Model/Marshal and the decoder of
Model/Decode: only the text that the YAML library writes for a tree, and the tree it reads off a
text, are left open.
-/
import Verif.Model.Legacy
import Verif.Model.Marshal

namespace Drone
namespace Legacy
open Yaml

/-- `yaml.Marshal(&current)` (/repo/yaml/converter/legacy/internal/config.go:230) -/
def marshalPipeline (float : Rat → String) (emit : Node → String) (p : Drone.Pipeline) : Except String String :=
  .ok (emit (encPipeline float p))

/-- `yaml.Unmarshal([]byte(transformed), &current)`
(/repo/yaml/converter/legacy/internal/config.go:246): the pipeline is filled, not replaced. -/
def unmarshalPipeline (ram : String → Option Int) (tree : String → Except String Node) (text : String)
    (old : Drone.Pipeline) : Except String Drone.Pipeline :=
  (tree text).bind fun n =>
    let r := decPipeline ram n old
    if r.err then .error "yaml: unmarshal errors" else .ok r.val

/-- The libraries of the conversion with this encoder and decoder -/
def treeLegacy (X : LegacyLib) (ram : String → Option Int) (float : Rat → String) (emit : Node → String)
    (tree : String → Except String Node) : LegacyLib :=
  { X with marshal := marshalPipeline float emit, unmarshal := unmarshalPipeline ram tree }

end Legacy
end Drone
