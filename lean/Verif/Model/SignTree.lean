/-
The libraries of the signer on top of the decoders of Model/Decode.lean.
-/
import Verif.Model.Signer
import Verif.Model.Decode

namespace Drone
namespace Yaml

/-- The library of the signer with a parser for the text: `extract` decodes a document into
`yaml.Signature` (/repo/yaml/signer/signer.go:104-109). -/
def treeSig (ram : String → Option Int) (tree : Bytes → Except String Node) : SigLib where
  toYamlLib := treeLib ram tree
  sigHmac d := (tree d).bind fun n => (unmarshalDoc {} signatureField n).map (·.hmac)

end Yaml
end Drone
