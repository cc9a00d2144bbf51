/- /repo/yaml/compiler/dind.go -/
import Verif.Model.Image

namespace Drone

/-- `DindFunc` (/repo/yaml/compiler/dind.go:26-51). -/
def dindFunc (dg : Img.DigestLib) (images : List String) (c : Container) : Bool :=
  if c.commands.length > 0 then false
  else if c.command.length > 0 then false
  else if c.entrypoint.length > 0 then false
  else images.any fun img => Img.matchName dg img [c.image]

end Drone
