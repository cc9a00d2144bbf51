/-
The converter of the build with the tag `oss`: /repo/yaml/converter/convert_oss.go.
-/
import Verif.Model.Cli

namespace Drone

/-- `Convert` (/repo/yaml/converter/convert_oss.go:21-23, with the build tag `oss`) -/
def convertOss (d : Bytes) (_m : Metadata) : Outcome Bytes := some (.ok d)

/-- `runConvert` (/repo/main.go:103-122) in the build with the tag `oss` -/
def Cli.runConvertOss (X : Cli.CliLib) (fl : Cli.Flags) (name : String) : Cli.Command :=
  Cli.withFile name fun d =>
  Cli.withResult (convertOss d { filename := name, url := fl.convertAddr }) fun b =>
    if fl.formatSave then Cli.writeFile X name b else Cli.toStderr b

end Drone
