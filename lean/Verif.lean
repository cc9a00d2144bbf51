import Verif.Props.Parse
import Verif.Props.Signer
import Verif.Props.Cond
import Verif.Props.Lint
import Verif.Props.Image
import Verif.Props.Rand
import Verif.Props.Compile
import Verif.Props.Volumes
import Verif.Props.Envs
import Verif.Props.Rename
import Verif.Props.Files
import Verif.Props.Script
import Verif.Props.Path
import Verif.Props.Transform
import Verif.Props.Pretty
import Verif.Props.PrettyOrder
import Verif.Props.PrettyNil
import Verif.Props.Quote
import Verif.Props.Matrix
import Verif.Props.Convert
import Verif.Props.Legacy
import Verif.Props.Trigger
import Verif.Props.LegacySteps
import Verif.Props.LegacyOrder
import Verif.Props.Foreign
import Verif.Props.Cli
import Verif.Props.DecodeConvert
import Verif.Props.ReadBack
import Verif.Props.Attr
import Verif.Spec.ImageName
import Verif.Proof.ImageName
import Verif.Props.ImageName
import Verif.Model.Glob
import Verif.Spec.Glob
import Verif.Proof.Glob
import Verif.Props.Glob
import Verif.Model.Units
import Verif.Spec.Units
import Verif.Proof.Units
import Verif.Props.Units
import Verif.Model.Encode
import Verif.Spec.Json
import Verif.Proof.Encode
import Verif.Props.Encode
import Verif.Proof.Alike
import Verif.Proof.Resettle
import Verif.Props.Settle
import Verif.Props.Effect
import Verif.Props.Exact
import Verif.Model.SignTree
import Verif.Props.Resign
import Verif.Model.Marshal
import Verif.Spec.Stored
import Verif.Proof.Marshal
import Verif.Props.Stored
import Verif.Model.MatrixTree
import Verif.Spec.Fill
import Verif.Proof.Fill
import Verif.Props.MatrixTree
import Verif.Model.ManifestJson
import Verif.Spec.ManifestJson
import Verif.Proof.ManifestJson
import Verif.Props.ManifestJson
import Verif.Props.ConvertRun
import Verif.Props.LegacyPlace
import Verif.Props.LegacyRun
import Verif.Props.Formatted
import Verif.Props.ServiceName
import Verif.Props.Schedule
import Verif.Props.Crash
import Verif.Props.ForeignKeys
import Verif.Props.Scalars
import Verif.Props.LegacyLint
import Verif.Props.LongLines
import Verif.Props.MatrixRun
import Verif.Props.JsonShape
import Verif.Props.Resolved
import Verif.Props.TransformOrder
import Verif.Props.YamlForm
import Verif.Props.ForeignForm
import Verif.Props.Scanner
import Verif.Props.PathMatch
import Verif.Props.Shell
import Verif.Props.Power
import Verif.Props.Readable
import Verif.Props.BlockText
import Verif.Props.MatrixText
import Verif.Props.Local
import Verif.Props.Slices
import Verif.Props.Hmac
import Verif.Props.FloatText
import Verif.Props.FloatUse
import Verif.Props.Message
import Verif.Props.MessageCli
import Verif.Props.Limits
import Verif.Props.Alias
import Verif.Props.Merge
import Verif.Props.JsonText
import Verif.Props.Edits
import Verif.Props.ScriptText
import Verif.Props.Unseen
import Verif.Props.Regroup
import Verif.Props.Confine
import Verif.Props.Builds
import Verif.Props.Seen
import Verif.Props.Unlinted
import Verif.Props.Sealed
import Verif.Props.Renamed
import Verif.Props.StepNames
import Verif.Props.VolumeNames
