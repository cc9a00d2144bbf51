/-
The command line program: /repo/main.go.

A command works on a `World` (files and what was written to the terminal).  Its result is
`none` for a panic, `some (.error e)` if the program reports an error.  Not modelled: parsing of
the command line (kingpin; a flag belongs to one command and is false under the others), errors
while reading a file, files written in part, and `log.Fatalln` for registries without password.
-/
import Verif.Model.Convert
import Verif.Model.Signer
import Verif.Model.Lint
import Verif.Model.Transform
import Verif.Model.Dind

namespace Drone
namespace Cli

/-- Files by name, and the two output streams. -/
structure World where
  files : GoMap Bytes := []
  stdout : Bytes := []
  stderr : Bytes := []

/-- A command. -/
abbrev Command := World → Outcome Unit × World

/-- What the commands need from outside. -/
structure CliLib where
  conv : ConvertLib
  sig : SigLib
  mac : Mac
  ext : Ext
  rnd : Nat → String
  /-- the JSON encoder -/
  json : Engine.Spec → Bytes
  /-- `os.Getenv` -/
  os : String → String
  /-- iteration order of the labels for the n-th resource, and of the proxy variables -/
  labelOrder : Nat → GoMap String → GoMap String
  proxyOrder : GoMap String → GoMap String
  /-- may the file be written -/
  writable : String → Bool

/-- Flags of the commands (/repo/main.go:42-67) -/
structure Flags where
  formatSave : Bool := false
  convertSave : Bool := false
  signSave : Bool := false
  lintPriv : Bool := false
  convertAddr : String := ""

/-- `ioutil.WriteFile` -/
def writeFile (X : CliLib) (name : String) (data : Bytes) : Command := fun w =>
  if X.writable name then (some (.ok ()), { w with files := w.files.set name data })
  else (some (.error "permission denied"), w)

/-- `io.Copy(os.Stderr, ...)` -/
def toStderr (data : Bytes) : Command := fun w => (some (.ok ()), { w with stderr := w.stderr ++ data })

/-- `fmt.Println` -/
def println (data : Bytes) : Command := fun w => (some (.ok ()), { w with stdout := w.stdout ++ data ++ [10] })

/-- A command that fails before it does anything. -/
def fail (e : String) : Command := fun w => (some (.error e), w)

/-- A panic. -/
def panics : Command := fun w => (none, w)

/-- The file argument (kingpin opens it) and its content. -/
def withFile (name : String) (k : Bytes → Command) : Command := fun w =>
  match w.files.get? name with
  | none => (some (.error "no such file"), w)
  | some d => k d w

/-- Continue with the result of a computation that leaves the world alone. -/
def withResult {α : Type} (o : Outcome α) (k : α → Command) : Command :=
  match o with
  | none => panics
  | some (.error e) => fail e
  | some (.ok a) => k a

/-- `runFormat` (/repo/main.go:86-101) -/
def runFormat (X : CliLib) (fl : Flags) (name : String) : Command :=
  withFile name fun d => withResult (some (parseReader X.sig.toYamlLib { data := d })) fun m =>
  withResult ((Pretty.print X.conv.pretty m).map .ok) fun b =>
    if fl.formatSave then writeFile X name b else toStderr b

/-- `runConvert` (/repo/main.go:103-122); line 117 asks for the flag of another command -/
def runConvert (X : CliLib) (fl : Flags) (name : String) : Command :=
  withFile name fun d =>
  withResult (Drone.convert X.conv d { filename := name, url := fl.convertAddr }) fun b =>
    if fl.formatSave then writeFile X name b else toStderr b

/-- The loop at /repo/main.go:130-135 -/
def lintLoop (trusted : Bool) : List Resource → Outcome Unit
  | [] => some (.ok ())
  | r :: rs => match lint r trusted with
    | .error .panic => none
    | .error (.err e) => some (.error e)
    | .ok () => lintLoop trusted rs

/-- `runLint` (/repo/main.go:124-137) -/
def runLint (X : CliLib) (fl : Flags) (name : String) : Command :=
  withFile name fun d => withResult (some (parseReader X.sig.toYamlLib { data := d })) fun m =>
  withResult (lintLoop fl.lintPriv m.resources) fun _ w => (some (.ok ()), w)

/-- `runSign` (/repo/main.go:139-162) -/
def runSign (X : CliLib) (fl : Flags) (key name : String) : Command :=
  withFile name fun d =>
    if fl.signSave then withResult (some (signUpdate X.sig X.mac d (utf8 key))) fun out => writeFile X name out
    else withResult (some (sign X.sig X.mac d (utf8 key))) fun hmac => println hmac

/-- `runVerify` (/repo/main.go:164-181) -/
def runVerify (X : CliLib) (key name : String) : Command :=
  withFile name fun d => withResult (some (verify X.sig X.mac d (utf8 key))) fun ok =>
    if ok then println (utf8 "success: yaml signature verified")
    else fail "cannot verify yaml signature"

/-- Flags of the compile command (/repo/main.go:183-207); maps are in iteration order -/
structure CompileFlags where
  name : String := ""
  clone : Bool := false
  labels : GoMap String := []
  volume : GoMap String := []
  network : List String := []
  environ : GoMap String := []
  dind : List String := ["plugins/docker"]
  event : String := ""
  repo : String := ""
  remote : String := ""
  branch : String := ""
  ref : String := ""
  sha : String := ""
  creds : List String := []
  cron : String := ""
  instance_ : String := ""
  deploy : String := ""
  secrets : GoMap String := []
  auths : List Engine.DockerAuth := []
  username : String := ""
  password : String := ""
  machine : String := ""
  memlimit : Int := 0

/-- The loop at /repo/main.go:215-226 -/
def findPipeline (name : String) : List Resource → Option Pipeline
  | [] => none
  | .pipeline p :: rs => if name = "" ∨ name = p.name then some p else findPipeline name rs
  | _ :: rs => findPipeline name rs

/-- /repo/main.go:235-237 -/
def disableClone (clone : Bool) (p : Pipeline) : Pipeline :=
  if clone = false then { p with clone := { p.clone with disable := true } } else p

/-- `defaultCreds` (/repo/main.go:312-323) -/
def defaultCreds (urls : List String) : Bytes := urls.flatMap fun u => utf8 u ++ [10]

/-- `defaultEnvs` (/repo/main.go:328-339) -/
def defaultEnvs (fl : CompileFlags) : GoMap String :=
  let envs := GoMap.set [] "DRONE_COMMIT_BRANCH" fl.branch
  let envs := GoMap.set envs "DRONE_COMMIT_SHA" fl.sha
  let envs := GoMap.set envs "DRONE_COMMIT_REF" fl.ref
  let envs := GoMap.set envs "DRONE_REMOTE_URL" fl.remote
  let envs := GoMap.set envs "DRONE_BUILD_EVENT" fl.event
  if "refs/tags/".toList <+: fl.ref.toList then
    GoMap.set envs "DRONE_TAG" (Bitbucket.trimPrefix "refs/tags/" fl.ref)
  else envs

/-- The compiler set up at /repo/main.go:255-269, without the transforms -/
def compilerFor (X : CliLib) (fl : CompileFlags) : Compiler where
  gitCredentials := some (defaultCreds fl.creds)
  privileged := some (dindFunc X.ext.dg fl.dind)
  skip := some (skipFunc X.ext.glob
    { branch := fl.branch, cron := fl.cron, event := fl.event, inst := fl.instance_, ref := fl.ref,
      repo := fl.repo, target := fl.deploy })

/-- The transforms (/repo/main.go:270-281) -/
def transforms (X : CliLib) (fl : CompileFlags) : List Transform.Transform :=
  [Transform.withAuths fl.auths,
   Transform.withEnviron fl.environ,
   Transform.withEnviron (defaultEnvs fl),
   Transform.withLables (fun n => X.labelOrder n fl.labels),
   Transform.withLimits fl.memlimit 0,
   Transform.withNetrc fl.machine fl.username fl.password,
   Transform.withNetworks fl.network,
   Transform.withProxy X.os X.proxyOrder,
   Transform.withSecrets X.rnd fl.secrets,
   Transform.withVolumes X.rnd fl.volume]

/-- Compilation and transforms (/repo/main.go:255-282) -/
def compileWith (X : CliLib) (fl : CompileFlags) (p : Pipeline) : Option Engine.Spec :=
  (compileCore X.ext (compilerFor X fl) X.rnd p).bind fun st =>
    (Transform.combine (transforms X fl) st).map (·.spec)

/-- The message at /repo/main.go:229 -/
def errNoPipeline : String := "cannot find pipeline resource"

/-- The specification the compile command prints (/repo/main.go:209-282) for a manifest -/
def compileManifest (X : CliLib) (fl : CompileFlags) (m : Manifest) : Outcome Engine.Spec :=
  match findPipeline fl.name m.resources with
  | none => some (.error errNoPipeline)
  | some p => (compileWith X fl (disableClone fl.clone p)).map .ok

/-- `runCompile` (/repo/main.go:209-308) -/
def runCompile (X : CliLib) (fl : CompileFlags) (name : String) : Command :=
  withFile name fun d => withResult (some (parseReader X.sig.toYamlLib { data := d })) fun m =>
  withResult (compileManifest X fl m) fun spec w =>
    (some (.ok ()), { w with stdout := w.stdout ++ X.json spec })

end Cli
end Drone
