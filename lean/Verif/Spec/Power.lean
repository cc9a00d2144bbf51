import Verif.Props.Script
/-
PowerShell, as far as the generated scripts need it; independent of the model of the compiler.

A script is read as a whole before anything of it is run: `parse` cuts it into statements at semicolons and
line ends outside of quotes, brackets and comments, and refuses quotes and brackets that stay open.  Not
described: expressions inside double quotes, quotes inside here-strings, line ends behind a pipe, and the
syntax of single statements.  Described are the statements that the generated scripts consist of; what any
other statement does is up to `Commands.run`.
-/
namespace Drone.Spec.Power

abbrev Text := List Char

/-! ### Statements -/

/-- PowerShell treats these as double quotes. -/
def psDouble (c : Char) : Prop := c = '"' ∨ c = '“' ∨ c = '”' ∨ c = '„'

instance (c : Char) : Decidable (psDouble c) := by unfold psDouble; infer_instance

/-- Where the next character stands: in code, behind a backquote in code, in a string, behind a backquote in a
string, in a comment up to the end of the line, in a comment up to `#>` -/
inductive Mode where
  | code | tick | single | double | dtick | comment | block
  deriving DecidableEq

structure Reading where
  mode : Mode := .code
  /-- open brackets -/
  depth : Nat := 0
  /-- a bracket was closed that was not open -/
  bad : Bool := false
  /-- the last character -/
  prev : Char := '\n'
  /-- the statement being read -/
  cur : Text := []
  /-- the statements before it -/
  before : List Text := []
  deriving DecidableEq

/-- The statement ends. -/
def Reading.finish (r : Reading) : Reading :=
  if r.cur = [] then r else { r with cur := [], before := r.before ++ [r.cur] }

/-- A number sign behind these begins a comment. -/
def startsToken (c : Char) : Bool := c ∈ [' ', '\t', '\n', '\r', ';', '(', ')', '{', '}', '|', '&', ',']

/-- One character of code -/
def readCode (r : Reading) (c : Char) : Reading :=
  if psQuote c then { r with mode := .single, cur := r.cur ++ [c] }
  else if psDouble c then { r with mode := .double, cur := r.cur ++ [c] }
  else if c = '`' then { r with mode := .tick, cur := r.cur ++ [c] }
  else if c = '#' ∧ r.prev = '<' then { r with mode := .block, cur := r.cur ++ [c] }
  else if c = '#' ∧ startsToken r.prev then { r with mode := .comment }
  else if c = '(' ∨ c = '{' then { r with depth := r.depth + 1, cur := r.cur ++ [c] }
  else if c = ')' ∨ c = '}' then { r with depth := r.depth - 1, bad := r.bad || r.depth = 0, cur := r.cur ++ [c] }
  else if (c = ';' ∨ c = '\n') ∧ r.depth = 0 then r.finish
  else if (c = ' ' ∨ c = '\t' ∨ c = '\r') ∧ r.cur = [] then r
  else { r with cur := r.cur ++ [c] }

/-- One character -/
def scan (r : Reading) (c : Char) : Reading :=
  let s : Reading := match r.mode with
    | .code => readCode r c
    | .tick => { r with mode := .code, cur := r.cur ++ [c] }
    | .single => { r with mode := if psQuote c then .code else .single, cur := r.cur ++ [c] }
    | .double => { r with mode := if psDouble c then .code else if c = '`' then .dtick else .double, cur := r.cur ++ [c] }
    | .dtick => { r with mode := .double, cur := r.cur ++ [c] }
    | .comment => if c = '\n' then readCode { r with mode := .code } c else r
    | .block => { r with mode := if c = '>' ∧ r.prev = '#' then .code else .block, cur := r.cur ++ [c] }
  { s with prev := c }

/-- Nothing is open. -/
def Reading.closed (r : Reading) : Bool := r.mode = .code && r.depth = 0 && !r.bad

/-- The statements of a script, if it can be read -/
def parse (l : Text) : Option (List Text) :=
  let r := l.foldl scan {}
  if r.closed ∨ (r.mode = .comment ∧ r.depth = 0 ∧ r.bad = false) then some r.finish.before else none

/-! ### Running -/

/-- The state of PowerShell -/
structure State (ω : Type) where
  /-- the variables of the environment -/
  env : String → Option String
  /-- `$ErrorActionPreference` is `Stop` -/
  stop : Bool := false
  /-- `$LASTEXITCODE`, which may have no value -/
  last : Option Int := some 0
  out : Text := []
  files : String → Option String := fun _ => none
  /-- everything else -/
  world : ω

/-- What is not described here -/
structure Commands (ω : Type) where
  /-- any other statement: the state after it, and the exit status if it ends the script -/
  run : Text → State ω → State ω × Option Int
  /-- `Join-Path` -/
  join : String → String → String

/-- The value of a variable, empty if it is not set -/
def State.get {ω : Type} (s : State ω) (name : String) : String := (s.env name).getD ""

/-- A file is written. -/
def State.write {ω : Type} (s : State ω) (path text : String) : State ω :=
  { s with files := fun p => if p = path then some text else s.files p }

/-- What stands between two texts -/
def between (a b l : Text) : Option Text :=
  if a <+: l ∧ b <:+ l ∧ a.length + b.length ≤ l.length then some ((l.drop a.length).take (l.length - (a.length + b.length))) else none

/-- A text up to the first place where another one begins, and what is behind that -/
def cut (sep : Text) : Text → Option (Text × Text)
  | [] => if sep = [] then some ([], []) else none
  | c :: r => if sep <+: c :: r then some ([], (c :: r).drop sep.length) else (cut sep r).map fun q => (c :: q.1, q.2)

/-- A character of a variable name -/
def nameChar (c : Char) : Bool := c.isAlphanum || c = '_'

/-- Expansion of `$Env:NAME`; `some` name while a name is being read.  Other dollar signs are not expanded. -/
def expandFrom (env : String → Option String) : Option Text → Text → Text
  | some n, c :: r =>
    if nameChar c then expandFrom env (some (n ++ [c])) r else ((env (String.ofList n)).getD "").toList ++ c :: expandFrom env none r
  | some n, [] => ((env (String.ofList n)).getD "").toList
  | none, '$' :: 'E' :: 'n' :: 'v' :: ':' :: r => expandFrom env (some []) r
  | none, c :: r => c :: expandFrom env none r
  | none, [] => []

/-- `[Environment]::SetEnvironmentVariable("X", $null)` -/
def unsetOf (l : Text) : Option Text := between "[Environment]::SetEnvironmentVariable(\"".toList "\", $null)".toList l

/-- The text of `Write-Output ('text')` -/
def outputOf (l : Text) : Option Text :=
  (between "Write-Output ('".toList [] l).bind fun body => (squote body).bind fun q => if q.2 = ")".toList then some q.1 else none

/-- `if ($Env:X) {`, a here-string `> (Join-Path $Env:Y 'name');`, `}`: X, the text, Y and the name -/
def writeOf (l : Text) : Option (Text × Text × Text × Text) :=
  (between "if ($Env:".toList [] l).bind fun l =>
  (cut ") {\n@\"\n".toList l).bind fun q1 =>
  (cut "\n\"@ > (Join-Path $Env:".toList q1.2).bind fun q2 =>
  (cut " '".toList q2.2).bind fun q3 =>
  (cut "');\n}".toList q3.2).bind fun q4 =>
  if q4.2 = [] then some (q1.1, q2.1, q3.1, q4.1) else none

variable {ω : Type}

/-- One statement: the state after it, and the exit status if it ends the script.  Without a value
`$LASTEXITCODE -ne 0` is true, and `exit` without a value is `exit 0`. -/
def exec (C : Commands ω) (l : Text) (s : State ω) : State ω × Option Int :=
  if l = "$ErrorActionPreference = 'Stop'".toList then ({ s with stop := true }, none)
  else if l = "if ($LASTEXITCODE -ne 0) {exit $LASTEXITCODE}".toList then
    (s, if s.last = some 0 then none else some (s.last.getD 0))
  else
    match unsetOf l with
    | some n => ({ s with env := fun x => if x = String.ofList n then none else s.env x }, none)
    | none =>
      match outputOf l with
      | some t => ({ s with out := s.out ++ t ++ ['\n'] }, none)
      | none =>
        match writeOf l with
        | some (x, text, dir, name) =>
          if s.get (String.ofList x) = "" then (s, none)
          else (s.write (C.join (s.get (String.ofList dir)) (String.ofList name)) (String.ofList (expandFrom s.env none text ++ ['\n'])), none)
        | none => C.run l s

/-- Statement by statement, until one ends the script -/
def execAll (C : Commands ω) : List Text → State ω → State ω × Option Int
  | [], s => (s, none)
  | l :: ls, s =>
    match exec C l s with
    | (s, some n) => (s, some n)
    | (s, none) => execAll C ls s

/-- `powershell`: nothing if the script cannot be read; otherwise the state at the end, and the exit status if
the script was ended by a statement -/
def powershell (C : Commands ω) (script : String) (s : State ω) : Option (State ω × Option Int) :=
  (parse script.toList).map fun ls => execAll C ls s

/-! ### What a step is meant to do -/

/-- The variables that commands do not see -/
def hiddenVars : List String :=
  ["CI_NETRC_USERNAME", "CI_NETRC_PASSWORD", "DRONE_NETRC_USERNAME", "DRONE_NETRC_PASSWORD", "CI_SCRIPT"]

/-- The text of `_netrc` -/
def netrc (s : State ω) : String :=
  "machine " ++ s.get "CI_NETRC_MACHINE" ++ "\nlogin " ++ s.get "CI_NETRC_USERNAME" ++ "\npassword " ++ s.get "CI_NETRC_PASSWORD" ++ "\n"

/-- The state before the first command -/
def prepared (C : Commands ω) (s : State ω) : State ω :=
  { s with
    env := fun x => if x ∈ hiddenVars then none else s.env x
    stop := true
    files := if s.get "CI_NETRC_MACHINE" = "" then s.files
      else fun p => if p = C.join (s.get "USERPROFILE") "_netrc" then some (netrc s) else s.files p }

/-- The statements of a command behind the call operator; nothing if something in it is left open -/
def statements (c : String) : Option (List Text) :=
  let r := ("& ".toList ++ c.toList).foldl scan {}
  if r.closed then some r.finish.before else none

/-- The commands one after the other, each announced by its text, until one ends the script or leaves an exit
code that is not zero -/
def perform (C : Commands ω) (shown : String → Text) : List String → State ω → State ω × Option Int
  | [], s => (s, none)
  | c :: cs, s =>
    match execAll C ((statements c).getD []) { s with out := s.out ++ ("+ ".toList ++ shown c ++ ['\n']) } with
    | (s, some n) => (s, some n)
    | (s, none) => if s.last = some 0 then perform C shown cs s else (s, some (s.last.getD 0))

/-- A text with single quotes in pairs, with one of each pair -/
def unpair : Text → Text
  | [] => []
  | [c] => [c]
  | c :: d :: r => if psQuote c then d :: unpair r else c :: unpair (d :: r)

/-- Single quotes come in pairs. -/
inductive Paired : Text → Prop
  | nil : Paired []
  | skip {c l} : ¬ psQuote c → Paired l → Paired (c :: l)
  | pair {c d l} : psQuote c → psQuote d → Paired l → Paired (c :: d :: l)

/-- Neither a quote nor a backquote nor a number sign -/
def PlainChar (c : Char) : Prop := ¬ psQuote c ∧ ¬ psDouble c ∧ c ≠ '`' ∧ c ≠ '#'

instance (c : Char) : Decidable (PlainChar c) := by unfold PlainChar; infer_instance

/-- No statement ends the script by itself or takes the value of `$LASTEXITCODE` away. -/
def Obedient (C : Commands ω) : Prop := ∀ l s, s.last ≠ none → (C.run l s).1.last ≠ none ∧ (C.run l s).2 = none

end Drone.Spec.Power
