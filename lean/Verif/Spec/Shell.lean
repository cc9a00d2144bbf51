import Verif.Props.Script
/-
A POSIX shell that reads a script line by line, as far as the generated scripts need it; independent of
the model of the compiler.

Described: blank lines, `if [ -n "$X" ]; then` … `fi` (not nested), `cat <<EOF > word` with its text,
`unset X`, `set -e`, `chmod 0600 word`, and `echo + "word"` if nothing in the word is expanded.  What any
other line does is up to `Commands.run`; such a line is taken to be a complete command.  Words are not
split: for `chmod`, HOME is taken to have no blanks.
-/
namespace Drone.Spec.Shell

abbrev Line := List Char

/-- The state of a shell -/
structure State (ω : Type) where
  vars : String → Option String
  /-- `set -e` -/
  errexit : Bool := false
  /-- `$?` -/
  status : Nat := 0
  out : List Char := []
  files : String → Option String := fun _ => none
  /-- everything else -/
  world : ω

/-- What is not described here -/
structure Commands (ω : Type) where
  /-- any other command: the state after it, and whether it ends the shell -/
  run : Line → State ω → State ω × Bool
  /-- what `echo` prints of a text: some shells interpret backslashes -/
  echo : List Char → List Char
  writable : String → ω → Bool
  chmod : String → ω → ω × Nat

/-- A character of a variable name -/
def nameChar (c : Char) : Bool := c.isAlphanum || c = '_'

/-- The value of a variable, empty if it is not set; a lone dollar sign stands for itself -/
def value (vars : String → Option String) (name : List Char) : List Char :=
  if name = [] then ['$'] else ((vars (String.ofList name)).getD "").toList

/-- Expansion of variables; the name of a variable being read -/
def expandFrom (vars : String → Option String) : Option (List Char) → List Char → List Char
  | none, [] => []
  | none, c :: r => if c = '$' then expandFrom vars (some []) r else c :: expandFrom vars none r
  | some n, [] => value vars n
  | some n, c :: r =>
    if nameChar c then expandFrom vars (some (n ++ [c])) r
    else if c = '$' then value vars n ++ expandFrom vars (some []) r
    else value vars n ++ c :: expandFrom vars none r

/-- Expansion of variables -/
def expand (vars : String → Option String) (l : List Char) : List Char := expandFrom vars none l

/-- What stands between two texts -/
def between (a b l : List Char) : Option (List Char) :=
  if a <+: l ∧ b <:+ l ∧ a.length + b.length ≤ l.length then some ((l.drop a.length).take (l.length - (a.length + b.length))) else none

/-- `if [ -n "$X" ]; then` -/
def ifLine (l : Line) : Option (List Char) :=
  (between "if [ -n \"$".toList "\" ]; then".toList l).filter fun n => n.all nameChar

/-- `cat <<EOF > word` -/
def catLine (l : Line) : Option (List Char) := between "cat <<EOF > ".toList [] l

/-- `unset X` -/
def unsetLine (l : Line) : Option (List Char) := (between "unset ".toList [] l).filter fun n => n ≠ [] && n.all nameChar

/-- The text of `echo + "text"` -/
def echoLine (l : Line) : Option (List Char) :=
  (between "echo + \"".toList [] l).bind fun body => (dquote body).bind fun q => if q.2 = [] then some q.1 else none

variable {ω : Type}

/-- One complete command: the state after it, and whether it ends the shell -/
def exec (C : Commands ω) (l : Line) (s : State ω) : State ω × Bool :=
  if l.all (· = ' ') then (s, false)
  else if l = "set -e".toList then ({ s with errexit := true, status := 0 }, false)
  else
    match unsetLine l with
    | some n => ({ s with vars := fun x => if x = String.ofList n then none else s.vars x, status := 0 }, false)
    | none =>
      match echoLine l with
      | some t => ({ s with out := s.out ++ ("+ ".toList ++ C.echo t ++ ['\n']), status := 0 }, false)
      | none =>
        match between "chmod 0600 ".toList [] l with
        | some w => ({ s with
            world := (C.chmod (String.ofList (expand s.vars w)) s.world).1
            status := (C.chmod (String.ofList (expand s.vars w)) s.world).2 }, false)
        | none => C.run l s

/-- One complete command, and whether the shell has ended after it, by itself or because of `set -e` -/
def execE (C : Commands ω) (l : Line) (s : State ω) : State ω × Bool :=
  ((exec C l s).1, (exec C l s).2 || ((exec C l s).1.errexit && (exec C l s).1.status != 0))

/-- Where a line stands -/
inductive Mode where
  | top
  /-- between `then` and `fi`, and whether the commands there are executed -/
  | body (on : Bool)
  /-- in the text of `cat <<EOF > path`, in or outside of an `if` -/
  | here (inside : Option Bool) (path : List Char) (text : List Char)

/-- `cat <<EOF > path` -/
def cat (C : Commands ω) (path text : List Char) (s : State ω) : State ω :=
  if C.writable (String.ofList path) s.world then
    { s with files := fun p => if p = String.ofList path then some (String.ofList text) else s.files p, status := 0 }
  else { s with status := 1 }

/-- One line: where the next one stands, the state, and whether the shell has ended -/
def step (C : Commands ω) (m : Mode) (l : Line) (s : State ω) : Mode × State ω × Bool :=
  match m with
  | .here inside path text =>
    if l = "EOF".toList then
      match inside with
      | some false => (.body false, s, false)
      | some true => (.body true, cat C path text s, (cat C path text s).errexit && (cat C path text s).status != 0)
      | none => (.top, cat C path text s, (cat C path text s).errexit && (cat C path text s).status != 0)
    else (.here inside path (text ++ expand s.vars l ++ ['\n']), s, false)
  | .body false =>
    if l = "fi".toList then (.top, { s with status := 0 }, false)
    else
      match catLine l with
      | some w => (.here (some false) (expand s.vars w) [], s, false)
      | none => (.body false, s, false)
  | .body true =>
    if l = "fi".toList then (.top, s, false)
    else
      match catLine l with
      | some w => (.here (some true) (expand s.vars w) [], s, false)
      | none => (.body true, execE C l s)
  | .top =>
    match ifLine l with
    | some n => (.body (value s.vars n ≠ []), s, false)
    | none =>
      match catLine l with
      | some w => (.here none (expand s.vars w) [], s, false)
      | none => (.top, execE C l s)

/-- Line by line: the state at the end, and whether the shell has ended before the end of the lines -/
def runLines (C : Commands ω) : Mode → List Line → State ω → State ω × Bool
  | _, [], s => (s, false)
  | m, l :: ls, s =>
    match step C m l s with
    | (_, s, true) => (s, true)
    | (m, s, false) => runLines C m ls s

/-- The lines of a text -/
def lines : List Char → List Line
  | [] => []
  | [c] => if c = '\n' then [[]] else [[c]]
  | c :: d :: r => if c = '\n' then [] :: lines (d :: r) else (c :: (lines (d :: r)).headD []) :: (lines (d :: r)).tail

/-- `sh script`: the state at the end; its exit status is `status` -/
def sh (C : Commands ω) (script : String) (s : State ω) : State ω :=
  (runLines C .top (lines script.toList) { s with errexit := false, status := 0 }).1

/-! ### What a step is meant to do -/

/-- The variables with the credentials of the clone -/
def credentials : List String := ["CI_NETRC_USERNAME", "CI_NETRC_PASSWORD", "DRONE_NETRC_USERNAME", "DRONE_NETRC_PASSWORD"]

/-- The value of a variable, empty if it is not set -/
def State.get (s : State ω) (name : String) : String := (s.vars name).getD ""

/-- The text of `.netrc` -/
def netrc (s : State ω) : String :=
  "machine " ++ s.get "CI_NETRC_MACHINE" ++ "\nlogin " ++ s.get "CI_NETRC_USERNAME" ++ "\npassword " ++ s.get "CI_NETRC_PASSWORD" ++ "\n"

/-- The state before the first command: `.netrc` is written if there is a machine, the credentials are gone
from the variables, and failures end the script. -/
def prepared (C : Commands ω) (s : State ω) : State ω :=
  let path := s.get "HOME" ++ "/.netrc"
  { vars := fun x => if x ∈ credentials then none else s.vars x
    errexit := true
    status := 0
    out := s.out
    files := if s.get "CI_NETRC_MACHINE" ≠ "" ∧ C.writable path s.world then fun p => if p = path then some (netrc s) else s.files p else s.files
    world := if s.get "CI_NETRC_MACHINE" ≠ "" then (C.chmod path s.world).1 else s.world }

/-- The lines of one command, one after the other, until one ends the shell -/
def execAll (C : Commands ω) : List Line → State ω → State ω × Bool
  | [], s => (s, false)
  | l :: ls, s =>
    match execE C l s with
    | (s, true) => (s, true)
    | (s, false) => execAll C ls s

/-- The commands one after the other, each announced by its text, until one ends the shell -/
def perform (C : Commands ω) (shown : String → List Char) : List String → State ω → State ω × Bool
  | [], s => (s, false)
  | c :: cs, s =>
    match execAll C (lines (c.toList ++ ['\n'])) { s with out := s.out ++ ("+ ".toList ++ C.echo (shown c) ++ ['\n']), status := 0 } with
    | (s, true) => (s, true)
    | (s, false) => perform C shown cs s

/-- Every line of the command is a complete command by itself. -/
def Simple (c : String) : Prop := ∀ l ∈ lines (c.toList ++ ['\n']), ifLine l = none ∧ catLine l = none

/-- No command ends the shell by itself or switches `set -e` off. -/
def Obedient (C : Commands ω) : Prop := ∀ l s, s.errexit = true → (C.run l s).1.errexit = true ∧ (C.run l s).2 = false

end Drone.Spec.Shell
