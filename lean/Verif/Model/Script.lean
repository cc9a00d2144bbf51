/-
Scripts generated from the commands of a step
(/repo/yaml/compiler/script_posix.go and script_win.go), with the parts of the Go
standard library they use: `%q` and base64.
-/
import Verif.Model.Types
import Verif.Model.Signer

namespace Drone
namespace Script

abbrev Str := List Char

/-- Lower case hexadecimal digit. -/
def hexd (n : Nat) : Char := "0123456789abcdef".toList.getD (n % 16) '0'

/-- `n` as `k` hexadecimal digits. -/
def hexN : Nat → Nat → Str
  | 0, _ => []
  | k + 1, n => hexN k (n / 16) ++ [hexd n]

/-- The escape of one rune in Go's `%q` (strconv `appendEscapedRune`).  `isPrint`
is `strconv.IsPrint`, a parameter.  (Go versions before 1.20 print U+007F as
`\u007f`.) -/
def quoteChar (isPrint : Char → Bool) (c : Char) : Str :=
  if c = '"' ∨ c = '\\' then ['\\', c]
  else if isPrint c then [c]
  else if c = '\x07' then ['\\', 'a']
  else if c = '\x08' then ['\\', 'b']
  else if c = '\x0c' then ['\\', 'f']
  else if c = '\n' then ['\\', 'n']
  else if c = '\r' then ['\\', 'r']
  else if c = '\t' then ['\\', 't']
  else if c = '\x0b' then ['\\', 'v']
  else if c.toNat < 32 ∨ c.toNat = 127 then '\\' :: 'x' :: hexN 2 c.toNat
  else if c.toNat < 65536 then '\\' :: 'u' :: hexN 4 c.toNat
  else '\\' :: 'U' :: hexN 8 c.toNat

/-- `fmt.Sprintf("%q", s)` -/
def quote (isPrint : Char → Bool) (s : Str) : Str :=
  '"' :: (s.flatMap (quoteChar isPrint) ++ ['"'])

/-- `strings.Replace(s, "$", "\\$", -1)` -/
def escapeDollar (s : Str) : Str := s.flatMap fun c => if c = '$' then ['\\', '$'] else [c]

/-- `escaped` (/repo/yaml/compiler/script_posix.go:30-31 and script_win.go:30-31) -/
def escaped (isPrint : Char → Bool) (cmd : Str) : Str := escapeDollar (quote isPrint cmd)

/-- `traceScript` filled in (/repo/yaml/compiler/script_posix.go:32-36, 81-84) -/
def trace (isPrint : Char → Bool) (cmd : Str) : Str :=
  "\necho + ".toList ++ escaped isPrint cmd ++ "\n".toList ++ cmd ++ "\n".toList

/-- `buildScript` up to `%s` (/repo/yaml/compiler/script_posix.go:62-76) -/
def preamble : Str := "
if [ -n \"$CI_NETRC_MACHINE\" ]; then
cat <<EOF > $HOME/.netrc
machine $CI_NETRC_MACHINE
login $CI_NETRC_USERNAME
password $CI_NETRC_PASSWORD
EOF
chmod 0600 $HOME/.netrc
fi
unset CI_NETRC_USERNAME
unset CI_NETRC_PASSWORD
unset DRONE_NETRC_USERNAME
unset DRONE_NETRC_PASSWORD
set -e
".toList

/-- The script of a step (/repo/yaml/compiler/script_posix.go:28-41) -/
def posix (isPrint : Char → Bool) (cmds : List String) : String :=
  String.ofList (preamble ++ cmds.flatMap (fun c => trace isPrint c.toList) ++ "\n".toList)

/-- `traceScriptWin` filled in (/repo/yaml/compiler/script_win.go:32-36, 69-72) -/
def traceWin (isPrint : Char → Bool) (cmd : Str) : Str :=
  "\nWrite-Output ('+ ".toList ++ escaped isPrint cmd ++ "');\n& ".toList ++ cmd ++
    "; if ($LASTEXITCODE -ne 0) {exit $LASTEXITCODE}\n".toList

/-- `buildScriptWin` up to `%s` (/repo/yaml/compiler/script_win.go:50-64) -/
def preambleWin : Str := "
if ($Env:CI_NETRC_MACHINE) {
@\"
machine $Env:CI_NETRC_MACHINE
login $Env:CI_NETRC_USERNAME
password $Env:CI_NETRC_PASSWORD
\"@ > (Join-Path $Env:USERPROFILE '_netrc');
}
[Environment]::SetEnvironmentVariable(\"CI_NETRC_USERNAME\", $null);
[Environment]::SetEnvironmentVariable(\"CI_NETRC_PASSWORD\", $null);
[Environment]::SetEnvironmentVariable(\"DRONE_NETRC_USERNAME\", $null);
[Environment]::SetEnvironmentVariable(\"DRONE_NETRC_PASSWORD\", $null);
[Environment]::SetEnvironmentVariable(\"CI_SCRIPT\", $null);
$ErrorActionPreference = 'Stop';
".toList

/-- The script of a step on Windows (/repo/yaml/compiler/script_win.go:28-41) -/
def windows (isPrint : Char → Bool) (cmds : List String) : String :=
  String.ofList (preambleWin ++ cmds.flatMap (fun c => traceWin isPrint c.toList) ++ "\n".toList)

/-- The base64 alphabet. -/
def b64Alphabet : List Char :=
  "ABCDEFGHIJKLMNOPQRSTUVWXYZabcdefghijklmnopqrstuvwxyz0123456789+/".toList

/-- Digit `n` of the base64 alphabet. -/
def b64 (n : Nat) : Char := b64Alphabet.getD (n % 64) 'A'

/-- Go `base64.StdEncoding.EncodeToString` -/
def base64 : Bytes → List Char
  | [] => []
  | [a] => [b64 (a.toNat / 4), b64 (a.toNat % 4 * 16), '=', '=']
  | [a, b] => [b64 (a.toNat / 4), b64 (a.toNat % 4 * 16 + b.toNat / 16), b64 (b.toNat % 16 * 4), '=']
  | a :: b :: c :: rest =>
    b64 (a.toNat / 4) :: b64 (a.toNat % 4 * 16 + b.toNat / 16) ::
    b64 (b.toNat % 16 * 4 + c.toNat / 64) :: b64 (c.toNat % 64) :: base64 rest

end Script
end Drone
