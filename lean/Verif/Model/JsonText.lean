/-
JSON texts: what encoding/json writes for a tree (`Manifest.MarshalJSON`, /repo/yaml/manifest.go:101,
and, with indentation, /repo/main.go:305-307) and how it reads a text
(`Manifest.UnmarshalJSON`, /repo/yaml/manifest.go:66-98).  The model follows the published sources of
encoding/json.

Numbers with a fraction or exponent are kept as the floating point number they are read as: the
decoders of Model/ManifestJson look at nothing else.  Not modelled: bytes that are not UTF-8 (the
reader refuses them here), the limit on the depth of newer versions of Go, the largest exponent (a
number of 2^1024 or more is an error in Go).
-/
import Verif.Model.FloatText
import Verif.Model.ManifestJson
import Verif.Model.Signer

namespace Drone
namespace Json

/-! ### Writing -/

mutual
/-- The compact text (`json.Marshal`, /repo/yaml/manifest.go:102). -/
def write : Tree → List Char
  | .null => "null".toList
  | .bool b => if b then "true".toList else "false".toList
  | .int i => (toString i).toList
  | .float q => (FloatText.formatJson q).toList
  | .str s => Encode.jsonString s.toList
  | .arr xs => '[' :: Encode.commas (writes xs) ++ [']']
  | .obj kvs => '{' :: Encode.commas (writeEntries kvs) ++ ['}']
def writes : List Tree → List (List Char)
  | [] => []
  | t :: ts => write t :: writes ts
def writeEntries : List (String × Tree) → List (List Char)
  | [] => []
  | (k, t) :: kvs => (Encode.jsonString k.toList ++ ':' :: write t) :: writeEntries kvs
end

/-- A line feed and the indentation (/repo/main.go:306: two blanks). -/
def newline (depth : Nat) : List Char := '\n' :: List.replicate (2 * depth) ' '

/-- Texts with commas and line feeds between them. -/
def lines (depth : Nat) : List (List Char) → List Char
  | [] => []
  | [x] => newline depth ++ x
  | x :: xs => newline depth ++ x ++ ',' :: lines depth xs

mutual
/-- The indented text (`json.Indent`, /repo/main.go:305-307). -/
def indent (depth : Nat) : Tree → List Char
  | .arr [] => "[]".toList
  | .arr xs => '[' :: lines (depth + 1) (indents (depth + 1) xs) ++ newline depth ++ [']']
  | .obj [] => "{}".toList
  | .obj kvs => '{' :: lines (depth + 1) (indentEntries (depth + 1) kvs) ++ newline depth ++ ['}']
  | .null => "null".toList
  | .bool b => if b then "true".toList else "false".toList
  | .int i => (toString i).toList
  | .float q => (FloatText.formatJson q).toList
  | .str s => Encode.jsonString s.toList
def indents (depth : Nat) : List Tree → List (List Char)
  | [] => []
  | t :: ts => indent depth t :: indents depth ts
def indentEntries (depth : Nat) : List (String × Tree) → List (List Char)
  | [] => []
  | (k, t) :: kvs => (Encode.jsonString k.toList ++ ':' :: ' ' :: indent depth t) :: indentEntries depth kvs
end

/-! ### Reading -/

/-- encoding/json `isSpace` -/
def isSpace (c : Char) : Bool := c = ' ' || c = '\t' || c = '\r' || c = '\n'

/-- The text from the next token on. -/
def skip (s : List Char) : List Char := s.dropWhile isSpace

/-- A hexadecimal digit. -/
def hexDigit (c : Char) : Option Nat :=
  if '0' ≤ c ∧ c ≤ '9' then some (c.toNat - 48)
  else if 'a' ≤ c ∧ c ≤ 'f' then some (c.toNat - 87)
  else if 'A' ≤ c ∧ c ≤ 'F' then some (c.toNat - 55)
  else none

/-- Four hexadecimal digits (encoding/json `getu4`). -/
def hex4 (a b c d : Char) : Option Nat :=
  match hexDigit a, hexDigit b, hexDigit c, hexDigit d with
  | some w, some x, some y, some z => some (4096 * w + 256 * x + 16 * y + z)
  | _, _, _, _ => none

/-- `\u` and four hexadecimal digits at the beginning of a text. -/
def unit : List Char → Option (Nat × List Char)
  | '\\' :: 'u' :: a :: b :: c :: d :: r => (hex4 a b c d).map fun n => (n, r)
  | _ => none

/-- unicode/utf16 `IsSurrogate` -/
def isSurrogate (n : Nat) : Bool := 0xD800 ≤ n && n < 0xE000

/-- unicode/utf16 `DecodeRune`: the character of a pair of surrogates. -/
def pairChar (hi lo : Nat) : Option Char :=
  if 0xD800 ≤ hi ∧ hi < 0xDC00 ∧ 0xDC00 ≤ lo ∧ lo < 0xE000 then
    some (Char.ofNat ((hi - 0xD800) * 1024 + (lo - 0xDC00) + 0x10000))
  else none

/-- The character after a backslash (encoding/json `stateInStringEsc`, `unquoteBytes`). -/
def escape : Char → Option Char
  | '"' => some '"' | '\\' => some '\\' | '/' => some '/' | 'b' => some '\x08' | 'f' => some '\x0c'
  | 'n' => some '\n' | 'r' => some '\r' | 't' => some '\t' | _ => none

/-- The next character of a string: what it stands for and what follows (encoding/json
`unquoteBytes`).  Surrogates that are not in pairs become U+FFFD. -/
def char (s : List Char) : Option (Char × List Char) :=
  match s with
  | '\\' :: 'u' :: _ =>
    match unit s with
    | none => none
    | some (n, r) =>
      if isSurrogate n then
        match unit r with
        | some (m, r') => match pairChar n m with
          | some c => some (c, r')
          | none => some ('�', r)
        | none => some ('�', r)
      else some (Char.ofNat n, r)
  | '\\' :: e :: r => (escape e).map fun c => (c, r)
  | c :: r => if c.toNat < 0x20 ∨ c = '\\' then none else some (c, r)
  | [] => none

/-- The rest of a string after its opening quote, and what follows it.  The number bounds the
length. -/
def string : Nat → List Char → Option (List Char × List Char)
  | 0, _ => none
  | n + 1, s => match s with
    | '"' :: r => some ([], r)
    | _ => (char s).bind fun p => (string n p.2).map fun q => (p.1 :: q.1, q.2)

/-- Value of digits. -/
def numeral (s : List Char) : Nat := s.foldl (fun n c => 10 * n + (c.toNat - 48)) 0

/-- An exponent (encoding/json `stateE`). -/
def exponentOf (s : List Char) : Option Int :=
  let digits (r : List Char) : Option Int := if r ≠ [] ∧ r.all Char.isDigit then some (numeral r : Int) else none
  match s with
  | '-' :: r => (digits r).map fun n => -n
  | '+' :: r => digits r
  | r => digits r

/-- What follows the digits before the decimal point: the digits after it, and the exponent. -/
def tailOf (s : List Char) : Option (List Char × Int) :=
  let exp (r : List Char) : Option Int := match r with
    | [] => some 0
    | 'e' :: r => exponentOf r
    | 'E' :: r => exponentOf r
    | _ => none
  match s with
  | '.' :: r => if r.takeWhile Char.isDigit = [] then none
    else (exp (r.dropWhile Char.isDigit)).map fun e => (r.takeWhile Char.isDigit, e)
  | r => (exp r).map fun e => ([], e)

/-- A number without its sign (encoding/json `state0`, `state1`, `stateDot` and so on). -/
def unsigned (neg : Bool) (s : List Char) : Option Tree :=
  let whole := s.takeWhile Char.isDigit
  let rest := s.dropWhile Char.isDigit
  if whole = [] ∨ (whole.head? = some '0' ∧ whole ≠ ['0']) then none
  else if rest = [] then some (.int (if neg then -(numeral whole : Int) else numeral whole))
  else (tailOf rest).map fun p =>
    let v : Rat := (numeral (whole ++ p.1) : Rat) * FloatText.pow10 (p.2 - p.1.length)
    .float (toFloat (if neg then -v else v))

/-- A number. -/
def number : List Char → Option Tree
  | '-' :: s => unsigned true s
  | s => unsigned false s

/-- Characters of numbers. -/
def inNumber (c : Char) : Bool := c.isDigit || c = '-' || c = '+' || c = '.' || c = 'e' || c = 'E'

mutual
/-- A value and what follows it (encoding/json `stateBeginValue`).  The number bounds the depth and
length. -/
def value : Nat → List Char → Option (Tree × List Char)
  | 0, _ => none
  | fuel + 1, s => match s with
    | 'n' :: 'u' :: 'l' :: 'l' :: r => some (.null, r)
    | 't' :: 'r' :: 'u' :: 'e' :: r => some (.bool true, r)
    | 'f' :: 'a' :: 'l' :: 's' :: 'e' :: r => some (.bool false, r)
    | '"' :: r => (string (r.length + 1) r).map fun p => (.str (String.ofList p.1), p.2)
    | '[' :: r => match skip r with
      | ']' :: r => some (.arr [], r)
      | r => (items fuel r).map fun p => (.arr p.1, p.2)
    | '{' :: r => match skip r with
      | '}' :: r => some (.obj [], r)
      | r => (members fuel r).map fun p => (.obj p.1, p.2)
    | r => (number (r.takeWhile inNumber)).map fun t => (t, r.dropWhile inNumber)
/-- The elements of a list up to its end (encoding/json `stateEndValue`, `parseArrayValue`). -/
def items : Nat → List Char → Option (List Tree × List Char)
  | 0, _ => none
  | fuel + 1, s => (value fuel s).bind fun p => match skip p.2 with
    | ',' :: r => (items fuel (skip r)).map fun q => (p.1 :: q.1, q.2)
    | ']' :: r => some ([p.1], r)
    | _ => none
/-- The members of an object up to its end (encoding/json `parseObjectKey`, `parseObjectValue`). -/
def members : Nat → List Char → Option (List (String × Tree) × List Char)
  | 0, _ => none
  | fuel + 1, s => match s with
    | '"' :: s => (string (s.length + 1) s).bind fun k => match skip k.2 with
      | ':' :: s => (value fuel (skip s)).bind fun p => match skip p.2 with
        | ',' :: r => (members fuel (skip r)).map fun q => ((String.ofList k.1, p.1) :: q.1, q.2)
        | '}' :: r => some ([(String.ofList k.1, p.1)], r)
        | _ => none
      | _ => none
    | _ => none
end

/-- The tree of a text, which may have white space at both ends (`json.Unmarshal`,
/repo/yaml/manifest.go:68,74,91). -/
def parse (s : List Char) : Option Tree :=
  (value (2 * s.length + 2) (skip s)).bind fun p => if skip p.2 = [] then some p.1 else none

/-- `json.Unmarshal` on bytes (/repo/yaml/manifest.go:68,74,91). -/
def parseBytes (b : Bytes) : Except String Tree :=
  match (String.fromUTF8? ⟨b.toArray⟩).bind fun s => parse s.toList with
  | some t => .ok t
  | none => .error "json: invalid character"

end Json
end Drone
