/-
How a setting is written into its variable: /repo/yaml/compiler/encode.go, with the parts of the
libraries it calls (yaml.Marshal, yaml.Unmarshal into strings, ghodss/yaml.YAMLToJSON,
encoding/json).

Marshalling a value as YAML and reading that text again gives the value back; this is not modelled
but taken as a law of the YAML library.  The texts of floating point numbers are parameters.
-/
import Verif.Model.Compile

namespace Drone
namespace Encode

/-- What YAMLToJSON hands to the JSON encoder: numbers by their text, maps with string keys. -/
inductive Json where
  | null
  | bool (b : Bool)
  | num (text : List Char)
  | str (s : List Char)
  | arr (xs : List Json)
  | obj (kvs : List (String × Json))
  deriving Inhabited, Repr

/-- Texts of floating point numbers: as an element of a list of strings
(`strconv.FormatFloat(v, 'g', -1, 64)`), as a JSON number (encoding/json `floatEncoder`), and as a
key (`strconv.FormatFloat(v, 'g', -1, 32)`, ghodss/yaml). -/
structure Floats where
  text : Rat → String
  json : Rat → String
  key : Rat → String

/-- A map key as a string (ghodss/yaml `convertToJSONableObject`); null, lists and maps are
refused. -/
def keyText (X : Floats) : Value → Option String
  | .str s => some s
  | .int i => some (toString i)
  | .float q => some (X.key q)
  | .bool b => some (if b then "true" else "false")
  | _ => none

mutual
/-- ghodss/yaml `convertToJSONableObject`; `none` is an error. -/
def toJson (X : Floats) : Value → Option Json
  | .null => some .null
  | .bool b => some (.bool b)
  | .int i => some (.num (toString i).toList)
  | .float q => some (.num (X.json q).toList)
  | .str s => some (.str s.toList)
  | .seq xs => (toJsons X xs).map .arr
  | .map kvs => (toEntries X kvs []).map .obj

def toJsons (X : Floats) : List Value → Option (List Json)
  | [] => some []
  | v :: vs => (toJson X v).bind fun j => (toJsons X vs).map (j :: ·)

/-- The loop over a map; a later key overwrites an earlier one with the same text. -/
def toEntries (X : Floats) : List (Value × Value) → GoMap Json → Option (GoMap Json)
  | [], acc => some acc
  | (k, v) :: kvs, acc =>
    (keyText X k).bind fun s => (toJson X v).bind fun j => toEntries X kvs (acc.set s j)
end

/-- Hexadecimal digits of encoding/json. -/
def hexChar (n : Nat) : Char := ("0123456789abcdef".toList[n]?).getD '0'

/-- `\u` and four digits. -/
def escaped (n : Nat) : List Char :=
  ['\\', 'u', hexChar (n / 4096 % 16), hexChar (n / 256 % 16), hexChar (n / 16 % 16), hexChar (n % 16)]

/-- One character of a string (encoding/json `encodeState.string`, with HTML escaping). -/
def jsonChar (c : Char) : List Char :=
  if c = '"' ∨ c = '\\' then ['\\', c]
  else if c = '\n' then ['\\', 'n']
  else if c = '\r' then ['\\', 'r']
  else if c = '\t' then ['\\', 't']
  else if c.toNat < 0x20 ∨ c = '<' ∨ c = '>' ∨ c = '&' ∨ c.toNat = 0x2028 ∨ c.toNat = 0x2029 then escaped c.toNat
  else [c]

/-- A JSON string. -/
def jsonString (s : List Char) : List Char := '"' :: s.flatMap jsonChar ++ ['"']

/-- Entries in the order of their keys. -/
def insertEntry {α : Type} (e : String × α) : List (String × α) → List (String × α)
  | [] => [e]
  | f :: fs => if e.1 < f.1 then e :: f :: fs else f :: insertEntry e fs

/-- The order in which encoding/json writes a map. -/
def sortEntries {α : Type} (l : List (String × α)) : List (String × α) := l.foldr insertEntry []

/-- Texts with commas between them. -/
def commas : List (List Char) → List Char
  | [] => []
  | [x] => x
  | x :: xs => x ++ ',' :: commas xs

mutual
/-- json.Marshal -/
def render : Json → List Char
  | .null => "null".toList
  | .bool b => if b then "true".toList else "false".toList
  | .num t => t
  | .str s => jsonString s
  | .arr xs => '[' :: commas (renders xs) ++ [']']
  | .obj kvs => '{' :: commas ((sortEntries (renderEntries kvs)).map fun e => jsonString e.1.toList ++ ':' :: e.2) ++ ['}']

def renders : List Json → List (List Char)
  | [] => []
  | j :: js => render j :: renders js

def renderEntries : List (String × Json) → List (String × List Char)
  | [] => []
  | (k, j) :: kvs => (k, render j) :: renderEntries kvs
end

/-- The text of YAMLToJSON of a value; nothing if there is an error, which is ignored -/
def jsonText (X : Floats) (v : Value) : String :=
  match toJson X v with
  | none => ""
  | some j => String.ofList (render j)

/-- `encodeMap` (/repo/yaml/compiler/encode.go:50-54) -/
def encodeMap (X : Floats) (v : Value) : String := jsonText X v

/-- An element read into a string; null leaves the zero value, lists and maps are errors. -/
def elementText (X : Floats) : Value → Option String
  | .null => some ""
  | .bool b => some (if b then "true" else "false")
  | .int i => some (toString i)
  | .float q => some (X.text q)
  | .str s => some s
  | _ => none

/-- `encodeSlice` (/repo/yaml/compiler/encode.go:57-67) -/
def encodeSlice (X : Floats) (vs : List Value) : String :=
  match vs.mapM (elementText X) with
  | some ts => commaJoin ts
  | none => jsonText X (.seq vs)

/-- The library of the compiler with these functions. -/
def _root_.Drone.Ext.encoding (E : Ext) (X : Floats) : Ext :=
  { E with fmtFloat := X.text, encodeSlice := encodeSlice X, encodeMap := encodeMap X }

end Encode
end Drone
