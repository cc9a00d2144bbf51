/-
A reader of JSON texts without white space (RFC 8259), and what JSON value stands for a setting.
Nothing here refers to the encoder.
-/
import Verif.Model.Encode

namespace Drone.Spec
open Encode (Json)

/-- Value of a hexadecimal digit. -/
def hexValue (c : Char) : Option Nat :=
  if '0' ≤ c ∧ c ≤ '9' then some (c.toNat - 48)
  else if 'a' ≤ c ∧ c ≤ 'f' then some (c.toNat - 87)
  else if 'A' ≤ c ∧ c ≤ 'F' then some (c.toNat - 55)
  else none

/-- The character after a backslash. -/
def simpleEscape : Char → Option Char
  | '"' => some '"' | '\\' => some '\\' | '/' => some '/' | 'b' => some '\x08' | 'f' => some '\x0c'
  | 'n' => some '\n' | 'r' => some '\r' | 't' => some '\t' | _ => none

/-- A character in front of the rest of a string. -/
def onto (c : Char) (r : Option (List Char × List Char)) : Option (List Char × List Char) :=
  r.map fun p => (c :: p.1, p.2)

/-- The rest of a string after its opening quote, and what follows it.  Halves of surrogate pairs
are refused. -/
def readString : List Char → Option (List Char × List Char)
  | [] => none
  | '"' :: r => some ([], r)
  | '\\' :: 'u' :: a :: b :: c :: d :: r =>
    match hexValue a, hexValue b, hexValue c, hexValue d with
    | some w, some x, some y, some z =>
      if h : (4096 * w + 256 * x + 16 * y + z).isValidChar then
        onto (Char.ofNatAux _ h) (readString r)
      else none
    | _, _, _, _ => none
  | '\\' :: e :: r => match simpleEscape e with
    | some c => onto c (readString r)
    | none => none
  | c :: r => if c.toNat < 0x20 ∨ c = '\\' then none else onto c (readString r)

/-- A JSON number: sign, digits without leading zero, fraction, exponent. -/
def isDigits (s : List Char) : Bool := s ≠ [] ∧ s.all Char.isDigit
def isWhole (s : List Char) : Bool := isDigits s && (s = ['0'] || s.head? != some '0')
def isExponent (s : List Char) : Bool := match s with
  | '+' :: r => isDigits r
  | '-' :: r => isDigits r
  | r => isDigits r
def isExp (s : List Char) : Bool := match s with
  | 'e' :: r => isExponent r
  | 'E' :: r => isExponent r
  | r => r = []
def isFraction (s : List Char) : Bool := match s with
  | '.' :: r => isDigits (r.takeWhile Char.isDigit) && isExp (r.dropWhile Char.isDigit)
  | r => isExp r
def isUnsigned (s : List Char) : Bool := isWhole (s.takeWhile Char.isDigit) && isFraction (s.dropWhile Char.isDigit)
def isNumber (s : List Char) : Bool := match s with
  | '-' :: r => isUnsigned r
  | r => isUnsigned r

/-- Characters of numbers. -/
def numberChar (c : Char) : Bool := c.isDigit || c = '-' || c = '+' || c = '.' || c = 'e' || c = 'E'

mutual
/-- A value and what follows it; the first argument bounds the depth and length. -/
def readValue : Nat → List Char → Option (Json × List Char)
  | 0, _ => none
  | fuel + 1, s => match s with
    | 'n' :: 'u' :: 'l' :: 'l' :: r => some (.null, r)
    | 't' :: 'r' :: 'u' :: 'e' :: r => some (.bool true, r)
    | 'f' :: 'a' :: 'l' :: 's' :: 'e' :: r => some (.bool false, r)
    | '"' :: r => (readString r).map fun p => (.str p.1, p.2)
    | '[' :: ']' :: r => some (.arr [], r)
    | '[' :: r => (readItems fuel r).map fun p => (.arr p.1, p.2)
    | '{' :: '}' :: r => some (.obj [], r)
    | '{' :: r => (readMembers fuel r).map fun p => (.obj p.1, p.2)
    | r =>
      if isNumber (r.takeWhile numberChar) then some (.num (r.takeWhile numberChar), r.dropWhile numberChar)
      else none

/-- The elements of a list up to its end. -/
def readItems : Nat → List Char → Option (List Json × List Char)
  | 0, _ => none
  | fuel + 1, s => (readValue fuel s).bind fun p => match p.2 with
    | ',' :: r => (readItems fuel r).map fun q => (p.1 :: q.1, q.2)
    | ']' :: r => some ([p.1], r)
    | _ => none

/-- The members of an object up to its end. -/
def readMembers : Nat → List Char → Option (List (String × Json) × List Char)
  | 0, _ => none
  | fuel + 1, s => match s with
    | '"' :: s => (readString s).bind fun k => match k.2 with
      | ':' :: s => (readValue fuel s).bind fun p => match p.2 with
        | ',' :: r => (readMembers fuel r).map fun q => ((String.ofList k.1, p.1) :: q.1, q.2)
        | '}' :: r => some ([(String.ofList k.1, p.1)], r)
        | _ => none
      | _ => none
    | _ => none
end

/-- The value a text stands for. -/
def IsJson (s : String) (j : Json) : Prop := ∃ fuel, readValue fuel s.toList = some (j, [])

/-- The text of a key; keys that are no scalars have none. -/
inductive KeyName (key : Rat → String) : Value → String → Prop
  | str (s) : KeyName key (.str s) s
  | int (i : Int) : KeyName key (.int i) (toString i)
  | float (q) : KeyName key (.float q) (key q)
  | true : KeyName key (.bool true) "true"
  | false : KeyName key (.bool false) "false"

mutual
/-- The JSON value that stands for a setting: maps have the same entries, in the order of their
keys, which are distinct. -/
inductive Stands (num key : Rat → String) : Value → Json → Prop
  | null : Stands num key .null .null
  | bool (b) : Stands num key (.bool b) (.bool b)
  | int (i : Int) : Stands num key (.int i) (.num (toString i).toList)
  | float (q) : Stands num key (.float q) (.num (num q).toList)
  | str (s : String) : Stands num key (.str s) (.str s.toList)
  | seq {vs js} : StandsList num key vs js → Stands num key (.seq vs) (.arr js)
  | map {kvs es fs} : StandsEntries num key kvs es → es.Perm fs → fs.Pairwise (fun a b => a.1 < b.1) →
      Stands num key (.map kvs) (.obj fs)

inductive StandsList (num key : Rat → String) : List Value → List Json → Prop
  | nil : StandsList num key [] []
  | cons {v j vs js} : Stands num key v j → StandsList num key vs js → StandsList num key (v :: vs) (j :: js)

inductive StandsEntries (num key : Rat → String) : List (Value × Value) → List (String × Json) → Prop
  | nil : StandsEntries num key [] []
  | cons {k s v j kvs es} : KeyName key k s → Stands num key v j → StandsEntries num key kvs es →
      StandsEntries num key ((k, v) :: kvs) ((s, j) :: es)
end

end Drone.Spec
