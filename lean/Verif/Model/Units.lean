/-
The two functions of github.com/docker/go-units v0.3.3 behind `BytesSize` (/repo/yaml/unit.go):
`RAMInBytes` (line 39) reads a size, `BytesSize` (line 52) writes one.  They are not in /repo; the
model follows the published source.
-/
import Verif.Model.Float64

namespace Drone
namespace Units

/-! ### RAMInBytes -/

/-- `\d` -/
def isDigit (c : Char) : Bool := '0' ≤ c && c ≤ '9'

/-- The digits at the beginning and the rest. -/
def digits : List Char → List Char × List Char
  | [] => ([], [])
  | c :: cs => if isDigit c then (c :: (digits cs).1, (digits cs).2) else ([], c :: cs)

/-- The number of a list of decimal digits. -/
def decimal (ds : List Char) : Nat := ds.foldl (fun n c => 10 * n + (c.toNat - 48)) 0

/-- `(\d+(\.\d+)*)` and `strconv.ParseFloat`, which refuses a second point: the number and the
rest.  The pattern has no other way to go on after a number with two points. -/
def number (s : List Char) : Option (Rat × List Char) :=
  match digits s with
  | ([], _) => none
  | (ds, '.' :: rest) =>
    match digits rest with
    | ([], _) => none
    | (fs, rest') =>
      match rest' with
      | '.' :: _ => none
      | _ => some ((decimal (ds ++ fs) : Rat) / (10 ^ fs.length : Nat), rest')
  | (ds, rest) => some ((decimal ds : Rat), rest)

/-- The exponent of 1024 that belongs to a unit prefix (`binaryMap`). -/
def prefixExp (c : Char) : Option Nat :=
  if c = 'k' ∨ c = 'K' then some 1
  else if c = 'm' ∨ c = 'M' then some 2
  else if c = 'g' ∨ c = 'G' then some 3
  else if c = 't' ∨ c = 'T' then some 4
  else if c = 'p' ∨ c = 'P' then some 5
  else none

/-- ` ?` -/
def skipSpace : List Char → List Char
  | ' ' :: cs => cs
  | cs => cs

/-- `([kKmMgGtTpP])?` -/
def unitPrefix : List Char → Nat × List Char
  | [] => (0, [])
  | c :: cs =>
    match prefixExp c with
    | some e => (e, cs)
    | none => (0, c :: cs)

/-- `[iI]?` -/
def skipI : List Char → List Char
  | c :: cs => if c = 'i' ∨ c = 'I' then cs else c :: cs
  | [] => []

/-- `[bB]?` -/
def skipB : List Char → List Char
  | c :: cs => if c = 'b' ∨ c = 'B' then cs else c :: cs
  | [] => []

/-- `int64` of a float that is not negative; a number out of range becomes the least one, as on
amd64 (the language leaves it open). -/
def toInt64 (q : Rat) : Int := if q < (2 ^ 63 : Nat) then q.floor else -(2 ^ 63 : Nat)

/-- `RAMInBytes`; a number beyond the floats is an error of `ParseFloat`. -/
def ramInBytes (s : String) : Option Int :=
  match number s.toList with
  | none => none
  | some (v, rest) =>
    let u := unitPrefix (skipSpace rest)
    if skipB (skipI u.2) = [] then
      if F64.round v < (2 ^ 1024 : Nat) then some (toInt64 (F64.round (F64.round v * (1024 ^ u.1 : Nat))))
      else none
    else none

/-! ### BytesSize -/

/-- `binaryAbbrs` -/
def binaryAbbrs : List String := ["B", "KiB", "MiB", "GiB", "TiB", "PiB", "EiB", "ZiB", "YiB"]

/-- The loop of `getSizeAndUnit`: the size and the index of the unit. -/
def sizeAndUnit : Nat → Rat → Nat → Rat × Nat
  | 0, q, i => (q, i)
  | n + 1, q, i => if 1024 ≤ q then sizeAndUnit n (q / 1024) (i + 1) else (q, i)

/-- The number of decimal digits of a natural number that is not zero. -/
def width (n : Nat) : Nat := (Nat.toDigits 10 n).length

/-- `n` with `k` digits, zeros in front. -/
def padded : Nat → Nat → List Char
  | 0, _ => []
  | k + 1, n => padded k (n / 10) ++ [Nat.digitChar (n % 10)]

/-- Without the zeros at the end. -/
def trimZeros (s : List Char) : List Char := (s.reverse.dropWhile (· = '0')).reverse

/-- `t / 10 ^ k` in decimal notation without zeros at the end. -/
def fixed (t k : Nat) : List Char :=
  let frac := trimZeros (padded k (t % 10 ^ k))
  Nat.toDigits 10 (t / 10 ^ k) ++ (if frac = [] then [] else '.' :: frac)

/-- `%.4g` of a number that is zero or at least one.  The decimal notation is used below 10⁴, the
exponential one otherwise. -/
def g4 (q : Rat) : List Char :=
  if q = 0 then ['0']
  else
    let d := width q.floor.toNat
    if d ≤ 4 then
      let t := (F64.nearest (q * (10 ^ (4 - d) : Nat))).toNat
      if t < 10000 ∨ d < 4 then fixed t (4 - d) else "1e+04".toList
    else
      let t := (F64.nearest (q / (10 ^ (d - 4) : Nat))).toNat
      let e := if t < 10000 then d - 1 else d
      let t := if t < 10000 then t else 1000
      fixed t 3 ++ 'e' :: '+' :: padded 2 e

/-- `BytesSize` of a number of bytes; the argument is converted to a float first. -/
def bytesSize (b : Int) : String :=
  if b < 0 then String.ofList ('-' :: g4 (F64.round (-b : Int)) ++ ['B'])
  else
    let r := sizeAndUnit 8 (F64.round (b : Int)) 0
    String.ofList (g4 r.1) ++ binaryAbbrs.getD r.2 ""

end Units
end Drone
