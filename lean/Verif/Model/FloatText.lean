/-
Texts of floating point numbers: `strconv.FormatFloat(v, 'g', -1, 64)` as called by
/repo/yaml/compiler/encode.go:39 and /repo/yaml/pretty/writer.go:200, and the numbers that
encoding/json writes (/repo/yaml/compiler/encode.go:53 and 66).  The model follows the published
sources of strconv and encoding/json, with exact arithmetic in place of the tables; `q` is the
exact value of the number.  Negative zero, NaN and infinities are not modelled.
-/
import Verif.Model.Float64
import Verif.Model.Units
import Verif.Model.Encode

namespace Drone
namespace FloatText
open Units (width trimZeros)

/-- The power of ten. -/
def pow10 (e : Int) : Rat := if 0 ≤ e then ((10 ^ e.toNat : Nat) : Rat) else 1 / ((10 ^ (-e).toNat : Nat) : Rat)

/-- The position of the decimal point of a positive number: it lies between `10 ^ (point q - 1)`
and `10 ^ point q`. -/
def point (q : Rat) : Int :=
  let k : Int := (width q.num.toNat : Int) - (width q.den : Int)
  if pow10 k ≤ q then k + 1 else k

/-- The two numbers with `n` digits next to `q`; the one that is read as `q`, and the nearer one if
both are (strconv `roundShortest`). -/
def candidate (q : Rat) (dp : Int) (n : Nat) : Option Nat :=
  let x := q * pow10 (n - dp)
  let lo := x.floor.toNat
  let ok (m : Nat) : Bool := F64.round (m * pow10 (dp - n)) = q
  if ok lo then if ok (lo + 1) then some (F64.nearest x).toNat else some lo
  else if ok (lo + 1) then some (lo + 1) else none

/-- The first number of digits that suffices, from `n` on; after `fuel` attempts all digits are
taken. -/
def search (q : Rat) (dp : Int) : Nat → Nat → Nat × Nat
  | 0, n => ((q * pow10 (n - dp)).floor.toNat, n)
  | fuel + 1, n =>
    match candidate q dp n with
    | some m => (m, n)
    | none => search q dp fuel (n + 1)

/-- Digits and position of the decimal point of the shortest number that is read as `q`
(strconv `decimalSlice`).  A fraction with the denominator `2 ^ k` has `k` decimal places. -/
def shortest (q : Rat) : List Char × Int :=
  let dp := point q
  let r := search q dp ((dp + q.den.log2).toNat - 1) 1
  (trimZeros (Nat.toDigits 10 r.1), dp + (width r.1 - r.2 : Int))

/-- Sign and digits of an exponent, at least two. -/
def exponent (e : Int) : List Char :=
  (if e < 0 then '-' else '+') :: (if e.natAbs < 10 then ['0', Nat.digitChar e.natAbs] else Nat.toDigits 10 e.natAbs)

/-- strconv `fmtE` with all digits -/
def fmtE (ds : List Char) (dp : Int) : List Char :=
  ds.take 1 ++ (if ds.drop 1 = [] then [] else '.' :: ds.drop 1) ++ 'e' :: exponent (dp - 1)

/-- strconv `fmtF` with all digits -/
def fmtF (ds : List Char) (dp : Int) : List Char :=
  if dp ≤ 0 then '0' :: '.' :: (List.replicate (-dp).toNat '0' ++ ds)
  else if ds.length ≤ dp.toNat then ds ++ List.replicate (dp.toNat - ds.length) '0'
  else ds.take dp.toNat ++ '.' :: ds.drop dp.toNat

/-- `FormatFloat(v, 'g', -1, 64)` of a positive number -/
def unsignedG (q : Rat) : List Char :=
  let r := shortest q
  if r.2 - 1 < -4 ∨ 6 ≤ r.2 - 1 then fmtE r.1 r.2 else fmtF r.1 r.2

/-- encoding/json `floatEncoder`: the exponent loses a zero, `e-09` is written `e-9`. -/
def cleanExponent (s : List Char) : List Char :=
  match s.reverse with
  | d :: '0' :: '-' :: 'e' :: rest => (d :: '-' :: 'e' :: rest).reverse
  | _ => s

/-- encoding/json `floatEncoder` for a positive number -/
def unsignedJson (q : Rat) : List Char :=
  let r := shortest q
  if q < F64.round (pow10 (-6)) ∨ pow10 21 ≤ q then cleanExponent (fmtE r.1 r.2) else fmtF r.1 r.2

/-- With a sign; zero is a single digit in all formats. -/
def signed (f : Rat → List Char) (q : Rat) : String :=
  if q = 0 then "0" else if q < 0 then String.ofList ('-' :: f (-q)) else String.ofList (f q)

/-- `strconv.FormatFloat(v, 'g', -1, 64)` -/
def formatG : Rat → String := signed unsignedG

/-- A number in JSON -/
def formatJson : Rat → String := signed unsignedJson

/-- The texts of numbers in settings (/repo/yaml/compiler/encode.go:39,53,66); keys that are floating
point numbers are left open. -/
def floatTexts (key : Rat → String) : Encode.Floats := ⟨formatG, formatJson, key⟩

end FloatText
end Drone
