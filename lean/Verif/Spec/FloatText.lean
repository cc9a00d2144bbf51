/-
How the text of a number is read: the decimal notation with an optional exponent, and the nearest
floating point number.
-/
import Verif.Spec.Units
import Verif.Spec.Block
import Verif.Spec.ManifestJson
import Verif.Model.Float64
import Mathlib.Algebra.Order.Field.Rat

namespace Drone
namespace Spec

/-- The nearest floating point number; `Model/Float64` says what rounding is, and `C123_nearest` that
it is the nearest. -/
def toFloat64 (v : Rat) : Rat := if v = 0 then 0 else if v < 0 then -F64.round (-v) else F64.round v

/-- A non-empty list of digits. -/
def AllDigits (s : List Char) : Prop := s ≠ [] ∧ ∀ c ∈ s, c.isDigit = true

instance (s : List Char) : Decidable (AllDigits s) := by unfold AllDigits; infer_instance

/-- The exponent at the end of a number, if there is one. -/
def readExponent : List Char → Option Int
  | [] => some 0
  | 'e' :: '-' :: ds => if AllDigits ds then some (-(digitsNumber ds : Int)) else none
  | 'e' :: '+' :: ds => if AllDigits ds then some (digitsNumber ds : Int) else none
  | _ => none

/-- The value of a number without a sign. -/
def readUnsigned (s : List Char) : Option Rat :=
  let whole := s.takeWhile Char.isDigit
  if whole = [] then none
  else match s.dropWhile Char.isDigit with
    | '.' :: r =>
      let frac := r.takeWhile Char.isDigit
      if frac = [] then none
      else (readExponent (r.dropWhile Char.isDigit)).map fun (e : Int) =>
        (digitsNumber (whole ++ frac) : Rat) * (10 : Rat) ^ (e - (frac.length : Int))
    | r => (readExponent r).map fun e => (digitsNumber whole : Rat) * (10 : Rat) ^ e

/-- The value of a number. -/
def readNumber : List Char → Option Rat
  | '-' :: s => (readUnsigned s).map fun v => -v
  | s => readUnsigned s

/-- A number that can be written with so many digits, apart from zeros that only set the place of
the decimal point. -/
def Digits (v : Rat) (n : Nat) : Prop := ∃ (c : Nat) (e : Int), c < 10 ^ n ∧ |v| = (c : Rat) * (10 : Rat) ^ e

/-- Plain scalars with a decimal point or an exponent are read as the nearest floating point number
(resolve.go of yaml.v2, `strconv.ParseFloat`). -/
def ReadsFloats (R : Resolver) : Prop := ∀ (s : String) (v : Rat), readNumber s.toList = some v →
  ('.' ∈ s.toList ∨ 'e' ∈ s.toList) → R.plain s = some (.float (toFloat64 v))

end Spec
end Drone
