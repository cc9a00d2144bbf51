/-
How sizes are written, independent of the model of go-units in Verif/Model/Units.lean.
-/
namespace Drone
namespace Spec

/-- A size as it is written: digits, perhaps a point and more digits, perhaps a space, a unit
prefix, the letter i, the letter b. -/
structure SizeText where
  whole : List Char
  frac : List Char := []
  space : Bool := false
  unit : List Char := []
  i : List Char := []
  b : List Char := []

/-- The digits. -/
def decimalDigits : List Char := ['0', '1', '2', '3', '4', '5', '6', '7', '8', '9']

/-- The unit prefixes with their exponents of 1024. -/
def unitPrefixes : List (List Char × Nat) :=
  [([], 0), (['k'], 1), (['K'], 1), (['m'], 2), (['M'], 2), (['g'], 3), (['G'], 3), (['t'], 4), (['T'], 4),
   (['p'], 5), (['P'], 5)]

/-- The text. -/
def SizeText.text (z : SizeText) : List Char :=
  z.whole ++ (if z.frac = [] then [] else '.' :: z.frac) ++ (if z.space then [' '] else []) ++ z.unit ++ z.i ++ z.b

/-- A size that obeys the grammar, with the exponent of its unit. -/
structure SizeText.Ok (z : SizeText) (e : Nat) : Prop where
  whole : z.whole ≠ [] ∧ ∀ c ∈ z.whole, c ∈ decimalDigits
  frac : ∀ c ∈ z.frac, c ∈ decimalDigits
  unit : (z.unit, e) ∈ unitPrefixes
  i : z.i ∈ [[], ['i'], ['I']]
  b : z.b ∈ [[], ['b'], ['B']]

/-- The natural number a list of digits denotes. -/
def digitsNumber : List Char → Nat
  | ds => ds.foldl (fun n c => 10 * n + (c.toNat - 48)) 0

/-- The number before the unit. -/
def SizeText.number (z : SizeText) : Rat :=
  (digitsNumber (z.whole ++ z.frac) : Rat) / ((10 ^ z.frac.length : Nat) : Rat)

/-- The printed names of the units. -/
def unitNames : List String := ["B", "KiB", "MiB", "GiB", "TiB", "PiB", "EiB"]

end Spec
end Drone
