/-
Rounding of IEEE 754 binary64, as the Go specification prescribes for `float64` arithmetic and as
`toCPUMillis` (/repo/yaml/compiler/convert.go:92-97) needs it.  Infinities are not modelled: the
result for numbers beyond the largest finite one is the number with unbounded exponent.
-/

namespace Drone.F64

/-- The power of two. -/
def pow2 (e : Int) : Rat := if 0 ≤ e then ((2 ^ e.toNat : Nat) : Rat) else 1 / ((2 ^ (-e).toNat : Nat) : Rat)

/-- The exponent of the highest bit of a positive number. -/
def top (q : Rat) : Int :=
  let k : Int := (q.num.toNat.log2 : Int) - (q.den.log2 : Int)
  if pow2 k ≤ q then k else k - 1

/-- To the nearest integer, ties to even. -/
def nearest (x : Rat) : Int :=
  let f := x.floor
  if x - f < 1 / 2 then f else if 1 / 2 < x - f then f + 1 else if f % 2 = 0 then f else f + 1

/-- The exponent of the last bit of the 53 bits of a positive number; numbers below the normal
range have fewer bits. -/
def last (q : Rat) : Int := max (top q - 52) (-1074)

/-- Rounding of a positive number. -/
def round (q : Rat) : Rat := nearest (q / pow2 (last q)) * pow2 (last q)

end Drone.F64
