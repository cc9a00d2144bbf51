import Verif.Model.Scanner
/-
What can be said of a reader without saying how it splits its bytes.
-/
namespace Drone.Spec
open Drone.Scan

/-- A reader that has a content: whatever is asked of it, it hands out the next part of it, possibly
nothing, or the rest of it together with an error (the end of the file is one).  It gets to its end: `left`
is a bound of the reads to come.  It never makes no progress for more than `maxIdle` reads in a row. -/
structure Holds {σ : Type} (R : Source σ) (maxIdle : Nat) (content : σ → Bytes) (left idle : σ → Nat) : Prop where
  /-- the contract of io.Reader -/
  fits : ∀ s n, (R.read s n).1.length ≤ n
  more : ∀ s n b s', 0 < n → R.read s n = (b, none, s') → content s = b ++ content s' ∧ left s' < left s
  last : ∀ s n b e s', 0 < n → R.read s n = (b, some e, s') → content s = b
  nothing : ∀ s n s', 0 < n → R.read s n = ([], none, s') → idle s' < idle s
  short : ∀ s, idle s ≤ maxIdle

/-- The reader hands out its last bytes before it says that there are no more, not together with it. -/
def Separately {σ : Type} (R : Source σ) : Prop := ∀ s n b e s', R.read s n = (b, some e, s') → b = []

/-- The last line, if no newline follows it, does not have exactly 65536 bytes. -/
def NoEdge (d : Bytes) : Prop :=
  ∀ front l, d = front ++ l → (front = [] ∨ front.getLast? = some 10) → (10 : UInt8) ∉ l → l.length ≠ 65536

end Drone.Spec
