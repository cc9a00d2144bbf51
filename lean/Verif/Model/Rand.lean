/- Package rand (/repo/yaml/compiler/internal/rand/rand.go). -/
namespace Drone
namespace Rand

/-- /repo/yaml/compiler/internal/rand/rand.go:21 -/
def chars : List Char := "abcdefghijklmnopqrstuvwxyz0123456789".toList

/-- /repo/yaml/compiler/internal/rand/rand.go:24 -/
def length : Nat := 32

/-- `maxrb` (/repo/yaml/compiler/internal/rand/rand.go:28-29) -/
def maxrb : Nat := 255 - (256 % chars.length)

/-- State of the function between two bytes. -/
inductive Out where
  /-- returned this string -/
  | done (s : List Char)
  /-- still running with these characters in `b[:i]` -/
  | more (b : List Char)
  deriving DecidableEq, Repr

/-- The inner loop over one block
(/repo/yaml/compiler/internal/rand/rand.go:37-48). -/
def scanBlock (b : List Char) : List UInt8 → Out
  | [] => .more b
  | rb :: r =>
    let c := rb.toNat
    if c > maxrb then scanBlock b r
    else
      let b' := b ++ [chars.getD (c % chars.length) ' ']
      if b'.length = length then .done b' else scanBlock b' r

/-- The outer loop (/repo/yaml/compiler/internal/rand/rand.go:33-49) on the blocks
returned by successive calls of `rand.Read`; `more` if they do not suffice.  The
panic on a failing read is not modelled. -/
def readBlocks (b : List Char) : List (List UInt8) → Out
  | [] => .more b
  | r :: rs => match scanBlock b r with
    | .done s => .done s
    | .more b' => readBlocks b' rs

/-- `String` (/repo/yaml/compiler/internal/rand/rand.go:27-50) -/
def string (blocks : List (List UInt8)) : Out := readBlocks [] blocks

end Rand
end Drone
