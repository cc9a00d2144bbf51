import Verif.Model.Types
/-
/repo/yaml/converter/legacy/matrix/matrix.go: the build matrix.
Panics (division by zero) are `none`.
-/
namespace Drone
namespace Matrix

/-- /repo/yaml/converter/legacy/matrix/matrix.go:14 -/
def limitTags : Nat := 10
/-- /repo/yaml/converter/legacy/matrix/matrix.go:15 -/
def limitAxis : Nat := 25

/-- Go's `int` wraps around at 64 bits. -/
def wrap64 (x : Int) : Int := (x + 2 ^ 63) % 2 ^ 64 - 2 ^ 63

/-- The loop at /repo/yaml/converter/legacy/matrix/matrix.go:63-69 (`perm`) -/
def permLoop (perm : Int) : GoMap (List String) → Int
  | [] => perm
  | (_, v) :: m =>
    let perm := wrap64 (perm * v.length)
    permLoop (if perm = 0 then (v.length : Int) else perm) m

/-- The inner loop at /repo/yaml/converter/legacy/matrix/matrix.go:78-88; `i` is the index of
the tag.  `perm` is positive here, so Go's division is that of `Nat`. -/
def axisLoop (m : GoMap (List String)) (p : Nat) (i decr : Nat) (axis : GoMap String) :
    List String → Option (GoMap String)
  | [] => some axis
  | tag :: tags =>
    let elems := (m.get? tag).getD []
    if elems.length = 0 then none
    else
      let decr := decr / elems.length
      if decr = 0 then none
      else
        let axis := axis.set tag (elems.getD (p / decr % elems.length) "")
        if i > limitTags then some axis else axisLoop m p (i + 1) decr axis tags

/-- The outer loop at /repo/yaml/converter/legacy/matrix/matrix.go:75-97; the first number
counts the remaining rounds `perm - p`. -/
def axesLoop (m : GoMap (List String)) (tags : List String) (perm : Nat) :
    Nat → Nat → List (GoMap String) → Option (List (GoMap String))
  | 0, _, acc => some acc
  | n + 1, p, acc =>
    (axisLoop m p 0 perm [] tags).bind fun axis =>
      let acc := acc ++ [axis]
      if p > limitAxis then some acc else axesLoop m tags perm n (p + 1) acc

/-- `calc` (/repo/yaml/converter/legacy/matrix/matrix.go:58-100); the tags are in iteration
order. -/
def axes (m : GoMap (List String)) : Option (List (GoMap String)) :=
  let perm := (permLoop 0 m).toNat
  axesLoop m m.keys perm perm 0 []

end Matrix
end Drone
