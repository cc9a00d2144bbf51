/-
Slices of strings as Go has them: a slice is a window on an array that others may look at too, and
`append` writes into that array if there is room.  The rest of the model treats lists as values.
That is right only as long as nobody sees these writes.  This file models the two places of the
code that append to a list they did not make themselves; all other calls of `append` extend a list
that was made in the same function and is kept nowhere else.
-/
import Verif.Model.Types

namespace Drone
namespace Slices

/-- The arrays; the address of an array is its number. -/
abbrev Heap := List (List String)

/-- The cells of an array. -/
def cells (h : Heap) (a : Nat) : List String := h.getD a []

/-- `[]string`: array, first cell, length and capacity.  The nil slice has capacity 0. -/
structure Slice where
  arr : Nat := 0
  off : Nat := 0
  len : Nat := 0
  cap : Nat := 0
  deriving DecidableEq, Repr, Inhabited

/-- What a slice shows. -/
def contents (h : Heap) (s : Slice) : List String := ((cells h s.arr).drop s.off).take s.len

/-- Writes `xs` into the cells from number `i` on. -/
def overwrite (l : List String) (i : Nat) (xs : List String) : List String :=
  l.take i ++ xs ++ l.drop (i + xs.length)

/-- `append(s, xs...)`: in place if the capacity suffices, otherwise in a new array, with `grow n`
cells to spare for `n` elements. -/
def append (grow : Nat → Nat) (h : Heap) (s : Slice) (xs : List String) : Heap × Slice :=
  let n := s.len + xs.length
  if n ≤ s.cap then (h.set s.arr (overwrite (cells h s.arr) (s.off + s.len) xs), { s with len := n })
  else (h ++ [contents h s ++ xs ++ List.replicate (grow n) ""], { arr := h.length, len := n, cap := n + grow n })

/-- The lists of a GitLab job (/repo/yaml/converter/gitlab/config.go:58-70) -/
structure Job where
  before : Slice
  script : Slice
  after : Slice
  deriving Repr, Inhabited

/-- /repo/yaml/converter/gitlab/convert.go:48-52; `before` and `after` are the lists of the file. -/
def jobCommands (grow : Nat → Nat) (before after : Slice) (h : Heap) (j : Job) : Heap × Slice :=
  let r := append grow h before (contents h j.before)
  let r := append grow r.1 r.2 (contents r.1 j.script)
  let r := append grow r.1 r.2 (contents r.1 j.after)
  append grow r.1 r.2 (contents r.1 after)

/-- The loops over the stages and jobs (/repo/yaml/converter/gitlab/convert.go:39-76), as far as the
commands go: one list for each step, in the order in which they are made. -/
def jobLoop (grow : Nat → Nat) (before after : Slice) : Heap → List Job → Heap × List Slice
  | h, [] => (h, [])
  | h, j :: js =>
    let r := jobCommands grow before after h j
    let rs := jobLoop grow before after r.1 js
    (rs.1, r.2 :: rs.2)

/-- What a container is: the automatic clone step, a service or a step. -/
inductive Kind where
  | clone | service | step
  deriving DecidableEq, Repr

/-- The dependencies of a container (/repo/yaml/compiler/step.go:37 and 160, and
/repo/yaml/compiler/compiler.go:180-182 and 219-221); `add` is
`isSerial == false && from.Clone.Disable == false`. -/
def addClone (grow : Nat → Nat) (add : Bool) (h : Heap) (k : Kind) (s : Slice) : Heap × Slice :=
  match k with
  | .clone => (h, s)
  | .service => if add then append grow h s ["clone"] else (h, s)
  | .step => if add && s.len = 0 then append grow h s ["clone"] else (h, s)

/-- The loops over the containers (/repo/yaml/compiler/compiler.go:144-223), as far as the
dependencies go. -/
def depsLoop (grow : Nat → Nat) (add : Bool) : Heap → List (Kind × Slice) → Heap × List Slice
  | h, [] => (h, [])
  | h, (k, s) :: l =>
    let r := addClone grow add h k s
    let rs := depsLoop grow add r.1 l
    (rs.1, r.2 :: rs.2)

end Slices
end Drone
