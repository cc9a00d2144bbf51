import Verif.Model.Cond
/-
`path.Match` of the Go standard library (path/match.go), with which the pipeline of a Bitbucket file
is chosen (/repo/yaml/converter/bitbucket/config.go:78, 85), modelled from its published source.

Simplified: strings are lists of characters instead of bytes.  The search behind a star goes from byte to
byte in Go, so that a `?` or a class behind a star can stand for a part of a character there; for names in
ASCII there is no difference.
-/
namespace Drone.PathMatch

abbrev Str := List Char

/-- `scanChunk` behind the stars: the text up to the next star outside of brackets, and the rest -/
def scanTo (inrange : Bool) : Str → Str × Str
  | [] => ([], [])
  | '\\' :: c :: cs => ('\\' :: c :: (scanTo inrange cs).1, (scanTo inrange cs).2)
  | '[' :: cs => ('[' :: (scanTo true cs).1, (scanTo true cs).2)
  | ']' :: cs => (']' :: (scanTo false cs).1, (scanTo false cs).2)
  | '*' :: cs => if inrange then ('*' :: (scanTo inrange cs).1, (scanTo inrange cs).2) else ([], '*' :: cs)
  | c :: cs => (c :: (scanTo inrange cs).1, (scanTo inrange cs).2)

/-- `scanChunk` -/
def scanChunk (p : Str) : Bool × Str × Str :=
  (decide (p.head? = some '*'), scanTo false (p.dropWhile (· = '*')))

/-- `getEsc`: one end of a range, and what follows; `none` for a bad pattern -/
def getEsc : Str → Option (Char × Str)
  | [] => none
  | c :: cs =>
    if c = '-' ∨ c = ']' then none
    else if c = '\\' then
      match cs with
      | [] => none
      | d :: ds => if ds = [] then none else some (d, ds)
    else if cs = [] then none else some (c, cs)

/-- The loop over the ranges of a class: whether one of them has the character, and what follows the
class.  The number bounds the rounds. -/
def ranges (x : Char) : Nat → Bool → Bool → Str → Option (Bool × Str)
  | 0, _, _, _ => none
  | n + 1, m, seen, p =>
    if p.head? = some ']' ∧ seen then some (m, p.tail)
    else
      match getEsc p with
      | none => none
      | some (lo, rest) =>
        if rest.head? = some '-' then
          match getEsc rest.tail with
          | none => none
          | some (hi, rest) => ranges x n (m || decide (lo ≤ x ∧ x ≤ hi)) true rest
        else ranges x n (m || decide (lo ≤ x ∧ x ≤ lo)) true rest

/-- Result of `matchChunk`: what follows, no match, or `ErrBadPattern` -/
inductive Res where
  | ok (rest : Str)
  | no
  | bad
  deriving DecidableEq, Repr

/-- `matchChunk`; every round shortens the pattern, the number bounds the rounds -/
def matchChunk : Nat → Str → Str → Res
  | _, [], s => .ok s
  | _, _ :: _, [] => .no
  | 0, _ :: _, _ :: _ => .bad
  | n + 1, p :: ps, x :: xs =>
    if p = '[' then
      match ranges x (ps.length + 1) false false (if ps.head? = some '^' then ps.tail else ps) with
      | none => .bad
      | some (m, rest) => if m = decide (ps.head? ≠ some '^') then matchChunk n rest xs else .no
    else if p = '?' then
      if x = '/' then .no else matchChunk n ps xs
    else if p = '\\' then
      match ps with
      | [] => .bad
      | q :: qs => if q = x then matchChunk n qs xs else .no
    else if p = x then matchChunk n ps xs
    else .no

/-- The search behind a star: skips one character after the other, but no slash -/
def search (chunk : Str) (last : Bool) : Str → Option Str
  | [] => none
  | x :: xs =>
    if x = '/' then none
    else
      match matchChunk chunk.length chunk xs with
      | .ok t => if last ∧ t ≠ [] then search chunk last xs else some t
      | .no => search chunk last xs
      | .bad => none

/-- The loop of `Match`; every round shortens the pattern, the number bounds the rounds -/
def run : Nat → Str → Str → Bool
  | _, [], name => name = []
  | 0, _ :: _, _ => false
  | n + 1, p :: ps, name =>
    let star := (scanChunk (p :: ps)).1
    let chunk := (scanChunk (p :: ps)).2.1
    let rest := (scanChunk (p :: ps)).2.2
    if star ∧ chunk = [] then '/' ∉ name
    else
      let skip := if star then
          match search chunk (rest = []) name with
          | some t => run n rest t
          | none => false
        else false
      match matchChunk chunk.length chunk name with
      | .ok t => if t = [] ∨ rest ≠ [] then run n rest t else skip
      | .bad => false
      | .no => skip

end Drone.PathMatch

namespace Drone

/-- `path.Match`, where an error counts as no match
(/repo/yaml/converter/bitbucket/config.go:78, 85) -/
def pathMatch : Glob := fun pattern name => PathMatch.run pattern.toList.length pattern.toList name.toList

end Drone
