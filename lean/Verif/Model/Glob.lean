/-
The pattern matcher behind conditions: `doublestar.Match` of
github.com/bmatcuk/doublestar v1.1.1 (used at /repo/yaml/cond.go:17, 59, 70), modelled from its
published source.  Strings are lists of characters instead of bytes; invalid UTF-8 is not
modelled.  Conditions drop the error, so the result is a Boolean.
-/
import Verif.Model.Cond

namespace Drone
namespace Glob

abbrev Str := List Char

/-- Outcome of matching one component: `bad` is `ErrBadPattern`. -/
inductive Res where
  | yes | no | bad
  deriving DecidableEq, Repr

/-- `indexRuneWithEscaping`: the text before and after the first `r` that does not follow a
backslash; `esc` says whether the character before the text is a backslash. -/
def cutEsc (r : Char) (esc : Bool) : Str → Option (Str × Str)
  | [] => none
  | c :: cs =>
    if c = r ∧ esc = false then some ([], cs)
    else (cutEsc r (c = '\\') cs).map fun p => (c :: p.1, p.2)

/-- The loop of `splitPathOnSeparator`: `cur` is the component read so far.  Nothing is added
for an empty rest. -/
def splitLoop (sep : Char) (cur : Str) (esc : Bool) : Str → List Str
  | [] => if cur = [] then [] else [cur]
  | c :: cs =>
    if c = sep ∧ esc = false then cur :: splitLoop sep [] false cs
    else splitLoop sep (cur ++ [c]) (c = '\\') cs

/-- `splitPathOnSeparator` -/
def split (sep : Char) (s : Str) : List Str := if s = [] then [[]] else splitLoop sep [] false s

/-- One end of a range of a character class and what follows it: `none` for a bad pattern. -/
def classRune : Str → Option (Char × Str)
  | [] => none
  | c :: cs =>
    if c = '-' then none
    else if c = '\\' then
      match cs with
      | [] => none
      | d :: ds => some (d, ds)
    else some (c, cs)

/-- The loop over a character class; the number bounds the rounds. -/
def classLoop (x : Char) : Nat → Bool → Str → Option Bool
  | 0, _, _ => none
  | _ + 1, m, [] => some m
  | n + 1, m, c :: cs =>
    match classRune (c :: cs) with
    | none => none
    | some (low, rest) =>
      match rest with
      | '-' :: rest =>
        match classRune rest with
        | none => none
        | some (high, rest) => classLoop x n (m || decide (low ≤ x ∧ x ≤ high)) rest
      | rest => classLoop x n (m || decide (low ≤ x ∧ x ≤ low)) rest

/-- Does the character class match the character? -/
def classMatch (cls : Str) (x : Char) : Res :=
  match cls with
  | [] => .bad
  | c :: cs =>
    match classLoop x (cls.length + 1) false (if c = '^' then cs else c :: cs) with
    | none => .bad
    | some m => if m = decide (c = '^') then .no else .yes

/-- The non-empty endings of a list, longest first. -/
def endings {α : Type} : List α → List (List α)
  | [] => []
  | a :: as => (a :: as) :: endings as

/-- The checks at the beginning of `matchComponent`; `loop` is its loop. -/
def enter (loop : Str → Str → Res) (p s : Str) : Res :=
  if p = [] ∧ s = [] then .yes
  else if p = [] then .no
  else if s = [] ∧ p ≠ ['*'] then .no
  else loop p s

/-- The loop over alternatives. -/
def firstOption (f : Str → Res) : List Str → Res
  | [] => .no
  | o :: os =>
    match f o with
    | .bad => .bad
    | .yes => .yes
    | .no => firstOption f os

/-- The loop of `matchComponent`.  Every round shortens the pattern; the number bounds the
rounds. -/
def matchLoop : Nat → Str → Str → Res
  | _, [], [] => .yes
  | _, [], _ :: _ => .no
  | _, p :: ps, [] => if p :: ps = ['*'] ∨ p :: ps = ['*', '*'] then .yes else .no
  | 0, _ :: _, _ :: _ => .bad
  | n + 1, p :: ps, c :: cs =>
    if p = '\\' then
      match ps with
      | [] => .bad
      | q :: qs => if q.toNat = 0xfffd then .bad else if q = c then matchLoop n qs cs else .no
    else if p = '*' then
      if ps = [] then .yes
      else if (endings (c :: cs)).any (fun t => enter (matchLoop n) ps t = .yes) then .yes else .no
    else if p = '[' then
      match cutEsc ']' false ps with
      | none => .bad
      | some (cls, rest) =>
        match classMatch cls c with
        | .bad => .bad
        | .no => .no
        | .yes => matchLoop n rest cs
    else if p = '{' then
      match cutEsc '}' false ps with
      | none => .bad
      | some (opts, rest) => firstOption (fun o => enter (matchLoop n) (o ++ rest) (c :: cs)) (split ',' opts)
    else if p = '?' ∨ p = c then matchLoop n ps cs
    else .no

/-- `matchComponent` -/
def matchComponent (p s : Str) : Res := enter (matchLoop p.length) p s

/-- `doMatching` -/
def doMatching : List Str → List Str → Bool
  | [], [] => true
  | [], _ :: _ => false
  | _ :: _, [] => false
  | p :: ps, n :: ns =>
    if p = ['*', '*'] then
      if ps = [] then true else (endings (n :: ns)).any (doMatching ps)
    else decide (matchComponent p n = .yes) && doMatching ps ns

end Glob

/-- `doublestar.Match`, without the error -/
def doublestar : Glob := fun pattern name =>
  Glob.doMatching (Glob.split '/' pattern.toList) (Glob.split '/' name.toList)

end Drone
