import Verif.Model.Types
import Mathlib.Data.List.Forall2
/-
Independent vocabulary for texts made of lines (no model definitions used).
-/
namespace Drone.Spec

/-- Lines joined, each followed by a newline. -/
def unlines (ls : List Bytes) : Bytes := ls.flatMap (fun l => l ++ [10])

/-- `ls` are the lines of `data`: newline free pieces which, each followed by a
newline, give back `data`, where the last newline of `data` may be missing. -/
def IsLines (data : Bytes) (ls : List Bytes) : Prop :=
  (∀ l ∈ ls, (10 : UInt8) ∉ l) ∧
  (unlines ls = data ∨ (unlines ls = data ++ [10] ∧ data ≠ [] ∧ data.getLast? ≠ some 10))

/-- A line without one trailing carriage return. -/
def ChopsTo (l l' : Bytes) : Prop :=
  l = l' ++ [13] ∨ (l = l' ∧ ∀ p, l ≠ p ++ [13])

/-- `l` begins with `---`. -/
def SepLine (l : Bytes) : Prop := ∃ r, l = [45, 45, 45] ++ r

/-- `l` begins with `...`. -/
def TermLine (l : Bytes) : Prop := ∃ r, l = [46, 46, 46] ++ r

/-- `Cut ls docs`: cutting `ls` at every separator line and nowhere else gives
the first piece (before any separator) and the pieces that follow separators. -/
inductive Cut : List Bytes → List Bytes → List (List Bytes) → Prop
  | nil : Cut [] [] []
  | sep {l ls first rest} : SepLine l → Cut ls first rest → Cut (l :: ls) [] (first :: rest)
  | line {l ls first rest} : ¬ SepLine l → Cut ls first rest → Cut (l :: ls) (l :: first) rest

/-- The first line is a separator. -/
def StartsWithSep (ls : List Bytes) : Prop := ∃ l ls', ls = l :: ls' ∧ SepLine l

/-- `Documents ls docs`: `docs` are the documents of a file with lines `ls`. -/
def Documents (ls : List Bytes) (docs : List Bytes) : Prop :=
  ∃ (shown hidden : List Bytes) (first : List Bytes) (rest : List (List Bytes)),
    ls = shown ++ hidden ∧ (∀ l ∈ shown, ¬ TermLine l) ∧
    (hidden = [] ∨ ∃ t ts, hidden = t :: ts ∧ TermLine t) ∧
    Cut shown first rest ∧
    ((ls = [] ∨ StartsWithSep ls) → docs = rest.map unlines) ∧
    (¬ (ls = [] ∨ StartsWithSep ls) → docs = unlines first :: rest.map unlines)

/-- What the line reader sees of the lines of a file: the lines up to the first
line of 65536 bytes or more, each without one trailing carriage return. -/
def Visible (ls vis : List Bytes) : Prop :=
  ∃ short tail : List Bytes, ls = short ++ tail ∧ (∀ l ∈ short, l.length < 65536) ∧
    (tail = [] ∨ ∃ t ts, tail = t :: ts ∧ 65536 ≤ t.length) ∧
    List.Forall₂ ChopsTo short vis

end Drone.Spec
