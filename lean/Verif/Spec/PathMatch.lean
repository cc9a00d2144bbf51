import Verif.Model.Types
/-
The language of the patterns of `path.Match`, as its documentation gives it; independent of the model.
-/
namespace Drone.Spec.PathMatch

/-- A part of a pattern -/
inductive Part where
  | lit (c : Char)
  | any
  | star
  | cls (negated : Bool) (ranges : List (Char × Char))
  deriving DecidableEq, Repr

/-- The characters that a part other than a star stands for -/
def Part.Stands : Part → Char → Prop
  | .lit c, x => x = c
  | .any, x => x ≠ '/'
  | .star, _ => False
  | .cls neg rs, x => (∃ r ∈ rs, r.1 ≤ x ∧ x ≤ r.2) ↔ neg = false

/-- The names that a pattern stands for -/
inductive Names : List Part → List Char → Prop
  | nil : Names [] []
  | one {e x p s} : e.Stands x → Names p s → Names (e :: p) (x :: s)
  | none {p s} : Names p s → Names (.star :: p) s
  | more {x p s} : x ≠ '/' → Names (.star :: p) s → Names (.star :: p) (x :: s)

/-- One end of a range: a character, or a backslash and any character -/
inductive EndText : List Char → Char → Prop
  | plain {c} : c ∉ ['\\', '-', ']'] → EndText [c] c
  | escaped {c} : EndText ['\\', c] c

/-- A single character or a range -/
inductive RangeText : List Char → Char × Char → Prop
  | one {t c} : EndText t c → RangeText t (c, c)
  | range {t u lo hi} : EndText t lo → EndText u hi → RangeText (t ++ '-' :: u) (lo, hi)

/-- The ranges of a class: at least one -/
inductive RangesText : List Char → List (Char × Char) → Prop
  | last {t r} : RangeText t r → RangesText t [r]
  | cons {t u r rs} : RangeText t r → RangesText u rs → RangesText (t ++ u) (r :: rs)

/-- The texts of patterns -/
inductive Text : List Char → List Part → Prop
  | nil : Text [] []
  | lit {c t p} : c ∉ ['*', '?', '\\', '['] → Text t p → Text (c :: t) (.lit c :: p)
  | escaped {c t p} : Text t p → Text ('\\' :: c :: t) (.lit c :: p)
  | any {t p} : Text t p → Text ('?' :: t) (.any :: p)
  | star {t p} : Text t p → Text ('*' :: t) (.star :: p)
  | cls {u rs t p} : RangesText u rs → u.head? ≠ some '^' → Text t p → Text ('[' :: (u ++ ']' :: t)) (.cls false rs :: p)
  | notCls {u rs t p} : RangesText u rs → Text t p → Text ('[' :: '^' :: (u ++ ']' :: t)) (.cls true rs :: p)

/-- No class stands for a slash -/
def SlashFree (p : List Part) : Prop := ∀ neg rs, Part.cls neg rs ∈ p → ¬ (Part.cls neg rs).Stands '/'

/-- The pattern is well written and stands for the name. -/
def StandsFor (pattern name : String) : Prop := ∃ p, Text pattern.toList p ∧ Names p name.toList

/-- If the pattern is well written, its classes do not stand for a slash. -/
def Plain (pattern : String) : Prop := ∀ p, Text pattern.toList p → SlashFree p

/-- If the pattern is well written, it has fewer than two slashes. -/
def Shallow (pattern : String) : Prop := ∀ p, Text pattern.toList p → p.count (.lit '/') < 2

end Drone.Spec.PathMatch
