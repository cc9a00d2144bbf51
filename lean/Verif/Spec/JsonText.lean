/-
The grammar of JSON texts (RFC 8259): which texts stand for which trees.  Nothing here refers to the
reader or the writer.
-/
import Verif.Model.ManifestJson
import Verif.Spec.Json
import Verif.Spec.FloatText

namespace Drone.Spec
namespace JsonGrammar
open Json (Tree)

/-- White space. -/
def Blank (s : List Char) : Prop := ∀ c ∈ s, c = ' ' ∨ c = '\t' ∨ c = '\n' ∨ c = '\r'

/-- `\uXXXX` -/
def CodeUnit (u : List Char) (n : Nat) : Prop :=
  ∃ a b c d w x y z, u = ['\\', 'u', a, b, c, d] ∧ hexValue a = some w ∧ hexValue b = some x ∧ hexValue c = some y ∧
    hexValue d = some z ∧ n = 4096 * w + 256 * x + 16 * y + z

/-- The two halves of a surrogate pair. -/
def Pair (hi lo : Nat) : Prop := 0xD800 ≤ hi ∧ hi < 0xDC00 ∧ 0xDC00 ≤ lo ∧ lo < 0xE000

/-- What stands between the quotes of a string, and the string.  A half of a surrogate pair without the
other half is replaced by U+FFFD, on which RFC 8259 does not decide. -/
inductive Chars : List Char → List Char → Prop where
  | nil : Chars [] []
  | plain {c : Char} {s v : List Char} : ¬ c.toNat < 0x20 → c ≠ '"' → c ≠ '\\' → Chars s v → Chars (c :: s) (c :: v)
  | short {e c : Char} {s v : List Char} : simpleEscape e = some c → Chars s v → Chars ('\\' :: e :: s) (c :: v)
  | unit {u s v : List Char} {c : Char} : CodeUnit u c.toNat → Chars s v → Chars (u ++ s) (c :: v)
  | pair {u u' s v : List Char} {hi lo : Nat} {c : Char} : CodeUnit u hi → CodeUnit u' lo → Pair hi lo →
      c.toNat = (hi - 0xD800) * 0x400 + (lo - 0xDC00) + 0x10000 → Chars s v → Chars (u ++ (u' ++ s)) (c :: v)
  | lone {u s v : List Char} {n : Nat} : CodeUnit u n → 0xD800 ≤ n → n < 0xE000 →
      (¬ ∃ u' lo s', s = u' ++ s' ∧ CodeUnit u' lo ∧ Pair n lo) → Chars s v → Chars (u ++ s) ('�' :: v)

/-- Digits without a zero in front. -/
def Natural (s : List Char) : Prop := AllDigits s ∧ (s.head? = some '0' → s = ['0'])

/-- The exponent of a number; none is zero. -/
inductive Exponent : List Char → Int → Prop where
  | none : Exponent [] 0
  | some {e : Char} {ds : List Char} : e = 'e' ∨ e = 'E' → AllDigits ds → Exponent (e :: ds) (digitsNumber ds)
  | plus {e : Char} {ds : List Char} : e = 'e' ∨ e = 'E' → AllDigits ds → Exponent (e :: '+' :: ds) (digitsNumber ds)
  | minus {e : Char} {ds : List Char} : e = 'e' ∨ e = 'E' → AllDigits ds →
      Exponent (e :: '-' :: ds) (-(digitsNumber ds : Int))

/-- The digits after the decimal point, and their text. -/
inductive Fraction : List Char → List Char → Prop where
  | none : Fraction [] []
  | some {ds : List Char} : AllDigits ds → Fraction ('.' :: ds) ds

/-- A number without a sign; one with a fraction or exponent is read as the nearest floating point
number. -/
inductive Unsigned (sign : Int) : List Char → Tree → Prop where
  | int {w : List Char} : Natural w → Unsigned sign w (.int (sign * digitsNumber w))
  | float {w f ds x : List Char} {e : Int} : Natural w → Fraction f ds → Exponent x e → f ++ x ≠ [] →
      Unsigned sign (w ++ (f ++ x))
        (.float (toFloat64 (sign * ((digitsNumber (w ++ ds) : Rat) * (10 : Rat) ^ (e - (ds.length : Int))))))

/-- A number. -/
inductive Number : List Char → Tree → Prop where
  | pos {s : List Char} {t : Tree} : Unsigned 1 s t → Number s t
  | neg {s : List Char} {t : Tree} : Unsigned (-1) s t → Number ('-' :: s) t

mutual
/-- A value. -/
inductive Text : List Char → Tree → Prop where
  | null : Text ['n', 'u', 'l', 'l'] .null
  | true : Text ['t', 'r', 'u', 'e'] (.bool true)
  | false : Text ['f', 'a', 'l', 's', 'e'] (.bool false)
  | num {s : List Char} {t : Tree} : Number s t → Text s t
  | str {s v : List Char} : Chars s v → Text ('"' :: (s ++ ['"'])) (.str (String.ofList v))
  | noItems {b : List Char} : Blank b → Text ('[' :: (b ++ [']'])) (.arr [])
  | arr {s : List Char} {ts : List Tree} : Items s ts → Text ('[' :: (s ++ [']'])) (.arr ts)
  | noMembers {b : List Char} : Blank b → Text ('{' :: (b ++ ['}'])) (.obj [])
  | obj {s : List Char} {kvs : List (String × Tree)} : Members s kvs → Text ('{' :: (s ++ ['}'])) (.obj kvs)
/-- The elements of a list. -/
inductive Items : List Char → List Tree → Prop where
  | one {a s b : List Char} {t : Tree} : Blank a → Text s t → Blank b → Items (a ++ (s ++ b)) [t]
  | cons {a s b r : List Char} {t : Tree} {ts : List Tree} : Blank a → Text s t → Blank b → Items r ts →
      Items (a ++ (s ++ (b ++ ',' :: r))) (t :: ts)
/-- The members of an object. -/
inductive Members : List Char → List (String × Tree) → Prop where
  | one {a k v b c s d : List Char} {t : Tree} : Blank a → Chars k v → Blank b → Blank c → Text s t → Blank d →
      Members (a ++ '"' :: (k ++ '"' :: (b ++ ':' :: (c ++ (s ++ d))))) [(String.ofList v, t)]
  | cons {a k v b c s d r : List Char} {t : Tree} {kvs : List (String × Tree)} : Blank a → Chars k v → Blank b →
      Blank c → Text s t → Blank d → Members r kvs →
      Members (a ++ '"' :: (k ++ '"' :: (b ++ ':' :: (c ++ (s ++ (d ++ ',' :: r)))))) ((String.ofList v, t) :: kvs)
end

/-- The text stands for the tree. -/
def IsText (s : List Char) (t : Tree) : Prop := ∃ a u b, Blank a ∧ Text u t ∧ Blank b ∧ s = a ++ (u ++ b)

mutual
/-- All numbers of the tree that are not integers are doubles that are not whole numbers below 1e21. -/
def Doubles : Tree → Prop
  | .float q => Float64 q ∧ ¬ (q.den = 1 ∧ |q| < 10 ^ 21)
  | .arr xs => DoublesList xs
  | .obj kvs => DoublesEntries kvs
  | _ => True
def DoublesList : List Tree → Prop
  | [] => True
  | t :: ts => Doubles t ∧ DoublesList ts
def DoublesEntries : List (String × Tree) → Prop
  | [] => True
  | (_, t) :: kvs => Doubles t ∧ DoublesEntries kvs
end

end JsonGrammar
end Drone.Spec
