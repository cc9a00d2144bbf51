import Mathlib.Data.List.Basic
/-
How YAML 1.1 (as implemented by gopkg.in/yaml.v2, scannerc.go) reads scalars that fit
on one line of a block.  Independent of the model of the printer.
-/
namespace Drone.Spec

/-- Characters that may stand for themselves: what the YAML reader accepts, without line
breaks and tabs. -/
def Unescaped (c : Char) : Prop :=
  (0x20 ≤ c.toNat ∧ c.toNat ≤ 0x7e) ∨
  (0xa0 ≤ c.toNat ∧ c.toNat ≠ 0x2028 ∧ c.toNat ≠ 0x2029 ∧ c.toNat ≠ 0xfeff ∧ c.toNat ≠ 0xfffe ∧
    c.toNat ≠ 0xffff)

/-- Value of a hexadecimal digit. -/
def hexTable : List (Char × Nat) :=
  [('0', 0), ('1', 1), ('2', 2), ('3', 3), ('4', 4), ('5', 5), ('6', 6), ('7', 7), ('8', 8), ('9', 9),
   ('a', 10), ('b', 11), ('c', 12), ('d', 13), ('e', 14), ('f', 15),
   ('A', 10), ('B', 11), ('C', 12), ('D', 13), ('E', 14), ('F', 15)]

/-- Hexadecimal digits, most significant first, and their value. -/
inductive Hex : List Char → Nat → Prop
  | nil : Hex [] 0
  | snoc {ds n d v} : Hex ds n → (d, v) ∈ hexTable → Hex (ds ++ [d]) (16 * n + v)

/-- One character escapes. -/
def escapes : List (Char × Char) :=
  [('0', '\x00'), ('a', '\x07'), ('b', '\x08'), ('t', '\t'), ('n', '\n'), ('v', '\x0b'), ('f', '\x0c'),
   ('r', '\r'), ('e', '\x1b'), (' ', ' '), ('"', '"'), ('\'', '\''), ('\\', '\\'),
   ('N', Char.ofNat 0x85), ('_', Char.ofNat 0xa0), ('L', Char.ofNat 0x2028), ('P', Char.ofNat 0x2029)]

/-- Escapes by character code and the number of digits they take. -/
def hexEscapes : List (Char × Nat) := [('x', 2), ('u', 4), ('U', 8)]

/-- `DoubleQuoted text value rest`: reading `text` after an opening quote gives `value`
and stops after the closing quote, before `rest`. -/
inductive DoubleQuoted : List Char → List Char → List Char → Prop
  | close {rest} : DoubleQuoted ('"' :: rest) [] rest
  | char {c t v r} : Unescaped c → c ≠ '"' → c ≠ '\\' → DoubleQuoted t v r → DoubleQuoted (c :: t) (c :: v) r
  | esc {e c t v r} : (e, c) ∈ escapes → DoubleQuoted t v r → DoubleQuoted ('\\' :: e :: t) (c :: v) r
  | hex {e n ds c t v r} : (e, n) ∈ hexEscapes → ds.length = n → Hex ds c.toNat → DoubleQuoted t v r →
      DoubleQuoted ('\\' :: e :: (ds ++ t)) (c :: v) r

/-- Characters that cannot begin a plain scalar. -/
def indicators : List Char :=
  [',', '[', ']', '{', '}', '#', '&', '*', '!', '|', '>', '\'', '"', '%', '@', '`']

/-- `s` on the rest of a line is read as the plain scalar `s`. -/
structure PlainScalar (s : List Char) : Prop where
  chars : ∀ c ∈ s, Unescaped c
  first : ∃ c t, s = c :: t ∧ c ≠ ' ' ∧ c ∉ indicators ∧ (c ∈ ['-', '?', ':'] → ∃ d u, t = d :: u ∧ d ≠ ' ')
  last : s.getLast? ≠ some ' ' ∧ s.getLast? ≠ some ':'
  colon : ¬ [':', ' '] <:+: s
  comment : ¬ [' ', '#'] <:+: s

end Drone.Spec
