/-
A simple way to write a tree as a block text.  It is no part of the code: it shows that there is a
library that writes trees so that they are read back.  Strings are written in double quotes.
-/
import Verif.Spec.Block
import Verif.Model.Script

namespace Drone.Spec
open Yaml (Node Scalar)

/-- A value on one line; `print` are the characters that are not escaped. -/
def inlineText (print : Char → Bool) : Node → List Char
  | .null => "null".toList
  | .scalar t .str => Script.quote print t.toList
  | .scalar t _ => t.toList
  | .seq _ => ['[', ']']
  | .map _ => ['{', '}']

/-- The value fits on the line. -/
def isInline : Node → Bool
  | .seq (_ :: _) => false
  | .map (_ :: _) => false
  | _ => true

/-- A dash before the first line. -/
def dashFirst (c : Nat) : List (Nat × List Char) → List (Nat × List Char)
  | [] => []
  | (_, t) :: ls => (c, '-' :: ' ' :: t) :: ls

mutual
/-- The lines of a tree that starts at a column, with their columns. -/
def nodeLines (print : Char → Bool) (c : Nat) : Node → List (Nat × List Char)
  | .seq xs => if xs.isEmpty then [(c, ['[', ']'])] else itemLines print c xs
  | .map kvs => if kvs.isEmpty then [(c, ['{', '}'])] else entryLines print c kvs
  | n => [(c, inlineText print n)]
def itemLines (print : Char → Bool) (c : Nat) : List Node → List (Nat × List Char)
  | [] => []
  | x :: xs => dashFirst c (nodeLines print (c + 2) x) ++ itemLines print c xs
def entryLines (print : Char → Bool) (c : Nat) : List (Node × Node) → List (Nat × List Char)
  | [] => []
  | (k, v) :: kvs =>
    (if isInline v then [(c, inlineText print k ++ ':' :: ' ' :: inlineText print v)]
      else (c, inlineText print k ++ [':']) :: nodeLines print (c + 2) v) ++ entryLines print c kvs
end

/-- A line. -/
def lineText (l : Nat × List Char) : List Char := List.replicate l.1 ' ' ++ l.2

/-- The text of a tree. -/
def blockText (print : Char → Bool) (n : Node) : String :=
  String.ofList ((nodeLines print 0 n).flatMap fun l => lineText l ++ ['\n'])

/-- A scalar that is not a string is written plain and read as what it is. -/
def ScalarOk (R : Resolver) (t : String) : Scalar → Prop
  | .str => True
  | r => PlainScalar t.toList ∧ R.plain t = some r ∧ ¬ ['-', '-', '-'] <+: t.toList ∧ ¬ ['.', '.', '.'] <+: t.toList

/-- A key: a scalar that is not too long. -/
def KeyOk (R : Resolver) (print : Char → Bool) : Node → Prop
  | .null => True
  | .scalar t r => ScalarOk R t r ∧ (inlineText print (.scalar t r)).length ≤ 1024 ∧ inlineText print (.scalar t r) ≠ ['<', '<']
  | _ => False

mutual
/-- The tree can be written. -/
def Writable (R : Resolver) (print : Char → Bool) : Node → Prop
  | .null => True
  | .scalar t r => ScalarOk R t r
  | .seq xs => WritableList R print xs
  | .map kvs => WritableEntries R print kvs
def WritableList (R : Resolver) (print : Char → Bool) : List Node → Prop
  | [] => True
  | x :: xs => Writable R print x ∧ WritableList R print xs
def WritableEntries (R : Resolver) (print : Char → Bool) : List (Node × Node) → Prop
  | [] => True
  | (k, v) :: kvs => KeyOk R print k ∧ Writable R print v ∧ WritableEntries R print kvs
end

end Drone.Spec
