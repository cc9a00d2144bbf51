/-
Trees that say the same although some texts are not read as strings, and the conditions under which
values can be put into a text without changing how it is read.
-/
import Verif.Spec.Block
import Verif.Spec.Fill

namespace Drone.Spec
open Yaml (Node Scalar)

mutual
/-- The second tree is the first one, except that texts may be read as something else than strings.
Texts with `keep` are strings in both. -/
inductive SameText (keep : String → Prop) : Node → Node → Prop
  | null : SameText keep .null .null
  | scalar {t r} : SameText keep (.scalar t r) (.scalar t r)
  | text {t r} : ¬ keep t → SameText keep (.scalar t .str) (.scalar t r)
  | seq {xs ys} : SameTexts keep xs ys → SameText keep (.seq xs) (.seq ys)
  | map {xs ys} : SameTextPairs keep xs ys → SameText keep (.map xs) (.map ys)
inductive SameTexts (keep : String → Prop) : List Node → List Node → Prop
  | nil : SameTexts keep [] []
  | cons {x y xs ys} : SameText keep x y → SameTexts keep xs ys → SameTexts keep (x :: xs) (y :: ys)
inductive SameTextPairs (keep : String → Prop) : List (Node × Node) → List (Node × Node) → Prop
  | nil : SameTextPairs keep [] []
  | cons {k k' v v' xs ys} : SameText keep k k' → SameText keep v v' → SameTextPairs keep xs ys →
      SameTextPairs keep ((k, v) :: xs) ((k', v') :: ys)
end

mutual
/-- The strings in a value. -/
def valueStrings : Value → List String
  | .str s => [s]
  | .seq xs => valuesStrings xs
  | .map kvs => pairsStrings kvs
  | _ => []
def valuesStrings : List Value → List String
  | [] => []
  | x :: xs => valueStrings x ++ valuesStrings xs
def pairsStrings : List (Value × Value) → List String
  | [] => []
  | (k, v) :: kvs => valueStrings k ++ valueStrings v ++ pairsStrings kvs
end

/-- The string is in a setting of the pipeline that is written out. -/
def InSettings (p : Pipeline) (s : String) : Prop :=
  ∃ c, (some c ∈ p.steps ∨ some c ∈ p.services) ∧ ∃ k q, (k, some q) ∈ c.settings ∧ q.secret = "" ∧ s ∈ valueStrings q.value

/-! ### Texts -/

/-- The name of an axis: letters, digits and underscores. -/
def AxisName (k : List Char) : Prop := ∀ c ∈ k, c.isAlphanum = true ∨ c = '_'

/-- A value that can be put anywhere into a scalar: it could stand alone as a plain scalar, and has no
double quote, backslash or dollar sign. -/
structure AxisValue (v : List Char) : Prop where
  plain : PlainScalar v
  quote : '"' ∉ v
  backslash : '\\' ∉ v
  dollar : '$' ∉ v

/-- No printable ASCII character is written by its code. -/
def HexFree (t : List Char) : Prop :=
  ∀ e n ds x, (e, n) ∈ hexEscapes → ds.length = n → Hex ds x → 0x20 ≤ x → x < 0x7f → ¬ ('\\' :: e :: ds <:+: t)

/-- The lines of a text: none is a document marker, none looks like the start of a folded block. -/
def TidyLines (t : List Char) : Prop :=
  ∃ ls : List (List Char), t = ls.flatMap (· ++ ['\n']) ∧
    ∀ l ∈ ls, '\n' ∉ l ∧ ¬ ['-', '-', '-'] <+: l ∧ ¬ ['.', '.', '.'] <+: l ∧ ¬ [' ', '>'] <:+ l

mutual
/-- The texts of a tree that are not keys. -/
def leaves : Node → List String
  | .null => []
  | .scalar t _ => [t]
  | .seq xs => leavesList xs
  | .map kvs => leavesEntries kvs
def leavesList : List Node → List String
  | [] => []
  | x :: xs => leaves x ++ leavesList xs
def leavesEntries : List (Node × Node) → List String
  | [] => []
  | (_, v) :: kvs => leaves v ++ leavesEntries kvs
end

mutual
/-- The keys of a tree. -/
def names : Node → List String
  | .null => []
  | .scalar _ _ => []
  | .seq xs => namesList xs
  | .map kvs => namesEntries kvs
def namesList : List Node → List String
  | [] => []
  | x :: xs => names x ++ namesList xs
def namesEntries : List (Node × Node) → List String
  | [] => []
  | (k, v) :: kvs => leaves k ++ names v ++ namesEntries kvs
end

end Drone.Spec
