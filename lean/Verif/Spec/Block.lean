import Verif.Spec.Yaml
import Verif.Model.Node
/-
How YAML block text is read as a tree: a conservative part of the grammar.  Where `Reads` gives a
tree, gopkg.in/yaml.v2 reads the text as that tree (trusted, see DESIGN.md); text outside this part
says nothing.  Independent of the model of the printer.

Left out: comments, anchors, tags, flow collections other than `[]` and `{}`, single quotes, literal
blocks, scalars over several lines other than folded blocks of non-empty lines of one indentation,
complex keys, and a lone dash.
-/
namespace Drone.Spec
open Yaml (Node Scalar)

/-- What a plain scalar resolves to; `none` is null (resolve.go of yaml.v2). -/
structure Resolver where
  plain : String → Option Scalar
  null_iff : ∀ s, plain s = none ↔ s ∈ ["", "~", "null", "Null", "NULL"]
  plain_true : plain "true" = some (.bool true)
  plain_false : plain "false" = some (.bool false)
  /-- decimal numbers that fit into 64 bits -/
  plain_int : ∀ i : Int, -2 ^ 63 ≤ i → i < 2 ^ 63 → plain (toString i) = some (.int i)

variable (R : Resolver)

/-- The node of a plain scalar. -/
def plainNode (s : String) : Node :=
  match R.plain s with
  | none => .null
  | some r => .scalar s r

/-- Scalars on one line. -/
inductive ScalarText : List Char → Node → Prop
  | plain {s} : PlainScalar s → ScalarText s (plainNode R (String.ofList s))
  | quoted {t v} : DoubleQuoted t v [] → ScalarText ('"' :: t) (.scalar (String.ofList v) .str)

/-- Values on one line. -/
inductive Atom : List Char → Node → Prop
  | scalar {t n} : ScalarText R t n → Atom t n
  | emptySeq : Atom ['[', ']'] (.seq [])
  | emptyMap : Atom ['{', '}'] (.map [])

/-- A piece of a line and its column. -/
inductive Tok where
  /-- the dash of a list item -/
  | dash (c : Nat)
  /-- a key with its colon, and the value behind it on the same line -/
  | key (c : Nat) (k : Node) (v : Option Node)
  /-- a value that is not behind a key -/
  | atom (c : Nat) (v : Node)

/-- The column of a piece. -/
def Tok.col : Tok → Nat
  | .dash c => c
  | .key c _ _ => c
  | .atom c _ => c

/-- A key may have 1024 characters; `<<` merges. -/
def KeyForm (k : List Char) : Prop := k.length ≤ 1024 ∧ k ≠ ['<', '<']

/-- The pieces of the rest of a line that starts at a column. -/
inductive Content : Nat → List Char → List Tok → Prop
  | dash {c t ts} : Content (c + 2) t ts → Content c ('-' :: ' ' :: t) (.dash c :: ts)
  | atom {c t v} : Atom R t v → Content c t [.atom c v]
  | key {c k n} : ScalarText R k n → KeyForm k → Content c (k ++ [':']) [.key c n none]
  | entry {c k n t v} : ScalarText R k n → KeyForm k → Atom R t v →
      Content c (k ++ ':' :: ' ' :: t) [.key c n (some v)]

/-- The pieces of a line. -/
inductive LineToks : List Char → List Tok → Prop
  | mk {c t ts} : Content R c t ts → LineToks (List.replicate c ' ' ++ t) ts

/-- Only blanks. -/
def BlankLine (l : List Char) : Prop := ∀ c ∈ l, c = ' '

/-- A line of a folded block: text that starts at a column and has no blank around it. -/
def FoldLine (d : Nat) (l : List Char) (t : List Char) : Prop :=
  l = List.replicate d ' ' ++ t ∧ t ≠ [] ∧ ∀ c ∈ t, 0x21 ≤ c.toNat ∧ c.toNat ≤ 0x7e

/-- The line is blank or starts at the column or before it. -/
def Outside (c : Nat) (l : List Char) : Prop :=
  BlankLine l ∨ ∃ d x t, d ≤ c ∧ x ≠ ' ' ∧ l = List.replicate d ' ' ++ x :: t

/-- The text of a folded block: its lines with blanks between, and a line feed. -/
def foldText (ts : List (List Char)) : List Char := [' '].intercalate ts ++ ['\n']

/-- The pieces of a text. -/
inductive Toks : List (List Char) → List Tok → Prop
  | nil : Toks [] []
  | blank {l ls ts} : BlankLine l → Toks ls ts → Toks (l :: ls) ts
  | line {l ls us ts} : LineToks R l us → Toks ls ts → Toks (l :: ls) (us ++ ts)
  | folded {c d k n body texts rest ts} : ScalarText R k n → KeyForm k → c < d →
      body ≠ [] → List.Forall₂ (FoldLine d) body texts → (∀ l, rest.head? = some l → Outside c l) →
      Toks rest ts →
      Toks ((List.replicate c ' ' ++ k ++ [':', ' ', '>']) :: (body ++ rest))
        (.key c n (some (.scalar (String.ofList (foldText texts)) .str)) :: ts)

mutual
/-- The pieces of a node that starts at a column. -/
inductive Block : Nat → List Tok → Node → Prop
  | atom {c v} : Block c [.atom c v] v
  | seq {c ts xs} : Items c ts xs → xs ≠ [] → Block c ts (.seq xs)
  | map {c ts kvs} : Entries c ts kvs → kvs ≠ [] → Block c ts (.map kvs)
/-- The pieces of the items of a list. -/
inductive Items : Nat → List Tok → List Node → Prop
  | nil {c} : Items c [] []
  | cons {c d body rest x xs} : c < d → Block d body x → Items c rest xs →
      Items c (.dash c :: (body ++ rest)) (x :: xs)
/-- The pieces of the entries of a mapping.  A list may start at the column of its key. -/
inductive Entries : Nat → List Tok → List (Node × Node) → Prop
  | nil {c} : Entries c [] []
  | inline {c k v rest kvs} : Entries c rest kvs → Entries c (.key c k (some v) :: rest) ((k, v) :: kvs)
  | null {c k rest kvs} : Entries c rest kvs → Entries c (.key c k none :: rest) ((k, .null) :: kvs)
  | block {c d k v body rest kvs} : c < d → Block d body v → Entries c rest kvs →
      Entries c (.key c k none :: (body ++ rest)) ((k, v) :: kvs)
  | seq {c k body xs rest kvs} : Items c body xs → xs ≠ [] → Entries c rest kvs →
      Entries c (.key c k none :: (body ++ rest)) ((k, .seq xs) :: kvs)
end

/-- The text is one document with this tree; every line ends with a line feed, and none is a
document marker. -/
def Reads (text : String) (n : Node) : Prop :=
  ∃ ls ts c, text.toList = ls.flatMap (· ++ ['\n']) ∧
    (∀ l ∈ ls, '\n' ∉ l ∧ ¬ ['-', '-', '-'] <+: l ∧ ¬ ['.', '.', '.'] <+: l) ∧
    Toks R ls ts ∧ Block c ts n

end Drone.Spec
