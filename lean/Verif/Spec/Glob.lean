/-
What a pattern means, independent of the matcher in Verif/Model/Glob.lean.

A pattern is a list of components separated by slashes.  A component is `**` or a list of
terms; `Pattern.text` writes a pattern, `Pattern.Matches` says which paths it stands for.
-/

namespace Drone
namespace Spec

/-- A part of a component that stands for characters. -/
inductive Term where
  /-- this character -/
  | lit (c : Char)
  /-- `?`: any character -/
  | one
  /-- `*`: any characters -/
  | star
  /-- `[a-z]` or `[^a-z]`: a character in (not in) one of the ranges -/
  | cls (neg : Bool) (ranges : List (Char × Char))

/-- A character is in one of the ranges. -/
def InRanges (rs : List (Char × Char)) (c : Char) : Prop := ∃ r ∈ rs, r.1 ≤ c ∧ c ≤ r.2

/-- The texts a list of terms stands for. -/
inductive TermsMatch : List Term → List Char → Prop
  | nil : TermsMatch [] []
  | lit {c ts s} : TermsMatch ts s → TermsMatch (.lit c :: ts) (c :: s)
  | one {c ts s} : TermsMatch ts s → TermsMatch (.one :: ts) (c :: s)
  | star {u ts s} : TermsMatch ts s → TermsMatch (.star :: ts) (u ++ s)
  | inCls {rs c ts s} : InRanges rs c → TermsMatch ts s → TermsMatch (.cls false rs :: ts) (c :: s)
  | notInCls {rs c ts s} : ¬ InRanges rs c → TermsMatch ts s → TermsMatch (.cls true rs :: ts) (c :: s)

/-- A part of a component: a term or alternatives `{a,b}`. -/
inductive Part where
  | term (t : Term)
  | alt (options : List (List Term))

/-- The term lists a component stands for: one option is chosen of each group of
alternatives. -/
def choices : List Part → List (List Term)
  | [] => [[]]
  | .term t :: ps => (choices ps).map (t :: ·)
  | .alt os :: ps => os.flatMap fun o => (choices ps).map (o ++ ·)

/-- The texts a list of parts stands for. -/
def PartsMatch (ps : List Part) (s : List Char) : Prop := ∃ ts ∈ choices ps, TermsMatch ts s

/-- A component of a pattern. -/
inductive PatComp where
  /-- `**` -/
  | deep
  | parts (ps : List Part)

/-- The paths (lists of components) a pattern stands for.  `**` stands for any number of
components, but for at least one at the end of the pattern. -/
inductive PathMatch : List PatComp → List (List Char) → Prop
  | nil : PathMatch [] []
  | parts {ps s cs ns} : PartsMatch ps s → PathMatch cs ns → PathMatch (.parts ps :: cs) (s :: ns)
  | deepLast {n ns} : PathMatch [.deep] (n :: ns)
  | deep {cs ms ns} : cs ≠ [] → PathMatch cs ns → PathMatch (.deep :: cs) (ms ++ ns)

/-! ### Writing patterns -/

/-- The characters that are written with a backslash. -/
def Special (c : Char) : Bool := c ∈ ['*', '?', '[', ']', '{', '}', ',', '-', '^']

/-- A literal character as it is written. -/
def litText (c : Char) : List Char := if Special c then ['\\', c] else [c]

/-- A range as it is written. -/
def rangeText (r : Char × Char) : List Char := if r.1 = r.2 then [r.1] else [r.1, '-', r.2]

/-- A term as it is written. -/
def Term.text : Term → List Char
  | .lit c => litText c
  | .one => ['?']
  | .star => ['*']
  | .cls neg rs => '[' :: ((if neg then ['^'] else []) ++ rs.flatMap rangeText ++ [']'])

/-- Terms as they are written. -/
def termsText (ts : List Term) : List Char := ts.flatMap Term.text

/-- A part as it is written. -/
def Part.text : Part → List Char
  | .term t => t.text
  | .alt os => '{' :: ([','].intercalate (os.map termsText) ++ ['}'])

/-- Parts as they are written. -/
def partsText (ps : List Part) : List Char := ps.flatMap Part.text

/-- A component as it is written. -/
def PatComp.text : PatComp → List Char
  | .deep => ['*', '*']
  | .parts ps => partsText ps

/-- A pattern as it is written. -/
def patternText (cs : List PatComp) : List Char := ['/'].intercalate (cs.map PatComp.text)

/-! ### Which patterns are considered -/

/-- A character that may stand in a character class as it is. -/
def ClassChar (c : Char) : Prop := c ≠ '/' ∧ c ≠ '\\' ∧ Special c = false

/-- A literal is neither slash nor backslash; a class is not empty and its ends need no
backslash. -/
def Term.Ok : Term → Prop
  | .lit c => c ≠ '/' ∧ c ≠ '\\'
  | .cls _ rs => rs ≠ [] ∧ ∀ r ∈ rs, ClassChar r.1 ∧ ClassChar r.2
  | _ => True

/-- A term that stands for exactly one character. -/
def Term.Single : Term → Prop
  | .star => False
  | _ => True

/-- No star follows a star. -/
def NoTwoStars : List Term → Prop
  | .star :: .star :: _ => False
  | _ :: ts => NoTwoStars ts
  | [] => True

/-- There is at least one option, and none of them stands for the empty text. -/
def Part.Ok : Part → Prop
  | .term t => t.Ok
  | .alt os => os ≠ [] ∧ ∀ o ∈ os, (∀ t ∈ o, t.Ok) ∧ ∃ t ∈ o, t.Single

/-- A component that is not empty and in which no star can follow a star. -/
def PatComp.Ok : PatComp → Prop
  | .deep => True
  | .parts ps => ps ≠ [] ∧ (∀ p ∈ ps, p.Ok) ∧ ∀ ts ∈ choices ps, NoTwoStars ts

/-- The components of a name without backslash that does not end with a slash. -/
def NameComps (ns : List (List Char)) : Prop :=
  ns ≠ [] ∧ (∀ n ∈ ns, '/' ∉ n ∧ '\\' ∉ n) ∧ (ns.getLast? = some [] → ns = [[]])

/-- A name from its components. -/
def nameText (ns : List (List Char)) : List Char := ['/'].intercalate ns

end Spec
end Drone
