/-
A grammar of image names, independent of the recognisers in Verif/Model/Image.lean:
how a name is put together from its parts, which parts are allowed, and the full and
the short form of a name.
-/

namespace Drone
namespace Spec

/-- A lower case letter or a digit. -/
def LowerOrDigit (c : Char) : Prop := ('a' ≤ c ∧ c ≤ 'z') ∨ ('0' ≤ c ∧ c ≤ '9')

/-- A letter or a digit. -/
def LetterOrDigit (c : Char) : Prop := LowerOrDigit c ∨ ('A' ≤ c ∧ c ≤ 'Z')

/-- What may stand between two runs of letters and digits: a dot, one or two
underscores, any number of hyphens. -/
inductive Separator : List Char → Prop
  | dot : Separator ['.']
  | under : Separator ['_']
  | under2 : Separator ['_', '_']
  | hyphens (n : Nat) : Separator (List.replicate (n + 1) '-')

/-- One component of a repository path. -/
inductive Component : List Char → Prop
  | run (r : List Char) : r ≠ [] → (∀ c ∈ r, LowerOrDigit c) → Component r
  | more (r s t : List Char) : r ≠ [] → (∀ c ∈ r, LowerOrDigit c) → Separator s →
      Component t → Component (r ++ s ++ t)

/-- One label of a host name. -/
def Label (l : List Char) : Prop :=
  l ≠ [] ∧ (∀ c ∈ l, LetterOrDigit c ∨ c = '-') ∧ l.head? ≠ some '-' ∧ l.getLast? ≠ some '-'

/-- The optional port of a registry. -/
def portText : Option (List Char) → List Char
  | some p => ':' :: p
  | none => []

/-- A registry address: labels separated by dots, and an optional port. -/
def Address (h : List Char) : Prop :=
  ∃ (labels : List (List Char)) (port : Option (List Char)),
    labels ≠ [] ∧ (∀ l ∈ labels, Label l) ∧
    (∀ p ∈ port, p ≠ [] ∧ ∀ c ∈ p, '0' ≤ c ∧ c ≤ '9') ∧
    h = ['.'].intercalate labels ++ portText port

/-- A tag. -/
def TagText (t : List Char) : Prop :=
  (∃ c cs, t = c :: cs ∧ (LetterOrDigit c ∨ c = '_')) ∧
  (∀ c ∈ t, LetterOrDigit c ∨ c = '_' ∨ c = '.' ∨ c = '-') ∧ t.length ≤ 128

/-- The first part of a name is taken for a host if it has a dot or a colon, or is
`localhost`. -/
def HostLike (h : List Char) : Prop := '.' ∈ h ∨ ':' ∈ h ∨ h = "localhost".toList

/-- An image ID: 64 hexadecimal digits. -/
def ImageId (s : List Char) : Prop :=
  s.length = 64 ∧ ∀ c ∈ s, ('a' ≤ c ∧ c ≤ 'f') ∨ ('0' ≤ c ∧ c ≤ '9')

/-- The parts of an image name. -/
structure ImageName where
  host : Option (List Char)
  comps : List (List Char)
  tag : Option (List Char)
  digest : Option (List Char)
  deriving DecidableEq

namespace ImageName

/-- The repository part, `[host/]comp/…/comp`. -/
def repo (n : ImageName) : List Char :=
  ['/'].intercalate (n.host.toList ++ n.comps)

/-- The name as it is written: `[host/]comp/…/comp[:tag][@digest]`. -/
def text (n : ImageName) : List Char :=
  n.repo ++ (n.tag.elim [] (':' :: ·)) ++ (n.digest.elim [] ('@' :: ·))

/-- The host a name without one stands for, and the host its alias stands for. -/
def fullHost (n : ImageName) : List Char :=
  match n.host with
  | none => "docker.io".toList
  | some h => if h = "index.docker.io".toList then "docker.io".toList else h

/-- The full form, without the default tag. -/
def full (n : ImageName) : ImageName :=
  { host := some n.fullHost
    comps := if n.fullHost = "docker.io".toList ∧ n.comps.length = 1
      then "library".toList :: n.comps else n.comps
    tag := n.tag
    digest := n.digest }

/-- The full form: a host, a namespace on the Docker Hub, and a tag or a digest. -/
def tagged (n : ImageName) : ImageName :=
  { n.full with
    tag := if n.tag = none ∧ n.digest = none then some "latest".toList else n.tag }

/-- The short form: no tag, no digest, no Docker Hub host, no `library` namespace. -/
def short (n : ImageName) : List Char :=
  if n.fullHost = "docker.io".toList then
    match n.full.comps with
    | [a, b] => if a = "library".toList then b else ['/'].intercalate [a, b]
    | cs => ['/'].intercalate cs
  else n.full.repo

/-- The names that are understood; `ok` decides which digests are. -/
structure Valid (ok : List Char → Bool) (n : ImageName) : Prop where
  ne : n.comps ≠ []
  comps : ∀ c ∈ n.comps, Component c
  tag : ∀ t ∈ n.tag, TagText t
  digest : ∀ d ∈ n.digest, ok d = true
  host : ∀ h ∈ n.host, HostLike h ∧ (Address h ∨ Component h)
  noHost : n.host = none → 2 ≤ n.comps.length → ∀ c ∈ n.comps.head?, ¬ HostLike c
  len : n.full.repo.length ≤ 255
  notId : ¬ ImageId n.text
  notDigest : ok n.text = false

end ImageName
end Spec
end Drone
