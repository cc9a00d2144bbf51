/-
Package image (/repo/yaml/compiler/image/image.go) together with the part of
github.com/docker/distribution v2.7.1 package `reference` it calls.

The dependency is not in /repo; its functions are modelled from their published
source and cited by name only (`reference: Parse` and so on).  The regular
expressions are modelled by hand written recognisers.  Strings are lists of
characters here; `trim`, `expand` and the matchers at the end are the `String`
versions the rest of the model uses.
-/
import Verif.Model.Types

namespace Drone
namespace Img

abbrev Str := List Char

/-- Splits at the first `c`, like `strings.IndexRune` and slicing. -/
def splitFirst (c : Char) : Str → Option (Str × Str)
  | [] => none
  | x :: xs =>
    if x = c then some ([], xs)
    else (splitFirst c xs).map (fun p => (x :: p.1, p.2))

/-- The segments between occurrences of `c`, like `strings.Split`. -/
def segs (c : Char) : Str → List Str
  | [] => [[]]
  | x :: xs =>
    if x = c then [] :: segs c xs
    else match segs c xs with
      | [] => [[x]]
      | s :: ss => (x :: s) :: ss

def isDigitC (c : Char) : Bool := '0' ≤ c && c ≤ '9'
def isLowerC (c : Char) : Bool := 'a' ≤ c && c ≤ 'z'
def isUpperC (c : Char) : Bool := 'A' ≤ c && c ≤ 'Z'
/-- `[a-z0-9]` -/
def isAlnumL (c : Char) : Bool := isLowerC c || isDigitC c
/-- `[a-zA-Z0-9]` -/
def isAlnum (c : Char) : Bool := isAlnumL c || isUpperC c
/-- `\w` -/
def isWord (c : Char) : Bool := isAlnum c || c = '_'
/-- `[a-f0-9]` -/
def isHexL (c : Char) : Bool := ('a' ≤ c && c ≤ 'f') || isDigitC c

/-- `digest.Parse` of github.com/opencontainers/go-digest, restricted to the
digests that reference: DigestRegexp accepts.  Which algorithms are available
is decided at link time, so it is a parameter; the laws hold for sha256, sha384
and sha512 (see `shaDigests` in Verif/Props/Image.lean). -/
structure DigestLib where
  ok : Str → Bool
  noSlash : ∀ s, ok s = true → '/' ∉ s
  noAt : ∀ s, ok s = true → '@' ∉ s
  /-- the algorithm name before the colon is lower case -/
  lowerAlg : ∀ s, ok s = true →
    ∃ a e, s = a ++ ':' :: e ∧ ∀ c ∈ a, c.toLower = c

/-- States of the recogniser of reference: nameComponentRegexp,
`[a-z0-9]+(?:(?:[._]|__|[-]*)[a-z0-9]+)*`. -/
inductive CompState where
  | start | alnum | dot | under | under2 | hyphen
  deriving DecidableEq

/-- One transition of that recogniser. -/
def CompState.step : CompState → Char → Option CompState
  | .start, c => if isAlnumL c then some .alnum else none
  | .alnum, c =>
    if isAlnumL c then some .alnum
    else if c = '.' then some .dot
    else if c = '_' then some .under
    else if c = '-' then some .hyphen
    else none
  | .dot, c => if isAlnumL c then some .alnum else none
  | .under, c =>
    if isAlnumL c then some .alnum
    else if c = '_' then some .under2 else none
  | .under2, c => if isAlnumL c then some .alnum else none
  | .hyphen, c =>
    if isAlnumL c then some .alnum
    else if c = '-' then some .hyphen else none

/-- Runs the recogniser; accepts in `alnum`. -/
def CompState.run : CompState → Str → Bool
  | st, [] => st = .alnum
  | st, c :: cs => match st.step c with
    | some st' => CompState.run st' cs
    | none => false

/-- reference: nameComponentRegexp, anchored. -/
def isComponent (s : Str) : Bool := CompState.run .start s

/-- `nameComponent(/nameComponent)*`, anchored. -/
def isPath (s : Str) : Bool := (segs '/' s).all isComponent

/-- reference: domainComponentRegexp, anchored. -/
def isDomainComponent (s : Str) : Bool :=
  s.all (fun c => isAlnum c || c = '-') &&
  (s.head?.any isAlnum) && (s.getLast?.any isAlnum)

/-- reference: DomainRegexp, anchored. -/
def isDomain (s : Str) : Bool :=
  match splitFirst ':' s with
  | some (h, p) => (segs '.' h).all isDomainComponent && !p.isEmpty && p.all isDigitC
  | none => (segs '.' s).all isDomainComponent

/-- reference: TagRegexp, anchored: `[\w][\w.-]{0,127}`. -/
def isTag (s : Str) : Bool :=
  s.head?.any isWord && s.all (fun c => isWord c || c = '.' || c = '-') &&
  s.length ≤ 128

/-- reference: IdentifierRegexp, anchored: `[a-f0-9]{64}`. -/
def isIdent (s : Str) : Bool := s.length = 64 && s.all isHexL

/-- reference: `reference` struct; an empty domain, no tag and no digest stand
for the other concrete types (`getBestReferenceType`). -/
structure Ref where
  domain : Str
  path : Str
  tag : Option Str
  digest : Option Str
  deriving DecidableEq, Repr

/-- reference: `repository.Name` -/
def Ref.name (r : Ref) : Str :=
  if r.domain = [] then r.path else r.domain ++ '/' :: r.path

/-- Optional `":" tag`. -/
def tagSuffix : Option Str → Str
  | some t => ':' :: t
  | none => []

/-- Optional `"@" digest`. -/
def digestSuffix : Option Str → Str
  | some d => '@' :: d
  | none => []

/-- reference: the `String` methods. -/
def Ref.str (r : Ref) : Str := r.name ++ tagSuffix r.tag ++ digestSuffix r.digest

/-- The tag of ReferenceRegexp: what follows the first colon that has no slash
behind it (tags contain no slash, and in a name only the part before a slash may
contain a colon, so the split is the only one possible). -/
def splitTag : Str → Str × Option Str
  | [] => ([], none)
  | c :: cs =>
    if c = ':' ∧ '/' ∉ cs then ([], some cs)
    else let p := splitTag cs; (c :: p.1, p.2)

/-- reference: anchoredNameRegexp with its two groups; the domain group is
optional and preferred. -/
def splitName (s : Str) : Option (Str × Str) :=
  match splitFirst '/' s with
  | some (h, t) =>
    if isDomain h && isPath t then some (h, t)
    else if isPath s then some ([], s) else none
  | none => if isPath s then some ([], s) else none

/-- The `@` split of ReferenceRegexp: name and tag contain no `@`. -/
def splitDigest (s : Str) : Str × Option Str :=
  match splitFirst '@' s with
  | some (t, d) => (t, some d)
  | none => (s, none)

/-- reference: `Parse` (errors are not distinguished). -/
def parse (dg : DigestLib) (s : Str) : Option Ref :=
  let p := splitDigest s
  if !(p.2.all dg.ok) then none
  else
    let q := splitTag p.1
    if !(q.2.all isTag) then none
    else if q.1.length > 255 then none
    else (splitName q.1).map fun n => ⟨n.1, n.2, q.2, p.2⟩

def dockerIO : Str := "docker.io".toList
def indexIO : Str := "index.docker.io".toList
def library : Str := "library".toList
def localhost : Str := "localhost".toList
def latest : Str := "latest".toList

/-- The first segment of a name is a domain (reference: `splitDockerDomain`). -/
def isHost (h : Str) : Bool :=
  h.any (fun c => c = '.' || c = ':') || h = localhost

/-- reference: `splitDockerDomain`, first assignment. -/
def splitDomain0 (s : Str) : Str × Str :=
  match splitFirst '/' s with
  | some (h, t) =>
    if isHost h then (h, t)
    else (dockerIO, s)
  | none => (dockerIO, s)

/-- reference: `splitDockerDomain` -/
def splitDockerDomain (s : Str) : Str × Str :=
  let p := splitDomain0 s
  let d := if p.1 = indexIO then dockerIO else p.1
  let r := if d = dockerIO ∧ '/' ∉ p.2 then library ++ '/' :: p.2 else p.2
  (d, r)

/-- The part of the remainder before its first colon. -/
def remoteName (r : Str) : Str :=
  match splitFirst ':' r with
  | some (h, _) => h
  | none => r

/-- reference: `ParseNormalizedNamed`.  `strings.ToLower` is applied to ASCII
letters only; a remainder with any other upper case letter is refused by
`parse` anyway. -/
def parseNormalized (dg : DigestLib) (s : Str) : Option Ref :=
  if isIdent s then none
  else
    let p := splitDockerDomain s
    if !((remoteName p.2).all fun c => c.toLower = c) then none
    else parse dg (p.1 ++ '/' :: p.2)

/-- reference: `ParseNamed` -/
def parseNamed (dg : DigestLib) (s : Str) : Option Ref :=
  match parseNormalized dg s with
  | none => none
  | some r => if r.str = s then some r else none

/-- reference: `ParseAnyReference(s)` followed by `.String()`. -/
def parseAnyStr (dg : DigestLib) (s : Str) : Option Str :=
  if isIdent s then some ("sha256:".toList ++ s)
  else if dg.ok s then some s
  else (parseNormalized dg s).map Ref.str

/-- The common prefix of the functions of the package
(/repo/yaml/compiler/image/image.go:21-28, 35-42, 69-76). -/
def named (dg : DigestLib) (s : Str) : Option Ref :=
  match parseAnyStr dg s with
  | none => none
  | some t => parseNamed dg t

/-- reference: `FamiliarName` of `TrimNamed` -/
def Ref.familiar (r : Ref) : Str :=
  if r.domain = dockerIO then
    match segs '/' r.path with
    | [a, b] => if a = library then b else r.path
    | _ => r.path
  else r.name

/-- reference: `TagNameOnly` -/
def Ref.tagNameOnly (r : Ref) : Ref :=
  if r.tag.isNone && r.digest.isNone then { r with tag := some latest } else r

/-- /repo/yaml/compiler/image/image.go:20-31 -/
def trimL (dg : DigestLib) (s : Str) : Str :=
  match named dg s with
  | none => s
  | some r => r.familiar

/-- /repo/yaml/compiler/image/image.go:34-45 -/
def expandL (dg : DigestLib) (s : Str) : Str :=
  match named dg s with
  | none => s
  | some r => r.tagNameOnly.str

/-- `Trim` (/repo/yaml/compiler/image/image.go:20-31) -/
def trim (dg : DigestLib) (s : String) : String := String.ofList (trimL dg s.toList)

/-- `Expand` (/repo/yaml/compiler/image/image.go:34-45) -/
def expand (dg : DigestLib) (s : String) : String := String.ofList (expandL dg s.toList)

/-- `Match` (/repo/yaml/compiler/image/image.go:50-58) -/
def matchName (dg : DigestLib) (src : String) (to : List String) : Bool :=
  to.any fun m => trim dg src = trim dg m

/-- `MatchTag` (/repo/yaml/compiler/image/image.go:62-64) -/
def matchTag (dg : DigestLib) (a b : String) : Bool := expand dg a = expand dg b

/-- `MatchHostname` (/repo/yaml/compiler/image/image.go:68-81) -/
def matchHostname (dg : DigestLib) (image hostname : String) : Bool :=
  match named dg image.toList with
  | none => false
  | some r =>
    let h := if hostname = "index.docker.io" then "docker.io" else hostname
    String.ofList r.domain = h

end Img
end Drone
