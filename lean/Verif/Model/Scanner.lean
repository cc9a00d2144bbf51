import Verif.Model.ParseRaw
/-
The `bufio.Scanner` that `ParseRaw` reads with (/repo/yaml/parse.go:105-107), read by read, and
`ParseFile`, `ParseRawFile` (/repo/yaml/parse.go:71-78, 160-167).

The scanner is part of the Go standard library (bufio/scan.go), with its default split function
`ScanLines`, its start buffer of 4096 and its limit of 65536 bytes.  The buffer is represented by the
bytes that have not been handed out yet (`buf[start:end]`), `start` and the size of the buffer.

Not modelled: the panic of a reader that returns more bytes than asked for (excluded by the contract
of io.Reader), and the counter for empty tokens, which `ScanLines` never increases because it consumes
at least one byte with every token.
-/
namespace Drone.Scan

/-- Why a read does not go on. -/
inductive ReadErr where
  | eof
  | noProgress
  | other (text : String)
  deriving DecidableEq, Repr

/-- An `io.Reader`: what `Read` with a buffer of n bytes returns in a state. -/
structure Source (σ : Type) where
  read : σ → Nat → Bytes × Option ReadErr × σ

/-- `bufio.Scanner` -/
structure Scanner (σ : Type) where
  /-- `buf[start:end]` -/
  pending : Bytes := []
  start : Nat := 0
  /-- `len(buf)` -/
  size : Nat := 0
  err : Option ReadErr := none
  src : σ

/-- `bufio.ScanLines`: how many bytes to consume, and the token; `none` asks for more data. -/
def splitLine (data : Bytes) (atEOF : Bool) : Option (Nat × Bytes) :=
  if atEOF ∧ data = [] then none
  else if LF ∈ data then some ((data.takeWhile (· ≠ LF)).length + 1, dropCR (data.takeWhile (· ≠ LF)))
  else if atEOF then some (data.length, dropCR data)
  else none

/-- The reading loop of `Scan`: reads until there is something or an error; `tries` more empty
reads are accepted. -/
def readSome {σ : Type} (R : Source σ) (n : Nat) : Nat → σ → Bytes × Option ReadErr × σ
  | 0, s => ([], some .noProgress, s)
  | tries + 1, s =>
    match R.read s n with
    | (b, some e, s') => (b, some e, s')
    | ([], none, s') => readSome R n tries s'
    | (b, none, s') => (b, none, s')

/-- `maxConsecutiveEmptyReads`; the loop counter is compared after it has been increased -/
def maxEmpty : Nat := 100

/-- `startBufSize` -/
def startSize : Nat := 4096

/-- Shifts the pending bytes to the beginning of the buffer if space is needed or half of it is free. -/
def shift {σ : Type} (sc : Scanner σ) : Scanner σ :=
  if 0 < sc.start ∧ (sc.start + sc.pending.length = sc.size ∨ sc.size / 2 < sc.start) then { sc with start := 0 } else sc

/-- Enlarges a full buffer; `none` if it is too large already. -/
def grow {σ : Type} (sc : Scanner σ) : Option (Scanner σ) :=
  if sc.start + sc.pending.length = sc.size then
    if maxToken ≤ sc.size then none
    else
      let double := if sc.size * 2 = 0 then startSize else sc.size * 2
      some { sc with start := 0, size := if maxToken < double then maxToken else double }
  else some sc

/-- The part of the loop of `Scan` that fills the buffer; `none` is `ErrTooLong`. -/
def fill {σ : Type} (R : Source σ) (sc : Scanner σ) : Option (Scanner σ) :=
  match grow (shift sc) with
  | none => none
  | some sc =>
    let r := readSome R (sc.size - (sc.start + sc.pending.length)) (maxEmpty + 1) sc.src
    some { sc with pending := sc.pending ++ r.1, err := r.2.1, src := r.2.2 }

/-- `Scanner.Scan`: the next token and the scanner after it, or that there is none.  The outer `none`
says that the given number of rounds was not enough. -/
def scan {σ : Type} (R : Source σ) : Nat → Scanner σ → Option (Option (Bytes × Scanner σ))
  | 0, _ => none
  | rounds + 1, sc =>
    match (if sc.pending ≠ [] ∨ sc.err.isSome then splitLine sc.pending sc.err.isSome else none) with
    | some (n, token) => some (some (token, { sc with pending := sc.pending.drop n, start := sc.start + n }))
    | none =>
      if sc.err.isSome then some none
      else
        match fill R sc with
        | none => some none
        | some sc => scan R rounds sc

/-- The body of the loop of `ParseRaw` for one line, and whether it leaves the loop
(/repo/yaml/parse.go:107-131).  `scanner.Err()` is nil after the end of the file, so that the test at
line 120 is never true. -/
def addLine (st : SplitState) (line : Bytes) : SplitState × Bool :=
  let st := if isSeparator line then { st with active := false } else st
  let st := if st.active then st else { docs := st.docs ++ [[]], active := true }
  if isSeparator line then (st, false)
  else if isTerminator line then (st, true)
  else ({ st with docs := appendLast st.docs (line ++ [LF]) }, false)

/-- The loop of `ParseRaw` (/repo/yaml/parse.go:106-132): the `Data` of all resources.  `none` says
that the given number of rounds was not enough. -/
def readDocs {σ : Type} (R : Source σ) : Nat → Scanner σ → SplitState → Option (List Bytes)
  | 0, _, _ => none
  | rounds + 1, sc, st =>
    match scan R (rounds + 1) sc with
    | none => none
    | some none => some st.docs
    | some (some (line, sc)) =>
      match addLine st line with
      | (st, true) => some st.docs
      | (st, false) => readDocs R rounds sc st

/-- `ParseRaw` (/repo/yaml/parse.go:100-140) -/
def parseRawFrom {σ : Type} (Y : YamlLib) (R : Source σ) (rounds : Nat) (s : σ) : Option (Except String (List RawResource)) :=
  (readDocs R rounds { src := s } {}).map (decodeHeaders Y)

/-- `Parse` (/repo/yaml/parse.go:31-54) -/
def parseFrom {σ : Type} (Y : YamlLib) (R : Source σ) (rounds : Nat) (s : σ) : Option (Except String Manifest) :=
  (parseRawFrom Y R rounds s).map fun
    | .error e => .error e
    | .ok raws =>
      match parseAll Y raws with
      | .error e => .error e
      | .ok rs => .ok { resources := rs }

/-- `ParseRawFile` (/repo/yaml/parse.go:160-167); `opened` is `os.Open` -/
def parseRawFile {σ : Type} (Y : YamlLib) (R : Source σ) (rounds : Nat) (opened : String → Except String σ) (p : String) :
    Option (Except String (List RawResource)) :=
  match opened p with
  | .error e => some (.error e)
  | .ok s => parseRawFrom Y R rounds s

/-- `ParseFile` (/repo/yaml/parse.go:71-78) -/
def parseFile {σ : Type} (Y : YamlLib) (R : Source σ) (rounds : Nat) (opened : String → Except String σ) (p : String) :
    Option (Except String Manifest) :=
  match opened p with
  | .error e => some (.error e)
  | .ok s => parseFrom Y R rounds s

end Drone.Scan
