/-
HMAC-SHA256 as /repo/yaml/signer/signer.go:121-127 calls it: the packages crypto/sha256 and
crypto/hmac of the Go standard library, from their published sources.  The rest of the model has
the MAC as a parameter.
-/
import Verif.Model.Signer

namespace Drone
namespace Sha

/-- The state of the hash function (crypto/sha256 `digest.h`). -/
structure Regs where
  a : UInt32
  b : UInt32
  c : UInt32
  d : UInt32
  e : UInt32
  f : UInt32
  g : UInt32
  h : UInt32
  deriving DecidableEq, Repr, Inhabited

/-- crypto/sha256 `init0` to `init7` -/
def init : Regs :=
  { a := 0x6A09E667, b := 0xBB67AE85, c := 0x3C6EF372, d := 0xA54FF53A
    e := 0x510E527F, f := 0x9B05688C, g := 0x1F83D9AB, h := 0x5BE0CD19 }

/-- crypto/sha256 `_K` -/
def consts : List UInt32 :=
  [0x428a2f98, 0x71374491, 0xb5c0fbcf, 0xe9b5dba5, 0x3956c25b, 0x59f111f1, 0x923f82a4, 0xab1c5ed5,
   0xd807aa98, 0x12835b01, 0x243185be, 0x550c7dc3, 0x72be5d74, 0x80deb1fe, 0x9bdc06a7, 0xc19bf174,
   0xe49b69c1, 0xefbe4786, 0x0fc19dc6, 0x240ca1cc, 0x2de92c6f, 0x4a7484aa, 0x5cb0a9dc, 0x76f988da,
   0x983e5152, 0xa831c66d, 0xb00327c8, 0xbf597fc7, 0xc6e00bf3, 0xd5a79147, 0x06ca6351, 0x14292967,
   0x27b70a85, 0x2e1b2138, 0x4d2c6dfc, 0x53380d13, 0x650a7354, 0x766a0abb, 0x81c2c92e, 0x92722c85,
   0xa2bfe8a1, 0xa81a664b, 0xc24b8b70, 0xc76c51a3, 0xd192e819, 0xd6990624, 0xf40e3585, 0x106aa070,
   0x19a4c116, 0x1e376c08, 0x2748774c, 0x34b0bcb5, 0x391c0cb3, 0x4ed8aa4a, 0x5b9cca4f, 0x682e6ff3,
   0x748f82ee, 0x78a5636f, 0x84c87814, 0x8cc70208, 0x90befffa, 0xa4506ceb, 0xbef9a3f7, 0xc67178f2]

/-- Rotation to the right, written as two shifts in crypto/sha256. -/
def rotr (x n : UInt32) : UInt32 := (x >>> n) ||| (x <<< (32 - n))

/-- One round of crypto/sha256 `blockGeneric` with the word `w` and the constant `k`. -/
def round (r : Regs) (k w : UInt32) : Regs :=
  let t1 := r.h + (rotr r.e 6 ^^^ rotr r.e 11 ^^^ rotr r.e 25) + ((r.e &&& r.f) ^^^ (~~~r.e &&& r.g)) + k + w
  let t2 := (rotr r.a 2 ^^^ rotr r.a 13 ^^^ rotr r.a 22) + ((r.a &&& r.b) ^^^ (r.a &&& r.c) ^^^ (r.b &&& r.c))
  { a := t1 + t2, b := r.a, c := r.b, d := r.c, e := r.d + t1, f := r.e, g := r.f, h := r.g }

/-- The next word of the schedule, from the sixteen before it. -/
def nextWord (ws : List UInt32) : UInt32 :=
  let v1 := ws.getD 14 0
  let v2 := ws.getD 1 0
  (rotr v1 17 ^^^ rotr v1 19 ^^^ (v1 >>> 10)) + ws.getD 9 0 + (rotr v2 7 ^^^ rotr v2 18 ^^^ (v2 >>> 3)) + ws.getD 0 0

/-- The rounds; `ws` holds the next sixteen words of the schedule.  The code fills the schedule
first. -/
def rounds : Regs → List UInt32 → List UInt32 → Regs
  | r, _, [] => r
  | r, ws, k :: ks => rounds (round r k (ws.getD 0 0)) (ws.tail ++ [nextWord ws]) ks

/-- Words of a block, the most significant byte first. -/
def words : Bytes → List UInt32
  | a :: b :: c :: d :: rest =>
    ((a.toUInt32 <<< 24) ||| (b.toUInt32 <<< 16) ||| (c.toUInt32 <<< 8) ||| d.toUInt32) :: words rest
  | _ => []

/-- crypto/sha256 `block` for one block of 64 bytes -/
def block (r : Regs) (p : Bytes) : Regs :=
  let s := rounds r (words p) consts
  { a := r.a + s.a, b := r.b + s.b, c := r.c + s.c, d := r.d + s.d
    e := r.e + s.e, f := r.f + s.f, g := r.g + s.g, h := r.h + s.h }

/-- crypto/sha256 `block` for the first `n` blocks -/
def blocks : Nat → Regs → Bytes → Regs
  | 0, r, _ => r
  | n + 1, r, p => blocks n (block r (p.take 64)) (p.drop 64)

/-- crypto/sha256 `digest`: `x` are the `nx` bytes that wait for a full block. -/
structure Digest where
  h : Regs := init
  x : Bytes := []
  len : UInt64 := 0
  deriving DecidableEq, Repr, Inhabited

/-- The second half of `Write`: whole blocks first, the rest waits. -/
def writeRest (d : Digest) (p : Bytes) : Digest :=
  let n := p.length / 64
  { d with h := blocks n d.h p, x := p.drop (64 * n) }

/-- crypto/sha256 `digest.Write` -/
def write (d : Digest) (p : Bytes) : Digest :=
  let d := { d with len := d.len + UInt64.ofNat p.length }
  if d.x.length > 0 then
    let n := min (64 - d.x.length) p.length
    let x := d.x ++ p.take n
    let d := if x.length = 64 then { d with h := block d.h x, x := [] } else { d with x := x }
    let p := p.drop n
    if p.length > 0 then writeRest d p else d
  else writeRest d p

/-- `binary.BigEndian.PutUint64` -/
def be64 (n : UInt64) : Bytes :=
  [(n >>> 56).toUInt8, (n >>> 48).toUInt8, (n >>> 40).toUInt8, (n >>> 32).toUInt8,
   (n >>> 24).toUInt8, (n >>> 16).toUInt8, (n >>> 8).toUInt8, n.toUInt8]

/-- `binary.BigEndian.PutUint32` -/
def be32 (n : UInt32) : Bytes :=
  [(n >>> 24).toUInt8, (n >>> 16).toUInt8, (n >>> 8).toUInt8, n.toUInt8]

/-- The eight words of the state as bytes. -/
def Regs.bytes (r : Regs) : Bytes :=
  be32 r.a ++ be32 r.b ++ be32 r.c ++ be32 r.d ++ be32 r.e ++ be32 r.f ++ be32 r.g ++ be32 r.h

/-- crypto/sha256 `digest.Sum` (`checkSum` on a copy) -/
def sum (d : Digest) : Bytes :=
  let m := (d.len % 64).toNat
  let pad := 0x80 :: List.replicate ((if m < 56 then 56 - m else 64 + 56 - m) - 1) 0
  (write (write d pad) (be64 (d.len <<< 3))).h.bytes

/-- crypto/hmac `hmac` -/
structure Hmac where
  opad : Bytes
  inner : Digest

/-- The key as one block: a longer key is hashed, a shorter one filled up with zeros
(crypto/hmac `New`). -/
def keyBlock (key : Bytes) : Bytes :=
  let key := if key.length > 64 then sum (write {} key) else key
  key ++ List.replicate (64 - key.length) 0

/-- crypto/hmac `New` with sha256 (/repo/yaml/signer/signer.go:121) -/
def hmacNew (key : Bytes) : Hmac :=
  { opad := (keyBlock key).map (· ^^^ 0x5c), inner := write {} ((keyBlock key).map (· ^^^ 0x36)) }

/-- crypto/hmac `Write` (/repo/yaml/signer/signer.go:124) -/
def hmacWrite (h : Hmac) (p : Bytes) : Hmac := { h with inner := write h.inner p }

/-- crypto/hmac `Sum` (/repo/yaml/signer/signer.go:127) -/
def hmacSum (h : Hmac) : Bytes := sum (write (write {} h.opad) (sum h.inner))

/-- The loop over the resources (/repo/yaml/signer/signer.go:122-126) -/
def signLoop (h : Hmac) : List RawResource → Hmac
  | [] => h
  | r :: rs => if r.kind ≠ kindSignature then signLoop (hmacWrite h r.data) rs else signLoop h rs

/-- `sign` (/repo/yaml/signer/signer.go:117-128) -/
def signCode (res : List RawResource) (key : Bytes) : Except String Bytes :=
  if key.length < 32 then .error errInvalidKey
  else .ok (hmacSum (signLoop (hmacNew key) res))

/-- crypto/subtle `ConstantTimeByteEq(x, 0)` -/
def byteIsZero (x : UInt8) : UInt32 := (x.toUInt32 - 1) >>> 31

/-- The loop of crypto/subtle `ConstantTimeCompare` -/
def differences : UInt8 → Bytes → Bytes → UInt8
  | v, x :: xs, y :: ys => differences (v ||| (x ^^^ y)) xs ys
  | v, _, _ => v

/-- crypto/hmac `Equal`, that is crypto/subtle `ConstantTimeCompare(x, y) == 1`
(/repo/yaml/signer/signer.go:88) -/
def hmacEqual (x y : Bytes) : Bool :=
  if x.length ≠ y.length then false else byteIsZero (differences 0 x y) = 1

/-- `Verify` (/repo/yaml/signer/signer.go:75-89) -/
def verifyCode (Y : SigLib) (data key : Bytes) : Except String Bool :=
  match parseRawBytes Y.toYamlLib data with
  | .error e => .error e
  | .ok res =>
    match extract Y res with
    | none => .ok false
    | some mac1 =>
      match signCode res key with
      | .error e => .error e
      | .ok mac2 => .ok (hmacEqual mac1 mac2)

end Sha
end Drone
