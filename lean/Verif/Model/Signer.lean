import Verif.Model.ParseRaw
/-
/repo/yaml/signer/signer.go.
-/
namespace Drone

/-- Bytes of a string: its UTF-8 encoding. -/
def utf8 (s : String) : Bytes := s.toList.flatMap String.utf8EncodeChar

/-- HMAC-SHA256 keyed with `key` (crypto/hmac, crypto/sha256), a parameter:
`h.Write` of several pieces followed by `h.Sum` is the MAC of their
concatenation (/repo/yaml/signer/signer.go:121-127). -/
abbrev Mac := Bytes → Bytes → Bytes

/-- The libraries used by the signer: the YAML decoder, plus decoding into
`yaml.Signature`, of which only `Hmac` is used
(/repo/yaml/signer/signer.go:104-109). -/
structure SigLib extends YamlLib where
  sigHmac : Bytes → Except String String

/-- One lower case hex digit (encoding/hex). -/
def hexDigit (n : Nat) : UInt8 :=
  if n < 10 then UInt8.ofNat (48 + n) else UInt8.ofNat (87 + n)

/-- `hex.EncodeToString` (/repo/yaml/signer/signer.go:36,65), as bytes. -/
def hexEncode : Bytes → Bytes
  | [] => []
  | b :: bs => hexDigit (b.toNat / 16) :: hexDigit (b.toNat % 16) :: hexEncode bs

/-- Value of a hex digit, upper or lower case (encoding/hex `fromHexChar`). -/
def hexVal (b : UInt8) : Option Nat :=
  if 48 ≤ b.toNat ∧ b.toNat ≤ 57 then some (b.toNat - 48)
  else if 97 ≤ b.toNat ∧ b.toNat ≤ 102 then some (b.toNat - 87)
  else if 65 ≤ b.toNat ∧ b.toNat ≤ 70 then some (b.toNat - 55)
  else none

/-- `hex.DecodeString` (/repo/yaml/signer/signer.go:109); `none` is an error. -/
def hexDecode : Bytes → Option Bytes
  | [] => some []
  | [_] => none
  | a :: b :: rest =>
    match hexVal a, hexVal b, hexDecode rest with
    | some x, some y, some r => some (UInt8.ofNat (16 * x + y) :: r)
    | _, _, _ => none

/-- /repo/yaml/manifest.go:31 -/
def kindSignature : String := "signature"

/-- /repo/yaml/signer/signer.go:17 -/
def errInvalidKey : String := "signer: key must be 32-bytes"

/-- The bytes written to the MAC, /repo/yaml/signer/signer.go:122-126. -/
def signedBytes : List RawResource → Bytes
  | [] => []
  | r :: rs => if r.kind ≠ kindSignature then r.data ++ signedBytes rs else signedBytes rs

/-- `sign`, /repo/yaml/signer/signer.go:117-128. -/
def signRes (mac : Mac) (res : List RawResource) (key : Bytes) : Except String Bytes :=
  if key.length < 32 then .error errInvalidKey
  else .ok (mac key (signedBytes res))

/-- `Sign`, /repo/yaml/signer/signer.go:30-37 (the returned string, as bytes;
on error Go also returns the empty string). -/
def sign (Y : SigLib) (mac : Mac) (data key : Bytes) : Except String Bytes :=
  match parseRawBytes Y.toYamlLib data with
  | .error e => .error e
  | .ok res =>
    match signRes mac res key with
    | .error e => .error e
    | .ok h => .ok (hexEncode h)

/-- `"---"` and newline. -/
def sepLine : Bytes := [45, 45, 45, LF]

/-- The loop writing all documents that are not signatures,
/repo/yaml/signer/signer.go:53-59 and 134-140. -/
def writeDocs : List RawResource → Bytes
  | [] => []
  | r :: rs => if r.kind ≠ kindSignature then sepLine ++ r.data ++ writeDocs rs else writeDocs rs

/-- The body of the signature document, /repo/yaml/signer/signer.go:63-67. -/
def sigBody (hex : Bytes) : Bytes :=
  utf8 "kind: signature" ++ [LF] ++ (utf8 "hmac: " ++ hex) ++ [LF] ++ [LF]

/-- `upsert`, /repo/yaml/signer/signer.go:132-151. -/
def upsert (res : List RawResource) (hex : Bytes) : Bytes :=
  writeDocs res ++ sepLine ++ sigBody hex ++ utf8 "..." ++ [LF]

/-- `SignUpdate`, /repo/yaml/signer/signer.go:42-71. -/
def signUpdate (Y : SigLib) (mac : Mac) (data key : Bytes) : Except String Bytes :=
  match parseRawBytes Y.toYamlLib data with
  | .error e => .error e
  | .ok res =>
    match signRes mac res key with
    | .error e => .error e
    | .ok h =>
      .ok (writeDocs res ++ sepLine ++ sigBody (hexEncode h) ++ utf8 "..." ++ [LF])

/-- `extract`, /repo/yaml/signer/signer.go:101-113; `none` is any error. -/
def extract (Y : SigLib) : List RawResource → Option Bytes
  | [] => none
  | r :: rs =>
    if r.kind = kindSignature then
      match Y.sigHmac r.data with
      | .error _ => none
      | .ok s => hexDecode (utf8 s)
    else extract Y rs

/-- `Verify`, /repo/yaml/signer/signer.go:75-89 (`hmac.Equal` is equality). -/
def verify (Y : SigLib) (mac : Mac) (data key : Bytes) : Except String Bool :=
  match parseRawBytes Y.toYamlLib data with
  | .error e => .error e
  | .ok res =>
    match extract Y res with
    | none => .ok false
    | some mac1 =>
      match signRes mac res key with
      | .error e => .error e
      | .ok mac2 => .ok (mac1 = mac2)

/-- `WriteTo`, /repo/yaml/signer/signer.go:94-97: on a parse error Go returns
the document made from no resources together with the error. -/
def writeTo (Y : SigLib) (data hex : Bytes) : Bytes × Option String :=
  match parseRawBytes Y.toYamlLib data with
  | .error e => (upsert [] hex, some e)
  | .ok res => (upsert res hex, none)

end Drone
