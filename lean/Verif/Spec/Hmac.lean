/-
SHA-256 (FIPS 180-4) and HMAC (RFC 2104) of a whole message, given the function that mixes one block
into the state.
-/
import Verif.Model.Hmac

namespace Drone
namespace Spec

/-- The last `n` digits of a number to the base 256, the most significant first. -/
def bigEndian : Nat → Nat → Bytes
  | 0, _ => []
  | n + 1, v => bigEndian n (v / 256) ++ [UInt8.ofNat (v % 256)]

/-- The message with a one bit, zeros and its length in bits; the length of the result is a multiple of
64. -/
def padded (m : Bytes) : Bytes :=
  m ++ 0x80 :: (List.replicate ((119 - m.length % 64) % 64) 0 ++ bigEndian 8 (8 * m.length))

/-- The blocks of a message. -/
def blocksOf (m : Bytes) : List Bytes := (List.range (m.length / 64)).map fun i => (m.drop (64 * i)).take 64

/-- SHA-256 -/
def sha256 (m : Bytes) : Bytes := ((blocksOf (padded m)).foldl Sha.block Sha.init).bytes

/-- The key of HMAC as a block. -/
def blockKey (hash : Bytes → Bytes) (key : Bytes) : Bytes :=
  if key.length ≤ 64 then key ++ List.replicate (64 - key.length) 0
  else hash key ++ List.replicate (64 - (hash key).length) 0

/-- HMAC -/
def hmac (hash : Bytes → Bytes) (key m : Bytes) : Bytes :=
  hash ((blockKey hash key).map (· ^^^ 0x5c) ++ hash ((blockKey hash key).map (· ^^^ 0x36) ++ m))

end Spec
end Drone
