/-
C122: the MAC of a file.  The code hands the documents to HMAC-SHA256 one by one; the result is the
MAC of their concatenation.  It has 32 bytes, and which keys are the same key is known.
-/
import Verif.Spec.Hmac
import Verif.Props.Signer

namespace Drone
namespace Sha
open Spec (padded blocksOf sha256 blockKey)

theorem blocks_add (a b : Nat) (r : Regs) (p : Bytes) :
    blocks (a + b) r p = blocks b (blocks a r p) (p.drop (64 * a)) := by
  induction a generalizing r p with
  | zero => simp [blocks]
  | succ a ih =>
    rw [Nat.add_right_comm]
    simp only [blocks]
    rw [ih, List.drop_drop]
    congr 2
    omega

theorem blocks_prefix {n : Nat} {r : Regs} {p q : Bytes} (h : 64 * n ≤ p.length) :
    blocks n r (p ++ q) = blocks n r p := by
  induction n generalizing r p with
  | zero => rfl
  | succ n ih =>
    simp only [blocks]
    rw [List.take_append_of_le_length (by omega), List.drop_append_of_le_length (by omega)]
    exact ih (by simp; omega)

theorem blocks_eq (n : Nat) (r : Regs) (p : Bytes) :
    blocks n r p = ((List.range n).map fun i => (p.drop (64 * i)).take 64).foldl block r := by
  induction n generalizing r p with
  | zero => rfl
  | succ n ih =>
    rw [blocks_add n 1, ih, List.range_succ, List.map_append, List.foldl_append]
    simp [blocks]

/-- The digest after the bytes `m`. -/
structure After (m : Bytes) (d : Digest) : Prop where
  h : d.h = blocks (m.length / 64) init m
  x : d.x = m.drop (64 * (m.length / 64))
  len : d.len = UInt64.ofNat m.length

theorem after_nil : After [] {} := ⟨rfl, rfl, rfl⟩

/-- Whole blocks are mixed in, the rest waits. -/
theorem writeRest_after {m p : Bytes} {d : Digest} (hm : m.length % 64 = 0) (hh : d.h = blocks (m.length / 64) init m) :
    (writeRest d p).h = blocks ((m ++ p).length / 64) init (m ++ p) ∧
    (writeRest d p).x = (m ++ p).drop (64 * ((m ++ p).length / 64)) := by
  have e : (m ++ p).length / 64 = m.length / 64 + p.length / 64 := by
    rw [List.length_append]
    omega
  have e64 : 64 * (m.length / 64) = m.length := by omega
  constructor
  · rw [e, blocks_add, blocks_prefix (by omega), e64, List.drop_left, ← hh]
    rfl
  · rw [e, Nat.mul_add, e64, List.drop_append, List.drop_of_length_le (by omega)]
    simp [writeRest]

theorem ofNat_add (a b : Nat) : UInt64.ofNat a + UInt64.ofNat b = UInt64.ofNat (a + b) := by
  simp

theorem write_after {m p : Bytes} {d : Digest} (ha : After m d) : After (m ++ p) (write d p) := by
  obtain ⟨hh, hx, hl⟩ := ha
  have hxl : d.x.length = m.length % 64 := by
    rw [hx, List.length_drop]
    omega
  have hlen : (write d p).len = UInt64.ofNat (m ++ p).length := by
    rw [List.length_append, ← ofNat_add, ← hl]
    unfold write writeRest
    simp only
    split
    · split
      · split <;> rfl
      · split <;> rfl
    · rfl
  suffices h : (write d p).h = blocks ((m ++ p).length / 64) init (m ++ p) ∧
      (write d p).x = (m ++ p).drop (64 * ((m ++ p).length / 64)) from ⟨h.1, h.2, hlen⟩
  unfold write
  simp only
  by_cases h0 : d.x.length > 0
  · rw [if_pos h0]
    have hm : m.take (64 * (m.length / 64)) ++ d.x = m := by rw [hx, List.take_append_drop]
    by_cases hp : p.length < 64 - d.x.length
    · have hn : min (64 - d.x.length) p.length = p.length := by omega
      rw [hn, List.take_length, List.drop_length]
      have hc : ¬ (d.x ++ p).length = 64 := by
        rw [List.length_append]
        omega
      simp only [hc, if_false, List.length_nil, gt_iff_lt, Nat.lt_irrefl]
      have e : (m ++ p).length / 64 = m.length / 64 := by
        rw [List.length_append]
        omega
      rw [e, blocks_prefix (by omega), hh, hx, List.drop_append_of_le_length (by omega)]
      exact ⟨rfl, rfl⟩
    · have hn : min (64 - d.x.length) p.length = 64 - d.x.length := by omega
      rw [hn]
      generalize hk : 64 - d.x.length = k at hp
      have hkp : (p.take k).length = k := by rw [List.length_take]; omega
      have hc : (d.x ++ p.take k).length = 64 := by
        rw [List.length_append, hkp]
        omega
      simp only [hc, if_true]
      have hm' : (m ++ p.take k).length = 64 * (m.length / 64) + 64 := by
        rw [List.length_append, hkp]
        omega
      have hb : block d.h (d.x ++ p.take k) =
          blocks ((m ++ p.take k).length / 64) init (m ++ p.take k) := by
        have e : (m ++ p.take k).length / 64 = m.length / 64 + 1 := by omega
        rw [e, blocks_add, blocks_prefix (by omega), ← hh, List.drop_append_of_le_length (by omega), ← hx]
        simp only [blocks]
        rw [List.take_of_length_le (Nat.le_of_eq hc)]
      have hpp : m ++ p = (m ++ p.take k) ++ p.drop k := by rw [List.append_assoc, List.take_append_drop]
      rw [hpp]
      generalize m ++ p.take k = m' at hm' hb
      by_cases hd : (p.drop k).length > 0
      · rw [if_pos hd]
        exact writeRest_after (by omega) hb
      · rw [if_neg hd]
        have : p.drop k = [] := List.eq_nil_of_length_eq_zero (by omega)
        rw [this, List.append_nil]
        refine ⟨hb, ?_⟩
        rw [List.drop_of_length_le (by omega)]
  · rw [if_neg h0]
    exact writeRest_after (by omega) hh

theorem writes_after (ps : List Bytes) {m : Bytes} {d : Digest} (ha : After m d) :
    After (m ++ ps.flatten) (ps.foldl write d) := by
  induction ps generalizing m d with
  | nil => simpa using ha
  | cons p ps ih =>
    have := ih (write_after (p := p) ha)
    simpa using this

theorem be64_length (n : UInt64) : (be64 n).length = 8 := rfl

theorem bytes_length (r : Regs) : r.bytes.length = 32 := rfl

theorem shl3 (n : Nat) : UInt64.ofNat n <<< 3 = UInt64.ofNat (8 * n) := by
  apply UInt64.toNat_inj.1
  simp [Nat.shiftLeft_eq]
  omega

theorem be64_eq (n : Nat) : be64 (UInt64.ofNat n) = Spec.bigEndian 8 n := by
  simp only [be64, Spec.bigEndian, List.nil_append, List.cons_append, Nat.div_div_eq_div_mul, Nat.reduceMul]
  have key : ∀ b : Nat, b ≤ 56 → ((UInt64.ofNat n) >>> (UInt64.ofNat b)).toUInt8 = UInt8.ofNat (n / 2 ^ b % 256) := by
    intro b hb
    apply UInt8.toNat_inj.1
    simp only [UInt64.toNat_toUInt8, UInt64.toNat_shiftRight, UInt64.toNat_ofNat', UInt8.toNat_ofNat',
      Nat.shiftRight_eq_div_pow]
    have e1 : b % 2 ^ 64 % 64 = b := by omega
    rw [e1]
    have e2 : 2 ^ 64 = 2 ^ b * 2 ^ (64 - b) := by rw [← Nat.pow_add]; congr 1; omega
    have e3 : n % 2 ^ 64 / 2 ^ b = n / 2 ^ b % 2 ^ (64 - b) := by rw [e2, Nat.mod_mul_right_div_self]
    have e4 : 2 ^ (64 - b) = 2 ^ 8 * 2 ^ (56 - b) := by rw [← Nat.pow_add]; congr 1; omega
    rw [e3, e4, Nat.mod_mul_right_mod]
    simp
  have k1 := key 56 (by omega)
  have k2 := key 48 (by omega)
  have k3 := key 40 (by omega)
  have k4 := key 32 (by omega)
  have k5 := key 24 (by omega)
  have k6 := key 16 (by omega)
  have k7 := key 8 (by omega)
  have k8 : (UInt64.ofNat n).toUInt8 = UInt8.ofNat (n % 256) := by
    apply UInt8.toNat_inj.1
    simp
  simp only [Nat.reducePow] at k1 k2 k3 k4 k5 k6 k7
  rw [← k1, ← k2, ← k3, ← k4, ← k5, ← k6, ← k7, ← k8]
  rfl

theorem sum_after {m : Bytes} {d : Digest} (ha : After m d) : sum d = sha256 m := by
  have hmod : (d.len % 64).toNat = m.length % 64 := by
    rw [ha.len, UInt64.toNat_mod]
    simp
  unfold sum
  simp only [hmod]
  have hz : (if m.length % 64 < 56 then 56 - m.length % 64 else 64 + 56 - m.length % 64) - 1 =
      (119 - m.length % 64) % 64 := by
    split <;> omega
  rw [hz, ha.len, shl3]
  have h2 := write_after (p := be64 (UInt64.ofNat (8 * m.length)))
    (write_after (p := 0x80 :: List.replicate ((119 - m.length % 64) % 64) 0) ha)
  rw [h2.h]
  have e : m ++ 0x80 :: List.replicate ((119 - m.length % 64) % 64) 0 ++ be64 (UInt64.ofNat (8 * m.length)) = padded m := by
    rw [be64_eq, padded, List.append_assoc, List.cons_append]
  rw [e]
  unfold sha256 blocksOf
  rw [blocks_eq]

/-- C122: writing a message in pieces gives the hash of the whole message. -/
theorem C122_hash (ps : List Bytes) : sum (ps.foldl write {}) = sha256 ps.flatten :=
  sum_after (by simpa using writes_after ps after_nil)

theorem sum_one (m : Bytes) : sum (write {} m) = sha256 m := by
  simpa using C122_hash [m]

theorem padded_length (m : Bytes) : (padded m).length % 64 = 0 := by
  simp only [padded, ← be64_eq, List.length_append, List.length_cons, List.length_replicate, be64_length]
  omega

theorem keyBlock_eq (key : Bytes) : keyBlock key = blockKey sha256 key := by
  unfold keyBlock blockKey
  simp only [sum_one]
  by_cases h : key.length ≤ 64
  · rw [if_neg (by omega), if_pos h]
  · rw [if_pos (by omega), if_neg h]

theorem hmacWrites (ps : List Bytes) (h : Hmac) :
    ps.foldl hmacWrite h = { h with inner := ps.foldl write h.inner } := by
  induction ps generalizing h with
  | nil => rfl
  | cons p ps ih =>
    simp only [List.foldl_cons]
    rw [ih]
    rfl

/-- C122: the MAC of pieces is the MAC of the whole message. -/
theorem C122_mac (key : Bytes) (ps : List Bytes) :
    hmacSum (ps.foldl hmacWrite (hmacNew key)) = Spec.hmac sha256 key ps.flatten := by
  rw [hmacWrites]
  unfold hmacSum hmacNew Spec.hmac
  simp only [keyBlock_eq]
  have h1 := C122_hash ((blockKey sha256 key).map (· ^^^ 0x36) :: ps)
  simp only [List.foldl_cons, List.flatten_cons] at h1
  rw [h1]
  have h2 := C122_hash [(blockKey sha256 key).map (· ^^^ 0x5c), sha256 ((blockKey sha256 key).map (· ^^^ 0x36) ++ ps.flatten)]
  simpa using h2

end Sha

/-- HMAC-SHA256 -/
def hmacSha256 : Mac := Spec.hmac Spec.sha256

namespace Sha
open Spec (padded blocksOf sha256 blockKey)

theorem signLoop_eq (res : List RawResource) (h : Hmac) :
    signLoop h res = ((res.filter (·.kind ≠ kindSignature)).map (·.data)).foldl hmacWrite h := by
  induction res generalizing h with
  | nil => rfl
  | cons r rs ih =>
    by_cases hk : r.kind = kindSignature
    · simp [signLoop, hk, ih]
    · simp [signLoop, hk, ih]

theorem signedBytes_eq (res : List RawResource) :
    signedBytes res = ((res.filter (·.kind ≠ kindSignature)).map (·.data)).flatten := by
  induction res with
  | nil => rfl
  | cons r rs ih =>
    by_cases hk : r.kind = kindSignature
    · simp [signedBytes, hk, ih]
    · simp [signedBytes, hk, ih]

/-- C122: the code computes the HMAC-SHA256 of the documents that are not signatures, one after the
other.  So all theorems about signatures hold with this MAC. -/
theorem C122_sign (res : List RawResource) (key : Bytes) : signCode res key = signRes hmacSha256 res key := by
  unfold signCode signRes
  rw [signLoop_eq, C122_mac, ← signedBytes_eq]
  rfl

/-- C122: the MAC has 32 bytes. -/
theorem C122_length : Mac32 hmacSha256 := fun _ _ => bytes_length _

/-- C122: keys with the same block are the same key. -/
theorem C122_same_key {k k' : Bytes} (h : blockKey sha256 k = blockKey sha256 k') : hmacSha256 k = hmacSha256 k' := by
  funext m
  unfold hmacSha256 Spec.hmac
  rw [h]

/-- C122: a key of fewer than 64 bytes is the same key as the one with a zero byte behind it. -/
theorem C122_zero {k : Bytes} {n : Nat} (hk : k.length + n ≤ 64) : hmacSha256 (k ++ List.replicate n 0) = hmacSha256 k := by
  apply C122_same_key
  unfold blockKey
  rw [if_pos (by simpa using hk), if_pos (by omega), List.append_assoc, List.length_append, List.length_replicate,
    ← List.replicate_add]
  congr 2
  omega

/-- C122: a key of more than 64 bytes is the same key as its hash, which is long enough to be
accepted. -/
theorem C122_long {k : Bytes} (hk : 64 < k.length) :
    hmacSha256 k = hmacSha256 (sha256 k) ∧ (sha256 k).length = 32 := by
  have hl : (sha256 k).length = 32 := bytes_length _
  refine ⟨C122_same_key ?_, hl⟩
  unfold blockKey
  rw [if_neg (by omega), if_pos (by omega)]

theorem fill_inj {k k' : Bytes} {a b : Nat} (hle : k.length ≤ k'.length)
    (h : k ++ List.replicate a 0 = k' ++ List.replicate b 0) :
    k' = k ++ List.replicate (k'.length - k.length) (0 : UInt8) := by
  have hlen := congrArg List.length h
  simp only [List.length_append, List.length_replicate] at hlen
  have h2 := congrArg (List.take k'.length) h
  rw [List.take_left, List.take_append, List.take_of_length_le hle, List.take_replicate,
    Nat.min_eq_left (by omega)] at h2
  exact h2.symm

/-- C122: keys of at most 64 bytes have the same block exactly if they differ in zero bytes at the
end. -/
theorem C122_block_iff {k k' : Bytes} (hk : k.length ≤ 64) (hk' : k'.length ≤ 64) :
    blockKey sha256 k = blockKey sha256 k' ↔
      ∃ n, k' = k ++ List.replicate n 0 ∨ k = k' ++ List.replicate n 0 := by
  constructor
  · intro h
    unfold blockKey at h
    rw [if_pos hk, if_pos hk'] at h
    rcases Nat.le_total k.length k'.length with hle | hle
    · exact ⟨_, .inl (fill_inj hle h)⟩
    · exact ⟨_, .inr (fill_inj hle h.symm)⟩
  · have key : ∀ {a b : Bytes} {n : Nat}, b.length ≤ 64 → b = a ++ List.replicate n 0 →
        blockKey sha256 a = blockKey sha256 b := by
      rintro a _ n hb rfl
      simp only [List.length_append, List.length_replicate] at hb
      unfold blockKey
      rw [if_pos (by omega), if_pos (by simpa using hb), List.append_assoc, List.length_append, List.length_replicate,
        ← List.replicate_add]
      congr 2
      omega
    rintro ⟨n, h | h⟩
    · exact key hk' h
    · exact (key hk h).symm

/-- C122: two different keys of at most 64 bytes that do not end in a zero byte, such as texts, have
different blocks. -/
theorem C122_texts {k k' : Bytes} (hk : k.length ≤ 64) (hk' : k'.length ≤ 64) (h0 : k.getLast? ≠ some 0)
    (h0' : k'.getLast? ≠ some 0) : blockKey sha256 k = blockKey sha256 k' ↔ k = k' := by
  rw [C122_block_iff hk hk']
  have key : ∀ {a b : Bytes} {n : Nat}, b.getLast? ≠ some 0 → b = a ++ List.replicate n 0 → a = b := by
    rintro a _ n hb rfl
    cases n with
    | zero => simp
    | succ n =>
      rw [List.replicate_succ', ← List.append_assoc] at hb
      simp at hb
  constructor
  · rintro ⟨n, h | h⟩
    · exact key h0' h
    · exact (key h0 h).symm
  · rintro rfl
    exact ⟨0, .inl (by simp)⟩

theorem byteIsZero_iff (x : UInt8) : byteIsZero x = 1 ↔ x = 0 := by
  constructor
  · intro h
    by_contra hx
    have hx' : x.toNat ≠ 0 := fun e => hx (UInt8.toNat_inj.1 e)
    have hlt : x.toNat < 256 := x.toNat_lt
    have := congrArg UInt32.toNat h
    simp only [byteIsZero, UInt32.toNat_shiftRight, UInt32.toNat_sub, UInt8.toNat_toUInt32, UInt32.toNat_one,
      UInt32.reduceToNat, Nat.reduceMod, Nat.shiftRight_eq_div_pow] at this
    omega
  · rintro rfl
    rfl

theorem or_eq_zero (a b : UInt8) : a ||| b = 0 ↔ a = 0 ∧ b = 0 := by
  simp only [← UInt8.toNat_inj, UInt8.toNat_or, UInt8.toNat_zero, Nat.or_eq_zero_iff]

theorem differences_iff {x y : Bytes} (h : x.length = y.length) (v : UInt8) :
    differences v x y = 0 ↔ v = 0 ∧ x = y := by
  induction x generalizing y v with
  | nil =>
    cases y with
    | nil => simp [differences]
    | cons b y => simp at h
  | cons a x ih =>
    cases y with
    | nil => simp at h
    | cons b y =>
      simp only [differences]
      rw [ih (by simpa using h), or_eq_zero, UInt8.xor_eq_zero_iff]
      simp [and_assoc]

/-- C122: the comparison in constant time is equality. -/
theorem C122_equal (x y : Bytes) : hmacEqual x y = decide (x = y) := by
  unfold hmacEqual
  by_cases h : x.length = y.length
  · rw [if_neg (by simpa using h)]
    simp only [byteIsZero_iff, differences_iff h, true_and]
  · rw [if_pos h]
    have : x ≠ y := fun e => h (by rw [e])
    simp [this]

/-- C122: `Verify` with its libraries is the `Verify` of the other theorems with HMAC-SHA256. -/
theorem C122_verify (Y : SigLib) (data key : Bytes) : verifyCode Y data key = verify Y hmacSha256 data key := by
  unfold verifyCode verify
  simp only [C122_sign, C122_equal]
  cases parseRawBytes Y.toYamlLib data with
  | error e => rfl
  | ok res =>
    simp only
    cases extract Y res with
    | none => rfl
    | some m =>
      simp only
      cases signRes hmacSha256 res key <;> rfl

/-- C122: what is signed with one key verifies with every key that has the same block. -/
theorem C122_other_key (Y : SigLib) (hY : Y.ReadsSignature) (data k k' : Bytes) (rs : List RawResource)
    (hp : parseRawBytes Y.toYamlLib data = .ok rs) (hk : 32 ≤ k.length) (hk' : 32 ≤ k'.length) (hcr : NoDoubleCR data)
    (hb : blockKey sha256 k = blockKey sha256 k') :
    ∃ out, signUpdate Y hmacSha256 data k = .ok out ∧ verifyCode Y out k' = .ok true := by
  obtain ⟨out, h1, h2⟩ := C05_signed_verifies Y hY hmacSha256 C122_length data k rs hp hk hcr
  refine ⟨out, h1, ?_⟩
  rw [C122_verify]
  rw [C08_verify_iff] at h2 ⊢
  obtain ⟨rs, s, a1, _, a3, a4⟩ := h2
  exact ⟨rs, s, a1, hk', a3, by rw [← C122_same_key hb]; exact a4⟩

/-- The published test values of SHA-256 and HMAC-SHA256 (FIPS 180-4, RFC 4231). -/
example : sha256 (utf8 "abc") = [0xba, 0x78, 0x16, 0xbf, 0x8f, 0x01, 0xcf, 0xea, 0x41, 0x41, 0x40, 0xde, 0x5d, 0xae,
    0x22, 0x23, 0xb0, 0x03, 0x61, 0xa3, 0x96, 0x17, 0x7a, 0x9c, 0xb4, 0x10, 0xff, 0x61, 0xf2, 0x00, 0x15, 0xad] := by
  decide +kernel

example : hmacSha256 (List.replicate 20 0x0b) (utf8 "Hi There") = [0xb0, 0x34, 0x4c, 0x61, 0xd8, 0xdb, 0x38, 0x53,
    0x5c, 0xa8, 0xaf, 0xce, 0xaf, 0x0b, 0xf1, 0x2b, 0x88, 0x1d, 0xc2, 0x00, 0xc9, 0x83, 0x3d, 0xa7, 0x26, 0xe9, 0x37,
    0x6c, 0x2e, 0x32, 0xcf, 0xf7] := by
  decide +kernel

/-- A key of 131 bytes. -/
example : hmacSha256 (List.replicate 131 0xaa) (utf8 "Test Using Larger Than Block-Size Key - Hash Key First") =
    [0x60, 0xe4, 0x31, 0x59, 0x1e, 0xe0, 0xb6, 0x7f, 0x0d, 0x8a, 0x26, 0xaa, 0xcb, 0xf5, 0xb7, 0x7f, 0x8e, 0x0b, 0xc6,
      0x21, 0x37, 0x28, 0xc5, 0x14, 0x05, 0x46, 0x04, 0x0f, 0x0e, 0xe3, 0x7f, 0x54] := by
  decide +kernel

/-- The published value of a message of 56 bytes, whose padding needs a second block. -/
example : sha256 (utf8 "abcdbcdecdefdefgefghfghighijhijkijkljklmklmnlmnomnopnopq") = [0x24, 0x8d, 0x6a, 0x61, 0xd2, 0x06,
    0x38, 0xb8, 0xe5, 0xc0, 0x26, 0x93, 0x0c, 0x3e, 0x60, 0x39, 0xa3, 0x3c, 0xe4, 0x59, 0x64, 0xff, 0x21, 0x67, 0xf6,
    0xec, 0xed, 0xd4, 0x19, 0xdb, 0x06, 0xc1] := by
  decide +kernel

/-- C122: the hypotheses of C122_other_key can be met with two different keys. -/
example : exSig.ReadsSignature ∧ NoDoubleCR (utf8 "a: 1\n---\nb: 2\n") ∧ exKey ≠ exKey ++ [0] ∧ 32 ≤ exKey.length ∧
    32 ≤ (exKey ++ [0]).length ∧ blockKey sha256 exKey = blockKey sha256 (exKey ++ [0]) :=
  ⟨exSig_reads, ⟨by decide +kernel, by decide +kernel⟩, by decide, by decide, by decide,
    (C122_block_iff (by decide) (by decide)).2 ⟨1, .inl rfl⟩⟩

end Sha
end Drone
