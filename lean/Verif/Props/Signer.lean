import Verif.Proof.ParseRaw
import Verif.Model.Signer
/-
C05 - C11: signing and verifying (/repo/yaml/signer/signer.go).
-/
namespace Drone
open Spec

/-! ### Specification vocabulary -/

/-- Lower case hex digits, most significant nibble first. -/
def Spec.hexDigits : List UInt8 := [48, 49, 50, 51, 52, 53, 54, 55, 56, 57, 97, 98, 99, 100, 101, 102]

/-- `s` writes the bytes `m` as lower case hex. -/
def Spec.HexOf (m s : Bytes) : Prop :=
  s = m.flatMap (fun b => [Spec.hexDigits.getD (b.toNat / 16) 0, Spec.hexDigits.getD (b.toNat % 16) 0])

/-- ASCII upper case letters folded to lower case. -/
def Spec.lower (b : UInt8) : UInt8 := if 65 ≤ b.toNat ∧ b.toNat ≤ 90 then UInt8.ofNat (b.toNat + 32) else b

/-- The bytes of the documents that are not signatures, concatenated. -/
def Spec.content (rs : List RawResource) : Bytes :=
  ((rs.filter (fun r => r.kind ≠ "signature")).map (·.data)).flatten

/-- The MAC has 32 bytes, as HMAC-SHA256 has. -/
def Mac32 (mac : Mac) : Prop := ∀ k m, (mac k m).length = 32

/-- What the signer needs from the YAML library: the document
`kind: signature⏎hmac: <64 hex digits>⏎⏎` is read as a signature with that
value. -/
structure SigLib.ReadsSignature (Y : SigLib) : Prop where
  kind : ∀ m s : Bytes, m.length = 32 → HexOf m s →
    ∃ h, Y.header (utf8 "kind: signature\nhmac: " ++ s ++ [10, 10]) = .ok h ∧ h.kind = "signature"
  hmac : ∀ m s : Bytes, m.length = 32 → HexOf m s →
    ∃ v, Y.sigHmac (utf8 "kind: signature\nhmac: " ++ s ++ [10, 10]) = .ok v ∧ utf8 v = s

/-! ### A library and a MAC for the examples -/

/-- Reads only what it needs to: the kind from the first line. -/
def exSig : SigLib where
  header d := if (utf8 "kind: signature\n").isPrefixOf d then .ok { kind := "signature" }
    else .ok { kind := "pipeline" }
  resource _ _ := .error "not used"
  sigHmac d := .ok (String.ofList (((d.drop 22).takeWhile (· ≠ 10)).map (fun b => Char.ofNat b.toNat)))

/-- 32 bytes; injective on messages of up to 32 bytes, which is enough for the
examples. -/
def exMac : Mac := fun _ m => (m ++ List.replicate 32 0).take 32

def exKey : Bytes := List.replicate 32 1

theorem exMac_32 : Mac32 exMac := by
  intro k m
  simp [exMac]

theorem hexDigits_ascii : ∀ n : Nat, n < 16 →
    (Spec.hexDigits.getD n 0).toNat < 128 ∧ Spec.hexDigits.getD n 0 ≠ 10 ∧ Spec.hexDigits.getD n 0 ≠ 13 := by
  decide

theorem hexOf_mem {m s : Bytes} (h : HexOf m s) : ∀ b ∈ s, b.toNat < 128 ∧ b ≠ 10 ∧ b ≠ 13 := by
  intro b hb
  rw [h] at hb
  simp only [List.mem_flatMap, List.mem_cons, List.not_mem_nil, or_false] at hb
  obtain ⟨a, _, rfl | rfl⟩ := hb
  · exact hexDigits_ascii _ (by have := a.toNat_lt; omega)
  · exact hexDigits_ascii _ (by omega)

theorem hexOf_length {m s : Bytes} (h : HexOf m s) : s.length = 2 * m.length := by
  rw [h, List.length_flatMap]
  induction m <;> simp_all
  omega

theorem encode_ascii (b : UInt8) (h : b.toNat < 128) :
    String.utf8EncodeChar (Char.ofNat b.toNat) = [b] := by
  have hv : (b.toNat).isValidChar := by left; omega
  have hc : (Char.ofNat b.toNat).val = b.toUInt32 := by
    rw [Char.ofNat, dif_pos hv]
    show (⟨_⟩ : UInt32) = _
    apply UInt32.toNat_inj.1
    simp [Char.ofNatAux, UInt32.toNat]
  have h2 : (Char.ofNat b.toNat).val.toNat = b.toNat := by rw [hc]; simp
  unfold String.utf8EncodeChar
  simp only [h2]
  rw [if_pos (by omega)]
  simp

theorem utf8_ascii (l : Bytes) (h : ∀ b ∈ l, b.toNat < 128) :
    utf8 (String.ofList (l.map (fun b => Char.ofNat b.toNat))) = l := by
  unfold utf8
  rw [String.toList_ofList, List.flatMap_map]
  induction l with
  | nil => rfl
  | cons b bs ih =>
    rw [List.flatMap_cons, ih (fun b hb => h b (by simp [hb])), encode_ascii b (h b (by simp))]
    rfl

theorem exSig_reads : exSig.ReadsSignature where
  kind := by
    intro m s _ _
    refine ⟨{ kind := "signature" }, ?_, rfl⟩
    have : (utf8 "kind: signature\n").isPrefixOf
        (utf8 "kind: signature\nhmac: " ++ s ++ [10, 10]) = true := by
      rw [List.isPrefixOf_iff_prefix]
      exact ⟨utf8 "hmac: " ++ s ++ [10, 10], rfl⟩
    simp only [exSig, this, if_true]
  hmac := by
    intro m s _ hs
    refine ⟨_, rfl, ?_⟩
    have h1 : (utf8 "kind: signature\nhmac: " ++ s ++ [10, 10]).drop 22 = s ++ [10, 10] := rfl
    rw [h1, List.takeWhile_append_of_pos (by
      intro b hb; simpa using (hexOf_mem hs b hb).2.1)]
    simp only [ne_eq, decide_not, List.takeWhile_cons, decide_true, Bool.not_true, Bool.false_eq_true,
      if_false, List.append_nil]
    exact utf8_ascii s (fun b hb => (hexOf_mem hs b hb).1)

/-! ### Lemmas -/

theorem hexDigit_eq : ∀ n : Nat, n < 16 → hexDigit n = Spec.hexDigits.getD n 0 := by decide

theorem hexEncode_hexOf (m : Bytes) : HexOf m (hexEncode m) := by
  unfold HexOf
  induction m with
  | nil => rfl
  | cons b bs ih =>
    rw [hexEncode, List.flatMap_cons, ih, hexDigit_eq _ (by have := b.toNat_lt; omega),
      hexDigit_eq _ (by omega)]
    rfl

theorem hexVal_iff : ∀ b : UInt8, ∀ n : Nat, hexVal b = some n ↔
    n < 16 ∧ Spec.lower b = Spec.hexDigits.getD n 0 := by
  have h1 : ∀ b : Fin 256, ∀ n : Fin 16, hexVal (UInt8.ofFin b) = some n.val ↔
      Spec.lower (UInt8.ofFin b) = Spec.hexDigits.getD n.val 0 := by decide +kernel
  have h2 : ∀ b : Fin 256, ∀ n, hexVal (UInt8.ofFin b) = some n → n < 16 := by
    intro b n h
    unfold hexVal at h
    split_ifs at h <;> simp only [Option.some.injEq] at h <;> omega
  intro b n
  have hb : b = UInt8.ofFin b.toFin := by simp
  constructor
  · intro h
    have hn := h2 b.toFin n (by rw [← hb]; exact h)
    exact ⟨hn, by rw [hb]; exact (h1 b.toFin ⟨n, hn⟩).1 (by rw [← hb]; exact h)⟩
  · rintro ⟨hn, h⟩
    have := (h1 b.toFin ⟨n, hn⟩).2 (by rw [← hb]; exact h)
    rw [← hb] at this
    exact this

theorem hexDigits_inj : ∀ a b : Nat, a < 16 → b < 16 →
    Spec.hexDigits.getD a 0 = Spec.hexDigits.getD b 0 → a = b := by
  have : ∀ a b : Fin 16, Spec.hexDigits.getD a.val 0 = Spec.hexDigits.getD b.val 0 → a = b := by
    decide
  intro a b ha hb h
  have := this ⟨a, ha⟩ ⟨b, hb⟩ h
  simpa using this

/-- `hex.DecodeString` accepts exactly the hex writings of a byte string, in
either case of letters. -/
theorem hexDecode_iff : ∀ s m : Bytes, hexDecode s = some m ↔ HexOf m (s.map Spec.lower)
  | [], m => by unfold HexOf; cases m <;> simp [hexDecode]
  | [x], m => by unfold HexOf; cases m <;> simp [hexDecode]
  | a :: b :: rest, m => by
    have ih := hexDecode_iff rest
    unfold HexOf at ih ⊢
    unfold hexDecode
    constructor
    · intro h
      cases hx : hexVal a with
      | none => simp [hx] at h
      | some x =>
        cases hy : hexVal b with
        | none => simp [hx, hy] at h
        | some y =>
          cases hr : hexDecode rest with
          | none => simp [hx, hy, hr] at h
          | some r =>
            simp only [hx, hy, hr, Option.some.injEq] at h
            subst h
            rw [hexVal_iff] at hx hy
            have := (ih r).1 hr
            rw [List.map_cons, List.map_cons, List.flatMap_cons, ← this, hx.2, hy.2]
            have : (UInt8.ofNat (16 * x + y)).toNat = 16 * x + y := by
              simp; omega
            rw [this]
            have h1 : (16 * x + y) / 16 = x := by omega
            have h2 : (16 * x + y) % 16 = y := by omega
            rw [h1, h2]
            rfl
    · intro h
      cases m with
      | nil => simp at h
      | cons c cs =>
        simp only [List.map_cons, List.flatMap_cons, List.cons_append, List.nil_append,
          List.cons.injEq] at h
        obtain ⟨h1, h2, h3⟩ := h
        have hc := c.toNat_lt
        have hx := (hexVal_iff a (c.toNat / 16)).2 ⟨by omega, h1⟩
        have hy := (hexVal_iff b (c.toNat % 16)).2 ⟨by omega, h2⟩
        rw [hx, hy, (ih cs).2 h3]
        simp only [Option.some.injEq, List.cons.injEq, and_true]
        have : 16 * (c.toNat / 16) + c.toNat % 16 = c.toNat := by omega
        rw [this]; simp

theorem lower_hexDigits : ∀ n : Nat, n < 16 → Spec.lower (Spec.hexDigits.getD n 0) = Spec.hexDigits.getD n 0 := by
  decide

theorem hexOf_lower {m s : Bytes} (h : HexOf m s) : s.map Spec.lower = s := by
  rw [h]
  rw [List.map_flatMap]
  congr 1
  funext b
  have := b.toNat_lt
  simp only [List.map_cons, List.map_nil]
  rw [lower_hexDigits _ (by omega), lower_hexDigits _ (by omega)]

theorem hexDecode_hexEncode (m : Bytes) : hexDecode (hexEncode m) = some m := by
  rw [hexDecode_iff, hexOf_lower (hexEncode_hexOf m)]
  exact hexEncode_hexOf m

theorem signedBytes_eq (rs : List RawResource) : signedBytes rs = Spec.content rs := by
  unfold Spec.content
  induction rs with
  | nil => rfl
  | cons r rs ih =>
    unfold signedBytes
    by_cases h : r.kind = "signature" <;> simp [h, kindSignature, ih]

theorem writeDocs_eq (rs : List RawResource) : writeDocs rs =
    ((rs.filter (fun r => r.kind ≠ "signature")).map (·.data)).flatMap (fun d => [45, 45, 45, 10] ++ d) := by
  induction rs with
  | nil => rfl
  | cons r rs ih =>
    unfold writeDocs
    by_cases h : r.kind = "signature" <;> simp [h, kindSignature, ih, sepLine, LF]

theorem sigBody_eq (hex : Bytes) : sigBody hex = utf8 "kind: signature\nhmac: " ++ hex ++ [10, 10] := by
  have : utf8 "kind: signature" ++ [LF] ++ utf8 "hmac: " = utf8 "kind: signature\nhmac: " := rfl
  unfold sigBody
  rw [← this]
  simp [LF]

theorem sigBody_lines (hex : Bytes) :
    sigBody hex = unlines [utf8 "kind: signature", utf8 "hmac: " ++ hex, []] := by
  simp [sigBody, unlines, LF]

theorem utf8_dots : utf8 "..." = [46, 46, 46] := rfl

theorem sigLines_good {hex : Bytes} (h10 : (10 : UInt8) ∉ hex) (h13 : (13 : UInt8) ∉ hex)
    (hl : hex.length < 65000) :
    ∀ l ∈ [utf8 "kind: signature", utf8 "hmac: " ++ hex, []], GoodLine l := by
  intro l hl'
  simp only [List.mem_cons, List.not_mem_nil, or_false] at hl'
  have e : utf8 "hmac: " = [104, 109, 97, 99, 58, 32] := rfl
  rcases hl' with rfl | rfl | rfl
  · refine ⟨by decide, by decide, by decide, ?_, ?_⟩
    · rw [← isSeparator_iff]; decide
    · rw [← isTerminator_iff]; decide
  · rw [e]
    refine ⟨by simpa using h10, by simp; omega, ?_, ?_, ?_⟩
    · rw [List.getLast?_append]
      intro hc
      cases hx : hex.getLast? with
      | none => rw [hx] at hc; simp at hc
      | some x =>
        rw [hx] at hc
        simp only [Option.some_or, Option.some.injEq] at hc
        exact h13 (hc ▸ List.mem_of_getLast? hx)
    · rintro ⟨r, hr⟩; simp at hr
    · rintro ⟨r, hr⟩; simp at hr
  · refine ⟨by decide, by decide, by decide, ?_, ?_⟩
    · rw [← isSeparator_iff]; decide
    · rw [← isTerminator_iff]; decide

theorem filter_map_unlines {rs : List RawResource} {bs : List (List Bytes)}
    (h : rs.map (·.data) = bs.map unlines) (hg : ∀ b ∈ bs, ∀ l ∈ b, GoodLine l)
    (p : RawResource → Bool) :
    ∃ bs' : List (List Bytes), (rs.filter p).map (·.data) = bs'.map unlines ∧
      ∀ b ∈ bs', ∀ l ∈ b, GoodLine l := by
  induction rs generalizing bs with
  | nil => exact ⟨[], rfl, by simp⟩
  | cons r rs ih =>
    cases bs with
    | nil => simp at h
    | cons b bs =>
      simp only [List.map_cons, List.cons.injEq] at h
      obtain ⟨bs', h1, h2⟩ := ih h.2 (fun b hb => hg b (by simp [hb]))
      by_cases hp : p r
      · refine ⟨b :: bs', by simp [hp, h.1, h1], ?_⟩
        intro b' hb'
        rcases List.mem_cons.1 hb' with rfl | hb'
        · exact hg _ (by simp)
        · exact h2 b' hb'
      · exact ⟨bs', by simp [hp, h1], h2⟩

/-- Reading back what `upsert` writes. -/
theorem splitDocs_upsert {data hex : Bytes} {rs : List RawResource} {Y : YamlLib}
    (h : parseRawBytes Y data = .ok rs) (hcr : NoDoubleCR data)
    (h10 : (10 : UInt8) ∉ hex) (h13 : (13 : UInt8) ∉ hex) (hl : hex.length < 65000) :
    splitDocs (upsert rs hex) =
      (rs.filter (fun r => r.kind ≠ "signature")).map (·.data) ++ [sigBody hex] := by
  obtain ⟨bs, h1, h2⟩ := splitDocs_good hcr
  have hd := decodeHeaders_data h
  simp only at hd
  rw [h1] at hd
  obtain ⟨bs', h3, h4⟩ := filter_map_unlines hd h2 (fun r => r.kind ≠ "signature")
  unfold upsert
  rw [writeDocs_eq, h3, sigBody_lines, utf8_dots, ← unlines_blockLines]
  set sg : List Bytes := [utf8 "kind: signature", utf8 "hmac: " ++ hex, []] with hsg
  have : unlines (blockLines bs') ++ sepLine ++ unlines sg ++ [46, 46, 46] ++ [LF]
      = unlines (blockLines (bs' ++ [sg]) ++ [[46, 46, 46]]) := by
    rw [unlines_append]
    have hb : blockLines (bs' ++ [sg]) = blockLines bs' ++ ([45, 45, 45] :: sg) := by
      simp [blockLines]
    rw [hb, unlines_append, unlines_cons]
    simp [sepLine, LF, unlines, hsg]
  rw [this, splitDocs_blocks _ _ _ (by simp) (Or.inr rfl)]
  · simp
  · intro b hb
    rcases List.mem_append.1 hb with hb | hb
    · exact h4 b hb
    · simp only [List.mem_singleton] at hb
      subst hb
      exact sigLines_good h10 h13 hl

theorem decodeHeaders_filter {Y : YamlLib} {ds : List Bytes} {rs : List RawResource}
    (h : decodeHeaders Y ds = .ok rs) (p : RawResource → Bool) (extra : Bytes) (hd : Header)
    (he : Y.header extra = .ok hd) :
    decodeHeaders Y ((rs.filter p).map (·.data) ++ [extra]) =
      .ok (rs.filter p ++ [⟨hd.version, hd.kind, hd.type, extra⟩]) := by
  rw [decodeHeaders_ok_iff] at h ⊢
  induction h with
  | nil => simp [he]
  | cons h1 _ ih =>
    rename_i d r ds rs _
    by_cases hp : p r
    · simp only [hp, List.filter_cons_of_pos, List.map_cons, List.cons_append, List.forall₂_cons]
      exact ⟨⟨trivial, h1.1 ▸ h1.2⟩, ih⟩
    · simpa [hp] using ih

/-- Parsing a freshly written file: the non-signature documents of the original
and one signature document. -/
theorem parse_upsert {Y : SigLib} (hY : Y.ReadsSignature) {data s m : Bytes} {rs : List RawResource}
    (h : parseRawBytes Y.toYamlLib data = .ok rs) (hcr : NoDoubleCR data)
    (hm : m.length = 32) (hs : HexOf m s) :
    ∃ sg : RawResource, sg.kind = "signature" ∧ sg.data = sigBody s ∧
      parseRawBytes Y.toYamlLib (upsert rs s) =
        .ok (rs.filter (fun r => r.kind ≠ "signature") ++ [sg]) := by
  obtain ⟨hd, he, hk⟩ := hY.kind m s hm hs
  rw [← sigBody_eq] at he
  refine ⟨⟨hd.version, hd.kind, hd.type, sigBody s⟩, hk, rfl, ?_⟩
  have hlen := hexOf_length hs
  have := splitDocs_upsert h hcr (hex := s) (fun hx => (hexOf_mem hs _ hx).2.1 rfl)
    (fun hx => (hexOf_mem hs _ hx).2.2 rfl) (by omega)
  show decodeHeaders _ (splitDocs (upsert rs s)) = _
  rw [this]
  exact decodeHeaders_filter h _ _ _ he

theorem filter_filter_append (rs : List RawResource) (sg : RawResource) (h : sg.kind = "signature") :
    (rs.filter (fun r => r.kind ≠ "signature") ++ [sg]).filter (fun r => r.kind ≠ "signature")
      = rs.filter (fun r => r.kind ≠ "signature") := by
  rw [List.filter_append, List.filter_filter]
  simp [h]

theorem signUpdate_eq {Y : SigLib} {mac : Mac} {data key : Bytes} {rs : List RawResource}
    (h : parseRawBytes Y.toYamlLib data = .ok rs) (hk : 32 ≤ key.length) :
    signUpdate Y mac data key = .ok (upsert rs (hexEncode (mac key (Spec.content rs)))) := by
  unfold signUpdate
  rw [h]
  simp only [signRes, Nat.not_lt.2 hk, if_false, signedBytes_eq]
  rfl

theorem extract_append_sig {Y : SigLib} (rs : List RawResource) (sg : RawResource)
    (h : sg.kind = "signature") :
    extract Y (rs.filter (fun r => r.kind ≠ "signature") ++ [sg]) =
      match Y.sigHmac sg.data with
      | .error _ => none
      | .ok s => hexDecode (utf8 s) := by
  induction rs with
  | nil => simp only [List.filter_nil, List.nil_append, extract, h, kindSignature, if_true]; cases Y.sigHmac sg.data <;> rfl
  | cons r rs ih =>
    by_cases hr : r.kind = "signature"
    · simpa [hr] using ih
    · simp only [ne_eq, decide_not] at ih
      simp [hr, extract, kindSignature, ih]

/-! ### C05 -/

/-- C05: a file signed with a key verifies with that key, provided no line of
it ends in two carriage returns. -/
theorem C05_signed_verifies (Y : SigLib) (hY : Y.ReadsSignature) (mac : Mac) (hmac : Mac32 mac)
    (data key : Bytes) (rs : List RawResource) (hp : parseRawBytes Y.toYamlLib data = .ok rs)
    (hk : 32 ≤ key.length) (hcr : NoDoubleCR data) :
    ∃ out, signUpdate Y mac data key = .ok out ∧ verify Y mac out key = .ok true := by
  refine ⟨_, signUpdate_eq hp hk, ?_⟩
  set m := mac key (Spec.content rs) with hm
  obtain ⟨sg, h1, h2, h3⟩ := parse_upsert hY hp hcr (hmac _ _) (hexEncode_hexOf m)
  obtain ⟨v, h4, h5⟩ := hY.hmac m _ (hmac _ _) (hexEncode_hexOf m)
  rw [← sigBody_eq] at h4
  unfold verify
  rw [h3]
  simp only [extract_append_sig _ _ h1, h2, h4, h5, hexDecode_hexEncode, signRes, Nat.not_lt.2 hk,
    if_false, signedBytes_eq, Spec.content, filter_filter_append _ _ h1]
  simp [hm, Spec.content]

/-- The side condition of C05 is needed: a file with a line ending in two
carriage returns does not verify after being signed. -/
theorem C05_double_cr_fails : ∃ (Y : SigLib) (mac : Mac) (data key out : Bytes),
    Y.ReadsSignature ∧ Mac32 mac ∧ 32 ≤ key.length ∧
    signUpdate Y mac data key = .ok out ∧ verify Y mac out key = .ok false :=
  ⟨exSig, exMac, [97, 13, 13, 10], exKey, _, exSig_reads, exMac_32, by decide, rfl, by decide +kernel⟩

example : ∃ rs, parseRawBytes exSig.toYamlLib (utf8 "a: 1\r\n---\nb: 2\n") = .ok rs ∧ rs.length = 2 ∧
    32 ≤ exKey.length := ⟨_, rfl, rfl, by decide⟩

example : NoDoubleCR (utf8 "a: 1\r\n---\nb: 2\n") := by
  unfold NoDoubleCR; decide +kernel

/-! ### C06 -/

/-- C06: signing a signed file again with the same key changes nothing. -/
theorem C06_sign_idempotent (Y : SigLib) (hY : Y.ReadsSignature) (mac : Mac) (hmac : Mac32 mac)
    (data key out : Bytes) (hcr : NoDoubleCR data) (h : signUpdate Y mac data key = .ok out) :
    signUpdate Y mac out key = .ok out := by
  unfold signUpdate at h
  cases hp : parseRawBytes Y.toYamlLib data with
  | error e => simp [hp] at h
  | ok rs =>
    by_cases hk : key.length < 32
    · simp [hp, signRes, hk] at h
    · have hk' := Nat.not_lt.1 hk
      have h' : signUpdate Y mac data key = .ok out := by unfold signUpdate; exact h
      rw [signUpdate_eq hp hk'] at h'
      simp only [Except.ok.injEq] at h'
      obtain ⟨sg, h1, h2, h3⟩ := parse_upsert hY hp hcr (hmac _ _)
        (hexEncode_hexOf (mac key (Spec.content rs)))
      rw [← h']
      rw [signUpdate_eq h3 hk']
      have hc : Spec.content (rs.filter (fun r => r.kind ≠ "signature") ++ [sg]) = Spec.content rs := by
        unfold Spec.content; rw [filter_filter_append _ _ h1]
      rw [hc]
      unfold upsert
      rw [writeDocs_eq, writeDocs_eq, filter_filter_append _ _ h1]

/-- C06: the documents of a signed file are the non-signature documents of the
original, followed by one signature document. -/
theorem C06_one_signature_last (Y : SigLib) (hY : Y.ReadsSignature) (mac : Mac) (hmac : Mac32 mac)
    (data key out : Bytes) (rs : List RawResource) (hp : parseRawBytes Y.toYamlLib data = .ok rs)
    (hcr : NoDoubleCR data) (h : signUpdate Y mac data key = .ok out) :
    ∃ sg, sg.kind = "signature" ∧ parseRawBytes Y.toYamlLib out =
      .ok (rs.filter (fun r => r.kind ≠ "signature") ++ [sg]) := by
  by_cases hk : key.length < 32
  · simp [signUpdate, hp, signRes, hk] at h
  · rw [signUpdate_eq hp (Nat.not_lt.1 hk)] at h
    simp only [Except.ok.injEq] at h
    obtain ⟨sg, h1, h2, h3⟩ := parse_upsert hY hp hcr (hmac _ _)
      (hexEncode_hexOf (mac key (Spec.content rs)))
    exact ⟨sg, h1, h ▸ h3⟩

example : ∃ out, signUpdate exSig exMac (utf8 "a: 1\n---\nkind: signature\nhmac: 00\n---\nb: 2\n") exKey = .ok out :=
  ⟨_, rfl⟩

/-! ### C07 -/

/-- C07: the value `Sign` returns depends only on the non-signature documents,
in order. -/
theorem C07_signature_docs_irrelevant (Y : SigLib) (mac : Mac) (d1 d2 key : Bytes)
    (r1 r2 : List RawResource) (h1 : parseRawBytes Y.toYamlLib d1 = .ok r1)
    (h2 : parseRawBytes Y.toYamlLib d2 = .ok r2)
    (h : (r1.filter (fun r => r.kind ≠ "signature")).map (·.data)
       = (r2.filter (fun r => r.kind ≠ "signature")).map (·.data)) :
    sign Y mac d1 key = sign Y mac d2 key := by
  unfold sign
  rw [h1, h2]
  simp only [signRes, signedBytes_eq, Spec.content, h]

/-- C07: writing any signature value into a file does not change what `Sign`
returns for it. -/
theorem C07_write_then_sign (Y : SigLib) (hY : Y.ReadsSignature) (mac : Mac)
    (data key m s out : Bytes) (hm : m.length = 32) (hs : HexOf m s) (hcr : NoDoubleCR data)
    (h : writeTo Y data s = (out, none)) : sign Y mac out key = sign Y mac data key := by
  unfold writeTo at h
  cases hp : parseRawBytes Y.toYamlLib data with
  | error e => simp [hp] at h
  | ok rs =>
    simp only [hp, Prod.mk.injEq, and_true] at h
    obtain ⟨sg, h1, h2, h3⟩ := parse_upsert hY hp hcr hm hs
    rw [h] at h3
    exact C07_signature_docs_irrelevant Y mac out data key _ _ h3 hp
      (by rw [filter_filter_append _ _ h1])

example : ∃ r1 r2, parseRawBytes exSig.toYamlLib (utf8 "a: 1\n---\nkind: signature\nhmac: 00\n") = .ok r1 ∧
    parseRawBytes exSig.toYamlLib (utf8 "kind: signature\nhmac: ff\n---\na: 1\n") = .ok r2 ∧ r1 ≠ r2 ∧
    (r1.filter (fun r => r.kind ≠ "signature")).map (·.data)
       = (r2.filter (fun r => r.kind ≠ "signature")).map (·.data) :=
  ⟨_, _, rfl, rfl, by decide +kernel, by decide +kernel⟩

/-! ### C08 -/

/-- The first signature document's value is `s`. -/
def Spec.FirstSignature (Y : SigLib) (rs : List RawResource) (s : Bytes) : Prop :=
  ∃ pre sg post v, rs = pre ++ sg :: post ∧ (∀ r ∈ pre, r.kind ≠ "signature") ∧
    sg.kind = "signature" ∧ Y.sigHmac sg.data = .ok v ∧ s = utf8 v

theorem extract_iff (Y : SigLib) (rs : List RawResource) (m : Bytes) :
    extract Y rs = some m ↔ ∃ s, Spec.FirstSignature Y rs s ∧ HexOf m (s.map Spec.lower) := by
  induction rs with
  | nil => simp [extract, Spec.FirstSignature]
  | cons r rs ih =>
    unfold extract
    by_cases hr : r.kind = "signature"
    · simp only [hr, kindSignature, if_true]
      constructor
      · intro h
        cases hv : Y.sigHmac r.data with
        | error e => simp [hv] at h
        | ok v =>
          simp only [hv] at h
          exact ⟨utf8 v, ⟨[], r, rs, v, rfl, by simp, hr, hv, rfl⟩, (hexDecode_iff _ _).1 h⟩
      · rintro ⟨s, ⟨pre, sg, post, v, h1, h2, h3, h4, rfl⟩, h5⟩
        cases pre with
        | nil =>
          simp only [List.nil_append, List.cons.injEq] at h1
          rw [h1.1, h4]
          exact (hexDecode_iff _ _).2 h5
        | cons p ps =>
          simp only [List.cons_append, List.cons.injEq] at h1
          exact absurd (h1.1 ▸ hr) (h2 p (by simp))
    · simp only [hr, kindSignature, if_false, ih]
      constructor
      · rintro ⟨s, ⟨pre, sg, post, v, h1, h2, h3, h4, rfl⟩, h5⟩
        refine ⟨utf8 v, ⟨r :: pre, sg, post, v, by simp [h1], ?_, h3, h4, rfl⟩, h5⟩
        intro x hx
        rcases List.mem_cons.1 hx with rfl | hx
        · exact hr
        · exact h2 x hx
      · rintro ⟨s, ⟨pre, sg, post, v, h1, h2, h3, h4, rfl⟩, h5⟩
        cases pre with
        | nil =>
          simp only [List.nil_append, List.cons.injEq] at h1
          exact absurd (h1.1 ▸ h3) hr
        | cons p ps =>
          simp only [List.cons_append, List.cons.injEq] at h1
          exact ⟨utf8 v, ⟨ps, sg, post, v, h1.2, fun x hx => h2 x (by simp [hx]), h3, h4, rfl⟩, h5⟩

/-- C08: `Verify` returns true exactly when the file parses, the key is long
enough and the first signature document holds the hex (in either case) of the
MAC of the concatenated non-signature documents. -/
theorem C08_verify_iff (Y : SigLib) (mac : Mac) (data key : Bytes) :
    verify Y mac data key = .ok true ↔
      ∃ rs s, parseRawBytes Y.toYamlLib data = .ok rs ∧ 32 ≤ key.length ∧
        Spec.FirstSignature Y rs s ∧ HexOf (mac key (Spec.content rs)) (s.map Spec.lower) := by
  unfold verify
  cases hp : parseRawBytes Y.toYamlLib data with
  | error e => simp
  | ok rs =>
    simp only [Except.ok.injEq, exists_and_left, exists_eq_left']
    have hex := extract_iff Y rs (mac key (Spec.content rs))
    cases he : extract Y rs with
    | none =>
      rw [he] at hex
      simp only [reduceCtorEq, false_iff, not_exists, not_and, Except.ok.injEq, Bool.false_eq_true,
        exists_and_left] at hex ⊢
      exact fun _ s h => hex s h
    | some m1 =>
      by_cases hk : key.length < 32
      · simp [signRes, hk, Nat.not_le.2 hk]
      · rw [he] at hex
        simp only [signRes, hk, if_false, Except.ok.injEq, decide_eq_true_eq, signedBytes_eq,
          Nat.not_lt.1 hk, true_and, ← hex, Option.some.injEq]

example : verify exSig exMac (utf8 "a: 1\n---\nkind: signature\nhmac: 613A20310A000000000000000000000000000000000000000000000000000000\n") exKey
    = .ok true := by decide +kernel

/-! ### C09 -/

/-- C09, whatever the MAC: the contents of two verified files with the same
signature value have the same MAC.  So they are equal, or they are a collision of
the MAC under the key. -/
theorem C09_same_mac (Y : SigLib) (mac : Mac) (key d1 d2 : Bytes)
    (r1 r2 : List RawResource) (s1 s2 : Bytes)
    (h1 : parseRawBytes Y.toYamlLib d1 = .ok r1) (h2 : parseRawBytes Y.toYamlLib d2 = .ok r2)
    (hs1 : Spec.FirstSignature Y r1 s1) (hs2 : Spec.FirstSignature Y r2 s2)
    (hs : s1.map Spec.lower = s2.map Spec.lower)
    (v1 : verify Y mac d1 key = .ok true) (v2 : verify Y mac d2 key = .ok true) :
    mac key (Spec.content r1) = mac key (Spec.content r2) := by
  have fs_unique : ∀ (rs : List RawResource) (a b : Bytes), Spec.FirstSignature Y rs a →
      Spec.FirstSignature Y rs b → a = b := by
    intro rs
    induction rs with
    | nil => rintro a b ⟨pre, sg, post, v, h, _⟩; simp at h
    | cons r rs ih =>
      rintro a b ⟨pre, sg, post, v, h1, h2, h3, h4, rfl⟩ ⟨pre', sg', post', v', h1', h2', h3', h4', rfl⟩
      cases pre with
      | nil =>
        cases pre' with
        | nil =>
          simp only [List.nil_append, List.cons.injEq] at h1 h1'
          rw [← h1.1] at h4; rw [← h1'.1, h4] at h4'
          simp only [Except.ok.injEq] at h4'
          rw [h4']
        | cons p ps =>
          simp only [List.nil_append, List.cons_append, List.cons.injEq] at h1 h1'
          exact absurd (by rw [← h1'.1, h1.1]; exact h3) (h2' p (by simp))
      | cons p ps =>
        cases pre' with
        | nil =>
          simp only [List.nil_append, List.cons_append, List.cons.injEq] at h1 h1'
          exact absurd (by rw [← h1.1, h1'.1]; exact h3') (h2 p (by simp))
        | cons p' ps' =>
          simp only [List.cons_append, List.cons.injEq] at h1 h1'
          exact ih _ _ ⟨ps, sg, post, v, h1.2, fun x hx => h2 x (by simp [hx]), h3, h4, rfl⟩
            ⟨ps', sg', post', v', h1'.2, fun x hx => h2' x (by simp [hx]), h3', h4', rfl⟩
  obtain ⟨ra, sa, ha1, _, ha2, ha3⟩ := (C08_verify_iff Y mac d1 key).1 v1
  obtain ⟨rb, sb, hb1, _, hb2, hb3⟩ := (C08_verify_iff Y mac d2 key).1 v2
  rw [h1] at ha1; rw [h2] at hb1
  simp only [Except.ok.injEq] at ha1 hb1
  subst ha1; subst hb1
  have e1 := fs_unique _ _ _ ha2 hs1
  have e2 := fs_unique _ _ _ hb2 hs2
  subst e1; subst e2
  rw [hs] at ha3
  have := (hexDecode_iff sb _).2 ha3
  rw [(hexDecode_iff sb _).2 hb3] at this
  simp only [Option.some.injEq] at this
  exact this.symm

/-- C09 (part): two verified files with the same signature value have the same
concatenated content, if these two contents are no collision of the MAC.  Missing
for the full claim: that the content is cut into documents at the same places;
`C09_boundaries_not_signed` shows that this fails. -/
theorem C09_content_fixed_partial (Y : SigLib) (mac : Mac) (key d1 d2 : Bytes)
    (r1 r2 : List RawResource) (s1 s2 : Bytes)
    (hcol : mac key (Spec.content r1) = mac key (Spec.content r2) → Spec.content r1 = Spec.content r2)
    (h1 : parseRawBytes Y.toYamlLib d1 = .ok r1) (h2 : parseRawBytes Y.toYamlLib d2 = .ok r2)
    (hs1 : Spec.FirstSignature Y r1 s1) (hs2 : Spec.FirstSignature Y r2 s2)
    (hs : s1.map Spec.lower = s2.map Spec.lower)
    (v1 : verify Y mac d1 key = .ok true) (v2 : verify Y mac d2 key = .ok true) :
    Spec.content r1 = Spec.content r2 :=
  hcol (C09_same_mac Y mac key d1 d2 r1 r2 s1 s2 h1 h2 hs1 hs2 hs v1 v2)

/-- C09: with one non-signature document on each side, that document is the
same. -/
theorem C09_single_document (Y : SigLib) (mac : Mac) (key d1 d2 : Bytes)
    (r1 r2 : List RawResource) (s1 s2 : Bytes)
    (hcol : mac key (Spec.content r1) = mac key (Spec.content r2) → Spec.content r1 = Spec.content r2)
    (h1 : parseRawBytes Y.toYamlLib d1 = .ok r1) (h2 : parseRawBytes Y.toYamlLib d2 = .ok r2)
    (hs1 : Spec.FirstSignature Y r1 s1) (hs2 : Spec.FirstSignature Y r2 s2)
    (hs : s1.map Spec.lower = s2.map Spec.lower)
    (v1 : verify Y mac d1 key = .ok true) (v2 : verify Y mac d2 key = .ok true)
    (p1 p2 : RawResource) (hp1 : r1.filter (fun r => r.kind ≠ "signature") = [p1])
    (hp2 : r2.filter (fun r => r.kind ≠ "signature") = [p2]) : p1.data = p2.data := by
  have := C09_content_fixed_partial Y mac key d1 d2 r1 r2 s1 s2 hcol h1 h2 hs1 hs2 hs v1 v2
  unfold Spec.content at this
  rw [hp1, hp2] at this
  simpa using this

/-- C09, full statement refuted: document boundaries are not part of the MAC.
Whatever the MAC and the key, there are two files that carry the same signature
value and both verify although their documents differ. -/
theorem C09_boundaries_not_signed (mac : Mac) (hmac : Mac32 mac) (key : Bytes)
    (hk : 32 ≤ key.length) :
    ∃ (d1 d2 : Bytes) (r1 r2 : List RawResource) (s : Bytes),
      parseRawBytes exSig.toYamlLib d1 = .ok r1 ∧ parseRawBytes exSig.toYamlLib d2 = .ok r2 ∧
      Spec.FirstSignature exSig r1 s ∧ Spec.FirstSignature exSig r2 s ∧
      verify exSig mac d1 key = .ok true ∧ verify exSig mac d2 key = .ok true ∧
      (r1.filter (fun r => r.kind ≠ "signature")).map (·.data)
        ≠ (r2.filter (fun r => r.kind ≠ "signature")).map (·.data) := by
  have hp1 : parseRawBytes exSig.toYamlLib (utf8 "a: 1\n---\nb: 2\n")
      = .ok [⟨"", "pipeline", "", utf8 "a: 1\n"⟩, ⟨"", "pipeline", "", utf8 "b: 2\n"⟩] := rfl
  have hp2 : parseRawBytes exSig.toYamlLib (utf8 "a: 1\nb: 2\n")
      = .ok [⟨"", "pipeline", "", utf8 "a: 1\nb: 2\n"⟩] := rfl
  have hc1 : NoDoubleCR (utf8 "a: 1\n---\nb: 2\n") := by unfold NoDoubleCR; decide +kernel
  have hc2 : NoDoubleCR (utf8 "a: 1\nb: 2\n") := by unfold NoDoubleCR; decide +kernel
  obtain ⟨o1, hs1, hv1⟩ := C05_signed_verifies exSig exSig_reads mac hmac _ key _ hp1 hk hc1
  obtain ⟨o2, hs2, hv2⟩ := C05_signed_verifies exSig exSig_reads mac hmac _ key _ hp2 hk hc2
  rw [signUpdate_eq hp1 hk] at hs1
  rw [signUpdate_eq hp2 hk] at hs2
  simp only [Except.ok.injEq] at hs1 hs2
  subst hs1; subst hs2
  have hx := hexEncode_hexOf (mac key (utf8 "a: 1\nb: 2\n"))
  obtain ⟨g1, a1, b1, c1⟩ := parse_upsert exSig_reads hp1 hc1 (hmac _ _) hx
  obtain ⟨g2, a2, b2, c2⟩ := parse_upsert exSig_reads hp2 hc2 (hmac _ _) hx
  obtain ⟨v, e4, e5⟩ := exSig_reads.hmac _ _ (hmac _ _) hx
  rw [← sigBody_eq] at e4
  refine ⟨_, _, _, _, _, c1, c2, ⟨_, g1, [], v, rfl, ?_, a1, b1 ▸ e4, rfl⟩,
    ⟨_, g2, [], v, rfl, ?_, a2, b2 ▸ e4, rfl⟩, hv1, hv2, ?_⟩
  · decide
  · decide
  · rw [filter_filter_append _ _ a1, filter_filter_append _ _ a2]
    decide +kernel

/-- The hypotheses of C09 with a MAC of 32 bytes and two different files: the second
has the signature first and writes it in lower case. -/
example : ∃ d1 d2 r1 r2 s1 s2 p1 p2, d1 ≠ d2 ∧ Mac32 exMac ∧
    (exMac exKey (Spec.content r1) = exMac exKey (Spec.content r2) → Spec.content r1 = Spec.content r2) ∧
    parseRawBytes exSig.toYamlLib d1 = .ok r1 ∧ parseRawBytes exSig.toYamlLib d2 = .ok r2 ∧
    Spec.FirstSignature exSig r1 s1 ∧ Spec.FirstSignature exSig r2 s2 ∧
    s1.map Spec.lower = s2.map Spec.lower ∧ s1 ≠ s2 ∧
    verify exSig exMac d1 exKey = .ok true ∧ verify exSig exMac d2 exKey = .ok true ∧
    r1.filter (fun r => r.kind ≠ "signature") = [p1] ∧ r2.filter (fun r => r.kind ≠ "signature") = [p2] := by
  refine ⟨utf8 "a: 1\n---\nkind: signature\nhmac: 613A20310A000000000000000000000000000000000000000000000000000000\n",
    utf8 "kind: signature\nhmac: 613a20310a000000000000000000000000000000000000000000000000000000\n---\na: 1\n",
    _, _, _, _, _, _, by decide +kernel, exMac_32, ?_, rfl, rfl,
    ⟨[⟨"", "pipeline", "", utf8 "a: 1\n"⟩], _, [], _, rfl, by decide, rfl, rfl, rfl⟩,
    ⟨[], _, [⟨"", "pipeline", "", utf8 "a: 1\n"⟩], _, rfl, by decide, rfl, rfl, rfl⟩,
    by decide +kernel, by decide +kernel, by decide +kernel, by decide +kernel, rfl, rfl⟩
  intro _
  decide +kernel

/-! ### C10 -/

/-- C10: a key shorter than 32 bytes never signs and never verifies. -/
theorem C10_short_key (Y : SigLib) (mac : Mac) (data key : Bytes) (hk : key.length < 32) :
    (∃ e, sign Y mac data key = .error e) ∧ (∃ e, signUpdate Y mac data key = .error e) ∧
    verify Y mac data key ≠ .ok true := by
  refine ⟨?_, ?_, fun h => ?_⟩
  · unfold sign
    cases parseRawBytes Y.toYamlLib data <;> simp [signRes, hk]
  · unfold signUpdate
    cases parseRawBytes Y.toYamlLib data <;> simp [signRes, hk]
  · obtain ⟨_, _, _, h, _⟩ := (C08_verify_iff Y mac data key).1 h
    omega

/-- C10: the error is the key error whenever the file itself is fine, and a
long enough key is never refused. -/
theorem C10_key_error_iff (Y : SigLib) (mac : Mac) (data key : Bytes) (rs : List RawResource)
    (hp : parseRawBytes Y.toYamlLib data = .ok rs) :
    (key.length < 32 ↔ sign Y mac data key = .error errInvalidKey) ∧
    (key.length < 32 ↔ signUpdate Y mac data key = .error errInvalidKey) := by
  unfold sign signUpdate
  by_cases hk : key.length < 32 <;> simp [hp, signRes, hk]

example : ([1, 2, 3] : Bytes).length < 32 := by decide

/-! ### C11 -/

/-- C11: `Sign` followed by `WriteTo` gives the bytes of `SignUpdate`. -/
theorem C11_sign_write (Y : SigLib) (mac : Mac) (data key s : Bytes)
    (h : sign Y mac data key = .ok s) :
    signUpdate Y mac data key = .ok (writeTo Y data s).1 ∧ (writeTo Y data s).2 = none := by
  unfold sign at h
  unfold signUpdate writeTo
  cases hp : parseRawBytes Y.toYamlLib data with
  | error e => simp [hp] at h
  | ok rs =>
    simp only [hp] at h ⊢
    cases hr : signRes mac rs key with
    | error e => simp [hr] at h
    | ok m =>
      simp only [hr, Except.ok.injEq] at h
      subst h
      simp [upsert]

/-- C11: both fail together. -/
theorem C11_fail_together (Y : SigLib) (mac : Mac) (data key : Bytes) (e : String) :
    sign Y mac data key = .error e ↔ signUpdate Y mac data key = .error e := by
  unfold sign signUpdate
  cases hp : parseRawBytes Y.toYamlLib data with
  | error e => simp
  | ok rs => simp only; cases hr : signRes mac rs key <;> simp only [reduceCtorEq]

/-- C11: `WriteTo` reports exactly the errors of the parser.  With the error it hands out a file that
has nothing but the signature: a caller that ignores the error loses every document. -/
theorem C11_write_error (Y : SigLib) (data hex : Bytes) (e : String) :
    (writeTo Y data hex).2 = some e ↔ parseRawBytes Y.toYamlLib data = .error e ∧
      (writeTo Y data hex) = (utf8 "---\nkind: signature\nhmac: " ++ hex ++ utf8 "\n\n...\n", some e) := by
  have hu : upsert [] hex = utf8 "---\nkind: signature\nhmac: " ++ hex ++ utf8 "\n\n...\n" := by
    have h1 : utf8 "---\nkind: signature\nhmac: " = sepLine ++ (utf8 "kind: signature" ++ [LF] ++ utf8 "hmac: ") := by decide +kernel
    have h2 : utf8 "\n\n...\n" = [LF] ++ [LF] ++ utf8 "..." ++ [LF] := by decide +kernel
    rw [h1, h2]
    simp [upsert, writeDocs, sigBody]
  unfold writeTo
  cases hp : parseRawBytes Y.toYamlLib data with
  | error e' =>
    constructor
    · intro h
      have : e' = e := Option.some.inj h
      subst this
      exact ⟨rfl, by rw [hu]⟩
    · rintro ⟨h, -⟩
      cases h
      rfl
  | ok rs =>
    constructor
    · intro h; cases h
    · rintro ⟨h, -⟩; cases h

example : ∃ s, sign exSig exMac (utf8 "a: 1\n") exKey = .ok s := ⟨_, rfl⟩

end Drone
