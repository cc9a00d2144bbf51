/-
C96: signing a formatted file gives a formatted file.
-/
import Verif.Model.SignTree
import Verif.Props.Effect

namespace Drone
open Spec Yaml Pretty

variable {R : Resolver} {L : PrettyLib} {ram : String → Option Int} {tree : Bytes → Except String Yaml.Node}

namespace Spec

/-- Is it a signature? -/
def isSignature : Resource → Bool
  | .signature _ => true
  | _ => false

/-- The resources that are no signatures. -/
def unsigned (rs : List Resource) : List Resource := rs.filter fun r => !isSignature r

/-- The manifest with one signature, at the end. -/
def signedManifest (m : Manifest) (hex : String) : Manifest :=
  ⟨unsigned m.resources ++ [.signature { kind := "signature", hmac := hex }]⟩

end Spec

/-! ### Printing resources one by one -/

theorem single_writer {r : Resource} {b : Bytes} (h : print L ⟨[r]⟩ = some ([45, 45, 45, 10] ++ b ++ [46, 46, 46, 10])) :
    (∀ x, r ≠ .registry x) ∧ printResource L {} r = some (Writer.pre ([45, 45, 45, 10] ++ b) {}) := by
  unfold print at h
  obtain ⟨w', hw, hb⟩ := Option.map_eq_some_iff.1 h
  simp only [printLoop] at hw
  obtain ⟨w2, hw2, hw3⟩ := Option.bind_eq_some_iff.1 hw
  simp only [Option.some.injEq] at hw3
  subst hw3
  have e : ((w2.str "...").str "\n").buf = w2.buf ++ [46, 46, 46, 10] := by
    simp [Writer.str, Writer.bytes, utf8, String.utf8EncodeChar]
  rw [e] at hb
  have hb := List.append_cancel_right hb
  have hr : ∀ x, r ≠ .registry x := by
    rintro x rfl
    simp only [printResource, Option.some.injEq] at hw2
    subst hw2
    simp at hb
  refine ⟨hr, ?_⟩
  obtain ⟨ls, rfl, _⟩ := printResource_doc (C := False) L hr (fun _ _ h => h.elim) hw2
  rw [hw2]
  simp only [Writer.pre, List.append_nil] at hb
  rw [hb]

theorem print_singles {rs : List Resource} {bs : List Bytes}
    (h : List.Forall₂ (fun r b => print L ⟨[r]⟩ = some ([45, 45, 45, 10] ++ b ++ [46, 46, 46, 10])) rs bs) :
    print L ⟨rs⟩ = some (bs.flatMap ([45, 45, 45, 10] ++ ·) ++ [46, 46, 46, 10]) := by
  have key : ∀ p, printLoop L rs (Writer.pre p {}) = some (Writer.pre (p ++ bs.flatMap ([45, 45, 45, 10] ++ ·)) {}) := by
    induction h with
    | nil => intro p; simp [printLoop]
    | @cons r b rs bs h1 _ ih =>
      intro p
      have hp := pre_printResource (p := p) L r {}
      dsimp only at hp
      simp only [printLoop]
      rw [hp, (single_writer h1).2, Option.map_some, Option.bind_some]
      have hpp : Writer.pre p (Writer.pre ([45, 45, 45, 10] ++ b) {}) =
          Writer.pre (p ++ ([45, 45, 45, 10] ++ b)) {} := by simp [Writer.pre]
      rw [hpp, ih]
      simp
  have := key []
  rw [show Writer.pre [] ({} : Writer) = {} from rfl] at this
  unfold print
  rw [this]
  simp [Writer.pre, Writer.str, Writer.bytes, utf8, String.utf8EncodeChar]

/-! ### The signature -/

/-- A string of lower case hexadecimal digits. -/
def HexString (v : String) : Prop := ∀ c ∈ v.toList, (48 ≤ c.toNat ∧ c.toNat ≤ 57) ∨ (97 ≤ c.toNat ∧ c.toNat ≤ 102)

theorem hexDigits_range : ∀ n : Nat, n < 16 → (48 ≤ (Spec.hexDigits.getD n 0).toNat ∧ (Spec.hexDigits.getD n 0).toNat ≤ 57) ∨
    (97 ≤ (Spec.hexDigits.getD n 0).toNat ∧ (Spec.hexDigits.getD n 0).toNat ≤ 102) := by decide

theorem hexOf_string {m s : Bytes} (h : HexOf m s) : ∃ v : String, utf8 v = s ∧ v.toList.length = s.length ∧
    HexString v := by
  have h1 := utf8_ascii s fun b hb => (hexOf_mem h b hb).1
  refine ⟨_, h1, by simp, fun c hc => ?_⟩
  rw [String.toList_ofList] at hc
  obtain ⟨b, hb, rfl⟩ := List.mem_map.1 hc
  have hlt := (hexOf_mem h b hb).1
  have e : (Char.ofNat b.toNat).toNat = b.toNat := by
    rw [Char.ofNat, dif_pos (show (b.toNat).isValidChar by left; omega)]
    show (Char.ofNatAux _ _).val.toNat = _
    simp [Char.ofNatAux, UInt32.toNat]
  rw [e]
  rw [h] at hb
  simp only [List.mem_flatMap, List.mem_cons, List.not_mem_nil, or_false] at hb
  obtain ⟨a, _, rfl | rfl⟩ := hb
  · exact hexDigits_range _ (by have := a.toNat_lt; omega)
  · exact hexDigits_range _ (by omega)

theorem HexString.ne {v : String} (h : HexString v) {c : Char} (hc : c ∈ v.toList) {d : Char}
    (hd : d.toNat < 48 ∨ (57 < d.toNat ∧ d.toNat < 97) ∨ 102 < d.toNat) : c ≠ d := by
  rintro rfl
  have := h c hc
  omega

theorem HexString.word {v : String} (h : HexString v) (h0 : v.toList ≠ []) (h1 : v.toList.length ≤ 1024) : Word v := by
  have hp : WrittenPlain v.toList := by
    refine ⟨h0, fun c hc => ?_, fun c hc => ⟨?_, ?_⟩, fun c hc hm => ?_, ?_, ?_, fun c hc hm => ?_, ?_⟩
    · have := h c (List.mem_of_mem_head? hc)
      simp only [Spec.whiteSpace, List.mem_cons, List.not_mem_nil, or_false]
      omega
    · have := h c (List.mem_of_getLast? hc)
      simp only [Spec.whiteSpace, List.mem_cons, List.not_mem_nil, or_false]
      omega
    · exact h.ne (List.mem_of_getLast? hc) (by decide)
    · simp only [List.mem_cons, List.not_mem_nil, or_false] at hm
      rcases hm with rfl | rfl | rfl | rfl | rfl | rfl | rfl <;> exact h.ne hc (by decide) rfl
    · rintro ⟨a, b, e⟩
      exact h.ne (c := ' ') (by rw [← e]; simp) (by decide) rfl
    · rintro ⟨a, b, e⟩
      exact h.ne (c := ' ') (by rw [← e]; simp) (by decide) rfl
    · simp only [List.mem_cons, List.not_mem_nil, or_false] at hm
      have hc := List.mem_of_mem_head? hc
      rcases hm with rfl | rfl | rfl | rfl | rfl | rfl | rfl | rfl | rfl | rfl | rfl | rfl | rfl | rfl <;>
        exact h.ne hc (by decide) rfl
    · intro c t e _
      exact h.ne (c := ' ') (by rw [e]; simp) (by decide) rfl
  have nolit : ∀ t : String, ∀ c ∈ t.toList, (c.toNat < 48 ∨ (57 < c.toNat ∧ c.toNat < 97) ∨ 102 < c.toNat) → v ≠ t := by
    rintro t c hc hd rfl
    exact h.ne hc hd rfl
  refine ⟨(C55_plain_iff _).2 hp, fun c hc => ?_, ?_, ?_, nolit _ '-' (by decide) (by decide),
    nolit _ '?' (by decide) (by decide), ?_, h1, nolit _ '<' (by decide) (by decide)⟩
  · have := h c hc
    left; omega
  · exact fun e => h.ne (List.mem_of_mem_head? e) (by decide) rfl
  · exact fun e => h.ne (List.mem_of_mem_head? e) (by decide) rfl
  · simp only [List.mem_cons, List.not_mem_nil, or_false, not_or]
    refine ⟨?_, nolit _ '~' (by decide) (by decide), nolit _ 'n' (by decide) (by decide),
      nolit _ 'N' (by decide) (by decide), nolit _ 'N' (by decide) (by decide)⟩
    rintro rfl
    exact h0 rfl

/-- The signature of a value. -/
def sigOf (v : String) : Resource := .signature { kind := "signature", hmac := v }

theorem sigOf_ok {v : String} (h : Word v) : ResourceOk R L ram (sigOf v) :=
  ⟨⟨rd "", rd "signature", (Word.key exPretty h).toReadable⟩, rfl⟩

theorem sigOf_print {v : String} (h : Word v) :
    print L ⟨[sigOf v]⟩ = some ([45, 45, 45, 10] ++ sigBody (utf8 v) ++ [46, 46, 46, 10]) := by
  have e := C55_plain L v ((C55_plain_iff _).1 h.1)
  have e2 : encode L "kind" = "kind" := C55_plain L _ ((C55_plain_iff _).1 (by decide))
  have e3 : encode L "hmac" = "hmac" := C55_plain L _ ((C55_plain_iff _).1 (by decide))
  have e4 : encode L "signature" = "signature" := C55_plain L _ ((C55_plain_iff _).1 (by decide))
  have hv : v.length ≠ 0 := by
    intro h0
    have : v = "" := by
      rw [← String.length_toList] at h0
      exact String.toList_inj.1 (List.length_eq_zero_iff.1 h0)
    exact h.2.2.2.2.2.2.1 (by simp [this])
  simp [print, printLoop, printResource, sigOf, printSignature, tagStr, writeTagValue, isZero, isZeroValue, writeTag,
    writeEncode, isPrimative, isPrimValue, writeValue, writeVal, e, e2, e3, e4, hv, Writer.str, Writer.bytes,
    Writer.indent, Writer.padding, sigBody, LF]
  simp [utf8, String.utf8EncodeChar]

/-! ### Documents of a formatted file -/

theorem single_reads (ht : Parses R tree) {r : Resource} {b : Bytes} (h : ResourceOk R L ram r)
    (hp : print L ⟨[r]⟩ = some ([45, 45, 45, 10] ++ b ++ [46, 46, 46, 10])) :
    ∃ n hd, tree b = .ok n ∧ unmarshalResource ram r.resType n = .ok (readResource r) ∧
      (treeLib ram tree).header b = .ok hd ∧ hd.kind = r.getKind := by
  obtain ⟨hr, hw⟩ := single_writer hp
  obtain ⟨s, n, hd, rfl, h1, h2, h3, h4⟩ := resource_reads (b := b) L ram h hr hw (by simp [Writer.pre])
  refine ⟨n, hd, ht s n h1, h2, ?_, h4⟩
  simp only [treeLib, ht s n h1]
  exact h3

theorem kind_signature {r : Resource} (h : ResourceOk R L ram r) (hr : ∀ x, r ≠ .registry x) :
    r.getKind ≠ "signature" ↔ (!isSignature r) = true := by
  cases r with
  | registry x => exact absurd rfl (hr x)
  | cron c => simp [Resource.getKind, isSignature, h.2]
  | secret c => simp [Resource.getKind, isSignature, h.2]
  | signature c => simp [Resource.getKind, isSignature, h.2]
  | pipeline p =>
    have h2 := h.2
    simp only [List.mem_cons, not_or, List.not_mem_nil, not_false_eq_true, and_true] at h2
    simp [Resource.getKind, isSignature, h2]

/-- The raw documents of a formatted file, and the text of those that are no signatures. -/
theorem raw_docs (ht : Parses R tree) {rs : List Resource} {bs : List Bytes} (hok : ∀ r ∈ rs, ResourceOk R L ram r)
    (h : List.Forall₂ (fun r b => print L ⟨[r]⟩ = some ([45, 45, 45, 10] ++ b ++ [46, 46, 46, 10])) rs bs) :
    ∃ raws, decodeHeaders (treeLib ram tree) bs = .ok raws ∧
      List.Forall₂ (fun r b => print L ⟨[r]⟩ = some ([45, 45, 45, 10] ++ b ++ [46, 46, 46, 10])) (unsigned rs)
        ((raws.filter (fun r => r.kind ≠ "signature")).map (·.data)) := by
  induction h with
  | nil => exact ⟨[], rfl, .nil⟩
  | @cons r b rs bs h1 _ ih =>
    obtain ⟨raws, e1, e2⟩ := ih fun r hr => hok r (List.mem_cons_of_mem _ hr)
    have hk := hok r List.mem_cons_self
    obtain ⟨n, hd, a1, a2, a3, a4⟩ := single_reads ht hk h1
    refine ⟨⟨hd.version, hd.kind, hd.type, b⟩ :: raws, by simp only [decodeHeaders, a3, e1], ?_⟩
    have := kind_signature hk (single_writer h1).1
    unfold unsigned at e2 ⊢
    by_cases hs : r.getKind = "signature"
    · rw [List.filter_cons_of_neg (by rw [← this]; simpa using hs), List.filter_cons_of_neg (by simp [a4, hs])]
      exact e2
    · rw [List.filter_cons_of_pos (p := fun r => !isSignature r) (this.1 hs), List.filter_cons_of_pos (by simp [a4, hs])]
      exact .cons h1 e2

theorem unsigned_printable (m : Manifest) : unsigned (printable m) = printable ⟨unsigned m.resources⟩ := by
  unfold unsigned printable
  rw [List.filter_filter, List.filter_filter]
  congr 1
  funext r
  rw [Bool.and_comm]

theorem print_printable (rs : List Resource) : print L ⟨printable ⟨rs⟩⟩ = print L ⟨rs⟩ := by
  have key : ∀ w, printLoop L (printable ⟨rs⟩) w = printLoop L rs w := by
    induction rs with
    | nil => intro w; rfl
    | cons r rs ih =>
      intro w
      unfold printable at ih ⊢
      cases r with
      | registry x =>
        rw [List.filter_cons_of_neg (by simp)]
        simp only [printLoop, printResource, Option.bind_some]
        exact ih w
      | _ =>
        rw [List.filter_cons_of_pos (by simp)]
        simp only [printLoop]
        congr 1
        funext w
        exact ih w
  unfold print
  rw [key]

theorem nocr_of_ok {m : Manifest} (hok : ∀ r ∈ m.resources, ResourceOk R L ram r) : NoCRData m := by
  intro s hs hc
  have := (hok _ hs).1.data.ascii _ hc
  revert this
  decide

theorem printable_ok {m : Manifest} (hok : ∀ r ∈ m.resources, ResourceOk R L ram r) :
    ∀ r ∈ printable m, ResourceOk R L ram r := fun r hr => hok r (List.mem_filter.1 hr).1

theorem print_no_cr {m : Manifest} {text : Bytes} (h : print L m = some text) (hcr : NoCRData m) :
    (13 : UInt8) ∉ text := by
  unfold print at h
  obtain ⟨w', hw, ht⟩ := Option.map_eq_some_iff.1 h
  obtain ⟨bs, rfl, h2, h3⟩ := printLoop_lines (C := True) L m.resources [] w' (fun s hs _ => hcr s hs) hw
  have htext : text = unlines (blockLines bs ++ [[46, 46, 46]]) := by
    rw [← ht, unlines_append]
    simp [Writer.pre, Writer.str, Writer.bytes, utf8, String.utf8EncodeChar, unlines]
  subst htext
  intro hm
  simp only [unlines, blockLines, List.mem_flatMap, List.mem_append, List.mem_cons, List.not_mem_nil, or_false] at hm
  obtain ⟨l, hl, hm | hm⟩ := hm
  · rcases hl with ⟨b, hb, hl | hl⟩ | hl
    · subst hl; revert hm; decide
    · exact (h3 b hb l hl).2.2 trivial hm
    · subst hl; revert hm; decide
  · revert hm; decide

theorem no_double_of_no_cr {text : Bytes} (h : (13 : UInt8) ∉ text) : NoDoubleCR text := by
  refine ⟨fun hi => h (hi.subset (by simp)), fun hi => h (hi.subset (by simp))⟩

/-- A text that is made of short lines. -/
def Lns (t : Bytes) : Prop := ∃ ls, t = unlines ls ∧ ∀ l ∈ ls, (10 : UInt8) ∉ l ∧ l.length < 65536

theorem Lns.append {a b : Bytes} (ha : Lns a) (hb : Lns b) : Lns (a ++ b) := by
  obtain ⟨la, rfl, h1⟩ := ha
  obtain ⟨lb, rfl, h2⟩ := hb
  refine ⟨la ++ lb, by rw [unlines_append], fun l hl => ?_⟩
  rcases List.mem_append.1 hl with hl | hl
  · exact h1 l hl
  · exact h2 l hl

theorem Lns.flatMap {α : Type} {f : α → Bytes} {xs : List α} (h : ∀ x ∈ xs, Lns (f x)) : Lns (xs.flatMap f) := by
  induction xs with
  | nil => exact ⟨[], rfl, by simp⟩
  | cons x xs ih =>
    rw [List.flatMap_cons]
    exact (h x List.mem_cons_self).append (ih fun y hy => h y (List.mem_cons_of_mem _ hy))

theorem Lns.short {t : Bytes} (h : Lns t) : ShortLines t := by
  obtain ⟨ls, rfl, h1⟩ := h
  exact ⟨ls, ⟨fun l hl => (h1 l hl).1, .inl rfl⟩, fun l hl => (h1 l hl).2⟩

theorem upsert_short {raws : List RawResource} {v : Bytes} (h : ∀ r ∈ raws, Lns r.data) (hv : (10 : UInt8) ∉ v)
    (hl : v.length < 60000) : ShortLines (upsert raws v) := by
  refine Lns.short ?_
  unfold upsert
  rw [writeDocs_eq, sigBody_lines]
  have sep : Lns [45, 45, 45, 10] := ⟨[[45, 45, 45]], rfl, by simp⟩
  have dots : Lns (utf8 "..." ++ [LF]) := ⟨[[46, 46, 46]], rfl, by simp⟩
  rw [List.append_assoc]
  refine ((Lns.append (Lns.flatMap fun d hd => sep.append ?_) sep).append ⟨_, rfl, ?_⟩).append dots
  · obtain ⟨r, hr, rfl⟩ := List.mem_map.1 hd
    exact h r (List.mem_filter.1 hr).1
  · intro l hl'
    simp only [List.mem_cons, List.not_mem_nil, or_false] at hl'
    rcases hl' with rfl | rfl | rfl
    · decide
    · constructor
      · intro hm
        rcases List.mem_append.1 hm with hm | hm
        · revert hm; decide
        · exact hv hm
      · have : (utf8 "hmac: ").length = 6 := by decide
        rw [List.length_append]
        omega
    · decide

theorem unsigned_sig (v : String) : unsigned [sigOf v] = [] := rfl

/-- The documents of a formatted file, and what a signature makes of them. -/
theorem signed_print (ht : Parses R tree) {m : Manifest} {text : Bytes} (h : print L m = some text)
    (hne : printable m ≠ []) (hlen : ShortLines text) (hok : ∀ r ∈ m.resources, ResourceOk R L ram r) :
    ∃ raws, parseRawBytes (treeLib ram tree) text = .ok raws ∧ NoDoubleCR text ∧ (∀ r ∈ raws, Lns r.data) ∧
      ∀ v, Word v → print L (signedManifest m v) = some (upsert raws (utf8 v)) := by
  have hcr := nocr_of_ok hok
  obtain ⟨bodies, hf, he, hs⟩ := C52_frame L m text h hne hcr hlen
  have hd := no_double_of_no_cr (print_no_cr h hcr)
  obtain ⟨raws, h1, h2⟩ := raw_docs ht (printable_ok hok) hf
  have hp : parseRawBytes (treeLib ram tree) text = .ok raws := by
    show decodeHeaders _ (splitDocs text) = _
    rw [hs, h1]
  refine ⟨raws, hp, hd, ?_, ?_⟩
  · intro r hr
    obtain ⟨bs, g1, g2⟩ := splitDocs_good hd
    have : r.data ∈ splitDocs text := by
      rw [hs, ← decodeHeaders_data h1]
      exact List.mem_map_of_mem hr
    rw [g1] at this
    obtain ⟨b, hb, e⟩ := List.mem_map.1 this
    exact ⟨b, e.symm, fun l hl => ⟨(g2 b hb l hl).1, (g2 b hb l hl).2.1⟩⟩
  · intro v hv
    have hpr : printable (signedManifest m v) = unsigned (printable m) ++ [sigOf v] := by
      rw [unsigned_printable]
      unfold signedManifest printable
      rw [List.filter_append]
      rfl
    rw [show signedManifest m v = ⟨(signedManifest m v).resources⟩ from rfl, ← print_printable]
    show print L ⟨printable (signedManifest m v)⟩ = _
    rw [hpr]
    have := print_singles (List.rel_append h2 (.cons (sigOf_print (L := L) hv) .nil))
    rw [this]
    unfold upsert
    rw [writeDocs_eq]
    simp [sepLine, LF, utf8_dots]

/-- The library reads the signatures the signer writes. -/
theorem treeSig_reads (ht : Parses R tree) : (treeSig ram tree).ReadsSignature := by
  have key : ∀ m s : Bytes, m.length = 32 → HexOf m s → ∃ v n hd, utf8 v = s ∧ tree (utf8 "kind: signature\nhmac: " ++ s ++ [10, 10]) = .ok n ∧
      unmarshalResource ram (sigOf v).resType n = .ok (sigOf v) ∧
      (treeLib ram tree).header (utf8 "kind: signature\nhmac: " ++ s ++ [10, 10]) = .ok hd ∧ hd.kind = "signature" := by
    intro m s hm hs
    obtain ⟨v, rfl, hl, hx⟩ := hexOf_string hs
    have hlen := hexOf_length hs
    have hw : Word v := hx.word (by intro e; rw [e] at hl; simp at hl; omega) (by omega)
    obtain ⟨n, hd, h1, h2, h3, h4⟩ := single_reads ht (sigOf_ok (R := R) (L := exPretty) (ram := ram) hw) (sigOf_print hw)
    rw [sigBody_eq] at h1 h3
    exact ⟨v, n, hd, rfl, h1, h2, h3, h4⟩
  constructor
  · intro m s hm hs
    obtain ⟨v, n, hd, _, _, _, h3, h4⟩ := key m s hm hs
    exact ⟨hd, h3, h4⟩
  · intro m s hm hs
    obtain ⟨v, n, hd, h0, h1, h2, _, _⟩ := key m s hm hs
    refine ⟨v, ?_, h0⟩
    simp only [treeSig, h1, Except.bind]
    unfold sigOf unmarshalResource at h2
    simp only [Resource.resType] at h2
    cases h5 : unmarshalDoc ({} : Signature) signatureField n with
    | error e => rw [h5] at h2; cases h2
    | ok x =>
      rw [h5] at h2
      cases h2
      rfl

/-- Does a document with a signature verify? -/
theorem verify_upsert {Y : SigLib} (hY : Y.ReadsSignature) {mac : Mac} {data key sum : Bytes} {rs : List RawResource}
    (hp : parseRawBytes Y.toYamlLib data = .ok rs) (hk : 32 ≤ key.length) (hcr : NoDoubleCR data)
    (hs : sum.length = 32) :
    verify Y mac (upsert rs (hexEncode sum)) key = .ok (decide (sum = mac key (Spec.content rs))) := by
  obtain ⟨sg, h1, h2, h3⟩ := parse_upsert hY hp hcr hs (hexEncode_hexOf sum)
  obtain ⟨v, h4, h5⟩ := hY.hmac sum _ hs (hexEncode_hexOf sum)
  rw [← sigBody_eq] at h4
  unfold verify
  rw [h3]
  simp only [extract_append_sig _ _ h1, h2, h4, h5, hexDecode_hexEncode, signRes, Nat.not_lt.2 hk,
    if_false, signedBytes_eq, Spec.content, filter_filter_append _ _ h1]
  simp

theorem sign_eq {Y : SigLib} {mac : Mac} {data key : Bytes} {rs : List RawResource}
    (h : parseRawBytes Y.toYamlLib data = .ok rs) (hk : 32 ≤ key.length) :
    sign Y mac data key = .ok (hexEncode (mac key (Spec.content rs))) := by
  unfold sign
  rw [h]
  simp only [signRes, Nat.not_lt.2 hk, if_false, signedBytes_eq]

theorem signedManifest_read (m : Manifest) (v : String) :
    readAll (signedManifest m v) = signedManifest (readAll m) v := by
  have hr : ∀ r, isSignature (readResource r) = isSignature r := by intro r; cases r <;> rfl
  have e : printable (signedManifest m v) = unsigned (printable m) ++ [sigOf v] := by
    rw [unsigned_printable]
    unfold signedManifest printable
    rw [List.filter_append]
    rfl
  unfold readAll
  rw [e, List.map_append]
  unfold signedManifest unsigned
  dsimp only
  rw [List.filter_map]
  simp only [Function.comp_def, hr]
  rfl

/-- C96.  Signing a formatted file is adding the signature to the resources and formatting: the old
signatures are left out, the new one is last, and every byte is as the printer writes it. -/
theorem C96_sign_formatted_partial (R : Resolver) (L : PrettyLib) (ram : String → Option Int)
    (tree : Bytes → Except String Yaml.Node) (ht : Parses R tree) (mac : Mac) (hmac : Mac32 mac) (key : Bytes)
    (hk : 32 ≤ key.length) (m : Manifest) (text : Bytes) (h : print L m = some text) (hne : printable m ≠ [])
    (hlen : ShortLines text) (hok : ∀ r ∈ m.resources, ResourceOk R L ram r) :
    ∃ hex out, sign (treeSig ram tree) mac text key = .ok (utf8 hex) ∧
      signUpdate (treeSig ram tree) mac text key = .ok out ∧ print L (signedManifest m hex) = some out ∧
      verify (treeSig ram tree) mac out key = .ok true := by
  obtain ⟨raws, h1, h2, h3, h4⟩ := signed_print ht h hne hlen hok
  have hx := hexEncode_hexOf (mac key (Spec.content raws))
  obtain ⟨v, e, hl, hv⟩ := hexOf_string hx
  have hlen := hexOf_length hx
  have h32 := hmac key (Spec.content raws)
  have hw : Word v := hv.word (by intro e0; rw [e0] at hl; simp at hl; omega) (by omega)
  refine ⟨v, upsert raws (utf8 v), ?_, ?_, h4 v hw, ?_⟩
  · rw [e]; exact sign_eq h1 hk
  · rw [e]; exact signUpdate_eq h1 hk
  · rw [e]
    have := verify_upsert (treeSig_reads ht) (mac := mac) h1 hk h2 h32
    simpa using this

theorem hexEncode_inj {a b : Bytes} (h : hexEncode a = hexEncode b) : a = b := by
  have := hexDecode_hexEncode a
  rw [h, hexDecode_hexEncode] at this
  exact (Option.some.inj this).symm

/-- C96.  Formatting a signed file keeps the signature as it is, so that the file verifies afterwards
exactly if formatting the file before it was signed would not have changed what is signed. -/
theorem C96_format_signed_partial (R : Resolver) (L : PrettyLib) (ram : String → Option Int)
    (tree : Bytes → Except String Yaml.Node) (ht : Parses R tree) (mac : Mac) (hmac : Mac32 mac) (key : Bytes)
    (hk : 32 ≤ key.length) (m : Manifest) (text text2 : Bytes) (h : print L m = some text) (hne : printable m ≠ [])
    (hlen : ShortLines text) (hok : ∀ r ∈ m.resources, ResourceOk R L ram r)
    (hf : format L (treeLib ram tree) text = some text2) (hlen2 : ShortLines text2) :
    ∃ out out2 ok, signUpdate (treeSig ram tree) mac text key = .ok out ∧
      format L (treeLib ram tree) out = some out2 ∧ verify (treeSig ram tree) mac out2 key = .ok ok ∧
      (ok = true ↔ sign (treeSig ram tree) mac text key = sign (treeSig ram tree) mac text2 key) ∧
      (text2 = text → out2 = out) := by
  rw [format_read ht h hne hlen hok] at hf
  obtain ⟨raws, h1, h2, h3, h4⟩ := signed_print ht h hne hlen hok
  obtain ⟨raws2, g1, g2, g3, g4⟩ := signed_print ht hf (readAll_ne hne) hlen2 (readAll_ok hok)
  have hx := hexEncode_hexOf (mac key (Spec.content raws))
  obtain ⟨v, e, hl, hv⟩ := hexOf_string hx
  have hlen := hexOf_length hx
  have h32 := hmac key (Spec.content raws)
  have hw : Word v := hv.word (by intro e0; rw [e0] at hl; simp at hl; omega) (by omega)
  refine ⟨upsert raws (utf8 v), upsert raws2 (utf8 v), _, by rw [e]; exact signUpdate_eq h1 hk, ?_,
    by rw [e]; exact verify_upsert (treeSig_reads ht) g1 hk g2 h32, ?_, ?_⟩
  · rw [format_read ht (h4 v hw) ?_ ?_ ?_]
    · rw [signedManifest_read]; exact g4 v hw
    · unfold printable signedManifest
      rw [List.filter_append]
      simp
    · refine upsert_short h3 ?_ (by rw [e]; omega)
      rw [e]
      exact fun hm => (hexOf_mem hx _ hm).2.1 rfl
    · intro r hr
      rcases List.mem_append.1 hr with hr | hr
      · exact hok r (List.mem_filter.1 hr).1
      · rw [List.mem_singleton] at hr
        subst hr
        exact sigOf_ok hw
  · rw [sign_eq h1 hk, sign_eq g1 hk, decide_eq_true_eq]
    exact ⟨fun e => by rw [e], fun e => hexEncode_inj (Except.ok.inj e)⟩
  · rintro rfl
    rw [h1] at g1
    cases g1
    rfl

/-- C96.  A file that formatting leaves alone is left alone after it was signed, and still verifies. -/
theorem C96_settled_partial (R : Resolver) (L : PrettyLib) (ram : String → Option Int)
    (tree : Bytes → Except String Yaml.Node) (ht : Parses R tree) (mac : Mac) (hmac : Mac32 mac) (key : Bytes)
    (hk : 32 ≤ key.length) (m : Manifest) (text : Bytes) (h : print L m = some text) (hne : printable m ≠ [])
    (hlen : ShortLines text) (hok : ∀ r ∈ m.resources, ResourceOk R L ram r)
    (hf : format L (treeLib ram tree) text = some text) :
    ∃ out, signUpdate (treeSig ram tree) mac text key = .ok out ∧ format L (treeLib ram tree) out = some out ∧
      verify (treeSig ram tree) mac out key = .ok true := by
  obtain ⟨out, out2, ok, h1, h2, h3, h4, h5⟩ := C96_format_signed_partial R L ram tree ht mac hmac key hk m text text h
    hne hlen hok hf hlen
  obtain rfl := h5 rfl
  rw [h4.2 rfl] at h3
  exact ⟨out2, h1, h2, h3⟩

/-- C96.  On the command line: after `fmt --save` has left a file alone, `sign --save`, `fmt --save` and
`verify` in this order succeed, and the second `fmt --save` changes nothing. -/
theorem C96_command_line_partial (R : Resolver) (X : Cli.CliLib) (ram : String → Option Int)
    (tree : Bytes → Except String Yaml.Node) (hX : X.sig = treeSig ram tree) (ht : Parses R tree)
    (hmac : Mac32 X.mac) (w : Cli.World) (name key : String) (hk : 32 ≤ (utf8 key).length)
    (hw : X.writable name = true) (m : Manifest) (text : Bytes) (hfile : w.files.get? name = some text)
    (h : print X.conv.pretty m = some text) (hne : printable m ≠ []) (hlen : ShortLines text)
    (hok : ∀ r ∈ m.resources, ResourceOk R X.conv.pretty ram r)
    (hf : format X.conv.pretty (treeLib ram tree) text = some text) :
    ∃ w1, Cli.runSign X { signSave := true } key name w = (some (.ok ()), w1) ∧
      (∃ w2, Cli.runFormat X { formatSave := true } name w1 = (some (.ok ()), w2) ∧
        w2.files.get? name = w1.files.get? name ∧ (Cli.runVerify X key name w2).1 = some (.ok ())) ∧
      (Cli.runVerify X key name w1).1 = some (.ok ()) := by
  obtain ⟨out, h1, h2, h3⟩ := C96_settled_partial R X.conv.pretty ram tree ht X.mac hmac (utf8 key) hk m text h hne hlen
    hok hf
  rw [← hX] at h1 h3
  have hs : Cli.runSign X { signSave := true } key name w = (some (.ok ()), { w with files := w.files.set name out }) := by
    simp [Cli.runSign, Cli.withFile, Cli.withResult, hfile, h1, Cli.writeFile, hw]
  have hv : ∀ w' : Cli.World, w'.files.get? name = some out → (Cli.runVerify X key name w').1 = some (.ok ()) := by
    intro w' hw'
    simp [Cli.runVerify, Cli.withFile, Cli.withResult, hw', h3, Cli.println]
  have hg : ∀ f : GoMap Bytes, (f.set name out).get? name = some out := fun f => GoMap.get?_set_self f name out
  refine ⟨_, hs, ⟨{ w with files := (w.files.set name out).set name out }, ?_, ?_, hv _ ?_⟩, hv _ (hg _)⟩
  · unfold format parseBytes at h2
    unfold Cli.runFormat Cli.withFile
    simp only [hg, hX]
    cases hp : parseReader (treeLib ram tree) { data := out } with
    | error e => rw [hp] at h2; cases h2
    | ok m2 =>
      rw [hp] at h2
      simp only at h2
      have hp' : parseReader (treeSig ram tree).toYamlLib { data := out } = .ok m2 := hp
      simp only [hp', Cli.withResult, h2, Option.map_some, if_true, Cli.writeFile, hw]
  · rw [hg, hg]
  · exact hg _

theorem single_content (ht : Parses R tree) {m : Manifest} {text : Bytes} {r : Resource} (h : print L m = some text)
    (hlen : ShortLines text) (hok : ∀ r ∈ m.resources, ResourceOk R L ram r) (hm : printable m = [r])
    (hr : isSignature r = false) :
    ∃ raws, parseRawBytes (treeLib ram tree) text = .ok raws ∧
      text = [45, 45, 45, 10] ++ Spec.content raws ++ [46, 46, 46, 10] := by
  obtain ⟨bodies, hf, he, hs⟩ := C52_frame L m text h (by rw [hm]; simp) (nocr_of_ok hok) hlen
  obtain ⟨raws, h1, h2⟩ := raw_docs ht (printable_ok hok) hf
  refine ⟨raws, by show decodeHeaders _ (splitDocs text) = _; rw [hs, h1], ?_⟩
  have hu : unsigned (printable m) = [r] := by simp [hm, unsigned, hr]
  rw [hu] at h2
  rw [hm] at hf
  obtain ⟨b, bs, h3, h4, h5⟩ := List.forall₂_cons_left_iff.1 hf
  obtain ⟨b', bs', h6, h7, h8⟩ := List.forall₂_cons_left_iff.1 h2
  obtain rfl := List.forall₂_nil_left_iff.1 h4
  obtain rfl := List.forall₂_nil_left_iff.1 h7
  rw [h3] at h6
  have hb : b = b' := by simpa using h6
  unfold Spec.content
  rw [h8, ← hb, he, h5]
  simp

/-- C96.  Formatting comes before signing: there is a file the program has formatted, signed and
verified that does not verify when it is formatted once more. -/
theorem C96_format_breaks (ram : String → Option Int) (tree : Bytes → Except String Yaml.Node)
    (ht : Parses exResolver tree) (key : Bytes) (hk : 32 ≤ key.length) :
    ∃ mac out out2, Mac32 mac ∧ print exPretty rbEmpty = some rbEmptyText ∧
      signUpdate (treeSig ram tree) mac rbEmptyText key = .ok out ∧ verify (treeSig ram tree) mac out key = .ok true ∧
      format exPretty (treeLib ram tree) out = some out2 ∧ verify (treeSig ram tree) mac out2 key = .ok false := by
  have hp : print exPretty rbEmpty = some rbEmptyText := by decide +kernel
  have hs : ShortLines rbEmptyText := ⟨rawLines rbEmptyText, rawLines_isLines _, by decide +kernel⟩
  have hs2 : ShortLines rbEmptyText2 := ⟨rawLines rbEmptyText2, rawLines_isLines _, by decide +kernel⟩
  have hne : printable rbEmpty ≠ [] := by decide
  have hok := rbEmpty_ok ram
  obtain ⟨m', a1, a2, _, a3, a4⟩ := C85_not_idempotent ram tree ht
  have hf : format exPretty (treeLib ram tree) rbEmptyText = some rbEmptyText2 := by
    unfold format
    rw [a2]
    exact a3
  obtain ⟨raws, b1, b2⟩ := single_content ht hp hs hok rfl rfl
  obtain ⟨raws2, c1, c2⟩ := single_content (m := readAll rbEmpty) ht
    ((format_read ht hp hne hs hok).symm.trans hf) hs2 (readAll_ok hok) (by rw [printable_readAll]; rfl) rfl
  let mac : Mac := fun _ d => List.replicate 32 (if d = Spec.content raws then 1 else 0)
  have hm : Mac32 mac := fun _ _ => by simp [mac]
  obtain ⟨out, out2, ok, d1, d2, d3, d4, _⟩ := C96_format_signed_partial exResolver exPretty ram tree ht mac hm key hk
    rbEmpty rbEmptyText rbEmptyText2 hp hne hs hok hf hs2
  obtain ⟨hex, out', _, e2, _, e4⟩ := C96_sign_formatted_partial exResolver exPretty ram tree ht mac hm key hk
    rbEmpty rbEmptyText hp hne hs hok
  rw [d1] at e2
  cases e2
  have hno : ok = false := by
    rw [← Bool.not_eq_true, d4, sign_eq b1 hk, sign_eq c1 hk]
    intro e
    have e := hexEncode_inj (Except.ok.inj e)
    have hc : Spec.content raws2 ≠ Spec.content raws := by
      intro e
      rw [e, ← b2] at c2
      exact a4 c2
    simp [mac, hc] at e
  subst hno
  exact ⟨mac, out, out2, hm, hp, d1, e4, d2, d3⟩

/-- The hypotheses of C96 are met: the file of the example of C85 with its old signature. -/
example (ram : String → Option Int) : ∃ tree out, Parses exResolver tree ∧
    signUpdate (treeSig ram tree) exMac rbText exKey = .ok out ∧ format exPretty (treeLib ram tree) out = some out ∧
    verify (treeSig ram tree) exMac out exKey = .ok true := by
  obtain ⟨tree, ht⟩ := parser_exists exResolver
  have hf : format exPretty (treeLib ram tree) rbText = some rbText := by
    obtain ⟨m', h1, h2⟩ := C85_idempotent_partial exResolver exPretty ram tree ht rbManifest rbText rbText_print (by decide)
      rbText_lines (rbManifest_ok ram) rfl
    unfold format
    rw [h1]
    exact h2
  obtain ⟨out, h⟩ := C96_settled_partial exResolver exPretty ram tree ht exMac exMac_32 exKey (by decide) rbManifest rbText
    rbText_print (by decide) rbText_lines (rbManifest_ok ram) hf
  exact ⟨tree, out, ht, h⟩

end Drone
