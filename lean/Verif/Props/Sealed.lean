/-
C135: the signature of a formatted file.  A signature does not cover where one document ends and the next
begins (C130), but of a formatted file it does: the documents begin at the lines with the keys `version`
and `kind`, which are signed.
-/
import Verif.Props.Regroup

namespace Drone
open Spec Yaml Pretty

/-! ### Where a printed document begins -/

/-- A line with the key `version` at its beginning. -/
def Spec.VersionLine (l : Bytes) : Prop := ∃ r, l = utf8 "version:" ++ r
/-- A line with the key `kind` at its beginning. -/
def Spec.KindLine (l : Bytes) : Prop := ∃ r, l = utf8 "kind:" ++ r

/-- The lines of a document: perhaps the version, the kind, and lines which are neither. -/
def Spec.DocLines (b : List Bytes) : Prop :=
  ∃ v k rest, b = v ++ k :: rest ∧ (v = [] ∨ ∃ x, v = [x] ∧ VersionLine x) ∧ KindLine k ∧
    ∀ l ∈ rest, ¬ VersionLine l ∧ ¬ KindLine l

theorem version_not_kind {l : Bytes} (h : VersionLine l) : ¬ KindLine l := by
  rintro ⟨s, e⟩
  obtain ⟨r, rfl⟩ := h
  have hv : utf8 "version:" = 118 :: utf8 "ersion:" := by decide
  have hk : utf8 "kind:" = 107 :: utf8 "ind:" := by decide
  simp [hv, hk] at e

/-- The part before the first beginning. -/
theorem before_unique {P : Bytes → Prop} {a b x y : List Bytes} (ha : ∀ l ∈ a, ¬ P l) (hb : ∀ l ∈ b, ¬ P l)
    (hx : ∀ l, x.head? = some l → P l) (hy : ∀ l, y.head? = some l → P l) (h : a ++ x = b ++ y) : a = b ∧ x = y := by
  induction a generalizing b with
  | nil =>
    cases b with
    | nil => exact ⟨rfl, h⟩
    | cons l b =>
      exact absurd (hx l (by rw [List.nil_append] at h; rw [h]; rfl)) (hb l (by simp))
  | cons l a ih =>
    cases b with
    | nil => exact absurd (hy l (by rw [List.nil_append] at h; rw [← h]; rfl)) (ha l (by simp))
    | cons l' b =>
      simp only [List.cons_append, List.cons.injEq] at h
      obtain ⟨rfl, h⟩ := h
      obtain ⟨h1, h2⟩ := ih (fun l hl => ha l (by simp [hl])) (fun l hl => hb l (by simp [hl])) h
      exact ⟨by rw [h1], h2⟩

theorem docs_head {bs : List (List Bytes)} (h : ∀ b ∈ bs, DocLines b) :
    ∀ l, bs.flatten.head? = some l → VersionLine l ∨ KindLine l := by
  intro l hl
  cases bs with
  | nil => simp at hl
  | cons b bs =>
    obtain ⟨v, k, rest, rfl, hv, hk, _⟩ := h b (by simp)
    rcases hv with rfl | ⟨x, rfl, hx⟩
    · simp at hl; subst hl; exact .inr hk
    · simp at hl; subst hl; exact .inl hx

/-- Documents one after the other are found again. -/
theorem docs_unique {bs cs : List (List Bytes)} (hb : ∀ b ∈ bs, DocLines b) (hc : ∀ c ∈ cs, DocLines c)
    (h : bs.flatten = cs.flatten) : bs = cs := by
  induction bs generalizing cs with
  | nil =>
    cases cs with
    | nil => rfl
    | cons c cs =>
      obtain ⟨v, k, rest, rfl, _⟩ := hc c (by simp)
      simp at h
  | cons b bs ih =>
    cases cs with
    | nil =>
      obtain ⟨v, k, rest, rfl, _⟩ := hb b (by simp)
      simp at h
    | cons c cs =>
      have hb' : ∀ b ∈ bs, DocLines b := fun b h => hb b (by simp [h])
      have hc' : ∀ c ∈ cs, DocLines c := fun c h => hc c (by simp [h])
      obtain ⟨v, k, rest, rfl, hv, hk, hr⟩ := hb b (by simp)
      obtain ⟨v', k', rest', rfl, hv', hk', hr'⟩ := hc c (by simp)
      have tails : v = v' ∧ k = k' ∧ rest ++ bs.flatten = rest' ++ cs.flatten := by
        rcases hv with rfl | ⟨x, rfl, hx⟩ <;> rcases hv' with rfl | ⟨x', rfl, hx'⟩ <;> simp at h
        · exact ⟨rfl, h.1, h.2⟩
        · exact absurd (h.1 ▸ hk) (version_not_kind hx')
        · exact absurd (h.1 ▸ hk') (version_not_kind hx)
        · exact ⟨by rw [h.1], h.2.1, h.2.2⟩
      obtain ⟨rfl, rfl, ht⟩ := tails
      obtain ⟨rfl, hf⟩ := before_unique (P := fun l => VersionLine l ∨ KindLine l)
        (fun l hl => by have := hr l hl; tauto) (fun l hl => by have := hr' l hl; tauto)
        (docs_head hb') (docs_head hc') ht
      rw [ih hb' hc' hf]

/-! ### A printed resource -/

theorem late_keys : ∀ k ∈ topKeys, k ≠ "version" ∧ k ≠ "kind" →
    (¬ (utf8 k ++ [58]) <+: utf8 "version:" ∧ ¬ utf8 "version:" <+: (utf8 k ++ [58])) ∧
    (¬ (utf8 k ++ [58]) <+: utf8 "kind:" ∧ ¬ utf8 "kind:" <+: (utf8 k ++ [58])) := by decide

theorem begins_late {C : Lay} {l : Bytes} (h : Begins C l) (hC : C.late) : ¬ VersionLine l ∧ ¬ KindLine l := by
  have hv : utf8 "version:" = 118 :: utf8 "ersion:" := by decide
  have hk : utf8 "kind:" = 107 :: utf8 "ind:" := by decide
  rcases h with rfl | ⟨r, rfl⟩ | ⟨r, rfl⟩ | ⟨k, hk, r, rfl, hc⟩
  · constructor <;> rintro ⟨s, h⟩ <;> simp [hv, hk] at h
  · constructor <;> rintro ⟨s, h⟩ <;> simp [hv, hk] at h
  · constructor <;> rintro ⟨s, h⟩ <;> simp [hv, hk] at h
  · obtain ⟨⟨a, b⟩, c, d⟩ := late_keys k hk (hc hC)
    have hp : utf8 k ++ [58] <+: utf8 k ++ 58 :: r := ⟨r, by simp⟩
    constructor
    · rintro ⟨s, h⟩
      rcases List.prefix_or_prefix_of_prefix hp ⟨s, h.symm⟩ with h | h
      exacts [a h, b h]
    · rintro ⟨s, h⟩
      rcases List.prefix_or_prefix_of_prefix hp ⟨s, h.symm⟩ with h | h
      exacts [c h, d h]

/-- A text behind a key at the top level. -/
theorem tagStr_buf (L : PrettyLib) (w : Writer) {k s : String} (hk : k ∈ topKeys) (hd : w.depth = 0) (hi : w.index = none)
    (hz : w.zero = false) : ∃ f : Bytes, (10 : UInt8) ∉ f ∧ (s = "" → tagStr L w k s = w) ∧
      (s ≠ "" → tagStr L w k s = { w with buf := w.buf ++ 10 :: (utf8 k ++ 58 :: f) }) := by
  refine ⟨32 :: utf8 (encode L s), ?_, ?_, ?_⟩
  · have := (encode_flat L s).1
    simpa using this
  · rintro rfl
    simp [tagStr, writeTagValue, isZero, isZeroValue, hz]
  · intro hs
    have h0 : isZero (.val (.str s)) = false := by
      simp only [isZero, isZeroValue, decide_eq_false_iff_not]
      intro h
      exact hs (by simpa using h)
    simp [tagStr, writeTagValue, h0, isPrimative, isPrimValue, writeValue, writeVal, writeTag, writeEncode, Writer.str,
      Writer.bytes, Writer.indent, utf8, String.utf8EncodeChar, hi, hd, padding_zero, encode_top L hk]

/-- The head of a printed resource. -/
theorem docHead_lines (L : PrettyLib) {version kind : String} (hk : kind ≠ "") :
    ∃ v k, (v = [] ∨ ∃ x, v = [x] ∧ VersionLine x) ∧ KindLine k ∧ (∀ l ∈ v ++ [k], (10 : UInt8) ∉ l) ∧
      docHead L {} version kind = { buf := [45, 45, 45] ++ (v ++ [k]).flatMap (10 :: ·) } := by
  have h0 : (({} : Writer).str "---") = { buf := [45, 45, 45] } := by
    simp [Writer.str, Writer.bytes, utf8, String.utf8EncodeChar]
  unfold docHead
  rw [h0]
  obtain ⟨f, hf, e1, e2⟩ := tagStr_buf L { buf := [45, 45, 45] } (k := "version") (s := version) (by decide) rfl rfl rfl
  have kn : (10 : UInt8) ∉ utf8 "kind" := by decide
  have vn : (10 : UInt8) ∉ utf8 "version" := by decide
  by_cases hv : version = ""
  · rw [e1 hv]
    obtain ⟨g, hg, _, e3⟩ := tagStr_buf L { buf := [45, 45, 45] } (k := "kind") (s := kind) (by decide) rfl rfl rfl
    refine ⟨[], utf8 "kind" ++ 58 :: g, .inl rfl, ⟨g, ?_⟩, ?_, ?_⟩
    · rw [show utf8 "kind:" = utf8 "kind" ++ [58] by decide]; simp
    · simp [kn, hg]
    · rw [e3 hk]; simp
  · rw [e2 hv]
    obtain ⟨g, hg, _, e3⟩ := tagStr_buf L { buf := [45, 45, 45] ++ 10 :: (utf8 "version" ++ 58 :: f) } (k := "kind") (s := kind)
      (by decide) rfl rfl rfl
    refine ⟨[utf8 "version" ++ 58 :: f], utf8 "kind" ++ 58 :: g, .inr ⟨_, rfl, ⟨f, ?_⟩⟩, ⟨g, ?_⟩, ?_, ?_⟩
    · rw [show utf8 "version:" = utf8 "version" ++ [58] by decide]; simp
    · rw [show utf8 "kind:" = utf8 "kind" ++ [58] by decide]; simp
    · simp [kn, hg, vn, hf]
    · dsimp only at e3 ⊢
      rw [e3 hk]; simp

theorem doc_lines (L : PrettyLib) {r : Resource} {b : Bytes}
    (h : print L ⟨[r]⟩ = some ([45, 45, 45, 10] ++ b ++ [46, 46, 46, 10])) (hk : r.getKind ≠ "") :
    ∃ ls, b = unlines ls ∧ DocLines ls ∧ ∀ l ∈ ls, (10 : UInt8) ∉ l := by
  obtain ⟨hr, h⟩ := single_writer h
  have key : ∃ version t, Adds ⟨False, True⟩ Top (docHead L {} version r.getKind) t ∧
      Writer.pre ([45, 45, 45, 10] ++ b) {} = t.str "\n" := by
    cases r with
    | cron c =>
      simp only [printResource, Option.some.injEq] at h
      exact ⟨_, by rw [← h]; exact printCron_tail L _ c⟩
    | secret s =>
      simp only [printResource, Option.some.injEq] at h
      exact ⟨_, by rw [← h]; exact printSecret_tail L _ s False.elim⟩
    | signature s =>
      simp only [printResource, Option.some.injEq] at h
      exact ⟨_, by rw [← h]; exact printSignature_tail L _ s⟩
    | registry x => exact absurd rfl (hr x)
    | pipeline p => exact ⟨_, printPipeline_tail L h⟩
  obtain ⟨version, t, ha, ht⟩ := key
  obtain ⟨v, k, hv, hkl, hn, hd⟩ := docHead_lines L (version := version) hk
  obtain ⟨o, ho, ls, rfl, h1, _⟩ := ha.out (by rw [hd]; exact ⟨rfl, rfl⟩)
  refine ⟨v ++ k :: ls, ?_, ⟨v, k, ls, rfl, hv, hkl, fun l hl => begins_late (h1 l hl).2 trivial⟩, ?_⟩
  · have := congrArg Writer.buf ht
    rw [hd] at ho
    have e : (t.str "\n").buf = t.buf ++ [10] := by simp [Writer.str, Writer.bytes, utf8, String.utf8EncodeChar]
    rw [e, ho] at this
    have e2 : v ++ k :: ls = (v ++ [k]) ++ ls := by simp
    have e3 := flatMap_lf (v ++ k :: ls)
    rw [e2, List.flatMap_append] at e3
    simp only [Writer.pre, List.append_nil] at this
    rw [List.append_assoc, List.append_assoc, ← List.append_assoc (List.flatMap _ _), e3] at this
    rw [e2]
    simpa using this
  · intro l hl
    simp only [List.mem_append, List.mem_cons, List.not_mem_nil, or_false] at hl hn
    rcases hl with hl | rfl | hl
    · exact hn l (.inl hl)
    · exact hn l (.inr rfl)
    · exact (h1 l hl).1

/-- The bodies of printed resources are found again in the text they make together. -/
theorem bodies_unique (L : PrettyLib) {rs rs' : List Resource} {bs cs : List Bytes}
    (h : List.Forall₂ (fun r b => print L ⟨[r]⟩ = some ([45, 45, 45, 10] ++ b ++ [46, 46, 46, 10])) rs bs)
    (h' : List.Forall₂ (fun r b => print L ⟨[r]⟩ = some ([45, 45, 45, 10] ++ b ++ [46, 46, 46, 10])) rs' cs)
    (hk : ∀ r ∈ rs, r.getKind ≠ "") (hk' : ∀ r ∈ rs', r.getKind ≠ "") (he : bs.flatten = cs.flatten) : bs = cs := by
  have lines : ∀ {rs : List Resource} {bs : List Bytes},
      List.Forall₂ (fun r b => print L ⟨[r]⟩ = some ([45, 45, 45, 10] ++ b ++ [46, 46, 46, 10])) rs bs →
      (∀ r ∈ rs, r.getKind ≠ "") → ∃ ls : List (List Bytes), bs = ls.map unlines ∧ (∀ l ∈ ls, DocLines l) ∧
        ∀ l ∈ ls.flatten, (10 : UInt8) ∉ l := by
    intro rs bs h
    induction h with
    | nil => intro _; exact ⟨[], rfl, by simp, by simp⟩
    | cons h1 _ ih =>
      intro hk
      obtain ⟨l, rfl, a, b⟩ := doc_lines L h1 (hk _ (by simp))
      obtain ⟨ls, rfl, c, d⟩ := ih fun r hr => hk r (by simp [hr])
      refine ⟨l :: ls, rfl, by simpa using ⟨a, c⟩, fun x hx => ?_⟩
      rw [List.flatten_cons] at hx
      rcases List.mem_append.1 hx with hx | hx
      exacts [b x hx, d x hx]
  obtain ⟨ls, rfl, a, b⟩ := lines h hk
  obtain ⟨ls', rfl, a', b'⟩ := lines h' hk'
  rw [← unlines_flatten, ← unlines_flatten] at he
  rw [docs_unique a a' (unlines_inj _ _ b b' he)]

/-! ### C135 -/

/-- The manifest without the resources that say they are signatures. -/
def Spec.unsealed (m : Manifest) : Manifest := ⟨m.resources.filter (·.getKind ≠ "signature")⟩

/-- What a formatted file consists of. -/
theorem formatted_docs (L : PrettyLib) (Y : YamlLib) {m : Manifest} {t : Bytes} {rs : List RawResource}
    (h : print L m = some t) (hne : printable m ≠ []) (hcr : NoCRData m) (hlen : ShortLines t)
    (hp : parseRawBytes Y t = .ok rs) :
    List.Forall₂ (fun r b => print L ⟨[r]⟩ = some ([45, 45, 45, 10] ++ b ++ [46, 46, 46, 10])) (printable m) (rs.map (·.data)) ∧
      t = (rs.map (·.data)).flatMap ([45, 45, 45, 10] ++ ·) ++ [46, 46, 46, 10] := by
  obtain ⟨bodies, h1, h2, h3⟩ := C52_frame L m t h hne hcr hlen
  have hp : decodeHeaders _ (splitDocs t) = .ok rs := hp
  rw [h3] at hp
  rw [decodeHeaders_data hp]
  exact ⟨h1, h2⟩

/-- **C135.** The signature of a formatted file fixes every byte of it: two formatted files without
signatures, all of whose resources have a kind, that have the same signature are the same file, or
their contents are a collision of the MAC. -/
theorem C135_signature (L : PrettyLib) (Y : SigLib) (mac : Mac) (key : Bytes) (m1 m2 : Manifest) (t1 t2 : Bytes)
    (h1 : print L m1 = some t1) (h2 : print L m2 = some t2) (n1 : printable m1 ≠ []) (n2 : printable m2 ≠ [])
    (c1 : NoCRData m1) (c2 : NoCRData m2) (l1 : ShortLines t1) (l2 : ShortLines t2)
    (k1 : ∀ r ∈ printable m1, r.getKind ≠ "") (k2 : ∀ r ∈ printable m2, r.getKind ≠ "") (r1 r2 : List RawResource)
    (p1 : parseRawBytes Y.toYamlLib t1 = .ok r1) (p2 : parseRawBytes Y.toYamlLib t2 = .ok r2)
    (u1 : ∀ r ∈ r1, r.kind ≠ "signature") (u2 : ∀ r ∈ r2, r.kind ≠ "signature")
    (hcol : mac key (Spec.content r1) = mac key (Spec.content r2) → Spec.content r1 = Spec.content r2) (s : Bytes)
    (s1 : sign Y mac t1 key = .ok s) (s2 : sign Y mac t2 key = .ok s) : t1 = t2 := by
  have hk : 32 ≤ key.length := by
    by_contra hk
    have hk : key.length < 32 := by omega
    simp [sign, p1, signRes, hk] at s1
  obtain ⟨f1, e1⟩ := formatted_docs L _ h1 n1 c1 l1 p1
  obtain ⟨f2, e2⟩ := formatted_docs L _ h2 n2 c2 l2 p2
  rw [sign_eq p1 hk] at s1
  rw [sign_eq p2 hk, ← s1] at s2
  have hc := hcol (hexEncode_inj (Except.ok.inj s2)).symm
  rw [content_all u1, content_all u2] at hc
  rw [e1, e2, bodies_unique L f1 f2 k1 k2 hc]

theorem forall₂_kinds (L : PrettyLib) {rs : List Resource} {raws : List RawResource}
    (h : List.Forall₂ (fun r b => print L ⟨[r]⟩ = some ([45, 45, 45, 10] ++ b ++ [46, 46, 46, 10])) rs (raws.map (·.data)))
    (hk : raws.map (·.kind) = rs.map Resource.getKind) :
    List.Forall₂ (fun r b => print L ⟨[r]⟩ = some ([45, 45, 45, 10] ++ b ++ [46, 46, 46, 10]))
      (rs.filter (·.getKind ≠ "signature")) ((raws.filter (·.kind ≠ "signature")).map (·.data)) := by
  induction raws generalizing rs with
  | nil =>
    cases h
    exact .nil
  | cons w raws ih =>
    cases h with
    | @cons r _ rs _ h1 h =>
      simp only [List.map_cons, List.cons.injEq] at hk
      have := ih h hk.2
      by_cases hs : w.kind = "signature"
      · rw [List.filter_cons_of_neg (by simp [← hk.1, hs]), List.filter_cons_of_neg (by simp [hs])]
        exact this
      · rw [List.filter_cons_of_pos (by simp [← hk.1, hs]), List.filter_cons_of_pos (by simp [hs])]
        exact .cons h1 this

theorem unsealed_printable (m : Manifest) :
    printable (unsealed m) = (printable m).filter (·.getKind ≠ "signature") := by
  unfold printable unsealed
  rw [List.filter_filter, List.filter_filter]
  congr 1
  funext r
  exact Bool.and_comm _ _

/-- **C135.** What verifies: two formatted files with the same signature value that verify under the same
key print the same without their signatures, or their contents are a collision of the MAC. -/
theorem C135_verified (L : PrettyLib) (Y : SigLib) (mac : Mac) (key : Bytes) (m1 m2 : Manifest) (t1 t2 : Bytes)
    (h1 : print L m1 = some t1) (h2 : print L m2 = some t2) (n1 : printable m1 ≠ []) (n2 : printable m2 ≠ [])
    (c1 : NoCRData m1) (c2 : NoCRData m2) (l1 : ShortLines t1) (l2 : ShortLines t2)
    (k1 : ∀ r ∈ printable m1, r.getKind ≠ "") (k2 : ∀ r ∈ printable m2, r.getKind ≠ "") (r1 r2 : List RawResource)
    (p1 : parseRawBytes Y.toYamlLib t1 = .ok r1) (p2 : parseRawBytes Y.toYamlLib t2 = .ok r2)
    (u1 : r1.map (·.kind) = (printable m1).map Resource.getKind)
    (u2 : r2.map (·.kind) = (printable m2).map Resource.getKind)
    (hcol : mac key (Spec.content r1) = mac key (Spec.content r2) → Spec.content r1 = Spec.content r2) (s1 s2 : Bytes)
    (hs1 : Spec.FirstSignature Y r1 s1) (hs2 : Spec.FirstSignature Y r2 s2)
    (hs : s1.map Spec.lower = s2.map Spec.lower)
    (v1 : verify Y mac t1 key = .ok true) (v2 : verify Y mac t2 key = .ok true) :
    ∃ t, print L (unsealed m1) = some t ∧ print L (unsealed m2) = some t := by
  obtain ⟨f1, _⟩ := formatted_docs L _ h1 n1 c1 l1 p1
  obtain ⟨f2, _⟩ := formatted_docs L _ h2 n2 c2 l2 p2
  have g1 := forall₂_kinds L f1 u1
  have g2 := forall₂_kinds L f2 u2
  have hc := C09_content_fixed_partial Y mac key t1 t2 r1 r2 s1 s2 hcol p1 p2 hs1 hs2 hs v1 v2
  have he := bodies_unique L g1 g2 (fun r hr => k1 r (List.mem_filter.1 hr).1) (fun r hr => k2 r (List.mem_filter.1 hr).1) hc
  have q1 := print_singles g1
  have q2 := print_singles g2
  rw [← unsealed_printable] at q1 q2
  rw [← he] at q2
  rw [print_printable] at q1 q2
  exact ⟨_, q1, q2⟩

/-- **C135.** What is run: two formatted files with the same signature value that verify under the same key
are read as the same resources, apart from their signatures, or their contents are a collision of the
MAC.  Here the resources have to survive the formatting (C84). -/
theorem C135_resources (R : Resolver) (L : PrettyLib) (ram : String → Option Int) (tree : Bytes → Except String Yaml.Node)
    (ht : Parses R tree) (mac : Mac) (key : Bytes) (m1 m2 : Manifest) (t1 t2 : Bytes)
    (h1 : print L m1 = some t1) (h2 : print L m2 = some t2) (n1 : printable m1 ≠ []) (n2 : printable m2 ≠ [])
    (l1 : ShortLines t1) (l2 : ShortLines t2) (k1 : ∀ r ∈ printable m1, r.getKind ≠ "")
    (k2 : ∀ r ∈ printable m2, r.getKind ≠ "") (o1 : ∀ r ∈ m1.resources, ResourceOk R L ram r)
    (o2 : ∀ r ∈ m2.resources, ResourceOk R L ram r) (r1 r2 : List RawResource)
    (p1 : parseRawBytes (treeLib ram tree) t1 = .ok r1) (p2 : parseRawBytes (treeLib ram tree) t2 = .ok r2)
    (hcol : mac key (Spec.content r1) = mac key (Spec.content r2) → Spec.content r1 = Spec.content r2) (s1 s2 : Bytes)
    (hs1 : Spec.FirstSignature (treeSig ram tree) r1 s1) (hs2 : Spec.FirstSignature (treeSig ram tree) r2 s2)
    (hs : s1.map Spec.lower = s2.map Spec.lower)
    (v1 : verify (treeSig ram tree) mac t1 key = .ok true) (v2 : verify (treeSig ram tree) mac t2 key = .ok true) :
    ∃ d1 d2, parseBytes (treeLib ram tree) t1 = .ok d1 ∧ parseBytes (treeLib ram tree) t2 = .ok d2 ∧
      unsigned d1.resources = unsigned d2.resources := by
  have docs : ∀ {m : Manifest} {t : Bytes} {rs : List RawResource}, print L m = some t → printable m ≠ [] → ShortLines t →
      (∀ r ∈ m.resources, ResourceOk R L ram r) → parseRawBytes (treeLib ram tree) t = .ok rs →
      (∀ r ∈ rs, Lns r.data) ∧
      List.Forall₂ (fun r b => print L ⟨[r]⟩ = some ([45, 45, 45, 10] ++ b ++ [46, 46, 46, 10])) (unsigned (printable m))
        ((rs.filter (fun r => r.kind ≠ "signature")).map (·.data)) := by
    intro m t rs h hn hl ho hp
    obtain ⟨bodies, a1, a2, a3⟩ := C52_frame L m t h hn (nocr_of_ok ho) hl
    obtain ⟨raws, b1, b2⟩ := raw_docs ht (printable_ok ho) a1
    have hp' : decodeHeaders (treeLib ram tree) (splitDocs t) = .ok rs := hp
    rw [a3, b1] at hp'
    obtain rfl := Except.ok.inj hp'
    obtain ⟨raws', c1, _, c3, _⟩ := signed_print ht h hn hl ho
    rw [hp] at c1
    obtain rfl := Except.ok.inj c1
    exact ⟨c3, b2⟩
  obtain ⟨a1, g1⟩ := docs h1 n1 l1 o1 p1
  obtain ⟨a2, g2⟩ := docs h2 n2 l2 o2 p2
  have hc := C09_content_fixed_partial (treeSig ram tree) mac key t1 t2 r1 r2 s1 s2 hcol p1 p2 hs1 hs2 hs v1 v2
  have he := bodies_unique L g1 g2 (fun r hr => k1 r (List.mem_filter.1 hr).1) (fun r hr => k2 r (List.mem_filter.1 hr).1) hc
  have hr : ∀ r, isSignature (readResource r) = isSignature r := by intro r; cases r <;> rfl
  have hu : ∀ rs : List Resource, unsigned (rs.map readResource) = (unsigned rs).map readResource := by
    intro rs
    unfold unsigned
    rw [List.filter_map]
    simp only [Function.comp_def, hr]
  refine ⟨_, _, readBack L ram ht h1 n1 l1 o1, readBack L ram ht h2 n2 l2 o2, ?_⟩
  dsimp only
  rw [hu, hu]
  have hpp : ∀ m : Manifest, printable ⟨unsigned (printable m)⟩ = unsigned (printable m) := by
    intro m
    unfold unsigned printable
    dsimp only
    rw [List.filter_eq_self]
    intro r hr
    exact (List.mem_filter.1 (List.mem_filter.1 hr).1).2
  by_cases hne : unsigned (printable m1) = []
  · rw [hne] at g1 ⊢
    have g1 := List.forall₂_nil_left_iff.1 g1
    rw [← he, g1] at g2
    rw [List.forall₂_nil_right_iff.1 g2]
  · have hne2 : unsigned (printable m2) ≠ [] := by
      intro h
      rw [h] at g2
      rw [he, List.forall₂_nil_left_iff.1 g2] at g1
      exact hne (List.forall₂_nil_right_iff.1 g1)
    have q1 := print_singles g1
    have q2 := print_singles g2
    rw [← he] at q2
    have sep : Lns [45, 45, 45, 10] := ⟨[[45, 45, 45]], rfl, by simp⟩
    have dots : Lns [46, 46, 46, 10] := ⟨[[46, 46, 46]], rfl, by simp⟩
    have hs : ShortLines (((r1.filter (fun r => r.kind ≠ "signature")).map (·.data)).flatMap ([45, 45, 45, 10] ++ ·) ++
        [46, 46, 46, 10]) := by
      refine Lns.short ((Lns.flatMap fun d hd => sep.append ?_).append dots)
      obtain ⟨r, hr, rfl⟩ := List.mem_map.1 hd
      exact a1 r (List.mem_filter.1 hr).1
    have b1 := readBack L ram ht q1 (by rw [hpp]; exact hne) hs fun r hr =>
      printable_ok o1 r (List.mem_filter.1 hr).1
    have b2 := readBack L ram ht q2 (by rw [hpp]; exact hne2) hs fun r hr =>
      printable_ok o2 r (List.mem_filter.1 hr).1
    rw [b1] at b2
    have := Except.ok.inj b2
    rw [hpp, hpp] at this
    exact congrArg Manifest.resources this

theorem findPipeline_unsigned (name : String) (rs : List Resource) :
    Cli.findPipeline name (unsigned rs) = Cli.findPipeline name rs := by
  unfold unsigned
  induction rs with
  | nil => rfl
  | cons r rs ih =>
    cases r with
    | signature x =>
      rw [List.filter_cons_of_neg (by simp [isSignature])]
      simpa [Cli.findPipeline] using ih
    | _ =>
      rw [List.filter_cons_of_pos (by simp [isSignature])]
      simp only [Cli.findPipeline, ih]

theorem lintLoop_unsigned (trusted : Bool) (rs : List Resource)
    (h : ∀ r ∈ rs, isSignature r = true → lint r trusted = .ok ()) :
    Cli.lintLoop trusted (unsigned rs) = Cli.lintLoop trusted rs := by
  unfold unsigned
  induction rs with
  | nil => rfl
  | cons r rs ih =>
    have ih := ih fun r hr => h r (by simp [hr])
    cases r with
    | signature x =>
      rw [List.filter_cons_of_neg (by simp [isSignature]), Cli.lintLoop, h (.signature x) (by simp) rfl]
      exact ih
    | _ =>
      rw [List.filter_cons_of_pos (by simp [isSignature])]
      simp only [Cli.lintLoop, ih]

theorem checkPipelines_unsigned (names : List String) (rs : List Resource) :
    checkPipelines names (unsigned rs) = checkPipelines names rs := by
  unfold unsigned
  induction rs generalizing names with
  | nil => rfl
  | cons r rs ih =>
    cases r with
    | signature x =>
      rw [List.filter_cons_of_neg (by simp [isSignature])]
      simpa [checkPipelines] using ih names
    | _ =>
      rw [List.filter_cons_of_pos (by simp [isSignature])]
      simp only [checkPipelines, ih]

/-- **C135.** So the compile command runs the same, and the linter says the same about both if it finds nothing
wrong with their signatures. -/
theorem C135_run (R : Resolver) (L : PrettyLib) (ram : String → Option Int) (tree : Bytes → Except String Yaml.Node)
    (ht : Parses R tree) (mac : Mac) (key : Bytes) (m1 m2 : Manifest) (t1 t2 : Bytes)
    (h1 : print L m1 = some t1) (h2 : print L m2 = some t2) (n1 : printable m1 ≠ []) (n2 : printable m2 ≠ [])
    (l1 : ShortLines t1) (l2 : ShortLines t2) (k1 : ∀ r ∈ printable m1, r.getKind ≠ "")
    (k2 : ∀ r ∈ printable m2, r.getKind ≠ "") (o1 : ∀ r ∈ m1.resources, ResourceOk R L ram r)
    (o2 : ∀ r ∈ m2.resources, ResourceOk R L ram r) (r1 r2 : List RawResource)
    (p1 : parseRawBytes (treeLib ram tree) t1 = .ok r1) (p2 : parseRawBytes (treeLib ram tree) t2 = .ok r2)
    (hcol : mac key (Spec.content r1) = mac key (Spec.content r2) → Spec.content r1 = Spec.content r2) (s1 s2 : Bytes)
    (hs1 : Spec.FirstSignature (treeSig ram tree) r1 s1) (hs2 : Spec.FirstSignature (treeSig ram tree) r2 s2)
    (hs : s1.map Spec.lower = s2.map Spec.lower)
    (v1 : verify (treeSig ram tree) mac t1 key = .ok true) (v2 : verify (treeSig ram tree) mac t2 key = .ok true) :
    ∃ d1 d2, parseBytes (treeLib ram tree) t1 = .ok d1 ∧ parseBytes (treeLib ram tree) t2 = .ok d2 ∧
      (∀ X fl, Cli.compileManifest X fl d1 = Cli.compileManifest X fl d2) ∧
      ∀ trusted, lintManifest d1 trusted = lintManifest d2 trusted ∧
        ((∀ r ∈ d1.resources ++ d2.resources, isSignature r = true → lint r trusted = .ok ()) →
          Cli.lintLoop trusted d1.resources = Cli.lintLoop trusted d2.resources) := by
  obtain ⟨d1, d2, e1, e2, h⟩ := C135_resources R L ram tree ht mac key m1 m2 t1 t2 h1 h2 n1 n2 l1 l2 k1 k2 o1 o2 r1 r2 p1 p2
    hcol s1 s2 hs1 hs2 hs v1 v2
  refine ⟨d1, d2, e1, e2, fun X fl => ?_, fun trusted => ⟨?_, fun hl => ?_⟩⟩
  · unfold Cli.compileManifest
    rw [← findPipeline_unsigned, h, findPipeline_unsigned]
  · unfold lintManifest
    rw [← checkPipelines_unsigned, h, checkPipelines_unsigned]
  · rw [← lintLoop_unsigned _ _ fun r hr => hl r (List.mem_append_left _ hr), h,
      lintLoop_unsigned _ _ fun r hr => hl r (List.mem_append_right _ hr)]

/-! ### Examples -/

/-- A cron job and a secret. -/
def sealedManifest : Manifest := ⟨[.cron { kind := "cron", name := "nightly", schedule := "0 1 * * *" },
  .secret { version := "1", kind := "secret", name := "password", data := "aGVsbG8=" }]⟩

def sealedText : Bytes := utf8 "---\nkind: cron\nname: nightly\nspec:\n  schedule: 0 1 * * *\n\n---\nversion: 1\nkind: secret\nname: password\ndata: >\n  aGVsbG8=\n\n...\n"

def sealedLines : List Bytes := [utf8 "---", utf8 "kind: cron", utf8 "name: nightly", utf8 "spec:", utf8 "  schedule: 0 1 * * *",
  [], utf8 "---", utf8 "version: 1", utf8 "kind: secret", utf8 "name: password", utf8 "data: >", utf8 "  aGVsbG8=", [], utf8 "..."]

theorem sealedText_short : ShortLines sealedText :=
  ⟨sealedLines, ⟨by decide +kernel, .inl (by decide +kernel)⟩, by decide +kernel⟩

theorem sealedText_docs : parseRawBytes exSig.toYamlLib sealedText = .ok [
    ⟨"", "pipeline", "", utf8 "kind: cron\nname: nightly\nspec:\n  schedule: 0 1 * * *\n\n"⟩,
    ⟨"", "pipeline", "", utf8 "version: 1\nkind: secret\nname: password\ndata: >\n  aGVsbG8=\n\n"⟩] := by decide +kernel

/-- Two manifests that differ in what is not printed, a registry: the same signature, the same text. -/
example : ∃ r1 s, let m2 : Manifest := ⟨.registry { kind := "registry" } :: sealedManifest.resources⟩
    print exPretty sealedManifest = some sealedText ∧ print exPretty m2 = some sealedText ∧
    printable sealedManifest ≠ [] ∧ printable m2 ≠ [] ∧ ShortLines sealedText ∧
    (∀ r ∈ printable sealedManifest, r.getKind ≠ "") ∧ (∀ r ∈ printable m2, r.getKind ≠ "") ∧
    parseRawBytes exSig.toYamlLib sealedText = .ok r1 ∧ (∀ r ∈ r1, r.kind ≠ "signature") ∧
    sign exSig exMac sealedText exKey = .ok s :=
  ⟨_, _, by decide +kernel, by decide +kernel, by decide, by decide, sealedText_short, by decide, by decide, sealedText_docs,
    by simp, sign_eq sealedText_docs (by decide)⟩

theorem docs_kinds {R : Resolver} {L : PrettyLib} {ram : String → Option Int} {tree : Bytes → Except String Yaml.Node}
    (ht : Parses R tree) {rs : List Resource} {raws : List RawResource} (hok : ∀ r ∈ rs, ResourceOk R L ram r)
    (h : List.Forall₂ (fun r b => print L ⟨[r]⟩ = some ([45, 45, 45, 10] ++ b ++ [46, 46, 46, 10])) rs (raws.map (·.data)))
    (hd : decodeHeaders (treeLib ram tree) (raws.map (·.data)) = .ok raws) :
    raws.map (·.kind) = rs.map Resource.getKind := by
  rw [decodeHeaders_ok_iff] at hd
  induction raws generalizing rs with
  | nil => cases h; rfl
  | cons w raws ih =>
    cases h with
    | @cons r _ rs _ h1 h =>
      cases hd with
      | cons d1 hd =>
        obtain ⟨n, hh, _, _, a3, a4⟩ := single_reads ht (hok r (by simp)) h1
        rw [d1.2] at a3
        have := Except.ok.inj a3
        subst this
        dsimp only at a4
        simp [a4, ih (fun r hr => hok r (by simp [hr])) h hd]

/-- All the hypotheses of `C135_verified` and `C135_resources` for a signed file. -/
example (ram : String → Option Int) : ∃ tree m t r s, Parses exResolver tree ∧ print exPretty m = some t ∧ printable m ≠ [] ∧
    (∀ r ∈ printable m, r.getKind ≠ "") ∧ (∀ r ∈ m.resources, ResourceOk exResolver exPretty ram r) ∧
    parseRawBytes (treeLib ram tree) t = .ok r ∧ Spec.FirstSignature (treeSig ram tree) r s ∧
    r.map (·.kind) = (printable m).map Resource.getKind ∧ NoCRData m ∧ ShortLines t ∧
    verify (treeSig ram tree) exMac t exKey = .ok true := by
  obtain ⟨tree, ht⟩ := parser_exists exResolver
  obtain ⟨raws, h1, h2, h3, h4⟩ := signed_print (ram := ram) ht rbText_print (by decide) rbText_lines (rbManifest_ok ram)
  have hx := hexEncode_hexOf (exMac exKey (Spec.content raws))
  obtain ⟨v, e, hl, hv⟩ := hexOf_string hx
  have hlen := hexOf_length hx
  have h32 := exMac_32 exKey (Spec.content raws)
  have hw : Word v := hv.word (by intro e0; rw [e0] at hl; simp at hl; omega) (by omega)
  have hver : verify (treeSig ram tree) exMac (upsert raws (utf8 v)) exKey = .ok true := by
    rw [e]
    have := verify_upsert (treeSig_reads ht) (mac := exMac) h1 (by decide : 32 ≤ exKey.length) h2 h32
    simpa using this
  obtain ⟨r, s, a, _, b, _⟩ := (C08_verify_iff _ _ _ _).1 hver
  have hne : printable (signedManifest rbManifest v) ≠ [] := by simp [signedManifest, printable, unsigned]
  have hok : ∀ r ∈ (signedManifest rbManifest v).resources, ResourceOk exResolver exPretty ram r := by
    intro r hr
    rcases List.mem_append.1 hr with hr | hr
    · exact rbManifest_ok ram r (List.mem_filter.1 hr).1
    · rw [List.mem_singleton.1 hr]
      exact sigOf_ok hw
  have hsh : ShortLines (upsert raws (utf8 v)) := by
    rw [e]
    exact upsert_short h3 (fun hm => (hexOf_mem hx _ hm).2.1 rfl) (by omega)
  have hdocs : decodeHeaders (treeLib ram tree) (r.map (·.data)) = .ok r := by
    have a' : decodeHeaders (treeLib ram tree) (splitDocs _) = .ok r := a
    rwa [← decodeHeaders_data a'] at a'
  refine ⟨tree, signedManifest rbManifest v, _, r, s, ht, h4 v hw, hne, ?_, hok, a, b,
    docs_kinds ht (printable_ok hok) (formatted_docs exPretty (treeLib ram tree) (h4 v hw) hne (nocr_of_ok hok) hsh a).1 hdocs,
    nocr_of_ok hok, hsh, hver⟩
  have hk : ∀ r ∈ rbManifest.resources, r.getKind ≠ "" := by decide
  intro r hr
  rcases List.mem_append.1 (List.mem_filter.1 hr).1 with hr | hr
  · exact hk r (List.mem_filter.1 hr).1
  · rw [List.mem_singleton.1 hr]
    simp [Resource.getKind]

end Drone
