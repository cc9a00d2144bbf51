/-
Whole documents: the lines of a resource, folded data of secrets, and the header.
-/
import Verif.Proof.RefillDoc

namespace Drone
open Spec Yaml Pretty

variable {R : Resolver}

/-! ### Lines have no line feeds -/

theorem Unescaped.lf {c : Char} (h : Unescaped c) : c ≠ '\n' := by
  rintro rfl
  revert h
  unfold Unescaped
  decide

theorem Hex.lf {ds : List Char} {n : Nat} (h : Hex ds n) : '\n' ∉ ds := by
  induction h with
  | nil => simp
  | snoc _ hd ih =>
    rename_i d v _
    simp only [List.mem_append, List.mem_singleton, not_or]
    refine ⟨ih, ?_⟩
    rintro rfl
    revert hd
    simp [hexTable]

theorem DoubleQuoted.lf {t v r : List Char} (h : DoubleQuoted t v r) (hr : '\n' ∉ r) : '\n' ∉ t := by
  induction h with
  | close => simpa using hr
  | char hu _ _ _ ih =>
    simp only [List.mem_cons, not_or]
    exact ⟨fun h => Unescaped.lf hu h.symm, ih hr⟩
  | esc he _ ih =>
    simp only [List.mem_cons, not_or]
    refine ⟨by decide, ?_, ih hr⟩
    rintro rfl
    revert he
    simp [escapes]
  | hex he _ hx _ ih =>
    simp only [List.mem_cons, List.mem_append, not_or]
    refine ⟨by decide, ?_, Hex.lf hx, ih hr⟩
    rintro rfl
    revert he
    simp [hexEscapes]

theorem scalarText_lf {t : List Char} {n : Yaml.Node} (h : ScalarText R t n) : '\n' ∉ t := by
  cases h with
  | plain h => exact fun hm => Unescaped.lf (h.chars _ hm) rfl
  | quoted h =>
    simp only [List.mem_cons, not_or]
    exact ⟨by decide, DoubleQuoted.lf h (by simp)⟩

theorem atom_lf {t : List Char} {n : Yaml.Node} (h : Atom R t n) : '\n' ∉ t := by
  cases h with
  | scalar h => exact scalarText_lf h
  | emptySeq => decide
  | emptyMap => decide

theorem content_lf {c : Nat} {t : List Char} {us : List Tok} (h : Content R c t us) : '\n' ∉ t := by
  induction h with
  | dash _ ih => simpa using ih
  | atom h => exact atom_lf h
  | key h _ => simpa using scalarText_lf h
  | entry h _ h' => simpa using ⟨scalarText_lf h, atom_lf h'⟩

theorem lineToks_lf {l : List Char} {us : List Tok} (h : LineToks R l us) : '\n' ∉ l := by
  cases h with
  | mk h => simpa [List.mem_replicate] using content_lf h

theorem blank_lf {l : List Char} (h : BlankLine l) : '\n' ∉ l := fun hm => absurd (h _ hm) (by decide)

theorem foldLine_lf {d : Nat} {l t : List Char} (h : FoldLine d l t) : '\n' ∉ l := by
  obtain ⟨rfl, _, h⟩ := h
  simp only [List.mem_append, List.mem_replicate, not_or]
  refine ⟨by simp, fun hm => ?_⟩
  have := h _ hm
  revert this
  decide

theorem forall₂_left {α β : Type} {r : α → β → Prop} {as : List α} {bs : List β} (h : List.Forall₂ r as bs) {a : α}
    (ha : a ∈ as) : ∃ b ∈ bs, r a b := by
  induction h with
  | nil => simp at ha
  | cons h1 _ ih =>
    rcases List.mem_cons.1 ha with rfl | ha
    · exact ⟨_, List.mem_cons_self, h1⟩
    · obtain ⟨b, hb, hr⟩ := ih ha
      exact ⟨b, List.mem_cons_of_mem _ hb, hr⟩

theorem toks_lf {ls : List (List Char)} {ts : List Tok} (h : Toks R ls ts) : ∀ l ∈ ls, '\n' ∉ l := by
  induction h with
  | nil => simp
  | blank h _ ih =>
    intro l hl
    rcases List.mem_cons.1 hl with rfl | hl
    · exact blank_lf h
    · exact ih l hl
  | line h _ ih =>
    intro l hl
    rcases List.mem_cons.1 hl with rfl | hl
    · exact lineToks_lf h
    · exact ih l hl
  | folded hk _ _ _ hb _ _ ih =>
    intro l hl
    rcases List.mem_cons.1 hl with rfl | hl
    · simpa [List.mem_replicate] using scalarText_lf hk
    · rcases List.mem_append.1 hl with hl | hl
      · obtain ⟨t, _, ht⟩ := forall₂_left hb hl
        exact foldLine_lf ht
      · exact ih l hl

/-! ### Documents -/

/-- The writer writes a document with entries that take the struct from `s` to `s'`. -/
def Doc {σ : Type} (R : Resolver) (F : String → Option (Field σ)) (w w' : Writer) (s s' : σ) : Prop :=
  ∃ ls ts es, Puts w w' (feed ls) ∧ Toks R ls ts ∧ Entries 0 ts es ∧ decFields F es s = { val := s' } ∧ Known F es

theorem PToks.toks_nil {ls : List (List Char)} {ts : List Tok} (h : PToks R ls ts) : Toks R ls ts := by
  have := h.toks (b := []) .nil
  simpa using this

section
variable {σ : Type} {F : String → Option (Field σ)} {w w' w'' : Writer} {s s' s'' : σ} {p : Prop}

/-- What a fill at the left margin gives. -/
theorem Fill.out (h : Fill R F 0 w w' s s' p) (hz : w.zero = false) (hd : w.depth = 0) (hi : w.index = none) :
    ∃ ls ts es, Puts w w' (feed ls) ∧ PToks R ls ts ∧ Entries 0 ts es ∧ decFields F es s = { val := s' } ∧ Known F es ∧
      Same w w' ∧ w'.index = none := by
  obtain ⟨es, h1, h2, _, h4⟩ := h hz
  obtain ⟨ls, ts, o, hp, he⟩ := h1.out hd (by rw [hi]; simp)
  have hl : lead 0 w es = [] := by rw [lead, if_neg]; rw [hi]; simp
  rw [hl, List.nil_append] at hp
  refine ⟨ls, ts, es, o, hp, he, h2, h4, h1.same, ?_⟩
  have := h1.has
  rw [hi] at this
  simpa using this

theorem Fill.doc (h : Fill R F 0 w w' s s' p) (hz : w.zero = false) (hd : w.depth = 0) (hi : w.index = none) :
    Doc R F w w' s s' := by
  obtain ⟨ls, ts, es, o, hp, he, h2, h4, _⟩ := h.out hz hd hi
  exact ⟨ls, ts, es, o, hp.toks_nil, he, h2, h4⟩

end

/-- Entries at the left margin start there. -/
theorem outside_head {ls : List (List Char)} {ts : List Tok} {es : List (Yaml.Node × Yaml.Node)} (h : PToks R ls ts)
    (he : Entries 0 ts es) : ∀ l, ls.head? = some l → Outside 0 l := by
  intro l hl
  cases h with
  | nil => simp at hl
  | blank h _ =>
    simp only [List.head?_cons, Option.some.injEq] at hl
    subst hl
    exact .inl h
  | line h _ =>
    simp only [List.head?_cons, Option.some.injEq] at hl
    subst hl
    right
    cases h with
    | mk h =>
      cases h with
      | dash h => cases he
      | atom h => cases he
      | key h hf =>
        obtain ⟨x, u, rfl, hx⟩ := scalarText_head h
        cases he <;> exact ⟨0, x, u ++ [':'], le_refl _, hx.1, rfl⟩
      | @entry _ _ _ t _ h hf ha =>
        obtain ⟨x, u, rfl, hx⟩ := scalarText_head h
        cases he; exact ⟨0, x, u ++ ':' :: ' ' :: t, le_refl _, hx.1, rfl⟩

/-! ### Data of secrets -/

/-- The byte of an ASCII character. -/
def byteOf (c : Char) : UInt8 := c.toNat.toUInt8

theorem char_ascii {c : Char} (h : c.toNat ≤ 0x7f) : String.utf8EncodeChar c = [byteOf c] := by
  have h' : c.val.toNat ≤ 127 := h
  unfold String.utf8EncodeChar
  dsimp only
  rw [if_pos h']
  rfl

theorem utf8L_ascii {l : List Char} (h : ∀ c ∈ l, c.toNat ≤ 0x7f) : utf8L l = l.map byteOf := by
  induction l with
  | nil => rfl
  | cons c l ih =>
    rw [List.map_cons, ← ih fun x hx => h x (List.mem_cons_of_mem _ hx)]
    show String.utf8EncodeChar c ++ _ = _
    rw [char_ascii (h c List.mem_cons_self)]
    rfl

theorem byteOf_inj {c d : Char} (hc : c.toNat ≤ 0x7f) (hd : d.toNat ≤ 0x7f) (h : byteOf c = byteOf d) : c = d := by
  have : c.toNat = d.toNat := by
    have := congrArg UInt8.toNat h
    simp only [byteOf, Nat.toUInt8, UInt8.toNat_ofNat'] at this
    omega
  exact Char.ext (UInt32.toNat_inj.1 this)

theorem stripSpace_ascii {l : List Char} (h : ∀ c ∈ l, c.toNat ≤ 0x7f) :
    stripSpace (utf8L l) = utf8L (l.filter fun c => c ≠ ' ' ∧ c ≠ '\n') := by
  rw [utf8L_ascii h, utf8L_ascii fun c hc => h c (List.mem_of_mem_filter hc), stripSpace, List.filter_map]
  congr 1
  apply List.filter_congr
  intro c hc
  have e1 : byteOf c = 32 ↔ c = ' ' :=
    ⟨fun e => byteOf_inj (h c hc) (by decide) (e.trans (by decide)), fun e => by subst e; decide⟩
  have e2 : byteOf c = 10 ↔ c = '\n' :=
    ⟨fun e => byteOf_inj (h c hc) (by decide) (e.trans (by decide)), fun e => by subst e; decide⟩
  simp [e1, e2]

theorem chunkLoop_ascii (n fuel : Nat) {l : List Char} (h : ∀ c ∈ l, c.toNat ≤ 0x7f) :
    chunkLoop n fuel (utf8L l) = (pieces n fuel l).map utf8L := by
  induction fuel generalizing l with
  | zero => rfl
  | succ fuel ih =>
    have h1 : ∀ c ∈ l.take n, c.toNat ≤ 0x7f := fun c hc => h c (List.mem_of_mem_take hc)
    have h2 : ∀ c ∈ l.drop n, c.toNat ≤ 0x7f := fun c hc => h c (List.mem_of_mem_drop hc)
    have e1 : (utf8L l).take n = utf8L (l.take n) := by rw [utf8L_ascii h, utf8L_ascii h1, List.map_take]
    have e2 : (utf8L l).drop n = utf8L (l.drop n) := by rw [utf8L_ascii h, utf8L_ascii h2, List.map_drop]
    have e3 : (utf8L l).length = l.length := by rw [utf8L_ascii h, List.length_map]
    simp only [chunkLoop, pieces, e1, e2, e3, ih h2, List.length_eq_zero_iff]
    split <;> rfl

theorem pieces_nil {n fuel : Nat} {l : List Char} : pieces n (fuel + 1) l = [] ↔ l = [] := by
  unfold pieces
  split <;> simp_all

theorem pieces_mem {n fuel : Nat} (hn : 0 < n) {l t : List Char} (h : t ∈ pieces n fuel l) :
    t ≠ [] ∧ ∀ c ∈ t, c ∈ l := by
  induction fuel generalizing l with
  | zero => simp [pieces] at h
  | succ fuel ih =>
    unfold pieces at h
    split at h
    · simp at h
    · rename_i hl
      rcases List.mem_cons.1 h with rfl | h
      · refine ⟨?_, fun c hc => List.mem_of_mem_take hc⟩
        cases l with
        | nil => exact absurd rfl hl
        | cons a l => cases n with
          | zero => omega
          | succ n => simp
      · obtain ⟨h1, h2⟩ := ih h
        exact ⟨h1, fun c hc => List.mem_of_mem_drop (h2 c hc)⟩

theorem printChunks_puts {w : Writer} (hd : w.depth = 1) (ps : List (List Char)) :
    Puts w (printChunks w (ps.map utf8L)) (feed (ps.map ([' ', ' '] ++ ·))) ∧ Same w (printChunks w (ps.map utf8L)) ∧
      (printChunks w (ps.map utf8L)).index = w.index := by
  induction ps generalizing w with
  | nil => exact ⟨Puts.refl w, .refl w, rfl⟩
  | cons p ps ih =>
    simp only [List.map_cons, printChunks]
    obtain ⟨h1, h2, h3⟩ := ih (w := (w.str "\n").indent.bytes (utf8L p)) hd
    refine ⟨?_, ?_, ?_⟩
    · have e : Puts w ((w.str "\n").indent.bytes (utf8L p)) ('\n' :: ' ' :: ' ' :: p) := by
        have a := (puts_str w "\n").trans (puts_indent (w := w.str "\n") (d := 1) hd)
        have b : Puts (w.str "\n").indent ((w.str "\n").indent.bytes (utf8L p)) p := rfl
        exact a.trans b
      rw [feed_cons]
      exact e.trans h1
    · exact Same.trans (b := (w.str "\n").indent.bytes (utf8L p)) ⟨rfl, rfl⟩ h2
    · exact h3

/-- Text of a secret that survives: ASCII without control characters other than line feeds; if
there is any, some of it is not blank. -/
structure Spec.DataOk (d : String) : Prop where
  ascii : ∀ c ∈ d.toList, c = ' ' ∨ c = '\n' ∨ (0x21 ≤ c.toNat ∧ c.toNat ≤ 0x7e)
  text : d ≠ "" → ∃ c ∈ d.toList, c ≠ ' ' ∧ c ≠ '\n'

/-- The lines of the data are one entry. -/
theorem data_folded (L : PrettyLib) {w w' : Writer} {d : String} (h : DataOk d) (hd : d ≠ "") (hw : w.depth = 0)
    (hi : w.index = none) (hw' : printData L w d = w') :
    ∃ body, Puts w w' (feed body) ∧ (∀ rest ts, (∀ l, rest.head? = some l → Outside 0 l) → Toks R rest ts →
      Toks R (body ++ rest) (.key 0 (strNode R "data") (some (.scalar (keptData d) .str)) :: ts)) ∧ Same w w' ∧
      w'.index = none := by
  subst hw'
  have ha : ∀ c ∈ d.toList, c.toNat ≤ 0x7f := by
    intro c hc
    rcases h.ascii c hc with rfl | rfl | h
    · decide
    · decide
    · omega
  have hk := wk (R := R) L "data"
  set t := d.toList.filter fun c => c ≠ ' ' ∧ c ≠ '\n' with ht
  have htne : t ≠ [] := by
    obtain ⟨c, hc, h1, h2⟩ := h.text hd
    intro e
    have : c ∈ t := by rw [ht, List.mem_filter]; exact ⟨hc, by simp [h1, h2]⟩
    rw [e] at this
    simp at this
  have hta : ∀ c ∈ t, 0x21 ≤ c.toNat ∧ c.toNat ≤ 0x7e := by
    intro c hc
    rw [ht, List.mem_filter] at hc
    have h2 : c ≠ ' ' ∧ c ≠ '\n' := by simpa using hc.2
    rcases h.ascii c hc.1 with h3 | h3 | h3
    · exact absurd h3 h2.1
    · exact absurd h3 h2.2
    · exact h3
  have hta' : ∀ c ∈ t, c.toNat ≤ 0x7f := fun c hc => by have := hta c hc; omega
  set ps := pieces 60 t.length t with hps
  have hchunk : chunk (stripSpace (utf8 d)) 60 = ps.map utf8L := by
    rw [utf8_eq, stripSpace_ascii ha, ← ht, chunk]
    have hl : (utf8L t).length = t.length := by rw [utf8L_ascii hta', List.length_map]
    rw [if_neg (by rw [hl]; simpa using htne), hl, chunkLoop_ascii 60 _ hta']
  have hpne : ps ≠ [] := by
    rw [hps]
    obtain ⟨n, hn⟩ : ∃ n, t.length = n + 1 := Nat.exists_eq_succ_of_ne_zero (by simpa using htne)
    rw [hn, ne_eq, pieces_nil]
    exact htne
  have hkept : keptData d = String.ofList (foldText ps) := by
    unfold keptData foldText
    dsimp only
    rw [← ht, if_neg htne]
  obtain ⟨p1, p2, p3⟩ := printChunks_puts (w := (((writeTag L w "data").str " ").str ">").inc)
    (by show (writeTag L w "data").depth + 1 = 1; rw [(writeTag_same L w "data").depth, hw]; rfl) ps
  have hx : w.index = some 0 → 1 ≤ 0 := by rw [hi]; simp
  refine ⟨(List.replicate 0 ' ' ++ (encode L "data").toList ++ [':', ' ', '>']) :: ps.map ([' ', ' '] ++ ·), ?_, ?_, ?_, ?_⟩
  · have a := ((writeTag_puts L (d := 0) hw hx "data").trans (puts_str _ " ")).trans (puts_str _ ">")
    have b := a.trans (b := ((writeTag L w "data").str " ").str ">") p1
    rw [feed_cons]
    unfold printData
    dsimp only
    rw [hchunk]
    refine cast ?_ b
    unfold Puts pfx
    rw [if_neg (by rw [hi]; simp)]
    simp [Writer.dec]
  · intro rest ts ho hts
    rw [hkept]
    refine .folded (d := 2) (strNode_text' L hk.toReadable) (key_form L hk) (by decide) (by simpa using hpne) ?_ ho hts
    rw [List.forall₂_map_left_iff]
    refine List.forall₂_same.2 fun x hxm => ?_
    obtain ⟨h1, h2⟩ := pieces_mem (by decide) hxm
    exact ⟨rfl, h1, fun c hc => hta c (h2 c hc)⟩
  · unfold printData
    dsimp only
    rw [hchunk]
    have e1 := p2.depth
    have e2 := p2.zero
    have t1 := writeTag_same L w "data"
    refine ⟨?_, ?_⟩
    · show (printChunks _ (ps.map utf8L)).depth - 1 = w.depth
      rw [e1]
      show (writeTag L w "data").depth + 1 - 1 = _
      rw [t1.depth]; omega
    · show (printChunks _ (ps.map utf8L)).zero = w.zero
      rw [e2]
      exact t1.zero
  · unfold printData
    dsimp only
    rw [hchunk]
    show (printChunks _ (ps.map utf8L)).index = none
    rw [p3]
    show (writeTag L w "data").index = none
    rw [writeTag_index, hi]; rfl

/-- A secret that survives. -/
structure Spec.SecretOk (R : Resolver) (s : Secret) : Prop where
  version : Readable R s.version
  kind : Readable R s.kind
  type : Readable R s.type
  name : Readable R s.name
  data : DataOk s.data
  path : Readable R s.get.path
  getName : Readable R s.get.name
  key : Readable R s.get.key

theorem get_fill (L : PrettyLib) {s : Secret} {w : Writer} {g : SecretGet} (h1 : Readable R g.path)
    (h2 : Readable R g.name) (h3 : Readable R g.key) (hg : s.get = {}) :
    Fill R secretField 0 w (printGet L w g) s { s with get := g } True := by
  obtain ⟨path, name, key⟩ := g
  dsimp only at *
  have k := ((str_fill (d := 0 + 1) (s := ({} : SecretGet))
      (F := fun k => List.lookup k
        [ ("path", field SecretGet.path (fun s v => { s with path := v }) decString),
          ("name", field SecretGet.name (fun s v => { s with name := v }) decString),
          ("key", field SecretGet.key (fun s v => { s with key := v }) decString) ])
      (w := (writeTag L w "get").inc) L (wk (R := R) L "path") rfl h1 (fun h => by subst h; rfl)).trans
    (str_fill L (wk (R := R) L "name") rfl h2 (fun h => by subst h; rfl))).trans
    (str_fill L (wk (R := R) L "key") rfl h3 (fun h => by subst h; rfl))
  exact block_fill L (F := secretField) (wk (R := R) L "get") rfl k hg

/-- What comes after the data. -/
theorem secret_rest (L : PrettyLib) {s : Secret} {w : Writer} {g : SecretGet} {n : String} (hn : Readable R n)
    (h1 : Readable R g.path) (h2 : Readable R g.name) (h3 : Readable R g.key) (hg : s.get = {}) (hs : n = "" → s.name = "") :
    ∃ p, Fill R secretField 0 w
      (((if isSecretGetEmpty g = false then printGet L ((tagStr L w "name" n).str "\n") g else w).str "\n").str "\n") s
      { s with name := if g = {} then s.name else n, get := g } p := by
  have e : isSecretGetEmpty g = false ↔ g ≠ {} := by
    cases g
    simp [isSecretGetEmpty]
    tauto
  by_cases h : g = {}
  · refine ⟨False ∨ False, ?_⟩
    rw [if_neg (fun x => e.1 x h), if_pos h]
    subst h
    have : ({ s with name := s.name, get := {} } : Secret) = s := by cases s; simp_all
    rw [this]
    exact (Fill.nl.trans Fill.nl)
  · refine ⟨(((n ≠ "" ∨ False) ∨ True) ∨ False) ∨ False, ?_⟩
    rw [if_pos (e.2 h), if_neg h]
    have k1 := (str_fill (d := 0) (F := secretField) (w := w) (s := s) L (wk (R := R) L "name") rfl hn
      (fun h => by subst h; have := hs rfl; cases s; simp_all)).trans Fill.nl
    have k2 := k1.trans (get_fill L h1 h2 h3 (s := { s with name := n }) hg)
    exact (k2.trans Fill.nl).trans Fill.nl

theorem secret_doc (L : PrettyLib) {s : Secret} (h : SecretOk R s) :
    Doc R secretField (Writer.str {} "---") (printSecret L {} s) {} (keptSecret s) := by
  obtain ⟨version, kind, type, name, data, g⟩ := s
  obtain ⟨a1, a2, a3, a4, a5, a6, a7, a8⟩ := h
  dsimp only at *
  have k1 := ((str_fill (d := 0) (F := secretField) (w := Writer.str {} "---") (s := {}) L (wk (R := R) L "version") rfl a1 (fun h => by subst h; rfl)).trans
    (str_fill L (wk (R := R) L "kind") rfl a2 (fun h => by subst h; rfl))).trans
    (str_fill L (wk (R := R) L "type") rfl a3 (fun h => by subst h; rfl))
  unfold printSecret
  dsimp only
  by_cases hd : data = ""
  · subst hd
    simp only [show ¬ ("".length > 0) by decide, if_false]
    obtain ⟨p, k2⟩ := secret_rest L (s := { version, kind, type }) (w := tagStr L (tagStr L (tagStr L (Writer.str {} "---") "version" version) "kind" kind) "type" type)
      a4 a6 a7 a8 rfl (fun _ => rfl)
    have := (k1.trans k2).doc rfl rfl rfl
    refine cast ?_ this
    congr 1
    simp [keptSecret, keptData]
  · have hl : data.length > 0 := Nat.pos_of_ne_zero fun e => hd (String.length_eq_zero_iff.1 e)
    simp only [hl, if_true]
    have k2 := k1.trans (str_fill L (wk (R := R) L "name") rfl a4 (fun h => by subst h; rfl))
    obtain ⟨ls, ts, es, o1, t1, e1, d1, n1, m1, i1⟩ := k2.out rfl rfl rfl
    generalize hw2 : tagStr L (tagStr L (tagStr L (tagStr L (Writer.str {} "---") "version" version) "kind" kind) "type" type)
      "name" name = w2 at *
    obtain ⟨body, o2, t2, m2, i2⟩ := data_folded (R := R) L a5 hd (by rw [m1.depth]; rfl) i1 rfl
    obtain ⟨p, k3⟩ := secret_rest L (s := { version, kind, type, name, data := keptData data }) (w := printData L w2 data)
      a4 a6 a7 a8 rfl (fun e => e)
    obtain ⟨ls', ts', es', o3, t3, e3, d3, n3, _, _⟩ := k3.out (by rw [m2.zero, m1.zero]; rfl)
      (by rw [m2.depth, m1.depth]; rfl) i2
    refine ⟨ls ++ (body ++ ls'), ts ++ (.key 0 (strNode R "data") (some (.scalar (keptData data) .str)) :: ts'),
      es ++ ((strNode R "data", .scalar (keptData data) .str) :: es'), ?_, ?_, ?_, ?_, ?_⟩
    · rw [feed_append, feed_append]
      exact o1.trans (o2.trans o3)
    · exact t1.toks (t2 _ _ (outside_head t3 e3) t3.toks_nil)
    · exact entries_append e1 (.inline e3)
    · rw [decFields_append _ _ _ d1]
      have : decFields secretField [(strNode R "data", Yaml.Node.scalar (keptData data) .str)]
          { version, kind, type, name } = { val := { version, kind, type, name, data := keptData data } } := by
        simp only [decFields, strNode_dec (wk (R := R) L "data").toReadable, if_true]
        rfl
      have := decFields_append secretField _ es' this
      rw [List.singleton_append] at this
      rw [this, d3]
      simp [keptSecret, hd]
    · intro e he
      rcases List.mem_append.1 he with he | he
      · exact n1 e he
      · rcases List.mem_cons.1 he with rfl | he
        · exact ⟨"data", strNode_text (wk (R := R) L "data").toReadable, rfl⟩
        · exact n3 e he

end Drone
