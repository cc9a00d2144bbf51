/-
C97, C98: there is a library whose texts are read back, so that what `C97_encode_partial` and
`C98_axis` ask of the library can be met for all manifests.
-/
import Verif.Proof.BlockText
import Verif.Props.Resolved

namespace Drone
open Spec Yaml Pretty

variable {R : Resolver} {L : PrettyLib}

/-! ### Bytes -/

theorem utf8_first {c : Char} {b : UInt8} {r : Bytes} (h : String.utf8EncodeChar c = b :: r) (hb : b.toNat < 0x80) :
    c.toNat = b.toNat ∧ r = [] := by
  have h1 := utf8EncodeChar_low hb (by rw [h]; exact List.mem_cons_self)
  refine ⟨h1, ?_⟩
  have hl := congrArg List.length h
  rw [String.length_utf8EncodeChar] at hl
  have : c.utf8Size = 1 := by
    rw [Char.utf8Size_eq_one_iff]
    rw [UInt32.le_iff_toNat_le]
    show c.toNat ≤ _
    rw [h1]
    have : (127 : UInt32).toNat = 127 := rfl
    omega
  rw [this] at hl
  simp only [List.length_cons] at hl
  exact List.length_eq_zero_iff.1 (by omega)

/-- A character of one byte at the start. -/
theorem utf8L_head {l : List Char} {b : UInt8} {r : Bytes} (h : utf8L l = b :: r) (hb : b.toNat < 0x80) :
    ∃ c t, l = c :: t ∧ c.toNat = b.toNat ∧ utf8L t = r := by
  cases l with
  | nil => simp [utf8L] at h
  | cons c t =>
    have h1 : String.utf8EncodeChar c ++ utf8L t = b :: r := h
    cases hc : String.utf8EncodeChar c with
    | nil =>
      have := congrArg List.length hc
      rw [String.length_utf8EncodeChar] at this
      have := Char.utf8Size_pos c
      simp at *
    | cons x y =>
      rw [hc, List.cons_append, List.cons.injEq] at h1
      obtain ⟨rfl, h2⟩ := h1
      obtain ⟨h3, rfl⟩ := utf8_first hc hb
      exact ⟨c, t, rfl, h3, h2⟩

theorem utf8L_three {l : List Char} {b : UInt8} {r : Bytes} (hb : b.toNat < 0x80) (h : utf8L l = [b, b, b] ++ r) (d : Char)
    (hd : d.toNat = b.toNat) : [d, d, d] <+: l := by
  obtain ⟨c1, t1, rfl, e1, h1⟩ := utf8L_head h hb
  obtain ⟨c2, t2, rfl, e2, h2⟩ := utf8L_head h1 hb
  obtain ⟨c3, t3, rfl, e3, _⟩ := utf8L_head h2 hb
  rw [char_eq_of_toNat (e1.trans hd.symm), char_eq_of_toNat (e2.trans hd.symm), char_eq_of_toNat (e3.trans hd.symm)]
  exact ⟨t3, rfl⟩

theorem markerFree_good {l : List Char} (h : MarkerFree l) (hl : (utf8L l).length < 65536) : GoodLine (utf8L l) := by
  refine ⟨utf8L_lf h.1, hl, ?_, ?_, ?_⟩
  · intro he
    have hm := List.mem_of_getLast? he
    obtain ⟨c, hc, hb⟩ := List.mem_flatMap.1 hm
    have := utf8EncodeChar_low (by decide) hb
    have e : c = '\r' := char_eq_of_toNat this
    exact h.2.2.2 (e ▸ hc)
  · rintro ⟨r, hr⟩
    exact h.2.1 (utf8L_three (by decide) hr '-' (by decide))
  · rintro ⟨r, hr⟩
    exact h.2.2.1 (utf8L_three (by decide) hr '.' (by decide))

theorem utf8L_lines (ls : List (Nat × List Char)) :
    utf8L (ls.flatMap fun l => lineText l ++ ['\n']) = unlines (ls.map fun l => utf8L (lineText l)) := by
  induction ls with
  | nil => rfl
  | cons l ls ih =>
    rw [List.flatMap_cons, List.map_cons, utf8L_append, utf8L_append, ih, unlines_cons]
    rfl

/-- All lines are shorter than the longest line that is read. -/
def Spec.ShortText (print : Char → Bool) (n : Yaml.Node) : Prop :=
  ∀ l ∈ nodeLines print 0 n, (utf8L (lineText l)).length < 65536

/-- A tree that can be written is read back. -/
theorem written_blockText {tree : Bytes → Except String Yaml.Node} (ht : Parses R tree) {n : Yaml.Node}
    (h : Writable R L.isPrint n) (hl : ShortText L.isPrint n) :
    Written tree (fun n => utf8 (blockText L.isPrint n)) n := by
  refine ⟨⟨(nodeLines L.isPrint 0 n).map fun l => utf8L (lineText l), ?_, ?_, ?_⟩, ht _ _ (blockText_reads R L h)⟩
  · obtain ⟨t, ls, e⟩ := nodeLines_head L.isPrint 0 n
    rw [e]
    simp
  · show utf8 _ = _
    rw [utf8_eq, blockText, String.toList_ofList, utf8L_lines]
  · intro l hm
    obtain ⟨x, hx, rfl⟩ := List.mem_map.1 hm
    exact markerFree_good (line_markerFree (node_markerFree 0 h x hx)) (hl x hx)

/-! ### Which manifests -/

/-- The texts of the library for numbers of type `float64` are read as the numbers. -/
def Spec.FloatTexts (R : Resolver) (float : Rat → String) : Prop :=
  ∀ q : Rat, ScalarOk R (float q) (if q.den = 1 ∧ q.num.natAbs < 1000000 then .int q.num else .float q)

/-- A key that can be written on a line: no list, no map, not the merge key, and not too long. -/
def Spec.ShortKey (print : Char → Bool) : Yaml.Node → Prop
  | .null => True
  | .scalar t r => (inlineText print (.scalar t r)).length ≤ 1024 ∧ (r ≠ .str → t ≠ "<<")
  | _ => False

/-- All keys of a tree can be written. -/
inductive Spec.ShortKeys (print : Char → Bool) : Yaml.Node → Prop
  | null : ShortKeys print .null
  | scalar {t r} : ShortKeys print (.scalar t r)
  | seq {xs} : (∀ x ∈ xs, ShortKeys print x) → ShortKeys print (.seq xs)
  | map {kvs} : (∀ kv ∈ kvs, ShortKey print kv.1) → (∀ kv ∈ kvs, ShortKeys print kv.2) → ShortKeys print (.map kvs)

/-- Whole numbers have 64 bits. -/
def Spec.IntsFit (_ : String) : Scalar → Prop
  | .int i => Fits64 i
  | _ => True

theorem int_scalarOk (R : Resolver) {i : Int} (h : Fits64 i) : ScalarOk R (toString i) (.int i) := by
  refine ⟨toString_int_plain i, R.plain_int i h.1 h.2, ?_, ?_⟩
  · rintro ⟨r, hr⟩
    have hs : ∀ j, toString i = Nat.repr j → False := by
      intro j e
      have hd : '-' ∈ (Nat.repr j).toList := by
        rw [← e, ← hr]
        simp
      unfold Nat.repr at hd
      rw [String.toList_ofList] at hd
      exact absurd (Nat.isDigit_of_mem_toDigits (by decide) (by decide) hd) (by decide)
    cases i with
    | ofNat m => exact hs m rfl
    | negSucc m =>
      have e : (toString (Int.negSucc m)).toList = '-' :: (Nat.repr (m + 1)).toList := by
        show ("-" ++ (Nat.repr (m + 1))).toList = _
        rw [String.toList_append]; rfl
      rw [e] at hr
      simp only [List.cons_append, List.cons.injEq, true_and] at hr
      have hd : '-' ∈ (Nat.repr (m + 1)).toList := by
        rw [← hr]
        simp
      unfold Nat.repr at hd
      rw [String.toList_ofList] at hd
      exact absurd (Nat.isDigit_of_mem_toDigits (by decide) (by decide) hd) (by decide)
  · rintro ⟨r, hr⟩
    have := toString_int_chars i
    rw [← hr] at this
    simp at this

theorem bool_scalarOk (R : Resolver) (b : Bool) : ScalarOk R (if b then "true" else "false") (.bool b) := by
  cases b
  · refine ⟨⟨?_, ⟨'f', "alse".toList, by decide, by decide, by decide, fun h => absurd h (by decide)⟩, by decide, by decide, by decide⟩,
      R.plain_false, by decide, by decide⟩
    unfold Unescaped; decide
  · refine ⟨⟨?_, ⟨'t', "rue".toList, by decide, by decide, by decide, fun h => absurd h (by decide)⟩, by decide, by decide, by decide⟩,
      R.plain_true, by decide, by decide⟩
    unfold Unescaped; decide

theorem scalarOk_of {float : Rat → String} (hf : FloatTexts R float) {t : String} {r : Scalar} (h : StandsFor R float t r)
    (hi : IntsFit t r) : ScalarOk R t r := by
  cases r with
  | str => trivial
  | bool b =>
    obtain ⟨rfl, _⟩ := h
    exact bool_scalarOk R b
  | int i =>
    rcases h with ⟨rfl, _⟩ | ⟨rfl, h⟩
    · exact int_scalarOk R hi
    · have := hf i
      rwa [if_pos ⟨Rat.den_intCast i, by rw [Rat.num_intCast]; exact h⟩, Rat.num_intCast] at this
  | float q =>
    obtain ⟨rfl, h⟩ := h
    have := hf q
    rwa [if_neg h] at this

theorem keyOk_of {k : Yaml.Node} (hs : AllScalars (ScalarOk R) k) (h : ShortKey L.isPrint k) : KeyOk R L.isPrint k := by
  cases k with
  | null => trivial
  | scalar t r =>
    cases hs with
    | scalar hs =>
      refine ⟨hs, h.1, ?_⟩
      cases r with
      | str => simp [inlineText, Script.quote]
      | _ =>
        intro e
        simp only [inlineText] at e
        exact h.2 (by simp) (by rw [← String.ofList_toList (s := t), e])
  | seq => exact h.elim
  | map => exact h.elim

mutual
theorem writable_of : ∀ {n : Yaml.Node}, AllScalars (ScalarOk R) n → ShortKeys L.isPrint n → Writable R L.isPrint n
  | .null, _, _ => by simp [Writable]
  | .scalar t r, hs, _ => by
    cases hs with
    | scalar h => simpa [Writable] using h
  | .seq xs, hs, hk => by
    cases hs with
    | seq hs =>
      cases hk with
      | seq hk =>
        rw [Writable]
        exact writable_list hs hk
  | .map kvs, hs, hk => by
    cases hs with
    | map h1 h2 =>
      cases hk with
      | map h3 h4 =>
        rw [Writable]
        exact writable_entries h1 h2 h3 h4
theorem writable_list : ∀ {xs : List Yaml.Node}, (∀ x ∈ xs, AllScalars (ScalarOk R) x) → (∀ x ∈ xs, ShortKeys L.isPrint x) →
    WritableList R L.isPrint xs
  | [], _, _ => by simp [WritableList]
  | x :: xs, h1, h2 => by
    rw [WritableList]
    exact ⟨writable_of (h1 x List.mem_cons_self) (h2 x List.mem_cons_self),
      writable_list (fun y hy => h1 y (List.mem_cons_of_mem _ hy)) fun y hy => h2 y (List.mem_cons_of_mem _ hy)⟩
theorem writable_entries : ∀ {kvs : List (Yaml.Node × Yaml.Node)}, (∀ kv ∈ kvs, AllScalars (ScalarOk R) kv.1) →
    (∀ kv ∈ kvs, AllScalars (ScalarOk R) kv.2) → (∀ kv ∈ kvs, ShortKey L.isPrint kv.1) →
    (∀ kv ∈ kvs, ShortKeys L.isPrint kv.2) → WritableEntries R L.isPrint kvs
  | [], _, _, _, _ => by simp [WritableEntries]
  | (k, v) :: xs, h1, h2, h3, h4 => by
    rw [WritableEntries]
    exact ⟨keyOk_of (h1 _ List.mem_cons_self) (h3 _ List.mem_cons_self),
      writable_of (h2 (k, v) List.mem_cons_self) (h4 (k, v) List.mem_cons_self),
      writable_entries (fun y hy => h1 y (List.mem_cons_of_mem _ hy)) (fun y hy => h2 y (List.mem_cons_of_mem _ hy))
        (fun y hy => h3 y (List.mem_cons_of_mem _ hy)) fun y hy => h4 y (List.mem_cons_of_mem _ hy)⟩
end

theorem allScalars_and {P Q S : String → Scalar → Prop} (hi : ∀ t r, P t r → Q t r → S t r) {n : Yaml.Node}
    (h : AllScalars P n) (h' : AllScalars Q n) : AllScalars S n := by
  induction h with
  | null => exact .null
  | scalar h =>
    cases h' with
    | scalar h' => exact .scalar (hi _ _ h h')
  | seq _ ih =>
    cases h' with
    | seq h' => exact .seq fun x hx => ih x hx (h' x hx)
  | map _ _ ih1 ih2 =>
    cases h' with
    | map h1 h2 => exact .map (fun x hx => ih1 x hx (h1 x hx)) fun x hx => ih2 x hx (h2 x hx)

/-- What is asked of a resource: its whole numbers have 64 bits, its keys are not too long and its
settings have no lists or maps as keys, and no line of the text is too long. -/
structure Spec.Modest (print : Char → Bool) (float : Rat → String) (r : Resource) : Prop where
  ints : AllScalars IntsFit (encResource float r)
  keys : ShortKeys print (encResource float r)
  short : ShortText print (encResource float r)

/-- C97.  For the library that writes `blockText`, and for all parsers that read block texts, the
documents of every modest resource are read back: this is what `C97_encode_partial` asks. -/
theorem C97_written (R : Resolver) (L : PrettyLib) {float : Rat → String} (hf : FloatTexts R float)
    {tree : Bytes → Except String Yaml.Node} (ht : Parses R tree) {r : Resource} (h : Modest L.isPrint float r) :
    Written tree (fun n => utf8 (blockText L.isPrint n)) (encResource float r) :=
  written_blockText ht (writable_of (allScalars_and (fun _ _ h1 h2 => scalarOk_of hf h1 h2) (C97_scalars R float r) h.ints)
    h.keys) h.short

/-! ### Numbers -/

/-- A text for all rational numbers. -/
def ratText (q : Rat) : String :=
  if q.den = 1 ∧ q.num.natAbs < 1000000 then toString q.num else toString q.num ++ "/" ++ toString q.den

theorem numeral_char {c : Char} (h : (c = '-' || c.isDigit) = true) : 0x2d ≤ c.toNat ∧ c.toNat ≤ 0x39 ∧ c ≠ '/' := by
  rw [Bool.or_eq_true, decide_eq_true_eq] at h
  rcases h with rfl | h
  · decide
  · simp only [Char.isDigit, Bool.and_eq_true, decide_eq_true_eq] at h
    have h1 : (48 : Nat) ≤ c.toNat := h.1
    have h2 : c.toNat ≤ 57 := h.2
    refine ⟨by omega, h2, ?_⟩
    rintro rfl
    exact absurd h1 (by decide)

theorem fraction_toList (a : Int) (b : Nat) :
    (toString a ++ "/" ++ toString b).toList = (toString a).toList ++ '/' :: (toString (b : Int)).toList := by
  rw [String.toList_append, String.toList_append, List.append_assoc]
  rfl

theorem numerals (i : Int) : ∀ c ∈ (toString i).toList, 0x2d ≤ c.toNat ∧ c.toNat ≤ 0x39 ∧ c ≠ '/' := fun c hc =>
  numeral_char (List.all_eq_true.1 (toString_int_chars i) c hc)

theorem fraction_chars (a : Int) (b : Nat) : ∀ c ∈ (toString a ++ "/" ++ toString b).toList, 0x2d ≤ c.toNat ∧ c.toNat ≤ 0x39 := by
  rw [fraction_toList]
  intro c hc
  rcases List.mem_append.1 hc with hc | hc
  · exact ⟨(numerals a c hc).1, (numerals a c hc).2.1⟩
  · rcases List.mem_cons.1 hc with rfl | hc
    · decide
    · exact ⟨(numerals b c hc).1, (numerals b c hc).2.1⟩

theorem fraction_inj {a a' : Int} {b b' : Nat} (h : toString a ++ "/" ++ toString b = toString a' ++ "/" ++ toString b') :
    a = a' ∧ b = b' := by
  have h1 := congrArg String.toList h
  rw [fraction_toList, fraction_toList] at h1
  have key : ∀ (x y u v : List Char), '/' ∉ x → '/' ∉ y → x ++ '/' :: u = y ++ '/' :: v → x = y ∧ u = v := by
    intro x
    induction x with
    | nil =>
      intro y u v _ hy e
      cases y with
      | nil => simpa using e
      | cons c y =>
        simp only [List.nil_append, List.cons_append, List.cons.injEq] at e
        exact absurd (e.1 ▸ List.mem_cons_self) hy
    | cons c x ih =>
      intro y u v hx hy e
      cases y with
      | nil =>
        simp only [List.nil_append, List.cons_append, List.cons.injEq] at e
        exact absurd (e.1 ▸ List.mem_cons_self) hx
      | cons d y =>
        simp only [List.cons_append, List.cons.injEq] at e
        obtain ⟨e1, e2⟩ := ih y u v (fun h => hx (by simp [h])) (fun h => hy (by simp [h])) e.2
        exact ⟨by rw [e.1, e1], e2⟩
  have no : ∀ i : Int, '/' ∉ (toString i).toList := fun i hc => (numerals i _ hc).2.2 rfl
  obtain ⟨e1, e2⟩ := key _ _ _ _ (no a) (no a') h1
  have inj : ∀ i j : Int, (toString i).toList = (toString j).toList → i = j := by
    intro i j e
    have h1 : (toString i).toInt? = some i := Int.toInt?_repr i
    have h2 : (toString j).toInt? = some j := Int.toInt?_repr j
    rw [String.toList_inj.1 e, h2] at h1
    exact (Option.some.inj h1).symm
  exact ⟨inj _ _ e1, by exact_mod_cast inj _ _ e2⟩

theorem fraction_plain (a : Int) (b : Nat) : PlainScalar (toString a ++ "/" ++ toString b).toList := by
  have hc := fraction_chars a b
  have no : ∀ d : Char, d.toNat < 0x2d ∨ 0x39 < d.toNat → d ∉ (toString a ++ "/" ++ toString b).toList := by
    intro d hd hm
    have := hc d hm
    omega
  refine ⟨fun c h => .inl ⟨by have := hc c h; omega, by have := hc c h; omega⟩, ?_, ⟨?_, ?_⟩, ?_, ?_⟩
  · obtain ⟨c, t, e, h1, h2, h3⟩ := (toString_int_plain a).first
    rw [fraction_toList, e]
    refine ⟨c, t ++ '/' :: (toString (b : Int)).toList, rfl, h1, h2, fun h => ?_⟩
    obtain ⟨d, u, rfl, hd⟩ := h3 h
    exact ⟨d, _, rfl, hd⟩
  · exact fun h => no ' ' (by decide) (List.mem_of_getLast? h)
  · exact fun h => no ':' (by decide) (List.mem_of_getLast? h)
  · exact fun h => no ':' (by decide) (h.subset (by simp))
  · exact fun h => no ' ' (by decide) (h.subset (by simp))

theorem fraction_marker (a : Int) (b : Nat) (d : Char) (hd : ¬ [d, d, d] <+: (toString a).toList)
    (ha : ∀ c t, (toString a).toList = c :: t → c = d → ∃ e u, t = e :: u ∧ e ≠ d) :
    ¬ [d, d, d] <+: (toString a ++ "/" ++ toString b).toList := by
  rw [fraction_toList]
  obtain ⟨c, t, e, _⟩ := (toString_int_plain a).first
  rw [e] at hd ⊢
  intro hp
  rw [List.cons_append, List.cons_prefix_cons] at hp
  obtain ⟨x, u, rfl, hx⟩ := ha c t e hp.1.symm
  have := hp.2
  rw [List.cons_append, List.cons_prefix_cons] at this
  exact hx this.1.symm

/-- The text is a fraction. -/
def IsFraction (s : String) (q : Rat) : Prop := s = toString q.num ++ "/" ++ toString q.den

open Classical in
/-- A resolver that also knows fractions. -/
noncomputable def fractionResolver : Resolver where
  plain s := if h : ∃ q, IsFraction s q then some (.float h.choose) else exResolver.plain s
  null_iff s := by
    by_cases h : ∃ q, IsFraction s q
    · rw [dif_pos h]
      refine iff_of_false (by simp) ?_
      obtain ⟨q, hq⟩ := h
      have : '/' ∈ s.toList := by
        rw [hq, fraction_toList]
        simp
      intro hm
      simp only [List.mem_cons, List.not_mem_nil, or_false] at hm
      rcases hm with rfl | rfl | rfl | rfl | rfl <;> exact absurd this (by decide)
    · rw [dif_neg h]
      exact exResolver.null_iff s
  plain_true := by
    rw [dif_neg]
    · exact exResolver.plain_true
    · rintro ⟨q, hq⟩
      have : '/' ∈ "true".toList := by
        rw [hq, fraction_toList]
        simp
      exact absurd this (by decide)
  plain_false := by
    rw [dif_neg]
    · exact exResolver.plain_false
    · rintro ⟨q, hq⟩
      have : '/' ∈ "false".toList := by
        rw [hq, fraction_toList]
        simp
      exact absurd this (by decide)
  plain_int i h1 h2 := by
    rw [dif_neg]
    · exact exResolver.plain_int i h1 h2
    · rintro ⟨q, hq⟩
      have : '/' ∈ (toString i).toList := by
        rw [hq, fraction_toList]
        simp
      exact (numerals i _ this).2.2 rfl

theorem second_digit (a : Int) (c : Char) (t : List Char) (h : (toString a).toList = c :: t) (hc : c = '-') :
    ∃ e u, t = e :: u ∧ e ≠ '-' := by
  have dig : ∀ (j : Nat) (x : Char), x ∈ (Nat.repr j).toList → x ≠ '-' := by
    intro j x hx
    unfold Nat.repr at hx
    rw [String.toList_ofList] at hx
    rintro rfl
    exact absurd (Nat.isDigit_of_mem_toDigits (by decide) (by decide) hx) (by decide)
  cases a with
  | ofNat m =>
    have e : toString (Int.ofNat m) = Nat.repr m := rfl
    rw [e] at h
    exact absurd hc (dig m c (by rw [h]; simp))
  | negSucc m =>
    have e : (toString (Int.negSucc m)).toList = '-' :: (Nat.repr (m + 1)).toList := by
      show ("-" ++ (Nat.repr (m + 1))).toList = _
      rw [String.toList_append]; rfl
    rw [e, List.cons.injEq] at h
    obtain ⟨_, rfl⟩ := h
    cases hn : (Nat.repr (m + 1)).toList with
    | nil =>
      unfold Nat.repr at hn
      rw [String.toList_ofList] at hn
      exact absurd hn Nat.toDigits_ne_nil
    | cons x u => exact ⟨x, u, rfl, dig (m + 1) x (by rw [hn]; simp)⟩

theorem ratText_texts : FloatTexts fractionResolver ratText := by
  intro q
  unfold ratText
  by_cases h : q.den = 1 ∧ q.num.natAbs < 1000000
  · rw [if_pos h, if_pos h]
    exact int_scalarOk _ ⟨by omega, by omega⟩
  · rw [if_neg h, if_neg h]
    refine ⟨fraction_plain _ _, ?_, ?_, ?_⟩
    · have he : ∃ r, IsFraction (toString q.num ++ "/" ++ toString q.den) r := ⟨q, rfl⟩
      unfold fractionResolver
      simp only
      rw [dif_pos he]
      have := he.choose_spec
      obtain ⟨e1, e2⟩ := fraction_inj this
      rw [show he.choose = q from (Rat.ext e1 e2).symm]
    · refine fraction_marker _ _ _ ?_ (second_digit q.num)
      rintro ⟨r, hr⟩
      obtain ⟨e, u, he, hne⟩ := second_digit q.num _ _ hr.symm rfl
      exact hne (by simpa using (List.cons.inj he).1.symm)
    · refine fraction_marker _ _ _ ?_ ?_
      · rintro ⟨r, hr⟩
        have := toString_int_chars q.num
        rw [← hr] at this
        simp at this
      · rintro c t e rfl
        have := toString_int_chars q.num
        rw [e] at this
        simp at this

theorem ratText_secret (q : Rat) : ratText q ≠ "from_secret" := by
  have no : ∀ s : String, (∀ c ∈ s.toList, 0x2d ≤ c.toNat ∧ c.toNat ≤ 0x39) → s ≠ "from_secret" := by
    rintro s h rfl
    exact absurd (h 'f' (by decide)).2 (by decide)
  unfold ratText
  split
  · exact no _ fun c hc => ⟨(numerals _ c hc).1, (numerals _ c hc).2.1⟩
  · exact no _ (fraction_chars _ _)

/-- C97.  There is a library with which every modest manifest is read back as `C97_encode_partial` says. -/
theorem C97_library (ram : String → Option Int) (L : PrettyLib) : ∃ (float : Rat → String)
    (tree : Bytes → Except String Yaml.Node) (emit : Yaml.Node → Bytes), ∀ m : Manifest,
      (∀ r ∈ m.resources, Modest L.isPrint float r ∧ Storable r ∧ OwnKind r) →
      parseBytes (treeLib ram tree) (encode float emit m) = .ok ⟨m.resources.map storedResource⟩ := by
  obtain ⟨tree, ht⟩ := parser_exists fractionResolver
  exact ⟨ratText, tree, fun n => utf8 (blockText L.isPrint n), fun m h =>
    C97_encode_partial ram ratText ratText_secret tree _ m (fun r hr => C97_written _ L ratText_texts ht (h r hr).1)
      (fun r hr => (h r hr).2.1) fun r hr => (h r hr).2.2⟩

end Drone
