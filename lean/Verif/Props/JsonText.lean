/- C126: manifests as JSON texts. -/
import Verif.Proof.JsonText
import Verif.Props.JsonShape

namespace Drone
open Json Spec Spec.JsonGrammar

/-! ### Reading -/

/-- C126.  The reader accepts the texts of the grammar and no others, and gives the tree that the
grammar assigns to the text. -/
theorem C126_read_iff (s : List Char) (t : Tree) : Json.parse s = some t ↔ IsText s t := ⟨parse_sound, parse_complete⟩

/-- C126.  No text stands for two trees. -/
theorem C126_unambiguous (s : List Char) (t t' : Tree) (h : IsText s t) (h' : IsText s t') : t = t' := by
  rw [← C126_read_iff] at h h'
  rw [h] at h'
  exact Option.some.inj h'

/-! ### Numbers that are written -/

namespace Json
open FloatText
open Units (width)

theorem ten_exact : ∀ k, k < 22 → F64.round ((10 : Rat) ^ (k : Nat)) = (10 : Rat) ^ (k : Nat) := by decide +kernel

theorem nine_tenths : F64.round (9 / 10) < 1 := by decide +kernel

/-- A whole number below 1e21 is written without decimal point. -/
theorem whole_point {n : Nat} (h0 : n ≠ 0) (h : n < 10 ^ 21) (hr : F64.round (n : Rat) = n) :
    0 < (shortest (n : Rat)).2 ∧ ((shortest (n : Rat)).1.length : Int) ≤ (shortest (n : Rat)).2 := by
  have hq : (0 : Rat) < n := by exact_mod_cast Nat.pos_of_ne_zero h0
  obtain ⟨hd, hh⟩ := shortest_digits hq
  have hv := value_range hd hh (shortest (n : Rat)).2
  have hs := shortest_round hq hr
  have hl := shortest_least hq hr h0 (e := 0) (by simpa using hr)
  obtain ⟨w1, w2⟩ := FloatText.width_spec h0
  have hpos := value_pos hq
  have hL : 0 < (shortest (n : Rat)).1.length := List.length_pos_iff.2 hd.1
  generalize hds : (shortest (n : Rat)).1 = ds at *
  generalize hdd : (shortest (n : Rat)).2 = d at *
  suffices hh : (ds.length : Int) ≤ d from ⟨by omega, hh⟩
  by_contra hlt
  push Not at hlt
  have hW : width n - 1 < 22 := by
    have : 10 ^ (width n - 1) < 10 ^ 21 := lt_of_le_of_lt w1 h
    have := (Nat.pow_lt_pow_iff_right (by norm_num : 1 < 10)).1 this
    omega
  have hdW : d ≤ ((width n - 1 : Nat) : Int) := by have := hl.1; omega
  have hle : FloatText.value ds d ≤ (10 : Rat) ^ (width n - 1) := by
    refine hv.2.le.trans ?_
    rw [← zpow_natCast]
    exact zpow_le_zpow_right₀ (by norm_num) hdW
  have h1 := round_mono hpos hle
  rw [hs, ten_exact _ hW] at h1
  have h2 : n = 10 ^ (width n - 1) := by
    refine le_antisymm ?_ w1
    exact_mod_cast h1
  have hl1 := (shortest_least hq hr (c := 1) (by decide) (e := ((width n - 1 : Nat) : Int)) (by
    rw [zpow_natCast, Nat.cast_one, one_mul, ten_exact _ hW]
    exact_mod_cast h2.symm)).1
  rw [hds, show width 1 = 1 from rfl] at hl1
  have hd0 : d ≤ 0 := by omega
  have h9 : FloatText.value ds d ≤ 9 / 10 := by
    unfold FloatText.value
    have e1 : ds.length = 1 := by omega
    have e2 := digits_lt hd.2
    rw [e1] at e2 ⊢
    have e3 : (digitsNumber ds : Rat) ≤ 9 := by exact_mod_cast (by omega : digitsNumber ds ≤ 9)
    have e4 : (10 : Rat) ^ (d - (1 : Nat)) ≤ 1 / 10 := by
      calc (10 : Rat) ^ (d - (1 : Nat)) ≤ (10 : Rat) ^ (-1 : Int) := zpow_le_zpow_right₀ (by norm_num) (by push_cast; omega)
        _ = 1 / 10 := by norm_num
    have e5 : (0 : Rat) < (10 : Rat) ^ (d - (1 : Nat)) := by positivity
    calc (digitsNumber ds : Rat) * (10 : Rat) ^ (d - (1 : Nat)) ≤ 9 * (10 : Rat) ^ (d - (1 : Nat)) :=
          mul_le_mul_of_nonneg_right e3 e5.le
      _ ≤ 9 * (1 / 10) := mul_le_mul_of_nonneg_left e4 (by norm_num)
      _ = 9 / 10 := by norm_num
  have h10 := round_mono hpos h9
  rw [hs] at h10
  have : (n : Rat) < 1 := lt_of_le_of_lt h10 nine_tenths
  have : n < 1 := by exact_mod_cast this
  omega

theorem dot_digit : ('.' : Char).isDigit = false := by decide

theorem no_dot_F {ds : List Char} (hd : AllDigits ds) {d : Int} (h0 : 0 < d) (h : (ds.length : Int) ≤ d) : '.' ∉ fmtF ds d := by
  unfold fmtF
  rw [if_neg (by omega), if_pos (by omega)]
  intro hc
  rcases List.mem_append.1 hc with hc | hc
  · have := hd.2 _ hc; rw [dot_digit] at this; cases this
  · have := zeros_digits _ _ hc; rw [dot_digit] at this; cases this

/-- Rounding an integer gives an integer. -/
theorem round_whole {n : Nat} (h0 : n ≠ 0) : ∃ m : Nat, F64.round (n : Rat) = m := by
  have hq : (0 : Rat) < n := by exact_mod_cast Nat.pos_of_ne_zero h0
  by_cases h : n < 2 ^ 53
  · exact ⟨n, Units.round_nat h0 h⟩
  · have ht := (F64.top_spec hq).2
    have h53 : (53 : Int) ≤ F64.top (n : Rat) := by
      by_contra hc
      push Not at hc
      have : F64.pow2 (F64.top (n : Rat) + 1) ≤ F64.pow2 53 := by
        rw [F64.pow2_eq, F64.pow2_eq]
        exact zpow_le_zpow_right₀ (by norm_num) (by omega)
      have h2 : F64.pow2 53 ≤ (n : Rat) := by
        rw [F64.pow2_eq]
        push Not at h
        exact_mod_cast h
      linarith
    have hl : 0 ≤ F64.last (n : Rat) := by unfold F64.last; omega
    unfold F64.round
    have hp := F64.pow2_pos (F64.last (n : Rat))
    obtain ⟨a, ha⟩ := Int.eq_ofNat_of_zero_le (Units.nearest_nonneg (div_nonneg hq.le hp.le) :
      0 ≤ F64.nearest ((n : Rat) / F64.pow2 (F64.last (n : Rat))))
    obtain ⟨b, hb⟩ := Int.eq_ofNat_of_zero_le hl
    refine ⟨a * 2 ^ b, ?_⟩
    rw [ha, F64.pow2_eq, hb]
    push_cast
    rw [zpow_natCast]

theorem whole_nat {q : Rat} (hq : 0 < q) (hd : q.den = 1) : ∃ n : Nat, n ≠ 0 ∧ q = n := by
  have h := Rat.coe_int_num_of_den_eq_one hd
  have hp : 0 < q.num := Rat.num_pos.2 hq
  obtain ⟨n, hn⟩ := Int.eq_ofNat_of_zero_le hp.le
  refine ⟨n, by omega, ?_⟩
  rw [← h, hn]
  rfl

theorem abs_den (q : Rat) : |q|.den = q.den := by
  rcases abs_choice q with h | h <;> rw [h]
  rfl

end Json
open FloatText in
/-- C126.  A number is written like an integer exactly if it is whole and less than 1e21. -/
theorem C126_whole_iff (q : Rat) (h : Float64 q) :
    ('.' ∉ (formatJson q).toList ∧ 'e' ∉ (formatJson q).toList) ↔ q.den = 1 ∧ |q| < 10 ^ 21 := by
  by_cases h0 : q = 0
  · subst h0
    exact ⟨fun _ => ⟨rfl, by norm_num⟩, fun _ => by decide +kernel⟩
  obtain ⟨ha, hr⟩ := isFloat_abs (isFloat_iff.2 h) h0
  constructor
  · rintro ⟨h1, h2⟩
    have he := (C123_json_exponent_iff q h).not.1 h2
    have hlt : |q| < 10 ^ 21 := by
      by_contra hc
      exact he ⟨h0, .inr (not_lt.1 hc)⟩
    refine ⟨?_, hlt⟩
    obtain ⟨v, hv1, -, hv2⟩ := C123_read q h
    obtain ⟨hv3, -⟩ := read_wholeOf hv2 h1 h2
    generalize wholeOf (formatJson q).toList = i at hv3
    rw [hv3] at hv1
    rw [← hv1]
    rcases lt_trichotomy i 0 with hi | rfl | hi
    · obtain ⟨n, hn⟩ := Int.eq_ofNat_of_zero_le (show 0 ≤ -i by omega)
      obtain rfl : i = -(n : Int) := by omega
      push_cast
      rw [toFloat_neg (by exact_mod_cast (by omega : 0 < n))]
      obtain ⟨m, hm⟩ := round_whole (n := n) (by omega)
      rw [hm]
      rfl
    · rfl
    · obtain ⟨n, rfl⟩ := Int.eq_ofNat_of_zero_le hi.le
      rw [Int.cast_natCast, toFloat_pos (by exact_mod_cast hi)]
      obtain ⟨m, hm⟩ := round_whole (n := n) (by omega)
      rw [hm]
      rfl
  · rintro ⟨h1, h2⟩
    rw [← abs_den] at h1
    obtain ⟨n, hn0, hn⟩ := whole_nat ha h1
    have he : 'e' ∉ (formatJson q).toList := by
      rw [C123_json_exponent_iff q h]
      rintro ⟨-, hc | hc⟩
      · have : toFloat64 (1 / 1000000) ≤ 1 := by decide +kernel
        have : (1 : Rat) ≤ n := by exact_mod_cast Nat.one_le_iff_ne_zero.2 hn0
        rw [hn] at hc
        linarith
      · linarith
    refine ⟨?_, he⟩
    rw [hn] at h2 hr
    obtain ⟨p1, p2⟩ := whole_point hn0 (by exact_mod_cast h2) hr
    have hq : (0 : Rat) < n := by rw [← hn]; exact ha
    rw [formatJson, signed_abs _ h0] at he ⊢
    rw [hn, unsignedJson_eq] at he ⊢
    rw [List.mem_append, not_or] at he
    obtain ⟨-, he⟩ := he
    rw [List.mem_append, not_or]
    refine ⟨by split_ifs <;> simp, ?_⟩
    split at he
    · exact absurd (by simp) he
    · rename_i hc
      rw [if_neg hc]
      exact no_dot_F (shortest_digits hq).1 p1 p2

/-! ### Writing -/

namespace Json
open FloatText

theorem codeUnit_escaped {n : Nat} (h : n < 65536) : CodeUnit (Encode.escaped n) n := by
  refine ⟨_, _, _, _, n / 4096 % 16, n / 256 % 16, n / 16 % 16, n % 16, rfl, ?_, ?_, ?_, ?_, by omega⟩ <;>
    exact hexValue_hexChar _ (Nat.mod_lt _ (by decide))

theorem chars_one (c : Char) {s v : List Char} (h : Chars s v) : Chars (Encode.jsonChar c ++ s) (c :: v) := by
  unfold Encode.jsonChar
  split_ifs with h1 h2 h3 h4 h5
  · rcases h1 with rfl | rfl <;> exact .short rfl h
  · subst h2; exact .short rfl h
  · subst h3; exact .short rfl h
  · subst h4; exact .short rfl h
  · refine .unit (codeUnit_escaped ?_) h
    rcases h5 with h5 | rfl | rfl | rfl | h5 | h5
    · omega
    · decide
    · decide
    · decide
    · omega
    · omega
  · rw [not_or] at h1 h5
    exact .plain h5.1 h1.1 h1.2 h

theorem chars_write (s : List Char) : Chars (s.flatMap Encode.jsonChar) s := by
  induction s with
  | nil => exact .nil
  | cons c s ih => rw [List.flatMap_cons]; exact chars_one c ih

theorem natural_digits (n : Nat) : Natural (Nat.toDigits 10 n) := by
  refine ⟨toDigits_allDigits n, fun h => ?_⟩
  by_cases hn : n = 0
  · subst hn; rfl
  · exact absurd h (FloatText.toDigits_head hn)

theorem number_int (i : Int) : Number (toString i).toList (.int i) := by
  rcases le_or_gt 0 i with h | h
  · obtain ⟨n, rfl⟩ := Int.eq_ofNat_of_zero_le h
    rw [(int_text n).1]
    have := Unsigned.int (sign := 1) (natural_digits n)
    rw [Units.decimal_toDigits, one_mul] at this
    exact .pos this
  · obtain ⟨n, hn'⟩ := Int.eq_ofNat_of_zero_le (show 0 ≤ -i by omega)
    obtain rfl : i = -(n : Int) := by omega
    rw [(int_text n).2 (by omega)]
    have := Unsigned.int (sign := -1) (natural_digits n)
    rw [Units.decimal_toDigits, neg_one_mul] at this
    exact .neg this

theorem exponent_of_read {r : List Char} {e : Int} (h : readExponent r = some e) : Exponent r e := by
  unfold readExponent at h
  split at h
  · cases h; exact .none
  · split at h
    · rename_i g; cases h; exact .minus (.inl rfl) g
    · cases h
  · split at h
    · rename_i g; cases h; exact .plus (.inl rfl) g
    · cases h
  · cases h

theorem unsigned_float {s : List Char} {v : Rat} (sign : Int) (h : isUnsigned s = true) (hv : readUnsigned s = some v)
    (hp : '.' ∈ s ∨ 'e' ∈ s) : Unsigned sign s (.float (toFloat64 (sign * v))) := by
  have hs := take_drop Char.isDigit s
  have hall := take_all Char.isDigit s
  unfold isUnsigned at h
  unfold readUnsigned at hv
  dsimp only at hv
  generalize s.takeWhile Char.isDigit = w at *
  generalize s.dropWhile Char.isDigit = r at *
  rw [Bool.and_eq_true] at h
  split at hv
  · cases hv
  · rename_i hne
    have hw : Natural w := by
      refine ⟨⟨hne, hall⟩, fun h0 => ?_⟩
      have := h.1
      unfold isWhole at this
      simp only [Bool.and_eq_true, Bool.or_eq_true, decide_eq_true_eq, bne_iff_ne, ne_eq] at this
      rcases this.2 with k | k
      · exact k
      · exact absurd h0 k
    have hr : r ≠ [] := by
      rintro rfl
      rw [List.append_nil] at hs
      subst hs
      rcases hp with k | k
      · have := hall _ k; revert this; decide
      · have := hall _ k; revert this; decide
    rw [← hs]
    split at hv
    · rename_i r'
      split at hv
      · cases hv
      · rename_i hf
        simp only [Option.map_eq_some_iff] at hv
        obtain ⟨e, he, rfl⟩ := hv
        have := Unsigned.float (sign := sign) hw (.some ⟨hf, take_all _ _⟩) (exponent_of_read he) (by simp)
        rwa [List.cons_append, take_drop] at this
    · simp only [Option.map_eq_some_iff] at hv
      obtain ⟨e, he, rfl⟩ := hv
      have := Unsigned.float (sign := sign) hw .none (exponent_of_read he) (by simpa using hr)
      simpa using this

theorem number_float {q : Rat} (h : Float64 q) (hp : '.' ∈ (formatJson q).toList ∨ 'e' ∈ (formatJson q).toList) :
    Number (formatJson q).toList (.float q) := by
  obtain ⟨v, h1, -, h2⟩ := C123_read q h
  have h3 := C123_number q
  generalize (formatJson q).toList = s at *
  unfold isNumber at h3
  unfold readNumber at h2
  split at h3
  · rename_i r
    simp only [Option.map_eq_some_iff] at h2
    obtain ⟨w, h2, rfl⟩ := h2
    have := unsigned_float (-1) h3 h2 (by simpa using hp)
    rw [show ((-1 : Int) : Rat) * w = -w by simp, h1] at this
    exact .neg this
  · rename_i hn
    split at h2
    · exact absurd rfl (hn _)
    · have := unsigned_float 1 h3 h2 hp
      rw [Int.cast_one, one_mul, h1] at this
      exact .pos this

theorem text_float {q : Rat} (h : Doubles (.float q)) : Text (formatJson q).toList (.float q) := by
  rw [Doubles] at h
  refine .num (number_float h.1 ?_)
  by_contra hc
  rw [not_or] at hc
  exact h.2 ((C126_whole_iff q h.1).1 hc)

theorem text_bool (b : Bool) : Text (if b then "true".toList else "false".toList) (.bool b) := by
  cases b
  · exact .false
  · exact .true

theorem text_str (s : String) : Text (Encode.jsonString s.toList) (.str s) := by
  have := Text.str (chars_write s.toList)
  rwa [String.ofList_toList] at this

theorem items_one {s : List Char} {t : Tree} (h : Text s t) : Items s [t] := by
  simpa using JsonGrammar.Items.one blank_nil h blank_nil

theorem members_one {k : String} {s : List Char} {t : Tree} {c : List Char} (hc : Blank c) (h : Text s t) :
    Members (Encode.jsonString k.toList ++ ':' :: (c ++ s)) [(k, t)] := by
  have := Members.one blank_nil (chars_write k.toList) blank_nil hc h blank_nil
  rw [String.ofList_toList] at this
  simpa [Encode.jsonString] using this

mutual
theorem text_write : ∀ (t : Tree), Doubles t → Text (write t) t
  | .null, _ => .null
  | .bool b, _ => text_bool b
  | .int i, _ => .num (number_int i)
  | .float q, h => text_float h
  | .str s, _ => text_str s
  | .arr xs, h => by
    rw [Doubles] at h
    cases xs with
    | nil => exact .noItems (b := []) blank_nil
    | cons t ts => exact .arr (items_write (t :: ts) (by simp) h)
  | .obj kvs, h => by
    rw [Doubles] at h
    cases kvs with
    | nil => exact .noMembers (b := []) blank_nil
    | cons t ts => exact .obj (members_write (t :: ts) (by simp) h)
theorem items_write : ∀ (ts : List Tree), ts ≠ [] → DoublesList ts → Items (Encode.commas (writes ts)) ts
  | [], hne, _ => absurd rfl hne
  | t :: ts, _, h => by
    rw [DoublesList] at h
    have h1 := text_write t h.1
    have h2 := items_write ts
    cases ts with
    | nil => exact items_one h1
    | cons u us => exact JsonGrammar.Items.cons blank_nil h1 blank_nil (h2 (by simp) h.2)
theorem members_write : ∀ (kvs : List (String × Tree)), kvs ≠ [] → DoublesEntries kvs →
    Members (Encode.commas (writeEntries kvs)) kvs
  | [], hne, _ => absurd rfl hne
  | (k, t) :: kvs, _, h => by
    rw [DoublesEntries] at h
    have h1 := text_write t h.1
    have h2 := members_write kvs
    cases kvs with
    | nil => exact members_one (c := []) blank_nil h1
    | cons u us =>
      have := Members.cons blank_nil (chars_write k.toList) blank_nil blank_nil h1 blank_nil (h2 (by simp) h.2)
      rw [String.ofList_toList] at this
      simpa [Encode.jsonString, writeEntries, Encode.commas] using this
end

theorem blank_newline (d : Nat) : Blank (newline d) := by
  intro c hc
  rcases List.mem_cons.1 hc with rfl | hc
  · simp
  · rw [List.eq_of_mem_replicate hc]; simp

mutual
theorem text_indent : ∀ (d : Nat) (t : Tree), Doubles t → Text (indent d t) t
  | _, .null, _ => .null
  | _, .bool b, _ => text_bool b
  | _, .int i, _ => .num (number_int i)
  | _, .float q, h => text_float h
  | _, .str s, _ => text_str s
  | d, .arr xs, h => by
    rw [Doubles] at h
    have h2 := items_indent (d + 1) xs
    cases xs with
    | nil => exact .noItems (b := []) blank_nil
    | cons t ts => exact .arr (h2 (by simp) h (newline d) (blank_newline d))
  | d, .obj kvs, h => by
    rw [Doubles] at h
    have h2 := members_indent (d + 1) kvs
    cases kvs with
    | nil => exact .noMembers (b := []) blank_nil
    | cons t ts => exact .obj (h2 (by simp) h (newline d) (blank_newline d))
theorem items_indent : ∀ (d : Nat) (ts : List Tree), ts ≠ [] → DoublesList ts → ∀ e, Blank e →
    Items (lines d (indents d ts) ++ e) ts
  | _, [], hne, _, _, _ => absurd rfl hne
  | d, t :: ts, _, h, e, he => by
    rw [DoublesList] at h
    have h1 := text_indent d t h.1
    have h2 := items_indent d ts
    cases ts with
    | nil =>
      have := JsonGrammar.Items.one (blank_newline d) h1 he
      simpa [lines, indents] using this
    | cons u us =>
      have := JsonGrammar.Items.cons (blank_newline d) h1 blank_nil (h2 (by simp) h.2 e he)
      simpa [lines, indents] using this
theorem members_indent : ∀ (d : Nat) (kvs : List (String × Tree)), kvs ≠ [] → DoublesEntries kvs →
    ∀ e, Blank e → Members (lines d (indentEntries d kvs) ++ e) kvs
  | _, [], hne, _, _, _ => absurd rfl hne
  | d, (k, t) :: kvs, _, h, e, he => by
    rw [DoublesEntries] at h
    have h1 := text_indent d t h.1
    have h2 := members_indent d kvs
    cases kvs with
    | nil =>
      have := Members.one (blank_newline d) (chars_write k.toList) blank_nil (c := [' ']) (by simp [Blank]) h1 he
      rw [String.ofList_toList] at this
      simpa [Encode.jsonString, indentEntries, lines] using this
    | cons u us =>
      have := Members.cons (blank_newline d) (chars_write k.toList) blank_nil (c := [' ']) (by simp [Blank]) h1
        blank_nil (h2 (by simp) h.2 e he)
      rw [String.ofList_toList] at this
      simpa [Encode.jsonString, indentEntries, lines] using this
end

theorem isText_of {s : List Char} {t : Tree} (h : Text s t) : IsText s t := ⟨[], s, [], blank_nil, h, blank_nil, by simp⟩

end Json

/-- C126.  The text that is written for a tree stands for that tree. -/
theorem C126_write (t : Tree) (h : Doubles t) : IsText (write t) t := isText_of (text_write t h)

/-- C126.  So does the indented text, whatever the depth, with a line feed at the end. -/
theorem C126_indent (d : Nat) (t : Tree) (h : Doubles t) : IsText (indent d t ++ ['\n']) t :=
  ⟨[], indent d t, ['\n'], blank_nil, text_indent d t h, by simp [Blank], rfl⟩

/-- C126.  Indentation changes nothing that is read. -/
theorem C126_same_tree (d : Nat) (t : Tree) (h : Doubles t) : Json.parse (indent d t ++ ['\n']) = Json.parse (write t) := by
  rw [(C126_read_iff _ _).2 (C126_write t h), (C126_read_iff _ _).2 (C126_indent d t h)]

/-- C126.  Different trees have different texts. -/
theorem C126_injective (t t' : Tree) (h : Doubles t) (h' : Doubles t') : write t = write t' ↔ t = t' := by
  constructor
  · intro e
    refine C126_unambiguous (write t) t t' (C126_write t h) ?_
    rw [e]
    exact C126_write t' h'
  · rintro rfl; rfl

/-! ### Bytes -/

namespace Json

theorem utf8_bytes (s : String) : (⟨(utf8 s).toArray⟩ : ByteArray) = s.toByteArray := by
  have h : s.toList.utf8Encode = s.toByteArray := String.utf8Encode_toList
  rw [← h, List.utf8Encode, utf8]
  ext1
  simp

theorem fromUTF8_utf8 (s : String) : String.fromUTF8? ⟨(utf8 s).toArray⟩ = some s := by
  rw [utf8_bytes]
  unfold String.fromUTF8?
  rw [dif_pos s.isValidUTF8]
  rfl

theorem fromUTF8_some {b : Bytes} {s : String} (h : String.fromUTF8? ⟨b.toArray⟩ = some s) : b = utf8 s := by
  unfold String.fromUTF8? at h
  split at h
  · cases h
    have := utf8_bytes (String.fromUTF8 ⟨b.toArray⟩ ‹_›)
    have e : (String.fromUTF8 ⟨b.toArray⟩ ‹_›).toByteArray = ⟨b.toArray⟩ := rfl
    rw [e] at this
    simpa using this.symm
  · cases h

end Json

/-- C126.  Which bytes are read, and as what. -/
theorem C126_bytes_iff (b : Bytes) (t : Tree) : Json.parseBytes b = .ok t ↔ ∃ s, b = utf8 s ∧ IsText s.toList t := by
  unfold Json.parseBytes
  constructor
  · intro h
    split at h
    · rename_i t' g
      cases h
      simp only [Option.bind_eq_some_iff] at g
      obtain ⟨s, h1, h2⟩ := g
      exact ⟨s, fromUTF8_some h1, (C126_read_iff _ _).1 h2⟩
    · cases h
  · rintro ⟨s, rfl, h⟩
    rw [fromUTF8_utf8, Option.bind_some, (C126_read_iff _ _).2 h]

/-! ### What is not in the texts -/

namespace Json

/-- Neither a control character nor one that matters in HTML or JavaScript. -/
def Safe (c : Char) : Prop :=
  ¬ c.toNat < 0x20 ∧ c ≠ '<' ∧ c ≠ '>' ∧ c ≠ '&' ∧ c.toNat ≠ 0x2028 ∧ c.toNat ≠ 0x2029

instance (c : Char) : Decidable (Safe c) := by unfold Safe; infer_instance

theorem safe_hex : ∀ n, n < 16 → Safe (Encode.hexChar n) := by decide +kernel

theorem safe_char (c : Char) : ∀ d ∈ Encode.jsonChar c, Safe d := by
  unfold Encode.jsonChar
  split_ifs with h1 h2 h3 h4 h5
  · rcases h1 with rfl | rfl <;> decide
  · decide
  · decide
  · decide
  · intro d hd
    simp only [Encode.escaped, List.mem_cons, List.not_mem_nil, or_false] at hd
    have := fun n => safe_hex (n % 16) (Nat.mod_lt _ (by decide))
    rcases hd with rfl | rfl | rfl | rfl | rfl | rfl
    · decide
    · decide
    all_goals exact this _
  · intro d hd
    simp only [List.mem_cons, List.not_mem_nil, or_false] at hd
    subst hd
    simp only [not_or] at h5
    exact h5

theorem safe_string (s : List Char) : ∀ d ∈ Encode.jsonString s, Safe d := by
  intro d hd
  simp only [Encode.jsonString, List.cons_append, List.mem_cons, List.mem_append, List.mem_flatMap, List.not_mem_nil,
    or_false] at hd
  rcases hd with rfl | ⟨c, _, hd⟩ | rfl
  · decide
  · exact safe_char c d hd
  · decide

theorem safe_number {s : List Char} (h : isNumber s = true) : ∀ d ∈ s, Safe d := by
  intro d hd
  have := (isNumber_chars h).1 d hd
  unfold numberChar at this
  simp only [Bool.or_eq_true, decide_eq_true_eq] at this
  rcases this with ((((h1 | rfl) | rfl) | rfl) | rfl) | rfl
  · simp only [Char.isDigit, Bool.and_eq_true, decide_eq_true_eq, ge_iff_le, UInt32.le_iff_toNat_le] at h1
    have e1 : ('0' : Char).val.toNat = 48 := rfl
    have e2 : ('9' : Char).val.toNat = 57 := rfl
    have e3 : d.val.toNat = d.toNat := rfl
    have hn : ∀ x : Char, 57 < x.toNat ∨ x.toNat < 48 → d ≠ x := by rintro x hx rfl; omega
    exact ⟨by omega, hn _ (by decide), hn _ (by decide), hn _ (by decide), by omega, by omega⟩
  all_goals decide

theorem safe_commas {l : List (List Char)} (h : ∀ s ∈ l, ∀ d ∈ s, Safe d) : ∀ d ∈ Encode.commas l, Safe d := by
  induction l with
  | nil => intro d hd; cases hd
  | cons x l ih =>
    have ih := ih fun s hs => h s (List.mem_cons_of_mem _ hs)
    cases l with
    | nil => exact h x (by simp)
    | cons y l =>
      intro d hd
      rcases List.mem_append.1 hd with hd | hd
      · exact h x (by simp) d hd
      · rcases List.mem_cons.1 hd with rfl | hd
        · decide
        · exact ih d hd

mutual
theorem safe_write : ∀ (t : Tree), ∀ d ∈ write t, Safe d
  | .null => by decide
  | .bool b => by cases b <;> decide
  | .int i => safe_number (isNumber_int i)
  | .float q => safe_number (C123_number q)
  | .str s => safe_string s.toList
  | .arr xs => by
    intro d hd
    rw [write] at hd
    rcases List.mem_append.1 hd with hd | hd
    · rcases List.mem_cons.1 hd with rfl | hd
      · decide
      · exact safe_commas (safe_writes xs) d hd
    · rw [List.mem_singleton.1 hd]; decide
  | .obj kvs => by
    intro d hd
    rw [write] at hd
    rcases List.mem_append.1 hd with hd | hd
    · rcases List.mem_cons.1 hd with rfl | hd
      · decide
      · exact safe_commas (safe_entries kvs) d hd
    · rw [List.mem_singleton.1 hd]; decide
theorem safe_writes : ∀ (ts : List Tree), ∀ s ∈ writes ts, ∀ d ∈ s, Safe d
  | [], _, hs => by cases hs
  | t :: ts, s, hs => by
    have h1 := safe_write t
    have h2 := safe_writes ts s
    rw [writes] at hs
    rcases List.mem_cons.1 hs with rfl | hs
    · exact h1
    · exact h2 hs
theorem safe_entries : ∀ (kvs : List (String × Tree)), ∀ s ∈ writeEntries kvs, ∀ d ∈ s, Safe d
  | [], _, hs => by cases hs
  | (k, t) :: kvs, s, hs => by
    have h1 := safe_write t
    have h2 := safe_entries kvs s
    rw [writeEntries] at hs
    rcases List.mem_cons.1 hs with rfl | hs
    · intro d hd
      rcases List.mem_append.1 hd with hd | hd
      · exact safe_string _ d hd
      · rcases List.mem_cons.1 hd with rfl | hd
        · decide
        · exact h1 d hd
    · exact h2 hs
end

end Json

/-- C126.  The text has no control characters (so it is one line), none of `<`, `>` and `&`, and no
line or paragraph separators: it can be put into HTML or JavaScript, whatever strings it holds. -/
theorem C126_safe (t : Tree) (c : Char) (h : c ∈ write t) : ¬ c.toNat < 0x20 ∧ c ∉ ['<', '>', '&'] ∧
    c.toNat ≠ 0x2028 ∧ c.toNat ≠ 0x2029 := by
  obtain ⟨h1, h2, h3, h4, h5, h6⟩ := safe_write t c h
  exact ⟨h1, by simp [h2, h3, h4], h5, h6⟩

/-! ### Manifests -/

namespace Json

theorem doubles_float (q : Rat) : Doubles (encFloat q) := by
  have hq : Float64 (toFloat q) := by
    rw [toFloat_eq]
    exact FloatText.isFloat_iff.1 (FloatText.isFloat_toFloat q)
  unfold encFloat
  split
  · rename_i h
    rw [Doubles]
    refine ⟨hq, fun hc => ?_⟩
    have := (C126_whole_iff _ hq).2 hc
    rcases h with h | h
    · exact this.1 h
    · exact this.2 h
  · simp [Doubles]

mutual
theorem doubles_value : ∀ v : Value, Doubles (encValue v)
  | .null => by simp [encValue, Doubles]
  | .bool b => by simp [encValue, Doubles]
  | .int i => by simp [encValue, Doubles]
  | .float q => by rw [encValue]; exact doubles_float q
  | .str s => by simp [encValue, Doubles]
  | .seq xs => by rw [encValue, Doubles]; exact doubles_values xs
  | .map _ => by simp [encValue, Doubles]
theorem doubles_values : ∀ vs : List Value, DoublesList (encValues vs)
  | [] => by rw [encValues, DoublesList]; trivial
  | v :: vs => by rw [encValues, DoublesList]; exact ⟨doubles_value v, doubles_values vs⟩
end

theorem doubles_entries {l : List (String × Tree)} (h : ∀ kv ∈ l, Doubles kv.2) : DoublesEntries l := by
  induction l with
  | nil => rw [DoublesEntries]; trivial
  | cons kv l ih =>
    obtain ⟨k, t⟩ := kv
    rw [DoublesEntries]
    exact ⟨h (k, t) (by simp), ih fun kv hkv => h kv (List.mem_cons_of_mem _ hkv)⟩

theorem doubles_list {l : List Tree} (h : ∀ t ∈ l, Doubles t) : DoublesList l := by
  induction l with
  | nil => rw [DoublesList]; trivial
  | cons t l ih =>
    rw [DoublesList]
    exact ⟨h t (by simp), ih fun t ht => h t (List.mem_cons_of_mem _ ht)⟩

/-- Fields whose values are written. -/
def Fine (l : List (String × Bool × Tree)) : Prop := ∀ f ∈ l, Doubles f.2.2

theorem fine_nil : Fine [] := by intro f hf; cases hf

theorem fine_cons {f : String × Bool × Tree} {l : List (String × Bool × Tree)} (h : Doubles f.2.2) (hl : Fine l) : Fine (f :: l) := by
  intro g hg
  rcases List.mem_cons.1 hg with rfl | hg
  · exact h
  · exact hl g hg

theorem doubles_obj {l : List (String × Bool × Tree)} (h : Fine l) : Doubles (encObj l) := by
  rw [encObj, Doubles]
  refine doubles_entries ?_
  intro kv hkv
  obtain ⟨f, hf, e⟩ := List.mem_filterMap.1 hkv
  split at e
  · cases e; exact h f hf
  · cases e

theorem d_str (k s : String) : Doubles (encStr k s).2.2 := by simp [encStr, Doubles]
theorem d_bool (k : String) (b : Bool) : Doubles (encBool k b).2.2 := by simp [encBool, Doubles]
theorem d_int (k : String) (i : Int) : Doubles (encInt k i).2.2 := by simp [encInt, Doubles]
theorem d_ptr {α : Type} {e : α → Tree} (h : ∀ x, Doubles (e x)) (o : Option α) : Doubles (encPtr e o) := by
  cases o with
  | none => simp [encPtr, Doubles]
  | some x => exact h x
theorem d_list {α : Type} {e : α → Tree} (h : ∀ x, Doubles (e x)) (k : String) (l : List α) : Doubles (encList k e l).2.2 := by
  show Doubles (.arr (l.map e))
  rw [Doubles]
  exact doubles_list fun t ht => by obtain ⟨x, _, rfl⟩ := List.mem_map.1 ht; exact h x
theorem d_strs (k : String) (l : List String) : Doubles (encStrs k l).2.2 := d_list (fun s => by simp [Doubles]) k l
theorem d_map {α : Type} {e : α → Tree} (h : ∀ x, Doubles (e x)) (k : String) (m : GoMap α) : Doubles (encMap k e m).2.2 := by
  show Doubles (.obj (m.map fun kv => (kv.1, e kv.2)))
  rw [Doubles]
  exact doubles_entries fun t ht => by obtain ⟨x, _, rfl⟩ := List.mem_map.1 ht; exact h x.2
theorem d_strMap (k : String) (m : GoMap String) : Doubles (encMap k .str m).2.2 := d_map (fun s => by simp [Doubles]) k m
theorem d_leaf (s : String) : Doubles (.str s) := by simp [Doubles]

/-- Goes through the fields of a struct. -/
macro "fields" : tactic => `(tactic| (refine doubles_obj ?_; repeat' (first
  | exact fine_nil
  | refine fine_cons ?_ ?_
  | exact d_str _ _ | exact d_bool _ _ | exact d_int _ _ | exact d_strs _ _ | exact d_strMap _ _ | exact d_leaf _)))

theorem d_condition (c : Condition) : Doubles (encCondition c) := by unfold encCondition; fields
theorem d_conditions (c : Conditions) : Doubles (encConditions c) := by
  unfold encConditions
  fields <;> exact d_condition _
theorem d_variable (v : Variable) : Doubles (encVariable v) := by unfold encVariable; fields
theorem d_parameter (p : Parameter) : Doubles (encParameter p) := by
  unfold encParameter
  fields
  exact doubles_value _
theorem d_build (b : Build) : Doubles (encBuild b) := by unfold encBuild; fields
theorem d_push (b : Push) : Doubles (encPush b) := by unfold encPush; fields
theorem d_port (b : Port) : Doubles (encPort b) := by unfold encPort; fields
theorem d_resourceObject (o : ResourceObject) : Doubles (encResourceObject o) := by
  unfold encResourceObject
  fields
  · exact doubles_float _
  · show Doubles (.int _); simp [Doubles]
theorem d_resources (r : Resources) : Doubles (encResources r) := by
  unfold encResources
  fields <;> exact d_ptr d_resourceObject _
theorem d_volumeDevice (v : VolumeDevice) : Doubles (encVolumeDevice v) := by unfold encVolumeDevice; fields
theorem d_volumeMount (v : VolumeMount) : Doubles (encVolumeMount v) := by unfold encVolumeMount; fields
theorem d_emptyDir (v : VolumeEmptyDir) : Doubles (encVolumeEmptyDir v) := by unfold encVolumeEmptyDir; fields
theorem d_hostPath (v : VolumeHostPath) : Doubles (encVolumeHostPath v) := by unfold encVolumeHostPath; fields
theorem d_volume (v : Volume) : Doubles (encVolume v) := by
  unfold encVolume
  fields
  · exact d_ptr d_emptyDir _
  · exact d_ptr d_hostPath _
theorem d_container (c : Container) : Doubles (encContainer c) := by
  unfold encContainer
  fields
  · exact d_ptr d_build _
  · exact d_list (d_ptr d_volumeDevice) _ _
  · exact d_map (d_ptr d_variable) _ _
  · exact d_list (d_ptr d_port) _ _
  · exact d_ptr d_push _
  · exact d_ptr d_resources _
  · exact d_map (d_ptr d_parameter) _ _
  · exact d_list (d_ptr d_volumeMount) _ _
  · exact d_conditions _
theorem d_clone (c : Clone) : Doubles (encClone c) := by unfold encClone; fields
theorem d_platform (p : Platform) : Doubles (encPlatform p) := by unfold encPlatform; fields
theorem d_workspace (w : Workspace) : Doubles (encWorkspace w) := by unfold encWorkspace; fields
theorem d_pipeline (p : Pipeline) : Doubles (encPipeline p) := by
  unfold encPipeline
  fields
  · exact d_clone _
  · show Doubles (encObj _); fields
  · exact d_platform _
  · exact d_list (d_ptr d_container) _ _
  · exact d_list (d_ptr d_container) _ _
  · exact d_conditions _
  · exact d_list (d_ptr d_volume) _ _
  · exact d_workspace _
theorem d_cron (c : Cron) : Doubles (encCron c) := by
  unfold encCron
  fields
  show Doubles (encObj _)
  fields
  show Doubles (encObj _)
  fields
theorem d_secret (c : Secret) : Doubles (encSecret c) := by
  unfold encSecret
  fields
  show Doubles (encObj _)
  fields
theorem d_registry (r : Registry) : Doubles (encRegistry r) := by unfold encRegistry; fields
theorem d_signature (s : Signature) : Doubles (encSignature s) := by unfold encSignature; fields

theorem d_resource (r : Resource) : Doubles (encResource r) := by
  cases r with
  | cron c => exact d_cron c
  | secret c => exact d_secret c
  | signature c => exact d_signature c
  | registry c => exact d_registry c
  | pipeline c => exact d_pipeline c

theorem doubles_marshal {m : Manifest} {t : Tree} (h : marshal m = .ok t) : Doubles t := by
  unfold marshal at h
  split at h
  · cases h
    rw [Doubles]
    exact doubles_list fun t ht => by obtain ⟨r, _, rfl⟩ := List.mem_map.1 ht; exact d_resource r
  · cases h

end Json

/-- C126.  What `MarshalJSON` writes, compact or indented, is read as the tree that was written. -/
theorem C126_marshal (m : Manifest) (t : Tree) (d : Nat) (h : Json.marshal m = .ok t) :
    Json.parseBytes (utf8 (String.ofList (write t))) = .ok t ∧
    Json.parseBytes (utf8 (String.ofList (indent d t ++ ['\n']))) = .ok t :=
  ⟨(C126_bytes_iff _ _).2 ⟨_, rfl, by rw [String.toList_ofList]; exact C126_write t (doubles_marshal h)⟩,
    (C126_bytes_iff _ _).2 ⟨_, rfl, by rw [String.toList_ofList]; exact C126_indent d t (doubles_marshal h)⟩⟩

/-- C126.  The bytes that `MarshalJSON` writes, given to `UnmarshalJSON`: all resources are appended to
the receiver, up to the types of numbers in settings. -/
theorem C126_manifest {fold : String → String → Bool} (hF : Folds fold) (m old : Manifest) (t : Tree)
    (h : Json.marshal m = .ok t) (hs : ∀ r ∈ m.resources, JsonSound r) (hk : ∀ r ∈ m.resources, KindType r.getKind r.resType) :
    unmarshalJSON (lib fold Json.parseBytes) old (utf8 (String.ofList (write t))) =
      (⟨old.resources ++ m.resources.map jsonResource⟩, none) :=
  C99_json hF _ m old t _ h (C126_marshal m t 0 h).1 hs hk

/-- C126.  The manifest is read back from its bytes exactly if no setting contains an integer. -/
theorem C126_manifest_iff {fold : String → String → Bool} (hF : Folds fold) (m : Manifest) (t : Tree)
    (h : Json.marshal m = .ok t) (hs : ∀ r ∈ m.resources, JsonSound r) (hk : ∀ r ∈ m.resources, KindType r.getKind r.resType)
    (hf : ∀ r ∈ m.resources, ∀ k p, Setting r k p → ∀ q, In (.float q) p.value → Float64 q) :
    unmarshalJSON (lib fold Json.parseBytes) {} (utf8 (String.ofList (write t))) = (m, none) ↔
      ∀ r ∈ m.resources, ∀ k p, Setting r k p → ∀ i, ¬ In (.int i) p.value :=
  C99_same_iff hF _ m t _ h (C126_marshal m t 0 h).1 hs hk hf

/-- C126.  Which texts `UnmarshalJSON` accepts. -/
theorem C126_accepted_iff {fold : String → String → Bool} (hF : Folds fold) (old : Manifest) (s : String) :
    (∃ m, unmarshalJSON (lib fold Json.parseBytes) old (utf8 s) = (m, none)) ↔
      IsText s.toList .null ∨ ∃ ts, IsText s.toList (.arr ts) ∧ ∀ t ∈ ts, headerFits fold t ∧
        ∃ k ty, KindIs fold t k ∧ KindType k ty ∧ resourceFits fold ty t := by
  have key : ∀ t, Json.parseBytes (utf8 s) = .ok t ↔ IsText s.toList t := by
    intro t
    rw [C126_bytes_iff]
    constructor
    · rintro ⟨s', e, h⟩
      have : s = s' := by
        have h1 := fromUTF8_utf8 s
        rw [e, fromUTF8_utf8] at h1
        exact (Option.some.inj h1).symm
      rwa [this]
    · exact fun h => ⟨s, rfl, h⟩
  rw [C112_accepted_iff hF]
  simp only [key]

/-- C126.  White space, escapes and the notation of numbers do not matter: texts that stand for the
same tree are read alike. -/
theorem C126_same_text {fold : String → String → Bool} (old : Manifest) (s s' : String) (t : Tree)
    (h : IsText s.toList t) (h' : IsText s'.toList t) :
    unmarshalJSON (lib fold Json.parseBytes) old (utf8 s) = unmarshalJSON (lib fold Json.parseBytes) old (utf8 s') := by
  have h1 := (C126_bytes_iff _ _).2 ⟨s, rfl, h⟩
  have h2 := (C126_bytes_iff _ _).2 ⟨s', rfl, h'⟩
  simp only [unmarshalJSON, lib, h1, h2]

/-- C126.  A setting is written with the parts that are there: a value unless it is null, and the name of
a secret unless it is empty. -/
theorem C126_setting (p : Parameter) : ∃ kvs, encParameter p = .obj kvs ∧
    (∀ t, ("value", t) ∈ kvs ↔ p.value ≠ .null ∧ t = encValue p.value) ∧
    (∀ t, ("from_secret", t) ∈ kvs ↔ p.secret ≠ "" ∧ t = .str p.secret) ∧
    ∀ kv ∈ kvs, kv.1 ∈ ["value", "from_secret"] := by
  refine ⟨_, rfl, ?_, ?_, ?_⟩
  · intro t
    cases h : p.value <;> by_cases hs : p.secret = "" <;> simp [encStr, isNull, h, hs]
  · intro t
    cases h : p.value <;> by_cases hs : p.secret = "" <;> simp [encStr, isNull, h, hs]
  · cases h : p.value <;> by_cases hs : p.secret = "" <;> simp [encStr, isNull, h, hs]

/-! ### Examples -/

/-- The text of a manifest and what is read from it -/
example : ∃ t, Json.marshal exJsonManifest = .ok t ∧ ∀ old,
    unmarshalJSON (lib exFold Json.parseBytes) old (utf8 (String.ofList (write t))) =
      (⟨old.resources ++ exJsonManifest.resources.map jsonResource⟩, none) :=
  ⟨_, rfl, fun old => C126_manifest exFolds exJsonManifest old _ rfl exJsonManifest_sound exJsonManifest_kinds⟩

/-- Characters that matter in HTML are escaped, others are not. -/
example : String.ofList (write (.obj [("a", .arr [.null, .int (-5), .float (1/2)]), ("b", .str "1 < 2\n\"é\"")])) =
    "{\"a\":[null,-5,0.5],\"b\":\"1 \\u003c 2\\n\\\"é\\\"\"}" := by decide +kernel

/-- Indented, empty lists stay on their line. -/
example : String.ofList (indent 0 (.obj [("a", .arr [.null, .bool true]), ("b", .arr []), ("c", .obj [])])) =
    "{\n  \"a\": [\n    null,\n    true\n  ],\n  \"b\": [],\n  \"c\": {}\n}" := by decide +kernel

/-- The same tree in another notation: escapes, white space, exponents. -/
example : (Json.parse " [ \"\\u0041\\/\\ud83d\\ude00\" ,\t1e2, -0.50,{} ]\r\n".toList).map (fun t => String.ofList (write t)) =
    some "[\"A/😀\",100,-0.5,{}]" := by decide +kernel

/-- Half a pair of surrogates stands for U+FFFD. -/
example : (Json.parse "\"\\ud83dx\"".toList).map (fun t => String.ofList (write t)) = some "\"\uFFFDx\"" := by decide +kernel

/-- No commas at the end, no leading zeros, no signs, no control characters, no two values. -/
example : ∀ s ∈ ["[1,]", "01", "+1", "1.", ".5", "\"\n\"", "1 2", "", "{a:1}", "{\"a\":1,}", "nul", "\"\\x41\"", "[1 2]", "1e"],
    (Json.parse s.toList).isNone = true := by decide +kernel

/-- Bytes that are not UTF-8 -/
example : ∃ e, Json.parseBytes [0x22, 0xff, 0x22] = .error e := by
  cases h : Json.parseBytes [0x22, 0xff, 0x22] with
  | error e => exact ⟨e, rfl⟩
  | ok t =>
    unfold Json.parseBytes at h
    have : String.fromUTF8? ⟨⟨[0x22, 0xff, 0x22]⟩⟩ = none := by decide +kernel
    simp_all

/-- A large whole number is written with its shortest digits. -/
example : String.ofList (write (encFloat (2^60))) = "1152921504606847000" ∧ String.ofList (write (encFloat (10^21))) = "1e+21" ∧
    String.ofList (write (encFloat (3/2))) = "1.5" := by decide +kernel

end Drone
