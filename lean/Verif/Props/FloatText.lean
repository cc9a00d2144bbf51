/- C123: the texts of floating point numbers in settings. -/
import Verif.Proof.FloatText
import Verif.Props.Encode

namespace Drone
open FloatText Spec
open Units (width)

namespace FloatText

theorem toFloat_pos {v : Rat} (h : 0 < v) : toFloat64 v = F64.round v := by
  unfold toFloat64
  rw [if_neg (ne_of_gt h), if_neg (not_lt.2 h.le)]

theorem toFloat_neg {v : Rat} (h : 0 < v) : toFloat64 (-v) = -F64.round v := by
  unfold toFloat64
  rw [if_neg (by simpa using ne_of_gt h), if_pos (by linarith), neg_neg]

theorem toFloat_zero : toFloat64 0 = 0 := rfl

theorem toFloat_opp (v : Rat) : toFloat64 (-v) = -toFloat64 v := by
  rcases lt_trichotomy v 0 with h | rfl | h
  · have := toFloat_neg (v := -v) (by linarith)
    rw [neg_neg] at this
    rw [this, toFloat_pos (by linarith), neg_neg]
  · rw [neg_zero, toFloat_zero, neg_zero]
  · rw [toFloat_neg h, toFloat_pos h]

theorem round_nonneg {v : Rat} (h : 0 < v) : 0 ≤ F64.round v := by
  obtain ⟨m, e, h1, h2, _⟩ := Units.round_repr h
  rw [h1]
  exact mul_nonneg (by exact_mod_cast h2) (F64.pow2_pos e).le

/-- A number that is read as a positive number is positive. -/
theorem toFloat_sign {v q : Rat} (hq : 0 < q) (h : toFloat64 v = q) : 0 < v ∧ F64.round v = q := by
  rcases lt_trichotomy v 0 with hv | rfl | hv
  · have h1 := toFloat_neg (v := -v) (by linarith)
    have h2 := round_nonneg (v := -v) (by linarith)
    rw [neg_neg, h] at h1
    exfalso; linarith
  · rw [toFloat_zero] at h
    exact absurd h (ne_of_lt hq)
  · rw [toFloat_pos hv] at h
    exact ⟨hv, h⟩

theorem readUnsigned_digit {s : List Char} {v : Rat} (h : readUnsigned s = some v) : s.head? ≠ some '-' := by
  intro h0
  cases s with
  | nil => cases h0
  | cons c s =>
    cases h0
    have : readUnsigned ('-' :: s) = none := by
      unfold readUnsigned
      simp [show ('-' : Char).isDigit = false from by decide]
    rw [this] at h
    cases h

theorem readNumber_pos {s : List Char} {v : Rat} (h : readUnsigned s = some v) : readNumber s = some v := by
  have := readUnsigned_digit h
  unfold readNumber
  split
  · exact absurd rfl this
  · exact h

theorem readNumber_neg {s : List Char} {v : Rat} (h : readUnsigned s = some v) : readNumber ('-' :: s) = some (-v) := by
  rw [readNumber, h]
  rfl

/-- The texts of a number and of its opposite. -/
theorem signed_pos (f : Rat → List Char) {q : Rat} (h : 0 < q) : (signed f q).toList = f q := by
  unfold signed
  rw [if_neg (ne_of_gt h), if_neg (not_lt.2 h.le), String.toList_ofList]

theorem signed_neg (f : Rat → List Char) {q : Rat} (h : 0 < q) : (signed f (-q)).toList = '-' :: f q := by
  unfold signed
  rw [if_neg (by simpa using ne_of_gt h), if_pos (by linarith), String.toList_ofList, neg_neg]

/-- A format that writes the shortest digits. -/
def Good (f : Rat → List Char) : Prop := ∀ q, 0 < q → readUnsigned (f q) = some (value (shortest q).1 (shortest q).2)

/-- The value of the shortest digits, with the sign. -/
def written (q : Rat) : Rat :=
  if q = 0 then 0 else if q < 0 then -value (shortest (-q)).1 (shortest (-q)).2 else value (shortest q).1 (shortest q).2

theorem written_pos {q : Rat} (h : 0 < q) : written q = value (shortest q).1 (shortest q).2 := by
  unfold written
  rw [if_neg (ne_of_gt h), if_neg (not_lt.2 h.le)]

theorem written_neg {q : Rat} (h : 0 < q) : written (-q) = -written q := by
  rw [written_pos h]
  unfold written
  rw [if_neg (by simpa using ne_of_gt h), if_pos (by linarith), neg_neg]

theorem good_read {f : Rat → List Char} (hf : Good f) (q : Rat) : readNumber (signed f q).toList = some (written q) := by
  rcases lt_trichotomy q 0 with h | rfl | h
  · obtain ⟨p, rfl⟩ : ∃ p, q = -p := ⟨-q, by simp⟩
    have hp : 0 < p := by linarith
    rw [signed_neg f hp, readNumber_neg (hf p hp), written_neg hp, written_pos hp]
  · have : written 0 = 0 := rfl
    have h2 : (signed f 0).toList = ['0'] := by unfold signed; rw [if_pos rfl]; rfl
    rw [this, h2]
    decide +kernel
  · rw [signed_pos f h, readNumber_pos (hf q h), written_pos h]

theorem good_G : Good unsignedG := fun _ h => read_G h
theorem good_Json : Good unsignedJson := fun _ h => read_Json h

theorem value_pos {q : Rat} (hq : 0 < q) : 0 < value (shortest q).1 (shortest q).2 :=
  lt_of_lt_of_le (by positivity) (value_range (shortest_digits hq).1 (shortest_digits hq).2 _).1

/-- Rounding leaves the number as it is. -/
def IsFloat (q : Rat) : Prop := q = 0 ∨ F64.round |q| = |q|

theorem isFloat_iff {q : Rat} : IsFloat q ↔ Float64 q := by
  constructor
  · rintro (rfl | h)
    · exact ⟨0, 0, by decide, by decide, by simp⟩
    · rcases lt_trichotomy q 0 with hq | rfl | hq
      · obtain ⟨m, e, h1, h2, h3, h4⟩ := Units.round_repr (q := |q|) (abs_pos.2 (ne_of_lt hq))
        refine ⟨-m, e, by omega, h4, ?_⟩
        rw [h, abs_of_neg hq] at h1
        push_cast
        linarith
      · exact ⟨0, 0, by decide, by decide, by simp⟩
      · obtain ⟨m, e, h1, h2, h3, h4⟩ := Units.round_repr (q := |q|) (abs_pos.2 (ne_of_gt hq))
        rw [h, abs_of_pos hq] at h1
        exact ⟨m, e, by omega, h4, h1⟩
  · rintro ⟨m, e, h1, h2, rfl⟩
    by_cases h0 : (m : Rat) * F64.pow2 e = 0
    · exact .inl h0
    · right
      refine F64.round_exact (m := |m|) (e := e) (abs_pos.2 h0) ?_ ?_ h2
      · rw [abs_mul, abs_of_pos (F64.pow2_pos e)]
        push_cast
        rfl
      · rw [Int.abs_eq_natAbs]
        exact_mod_cast h1

theorem written_float {q : Rat} (h : IsFloat q) : toFloat64 (written q) = q := by
  rcases lt_trichotomy q 0 with hq | rfl | hq
  · obtain ⟨p, rfl⟩ : ∃ p, q = -p := ⟨-q, by simp⟩
    have hp : 0 < p := by linarith
    have hr : F64.round p = p := by
      rcases h with h | h
      · linarith
      · rwa [abs_neg, abs_of_pos hp] at h
    rw [written_neg hp, toFloat_opp, written_pos hp, toFloat_pos (value_pos hp), shortest_round hp hr]
  · rfl
  · have hr : F64.round q = q := by
      rcases h with h | h
      · linarith
      · rwa [abs_of_pos hq] at h
    rw [written_pos hq, toFloat_pos (value_pos hq), shortest_round hq hr]

/-- Rounding again changes nothing. -/
theorem round_round {v : Rat} (h : 0 < v) : F64.round (F64.round v) = F64.round v := by
  obtain ⟨m, e, h1, h2, h3, h4⟩ := Units.round_repr h
  rcases eq_or_lt_of_le (round_nonneg h) with h0 | h0
  · rw [← h0, round_zero]
  · exact F64.round_exact h0 h1 h3 h4

theorem isFloat_toFloat (v : Rat) : IsFloat (toFloat64 v) := by
  rcases lt_trichotomy v 0 with hv | rfl | hv
  · obtain ⟨p, rfl⟩ : ∃ p, v = -p := ⟨-v, by simp⟩
    have hp : 0 < p := by linarith
    rw [toFloat_neg hp]
    right
    rw [abs_neg, abs_of_nonneg (round_nonneg hp), round_round hp]
  · left; rfl
  · rw [toFloat_pos hv]
    right
    rw [abs_of_nonneg (round_nonneg hv), round_round hv]

theorem nearest_least (x : Rat) (i : Int) : |(F64.nearest x : Rat) - x| ≤ |(i : Rat) - x| := by
  have h1 := Int.floor_le x
  have h2 := Int.lt_floor_add_one x
  have hi : (i : Rat) ≤ ⌊x⌋ ∨ (⌊x⌋ : Rat) + 1 ≤ i := by
    rcases le_or_gt i ⌊x⌋ with h | h
    · exact .inl (by exact_mod_cast h)
    · exact .inr (by exact_mod_cast h)
  rcases F64.nearest_cases x with ⟨a, e⟩ | ⟨a, e⟩ <;> rw [e] <;> push_cast <;> rcases hi with h | h
  · rw [abs_of_nonpos (by linarith), abs_of_nonpos (by linarith)]; linarith
  · rw [abs_of_nonpos (by linarith), abs_of_nonneg (by linarith)]; linarith
  · rw [abs_of_nonneg (by linarith), abs_of_nonpos (by linarith)]; linarith
  · rw [abs_of_nonneg (by linarith), abs_of_nonneg (by linarith)]; linarith

/-- Rounding goes to the nearest multiple of the last place. -/
theorem round_least {v : Rat} (i : Int) : |F64.round v - v| ≤ |(i : Rat) * F64.pow2 (F64.last v) - v| := by
  have hp := F64.pow2_pos (F64.last v)
  have h := mul_le_mul_of_nonneg_right (nearest_least (v / F64.pow2 (F64.last v)) i) hp.le
  have e : ∀ y : Rat, |y - v / F64.pow2 (F64.last v)| * F64.pow2 (F64.last v) = |y * F64.pow2 (F64.last v) - v| := by
    intro y
    rw [← abs_of_pos hp, ← abs_mul, sub_mul, abs_of_pos hp, div_mul_cancel₀ _ (ne_of_gt hp)]
  rwa [e, e] at h

theorem pow2_multiple {e L : Int} (m : Int) (h : L ≤ e) : ∃ i : Int, (m : Rat) * F64.pow2 e = i * F64.pow2 L := by
  obtain ⟨k, hk⟩ := Int.eq_ofNat_of_zero_le (show 0 ≤ e - L by omega)
  refine ⟨m * 2 ^ k, ?_⟩
  push_cast
  rw [F64.pow2_eq, F64.pow2_eq, mul_assoc, ← zpow_natCast, ← zpow_add₀ (by norm_num)]
  congr 2
  omega

theorem nearest_pos {v p : Rat} (hv : 0 < v) (hp : Float64 p) : |F64.round v - v| ≤ |p - v| := by
  obtain ⟨m, e, hm, he, hpe⟩ := hp
  obtain ⟨t1, t2⟩ := F64.top_spec hv
  have hL : F64.last v = max (F64.top v - 52) (-1074) := rfl
  by_cases hc : F64.last v ≤ e
  · obtain ⟨i, hi⟩ := pow2_multiple m hc
    rw [hpe, hi]
    exact round_least i
  · push Not at hc
    have hlast : F64.last v = F64.top v - 52 := by omega
    have hpt : p ≤ F64.pow2 (F64.top v) := by
      have h1 : (m : Rat) ≤ 2 ^ 53 := by
        have : m ≤ 2 ^ 53 := by omega
        exact_mod_cast this
      calc p = m * F64.pow2 e := hpe
        _ ≤ 2 ^ 53 * F64.pow2 e := mul_le_mul_of_nonneg_right h1 (F64.pow2_pos e).le
        _ = (2 : Rat) ^ (53 + e) := by
            rw [F64.pow2_eq, zpow_add₀ (by norm_num)]
            norm_cast
        _ ≤ F64.pow2 (F64.top v) := by
            rw [F64.pow2_eq]
            exact zpow_le_zpow_right₀ (by norm_num) (by omega)
    obtain ⟨i, hi⟩ := pow2_multiple (e := F64.top v) (L := F64.last v) 1 (by omega)
    rw [Int.cast_one, one_mul] at hi
    have := round_least (v := v) i
    rw [← hi] at this
    refine le_trans this ?_
    rw [abs_of_nonpos (by linarith), abs_of_nonpos (by linarith)]
    linarith

end FloatText

/-- C123.  The number that a text is read as is a floating point number, and none is nearer. -/
theorem C123_nearest (v : Rat) : Float64 (toFloat64 v) ∧ ∀ p, Float64 p → |toFloat64 v - v| ≤ |p - v| := by
  refine ⟨isFloat_iff.1 (isFloat_toFloat v), fun p hp => ?_⟩
  rcases lt_trichotomy v 0 with hv | rfl | hv
  · obtain ⟨u, rfl⟩ : ∃ u, v = -u := ⟨-v, by simp⟩
    have hu : 0 < u := by linarith
    have hp' : Float64 (-p) := by
      obtain ⟨m, e, h1, h2, h3⟩ := hp
      exact ⟨-m, e, by omega, h2, by push_cast; rw [h3]; ring⟩
    have := nearest_pos hu hp'
    rw [toFloat_neg hu, show -F64.round u - -u = -(F64.round u - u) by ring, abs_neg,
      show p - -u = -(-p - u) by ring, abs_neg]
    exact this
  · rw [toFloat_zero, sub_zero, abs_zero]
    exact abs_nonneg _
  · rw [toFloat_pos hv]
    exact nearest_pos hv hp

/-! ### The texts are read back -/

/-- C123.  The text of a number, alone or in JSON, is the text of a decimal number, and the floating
point number nearest to it is the number that was written. -/
theorem C123_read (q : Rat) (h : Float64 q) : ∃ v, toFloat64 v = q ∧ readNumber (formatG q).toList = some v ∧
    readNumber (formatJson q).toList = some v :=
  ⟨written q, written_float (isFloat_iff.2 h), good_read good_G q, good_read good_Json q⟩

/-- C123.  Different numbers have different texts. -/
theorem C123_injective (p q : Rat) (hp : Float64 p) (hq : Float64 q) :
    (formatG p = formatG q ↔ p = q) ∧ (formatJson p = formatJson q ↔ p = q) := by
  obtain ⟨v, h1, h2, h3⟩ := C123_read p hp
  obtain ⟨w, h4, h5, h6⟩ := C123_read q hq
  refine ⟨⟨fun h => ?_, fun h => by rw [h]⟩, ⟨fun h => ?_, fun h => by rw [h]⟩⟩
  · rw [h, h5] at h2
    cases h2
    rw [← h1, h4]
  · rw [h, h6] at h3
    cases h3
    rw [← h1, h4]

/-! ### The texts are short -/

namespace FloatText

theorem digits_value {q : Rat} (hq : 0 < q) : Digits (value (shortest q).1 (shortest q).2) (shortest q).1.length :=
  ⟨_, _, digits_lt (shortest_digits hq).1.2, by rw [abs_of_pos (value_pos hq)]; rfl⟩

theorem digits_neg {v : Rat} {n : Nat} : Digits (-v) n ↔ Digits v n := by
  unfold Digits
  rw [abs_neg]

theorem digits_mono {v : Rat} {n k : Nat} (h : Digits v n) (hk : n ≤ k) : Digits v k := by
  obtain ⟨c, e, h1, h2⟩ := h
  exact ⟨c, e, lt_of_lt_of_le h1 (Nat.pow_le_pow_right (by decide) hk), h2⟩

/-- A positive number with `n` digits. -/
theorem digits_pos {v : Rat} (hv : 0 < v) {n : Nat} (h : Digits v n) :
    ∃ (c : Nat) (e : Int), c ≠ 0 ∧ width c ≤ n ∧ v = c * (10 : Rat) ^ e := by
  obtain ⟨c, e, h1, h2⟩ := h
  rw [abs_of_pos hv] at h2
  have hc : c ≠ 0 := by
    rintro rfl
    rw [Nat.cast_zero, zero_mul] at h2
    linarith
  refine ⟨c, e, hc, ?_, h2⟩
  rcases Nat.eq_zero_or_pos n with rfl | hn
  · rw [pow_zero] at h1
    omega
  · exact (width_le hn).2 h1

theorem shortest_pos {q : Rat} (hq : 0 < q) (hr : F64.round q = q) {w : Rat} {n : Nat} (hd : Digits w n)
    (hw : toFloat64 w = q) : Digits (written q) n ∧ ((∀ k < n, ¬ Digits (written q) k) → |written q - q| ≤ |w - q|) := by
  obtain ⟨w0, w1⟩ := toFloat_sign hq hw
  obtain ⟨c, e, hc, hcn, rfl⟩ := digits_pos w0 hd
  obtain ⟨h1, h2⟩ := shortest_least hq hr hc w1
  rw [written_pos hq]
  refine ⟨digits_mono (digits_value hq) (by omega), fun hmin => h2 ?_⟩
  by_contra hlt
  exact hmin _ (by omega) (digits_value hq)

end FloatText

/-- C123.  The number that is written has as few digits as any number that is read as `q`, and of
those with as few digits it is the nearest to `q`. -/
theorem C123_shortest (q w : Rat) (n : Nat) (h : Float64 q) (hd : Digits w n) (hw : toFloat64 w = q) :
    ∃ v, readNumber (formatG q).toList = some v ∧ readNumber (formatJson q).toList = some v ∧ Digits v n ∧
      ((∀ k < n, ¬ Digits v k) → |v - q| ≤ |w - q|) := by
  have h := isFloat_iff.2 h
  refine ⟨written q, good_read good_G q, good_read good_Json q, ?_⟩
  rcases lt_trichotomy q 0 with hq | rfl | hq
  · obtain ⟨p, rfl⟩ : ∃ p, q = -p := ⟨-q, by simp⟩
    have hp : 0 < p := by linarith
    have hr : F64.round p = p := by
      rcases h with h | h
      · linarith
      · rwa [abs_neg, abs_of_pos hp] at h
    obtain ⟨u, rfl⟩ : ∃ u, w = -u := ⟨-w, by simp⟩
    obtain ⟨h1, h2⟩ := shortest_pos hp hr (digits_neg.1 hd) (by rw [toFloat_opp] at hw; linarith)
    rw [written_neg hp]
    refine ⟨digits_neg.2 h1, fun hm => ?_⟩
    have := h2 fun k hk hkd => hm k hk (digits_neg.2 hkd)
    rw [show -written p - -p = -(written p - p) by ring, show -u - -p = -(u - p) by ring, abs_neg, abs_neg]
    exact this
  · have e : written 0 = 0 := rfl
    rw [e, sub_zero, abs_zero]
    exact ⟨⟨0, 0, by positivity, by simp⟩, fun _ => abs_nonneg _⟩
  · have hr : F64.round q = q := by
      rcases h with h | h
      · linarith
      · rwa [abs_of_pos hq] at h
    exact shortest_pos hq hr hd hw

namespace FloatText

/-! ### Fifteen digits -/

theorem multiple {c : Nat} {e D : Int} (hw : (width c : Int) ≤ 15) (hD : D - 1 < e + width c) (hD2 : D - 15 ≤ e) :
    ∃ i : Int, (c : Rat) * (10 : Rat) ^ e = i * (10 : Rat) ^ (D - 15) := by
  obtain ⟨k, hk⟩ := Int.eq_ofNat_of_zero_le (show 0 ≤ e - (D - 15) by omega)
  refine ⟨c * 10 ^ k, ?_⟩
  push_cast
  rw [mul_assoc, ← zpow_natCast, ← zpow_add₀ (by norm_num)]
  congr 2
  omega

/-- Two numbers with a common last place among fifteen that are rounded to the same number are
equal. -/
theorem same_round {a b : Rat} {D : Int} (ha : F64.pow2 (-1022) ≤ a) (hb : F64.pow2 (-1022) ≤ b)
    (ha2 : a ≤ (10 : Rat) ^ D) (hb2 : b ≤ (10 : Rat) ^ D) {i j : Int} (hi : a = i * (10 : Rat) ^ (D - 15))
    (hj : b = j * (10 : Rat) ^ (D - 15)) (h : F64.round a = F64.round b) : a = b := by
  have h1 := F64.round_error ha
  have h2 := F64.round_error hb
  rw [← h] at h2
  have hp : (0 : Rat) < (10 : Rat) ^ (D - 15) := by positivity
  have e53 : F64.pow2 (-53) = 1 / 2 ^ 53 := by rw [F64.pow2_eq]; norm_num
  have hD : (10 : Rat) ^ D = 10 ^ 15 * (10 : Rat) ^ (D - 15) := by
    rw [← zpow_natCast, ← zpow_add₀ (by norm_num)]
    congr 1
    omega
  rw [e53] at h1 h2
  rw [abs_le] at h1 h2
  have hlt : |a - b| < (10 : Rat) ^ (D - 15) := by
    rw [abs_lt]
    rw [hD] at ha2 hb2
    constructor <;> nlinarith
  rw [hi, hj, ← sub_mul, abs_mul, abs_of_pos hp] at hlt
  have hij : |((i - j : Int) : Rat)| < 1 := by
    push_cast
    by_contra hc
    have := mul_le_mul_of_nonneg_right (not_lt.1 hc) hp.le
    linarith
  have : |i - j| < 1 := by exact_mod_cast hij
  have : i = j := by
    have := Int.abs_lt_one_iff.1 this
    omega
  rw [hi, hj, this]

theorem decade {c : Nat} (hc : c ≠ 0) (e : Int) :
    (10 : Rat) ^ (e + width c - 1) ≤ c * (10 : Rat) ^ e ∧ (c : Rat) * (10 : Rat) ^ e < (10 : Rat) ^ (e + width c) := by
  obtain ⟨w1, w2⟩ := width_spec hc
  have wp := width_pos c
  constructor
  · have : ((10 ^ (width c - 1) : Nat) : Rat) ≤ c := by exact_mod_cast w1
    refine le_trans (le_of_eq ?_) (mul_le_mul_of_nonneg_right this (by positivity))
    push_cast
    rw [← zpow_natCast, ← zpow_add₀ (by norm_num)]
    congr 1
    omega
  · have : (c : Rat) < ((10 ^ width c : Nat) : Rat) := by exact_mod_cast w2
    refine lt_of_lt_of_le (mul_lt_mul_of_pos_right this (by positivity)) (le_of_eq ?_)
    push_cast
    rw [← zpow_natCast, ← zpow_add₀ (by norm_num)]
    congr 1
    omega

theorem same_fifteen {c d : Nat} {e f : Int} (hc : c ≠ 0) (hd : d ≠ 0) (wc : width c ≤ 15) (wd : width d ≤ 15)
    (h1 : F64.pow2 (-1022) ≤ c * (10 : Rat) ^ e) (h2 : F64.pow2 (-1022) ≤ d * (10 : Rat) ^ f)
    (hle : e + width c ≤ f + width d) (h : F64.round (c * (10 : Rat) ^ e) = F64.round (d * (10 : Rat) ^ f)) :
    (c : Rat) * (10 : Rat) ^ e = d * (10 : Rat) ^ f := by
  obtain ⟨c1, c2⟩ := decade hc e
  obtain ⟨d1, d2⟩ := decade hd f
  obtain ⟨i, hi⟩ := multiple (c := c) (e := e) (D := e + width c) (by omega) (by omega) (by omega)
  rcases eq_or_lt_of_le hle with heq | hlt
  · obtain ⟨j, hj⟩ := multiple (c := d) (e := f) (D := e + width c) (by omega) (by omega) (by omega)
    exact same_round h1 h2 c2.le (by rw [heq]; exact d2.le) hi hj h
  · exfalso
    have hp0 : 0 < (c : Rat) * (10 : Rat) ^ e := lt_of_lt_of_le (F64.pow2_pos _) h1
    have hp : (10 : Rat) ^ (e + width c) ≤ d * (10 : Rat) ^ f :=
      le_trans (zpow_le_zpow_right₀ (by norm_num) (by omega)) d1
    have hr := round_between hp0 c2.le hp h rfl
    have hj : (10 : Rat) ^ (e + width c) = ((10 ^ 15 : Int) : Rat) * (10 : Rat) ^ (e + width c - 15) := by
      rw [show ((10 ^ 15 : Int) : Rat) = (10 : Rat) ^ (15 : Nat) by norm_num, ← zpow_natCast, ← zpow_add₀ (by norm_num)]
      congr 1
      omega
    have := same_round h1 (le_trans h1 c2.le) c2.le (le_refl _) hi hj (by rw [hr, h])
    linarith

theorem fifteen_pos {v : Rat} (hv : (10 : Rat) ^ (-307 : Int) ≤ v) (hd : Digits v 15) : written (F64.round v) = v := by
  have hv0 : 0 < v := lt_of_lt_of_le (by positivity) hv
  have hbig : F64.pow2 (-1021) ≤ v := by
    refine le_trans ?_ hv
    decide +kernel
  have hq1 : F64.pow2 (-1021) ≤ F64.round v := (round_pow2 hv0 (by norm_num)).1 hbig
  have hq : 0 < F64.round v := lt_of_lt_of_le (F64.pow2_pos _) hq1
  have hr := round_round hv0
  have hs := shortest_round hq hr
  obtain ⟨c, e, hc, hcn, rfl⟩ := digits_pos hv0 hd
  obtain ⟨hl, _⟩ := shortest_least hq hr hc rfl
  rw [written_pos hq]
  have hw0 := value_pos hq
  have hw : F64.pow2 (-1022) ≤ value (shortest (F64.round (c * (10 : Rat) ^ e))).1 (shortest (F64.round (c * (10 : Rat) ^ e))).2 := by
    by_contra hlt
    have := (round_pow2 hw0 (e := -1022) (by norm_num)).2 (not_le.1 hlt).le
    rw [hs] at this
    have : F64.pow2 (-1021) ≤ F64.pow2 (-1022) := le_trans hq1 this
    exact absurd this (by decide +kernel)
  have hv22 : F64.pow2 (-1022) ≤ c * (10 : Rat) ^ e := le_trans (by decide +kernel) hbig
  have hdig := (shortest_digits hq)
  generalize hds : (shortest (F64.round (c * (10 : Rat) ^ e))).1 = ds at *
  generalize (shortest (F64.round (c * (10 : Rat) ^ e))).2 = d at *
  have hn0 : digitsNumber ds ≠ 0 := by
    intro h0
    unfold value at hw0
    rw [h0] at hw0
    simp at hw0
  have hwd : width (digitsNumber ds) ≤ 15 := by
    refine le_trans ((width_le (List.length_pos_iff.2 hdig.1.1)).2 (digits_lt hdig.1.2)) (by omega)
  unfold value at hs hw ⊢
  rcases le_total (d - ds.length + width (digitsNumber ds)) (e + width c) with hle | hle
  · exact same_fifteen hn0 hc hwd hcn hw hv22 hle hs
  · exact (same_fifteen hc hn0 hcn hwd hv22 hw hle hs.symm).symm

end FloatText

/-- C123.  A number with at most fifteen digits that is not tiny comes back exactly: the text that is
written for the nearest floating point number is a text of the same number. -/
theorem C123_fifteen (v : Rat) (hd : Digits v 15) (hv : v = 0 ∨ (10 : Rat) ^ (-307 : Int) ≤ |v|) :
    readNumber (formatG (toFloat64 v)).toList = some v ∧ readNumber (formatJson (toFloat64 v)).toList = some v := by
  have key : written (toFloat64 v) = v := by
    rcases hv with rfl | hv
    · rfl
    · rcases lt_trichotomy v 0 with h | rfl | h
      · obtain ⟨p, rfl⟩ : ∃ p, v = -p := ⟨-v, by simp⟩
        have hp : 0 < p := by linarith
        rw [abs_neg, abs_of_pos hp] at hv
        have hq : 0 < F64.round p := lt_of_lt_of_le (F64.pow2_pos (-1021))
          ((round_pow2 hp (by norm_num)).1 (le_trans (by decide +kernel) hv))
        rw [toFloat_neg hp, written_neg hq, fifteen_pos hv (digits_neg.1 hd)]
      · rfl
      · rw [abs_of_pos h] at hv
        rw [toFloat_pos h, fifteen_pos hv hd]
  rw [formatG, formatJson, good_read good_G, good_read good_Json, key]
  exact ⟨rfl, rfl⟩

/-! ### When there is an exponent -/

namespace FloatText

theorem e_digit : ('e' : Char).isDigit = false := by decide

theorem mem_F {ds : List Char} (hd : AllDigits ds) (d : Int) : ∀ c ∈ fmtF ds d, c.isDigit = true ∨ c = '.' := by
  intro c hc
  unfold fmtF at hc
  split_ifs at hc
  · simp only [List.mem_cons, List.mem_append] at hc
    rcases hc with rfl | rfl | h | h
    · left; decide
    · exact .inr rfl
    · exact .inl (zeros_digits _ c h)
    · exact .inl (hd.2 c h)
  · rcases List.mem_append.1 hc with h | h
    · exact .inl (hd.2 c h)
    · exact .inl (zeros_digits _ c h)
  · simp only [List.mem_cons, List.mem_append] at hc
    rcases hc with h | rfl | h
    · exact .inl (hd.2 c (List.mem_of_mem_take h))
    · exact .inr rfl
    · exact .inl (hd.2 c (List.mem_of_mem_drop h))

theorem no_e_F {ds : List Char} (hd : AllDigits ds) (d : Int) : 'e' ∉ fmtF ds d := by
  intro h
  rcases mem_F hd d _ h with h | h
  · rw [e_digit] at h; cases h
  · exact absurd h (by decide)

/-- Positions and powers of ten: the number that is written lies below the power exactly if `q` lies
below the floating point number nearest to the power. -/
theorem below_iff {q : Rat} (hq : 0 < q) (hr : F64.round q = q) (e : Int)
    (h9 : F64.round (9 * (10 : Rat) ^ (e - 1)) < F64.round ((10 : Rat) ^ e)) :
    (shortest q).2 ≤ e ↔ q < F64.round ((10 : Rat) ^ e) := by
  have hds := shortest_digits hq
  obtain ⟨r1, r2⟩ := value_range hds.1 hds.2 (shortest q).2
  have hs := shortest_round hq hr
  have hv := value_pos hq
  have h10 : (0 : Rat) < (10 : Rat) ^ e := by positivity
  constructor
  · intro hle
    have hlt : value (shortest q).1 (shortest q).2 < (10 : Rat) ^ e :=
      lt_of_lt_of_le r2 (zpow_le_zpow_right₀ (by norm_num) hle)
    have h1 : q ≤ F64.round ((10 : Rat) ^ e) := by
      rw [← hs]
      exact round_mono hv hlt.le
    refine lt_of_le_of_ne h1 fun heq => ?_
    have hone : F64.round ((1 : Nat) * (10 : Rat) ^ e) = q := by rw [Nat.cast_one, one_mul, ← heq]
    obtain ⟨hl, _⟩ := shortest_least hq hr (by decide) hone
    have hl1 : (shortest q).1.length = 1 := by
      have := List.length_pos_iff.2 hds.1.1
      have : width 1 = 1 := by decide
      omega
    have hd9 : digitsNumber (shortest q).1 ≤ 9 := by
      have := digits_lt hds.1.2
      rw [hl1] at this
      omega
    have hle9 : value (shortest q).1 (shortest q).2 ≤ 9 * (10 : Rat) ^ (e - 1) := by
      unfold value
      rw [hl1]
      have a : (digitsNumber (shortest q).1 : Rat) ≤ 9 := by exact_mod_cast hd9
      have b : (10 : Rat) ^ ((shortest q).2 - ((1 : Nat) : Int)) ≤ (10 : Rat) ^ (e - 1) :=
        zpow_le_zpow_right₀ (by norm_num) (by push_cast; omega)
      exact mul_le_mul a b (by positivity) (by norm_num)
    have := round_mono hv hle9
    rw [hs, heq] at this
    linarith
  · intro hlt
    by_contra hgt
    have : (10 : Rat) ^ e ≤ value (shortest q).1 (shortest q).2 :=
      le_trans (zpow_le_zpow_right₀ (by norm_num) (by omega)) r1
    have := round_mono h10 this
    rw [hs] at this
    linarith

theorem nine_m4 : F64.round (9 * (10 : Rat) ^ ((-4 : Int) - 1)) < F64.round ((10 : Rat) ^ (-4 : Int)) := by decide +kernel
theorem nine_m9 : F64.round (9 * (10 : Rat) ^ ((-9 : Int) - 1)) < F64.round ((10 : Rat) ^ (-9 : Int)) := by decide +kernel
theorem nine_m6 : F64.round (9 * (10 : Rat) ^ ((-6 : Int) - 1)) < F64.round ((10 : Rat) ^ (-6 : Int)) := by decide +kernel
theorem nine_6 : F64.round (9 * (10 : Rat) ^ ((6 : Int) - 1)) < F64.round ((10 : Rat) ^ (6 : Int)) := by decide +kernel
theorem nine_21 : F64.round (9 * (10 : Rat) ^ ((21 : Int) - 1)) < F64.round ((10 : Rat) ^ (21 : Int)) := by decide +kernel
theorem ten_6 : F64.round ((10 : Rat) ^ (6 : Int)) = (10 : Rat) ^ (6 : Int) := by decide +kernel
theorem ten_21 : F64.round ((10 : Rat) ^ (21 : Int)) = (10 : Rat) ^ (21 : Int) := by decide +kernel

/-- The numbers with an exponent. -/
theorem unsignedG_eq {q : Rat} (hq : 0 < q) (hr : F64.round q = q) : unsignedG q =
    if q < F64.round ((10 : Rat) ^ (-4 : Int)) ∨ (10 : Rat) ^ (6 : Int) ≤ q then
      mantissa (shortest q).1 ++ 'e' :: exponent ((shortest q).2 - 1) else fmtF (shortest q).1 (shortest q).2 := by
  have h1 := below_iff hq hr (-4) nine_m4
  have h2 := below_iff hq hr 6 nine_6
  rw [ten_6] at h2
  unfold unsignedG
  simp only [fmtE_eq]
  congr 1
  rw [← h1, ← not_lt (b := (10 : Rat) ^ (6 : Int)), ← h2, eq_iff_iff]
  omega

theorem unsignedJson_eq (q : Rat) : unsignedJson q =
    if q < F64.round ((10 : Rat) ^ (-6 : Int)) ∨ (10 : Rat) ^ (21 : Int) ≤ q then
      mantissa (shortest q).1 ++ 'e' :: jsonExponent ((shortest q).2 - 1) else fmtF (shortest q).1 (shortest q).2 := by
  unfold unsignedJson
  simp only [fmtE_eq, clean_E, pow10_eq]

theorem isFloat_abs {q : Rat} (h : IsFloat q) (h0 : q ≠ 0) : 0 < |q| ∧ F64.round |q| = |q| :=
  ⟨abs_pos.2 h0, h.resolve_left h0⟩

theorem signed_abs (f : Rat → List Char) {q : Rat} (h0 : q ≠ 0) :
    (signed f q).toList = (if q < 0 then ['-'] else []) ++ f |q| := by
  rcases lt_or_gt_of_ne h0 with h | h
  · rw [if_pos h]
    have := signed_neg f (q := -q) (by linarith)
    rw [neg_neg] at this
    rw [this, abs_of_neg h]
    rfl
  · rw [if_neg (not_lt.2 h.le), signed_pos f h, abs_of_pos h]
    rfl

end FloatText

/-- C123.  Outside JSON there is an exponent from a million on, and below a ten-thousandth. -/
theorem C123_exponent_iff (q : Rat) (h : Float64 q) : 'e' ∈ (formatG q).toList ↔
    q ≠ 0 ∧ (|q| < toFloat64 (1 / 10000) ∨ 1000000 ≤ |q|) := by
  have h := isFloat_iff.2 h
  by_cases h0 : q = 0
  · subst h0
    simp only [ne_eq, not_true_eq_false, false_and, iff_false]
    decide +kernel
  · obtain ⟨ha, hr⟩ := isFloat_abs h h0
    have e1 : toFloat64 (1 / 10000) = F64.round ((10 : Rat) ^ (-4 : Int)) := by decide +kernel
    have e2 : ((1000000 : Rat)) = (10 : Rat) ^ (6 : Int) := by norm_num
    rw [formatG, signed_abs _ h0, unsignedG_eq ha hr, e1, e2]
    have hs : 'e' ∉ (if q < 0 then ['-'] else []) := by split <;> simp
    rw [List.mem_append, or_iff_right hs]
    simp only [ne_eq, h0, not_false_eq_true, true_and]
    split
    · rename_i hc
      exact ⟨fun _ => hc, fun _ => by simp⟩
    · rename_i hc
      exact ⟨fun he => absurd he (no_e_F (shortest_digits ha).1 _), fun he => absurd he hc⟩

/-- C123.  In JSON there is an exponent from 10²¹ on, and below a millionth. -/
theorem C123_json_exponent_iff (q : Rat) (h : Float64 q) : 'e' ∈ (formatJson q).toList ↔
    q ≠ 0 ∧ (|q| < toFloat64 (1 / 1000000) ∨ 10 ^ 21 ≤ |q|) := by
  have h := isFloat_iff.2 h
  by_cases h0 : q = 0
  · subst h0
    simp only [ne_eq, not_true_eq_false, false_and, iff_false]
    decide +kernel
  · obtain ⟨ha, hr⟩ := isFloat_abs h h0
    have e1 : toFloat64 (1 / 1000000) = F64.round ((10 : Rat) ^ (-6 : Int)) := by decide +kernel
    have e2 : ((10 : Rat) ^ 21) = (10 : Rat) ^ (21 : Int) := by norm_num
    rw [formatJson, signed_abs _ h0, unsignedJson_eq, e1, e2]
    have hs : 'e' ∉ (if q < 0 then ['-'] else []) := by split <;> simp
    rw [List.mem_append, or_iff_right hs]
    simp only [ne_eq, h0, not_false_eq_true, true_and]
    split
    · rename_i hc
      exact ⟨fun _ => hc, fun _ => by simp⟩
    · rename_i hc
      exact ⟨fun he => absurd he (no_e_F (shortest_digits ha).1 _), fun he => absurd he hc⟩

namespace FloatText

theorem mantissa_ne_F {ds : List Char} (hd : AllDigits ds) (d : Int) (t : List Char) : mantissa ds ++ 'e' :: t ≠ fmtF ds d := by
  intro h
  exact no_e_F hd d (h ▸ by simp)

theorem jsonExponent_eq_iff (e : Int) : exponent e = jsonExponent e ↔ ¬ (-10 < e ∧ e < 0) := by
  unfold jsonExponent
  by_cases h : -10 < e ∧ e < 0
  · rw [if_pos h]
    refine ⟨fun he => ?_, fun hn => absurd h hn⟩
    rw [exponent_eq, if_pos h.2, expDigits, if_pos (by omega)] at he
    have := congrArg List.length he
    simp at this
  · rw [if_neg h]
    exact ⟨fun _ => h, fun _ => rfl⟩

theorem same_text {q : Rat} (hq : 0 < q) (hr : F64.round q = q) : unsignedG q = unsignedJson q ↔
    q < F64.round ((10 : Rat) ^ (-9 : Int)) ∨ (F64.round ((10 : Rat) ^ (-4 : Int)) ≤ q ∧ q < (10 : Rat) ^ (6 : Int)) ∨
      (10 : Rat) ^ (21 : Int) ≤ q := by
  have hd := (shortest_digits hq).1
  have h9 := below_iff hq hr (-9) nine_m9
  have h6 := below_iff hq hr (-6) nine_m6
  have h21 := below_iff hq hr 21 nine_21
  rw [ten_21] at h21
  have o1 : F64.round ((10 : Rat) ^ (-9 : Int)) < F64.round ((10 : Rat) ^ (-6 : Int)) := by decide +kernel
  have o2 : F64.round ((10 : Rat) ^ (-6 : Int)) < F64.round ((10 : Rat) ^ (-4 : Int)) := by decide +kernel
  have o3 : F64.round ((10 : Rat) ^ (-4 : Int)) < (10 : Rat) ^ (6 : Int) := by decide +kernel
  have o4 : (10 : Rat) ^ (6 : Int) < (10 : Rat) ^ (21 : Int) := by norm_num
  rw [unsignedG_eq hq hr, unsignedJson_eq]
  by_cases c1 : q < F64.round ((10 : Rat) ^ (-6 : Int))
  · rw [if_pos (.inl (by linarith)), if_pos (.inl c1)]
    have : (mantissa (shortest q).1 ++ 'e' :: exponent ((shortest q).2 - 1) =
        mantissa (shortest q).1 ++ 'e' :: jsonExponent ((shortest q).2 - 1)) ↔ (shortest q).2 ≤ -9 := by
      rw [List.append_cancel_left_eq, List.cons.injEq, jsonExponent_eq_iff]
      have := h6.2 c1
      simp only [true_and]
      omega
    rw [this, h9]
    refine ⟨.inl, ?_⟩
    rintro (h | ⟨h, _⟩ | h)
    · exact h
    · linarith
    · linarith
  · push Not at c1
    by_cases c2 : q < F64.round ((10 : Rat) ^ (-4 : Int))
    · rw [if_pos (.inl c2), if_neg (by rintro (h | h) <;> linarith)]
      refine ⟨fun h => absurd h (mantissa_ne_F hd _ _), ?_⟩
      rintro (h | ⟨h, _⟩ | h) <;> exfalso <;> linarith
    · push Not at c2
      by_cases c3 : q < (10 : Rat) ^ (6 : Int)
      · rw [if_neg (by rintro (h | h) <;> linarith), if_neg (by rintro (h | h) <;> linarith)]
        exact ⟨fun _ => .inr (.inl ⟨c2, c3⟩), fun _ => rfl⟩
      · push Not at c3
        by_cases c4 : q < (10 : Rat) ^ (21 : Int)
        · rw [if_pos (.inr c3), if_neg (by rintro (h | h) <;> linarith)]
          refine ⟨fun h => absurd h (mantissa_ne_F hd _ _), ?_⟩
          rintro (h | ⟨_, h⟩ | h) <;> exfalso <;> linarith
        · push Not at c4
          rw [if_pos (.inr c3), if_pos (.inr c4)]
          refine ⟨fun _ => .inr (.inr c4), fun _ => ?_⟩
          have : ¬ (shortest q).2 ≤ 21 := by rw [h21]; linarith
          rw [(jsonExponent_eq_iff _).2 (by omega)]

end FloatText

/-- C123.  The text of a number in JSON is the text outside JSON, except between 10⁻⁹ and 10⁻⁴ and
between 10⁶ and 10²¹. -/
theorem C123_same_iff (q : Rat) (h : Float64 q) : formatG q = formatJson q ↔
    q = 0 ∨ |q| < toFloat64 (1 / 10 ^ 9) ∨ (toFloat64 (1 / 10000) ≤ |q| ∧ |q| < 1000000) ∨ 10 ^ 21 ≤ |q| := by
  have h := isFloat_iff.2 h
  by_cases h0 : q = 0
  · subst h0
    exact ⟨fun _ => .inl rfl, fun _ => by decide +kernel⟩
  · obtain ⟨ha, hr⟩ := isFloat_abs h h0
    have e1 : toFloat64 (1 / 10000) = F64.round ((10 : Rat) ^ (-4 : Int)) := by decide +kernel
    have e2 : ((1000000 : Rat)) = (10 : Rat) ^ (6 : Int) := by norm_num
    have e3 : ((10 : Rat) ^ 21) = (10 : Rat) ^ (21 : Int) := by norm_num
    have e4 : toFloat64 (1 / 10 ^ 9) = F64.round ((10 : Rat) ^ (-9 : Int)) := by decide +kernel
    rw [← String.toList_inj, formatG, formatJson, signed_abs _ h0, signed_abs _ h0, List.append_cancel_left_eq, same_text ha hr,
      e1, e2, e3, e4, or_iff_right h0]

/-! ### JSON accepts the texts -/

namespace FloatText

theorem isDigits_iff {s : List Char} : isDigits s = true ↔ AllDigits s := by
  unfold isDigits AllDigits
  simp

theorem whole_one {ds : List Char} (hd : AllDigits ds) : isWhole (ds.take 1) = true := by
  cases ds with
  | nil => exact absurd rfl hd.1
  | cons c s =>
    have hc := hd.2 c (by simp)
    simp only [List.take_succ_cons, List.take_zero]
    unfold isWhole isDigits
    by_cases h : c = '0'
    · simp [h, Char.isDigit]
    · simp [h, hc]

theorem isExp_json (e : Int) : isExp ('e' :: jsonExponent e) = true := by
  unfold jsonExponent
  split
  · rename_i h
    have : e.natAbs < 10 := by omega
    generalize e.natAbs = n at this
    interval_cases n <;> decide
  · rw [exponent_eq]
    have h := isDigits_iff.2 (expDigits_spec e.natAbs).1
    split
    · simpa [isExp, isExponent] using h
    · simpa [isExp, isExponent] using h

theorem isUnsigned_whole {ds rest : List Char} (hd : ∀ c ∈ ds, c.isDigit = true) (hw : isWhole ds = true)
    (hr : ∀ c, rest.head? = some c → c.isDigit = false) (h : isFraction rest = true) : isUnsigned (ds ++ rest) = true := by
  obtain ⟨h1, h2⟩ := take_digits hd hr
  unfold isUnsigned
  rw [h1, h2, hw, h]
  rfl

theorem isFraction_dot {fs rest : List Char} (hf : AllDigits fs) (hr : ∀ c, rest.head? = some c → c.isDigit = false)
    (h : isExp rest = true) : isFraction ('.' :: (fs ++ rest)) = true := by
  obtain ⟨h1, h2⟩ := take_digits hf.2 hr
  simp only [isFraction, h1, h2, isDigits_iff.2 hf, h, Bool.and_self]

theorem whole_head {ds : List Char} (hd : AllDigits ds) (h0 : ds.head? ≠ some '0') : isWhole ds = true := by
  unfold isWhole
  rw [isDigits_iff.2 hd]
  simp [h0]

theorem isUnsigned_Json {q : Rat} (hq : 0 < q) : isUnsigned (unsignedJson q) = true := by
  obtain ⟨hd, h0⟩ := shortest_digits hq
  rw [unsignedJson_eq]
  generalize (shortest q).1 = ds at hd h0
  generalize (shortest q).2 = d
  have hl : 0 < ds.length := List.length_pos_iff.2 hd.1
  have nohead : ∀ c, ([] : List Char).head? = some c → c.isDigit = false := by intro c hc; cases hc
  split
  · unfold mantissa
    rw [List.append_assoc]
    refine isUnsigned_whole (allDigits_take hd (by decide)).2 (whole_one hd) ?_ ?_
    · split
      · exact e_head _
      · intro c hc; cases hc; decide
    · split
      · simpa [isFraction] using isExp_json (d - 1)
      · rename_i hne
        rw [List.cons_append]
        exact isFraction_dot (allDigits_drop hd (by
          by_contra hc
          exact hne (List.drop_eq_nil_of_le (by omega)))) (e_head _) (isExp_json _)
  · unfold fmtF
    split_ifs with h1 h2
    · refine isUnsigned_whole (ds := ['0']) (rest := '.' :: _) (by decide) (by decide) ?_ ?_
      · intro c hc; cases hc; decide
      · have := isFraction_dot (fs := List.replicate (-d).toNat '0' ++ ds) (rest := []) ⟨by simp [hd.1], fun c hc => by
          rcases List.mem_append.1 hc with h | h
          · exact zeros_digits _ c h
          · exact hd.2 c h⟩ nohead (by decide)
        rwa [List.append_nil] at this
    · have := isUnsigned_whole (ds := ds ++ List.replicate (d.toNat - ds.length) '0') (rest := []) (fun c hc => by
          rcases List.mem_append.1 hc with h | h
          · exact hd.2 c h
          · exact zeros_digits _ c h) (whole_head ⟨by simp [hd.1], fun c hc => by
          rcases List.mem_append.1 hc with h | h
          · exact hd.2 c h
          · exact zeros_digits _ c h⟩ (by
            cases ds with
            | nil => exact absurd rfl hd.1
            | cons c s => simpa using h0)) nohead (by decide)
      rwa [List.append_nil] at this
    · refine isUnsigned_whole (allDigits_take hd (n := d.toNat) (by omega)).2 (whole_head (allDigits_take hd (by omega)) ?_) ?_ ?_
      · cases ds with
        | nil => exact absurd rfl hd.1
        | cons c s =>
          obtain ⟨n, hn⟩ : ∃ n, d.toNat = n + 1 := ⟨d.toNat - 1, by omega⟩
          rw [hn]
          simpa using h0
      · intro c hc; cases hc; decide
      · have := isFraction_dot (fs := ds.drop d.toNat) (rest := []) (allDigits_drop hd (by omega)) nohead (by decide)
        rwa [List.append_nil] at this

theorem isNumber_of_unsigned {s : List Char} (h : isUnsigned s = true) : isNumber s = true := by
  unfold isNumber
  split
  · rename_i r
    exfalso
    have : isUnsigned ('-' :: r) = false := by
      unfold isUnsigned isWhole isDigits
      simp [show ('-' : Char).isDigit = false from by decide]
    rw [this] at h
    cases h
  · exact h

end FloatText

/-- C123.  What is written is a number of JSON. -/
theorem C123_number (q : Rat) : isNumber (formatJson q).toList = true := by
  rcases lt_trichotomy q 0 with h | rfl | h
  · obtain ⟨p, rfl⟩ : ∃ p, q = -p := ⟨-q, by simp⟩
    have hp : 0 < p := by linarith
    rw [formatJson, signed_neg _ hp]
    exact isUnsigned_Json hp
  · decide +kernel
  · rw [formatJson, signed_pos _ h]
    exact isNumber_of_unsigned (isUnsigned_Json h)

/-! ### Whole numbers -/

namespace FloatText

theorem digitChar_value {c : Char} (h : c.isDigit = true) : Nat.digitChar (c.toNat - 48) = c := by
  have hall : ∀ c ∈ Spec.decimalDigits, Nat.digitChar (c.toNat - 48) = c := by decide
  exact hall c ((Units.isDigit_iff c).1 (Units.isDigit_core c h))

/-- Digits without a leading zero are the digits of their number. -/
theorem digits_unique {s : List Char} (hd : AllDigits s) (h0 : s.head? ≠ some '0') : Nat.toDigits 10 (digitsNumber s) = s := by
  induction s using List.reverseRecOn with
  | nil => exact absurd rfl hd.1
  | append_singleton s c ih =>
    have hc := hd.2 c (by simp)
    obtain ⟨v1, v2⟩ := digit_value hc
    rw [Units.decimal_snoc]
    rcases s with _ | ⟨x, s⟩
    · simp only [digitsNumber, List.foldl_nil, Nat.mul_zero, Nat.zero_add, List.nil_append]
      rw [Nat.toDigits_of_lt_base v1, digitChar_value hc]
    · have hd' : AllDigits (x :: s) := ⟨by simp, fun y hy => hd.2 y (by simp only [List.mem_append]; exact .inl hy)⟩
      have h0' : (x :: s).head? ≠ some '0' := by simpa using h0
      have h1 := digits_ge hd'.2 hd'.1 h0'
      have h2 : 1 ≤ digitsNumber (x :: s) := le_trans (Nat.one_le_pow _ _ (by decide)) h1
      rw [Nat.toDigits_of_base_le (by decide) (by omega)]
      rw [show (10 * digitsNumber (x :: s) + (c.toNat - 48)) / 10 = digitsNumber (x :: s) by omega,
        show (10 * digitsNumber (x :: s) + (c.toNat - 48)) % 10 = c.toNat - 48 by omega, ih hd' h0', digitChar_value hc]

theorem shortest_last {q : Rat} (hq : 0 < q) : ¬ 10 ∣ digitsNumber (shortest q).1 := by
  intro h
  obtain ⟨m, n, _, hd, _⟩ := shortest_value hq
  obtain ⟨h1, _⟩ := shortest_digits hq
  have hl := trim_last (Nat.toDigits 10 m)
  rw [← hd] at hl
  rcases List.eq_nil_or_concat (shortest q).1 with e | ⟨a, c, e⟩
  · exact h1.1 e
  · rw [List.concat_eq_append] at e
    rw [e] at h hl h1
    have hc := digit_value (h1.2 c (by simp))
    rw [Units.decimal_snoc] at h
    have : c.toNat - 48 = 0 := by omega
    exact hl (by simp [hc.2 this])

theorem natCast_digits {n : Nat} (h : n < 10 ^ 15) : Digits (n : Rat) 15 :=
  ⟨n, 0, h, by simp⟩

theorem whole_text {n : Nat} (h0 : n ≠ 0) (h : n < 1000000) : unsignedG (n : Rat) = Nat.toDigits 10 n := by
  have hq : (0 : Rat) < n := by exact_mod_cast Nat.pos_of_ne_zero h0
  have h1 : (1 : Rat) ≤ n := by exact_mod_cast Nat.pos_of_ne_zero h0
  have hr : F64.round (n : Rat) = n := Units.round_nat h0 (by omega)
  have hw := fifteen_pos (v := (n : Rat)) (le_trans (by decide +kernel) h1) (natCast_digits (by omega))
  rw [hr, written_pos hq] at hw
  have hn4 : F64.round ((10 : Rat) ^ (-4 : Int)) ≤ 1 := by decide +kernel
  have hn6 : (n : Rat) < (10 : Rat) ^ (6 : Int) := by
    rw [show (10 : Rat) ^ (6 : Int) = ((1000000 : Nat) : Rat) by norm_num]
    exact_mod_cast h
  rw [unsignedG_eq hq hr, if_neg (by rintro (h | h) <;> linarith)]
  have hlast := shortest_last hq
  obtain ⟨hd, hh⟩ := shortest_digits hq
  obtain ⟨r1, r2⟩ := value_range hd hh (shortest (n : Rat)).2
  rw [hw] at r2
  generalize (shortest (n : Rat)).1 = ds at *
  generalize (shortest (n : Rat)).2 = d at *
  unfold fmtF
  split_ifs with c1 c2
  · have : (10 : Rat) ^ d ≤ (10 : Rat) ^ (0 : Int) := zpow_le_zpow_right₀ (by norm_num) c1
    rw [zpow_zero] at this
    linarith
  · have hv : digitsNumber (ds ++ List.replicate (d.toNat - ds.length) '0') = n := by
      rw [digits_snoc_zeros]
      unfold value at hw
      have : ((digitsNumber ds * 10 ^ (d.toNat - ds.length) : Nat) : Rat) = n := by
        push_cast
        rw [← hw, ← zpow_natCast]
        congr 2
        omega
      exact_mod_cast this
    conv_rhs => rw [← hv]
    refine (digits_unique ⟨by simp [hd.1], fun c hc => ?_⟩ ?_).symm
    · rcases List.mem_append.1 hc with h | h
      · exact hd.2 c h
      · exact zeros_digits _ c h
    · cases ds with
      | nil => exact absurd rfl hd.1
      | cons c s => simpa using hh
  · exfalso
    refine hlast ⟨n * 10 ^ (ds.length - d.toNat - 1), ?_⟩
    have : (digitsNumber ds : Rat) = ((10 * (n * 10 ^ (ds.length - d.toNat - 1)) : Nat) : Rat) := by
      push_cast
      rw [← hw]
      unfold value
      rw [← zpow_natCast, show (10 : Rat) * (digitsNumber ds * 10 ^ (d - ds.length) * 10 ^ (((ds.length - d.toNat - 1 : Nat)) : Int)) =
        digitsNumber ds * (10 ^ (1 : Int) * (10 ^ (d - ds.length) * 10 ^ (((ds.length - d.toNat - 1 : Nat)) : Int))) by ring,
        ← zpow_add₀ (by norm_num), ← zpow_add₀ (by norm_num), show (1 : Int) + (d - ds.length + ((ds.length - d.toNat - 1 : Nat) : Int)) = 0 by omega,
        zpow_zero, mul_one]
    exact_mod_cast this

/-- The text of an integer. -/
theorem int_text (n : Nat) : (toString (n : Int)).toList = Nat.toDigits 10 n ∧
    (n ≠ 0 → (toString (-(n : Int))).toList = '-' :: Nat.toDigits 10 n) := by
  have h1 : (toString (n : Int)).toList = Nat.toDigits 10 n := by
    change (Nat.repr n).toList = _
    simp [Nat.repr]
  refine ⟨h1, fun h => ?_⟩
  obtain ⟨k, rfl⟩ := Nat.exists_eq_succ_of_ne_zero h
  change (toString (Int.negSucc k)).toList = _
  have : toString (Int.negSucc k) = "-" ++ Nat.repr (k + 1) := rfl
  rw [this, String.toList_append]
  simp [Nat.repr]

theorem read_int (i : Int) : readNumber (toString i).toList = some (i : Rat) := by
  have hn : ∀ n : Nat, readUnsigned (Nat.toDigits 10 n) = some (n : Rat) := by
    intro n
    have := read_whole (rest := []) (toDigits_allDigits n) (by intro c hc; cases hc) (by simp) (x := 0) rfl
    rwa [List.append_nil, Units.decimal_toDigits, zpow_zero, mul_one] at this
  rcases le_or_gt 0 i with h | h
  · obtain ⟨n, rfl⟩ := Int.eq_ofNat_of_zero_le h
    rw [(int_text n).1, readNumber_pos (hn n)]
    rfl
  · obtain ⟨n, hn'⟩ := Int.eq_ofNat_of_zero_le (show 0 ≤ -i by omega)
    obtain rfl : i = -(n : Int) := by omega
    rw [(int_text n).2 (by omega), readNumber_neg (hn n)]
    push_cast
    rfl

theorem no_e_int (i : Int) : 'e' ∉ (toString i).toList := by
  have hn : ∀ n : Nat, 'e' ∉ Nat.toDigits 10 n := fun n h => by
    have := toDigits_all n _ h
    rw [e_digit] at this
    cases this
  rcases le_or_gt 0 i with h | h
  · obtain ⟨n, rfl⟩ := Int.eq_ofNat_of_zero_le h
    rw [(int_text n).1]
    exact hn n
  · obtain ⟨n, hn'⟩ := Int.eq_ofNat_of_zero_le (show 0 ≤ -i by omega)
    obtain rfl : i = -(n : Int) := by omega
    rw [(int_text n).2 (by omega)]
    simp [hn n]

end FloatText

/-- C123.  A floating point number has the text of an integer exactly if it is whole and less than a
million; then it has the text of that integer. -/
theorem C123_int_iff (q : Rat) (h : Float64 q) (i : Int) :
    formatG q = toString i ↔ q = (i : Rat) ∧ |i| < 1000000 := by
  have hF := isFloat_iff.2 h
  constructor
  · intro he
    have hread := good_read good_G q
    rw [show signed unsignedG q = formatG q from rfl, he, read_int] at hread
    have hi : written q = i := (Option.some.inj hread).symm
    have hf := written_float hF
    rw [hi] at hf
    have hne : 'e' ∉ (formatG q).toList := by rw [he]; exact no_e_int i
    rw [C123_exponent_iff q h] at hne
    have hlt : |i| < 1000000 := by
      by_contra hge
      push Not at hge
      have hge' : (1000000 : Rat) ≤ |(i : Rat)| := by exact_mod_cast hge
      have hq : |q| = F64.round |(i : Rat)| := by
        rcases lt_trichotomy (i : Rat) 0 with hneg | h0 | hpos
        · have := toFloat_neg (v := -(i : Rat)) (by linarith)
          rw [neg_neg, hf] at this
          rw [this, abs_neg, abs_of_neg hneg, abs_of_nonneg (round_nonneg (by linarith))]
        · rw [h0] at hge'
          norm_num at hge'
        · rw [← hf, toFloat_pos hpos, abs_of_pos hpos, abs_of_nonneg (round_nonneg hpos)]
      have hm := round_mono (a := 1000000) (by norm_num) hge'
      have h6 : F64.round (1000000 : Rat) = 1000000 := by decide +kernel
      rw [h6, ← hq] at hm
      refine hne ⟨?_, .inr hm⟩
      rintro rfl
      norm_num at hm
    refine ⟨?_, hlt⟩
    rcases lt_trichotomy i 0 with hneg | rfl | hpos
    · obtain ⟨n, hn⟩ := Int.eq_ofNat_of_zero_le (show 0 ≤ -i by omega)
      obtain rfl : i = -(n : Int) := by omega
      rw [abs_neg, Nat.abs_cast] at hlt
      rw [← hf]
      push_cast
      rw [toFloat_neg (by exact_mod_cast (by omega : 0 < n)), Units.round_nat (by omega) (by omega)]
    · rw [← hf]
      rfl
    · obtain ⟨n, rfl⟩ := Int.eq_ofNat_of_zero_le hpos.le
      rw [Nat.abs_cast] at hlt
      rw [← hf]
      push_cast
      rw [toFloat_pos (by exact_mod_cast hpos), Units.round_nat (by omega) (by omega)]
  · rintro ⟨rfl, hlt⟩
    rw [← String.toList_inj]
    rcases lt_trichotomy i 0 with hneg | rfl | hpos
    · obtain ⟨n, hn⟩ := Int.eq_ofNat_of_zero_le (show 0 ≤ -i by omega)
      obtain rfl : i = -(n : Int) := by omega
      rw [abs_neg, Nat.abs_cast] at hlt
      push_cast
      rw [formatG, signed_neg _ (by exact_mod_cast (by omega : 0 < n)), whole_text (by omega) (by omega), (int_text n).2 (by omega)]
    · decide +kernel
    · obtain ⟨n, rfl⟩ := Int.eq_ofNat_of_zero_le hpos.le
      rw [Nat.abs_cast] at hlt
      rw [Int.cast_natCast, formatG, signed_pos _ (by exact_mod_cast hpos), whole_text (by omega) (by omega), (int_text n).1]

end Drone
