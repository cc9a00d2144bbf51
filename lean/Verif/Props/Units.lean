import Verif.Model.Units
import Verif.Model.Decode
import Verif.Spec.Units
import Verif.Spec.Range
import Verif.Proof.Units
import Verif.Proof.Emit
/-
C92: sizes (memory limits, size limits of volumes) when they are read and when they are printed.
-/
namespace Drone
open Spec Units

/-- C92, grammar: a size is accepted iff it obeys the grammar (and its number is not beyond the
floats). -/
theorem C92_accepted (s : String) : (ramInBytes s).isSome = true ↔
    ∃ z e, SizeText.Ok z e ∧ s = String.ofList z.text ∧ F64.round z.number < ((2 ^ 1024 : Nat) : Rat) := by
  constructor
  · intro h
    obtain ⟨r, hr⟩ := Option.isSome_iff_exists.mp h
    obtain ⟨z, e, hz, rfl⟩ := ram_some hr
    refine ⟨z, e, hz, rfl, ?_⟩
    rw [ram_text hz] at hr
    by_contra hn
    rw [if_neg hn] at hr
    cases hr
  · rintro ⟨z, e, hz, rfl, hlt⟩
    rw [ram_text hz, if_pos hlt]
    rfl

theorem number_nat (z : SizeText) (hf : z.frac = []) : z.number = (digitsNumber z.whole : Rat) := by
  simp [SizeText.number, hf]

/-- C92, whole numbers: `n` with a unit of any spelling is `n` times the power of 1024, exactly.
The letters b and i make no difference: 1k, 1kb and 1KiB are all 1024 bytes. -/
theorem C92_whole (z : SizeText) (e : Nat) (h : z.Ok e) (hf : z.frac = []) (hn : digitsNumber z.whole < 2 ^ 53)
    (hb : digitsNumber z.whole * 1024 ^ e < 2 ^ 63) :
    ramInBytes (String.ofList z.text) = some ((digitsNumber z.whole * 1024 ^ e : Nat) : Int) := by
  rw [ram_text h, number_nat z hf]
  generalize digitsNumber z.whole = n at *
  by_cases h0 : n = 0
  · subst h0
    have : F64.round ((0 : Nat) : Rat) = 0 := by decide +kernel
    rw [this, if_pos (by positivity), zero_mul]
    have : toInt64 (F64.round 0) = 0 := by decide +kernel
    rw [this]
    simp
  · have hr := round_nat h0 hn
    have hnp : (0 : Rat) < n := by exact_mod_cast Nat.pos_of_ne_zero h0
    rw [round_scaled hnp (by rw [hr]; exact hnp), hr, if_pos]
    · unfold toInt64
      have : (n : Rat) * ((1024 ^ e : Nat) : Rat) = (((n * 1024 ^ e : Nat) : Int) : Rat) := by push_cast; rfl
      rw [this, if_pos (by exact_mod_cast hb), F64.floor_eq, Int.floor_intCast]
    · have : n < 2 ^ 1024 := lt_trans hn (Nat.pow_lt_pow_right (by norm_num) (by norm_num))
      exact_mod_cast this

example : ramInBytes "512MB" = some 536870912 ∧ ramInBytes "512 mib" = some 536870912 ∧
    ramInBytes "1.5g" = some 1610612736 ∧ ramInBytes "1.2.3k" = none ∧ ramInBytes "1e3" = none := by decide +kernel

example : SizeText.Ok { whole := ['5', '1', '2'], unit := ['M'], b := ['B'] } 2 ∧
    String.ofList (SizeText.text { whole := ['5', '1', '2'], unit := ['M'], b := ['B'] }) = "512MB" :=
  ⟨⟨by decide, by decide, by decide, by decide, by decide⟩, by decide⟩

/-! ### Printing and reading again -/

/-- A whole number with few bits before its zeros is a float. -/
theorem round_bits_zeros {m k : Nat} (h0 : m ≠ 0) (hm : m < 2 ^ 53) :
    F64.round ((m * 2 ^ k : Nat) : Rat) = ((m * 2 ^ k : Nat) : Rat) := by
  have : 0 < m * 2 ^ k := Nat.mul_pos (Nat.pos_of_ne_zero h0) (by positivity)
  refine F64.round_exact (m := m) (e := k) (by exact_mod_cast this) ?_ (by exact_mod_cast hm) (by omega)
  rw [F64.pow2_eq, zpow_natCast]
  push_cast
  rfl

/-- A size with at most four significant digits is a float. -/
theorem round_digits {b i k : Nat} (h0 : b ≠ 0) (hk : k ≤ 3) (h2 : b < 1024 ^ (i + 1)) (h : 1024 ^ i ∣ b * 10 ^ k) :
    F64.round (b : Rat) = b := by
  by_cases hi : i = 0
  · subst hi
    exact round_nat h0 (lt_trans h2 (by norm_num))
  have e1 : 1024 ^ i = 2 ^ (10 * i - k) * 2 ^ k := by
    rw [← pow_add, show 10 * i - k + k = 10 * i by omega, pow_mul]
    norm_num
  have e2 : b * 10 ^ k = b * 2 ^ k * 5 ^ k := by
    rw [mul_assoc, ← mul_pow]
    norm_num
  rw [e2] at h
  have hc : Nat.Coprime (1024 ^ i) (5 ^ k) := Nat.Coprime.pow _ _ (by decide)
  have h3 := hc.dvd_of_dvd_mul_right h
  rw [e1] at h3
  obtain ⟨m, hm⟩ := Nat.dvd_of_mul_dvd_mul_right (by positivity) h3
  subst hm
  rw [Nat.mul_comm]
  refine round_bits_zeros (fun h => by subst h; simp at h0) ?_
  have h4 : 1024 ^ (i + 1) = 2 ^ (10 * i - k) * 2 ^ (k + 10) := by
    rw [← pow_add, show 10 * i - k + (k + 10) = 10 * (i + 1) by omega, pow_mul]
    norm_num
  rw [h4] at h2
  have h5 := Nat.lt_of_mul_lt_mul_left h2
  have h6 : 2 ^ (k + 10) ≤ 2 ^ 13 := Nat.pow_le_pow_right (by norm_num) (by omega)
  omega

/-- C92: a size that needs no more than four significant digits in the largest unit it reaches is
read again as it was. -/
theorem C92_exact (b i d : Nat) (hi : i ≤ 5) (h1 : 1024 ^ i ≤ b) (h2 : b < 1024 ^ (i + 1))
    (hd : 1 ≤ d ∧ d ≤ 4) (h3 : 10 ^ (d - 1) * 1024 ^ i ≤ b) (h4 : b < 10 ^ d * 1024 ^ i)
    (hdvd : 1024 ^ i ∣ b * 10 ^ (4 - d)) : ramInBytes (bytesSize b) = some (b : Int) := by
  refine Shown.exact (i := i) (d := d)
    (t := (F64.nearest ((b : Rat) / 1024 ^ i * ((10 ^ (4 - d) : Nat) : Rat))).toNat)
    ⟨hi, h1, h2, round_digits (Nat.pos_iff_ne_zero.mp (lt_of_lt_of_le (by positivity) h1)) (by omega) h2 hdvd,
      hd, h3, h4, ?_⟩ hdvd
  rw [Int.toNat_of_nonneg (nearest_nonneg (by positivity))]

theorem padded_zero (k : Nat) : padded k 0 = List.replicate k '0' := by
  induction k with
  | zero => rfl
  | succ k ih =>
    rw [padded, Nat.zero_div, ih, List.replicate_succ']
    rfl

theorem trim_zero (k : Nat) : trimZeros (List.replicate k '0') = [] := by
  unfold trimZeros
  rw [List.reverse_replicate, List.reverse_eq_nil_iff, List.dropWhile_eq_nil_iff]
  intro c hc
  simpa using (List.mem_replicate.mp hc).2

theorem float_multiple {n i : Nat} (hn : 1 ≤ n ∧ n < 1024) :
    F64.round ((n * 1024 ^ i : Nat) : Rat) = ((n * 1024 ^ i : Nat) : Rat) := by
  have : 1024 ^ i = 2 ^ (10 * i) := by rw [pow_mul]; norm_num
  rw [this]
  exact round_bits_zeros (by omega) (lt_trans hn.2 (by norm_num))

/-- A whole number of units. -/
theorem shown_multiple {n i : Nat} (hi : i ≤ 5) (hn : 1 ≤ n ∧ n < 1024) :
    Shown (n * 1024 ^ i) i (width n) (n * 10 ^ (4 - width n)) := by
  have hU : 0 < 1024 ^ i := by positivity
  obtain ⟨w1, w2, w3, w4⟩ := width_spec n hn.2 (by omega)
  refine ⟨hi, Nat.le_mul_of_pos_left _ hn.1, ?_, float_multiple hn, ⟨w1, w2⟩, Nat.mul_le_mul_right _ w3,
    Nat.mul_lt_mul_of_pos_right w4 hU, ?_⟩
  · rw [pow_succ, Nat.mul_comm]
    exact Nat.mul_lt_mul_of_pos_left hn.2 hU
  · have : ((n * 1024 ^ i : Nat) : Rat) / 1024 ^ i * ((10 ^ (4 - width n) : Nat) : Rat) =
        (((n * 10 ^ (4 - width n) : Nat) : Int) : Rat) := by
      push_cast
      field_simp
    rw [this, F64.nearest_int]

/-- C92: whole multiples of a unit below 1024 of it are printed as such and read again. -/
theorem C92_multiple (n i : Nat) (hi : i ≤ 5) (hn : 1 ≤ n ∧ n < 1024) :
    bytesSize ((n * 1024 ^ i : Nat) : Int) = toString n ++ unitNames.getD i "" ∧
    ramInBytes (bytesSize ((n * 1024 ^ i : Nat) : Int)) = some ((n * 1024 ^ i : Nat) : Int) := by
  have hs := shown_multiple hi hn
  constructor
  · rw [hs.text, shownSize_text _ _ hi, Nat.toString_eq_ofList_toDigits]
    congr 2
    unfold fixed
    rw [Nat.mul_mod_left, padded_zero, trim_zero, Nat.mul_div_cancel _ (by positivity)]
    simp
  · refine hs.exact (Dvd.intro_left (n * 10 ^ (4 - width n)) ?_)
    ring

/-- Of a size that is a float four digits are kept. -/
theorem float_error (b : Nat) (h0 : b ≠ 0) (h60 : b < 2 ^ 60) (hfl : F64.round (b : Rat) = b) :
    ∃ b' : Int, ramInBytes (bytesSize b) = some b' ∧ |(b' : Rat) - b| ≤ (b : Rat) / 2000 + 2 * b / 2 ^ 53 + 1 := by
  obtain ⟨i, d, t, hs⟩ := shown_exists h0 h60 hfl
  refine ⟨_, hs.ram, ?_⟩
  have hU : (0 : Rat) < 1024 ^ i := by positivity
  have h1 := hs.number_low.1
  have hr := abs_le.mp (round_near h1)
  have hq := abs_le.mp hs.number_rel
  have hf1 := Int.floor_le (F64.round (shownNumber t d) * 1024 ^ i)
  have hf2 := Int.lt_floor_add_one (F64.round (shownNumber t d) * 1024 ^ i)
  have hb : (b : Rat) / 1024 ^ i * 1024 ^ i = b := by field_simp
  generalize F64.round (shownNumber t d) = y at *
  generalize shownNumber t d = x at *
  generalize hqq : (b : Rat) / 1024 ^ i = q at *
  have hq0 : 0 ≤ q := by rw [← hqq]; positivity
  have hxq : x ≤ 2 * q := by linarith [hq.2]
  -- the error of the float
  have e1 : |y - x| * 1024 ^ i ≤ 2 * b / 2 ^ 53 := by
    have hle : |y - x| ≤ 2 * q / 2 ^ 53 := by
      refine abs_le.mpr ⟨?_, ?_⟩
      · have : x / 2 ^ 53 ≤ 2 * q / 2 ^ 53 := div_le_div_of_nonneg_right hxq (by positivity)
        linarith [hr.1]
      · have : x / 2 ^ 53 ≤ 2 * q / 2 ^ 53 := div_le_div_of_nonneg_right hxq (by positivity)
        linarith [hr.2]
    refine le_trans (mul_le_mul_of_nonneg_right hle hU.le) ?_
    have : 2 * q / 2 ^ 53 * 1024 ^ i = 2 * (q * 1024 ^ i) / 2 ^ 53 := by ring
    rw [this, hb]
  -- the error of the digits
  have e2 : |x - q| * 1024 ^ i ≤ (b : Rat) / 2000 := by
    refine le_trans (mul_le_mul_of_nonneg_right (abs_le.mpr hq) hU.le) ?_
    have : q / 2000 * 1024 ^ i = q * 1024 ^ i / 2000 := by ring
    rw [this, hb]
  have e3 : |y * 1024 ^ i - b| ≤ (b : Rat) / 2000 + 2 * b / 2 ^ 53 := by
    have : y * 1024 ^ i - b = (y - x) * 1024 ^ i + (x - q) * 1024 ^ i := by rw [← hb]; ring
    rw [this]
    refine le_trans (abs_add_le _ _) ?_
    rw [abs_mul, abs_mul, abs_of_pos hU]
    linarith
  have := abs_le.mp e3
  exact abs_le.mpr ⟨by linarith [this.1], by linarith [this.2]⟩

/-- Only the float of a size is printed. -/
theorem bytesSize_float {b c : Nat} (h : F64.round (b : Rat) = c) (hc : F64.round (c : Rat) = c) :
    bytesSize b = bytesSize c := by
  unfold bytesSize
  rw [if_neg (by omega), if_neg (by omega)]
  push_cast
  rw [h, hc]

theorem le_nearest {x : Rat} {n : Int} (h : (n : Rat) ≤ x) : n ≤ F64.nearest x := by
  have := Int.le_floor.mpr h
  rcases F64.nearest_cases x with ⟨_, e⟩ | ⟨_, e⟩ <;> rw [e] <;> omega

theorem nearest_le_int {x : Rat} {n : Int} (h : x ≤ n) : F64.nearest x ≤ n := by
  rcases F64.nearest_cases x with ⟨_, e⟩ | ⟨h2, e⟩ <;> rw [e]
  · exact Int.floor_le_iff.mpr (by linarith)
  · have h3 : ⌊x⌋ < n := by
      have h4 : ((⌊x⌋ : Int) : Rat) < n := by linarith
      exact_mod_cast h4
    omega

/-- Rounding stays on its side of a power of two. -/
theorem round_pow2 {q : Rat} (h : 0 < q) {e : Int} (he : -1022 ≤ e) :
    (F64.pow2 e ≤ q → F64.pow2 e ≤ F64.round q) ∧ (q ≤ F64.pow2 e → F64.round q ≤ F64.pow2 e) := by
  obtain ⟨h1, h2⟩ := F64.top_spec h
  have hl := F64.pow2_pos (F64.last q)
  have key : ∀ n : Nat, F64.pow2 (F64.last q + n) = ((2 ^ n : Int) : Rat) * F64.pow2 (F64.last q) := by
    intro n
    rw [F64.pow2_eq, F64.pow2_eq, zpow_add₀ (by norm_num), zpow_natCast]
    push_cast
    ring
  constructor
  · intro hq
    -- the highest bit is at least e
    have ht : e ≤ F64.top q := by
      have : F64.pow2 e < F64.pow2 (F64.top q + 1) := lt_of_le_of_lt hq h2
      rw [F64.pow2_eq, F64.pow2_eq, zpow_lt_zpow_iff_right₀ (by norm_num)] at this
      omega
    have hlast : F64.last q = F64.top q - 52 := by unfold F64.last; omega
    have hm : F64.pow2 (F64.top q) = ((2 ^ 52 : Int) : Rat) * F64.pow2 (F64.last q) := by
      rw [← key 52, hlast]
      congr 1
      push_cast
      ring
    refine le_trans (b := F64.pow2 (F64.top q)) ?_ ?_
    · rw [F64.pow2_eq, F64.pow2_eq]
      exact zpow_le_zpow_right₀ (by norm_num) ht
    · unfold F64.round
      rw [hm]
      refine mul_le_mul_of_nonneg_right ?_ hl.le
      refine Int.cast_le.mpr (le_nearest ?_)
      rw [le_div_iff₀ hl, ← hm]
      exact h1
  · intro hq
    have ht : F64.top q ≤ e := by
      have : F64.pow2 (F64.top q) ≤ F64.pow2 e := le_trans h1 hq
      rw [F64.pow2_eq, F64.pow2_eq, zpow_le_zpow_iff_right₀ (by norm_num)] at this
      exact this
    obtain ⟨n, hn⟩ := Int.eq_ofNat_of_zero_le (show 0 ≤ e - F64.last q by unfold F64.last; omega)
    have hm : F64.pow2 e = ((2 ^ n : Int) : Rat) * F64.pow2 (F64.last q) := by
      rw [← key n]
      congr 1
      omega
    unfold F64.round
    rw [hm]
    refine mul_le_mul_of_nonneg_right ?_ hl.le
    refine Int.cast_le.mpr (nearest_le_int ?_)
    rw [div_le_iff₀ hl, ← hm]
    exact hq

theorem top_eq {q : Rat} (h : 0 < q) {e : Int} (h1 : F64.pow2 e ≤ q) (h2 : q < F64.pow2 (e + 1)) : F64.top q = e := by
  obtain ⟨h3, h4⟩ := F64.top_spec h
  have a : F64.pow2 e < F64.pow2 (F64.top q + 1) := lt_of_le_of_lt h1 h4
  have b : F64.pow2 (F64.top q) < F64.pow2 (e + 1) := lt_of_le_of_lt h3 h2
  rw [F64.pow2_eq, F64.pow2_eq, zpow_lt_zpow_iff_right₀ (by norm_num)] at a b
  omega

/-- The float of a size is a size, and rounding it again changes nothing. -/
theorem round_size (b : Nat) (h0 : b ≠ 0) : ∃ c : Nat, F64.round (b : Rat) = c ∧ F64.round (c : Rat) = c ∧ c ≠ 0 := by
  have hb : (0 : Rat) < b := by exact_mod_cast Nat.pos_of_ne_zero h0
  by_cases h53 : b < 2 ^ 53
  · exact ⟨b, round_nat h0 h53, round_nat h0 h53, h0⟩
  have hp : F64.pow2 53 ≤ (b : Rat) := by
    have : (2 ^ 53 : Nat) ≤ b := not_lt.mp h53
    have h : ((2 ^ 53 : Nat) : Rat) ≤ b := by exact_mod_cast this
    rw [F64.pow2_eq]
    norm_num at *
    exact h
  have ht : 53 ≤ F64.top (b : Rat) := by
    have : F64.pow2 53 < F64.pow2 (F64.top (b : Rat) + 1) := lt_of_le_of_lt hp (F64.top_spec hb).2
    rw [F64.pow2_eq, F64.pow2_eq, zpow_lt_zpow_iff_right₀ (by norm_num)] at this
    omega
  have hl : 1 ≤ F64.last (b : Rat) := by unfold F64.last; omega
  obtain ⟨k, hk⟩ := Int.eq_ofNat_of_zero_le (show 0 ≤ F64.last (b : Rat) by omega)
  have hn := nearest_nonneg (x := (b : Rat) / F64.pow2 (F64.last (b : Rat)))
    (by have := F64.pow2_pos (F64.last (b : Rat)); positivity)
  obtain ⟨n, hn⟩ := Int.eq_ofNat_of_zero_le hn
  have hc : F64.round (b : Rat) = ((n * 2 ^ k : Nat) : Rat) := by
    unfold F64.round
    rw [hn, hk, F64.pow2_eq]
    push_cast
    rfl
  have hge := (round_pow2 hb (e := 53) (by norm_num)).1 hp
  rw [hc] at hge
  have hpos : (0 : Rat) < ((n * 2 ^ k : Nat) : Rat) := lt_of_lt_of_le (F64.pow2_pos _) hge
  refine ⟨n * 2 ^ k, hc, ?_, fun h => by rw [h] at hpos; simp at hpos⟩
  obtain ⟨m, e, hm, _, hlt, he⟩ := round_repr hb
  rw [← hc] at hpos ⊢
  rw [hm] at hpos ⊢
  exact F64.round_exact hpos rfl hlt he

/-- The float of a size is below an exbibyte unless the size is within 64 bytes of it. -/
theorem round_exbibyte (b : Nat) (h0 : b ≠ 0) : F64.round (b : Rat) < 2 ^ 60 ↔ b < 2 ^ 60 - 64 := by
  have hb : (0 : Rat) < b := by exact_mod_cast Nat.pos_of_ne_zero h0
  have hp59 : F64.pow2 59 = 576460752303423488 := by decide +kernel
  have hp60 : F64.pow2 60 = 1152921504606846976 := by decide +kernel
  have hp7 : F64.pow2 7 = 128 := by decide +kernel
  have e60 : (2 : Rat) ^ 60 = 1152921504606846976 := by norm_num
  rw [e60]
  by_cases h1 : b < 2 ^ 59
  · have hle : (b : Rat) ≤ F64.pow2 59 := by
      rw [hp59]
      exact_mod_cast h1.le
    have := (round_pow2 hb (e := 59) (by norm_num)).2 hle
    rw [hp59] at this
    constructor
    · intro _; norm_num at *; omega
    · intro _; linarith
  by_cases h2 : 2 ^ 60 ≤ b
  · have hle : F64.pow2 60 ≤ (b : Rat) := by
      rw [hp60]
      exact_mod_cast h2
    have := (round_pow2 hb (e := 60) (by norm_num)).1 hle
    rw [hp60] at this
    constructor
    · intro _; linarith
    · intro _; norm_num at *; omega
  have h1' : (576460752303423488 : Rat) ≤ b := by exact_mod_cast not_lt.mp h1
  have h2' : (b : Rat) < 1152921504606846976 := by exact_mod_cast not_le.mp h2
  have ht : F64.top (b : Rat) = 59 := top_eq hb (by rw [hp59]; exact h1') (by rw [show (59 : Int) + 1 = 60 by norm_num, hp60]; exact h2')
  have hl : F64.last (b : Rat) = 7 := by unfold F64.last; rw [ht]; norm_num
  have hr : F64.round (b : Rat) = F64.nearest ((b : Rat) / 128) * 128 := by
    unfold F64.round
    rw [hl, hp7]
  have hfl : ((b : Rat) / 128).floor = ((b / 128 : Nat) : Int) := by
    have := Rat.floor_intCast_div_natCast b 128
    rw [Int.cast_natCast] at this
    exact this
  have hmod := Nat.div_add_mod b 128
  have hml := Nat.mod_lt b (show 128 > 0 by norm_num)
  have hsub : (b : Rat) / 128 - ((b / 128 : Nat) : Int) = ((b % 128 : Nat) : Rat) / 128 := by
    have : (b : Rat) = 128 * ((b / 128 : Nat) : Rat) + ((b % 128 : Nat) : Rat) := by exact_mod_cast hmod.symm
    rw [Int.cast_natCast]
    linarith
  have hnear : F64.nearest ((b : Rat) / 128) < 2 ^ 53 ↔ b < 2 ^ 60 - 64 := by
    unfold F64.nearest
    simp only [hfl, hsub]
    have hlt : ((b % 128 : Nat) : Rat) / 128 < 1 / 2 ↔ b % 128 < 64 := by
      rw [div_lt_iff₀ (by norm_num)]
      constructor
      · intro h
        have : ((b % 128 : Nat) : Rat) < 64 := by linarith
        exact_mod_cast this
      · intro h
        have : ((b % 128 : Nat) : Rat) < 64 := by exact_mod_cast h
        linarith
    have hgt : 1 / 2 < ((b % 128 : Nat) : Rat) / 128 ↔ 64 < b % 128 := by
      rw [lt_div_iff₀ (by norm_num)]
      constructor
      · intro h
        have : (64 : Rat) < ((b % 128 : Nat) : Rat) := by linarith
        exact_mod_cast this
      · intro h
        have : (64 : Rat) < ((b % 128 : Nat) : Rat) := by exact_mod_cast h
        linarith
    norm_num only at *
    by_cases c1 : b % 128 < 64
    · rw [if_pos (hlt.mpr c1)]
      omega
    · rw [if_neg (fun h => c1 (hlt.mp h))]
      by_cases c2 : 64 < b % 128
      · rw [if_pos (hgt.mpr c2)]
        omega
      · rw [if_neg (fun h => c2 (hgt.mp h))]
        split <;> omega
  rw [hr, ← hnear]
  constructor
  · intro h
    have : (F64.nearest ((b : Rat) / 128) : Rat) < 9007199254740992 := by linarith
    exact_mod_cast this
  · intro h
    have : (F64.nearest ((b : Rat) / 128) : Rat) < 9007199254740992 := by exact_mod_cast h
    linarith

/-- C92: printing keeps four significant digits: what is read again differs by at most one in two
thousand (and three bytes). -/
theorem C92_error (b : Nat) (h0 : b ≠ 0) (h53 : b < 2 ^ 53) :
    ∃ b' : Int, ramInBytes (bytesSize b) = some b' ∧ |(b' : Rat) - b| ≤ (b : Rat) / 2000 + 3 := by
  obtain ⟨b', h1, h2⟩ := float_error b h0 (lt_trans h53 (by norm_num)) (round_nat h0 h53)
  refine ⟨b', h1, le_trans h2 ?_⟩
  have hbs : (b : Rat) < 9007199254740992 := by exact_mod_cast h53
  have : 2 * (b : Rat) / 2 ^ 53 ≤ 2 := by
    rw [div_le_iff₀ (by positivity)]
    norm_num
    linarith
  linarith

/-- C92, all sizes that can be read again: the difference is less than one in 1990 (and five bytes). -/
theorem C92_error_large (b : Nat) (h0 : b ≠ 0) (h60 : b < 2 ^ 60 - 64) :
    ∃ b' : Int, ramInBytes (bytesSize b) = some b' ∧ |(b' : Rat) - b| ≤ (b : Rat) / 1990 + 5 := by
  obtain ⟨c, hc, hcc, hc0⟩ := round_size b h0
  have hlt := (round_exbibyte b h0).mpr h60
  rw [hc] at hlt
  have hc60 : c < 2 ^ 60 := by exact_mod_cast hlt
  obtain ⟨b', h1, h2⟩ := float_error c hc0 hc60 hcc
  rw [bytesSize_float hc hcc]
  refine ⟨b', h1, ?_⟩
  have hb1 : (1 : Rat) ≤ b := by exact_mod_cast Nat.pos_of_ne_zero h0
  have hn := round_near hb1
  rw [hc] at hn
  have hd : (b : Rat) / 2 ^ 53 ≤ b / 100000000000000 := by
    rw [div_le_div_iff₀ (by positivity) (by positivity)]
    norm_num
    linarith
  have ec : 2 * (c : Rat) / 2 ^ 53 ≤ 2 * c / 100000000000000 := by
    rw [div_le_div_iff₀ (by positivity) (by positivity)]
    have : (0 : Rat) ≤ c := by positivity
    norm_num
    linarith
  have hn' := abs_le.mp hn
  have h2' := abs_le.mp h2
  refine abs_le.mpr ⟨?_, ?_⟩ <;> linarith [hn'.1, hn'.2, h2'.1, h2'.2]

theorem sizeText_no_E {z : SizeText} {e : Nat} (h : z.Ok e) : 'E' ∉ z.text := by
  have hd : ∀ c ∈ decimalDigits, c ≠ 'E' := by decide
  have hu : ∀ p ∈ unitPrefixes, 'E' ∉ p.1 := by decide
  have hi : ∀ l ∈ ([[], ['i'], ['I']] : List (List Char)), 'E' ∉ l := by decide
  have hb : ∀ l ∈ ([[], ['b'], ['B']] : List (List Char)), 'E' ∉ l := by decide
  intro hm
  simp only [SizeText.text, List.mem_append] at hm
  rcases hm with ((((hm | hm) | hm) | hm) | hm) | hm
  · exact hd _ (h.whole.2 _ hm) rfl
  · split at hm
    · simp at hm
    · rcases List.mem_cons.mp hm with hm | hm
      · exact absurd hm (by decide)
      · exact hd _ (h.frac _ hm) rfl
  · split at hm
    · exact absurd hm (by decide)
    · simp at hm
  · exact hu _ h.unit hm
  · exact hi _ h.i hm
  · exact hb _ h.b hm

/-- C92: exactly the sizes below one exbibyte (less 64 bytes, which the float rounds up) can be read
again. -/
theorem C92_readable_iff (b : Nat) (h63 : b < 2 ^ 63) :
    (ramInBytes (bytesSize b)).isSome = true ↔ b < 2 ^ 60 - 64 := by
  by_cases h0 : b = 0
  · subst h0
    decide +kernel
  constructor
  · intro h
    by_contra hge
    obtain ⟨z, e, hz, hs, _⟩ := (C92_accepted _).mp h
    have hb : (0 : Rat) < b := by exact_mod_cast Nat.pos_of_ne_zero h0
    have hlow : (2 : Rat) ^ 60 ≤ F64.round (b : Rat) := not_lt.mp fun hlt => hge ((round_exbibyte b h0).mp hlt)
    have hhigh : F64.round (b : Rat) ≤ 2 ^ 63 := by
      have hp : F64.pow2 63 = 2 ^ 63 := by decide +kernel
      have := (round_pow2 hb (e := 63) (by norm_num)).2 (by rw [hp]; exact_mod_cast h63.le)
      rwa [hp] at this
    have htext : 'E' ∈ (bytesSize b).toList := by
      unfold bytesSize
      rw [if_neg (by omega), Int.cast_natCast]
      rw [unit_loop 6 8 (F64.round (b : Rat)) 0 (by omega) (.inr (by norm_num at *; exact hlow))
        (by norm_num at *; linarith)]
      dsimp only
      rw [String.toList_append]
      exact List.mem_append_right _ (by decide)
    rw [hs, String.toList_ofList] at htext
    exact sizeText_no_E hz htext
  · intro h
    obtain ⟨b', h1, _⟩ := C92_error_large b h0 h
    rw [h1]
    rfl

/-- The whole part of a float is a float. -/
theorem floor_float {y : Rat} (hy : 0 < y) (hr : F64.round y = y) {b : Nat} (h0 : b ≠ 0) (hb : (b : Rat) ≤ y) (hlt : y < b + 1) :
    F64.round (b : Rat) = b := by
  obtain ⟨m, e, hm, hm0, hlm, he⟩ := round_repr hy
  rw [hr] at hm
  by_cases he0 : 0 ≤ e
  · obtain ⟨n, rfl⟩ := Int.eq_ofNat_of_zero_le he0
    have hy' : y = ((m * 2 ^ n : Int) : Rat) := by
      rw [hm, F64.pow2_eq, zpow_natCast]
      push_cast
      rfl
    have h1 : (b : Int) ≤ m * 2 ^ n := by rw [hy'] at hb; exact_mod_cast hb
    have h2 : (m * 2 ^ n : Int) < b + 1 := by rw [hy'] at hlt; exact_mod_cast hlt
    have h3 : (m * 2 ^ n : Int) = b := by omega
    have h4 : y = b := by rw [hy', h3]; rfl
    rw [← h4, hr]
  · refine round_nat h0 ?_
    have h1 : F64.pow2 e ≤ 1 := by
      rw [F64.pow2_eq]
      exact zpow_le_one_of_nonpos₀ (by norm_num) (by omega)
    have h2 : (0 : Rat) ≤ m := by exact_mod_cast hm0
    have h3 : (b : Rat) ≤ m := by
      refine le_trans hb ?_
      rw [hm]
      exact mul_le_of_le_one_right h2 h1
    have h4 : (b : Int) ≤ m := by exact_mod_cast h3
    omega

theorem float_settles (b : Nat) (h1 : 2 ^ 20 ≤ b) (h2 : b < 2047 * 2 ^ 49) (hfl : F64.round (b : Rat) = b) :
    ∃ b' : Nat, ramInBytes (bytesSize b) = some (b' : Int) ∧ ramInBytes (bytesSize b') = some (b' : Int) := by
  have hpow : (2 : Nat) ^ 20 ≠ 0 := by norm_num
  obtain ⟨i, d, t, hs⟩ := shown_exists (b := b) (by omega) (lt_trans h2 (by norm_num)) hfl
  have hi2 : 2 ≤ i := by
    by_contra hlt
    have : 1024 ^ (i + 1) ≤ 1024 ^ 2 := Nat.pow_le_pow_right (by norm_num) (by omega)
    have := hs.high
    norm_num at *
    omega
  have hram := hs.ram
  have hUn : 0 < 1024 ^ i := by positivity
  have hU : (0 : Rat) < 1024 ^ i := by positivity
  have hU20 : (1048576 : Rat) ≤ 1024 ^ i := by
    have : 1024 ^ 2 ≤ 1024 ^ i := Nat.pow_le_pow_right (by norm_num) hi2
    exact_mod_cast this
  obtain ⟨hx1, hx2⟩ := hs.number_low
  have hrn := abs_le.mp (round_near hx1)
  obtain ⟨be, hbe'⟩ : ∃ be, be = ⌊F64.round (shownNumber t d) * 1024 ^ i⌋ := ⟨_, rfl⟩
  have hbe : ramInBytes (bytesSize b) = some be := by rw [hram, hbe']
  have hdiv : shownNumber t d / 2 ^ 53 ≤ 1 / 8000000000000 := by
    rw [div_le_iff₀ (by positivity)]
    norm_num
    linarith
  by_cases hint : ∃ n : Nat, shownNumber t d = n
  · -- a whole number of units
    obtain ⟨n, hn⟩ := hint
    have hn1 : 1 ≤ n := by rw [hn] at hx1; exact_mod_cast hx1
    have hn2 : n ≤ 1024 := by rw [hn] at hx2; exact_mod_cast hx2
    have hb' : be = ((n * 1024 ^ i : Nat) : Int) := by
      rw [hbe', hn, round_nat (by omega) (by omega)]
      have : (n : Rat) * 1024 ^ i = (((n * 1024 ^ i : Nat) : Int) : Rat) := by push_cast; rfl
      rw [this, Int.floor_intCast]
    refine ⟨n * 1024 ^ i, by rw [hbe, hb'], ?_⟩
    rcases Nat.lt_or_eq_of_le hn2 with hlt | rfl
    · exact (C92_multiple n i hs.unit ⟨hn1, hlt⟩).2
    · rw [← pow_succ']
      have hi4 : i + 1 ≤ 5 := by
        by_contra hgt
        have hi5 : i = 5 := by have := hs.unit; omega
        have hnear := (abs_le.mp hs.number_near).2
        rw [hn, hi5] at hnear
        have hg1 : (1 : Rat) ≤ ((10 ^ (4 - d) : Nat) : Rat) := by exact_mod_cast Nat.one_le_pow _ _ (by norm_num)
        have hle : 1 / (2 * ((10 ^ (4 - d) : Nat) : Rat)) ≤ 1 / 2 := by
          rw [div_le_div_iff₀ (by positivity) (by norm_num)]
          linarith
        have hb2 : (b : Rat) < 2047 * 2 ^ 49 := by exact_mod_cast h2
        have hlt : (b : Rat) / 1024 ^ 5 < 2047 / 2 := by
          have e1 : (2047 : Rat) * 2 ^ 49 = 2047 / 2 * 1024 ^ 5 := by norm_num
          rw [div_lt_iff₀ (by positivity), ← e1]
          exact hb2
        generalize (b : Rat) / 1024 ^ 5 = q at *
        have hn1024 : ((1024 : Nat) : Rat) = 1024 := by norm_num
        rw [hn1024] at hnear
        linarith
      have := (C92_multiple 1 (i + 1) hi4 ⟨by omega, by omega⟩).2
      simpa using this
  · -- a number with a fraction
    have hgn : 0 < 10 ^ (4 - d) := by positivity
    have hg : (0 : Rat) < ((10 ^ (4 - d) : Nat) : Rat) := by positivity
    have hd3 : d ≤ 3 := by
      by_contra hgt
      have : d = 4 := by have := hs.digit; omega
      subst this
      exact hint ⟨t, by simp [shownNumber]⟩
    have hg3 : 10 ^ (4 - d) ≤ 1000 := by
      have : 10 ^ (4 - d) ≤ 10 ^ 3 := Nat.pow_le_pow_right (by norm_num) (by have := hs.digit; omega)
      simpa using this
    have ht4 : t < 10000 := by
      rcases Nat.lt_or_eq_of_le hs.t_low.2 with hlt | heq
      · exact hlt
      · exfalso
        refine hint ⟨10 ^ d, ?_⟩
        unfold shownNumber
        rw [div_eq_iff hg.ne', heq]
        have : 10 ^ d * 10 ^ (4 - d) = 10000 := by
          rw [← pow_add, show d + (4 - d) = 4 by omega]; norm_num
        exact_mod_cast this.symm
    -- the whole part
    set n := t / 10 ^ (4 - d) with hndef
    have hmod : t % 10 ^ (4 - d) ≠ 0 := by
      intro h0
      refine hint ⟨n, ?_⟩
      unfold shownNumber
      rw [div_eq_iff hg.ne']
      have := Nat.div_add_mod t (10 ^ (4 - d))
      rw [h0, Nat.add_zero] at this
      rw [hndef]
      exact_mod_cast (by rw [Nat.mul_comm]; exact this.symm)
    have hlow : (n : Rat) + 1 / 1000 ≤ shownNumber t d := by
      unfold shownNumber
      rw [le_div_iff₀ hg]
      have h3 : n * 10 ^ (4 - d) + 1 ≤ t := by
        have := Nat.div_add_mod t (10 ^ (4 - d))
        rw [← hndef, Nat.mul_comm] at this
        omega
      have h3' : (n : Rat) * ((10 ^ (4 - d) : Nat) : Rat) + 1 ≤ t := by exact_mod_cast h3
      have h4 : ((10 ^ (4 - d) : Nat) : Rat) ≤ 1000 := by exact_mod_cast hg3
      linarith
    have hhigh : shownNumber t d ≤ (n : Rat) + 1 - 1 / 1000 := by
      unfold shownNumber
      rw [div_le_iff₀ hg]
      have h3 : t + 1 ≤ (n + 1) * 10 ^ (4 - d) := by
        have := Nat.div_add_mod t (10 ^ (4 - d))
        have h5 := Nat.mod_lt t hgn
        rw [← hndef, Nat.mul_comm] at this
        rw [Nat.add_mul]
        omega
      have h3' : (t : Rat) + 1 ≤ ((n : Rat) + 1) * ((10 ^ (4 - d) : Nat) : Rat) := by exact_mod_cast h3
      have h4 : ((10 ^ (4 - d) : Nat) : Rat) ≤ 1000 := by exact_mod_cast hg3
      linarith
    have hn1 : 1 ≤ n := by
      by_contra h0
      have : n = 0 := Nat.lt_one_iff.mp (not_le.mp h0)
      rw [this] at hhigh
      push_cast at hhigh
      linarith
    have hnd : n < 10 ^ d := by
      rw [hndef, Nat.div_lt_iff_lt_mul hgn, ← pow_add, show d + (4 - d) = 4 by omega]
      omega
    have hnd' : 10 ^ (d - 1) ≤ n := by
      rw [hndef, Nat.le_div_iff_mul_le hgn, ← pow_add,
        show d - 1 + (4 - d) = 3 by have := hs.digit; omega]
      exact hs.t_low.1
    -- the second size
    set y := F64.round (shownNumber t d) with hy
    have hy1 : (n : Rat) < y := by linarith [hrn.1]
    have hy2 : y < (n : Rat) + 1 := by linarith [hrn.2]
    have hpos : 0 ≤ ⌊y * 1024 ^ i⌋ := Int.floor_nonneg.mpr (by
      have : (0 : Rat) ≤ n := by positivity
      have : 0 ≤ y := by linarith
      positivity)
    obtain ⟨b', hb'⟩ := Int.eq_ofNat_of_zero_le hpos
    have hbb : (b' : Int) = be := by rw [hbe', hb']
    have hfl' := Int.floor_le (y * 1024 ^ i)
    have hfu := Int.lt_floor_add_one (y * 1024 ^ i)
    rw [hb'] at hfl' hfu
    push_cast at hfl' hfu
    have hqlow : y - 1 / 1048576 ≤ (b' : Rat) / 1024 ^ i := by
      rw [le_div_iff₀ hU, sub_mul]
      have : (1 : Rat) ≤ 1 / 1048576 * 1024 ^ i := by
        rw [div_mul_eq_mul_div, le_div_iff₀ (by norm_num)]; linarith
      linarith
    have hqhigh : (b' : Rat) / 1024 ^ i ≤ y := by rw [div_le_iff₀ hU]; exact hfl'
    have hge : n * 1024 ^ i ≤ b' := by
      have : (n : Rat) ≤ (b' : Rat) / 1024 ^ i := by linarith [hrn.1]
      rw [le_div_iff₀ hU] at this
      exact_mod_cast this
    have hlt : b' < (n + 1) * 1024 ^ i := by
      have : (b' : Rat) / 1024 ^ i < (n : Rat) + 1 := by linarith
      rw [div_lt_iff₀ hU] at this
      exact_mod_cast this
    have hn1023 : n + 1 ≤ 1024 := by
      have : (n : Rat) < 1024 := by linarith
      have : n < 1024 := by exact_mod_cast this
      omega
    have hyp : 0 < y := by
      have : (0 : Rat) ≤ n := by positivity
      linarith
    have hb0' : b' ≠ 0 := by
      have := Nat.mul_pos hn1 hUn
      omega
    have hbfl : F64.round (b' : Rat) = b' := by
      have hsc := round_scaled (q := shownNumber t d) (by linarith) hyp i
      rw [← hy] at hsc
      push_cast at hsc
      exact floor_float (by positivity) hsc hb0' hfl' hfu
    have hs' : Shown b' i d t := by
      refine ⟨hs.unit, le_trans (Nat.le_mul_of_pos_left _ hn1) hge, ?_, hbfl, hs.digit,
        le_trans (Nat.mul_le_mul_right _ hnd') hge,
        lt_of_lt_of_le hlt (Nat.mul_le_mul_right _ hnd), ?_⟩
      · rw [pow_succ']
        exact lt_of_lt_of_le hlt (Nat.mul_le_mul_right _ hn1023)
      · refine nearest_unique ?_
        have hxt : shownNumber t d * ((10 ^ (4 - d) : Nat) : Rat) = t := by
          unfold shownNumber; field_simp
        have h4 : ((10 ^ (4 - d) : Nat) : Rat) ≤ 1000 := by exact_mod_cast hg3
        have hdiff : |(b' : Rat) / 1024 ^ i - shownNumber t d| ≤ 1 / 10000 := by
          refine abs_le.mpr ⟨by linarith [hrn.1], by linarith [hrn.2]⟩
        rw [Int.cast_natCast, ← hxt, ← sub_mul, abs_mul, abs_of_pos hg]
        calc |(b' : Rat) / 1024 ^ i - shownNumber t d| * ((10 ^ (4 - d) : Nat) : Rat) ≤ 1 / 10000 * 1000 :=
              mul_le_mul hdiff h4 hg.le (by norm_num)
          _ < 1 / 2 := by norm_num
    refine ⟨b', by rw [hbe, hbb], ?_⟩
    rw [hs'.ram, ← hy, hb']

/-- C92: from a mebibyte on, a size that was printed and read once is not changed by printing and
reading it again, up to 1023.5 pebibytes, which are printed as 1024PiB. -/
theorem C92_settles (b : Nat) (h1 : 2 ^ 20 ≤ b) (h2 : b < 2047 * 2 ^ 49 - 128) :
    ∃ b' : Nat, ramInBytes (bytesSize b) = some (b' : Int) ∧ ramInBytes (bytesSize b') = some (b' : Int) := by
  have h0 : b ≠ 0 := by norm_num at *; omega
  have hb : (0 : Rat) < b := by exact_mod_cast Nat.pos_of_ne_zero h0
  obtain ⟨c, hc, hcc, hc0⟩ := round_size b h0
  rw [bytesSize_float hc hcc]
  refine float_settles c ?_ ?_ hcc
  · have hp : F64.pow2 20 = 2 ^ 20 := by decide +kernel
    have := (round_pow2 hb (e := 20) (by norm_num)).1 (by rw [hp]; exact_mod_cast h1)
    rw [hp, hc] at this
    exact_mod_cast this
  · have hb1 : (1 : Rat) ≤ b := by exact_mod_cast Nat.pos_of_ne_zero h0
    have hn := (abs_le.mp (round_near hb1)).2
    rw [hc] at hn
    have hb2 : (b : Rat) < 1152358554653425664 - 128 := by
      have : b < 1152358554653425664 - 128 := by norm_num at *; exact h2
      have h : b + 128 < 1152358554653425664 := by omega
      have : (b : Rat) + 128 < 1152358554653425664 := by exact_mod_cast h
      linarith
    have hd : (b : Rat) / 2 ^ 53 ≤ 128 := by
      have e1 : (128 : Rat) * 2 ^ 53 = 1152921504606846976 := by norm_num
      rw [div_le_iff₀ (by positivity), e1]
      linarith
    have : (c : Rat) < 1152358554653425664 := by linarith
    have : c < 1152358554653425664 := by exact_mod_cast this
    norm_num
    exact this

/-- C92: beyond, the second formatting makes the file unreadable. -/
theorem C92_second_unreadable : bytesSize (2 ^ 60 - 2 ^ 48) = "1024PiB" ∧ ramInBytes "1024PiB" = some (2 ^ 60) ∧
    bytesSize (2 ^ 60) = "1EiB" ∧ ramInBytes "1EiB" = none := by decide +kernel

/-- C92: formatting changes memory limits: 1100MiB becomes 1.074GiB, 234882 bytes less. -/
theorem C92_changed : bytesSize 1153433600 = "1.074GiB" ∧ ramInBytes "1100MiB" = some 1153433600 ∧
    ramInBytes "1.074GiB" = some 1153198718 := by decide +kernel

/-- C92: below a mebibyte a size can shrink with every formatting. -/
theorem C92_drift : bytesSize 1065 = "1.04KiB" ∧ ramInBytes "1.04KiB" = some 1064 ∧
    bytesSize 1064 = "1.039KiB" ∧ ramInBytes "1.039KiB" = some 1063 ∧ bytesSize 1063 = "1.038KiB" ∧
    ramInBytes "1.038KiB" = some 1062 := by decide +kernel

/-- C92: a negative size (YAML accepts `-5` as a number) is printed with its sign, and what is printed
cannot be read: the formatted file is refused. -/
theorem C92_negative (b : Int) (hb : b < 0) : (bytesSize b).toList.head? = some '-' ∧
    ramInBytes (bytesSize b) = none ∧
    (-1024 < b → bytesSize b = "-" ++ toString b.natAbs ++ "B") := by
  have ht : bytesSize b = String.ofList ('-' :: g4 (F64.round (-b : Int)) ++ ['B']) := by
    unfold bytesSize
    rw [if_pos hb]
  have hh : (bytesSize b).toList = '-' :: (g4 (F64.round (-b : Int)) ++ ['B']) := by
    rw [ht, String.toList_ofList, List.cons_append]
  refine ⟨by rw [hh]; rfl, ?_, fun hlt => ?_⟩
  · cases hr : ramInBytes (bytesSize b) with
    | none => rfl
    | some r =>
      obtain ⟨z, e, hz, hs⟩ := ram_some hr
      rw [hs, String.toList_ofList, text_eq] at hh
      cases hw : z.whole with
      | nil => exact absurd hw hz.whole.1
      | cons c cs =>
        rw [hw] at hh
        have hc : c = '-' := by
          have := congrArg List.head? hh
          simpa using this
        have := hz.whole.2 c (by rw [hw]; exact List.mem_cons_self)
        subst hc
        exact absurd this (by decide)
  · obtain ⟨n, rfl⟩ : ∃ n : Nat, b = -(n : Int) := ⟨b.natAbs, by omega⟩
    have hn : n < 1024 := by omega
    have h0 : n ≠ 0 := by omega
    have hb0 : ¬ ((n : Nat) : Int) < 0 := by omega
    have hm := (C92_multiple n 0 (by omega) ⟨by omega, hn⟩).1
    have hq : F64.round (((n : Nat) : Int) : Rat) = n := by
      have := round_nat h0 (lt_trans hn (by norm_num))
      exact_mod_cast this
    simp only [pow_zero, Nat.mul_one] at hm
    unfold bytesSize at hm
    rw [if_neg hb0, hq] at hm
    have hs : sizeAndUnit 8 (n : Rat) 0 = ((n : Rat), 0) := by
      have : ¬ (1024 : Rat) ≤ n := by
        have : (n : Rat) < 1024 := by exact_mod_cast hn
        exact not_le.mpr this
      rw [sizeAndUnit, if_neg this]
    rw [hs] at hm
    have hg : g4 (n : Rat) = (toString n).toList := by
      have := congrArg String.toList hm
      simp only [String.toList_append, String.toList_ofList] at this
      exact List.append_cancel_right (bs := "B".toList) this
    rw [ht, neg_neg, hq, hg]
    apply String.toList_injective
    simp

example : bytesSize (-5) = "-5B" ∧ bytesSize (-1048576) = "-1.049e+06B" ∧ ramInBytes "-5B" = none := by
  decide +kernel

/-- C92: from an exbibyte on, what is printed cannot be read. -/
theorem C92_unreadable : bytesSize (2 ^ 60) = "1EiB" ∧ ramInBytes "1EiB" = none := by decide +kernel

example : (2 : Nat) ^ 20 ≤ 1153433600 ∧ bytesSize 1153198718 = "1.074GiB" := by decide +kernel

/-- C92, the condition of C84 on sizes: a size with at most four significant digits survives
formatting, if YAML takes its text for a string. -/
theorem C92_survives (R : Resolver) (b i d : Nat) (hi : i ≤ 5) (h1 : 1024 ^ i ≤ b) (h2 : b < 1024 ^ (i + 1))
    (hd : 1 ≤ d ∧ d ≤ 4) (h3 : 10 ^ (d - 1) * 1024 ^ i ≤ b) (h4 : b < 10 ^ d * 1024 ^ i)
    (hdvd : 1024 ^ i ∣ b * 10 ^ (4 - d)) (hR : R.plain (bytesSize b) = some .str) :
    Yaml.decBytes ramInBytes (strNode R (bytesSize b)) 0 = { val := b } := by
  have hx := C92_exact b i d hi h1 h2 hd h3 h4 hdvd
  have hn : strNode R (bytesSize b) = .scalar (bytesSize b) .str := by
    unfold strNode
    split
    · rfl
    · unfold plainNode
      rw [hR]
  rw [hn]
  simp [Yaml.decBytes, Yaml.custom, Yaml.unmarshalBytes, Yaml.decInt, Yaml.decString, Yaml.mismatch, hx]

theorem round_not_neg {q : Rat} (h : 0 ≤ q) : 0 ≤ F64.round q := by
  unfold F64.round
  have h1 := F64.pow2_pos (F64.last q)
  have h2 : 0 ≤ F64.nearest (q / F64.pow2 (F64.last q)) := nearest_nonneg (by positivity)
  have : (0 : Rat) ≤ F64.nearest (q / F64.pow2 (F64.last q)) := by exact_mod_cast h2
  positivity

theorem number_nonneg {l rest : List Char} {v : Rat} (h : number l = some (v, rest)) : 0 ≤ v := by
  unfold number at h
  split at h
  · cases h
  · split at h
    · cases h
    · split at h
      · cases h
      · simp only [Option.some.injEq, Prod.mk.injEq] at h
        rw [← h.1]
        positivity
  · simp only [Option.some.injEq, Prod.mk.injEq] at h
    rw [← h.1]
    positivity

/-- C92: what is read is a number of 64 bits. -/
theorem C92_fits (s : String) (i : Int) (h : ramInBytes s = some i) : Spec.Fits64 i := by
  unfold ramInBytes at h
  split at h
  · cases h
  · rename_i v rest hv
    dsimp only at h
    split at h
    · split at h
      · have h0 : 0 ≤ F64.round (F64.round v * (1024 ^ (unitPrefix (skipSpace rest)).1 : Nat)) :=
          round_not_neg (mul_nonneg (round_not_neg (number_nonneg hv)) (by positivity))
        rw [← Option.some.inj h]
        unfold toInt64
        split
        · rename_i hlt
          have h1 : 0 ≤ (F64.round (F64.round v * (1024 ^ (unitPrefix (skipSpace rest)).1 : Nat))).floor := by
            rw [Rat.le_floor_iff]; exact_mod_cast h0
          have h2 := Rat.floor_le (a := F64.round (F64.round v * (1024 ^ (unitPrefix (skipSpace rest)).1 : Nat)))
          have h3 := lt_of_le_of_lt h2 hlt
          have h4 : (F64.round (F64.round v * (1024 ^ (unitPrefix (skipSpace rest)).1 : Nat))).floor < (2 ^ 63 : Nat) := by
            exact_mod_cast h3
          exact ⟨by omega, by omega⟩
        · decide
      · cases h
    · cases h

end Drone
