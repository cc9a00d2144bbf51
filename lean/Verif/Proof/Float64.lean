/- Rounding of floating point numbers: how far and what it leaves alone. -/
import Mathlib.Data.Rat.Floor
import Mathlib.Tactic.Linarith
import Mathlib.Tactic.Ring
import Mathlib.Tactic.FieldSimp
import Mathlib.Tactic.NormNum
import Mathlib.Tactic.Positivity
import Mathlib.Algebra.Order.Field.Power
import Verif.Model.Float64

namespace Drone.F64

theorem pow2_eq (e : Int) : pow2 e = (2 : Rat) ^ e := by
  unfold pow2
  split
  · rename_i h
    obtain ⟨n, rfl⟩ := Int.eq_ofNat_of_zero_le h
    simp
  · rename_i h
    obtain ⟨n, hn⟩ := Int.eq_ofNat_of_zero_le (show 0 ≤ -e by omega)
    have : e = -(n : Int) := by omega
    subst this
    simp

theorem pow2_pos (e : Int) : 0 < pow2 e := by rw [pow2_eq]; positivity

theorem top_spec {q : Rat} (h : 0 < q) : pow2 (top q) ≤ q ∧ q < pow2 (top q + 1) := by
  have hn : 0 < q.num := Rat.num_pos.2 h
  obtain ⟨n, hn'⟩ := Int.eq_ofNat_of_zero_le hn.le
  have hn0 : n ≠ 0 := by rintro rfl; omega
  have hd0 : q.den ≠ 0 := q.den_nz
  have hq : q = (n : Rat) / (q.den : Rat) := by
    conv_lhs => rw [← Rat.num_div_den q]
    rw [hn']; simp
  have hnt : q.num.toNat = n := by rw [hn']; rfl
  have a1 := Nat.log2_self_le hn0
  have a2 : n < 2 ^ (n.log2 + 1) := Nat.lt_log2_self
  have b1 := Nat.log2_self_le hd0
  have b2 : q.den < 2 ^ (q.den.log2 + 1) := Nat.lt_log2_self
  have a1' : (2 : Rat) ^ (n.log2 : Int) ≤ n := by rw [zpow_natCast]; exact_mod_cast a1
  have a2' : (n : Rat) < (2 : Rat) ^ ((n.log2 : Int) + 1) := by
    rw [show ((n.log2 : Int) + 1) = ((n.log2 + 1 : Nat) : Int) by push_cast; rfl, zpow_natCast]; exact_mod_cast a2
  have b1' : (2 : Rat) ^ (q.den.log2 : Int) ≤ q.den := by rw [zpow_natCast]; exact_mod_cast b1
  have b2' : (q.den : Rat) < (2 : Rat) ^ ((q.den.log2 : Int) + 1) := by
    rw [show ((q.den.log2 : Int) + 1) = ((q.den.log2 + 1 : Nat) : Int) by push_cast; rfl, zpow_natCast]
    exact_mod_cast b2
  have hd : (0 : Rat) < q.den := by exact_mod_cast Nat.pos_of_ne_zero hd0
  generalize hden : q.den = d at *
  have up : q < (2 : Rat) ^ ((n.log2 : Int) - d.log2 + 1) := by
    rw [hq, div_lt_iff₀ hd]
    rw [show ((n.log2 : Int) - d.log2 + 1) = ((n.log2 : Int) + 1) - d.log2 by ring,
      zpow_sub₀ (by norm_num)]
    have : (0 : Rat) < (2 : Rat) ^ (d.log2 : Int) := by positivity
    rw [div_mul_eq_mul_div, lt_div_iff₀ this]
    exact mul_lt_mul a2' b1' this (by positivity)
  have lo : (2 : Rat) ^ ((n.log2 : Int) - d.log2 - 1) ≤ q := by
    rw [hq, le_div_iff₀ hd]
    rw [show ((n.log2 : Int) - d.log2 - 1) = (n.log2 : Int) - (d.log2 + 1) by ring,
      zpow_sub₀ (by norm_num)]
    have : (0 : Rat) < (2 : Rat) ^ ((d.log2 : Int) + 1) := by positivity
    rw [div_mul_eq_mul_div, div_le_iff₀ this]
    exact mul_le_mul a1' b2'.le hd.le (by positivity)
  unfold top
  simp only [hnt, hden]
  split
  · rename_i hk
    exact ⟨hk, by rw [pow2_eq]; exact up⟩
  · rename_i hk
    rw [not_le] at hk
    refine ⟨by rw [pow2_eq]; exact lo, ?_⟩
    rw [sub_add_cancel]
    exact hk

theorem floor_eq (x : Rat) : x.floor = ⌊x⌋ := rfl

theorem nearest_cases (x : Rat) : (x - ⌊x⌋ ≤ 1 / 2 ∧ nearest x = ⌊x⌋) ∨ (1 / 2 ≤ x - ⌊x⌋ ∧ nearest x = ⌊x⌋ + 1) := by
  by_cases h1 : x - ⌊x⌋ < 1 / 2
  · exact .inl ⟨h1.le, if_pos h1⟩
  · have h1' := not_lt.1 h1
    by_cases h2 : 1 / 2 < x - ⌊x⌋
    · exact .inr ⟨h1', (if_neg h1).trans (if_pos h2)⟩
    · by_cases h3 : ⌊x⌋ % 2 = 0
      · exact .inl ⟨not_lt.1 h2, (if_neg h1).trans ((if_neg h2).trans (if_pos h3))⟩
      · exact .inr ⟨h1', (if_neg h1).trans ((if_neg h2).trans (if_neg h3))⟩

theorem nearest_le (x : Rat) : |(nearest x : Rat) - x| ≤ 1 / 2 := by
  have h1 := Int.floor_le x
  have h2 := Int.lt_floor_add_one x
  rw [abs_le]
  rcases nearest_cases x with ⟨h, e⟩ | ⟨h, e⟩ <;> rw [e] <;> push_cast <;> constructor <;> linarith

theorem nearest_int (i : Int) : nearest (i : Rat) = i := by
  rcases nearest_cases (i : Rat) with ⟨h, e⟩ | ⟨h, e⟩
  · simpa using e
  · rw [Int.floor_intCast] at h
    norm_num at h

/-- A number of 53 bits is not changed. -/
theorem round_exact {q : Rat} (h : 0 < q) {m : Int} {e : Int} (hq : q = m * pow2 e) (hm : m < 2 ^ 53)
    (he : -1074 ≤ e) : round q = q := by
  obtain ⟨h1, _⟩ := top_spec h
  have hle : last q ≤ e := by
    unfold last
    refine max_le ?_ he
    have : pow2 (top q) < pow2 (e + 53) := by
      refine lt_of_le_of_lt h1 ?_
      rw [hq, pow2_eq, pow2_eq, zpow_add₀ (by norm_num)]
      rw [mul_comm]
      refine mul_lt_mul_of_pos_left ?_ (by positivity)
      have : (m : Rat) < ((2 ^ 53 : Int) : Rat) := by exact_mod_cast hm
      refine lt_of_lt_of_eq this ?_
      norm_num
    rw [pow2_eq, pow2_eq, zpow_lt_zpow_iff_right₀ (by norm_num)] at this
    omega
  obtain ⟨n, hn⟩ := Int.eq_ofNat_of_zero_le (show 0 ≤ e - last q by omega)
  have hpos := pow2_pos (last q)
  have : q / pow2 (last q) = ((m * 2 ^ n : Int) : Rat) := by
    rw [div_eq_iff hpos.ne']
    push_cast
    have he' : e = n + last q := by omega
    generalize last q = l at *
    subst he'
    rw [hq, pow2_eq, pow2_eq, zpow_add₀ (by norm_num), zpow_natCast]
    ring
  unfold round
  rw [this, nearest_int, ← this]
  field_simp

/-- In the normal range the relative error is at most `2^-53`. -/
theorem round_error {q : Rat} (h : pow2 (-1022) ≤ q) : |round q - q| ≤ q * pow2 (-53) := by
  have h0 : 0 < q := lt_of_lt_of_le (pow2_pos _) h
  obtain ⟨h1, h2⟩ := top_spec h0
  have ht : -1022 ≤ top q := by
    have : pow2 (-1022) < pow2 (top q + 1) := lt_of_le_of_lt h h2
    rw [pow2_eq, pow2_eq, zpow_lt_zpow_iff_right₀ (by norm_num)] at this
    omega
  have hl : last q = top q - 52 := by unfold last; omega
  have hpos := pow2_pos (last q)
  have := nearest_le (q / pow2 (last q))
  have e : round q - q = ((nearest (q / pow2 (last q)) : Rat) - q / pow2 (last q)) * pow2 (last q) := by
    unfold round
    field_simp
  rw [e, abs_mul, abs_of_pos hpos]
  refine le_trans (mul_le_mul_of_nonneg_right this hpos.le) ?_
  have : pow2 (last q) = pow2 (top q) * pow2 (-53) * 2 := by
    rw [hl, pow2_eq, pow2_eq, pow2_eq, show top q - 52 = top q + -53 + 1 by ring, zpow_add₀ (by norm_num),
      zpow_add₀ (by norm_num)]
    norm_num
  rw [this]
  have := mul_le_mul_of_nonneg_right h1 (pow2_pos (-53)).le
  linarith

example : pow2 (-3) = 1/8 := by decide +kernel
example : top (201/100) = 1 := by decide +kernel
example : last (201/100) = -51 := by decide +kernel
example : nearest (5/2) = 2 := by decide +kernel
example : round (201 / 100) = 1131529406376837 / 562949953421312 := by decide +kernel

/-- The result of rounding has 53 bits. -/
theorem round_bits {q : Rat} (h : 0 < q) :
    ∃ m e : Int, m.natAbs < 2 ^ 53 ∧ -1074 ≤ e ∧ round q = m * pow2 e := by
  obtain ⟨_, h2⟩ := top_spec h
  have hpos := pow2_pos (last q)
  have hl : top q - 52 ≤ last q := le_max_left _ _
  have hl2 : -1074 ≤ last q := le_max_right _ _
  have hlt : q / pow2 (last q) < ((2 ^ 53 : Int) : Rat) := by
    rw [div_lt_iff₀ hpos]
    refine lt_of_lt_of_le h2 ?_
    rw [pow2_eq, pow2_eq]
    have : ((2 ^ 53 : Int) : Rat) * (2 : Rat) ^ (last q) = (2 : Rat) ^ (53 + last q) := by
      rw [zpow_add₀ (by norm_num)]; norm_num
    rw [this]
    exact zpow_le_zpow_right₀ (by norm_num) (by omega)
  have h0 : 0 ≤ q / pow2 (last q) := by positivity
  have hf0 : 0 ≤ ⌊q / pow2 (last q)⌋ := Int.floor_nonneg.2 h0
  have hf1 : ⌊q / pow2 (last q)⌋ < 2 ^ 53 := Int.floor_lt.2 hlt
  have hn : nearest (q / pow2 (last q)) = ⌊q / pow2 (last q)⌋ ∨
      nearest (q / pow2 (last q)) = ⌊q / pow2 (last q)⌋ + 1 := by
    rcases nearest_cases (q / pow2 (last q)) with h | h
    · exact .inl h.2
    · exact .inr h.2
  unfold round
  by_cases he : nearest (q / pow2 (last q)) = 2 ^ 53
  · refine ⟨2 ^ 52, last q + 1, by decide, by omega, ?_⟩
    rw [he, pow2_eq, pow2_eq, zpow_add₀ (by norm_num)]
    push_cast
    ring
  · exact ⟨_, last q, by rcases hn with hn | hn <;> rw [hn] at he ⊢ <;> omega, hl2, rfl⟩

end Drone.F64
