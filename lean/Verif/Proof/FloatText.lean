/- The shortest decimal number that is read as a given floating point number. -/
import Verif.Spec.FloatText
import Verif.Model.FloatText
import Verif.Props.Units
import Mathlib.Data.Nat.Prime.Basic

namespace Drone
namespace FloatText
open Units (width trimZeros)
open Spec (digitsNumber)

theorem pow10_eq (e : Int) : pow10 e = (10 : Rat) ^ e := by
  unfold pow10
  split
  · rename_i h
    obtain ⟨n, rfl⟩ := Int.eq_ofNat_of_zero_le h
    simp
  · rename_i h
    obtain ⟨n, hn⟩ := Int.eq_ofNat_of_zero_le (show 0 ≤ -e by omega)
    have : e = -(n : Int) := by omega
    subst this
    simp

theorem pow10_pos (e : Int) : 0 < pow10 e := by rw [pow10_eq]; positivity

theorem width_pos (n : Nat) : 0 < width n := Nat.length_toDigits_pos

theorem width_le {n k : Nat} (hk : 0 < k) : width n ≤ k ↔ n < 10 ^ k := Nat.length_toDigits_le_iff (by decide) hk

theorem width_spec {n : Nat} (h : n ≠ 0) : 10 ^ (width n - 1) ≤ n ∧ n < 10 ^ width n := by
  refine ⟨?_, (width_le (width_pos n)).1 (Nat.le_refl _)⟩
  by_contra hn
  by_cases hw : width n - 1 = 0
  · rw [hw] at hn
    simp at hn
    exact h hn
  · have := (width_le (n := n) (Nat.pos_of_ne_zero hw)).2 (by omega)
    omega

theorem point_spec {q : Rat} (h : 0 < q) : pow10 (point q - 1) ≤ q ∧ q < pow10 (point q) := by
  have hnum : 0 < q.num := Rat.num_pos.2 h
  obtain ⟨a1, a2⟩ := width_spec (n := q.num.toNat) (by omega)
  obtain ⟨b1, b2⟩ := width_spec (n := q.den) q.den_ne_zero
  have hden : (0 : Rat) < q.den := by exact_mod_cast Nat.pos_of_ne_zero q.den_ne_zero
  have hq : q = (q.num.toNat : Rat) / q.den := by
    have : ((q.num.toNat : Int) : Rat) = q.num := by rw [Int.toNat_of_nonneg hnum.le]
    rw [← Int.cast_natCast, this, Rat.num_div_den]
  have wa := width_pos q.num.toNat
  have wb := width_pos q.den
  have ha1 : (10 : Rat) ^ ((width q.num.toNat : Int) - 1) ≤ q.num.toNat := by
    have : ((10 ^ (width q.num.toNat - 1) : Nat) : Rat) ≤ q.num.toNat := by exact_mod_cast a1
    refine le_trans (le_of_eq ?_) this
    push_cast
    rw [← zpow_natCast]
    congr 1
    omega
  have ha2 : (q.num.toNat : Rat) < (10 : Rat) ^ (width q.num.toNat : Int) := by
    rw [zpow_natCast]
    exact_mod_cast a2
  have hb1 : (10 : Rat) ^ ((width q.den : Int) - 1) ≤ q.den := by
    have : ((10 ^ (width q.den - 1) : Nat) : Rat) ≤ q.den := by exact_mod_cast b1
    refine le_trans (le_of_eq ?_) this
    push_cast
    rw [← zpow_natCast]
    congr 1
    omega
  have hb2 : (q.den : Rat) < (10 : Rat) ^ (width q.den : Int) := by
    rw [zpow_natCast]
    exact_mod_cast b2
  have hlo : (10 : Rat) ^ ((width q.num.toNat : Int) - (width q.den : Int) - 1) ≤ q := by
    conv_rhs => rw [hq]
    rw [le_div_iff₀ hden]
    calc (10 : Rat) ^ ((width q.num.toNat : Int) - (width q.den : Int) - 1) * q.den
        ≤ (10 : Rat) ^ ((width q.num.toNat : Int) - (width q.den : Int) - 1) * (10 : Rat) ^ (width q.den : Int) :=
          mul_le_mul_of_nonneg_left hb2.le (by positivity)
      _ = (10 : Rat) ^ ((width q.num.toNat : Int) - 1) := by
          rw [← zpow_add₀ (by norm_num)]
          congr 1
          ring
      _ ≤ _ := ha1
  have hhi : q < (10 : Rat) ^ ((width q.num.toNat : Int) - (width q.den : Int) + 1) := by
    conv_lhs => rw [hq]
    rw [div_lt_iff₀ hden]
    calc (q.num.toNat : Rat) < (10 : Rat) ^ (width q.num.toNat : Int) := ha2
      _ = (10 : Rat) ^ ((width q.num.toNat : Int) - (width q.den : Int) + 1) * (10 : Rat) ^ ((width q.den : Int) - 1) := by
          rw [← zpow_add₀ (by norm_num)]
          congr 1
          ring
      _ ≤ _ := mul_le_mul_of_nonneg_left hb1 (by positivity)
  unfold point
  simp only
  by_cases hc : pow10 ((width q.num.toNat : Int) - (width q.den : Int)) ≤ q
  · rw [if_pos hc, pow10_eq, pow10_eq]
    rw [pow10_eq] at hc
    exact ⟨by simpa using hc, hhi⟩
  · rw [if_neg hc, pow10_eq, pow10_eq]
    rw [pow10_eq] at hc
    exact ⟨hlo, not_le.1 hc⟩

theorem nearest_eq (x : Rat) : F64.nearest x =
    if x - ⌊x⌋ < 1 / 2 then ⌊x⌋ else if 1 / 2 < x - ⌊x⌋ then ⌊x⌋ + 1 else if ⌊x⌋ % 2 = 0 then ⌊x⌋ else ⌊x⌋ + 1 := rfl

/-- Rounding keeps the order. -/
theorem round_mono {a b : Rat} (ha : 0 < a) (hab : a ≤ b) : F64.round a ≤ F64.round b := by
  have hb : 0 < b := lt_of_lt_of_le ha hab
  obtain ⟨a1, a2⟩ := F64.top_spec ha
  obtain ⟨b1, b2⟩ := F64.top_spec hb
  have htop : F64.top a ≤ F64.top b := by
    have : F64.pow2 (F64.top a) < F64.pow2 (F64.top b + 1) := lt_of_le_of_lt a1 (lt_of_le_of_lt hab b2)
    rw [F64.pow2_eq, F64.pow2_eq, zpow_lt_zpow_iff_right₀ (by norm_num)] at this
    omega
  by_cases hl : F64.last a = F64.last b
  · unfold F64.round
    rw [hl]
    refine mul_le_mul_of_nonneg_right ?_ (F64.pow2_pos _).le
    have hx : a / F64.pow2 (F64.last b) ≤ b / F64.pow2 (F64.last b) := div_le_div_of_nonneg_right hab (F64.pow2_pos _).le
    generalize a / F64.pow2 (F64.last b) = x at hx
    generalize b / F64.pow2 (F64.last b) = y at hx
    have hf : ⌊x⌋ ≤ ⌊y⌋ := Int.floor_le_floor hx
    rw [Int.cast_le]
    rcases lt_or_eq_of_le hf with hlt | heq
    · rcases F64.nearest_cases x with ⟨_, e⟩ | ⟨_, e⟩ <;> rcases F64.nearest_cases y with ⟨_, e'⟩ | ⟨_, e'⟩ <;>
        rw [e, e'] <;> omega
    · rw [nearest_eq, nearest_eq, heq]
      by_cases a1 : x - ⌊y⌋ < 1 / 2
      · rw [if_pos a1]
        split_ifs <;> omega
      · have c1 : ¬ y - ⌊y⌋ < 1 / 2 := by linarith
        rw [if_neg a1, if_neg c1]
        by_cases a2 : 1 / 2 < y - ⌊y⌋
        · rw [if_pos a2]
          split_ifs <;> omega
        · have c2 : ¬ 1 / 2 < x - ⌊y⌋ := by linarith
          rw [if_neg a2, if_neg c2]
  · have ht : F64.top a < F64.top b := by
      rcases lt_or_eq_of_le htop with h | h
      · exact h
      · exact absurd (by unfold F64.last; rw [h]) hl
    have hb22 : -1022 ≤ F64.top b := by
      unfold F64.last at hl
      omega
    have h1 := (round_pow2 hb hb22).1 b1
    have h2 := (round_pow2 ha hb22).2 (by
      refine le_trans a2.le ?_
      rw [F64.pow2_eq, F64.pow2_eq]
      exact zpow_le_zpow_right₀ (by norm_num) (by omega))
    exact le_trans h2 h1

/-- Numbers between two that are rounded to `q` are rounded to `q`. -/
theorem round_between {a b c q : Rat} (ha : 0 < a) (hab : a ≤ b) (hbc : b ≤ c) (h1 : F64.round a = q) (h2 : F64.round c = q) :
    F64.round b = q :=
  le_antisymm (h2 ▸ round_mono (lt_of_lt_of_le ha hab) hbc) (h1 ▸ round_mono ha hab)

/-! ### The search -/

theorem floor_toNat {x : Rat} (h : 0 ≤ x) : ((x.floor.toNat : Nat) : Rat) ≤ x ∧ x < (x.floor.toNat : Nat) + 1 := by
  have h0 : 0 ≤ ⌊x⌋ := Int.floor_nonneg.2 h
  have e : ((x.floor.toNat : Nat) : Rat) = ((⌊x⌋ : Int) : Rat) := by
    rw [F64.floor_eq, ← Int.cast_natCast, Int.toNat_of_nonneg h0]
  rw [e]
  exact ⟨Int.floor_le x, Int.lt_floor_add_one x⟩

theorem scaled (q : Rat) (dp n : Int) : q * pow10 (n - dp) * pow10 (dp - n) = q := by
  rw [mul_assoc, pow10_eq, pow10_eq, ← zpow_add₀ (by norm_num)]
  simp

theorem le_scaled {q : Rat} {dp n : Int} {c : Rat} : c ≤ q * pow10 (n - dp) ↔ c * pow10 (dp - n) ≤ q := by
  conv_rhs => rw [← scaled q dp n]
  exact (mul_le_mul_iff_of_pos_right (pow10_pos _)).symm

theorem scaled_le {q : Rat} {dp n : Int} {c : Rat} : q * pow10 (n - dp) ≤ c ↔ q ≤ c * pow10 (dp - n) := by
  conv_rhs => rw [← scaled q dp n]
  exact (mul_le_mul_iff_of_pos_right (pow10_pos _)).symm

theorem round_zero : F64.round 0 = 0 := by decide +kernel

/-- What a candidate is. -/
theorem candidate_some {q : Rat} (hq : 0 < q) {dp : Int} {n m : Nat} (h : candidate q dp n = some m) :
    F64.round (m * pow10 (dp - n)) = q ∧ (m = (q * pow10 (n - dp)).floor.toNat ∨ m = (q * pow10 (n - dp)).floor.toNat + 1) := by
  unfold candidate at h
  simp only [decide_eq_true_eq] at h
  have hx : 0 ≤ ⌊q * pow10 (n - dp)⌋ := Int.floor_nonneg.2 (mul_nonneg hq.le (pow10_pos _).le)
  have hn : (F64.nearest (q * pow10 (n - dp))).toNat = (q * pow10 (n - dp)).floor.toNat ∨
      (F64.nearest (q * pow10 (n - dp))).toNat = (q * pow10 (n - dp)).floor.toNat + 1 := by
    rw [F64.floor_eq]
    rcases F64.nearest_cases (q * pow10 (n - dp)) with ⟨_, e⟩ | ⟨_, e⟩ <;> rw [e] <;> omega
  split_ifs at h with h1 h2 h3
  · cases h
    refine ⟨?_, hn⟩
    rcases hn with e | e <;> rw [e] <;> assumption
  · cases h
    exact ⟨h1, .inl rfl⟩
  · cases h
    exact ⟨h3, .inr rfl⟩

/-- The numbers with so many digits that are read as `q`: the candidate is the nearest of them. -/
theorem candidate_nearest {q : Rat} (hq : 0 < q) (hr : F64.round q = q) {dp : Int} {n c : Nat} (hc : c ≠ 0)
    (h : F64.round (c * pow10 (dp - n)) = q) :
    ∃ m, candidate q dp n = some m ∧ |m * pow10 (dp - n) - q| ≤ |c * pow10 (dp - n) - q| := by
  have hp := pow10_pos (dp - n)
  have hcp : 0 < (c : Rat) * pow10 (dp - n) := mul_pos (by exact_mod_cast Nat.pos_of_ne_zero hc) hp
  have hx0 : 0 ≤ q * pow10 (n - dp) := mul_nonneg hq.le (pow10_pos _).le
  obtain ⟨f1, f2⟩ := floor_toNat hx0
  have g1 := le_scaled.1 f1
  have g2 := scaled_le.1 f2.le
  have hlo : c ≤ (q * pow10 (n - dp)).floor.toNat → F64.round ((q * pow10 (n - dp)).floor.toNat * pow10 (dp - n)) = q :=
    fun hle => round_between hcp (mul_le_mul_of_nonneg_right (by exact_mod_cast hle) hp.le) g1 h hr
  have hhi : (q * pow10 (n - dp)).floor.toNat + 1 ≤ c →
      F64.round (((q * pow10 (n - dp)).floor.toNat + 1 : Nat) * pow10 (dp - n)) = q := by
    intro hle
    refine round_between hq (by push_cast; exact g2) ?_ hr h
    exact mul_le_mul_of_nonneg_right (by exact_mod_cast hle) hp.le
  have dlo : c ≤ (q * pow10 (n - dp)).floor.toNat →
      |(q * pow10 (n - dp)).floor.toNat * pow10 (dp - n) - q| ≤ |c * pow10 (dp - n) - q| := by
    intro hle
    have : (c : Rat) * pow10 (dp - n) ≤ (q * pow10 (n - dp)).floor.toNat * pow10 (dp - n) :=
      mul_le_mul_of_nonneg_right (by exact_mod_cast hle) hp.le
    rw [abs_of_nonpos (by linarith), abs_of_nonpos (by linarith)]
    linarith
  have dhi : (q * pow10 (n - dp)).floor.toNat + 1 ≤ c →
      |((q * pow10 (n - dp)).floor.toNat + 1 : Nat) * pow10 (dp - n) - q| ≤ |c * pow10 (dp - n) - q| := by
    intro hle
    have : (((q * pow10 (n - dp)).floor.toNat + 1 : Nat) : Rat) * pow10 (dp - n) ≤ c * pow10 (dp - n) :=
      mul_le_mul_of_nonneg_right (by exact_mod_cast hle) hp.le
    have g3 : q ≤ (((q * pow10 (n - dp)).floor.toNat + 1 : Nat) : Rat) * pow10 (dp - n) := by push_cast; exact g2
    rw [abs_of_nonneg (by linarith), abs_of_nonneg (by linarith)]
    linarith
  unfold candidate
  simp only [decide_eq_true_eq]
  have hcase : c ≤ (q * pow10 (n - dp)).floor.toNat ∨ (q * pow10 (n - dp)).floor.toNat + 1 ≤ c := by omega
  by_cases h1 : F64.round ((q * pow10 (n - dp)).floor.toNat * pow10 (dp - n)) = q
  · by_cases h2 : F64.round (((q * pow10 (n - dp)).floor.toNat + 1 : Nat) * pow10 (dp - n)) = q
    · rw [if_pos h1, if_pos h2]
      refine ⟨_, rfl, ?_⟩
      have key : |((F64.nearest (q * pow10 (n - dp))).toNat : Rat) - q * pow10 (n - dp)| ≤ |(c : Rat) - q * pow10 (n - dp)| := by
        have hx : 0 ≤ ⌊q * pow10 (n - dp)⌋ := Int.floor_nonneg.2 hx0
        have e0 : ((q * pow10 (n - dp)).floor.toNat : Int) = ⌊q * pow10 (n - dp)⌋ := by
          rw [F64.floor_eq]; exact Int.toNat_of_nonneg hx
        have e1 : (((q * pow10 (n - dp)).floor.toNat : Nat) : Rat) = ((⌊q * pow10 (n - dp)⌋ : Int) : Rat) := by
          rw [← e0, Int.cast_natCast]
        have e2 : ((F64.nearest (q * pow10 (n - dp))).toNat : Rat) = ((F64.nearest (q * pow10 (n - dp)) : Int) : Rat) := by
          have : 0 ≤ F64.nearest (q * pow10 (n - dp)) := by
            rcases F64.nearest_cases (q * pow10 (n - dp)) with ⟨_, e⟩ | ⟨_, e⟩ <;> rw [e] <;> omega
          rw [← Int.cast_natCast, Int.toNat_of_nonneg this]
        rw [e2]
        rw [e1] at f1 f2
        have hc' : (c : Rat) ≤ ⌊q * pow10 (n - dp)⌋ ∨ (⌊q * pow10 (n - dp)⌋ : Rat) + 1 ≤ c := by
          rcases hcase with h | h
          · exact .inl (by rw [← e1]; exact_mod_cast h)
          · exact .inr (by rw [← e1]; exact_mod_cast h)
        rcases F64.nearest_cases (q * pow10 (n - dp)) with ⟨a, e⟩ | ⟨a, e⟩ <;> rw [e] <;> push_cast <;> rcases hc' with h | h
        · rw [abs_of_nonpos (by linarith), abs_of_nonpos (by linarith)]; linarith
        · rw [abs_of_nonpos (by linarith), abs_of_nonneg (by linarith)]; linarith
        · rw [abs_of_nonneg (by linarith), abs_of_nonpos (by linarith)]; linarith
        · rw [abs_of_nonneg (by linarith), abs_of_nonneg (by linarith)]; linarith
      have := mul_le_mul_of_nonneg_right key hp.le
      have eq : ∀ y : Rat, |y - q * pow10 (n - dp)| * pow10 (dp - n) = |y * pow10 (dp - n) - q| := by
        intro y
        rw [← abs_of_pos hp, ← abs_mul, sub_mul, abs_of_pos hp, scaled]
      rwa [eq, eq] at this
    · rw [if_pos h1, if_neg h2]
      exact ⟨_, rfl, dlo (hcase.resolve_right fun hle => h2 (hhi hle))⟩
  · have hge := hcase.resolve_left fun hle => h1 (hlo hle)
    rw [if_neg h1, if_pos (hhi hge)]
    exact ⟨_, rfl, dhi hge⟩

/-- What the search finds. -/
theorem search_spec (q : Rat) (dp : Int) : ∀ fuel n : Nat, n ≤ (search q dp fuel n).2 ∧
    (∀ j, n ≤ j → j < (search q dp fuel n).2 → candidate q dp j = none) ∧
    (candidate q dp (search q dp fuel n).2 = some (search q dp fuel n).1 ∨
      ((search q dp fuel n).2 = n + fuel ∧ (search q dp fuel n).1 = (q * pow10 ((n + fuel : Nat) - dp)).floor.toNat))
  | 0, n => by
    refine ⟨le_refl _, fun j h1 h2 => absurd h2 (by simp only [search]; omega), .inr ⟨rfl, rfl⟩⟩
  | fuel + 1, n => by
    cases hc : candidate q dp n with
    | some m =>
      have e : search q dp (fuel + 1) n = (m, n) := by rw [search, hc]
      rw [e]
      exact ⟨le_refl _, fun j h1 h2 => by simp only at h2; omega, .inl hc⟩
    | none =>
      have e : search q dp (fuel + 1) n = search q dp fuel (n + 1) := by rw [search, hc]
      rw [e]
      obtain ⟨h1, h2, h3⟩ := search_spec q dp fuel (n + 1)
      refine ⟨by omega, fun j a b => ?_, ?_⟩
      · rcases Nat.eq_or_lt_of_le a with rfl | a
        · exact hc
        · exact h2 j a b
      · rcases h3 with h3 | ⟨h3, h4⟩
        · exact .inl h3
        · refine .inr ⟨by omega, ?_⟩
          rw [h4]
          congr 5
          omega

/-- The denominator of a floating point number is a power of two. -/
theorem den_pow {q : Rat} (hq : 0 < q) (hr : F64.round q = q) : q.den = 2 ^ q.den.log2 := by
  obtain ⟨m, e, h, _, _, _⟩ := Units.round_repr hq
  rw [hr] at h
  have key : ∃ k, q.den ∣ 2 ^ k := by
    rcases le_or_gt 0 e with he | he
    · refine ⟨0, ?_⟩
      obtain ⟨n, rfl⟩ := Int.eq_ofNat_of_zero_le he
      have : q = ((m * 2 ^ n : Int) : Rat) := by rw [h, F64.pow2_eq]; push_cast; simp
      rw [this, Rat.den_intCast]
      simp
    · refine ⟨(-e).toNat, ?_⟩
      have : q = ((m : Int) : Rat) / (((2 ^ (-e).toNat : Nat) : Int) : Rat) := by
        conv_lhs => rw [h, F64.pow2_eq]
        push_cast
        rw [div_eq_mul_inv, ← zpow_natCast, ← zpow_neg]
        congr 2
        omega
      rw [this, ← Rat.divInt_eq_div]
      have := Rat.den_dvd m ((2 ^ (-e).toNat : Nat) : Int)
      exact_mod_cast this
  obtain ⟨k, hk⟩ := key
  obtain ⟨j, _, hj⟩ := (Nat.dvd_prime_pow Nat.prime_two).1 hk
  conv_lhs => rw [hj]
  rw [hj, Nat.log2_two_pow]

/-! ### Digits -/

theorem digit_value {c : Char} (h : c.isDigit = true) : c.toNat - 48 < 10 ∧ (c.toNat - 48 = 0 → c = '0') := by
  have hall : ∀ c ∈ Spec.decimalDigits, c.toNat - 48 < 10 ∧ (c.toNat - 48 = 0 → c = '0') := by decide
  exact hall c ((Units.isDigit_iff c).1 (Units.isDigit_core c h))

theorem digits_lt {s : List Char} (h : ∀ c ∈ s, c.isDigit = true) : digitsNumber s < 10 ^ s.length := by
  induction s using List.reverseRecOn with
  | nil => simp [digitsNumber]
  | append_singleton s c ih =>
    have h1 := ih fun x hx => h x (by simp [hx])
    have h2 := (digit_value (h c (by simp))).1
    rw [Units.decimal_snoc, List.length_append, List.length_singleton, pow_succ]
    omega

theorem digits_ge {s : List Char} (h : ∀ c ∈ s, c.isDigit = true) (hne : s ≠ []) (h0 : s.head? ≠ some '0') :
    10 ^ (s.length - 1) ≤ digitsNumber s := by
  cases s with
  | nil => exact absurd rfl hne
  | cons c s =>
    have h1 := digit_value (h c (by simp))
    have : c.toNat - 48 ≠ 0 := fun e => h0 (by rw [h1.2 e]; rfl)
    have e : digitsNumber (c :: s) = (c.toNat - 48) * 10 ^ s.length + digitsNumber s := by
      have := Units.decimal_append [c] s
      simpa [digitsNumber] using this
    rw [e]
    simp only [List.length_cons, Nat.add_sub_cancel]
    have : 1 * 10 ^ s.length ≤ (c.toNat - 48) * 10 ^ s.length := Nat.mul_le_mul_right _ (by omega)
    omega

theorem toDigits_all (n : Nat) : ∀ c ∈ Nat.toDigits 10 n, c.isDigit = true :=
  fun _ hc => Nat.isDigit_of_mem_toDigits (by decide) (by decide) hc

theorem toDigits_head {n : Nat} (h : n ≠ 0) : (Nat.toDigits 10 n).head? ≠ some '0' := by
  intro h0
  have h1 := (width_spec h).1
  unfold width at h1
  have h2 := Units.decimal_toDigits n
  have h3 := toDigits_all n
  cases hs : Nat.toDigits 10 n with
  | nil => rw [hs] at h0; cases h0
  | cons c s =>
    rw [hs] at h0 h1 h2 h3
    cases h0
    have e : digitsNumber ('0' :: s) = digitsNumber s := by simp [digitsNumber]
    have := digits_lt (s := s) fun x hx => h3 x (by simp [hx])
    rw [e] at h2
    simp only [List.length_cons, Nat.add_sub_cancel] at h1
    omega

theorem trim_last (s : List Char) : (trimZeros s).getLast? ≠ some '0' := by
  unfold trimZeros
  rw [List.getLast?_reverse]
  intro h
  cases hd : s.reverse.dropWhile (· = '0') with
  | nil => rw [hd] at h; cases h
  | cons c r =>
    have := List.head_dropWhile_not (fun c : Char => decide (c = '0')) (l := s.reverse) (by rw [hd]; simp)
    simp only [hd] at this h
    simp_all

/-- The digits that are left of a number. -/
theorem trimmed {m : Nat} (hm : m ≠ 0) : ∃ j, Nat.toDigits 10 m = trimZeros (Nat.toDigits 10 m) ++ List.replicate j '0' ∧
    m = digitsNumber (trimZeros (Nat.toDigits 10 m)) * 10 ^ j ∧ width m = (trimZeros (Nat.toDigits 10 m)).length + j ∧
    Spec.AllDigits (trimZeros (Nat.toDigits 10 m)) ∧ (trimZeros (Nat.toDigits 10 m)).head? ≠ some '0' := by
  obtain ⟨j, hj⟩ := Units.trim_spec (Nat.toDigits 10 m)
  have hv : m = digitsNumber (trimZeros (Nat.toDigits 10 m)) * 10 ^ j := by
    conv_lhs => rw [← Units.decimal_toDigits m, hj, Units.decimal_append, Units.decimal_zeros, List.length_replicate]
    rfl
  have hne : trimZeros (Nat.toDigits 10 m) ≠ [] := by
    intro e
    rw [e] at hv
    simp [digitsNumber] at hv
    exact hm hv
  refine ⟨j, hj, hv, ?_, ⟨hne, fun c hc => toDigits_all m c (by rw [hj]; simp [hc])⟩, fun h0 => ?_⟩
  · unfold width
    conv_lhs => rw [hj]
    simp
  · refine toDigits_head hm ?_
    rw [hj, List.head?_append, h0]
    rfl

/-- The last of the digits that are left is no zero: a multiple of ten loses one. -/
theorem trimmed_ten {m : Nat} (hm : m ≠ 0) (h : 10 ∣ m) : (trimZeros (Nat.toDigits 10 m)).length < width m := by
  obtain ⟨j, hj, hv, hw, hd, _⟩ := trimmed hm
  cases j with
  | succ j => omega
  | zero =>
    exfalso
    rw [pow_zero, Nat.mul_one] at hv
    have hl := trim_last (Nat.toDigits 10 m)
    rcases List.eq_nil_or_concat (trimZeros (Nat.toDigits 10 m)) with e | ⟨a, c, e⟩
    · exact hd.1 e
    · rw [List.concat_eq_append] at e
      rw [e] at hv hl
      have hc := digit_value (hd.2 c (by rw [e]; simp))
      rw [Units.decimal_snoc] at hv
      have : c.toNat - 48 = 0 := by omega
      exact hl (by simp [hc.2 this])

/-! ### The shortest number -/

/-- What is found, for any positive number. -/
theorem search_pos {q : Rat} (hq : 0 < q) (fuel : Nat) : (search q (point q) fuel 1).1 ≠ 0 := by
  obtain ⟨h1, _, h3⟩ := search_spec q (point q) fuel 1
  rcases h3 with h3 | ⟨_, h4⟩
  · intro e
    have := (candidate_some hq h3).1
    rw [e] at this
    simp only [Nat.cast_zero, zero_mul, round_zero] at this
    exact absurd this.symm (ne_of_gt hq)
  · rw [h4]
    have hx : (1 : Rat) ≤ q * pow10 ((1 + fuel : Nat) - point q) := by
      rw [le_scaled, one_mul]
      refine le_trans ?_ (point_spec hq).1
      rw [pow10_eq, pow10_eq]
      exact zpow_le_zpow_right₀ (by norm_num) (by push_cast; omega)
    have : (1 : Int) ≤ ⌊q * pow10 ((1 + fuel : Nat) - point q)⌋ := Int.le_floor.2 (by exact_mod_cast hx)
    rw [F64.floor_eq]
    omega

/-- The value of digits and a position. -/
def value (ds : List Char) (d : Int) : Rat := (digitsNumber ds : Rat) * (10 : Rat) ^ (d - ds.length)

theorem shortest_digits {q : Rat} (hq : 0 < q) : Spec.AllDigits (shortest q).1 ∧ (shortest q).1.head? ≠ some '0' :=
  have h := trimmed (search_pos hq _)
  ⟨h.choose_spec.2.2.2.1, h.choose_spec.2.2.2.2⟩

/-- The number that was found. -/
theorem shortest_value {q : Rat} (hq : 0 < q) : ∃ m n : Nat,
    (m, n) = search q (point q) ((point q + q.den.log2).toNat - 1) 1 ∧ (shortest q).1 = trimZeros (Nat.toDigits 10 m) ∧
    value (shortest q).1 (shortest q).2 = m * pow10 (point q - n) := by
  refine ⟨_, _, rfl, rfl, ?_⟩
  obtain ⟨j, _, hv, hw, _⟩ := trimmed (search_pos hq ((point q + q.den.log2).toNat - 1))
  unfold shortest value
  simp only
  generalize search q (point q) ((point q + q.den.log2).toNat - 1) 1 = r at hv hw ⊢
  conv_rhs => rw [hv]
  rw [hw, pow10_eq]
  push_cast
  rw [mul_assoc, ← zpow_natCast, ← zpow_add₀ (by norm_num)]
  congr 2
  ring

/-- If all digits are taken, the number is exact. -/
theorem search_exact {q : Rat} (hq : 0 < q) (hr : F64.round q = q) {m n : Nat}
    (h3 : n = 1 + ((point q + q.den.log2).toNat - 1))
    (h4 : m = (q * pow10 ((1 + ((point q + q.den.log2).toNat - 1) : Nat) - point q)).floor.toNat) :
    m * pow10 (point q - n) = q := by
  have hge : point q + q.den.log2 ≤ (1 + ((point q + q.den.log2).toNat - 1) : Nat) := by omega
  rw [← h3] at h4 hge
  have hint : ∃ i : Int, q * pow10 (n - point q) = i := by
    obtain ⟨k, hk⟩ := Int.eq_ofNat_of_zero_le (show 0 ≤ (n : Int) - point q - q.den.log2 by omega)
    refine ⟨q.num * 5 ^ q.den.log2 * 10 ^ k, ?_⟩
    have e : (n : Int) - point q = q.den.log2 + k := by omega
    rw [e, pow10_eq, zpow_add₀ (by norm_num), zpow_natCast, zpow_natCast]
    have hd : (q.den : Rat) = 2 ^ q.den.log2 := by exact_mod_cast den_pow hq hr
    have hq' : q * 2 ^ q.den.log2 = q.num := by rw [← hd]; exact_mod_cast Rat.mul_den_eq_num q
    have h10 : (10 : Rat) ^ q.den.log2 = 2 ^ q.den.log2 * 5 ^ q.den.log2 := by rw [← mul_pow]; norm_num
    push_cast
    rw [h10, ← hq']
    ring
  obtain ⟨i, hi⟩ := hint
  have hi0 : 0 ≤ i := by
    have : (0 : Rat) ≤ i := by rw [← hi]; exact mul_nonneg hq.le (pow10_pos _).le
    exact_mod_cast this
  have hm : (m : Rat) = i := by
    rw [h4, hi, F64.floor_eq, Int.floor_intCast, ← Int.cast_natCast, Int.toNat_of_nonneg hi0]
  rw [hm, ← hi, scaled]

/-- The number that was found is read as `q`. -/
theorem shortest_round {q : Rat} (hq : 0 < q) (hr : F64.round q = q) :
    F64.round (value (shortest q).1 (shortest q).2) = q := by
  obtain ⟨m, n, h, _, hv⟩ := shortest_value hq
  rw [hv]
  obtain ⟨_, _, h3⟩ := search_spec q (point q) ((point q + q.den.log2).toNat - 1) 1
  rw [← h] at h3
  rcases h3 with h3 | ⟨h3, h4⟩
  · exact (candidate_some hq h3).1
  · rw [search_exact hq hr h3 h4, hr]

theorem value_range {ds : List Char} (hd : Spec.AllDigits ds) (h0 : ds.head? ≠ some '0') (d : Int) :
    (10 : Rat) ^ (d - 1) ≤ value ds d ∧ value ds d < (10 : Rat) ^ d := by
  have h1 := digits_ge hd.2 hd.1 h0
  have h2 := digits_lt hd.2
  have hl : 0 < ds.length := List.length_pos_iff.2 hd.1
  unfold value
  constructor
  · have : ((10 ^ (ds.length - 1) : Nat) : Rat) ≤ digitsNumber ds := by exact_mod_cast h1
    calc (10 : Rat) ^ (d - 1) = ((10 ^ (ds.length - 1) : Nat) : Rat) * (10 : Rat) ^ (d - ds.length) := by
          push_cast
          rw [← zpow_natCast, ← zpow_add₀ (by norm_num)]
          congr 1
          omega
      _ ≤ _ := mul_le_mul_of_nonneg_right this (by positivity)
  · have : (digitsNumber ds : Rat) < ((10 ^ ds.length : Nat) : Rat) := by exact_mod_cast h2
    calc (digitsNumber ds : Rat) * (10 : Rat) ^ (d - ds.length) < ((10 ^ ds.length : Nat) : Rat) * (10 : Rat) ^ (d - ds.length) :=
          mul_lt_mul_of_pos_right this (by positivity)
      _ = _ := by
          push_cast
          rw [← zpow_natCast, ← zpow_add₀ (by norm_num)]
          congr 1
          omega

/-- A number that is read as `q` can be moved into the decade of `q`. -/
theorem aligned {q : Rat} (hq : 0 < q) (hr : F64.round q = q) {c : Nat} (hc : c ≠ 0) {e : Int}
    (h : F64.round (c * (10 : Rat) ^ e) = q) : ∃ c' n : Nat, c' ≠ 0 ∧ 1 ≤ n ∧ n ≤ width c ∧
      F64.round (c' * pow10 (point q - n)) = q ∧ |c' * pow10 (point q - n) - q| ≤ |c * (10 : Rat) ^ e - q| := by
  obtain ⟨p1, p2⟩ := point_spec hq
  obtain ⟨w1, w2⟩ := width_spec hc
  have wp := width_pos c
  have hv0 : 0 < (c : Rat) * (10 : Rat) ^ e := mul_pos (by exact_mod_cast Nat.pos_of_ne_zero hc) (by positivity)
  have v1 : (10 : Rat) ^ (e + width c - 1) ≤ c * (10 : Rat) ^ e := by
    have : ((10 ^ (width c - 1) : Nat) : Rat) ≤ c := by exact_mod_cast w1
    refine le_trans (le_of_eq ?_) (mul_le_mul_of_nonneg_right this (by positivity))
    push_cast
    rw [← zpow_natCast, ← zpow_add₀ (by norm_num)]
    congr 1
    omega
  have v2 : (c : Rat) * (10 : Rat) ^ e < (10 : Rat) ^ (e + width c) := by
    have : (c : Rat) < ((10 ^ width c : Nat) : Rat) := by exact_mod_cast w2
    refine lt_of_lt_of_le (mul_lt_mul_of_pos_right this (by positivity)) (le_of_eq ?_)
    push_cast
    rw [← zpow_natCast, ← zpow_add₀ (by norm_num)]
    congr 1
    omega
  rw [pow10_eq] at p1 p2
  rcases lt_trichotomy (e + width c) (point q) with hl | hl | hl
  · have h1 : (c : Rat) * (10 : Rat) ^ e ≤ (10 : Rat) ^ (point q - 1) :=
      le_trans v2.le (zpow_le_zpow_right₀ (by norm_num) (by omega))
    refine ⟨1, 1, by decide, le_refl _, wp, ?_, ?_⟩
    · rw [pow10_eq, Nat.cast_one, one_mul]
      exact round_between hv0 h1 p1 h hr
    · rw [pow10_eq, Nat.cast_one, one_mul, Nat.cast_one, abs_of_nonpos (by linarith), abs_of_nonpos (by linarith)]
      linarith
  · refine ⟨c, width c, hc, wp, le_refl _, ?_, ?_⟩
    · rw [pow10_eq, ← hl]
      simpa using h
    · rw [pow10_eq, ← hl]
      simp
  · have h1 : (10 : Rat) ^ point q ≤ (c : Rat) * (10 : Rat) ^ e :=
      le_trans (zpow_le_zpow_right₀ (by norm_num) (by omega)) v1
    have e10 : ((10 : Nat) : Rat) * (10 : Rat) ^ (point q - (1 : Nat)) = (10 : Rat) ^ point q := by
      rw [Nat.cast_ofNat, Nat.cast_one, ← zpow_one_add₀ (by norm_num)]
      congr 1
      omega
    refine ⟨10, 1, by decide, le_refl _, wp, ?_, ?_⟩
    · rw [pow10_eq, e10]
      exact round_between hq p2.le h1 hr h
    · rw [pow10_eq, e10, abs_of_nonneg (by linarith), abs_of_nonneg (by linarith)]
      linarith

/-- No number with fewer digits is read as `q`, and none with as many is nearer. -/
theorem shortest_least {q : Rat} (hq : 0 < q) (hr : F64.round q = q) {c : Nat} (hc : c ≠ 0) {e : Int}
    (h : F64.round (c * (10 : Rat) ^ e) = q) : (shortest q).1.length ≤ width c ∧
      (width c ≤ (shortest q).1.length → |value (shortest q).1 (shortest q).2 - q| ≤ |c * (10 : Rat) ^ e - q|) := by
  obtain ⟨m, n, hs, hd, hv⟩ := shortest_value hq
  have hm0 : m ≠ 0 := by
    have := search_pos hq ((point q + q.den.log2).toNat - 1)
    rwa [← hs] at this
  obtain ⟨c', n', hc', h1, h2, h3, h4⟩ := aligned hq hr hc h
  obtain ⟨m', hm', hnear⟩ := candidate_nearest hq hr hc' h3
  obtain ⟨s1, s2, s3⟩ := search_spec q (point q) ((point q + q.den.log2).toNat - 1) 1
  rw [← hs] at s1 s2 s3
  simp only at s1 s2 s3
  have hn : n ≤ n' := by
    by_contra hlt
    have := s2 n' h1 (by omega)
    rw [hm'] at this
    cases this
  have hlo : (q * pow10 (n - point q)).floor.toNat < 10 ^ n := by
    have hx0 : 0 ≤ q * pow10 (n - point q) := mul_nonneg hq.le (pow10_pos _).le
    have hx : q * pow10 (n - point q) < ((10 ^ n : Nat) : Rat) := by
      have := mul_lt_mul_of_pos_right (point_spec hq).2 (pow10_pos (n - point q))
      refine lt_of_lt_of_le this (le_of_eq ?_)
      rw [pow10_eq, pow10_eq, ← zpow_add₀ (by norm_num)]
      push_cast
      rw [← zpow_natCast]
      congr 1
      omega
    have := lt_of_le_of_lt (floor_toNat hx0).1 hx
    exact_mod_cast this
  have hmle : m ≤ 10 ^ n := by
    rcases s3 with s3 | ⟨s3, s4⟩
    · rcases (candidate_some hq s3).2 with e | e <;> omega
    · rw [← s3] at s4
      omega
  have hlen : (shortest q).1.length ≤ n := by
    rw [hd]
    obtain ⟨j, _, _, hw, _⟩ := trimmed hm0
    rcases Nat.lt_or_eq_of_le hmle with hlt | heq
    · have := (width_le (n := m) (k := n) (by omega)).2 hlt
      omega
    · have h10 : 10 ∣ m := by rw [heq]; exact dvd_pow_self 10 (by omega)
      have := trimmed_ten hm0 h10
      have hw2 : width m ≤ n + 1 := (width_le (by omega)).2 (by
        rw [heq, pow_succ]
        have : 0 < 10 ^ n := by positivity
        omega)
      omega
  refine ⟨by omega, fun hle => ?_⟩
  have hnn : n' = n := by omega
  subst hnn
  rw [hv]
  refine le_trans ?_ h4
  rcases s3 with s3 | ⟨s3, s4⟩
  · rw [hm'] at s3
    cases s3
    exact hnear
  · rw [search_exact hq hr s3 s4, sub_self, abs_zero]
    exact abs_nonneg _

/-! ### Reading -/

theorem take_digits {ds rest : List Char} (h : ∀ c ∈ ds, c.isDigit = true)
    (hr : ∀ c, rest.head? = some c → c.isDigit = false) :
    (ds ++ rest).takeWhile Char.isDigit = ds ∧ (ds ++ rest).dropWhile Char.isDigit = rest := by
  have h1 : rest.takeWhile Char.isDigit = [] ∧ rest.dropWhile Char.isDigit = rest := by
    cases rest with
    | nil => exact ⟨rfl, rfl⟩
    | cons c r =>
      have := hr c rfl
      simp [List.takeWhile_cons, List.dropWhile_cons, this]
  constructor
  · rw [List.takeWhile_append_of_pos h, h1.1, List.append_nil]
  · rw [List.dropWhile_append_of_pos h, h1.2]

/-- Digits with a decimal point after the first. -/
def mantissa (ds : List Char) : List Char := ds.take 1 ++ (if ds.drop 1 = [] then [] else '.' :: ds.drop 1)

theorem fmtE_eq (ds : List Char) (d : Int) : fmtE ds d = mantissa ds ++ 'e' :: exponent (d - 1) := rfl

theorem read_whole {ds rest : List Char} (hd : Spec.AllDigits ds) (hr : ∀ c, rest.head? = some c → c.isDigit = false)
    (hp : rest.head? ≠ some '.') {x : Int} (h : Spec.readExponent rest = some x) :
    Spec.readUnsigned (ds ++ rest) = some ((digitsNumber ds : Rat) * (10 : Rat) ^ x) := by
  obtain ⟨h1, h2⟩ := take_digits hd.2 hr
  unfold Spec.readUnsigned
  simp only [h1, h2, if_neg hd.1]
  split
  · rename_i r
    exact absurd rfl hp
  · rw [h]
    rfl

theorem read_frac {ds fs rest : List Char} (hd : Spec.AllDigits ds) (hf : Spec.AllDigits fs)
    (hr : ∀ c, rest.head? = some c → c.isDigit = false) {x : Int} (h : Spec.readExponent rest = some x) :
    Spec.readUnsigned (ds ++ '.' :: (fs ++ rest)) = some ((digitsNumber (ds ++ fs) : Rat) * (10 : Rat) ^ (x - (fs.length : Int))) := by
  obtain ⟨h1, h2⟩ := take_digits (rest := '.' :: (fs ++ rest)) hd.2 (by intro c hc; cases hc; decide)
  obtain ⟨h3, h4⟩ := take_digits hf.2 hr
  unfold Spec.readUnsigned
  simp only [h1, h2, h3, h4, if_neg hd.1, if_neg hf.1, h, Option.map_some]

theorem e_head (t : List Char) : ∀ c, ('e' :: t).head? = some c → c.isDigit = false := by
  intro c hc; cases hc; decide

theorem allDigits_take {ds : List Char} (hd : Spec.AllDigits ds) {n : Nat} (hn : n ≠ 0) : Spec.AllDigits (ds.take n) :=
  ⟨by simp [hd.1, hn], fun c hc => hd.2 c (List.mem_of_mem_take hc)⟩

theorem allDigits_drop {ds : List Char} (hd : Spec.AllDigits ds) {n : Nat} (hn : n < ds.length) : Spec.AllDigits (ds.drop n) :=
  ⟨by simp; omega, fun c hc => hd.2 c (List.mem_of_mem_drop hc)⟩

theorem read_E {ds : List Char} (hd : Spec.AllDigits ds) {d : Int} {t : List Char}
    (h : Spec.readExponent ('e' :: t) = some (d - 1)) : Spec.readUnsigned (mantissa ds ++ 'e' :: t) = some (value ds d) := by
  have hl : 0 < ds.length := List.length_pos_iff.2 hd.1
  unfold mantissa value
  by_cases h1 : ds.drop 1 = []
  · have hlen : ds.length = 1 := by
      have := congrArg List.length h1
      simp at this
      omega
    have ht : ds.take 1 = ds := List.take_of_length_le (by omega)
    rw [if_pos h1, List.append_nil, ht, read_whole hd (e_head t) (by simp) h, hlen]
    rfl
  · rw [if_neg h1, List.append_assoc, List.cons_append,
      read_frac (allDigits_take hd (by decide)) (allDigits_drop hd (by
        by_contra hc
        exact h1 (List.drop_eq_nil_of_le (by omega)))) (e_head t) h, List.take_append_drop]
    congr 3
    rw [List.length_drop]
    omega

theorem digits_snoc_zeros (ds : List Char) (n : Nat) : digitsNumber (ds ++ List.replicate n '0') = digitsNumber ds * 10 ^ n := by
  rw [Units.decimal_append, Units.decimal_zeros, List.length_replicate, Nat.add_zero]

theorem zeros_digits (n : Nat) : ∀ c ∈ List.replicate n '0', c.isDigit = true := by
  intro c hc
  rw [(List.mem_replicate.1 hc).2]
  decide

theorem read_F {ds : List Char} (hd : Spec.AllDigits ds) (d : Int) : Spec.readUnsigned (fmtF ds d) = some (value ds d) := by
  have hl : 0 < ds.length := List.length_pos_iff.2 hd.1
  have nohead : ∀ c, ([] : List Char).head? = some c → c.isDigit = false := by intro c hc; cases hc
  unfold fmtF value
  split_ifs with h1 h2
  · have hf : Spec.AllDigits (List.replicate (-d).toNat '0' ++ ds) :=
      ⟨by simp [hd.1], fun c hc => by
        rcases List.mem_append.1 hc with h | h
        · exact zeros_digits _ c h
        · exact hd.2 c h⟩
    have := read_frac (ds := ['0']) (rest := []) (by decide) hf nohead (x := 0) rfl
    rw [List.append_nil] at this
    rw [show '0' :: '.' :: (List.replicate (-d).toNat '0' ++ ds) = ['0'] ++ '.' :: (List.replicate (-d).toNat '0' ++ ds) from rfl, this]
    congr 2
    · rw [Units.decimal_append, Units.decimal_append, Units.decimal_zeros]
      simp [digitsNumber]
    · congr 1
      rw [List.length_append, List.length_replicate]
      push_cast
      omega
  · have hf : Spec.AllDigits (ds ++ List.replicate (d.toNat - ds.length) '0') :=
      ⟨by simp [hd.1], fun c hc => by
        rcases List.mem_append.1 hc with h | h
        · exact hd.2 c h
        · exact zeros_digits _ c h⟩
    have := read_whole hf (rest := []) nohead (by simp) (x := 0) rfl
    rw [List.append_nil] at this
    rw [this, digits_snoc_zeros]
    push_cast
    rw [mul_one, ← zpow_natCast]
    congr 3
    omega
  · have := read_frac (allDigits_take hd (n := d.toNat) (by omega)) (allDigits_drop hd (n := d.toNat) (by omega))
      (rest := []) nohead (x := 0) rfl
    rw [List.append_nil] at this
    rw [this, List.take_append_drop]
    congr 3
    rw [List.length_drop]
    omega

theorem toDigits_allDigits (n : Nat) : Spec.AllDigits (Nat.toDigits 10 n) := ⟨Nat.toDigits_ne_nil, toDigits_all n⟩

/-- Digits of an exponent. -/
def expDigits (n : Nat) : List Char := if n < 10 then ['0', Nat.digitChar n] else Nat.toDigits 10 n

theorem expDigits_spec (n : Nat) : Spec.AllDigits (expDigits n) ∧ digitsNumber (expDigits n) = n := by
  unfold expDigits
  split
  · rename_i h
    interval_cases n <;> decide
  · exact ⟨toDigits_allDigits n, Units.decimal_toDigits n⟩

theorem exponent_eq (e : Int) : exponent e = (if e < 0 then '-' else '+') :: expDigits e.natAbs := rfl

theorem read_exponent (e : Int) : Spec.readExponent ('e' :: exponent e) = some e := by
  obtain ⟨h1, h2⟩ := expDigits_spec e.natAbs
  rw [exponent_eq]
  by_cases h : e < 0
  · rw [if_pos h, Spec.readExponent, if_pos h1, h2]
    congr 1
    omega
  · rw [if_neg h, Spec.readExponent, if_pos h1, h2]
    congr 1
    omega

/-- The exponent in JSON. -/
def jsonExponent (e : Int) : List Char := if -10 < e ∧ e < 0 then ['-', Nat.digitChar e.natAbs] else exponent e

theorem minus_no_digit : ('-' : Char).isDigit = false := by decide

theorem clean_E (m : List Char) (e : Int) : cleanExponent (m ++ 'e' :: exponent e) = m ++ 'e' :: jsonExponent e := by
  unfold jsonExponent
  by_cases h : -10 < e ∧ e < 0
  · rw [if_pos h]
    have : exponent e = ['-', '0', Nat.digitChar e.natAbs] := by
      rw [exponent_eq, if_pos h.2, expDigits, if_pos (by omega)]
    unfold cleanExponent
    rw [this]
    simp
  · rw [if_neg h]
    unfold cleanExponent
    split
    · rename_i d rest hr
      exfalso
      have hall := (expDigits_spec e.natAbs).1
      have hlen : 2 ≤ (expDigits e.natAbs).length := by
        unfold expDigits
        split
        · simp
        · rename_i hn
          by_contra hc
          have := (width_le (n := e.natAbs) (k := 1) (by decide)).1 (by unfold width; omega)
          omega
      rw [exponent_eq] at hr
      rw [List.reverse_append, List.reverse_cons, List.reverse_cons] at hr
      cases hx : (expDigits e.natAbs).reverse with
      | nil =>
        have := congrArg List.length hx
        rw [List.length_reverse, List.length_nil] at this
        omega
      | cons a r1 =>
        cases r1 with
        | nil =>
          have := congrArg List.length hx
          simp at this
          omega
        | cons b r2 =>
          rw [hx] at hr
          cases r2 with
          | nil =>
            simp only [List.cons_append, List.nil_append, List.cons.injEq] at hr
            obtain ⟨rfl, rfl, hs, _⟩ := hr
            have hneg : e < 0 := by
              by_contra hc
              rw [if_neg hc] at hs
              exact absurd hs (by decide)
            have he : expDigits e.natAbs = ['0', a] := by
              have := congrArg List.reverse hx
              simpa using this
            unfold expDigits at he
            split at he
            · rename_i hn
              omega
            · rename_i hn
              exact toDigits_head (n := e.natAbs) (by omega) (by rw [he]; rfl)
          | cons c r3 =>
            simp only [List.cons_append, List.cons.injEq] at hr
            obtain ⟨rfl, rfl, rfl, _⟩ := hr
            have := hall.2 '-' (by rw [← List.mem_reverse, hx]; simp)
            exact absurd this (by decide)
    · rfl

theorem read_jsonExponent (e : Int) : Spec.readExponent ('e' :: jsonExponent e) = some e := by
  unfold jsonExponent
  split
  · rename_i h
    have h1 : Spec.AllDigits [Nat.digitChar e.natAbs] ∧ digitsNumber [Nat.digitChar e.natAbs] = e.natAbs := by
      have : e.natAbs < 10 := by omega
      generalize e.natAbs = n at this
      interval_cases n <;> decide
    rw [Spec.readExponent, if_pos h1.1, h1.2]
    congr 1
    omega
  · exact read_exponent e

theorem read_G {q : Rat} (hq : 0 < q) :
    Spec.readUnsigned (unsignedG q) = some (value (shortest q).1 (shortest q).2) := by
  obtain ⟨h1, _⟩ := shortest_digits hq
  unfold unsignedG
  simp only
  split
  · rw [fmtE_eq]
    exact read_E h1 (read_exponent _)
  · exact read_F h1 _

theorem read_Json {q : Rat} (hq : 0 < q) :
    Spec.readUnsigned (unsignedJson q) = some (value (shortest q).1 (shortest q).2) := by
  obtain ⟨h1, _⟩ := shortest_digits hq
  unfold unsignedJson
  simp only
  split
  · rw [fmtE_eq, clean_E]
    exact read_E h1 (read_jsonExponent _)
  · exact read_F h1 _

end FloatText
end Drone
