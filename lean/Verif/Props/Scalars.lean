/-
C108: what is accepted as a text, a number, a truth value or a size, and what it becomes.
-/
import Mathlib.Data.Rat.Floor
import Mathlib.Tactic.Linarith
import Mathlib.Tactic.Positivity
import Verif.Props.Decode

namespace Drone
open Yaml Spec

namespace Spec

/-- `i` is `q` without its decimals. -/
structure Truncated (q : Rat) (i : Int) : Prop where
  near : |(i : Rat)| ≤ |q| ∧ |q| < |(i : Rat)| + 1
  side : 0 ≤ (i : Rat) * q

/-- What an integer of 64 bits can be written as; fractions far below zero, and 2^63 written as a
fraction, are taken for the least integer. -/
inductive IsInt : Yaml.Node → Int → Prop
  | null : IsInt .null 0
  | int (t i) (hi : -2 ^ 63 ≤ i ∧ i < 2 ^ 63) : IsInt (.scalar t (.int i)) i
  | float (t q i) (h : Truncated q i) (hi : -2 ^ 63 ≤ i ∧ i < 2 ^ 63) : IsInt (.scalar t (.float q)) i
  | least (t q i) (h : Truncated q i) (hi : i < -2 ^ 63 ∨ q = 2 ^ 63) : IsInt (.scalar t (.float q)) (-2 ^ 63)

/-- What a truth value can be written as. -/
inductive IsBool : Yaml.Node → Bool → Prop
  | null : IsBool .null false
  | bool (t b) : IsBool (.scalar t (.bool b)) b

/-- What a number can be written as. -/
inductive IsFloat : Yaml.Node → Rat → Prop
  | null : IsFloat .null 0
  | int (t i) : IsFloat (.scalar t (.int i)) i
  | float (t q) : IsFloat (.scalar t (.float q)) q

/-- What a size can be written as: a number of bytes, or a text that is a size. -/
inductive IsSize (ram : String → Option Int) : Yaml.Node → Int → Prop
  | number {n i} (h : IsInt n i) : IsSize ram n i
  | text (t r i) (h : ∀ j, ¬ IsInt (.scalar t r) j) (hr : ram t = some i) : IsSize ram (.scalar t r) i

end Spec

theorem truncated_iff (q : Rat) (i : Int) : Truncated q i ↔ i = Int.tdiv q.num q.den := by
  have hd : (0 : Rat) < q.den := by exact_mod_cast q.den_pos
  have hq : q * q.den = q.num := Rat.mul_den_eq_num q
  have hd' : (0 : Int) < q.den := by exact_mod_cast q.den_pos
  constructor
  · rintro ⟨⟨h1, h2⟩, h3⟩
    rcases le_total 0 q with h0 | h0
    · have hn : 0 ≤ q.num := Rat.num_nonneg.2 h0
      rw [abs_of_nonneg h0] at h1 h2
      have hi : (0 : Rat) ≤ i := by
        by_contra hneg
        push Not at hneg
        rw [abs_of_neg hneg] at h1
        have : 0 < q := by linarith
        have := mul_neg_of_neg_of_pos hneg this
        linarith
      rw [abs_of_nonneg hi] at h1 h2
      rw [Int.tdiv_eq_ediv_of_nonneg hn]
      symm
      rw [Int.ediv_eq_iff_of_pos hd']
      constructor
      · have : (i : Rat) * q.den ≤ q.num := by rw [← hq]; exact mul_le_mul_of_nonneg_right h1 hd.le
        exact_mod_cast this
      · have : (q.num : Rat) < i * q.den + q.den := by
          have := mul_lt_mul_of_pos_right h2 hd
          linarith
        exact_mod_cast this
    · have hn : q.num ≤ 0 := Rat.num_nonpos.2 h0
      rw [abs_of_nonpos h0] at h1 h2
      have hi : (i : Rat) ≤ 0 := by
        by_contra hpos
        push Not at hpos
        rw [abs_of_pos hpos] at h1
        have : q < 0 := by linarith
        have := mul_neg_of_pos_of_neg hpos this
        linarith
      rw [abs_of_nonpos hi] at h1 h2
      have h4 : Int.tdiv q.num q.den = -((-q.num) / q.den) := by
        rw [← Int.tdiv_eq_ediv_of_nonneg (by omega), Int.neg_tdiv, neg_neg]
      rw [h4]
      have h5 : (-q.num) / (q.den : Int) = -i := by
        rw [Int.ediv_eq_iff_of_pos hd']
        constructor
        · have : -(i : Rat) * q.den ≤ -q.num := by
            have := mul_le_mul_of_nonneg_right h1 hd.le
            linarith
          exact_mod_cast this
        · have : -(q.num : Rat) < -i * q.den + q.den := by
            have := mul_lt_mul_of_pos_right h2 hd
            linarith
          exact_mod_cast this
      omega
  · rintro rfl
    rcases le_total 0 q with h0 | h0
    · have hn : 0 ≤ q.num := Rat.num_nonneg.2 h0
      rw [Int.tdiv_eq_ediv_of_nonneg hn]
      obtain ⟨h1, h2⟩ := (Int.ediv_eq_iff_of_pos hd').1 (rfl : q.num / (q.den : Int) = q.num / q.den)
      have h3 : 0 ≤ q.num / (q.den : Int) := Int.ediv_nonneg hn hd'.le
      have h1' : ((q.num / (q.den : Int) : Int) : Rat) * q.den ≤ q * q.den := by rw [hq]; exact_mod_cast h1
      have h2' : q * q.den < (((q.num / (q.den : Int) : Int) : Rat) + 1) * q.den := by
        rw [hq, add_mul, one_mul]; exact_mod_cast h2
      have h3' : (0 : Rat) ≤ ((q.num / (q.den : Int) : Int) : Rat) := by exact_mod_cast h3
      refine ⟨⟨?_, ?_⟩, mul_nonneg h3' h0⟩
      · rw [abs_of_nonneg h0, abs_of_nonneg h3']; exact le_of_mul_le_mul_right h1' hd
      · rw [abs_of_nonneg h0, abs_of_nonneg h3']; exact lt_of_mul_lt_mul_right h2' hd.le
    · have hn : q.num ≤ 0 := Rat.num_nonpos.2 h0
      have h4 : Int.tdiv q.num q.den = -((-q.num) / q.den) := by
        rw [← Int.tdiv_eq_ediv_of_nonneg (by omega), Int.neg_tdiv, neg_neg]
      rw [h4]
      obtain ⟨h1, h2⟩ := (Int.ediv_eq_iff_of_pos hd').1 (rfl : -q.num / (q.den : Int) = -q.num / q.den)
      have h3 : 0 ≤ -q.num / (q.den : Int) := Int.ediv_nonneg (by omega) hd'.le
      generalize -q.num / (q.den : Int) = z at h1 h2 h3
      have h1' : (z : Rat) * q.den ≤ -q * q.den := by
        have : (z : Rat) * q.den ≤ -q.num := by exact_mod_cast h1
        linarith
      have h2' : -q * q.den < ((z : Rat) + 1) * q.den := by
        have : -(q.num : Rat) < z * q.den + q.den := by exact_mod_cast h2
        linarith
      have h3' : (0 : Rat) ≤ (z : Rat) := by exact_mod_cast h3
      have h5 : ((-z : Int) : Rat) = -(z : Rat) := Int.cast_neg z
      refine ⟨⟨?_, ?_⟩, by rw [h5]; nlinarith⟩
      · rw [h5, abs_neg, abs_of_nonpos h0, abs_of_nonneg h3']; exact le_of_mul_le_mul_right h1' hd
      · rw [h5, abs_neg, abs_of_nonpos h0, abs_of_nonneg h3']; exact lt_of_mul_lt_mul_right h2' hd.le

theorem Spec.Truncated.at_most {q : Rat} {i : Int} (h : Truncated q i) (hi : i < 2 ^ 63) : q ≤ 2 ^ 63 := by
  by_contra hq
  push Not at hq
  have h0 : (0 : Rat) < q := lt_trans (by norm_num) hq
  have h1 : (0 : Rat) ≤ i := by
    by_contra hn
    push Not at hn
    have := mul_neg_of_neg_of_pos hn h0
    linarith [h.side]
  have h2 := h.near.2
  rw [abs_of_pos h0, abs_of_nonneg h1] at h2
  have h3 : (i : Rat) + 1 ≤ 2 ^ 63 := by exact_mod_cast hi
  linarith

theorem Spec.Truncated.at_least {q : Rat} {i : Int} (h : Truncated q i) (hi : 2 ^ 63 ≤ i) : 2 ^ 63 ≤ q := by
  have h1 : (2 ^ 63 : Rat) ≤ i := by exact_mod_cast hi
  have h2 : (0 : Rat) < i := lt_of_lt_of_le (by norm_num) h1
  have h0 : 0 ≤ q := by
    by_contra hn
    push Not at hn
    have := mul_neg_of_pos_of_neg h2 hn
    linarith [h.side]
  have h3 := h.near.1
  rw [abs_of_pos h2, abs_of_nonneg h0] at h3
  linarith

/-- C108: what is accepted as an integer, and which one it is; the rest is refused and the old value
stays. -/
theorem C108_int (n : Yaml.Node) (old : Int) :
    (∀ i, IsInt n i → decInt n old = { val := i }) ∧
    ((∀ i, ¬ IsInt n i) → decInt n old = { val := old, good := false, err := true }) := by
  constructor
  · rintro i (_ | ⟨t, i, hi⟩ | ⟨t, q, i, h, hi⟩ | ⟨t, q, i, h, hi⟩)
    · rfl
    · exact if_pos hi
    · rw [decInt, if_pos (h.at_most hi.2)]
      rw [(truncated_iff q i).1 h] at hi ⊢
      rw [truncInt, if_pos hi]
    · rw [decInt, truncInt]
      rcases hi with hi | rfl
      · rw [if_pos (h.at_most (by omega)), if_neg (by rw [← (truncated_iff q i).1 h]; omega)]
      · rw [if_pos le_rfl]
        rfl
  · intro h
    match n with
    | .null => exact absurd .null (h 0)
    | .scalar t (.int i) =>
      by_cases hi : -2 ^ 63 ≤ i ∧ i < 2 ^ 63
      · exact absurd (.int t i hi) (h i)
      · exact if_neg hi
    | .scalar t (.float q) =>
      have ht := (truncated_iff q _).2 rfl
      rw [decInt]
      by_cases hq : q ≤ 2 ^ 63
      · by_cases hi : -2 ^ 63 ≤ Int.tdiv q.num q.den ∧ Int.tdiv q.num q.den < 2 ^ 63
        · exact absurd (.float t q _ ht hi) (h _)
        · refine absurd (.least t q _ ht ?_) (h _)
          by_cases h2 : Int.tdiv q.num q.den < -2 ^ 63
          · exact .inl h2
          · exact .inr (le_antisymm hq (ht.at_least (by omega)))
      · exact if_neg hq
    | .scalar t (.bool b) => rfl
    | .scalar t .str => rfl
    | .seq _ => rfl
    | .map _ => rfl

/-- C108: the same for truth values: only `true`, `false` and their like, not a text. -/
theorem C108_bool (n : Yaml.Node) (old : Bool) :
    (∀ b, IsBool n b → decBool n old = { val := b }) ∧
    ((∀ b, ¬ IsBool n b) → decBool n old = { val := old, good := false, err := true }) := by
  constructor
  · rintro i (_ | _) <;> rfl
  · intro h
    match n with
    | .null => exact absurd .null (h _)
    | .scalar t (.int i) => rfl
    | .scalar t (.float q) => rfl
    | .scalar t (.bool b) => exact absurd (.bool t b) (h b)
    | .scalar t .str => rfl
    | .seq _ => rfl
    | .map _ => rfl

/-- C108: the same for numbers. -/
theorem C108_float (n : Yaml.Node) (old : Rat) :
    (∀ q, IsFloat n q → decFloat n old = { val := q }) ∧
    ((∀ q, ¬ IsFloat n q) → decFloat n old = { val := old, good := false, err := true }) := by
  constructor
  · rintro i (_ | _ | _) <;> rfl
  · intro h
    match n with
    | .null => exact absurd .null (h _)
    | .scalar t (.int i) => exact absurd (.int t i) (h _)
    | .scalar t (.float q) => exact absurd (.float t q) (h _)
    | .scalar t (.bool b) => rfl
    | .scalar t .str => rfl
    | .seq _ => rfl
    | .map _ => rfl

/-- C108: any scalar is a text, as it is written; lists and mappings are refused. -/
theorem C108_string (n : Yaml.Node) (old : String) :
    (∀ t, textOf n = some t → decString n old = { val := t }) ∧
    (textOf n = none → decString n old = { val := old, good := false, err := true }) := by
  cases n <;> simp [textOf, decString, mismatch]

/-- C108: what is accepted as a size. -/
theorem C108_size (ram : String → Option Int) (n : Yaml.Node) (old : Int) :
    (∀ i, IsSize ram n i → decBytes ram n old = { val := i }) ∧
    ((∀ i, ¬ IsSize ram n i) → decBytes ram n old = { val := old, good := false, err := true }) := by
  constructor
  · rintro i (⟨h⟩ | ⟨t, r, i, h, hr⟩)
    · have := (C108_int n 0).1 i h
      cases n with
      | null => cases h; rfl
      | _ => simp [decBytes, custom, unmarshalBytes, this]
    · have := (C108_int (.scalar t r) 0).2 h
      simp [decBytes, custom, unmarshalBytes, this, decString, hr]
  · intro h
    have hi : ∀ i, ¬ IsInt n i := fun i hi => h i (.number hi)
    have := (C108_int n 0).2 hi
    match n with
    | .null => exact absurd .null (hi 0)
    | .seq _ => simp [decBytes, custom, unmarshalBytes, this, decString, mismatch]
    | .map _ => simp [decBytes, custom, unmarshalBytes, this, decString, mismatch]
    | .scalar t r =>
      cases hr : ram t with
      | none => simp [decBytes, custom, unmarshalBytes, this, decString, hr]
      | some i => exact absurd (.text t r i hi hr) (h i)

/-- C108: what is written determines the value. -/
theorem C108_unique (ram : String → Option Int) (n : Yaml.Node) :
    (∀ i j, IsInt n i → IsInt n j → i = j) ∧ (∀ i j, IsSize ram n i → IsSize ram n j → i = j) := by
  constructor
  · intro i j hi hj
    have := ((C108_int n 0).1 i hi).symm.trans ((C108_int n 0).1 j hj)
    exact congrArg Res.val this
  · intro i j hi hj
    have := ((C108_size ram n 0).1 i hi).symm.trans ((C108_size ram n 0).1 j hj)
    exact congrArg Res.val this

/-- A depth of 1.9 is a depth of 1, and -1.9 is -1. -/
example (old : Int) : (decInt (.scalar "1.9" (.float (19 / 10))) old).val = 1 ∧
    (decInt (.scalar "-1.9" (.float (-19 / 10))) old).val = -1 := by
  constructor
  · rw [(C108_int _ old).1 1 (.float _ _ _ ⟨by norm_num [abs_of_pos], by norm_num⟩ (by decide))]
  · rw [(C108_int _ old).1 (-1) (.float _ _ _ ⟨by norm_num [abs_of_neg], by norm_num⟩ (by decide))]

/-- A number of 64 bits without sign is refused if it needs all of them, and 1e19 as a fraction too;
-1e19 becomes the least integer. -/
example (old : Int) : (decInt (.scalar "9223372036854775808" (.int (2 ^ 63))) old).err = true ∧
    (decInt (.scalar "1e19" (.float (10 ^ 19))) old).err = true ∧
    decInt (.scalar "-1e19" (.float (-10 ^ 19))) old = { val := -2 ^ 63 } := by
  refine ⟨?_, ?_, ?_⟩
  · rw [(C108_int _ old).2]
    rintro i (_ | ⟨t, i, hi⟩)
    omega
  · rw [(C108_int _ old).2]
    rintro i (_ | _ | ⟨_, _, _, h, hi⟩ | ⟨_, _, j, h, hi⟩)
    · exact absurd (h.at_most hi.2) (by norm_num)
    · rcases hi with hi | hi
      · exact absurd (h.at_most (by omega)) (by norm_num)
      · exact absurd hi (by norm_num)
  · exact (C108_int _ old).1 _ (.least _ _ (-10 ^ 19) ⟨by norm_num [abs_of_neg], by norm_num⟩ (.inl (by norm_num)))

/-- A quoted truth value is refused. -/
example : (decBool (.scalar "true" .str) false).err = true := by
  rw [(C108_bool _ false).2]
  rintro b ⟨⟩

/-- A list is not a size. -/
example (ram : String → Option Int) : (decBytes ram (.seq [.scalar "1" (.int 1)]) 0).err = true := by
  rw [(C108_size ram _ 0).2]
  rintro i (⟨⟨⟩⟩ | _)

end Drone
