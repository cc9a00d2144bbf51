/- C123: the texts of floating point numbers in settings and limits. -/
import Verif.Props.FloatText
import Verif.Props.ReadBack
import Verif.Props.ManifestJson
import Verif.Proof.RefillStep

namespace Drone
open FloatText Spec Pretty
open Encode (Floats Json encodeMap encodeSlice)

namespace FloatText

/-- Characters of numbers. -/
theorem chars_E {ds : List Char} (hd : AllDigits ds) (e : Int) :
    ∀ c ∈ mantissa ds ++ 'e' :: exponent e, c.isDigit = true ∨ c ∈ ['.', 'e', '-', '+'] := by
  intro c hc
  unfold mantissa at hc
  rw [exponent_eq] at hc
  simp only [List.mem_append, List.mem_cons] at hc
  rcases hc with (h | h) | rfl | rfl | h
  · exact .inl (hd.2 c (List.mem_of_mem_take h))
  · split at h
    · simp at h
    · rcases List.mem_cons.1 h with rfl | h
      · right; simp
      · exact .inl (hd.2 c (List.mem_of_mem_drop h))
  · right; simp
  · right; split <;> simp
  · exact .inl ((expDigits_spec _).1.2 c h)

theorem chars_G {q : Rat} (hq : 0 < q) : (∀ c ∈ unsignedG q, c.isDigit = true ∨ c ∈ ['.', 'e', '-', '+']) ∧
    ∃ c t, unsignedG q = c :: t ∧ c.isDigit = true := by
  obtain ⟨hd, _⟩ := shortest_digits hq
  unfold unsignedG
  simp only [fmtE_eq]
  generalize (shortest q).1 = ds at hd
  generalize (shortest q).2 = d
  constructor
  · intro c hc
    split at hc
    · exact chars_E hd _ c hc
    · rcases mem_F hd d c hc with h | rfl
      · exact .inl h
      · right; simp
  · obtain ⟨x, s, rfl⟩ := List.exists_cons_of_ne_nil hd.1
    have hx := hd.2 x (by simp)
    split
    · exact ⟨x, _, rfl, hx⟩
    · unfold fmtF
      split_ifs with h1 h2
      · exact ⟨'0', _, rfl, by decide⟩
      · exact ⟨x, _, rfl, hx⟩
      · obtain ⟨n, hn⟩ : ∃ n, d.toNat = n + 1 := ⟨d.toNat - 1, by omega⟩
        rw [hn]
        exact ⟨x, _, rfl, hx⟩

theorem formatG_shape (q : Rat) : (∀ c ∈ (formatG q).toList, c.isDigit = true ∨ c ∈ ['.', 'e', '-', '+']) ∧
    ∃ c t, (formatG q).toList = c :: t ∧ (c.isDigit = true ∨ (c = '-' ∧ ∃ d u, t = d :: u ∧ d.isDigit = true)) := by
  rcases lt_trichotomy q 0 with h | rfl | h
  · obtain ⟨p, rfl⟩ : ∃ p, q = -p := ⟨-q, by simp⟩
    have hp : 0 < p := by linarith
    obtain ⟨h1, c, t, h2, h3⟩ := chars_G hp
    rw [formatG, signed_neg _ hp]
    refine ⟨fun x hx => ?_, '-', _, rfl, .inr ⟨rfl, c, t, h2, h3⟩⟩
    rcases List.mem_cons.1 hx with rfl | hx
    · right; simp
    · exact h1 x hx
  · have e : (formatG 0).toList = ['0'] := by decide +kernel
    rw [e]
    exact ⟨by simp [Char.isDigit], '0', [], rfl, .inl (by decide)⟩
  · obtain ⟨h1, c, t, h2, h3⟩ := chars_G h
    rw [formatG, signed_pos _ h]
    exact ⟨h1, c, t, h2, .inl h3⟩

theorem digit_bounds {c : Char} (h : c.isDigit = true) : c ∈ decimalDigits :=
  (Units.isDigit_iff c).1 (Units.isDigit_core c h)

end FloatText

/-- C123.  The text of a number is a plain scalar on one line, so that nothing needs to be quoted. -/
theorem C123_plain (q : Rat) : PlainScalar (formatG q).toList := by
  obtain ⟨h1, c, t, h2, h3⟩ := formatG_shape q
  have hd : ∀ c ∈ decimalDigits, Unescaped c ∧ c ≠ ' ' ∧ c ≠ ':' ∧ c ∉ indicators ∧ c ∉ ['-', '?', ':'] := by
    unfold Unescaped
    decide
  have ho : ∀ c ∈ ['.', 'e', '-', '+'], Unescaped c ∧ c ≠ ' ' ∧ c ≠ ':' := by
    unfold Unescaped
    decide
  have hall : ∀ c ∈ (formatG q).toList, Unescaped c ∧ c ≠ ' ' ∧ c ≠ ':' := by
    intro x hx
    rcases h1 x hx with h | h
    · have := hd x (digit_bounds h)
      exact ⟨this.1, this.2.1, this.2.2.1⟩
    · exact ho x h
  refine ⟨fun x hx => (hall x hx).1, ⟨c, t, h2, ?_⟩, ⟨fun h => ?_, fun h => ?_⟩, fun h => ?_, fun h => ?_⟩
  · rcases h3 with h3 | ⟨rfl, d, u, rfl, h3⟩
    · have := hd c (digit_bounds h3)
      exact ⟨this.2.1, this.2.2.2.1, fun hm => absurd hm this.2.2.2.2⟩
    · refine ⟨by decide, by decide, fun _ => ⟨d, u, rfl, (hd d (digit_bounds h3)).2.1⟩⟩
  · exact (hall _ (List.mem_of_getLast? h)).2.1 rfl
  · exact (hall _ (List.mem_of_getLast? h)).2.2 rfl
  · exact (hall ' ' (h.subset (by simp))).2.1 rfl
  · exact (hall ' ' (h.subset (by simp))).2.1 rfl

/-- C123.  What the printer assumes about these texts holds: they have no line break. -/
theorem C123_line (q : Rat) : '\n' ∉ (formatG q).toList ∧ '\r' ∉ (formatG q).toList := by
  obtain ⟨h1, _⟩ := formatG_shape q
  constructor <;> intro h <;> rcases h1 _ h with h | h <;> revert h <;> decide

/-! ### Settings -/

namespace FloatText

theorem isFloat_whole {q : Rat} : (q.den = 1 ∧ q.num.natAbs < 1000000) ↔ ∃ i : Int, q = i ∧ |i| < 1000000 := by
  constructor
  · rintro ⟨h1, h2⟩
    refine ⟨q.num, (Rat.den_eq_one_iff q).1 h1 |>.symm, ?_⟩
    rw [Int.abs_eq_natAbs]
    exact_mod_cast h2
  · rintro ⟨i, rfl, h⟩
    rw [Int.abs_eq_natAbs] at h
    exact ⟨by simp, by simp; exact_mod_cast h⟩

/-- A text without a decimal point and without an exponent is that of an integer. -/
theorem point_or_int {q : Rat} (h : IsFloat q) : ('.' ∈ (formatG q).toList ∨ 'e' ∈ (formatG q).toList) ∨
    ∃ i : Int, formatG q = toString i := by
  by_cases hw : '.' ∈ (formatG q).toList ∨ 'e' ∈ (formatG q).toList
  · exact .inl hw
  · right
    push Not at hw
    obtain ⟨hdot, he⟩ := hw
    have key : ∀ p : Rat, 0 < p → F64.round p = p → '.' ∉ unsignedG p → 'e' ∉ unsignedG p →
        ∃ n : Nat, n ≠ 0 ∧ unsignedG p = Nat.toDigits 10 n := by
      intro p hp hr h1 h2
      obtain ⟨hd, hh⟩ := shortest_digits hp
      rw [unsignedG_eq hp hr] at h1 h2 ⊢
      split_ifs at h1 h2 ⊢ with hc
      · simp at h2
      · generalize (shortest p).1 = ds at *
        generalize (shortest p).2 = d at *
        unfold fmtF at h1 ⊢
        split_ifs at h1 ⊢ with c1 c2
        · simp at h1
        · have hall : AllDigits (ds ++ List.replicate (d.toNat - ds.length) '0') :=
            ⟨by simp [hd.1], fun c hc => by
              rcases List.mem_append.1 hc with h | h
              · exact hd.2 c h
              · exact zeros_digits _ c h⟩
          have h0 : (ds ++ List.replicate (d.toNat - ds.length) '0').head? ≠ some '0' := by
            cases ds with
            | nil => exact absurd rfl hd.1
            | cons c s => simpa using hh
          refine ⟨_, ?_, (digits_unique hall h0).symm⟩
          have := digits_ge hall.2 hall.1 h0
          have : 0 < 10 ^ ((ds ++ List.replicate (d.toNat - ds.length) '0').length - 1) := by positivity
          omega
        · simp at h1
    rcases lt_trichotomy q 0 with hq | rfl | hq
    · obtain ⟨p, rfl⟩ : ∃ p, q = -p := ⟨-q, by simp⟩
      have hp : 0 < p := by linarith
      have hr : F64.round p = p := by
        rcases h with h | h
        · linarith
        · rwa [abs_neg, abs_of_pos hp] at h
      rw [formatG, signed_neg _ hp] at hdot he
      obtain ⟨n, h0, hn⟩ := key p hp hr (fun hm => hdot (by simp [hm])) (fun hm => he (by simp [hm]))
      refine ⟨-(n : Int), ?_⟩
      rw [← String.toList_inj, formatG, signed_neg _ hp, hn, (int_text n).2 h0]
    · exact ⟨0, by decide +kernel⟩
    · have hr : F64.round q = q := by
        rcases h with h | h
        · linarith
        · rwa [abs_of_pos hq] at h
      rw [formatG, signed_pos _ hq] at hdot he
      obtain ⟨n, h0, hn⟩ := key q hq hr hdot he
      refine ⟨n, ?_⟩
      rw [← String.toList_inj, formatG, signed_pos _ hq, hn, (int_text n).1]

end FloatText

/-- C123.  A floating point number in a file that was formatted is read as it was, unless it is whole
and less than a million: then it is read as that integer. -/
theorem C123_reread (R : Resolver) (hR : ReadsFloats R) (q : Rat) (h : Float64 q) :
    ((¬ ∃ i : Int, q = i ∧ |i| < 1000000) → R.plain (formatG q) = some (.float q)) ∧
    ∀ i : Int, q = i → |i| < 1000000 → R.plain (formatG q) = some (.int i) := by
  constructor
  · intro hn
    obtain ⟨v, hv, hread, _⟩ := C123_read q h
    rcases point_or_int (isFloat_iff.2 h) with hp | ⟨i, hi⟩
    · rw [hR _ v hread hp, hv]
    · exact absurd ⟨i, (C123_int_iff q h i).1 hi⟩ hn
  · intro i hi hlt
    rw [(C123_int_iff q h i).2 ⟨hi, hlt⟩]
    rw [abs_lt] at hlt
    exact R.plain_int i (by omega) (by omega)

/-- C123.  What the theorems on reading formatted files (`Props/ReadBack`) assume of the number of a
setting holds exactly of the floating point numbers that are not whole or not less than a million. -/
theorem C123_setting_ok (R : Resolver) (hR : ReadsFloats R) (L : PrettyLib) (hL : L.fmtFloat = formatG) (q : Rat) (h : Float64 q) :
    ValOk R L (.float q) ↔ ¬ ∃ i : Int, q = i ∧ |i| < 1000000 := by
  rw [ValOk, hL, isFloat_whole]
  exact ⟨fun h => h.2.2, fun hn => ⟨C123_plain q, (C123_reread R hR q h).1 hn, hn⟩⟩

/-- C123.  A limit for the processors is read back after formatting, whatever number it is. -/
theorem C123_cpu (R : Resolver) (hR : ReadsFloats R) (L : PrettyLib) (hL : L.fmtFloat = formatG) (q : Rat) (h : Float64 q) :
    PlainScalar (L.fmtFloat q).toList ∧ Yaml.decFloat (plainNode R (L.fmtFloat q)) 0 = { val := q } := by
  rw [hL]
  refine ⟨C123_plain q, ?_⟩
  unfold plainNode
  by_cases hn : ∃ i : Int, q = i ∧ |i| < 1000000
  · obtain ⟨i, hi, hlt⟩ := hn
    rw [(C123_reread R hR q h).2 i hi hlt]
    simp only [Yaml.decFloat, hi]
  · rw [(C123_reread R hR q h).1 hn]
    rfl

/-- C123.  A pipeline stored as JSON and read again gives the same variable for an integer setting
exactly if the integer is less than a million. -/
theorem C123_variable_iff (E : Ext) (hE : E.fmtFloat = formatG) (i : Int) (h : i.natAbs ≤ 2 ^ 53) :
    encodeValue E (floats (.int i)) = encodeValue E (.int i) ↔ |i| < 1000000 := by
  rw [C99_variable_iff E i h, hE]
  have hf : Float64 (i : Rat) := Json.float64_int h
  rw [C123_int_iff (i : Rat) hf i]
  simp

/-! ### Compiled steps -/

/-- C123.  A map given as a setting is written as the JSON text of its value: of `C93_map` nothing is
left to assume. -/
theorem C123_map (key : Rat → String) (v : Value) (j : Json) (h : Stands formatJson key v j) :
    IsJson (encodeMap (floatTexts key) v) j :=
  C93_map (floatTexts key) C123_number v j h

/-- C123.  Likewise a list with a list or a map in it. -/
theorem C123_nested (key : Rat → String) (vs : List Value) (js : List Json)
    (hn : ∃ v ∈ vs, ∀ t, ¬ ItemText formatG v t) (h : Stands formatJson key (.seq vs) (.arr js)) :
    IsJson (encodeSlice (floatTexts key) vs) (.arr js) :=
  C93_nested (floatTexts key) C123_number vs js hn h

/-- C123.  A number given as a setting reaches the compiled step as the text of a number that is
read as the one that was given. -/
theorem C123_compiled {E : Ext} (key : Rat → String) {c : Compiler} (hc : c.Std) (ht : c.transform = none)
    {rnd : Nat → String} {p : Pipeline} {sp : Engine.Spec} (h : compile (E.encoding (floatTexts key)) c rnd p = some sp) :
    List.Forall₂ (fun y s => ¬ IsBuild y → (y.2.settings.map Prod.fst).Nodup → ∀ k v q,
      (k, some v) ∈ y.2.settings → v.secret = "" → v.value = .float q → Float64 q →
      (∀ k' v', (k', some v') ∈ y.2.settings → v'.secret = "" → E.upper k' = E.upper k → k' = k) →
      ∃ t r, s.envs.get? ("PLUGIN_" ++ E.upper k) = some t ∧ readNumber t.toList = some r ∧ toFloat64 r = q)
      (sources p) sp.steps := by
  refine (settings_envs hc ht h).imp fun y s hf hb hn k v q hm hsec hv hq hset => ?_
  obtain ⟨r, h1, h2, _⟩ := C123_read q hq
  exact ⟨_, r, hf hb hn k v _ hm hsec rfl hset, by rw [hv]; exact h2, h1⟩

/-- C123.  Two settings with different numbers give different variables. -/
theorem C123_distinct (E : Ext) (key : Rat → String) (p q : Rat) (hp : Float64 p) (hq : Float64 q) :
    encodeValue (E.encoding (floatTexts key)) (.float p) = encodeValue (E.encoding (floatTexts key)) (.float q) ↔ p = q :=
  (C123_injective p q hp hq).1

/-! ### Such a library exists -/

namespace FloatText

theorem no_point_int (i : Int) : '.' ∉ (toString i).toList := by
  have hn : ∀ n : Nat, '.' ∉ Nat.toDigits 10 n := fun n h => by
    have := toDigits_all n _ h
    revert this
    decide
  rcases le_or_gt 0 i with h | h
  · obtain ⟨n, rfl⟩ := Int.eq_ofNat_of_zero_le h
    rw [(int_text n).1]
    exact hn n
  · obtain ⟨n, hn'⟩ := Int.eq_ofNat_of_zero_le (show 0 ≤ -i by omega)
    obtain rfl : i = -(n : Int) := by omega
    rw [(int_text n).2 (by omega)]
    simp [hn n]

/-- The number of a text with a decimal point or an exponent. -/
def floatOf (s : String) : Option Rat :=
  if '.' ∈ s.toList ∨ 'e' ∈ s.toList then readNumber s.toList else none

/-- A resolver that reads floating point numbers. -/
def numberResolver : Resolver where
  plain s := match floatOf s with
    | some v => some (.float (toFloat64 v))
    | none => exResolver.plain s
  null_iff s := by
    by_cases h : s ∈ ["", "~", "null", "Null", "NULL"]
    · have e : ∀ s ∈ ["", "~", "null", "Null", "NULL"], floatOf s = none := by decide +kernel
      rw [e s h]
      exact exResolver.null_iff s
    · cases hf : floatOf s with
      | none => exact exResolver.null_iff s
      | some v => simpa using h
  plain_true := by
    have : floatOf "true" = none := by decide +kernel
    rw [this]
    exact exResolver.plain_true
  plain_false := by
    have : floatOf "false" = none := by decide +kernel
    rw [this]
    exact exResolver.plain_false
  plain_int i h1 h2 := by
    have : floatOf (toString i) = none := by
      unfold floatOf
      rw [if_neg]
      rintro (h | h)
      · exact no_point_int i h
      · exact no_e_int i h
    rw [this]
    exact exResolver.plain_int i h1 h2

end FloatText

/-- C123.  There is a resolver that reads floating point numbers. -/
theorem C123_resolver : ReadsFloats numberResolver := by
  intro s v h1 h2
  have : floatOf s = some v := by
    unfold floatOf
    rw [if_pos h2, h1]
  show (match floatOf s with
    | some v => some (Yaml.Scalar.float (toFloat64 v))
    | none => exResolver.plain s) = _
  rw [this]

/-! ### Examples -/

/-- C123.  The same number alone and in a map: a plugin reads two different texts. -/
theorem C123_differs : formatG (2469135 / 2) = "1.2345675e+06" ∧ formatJson (2469135 / 2) = "1234567.5" ∧
    formatG (1000000) = "1e+06" ∧ formatJson 1000000 = "1000000" := by decide +kernel

/-- A float with many digits: the number nearest to a tenth. -/
def exTenth : Rat := toFloat64 (1 / 10)

example : exTenth ≠ 1 / 10 ∧ formatG exTenth = "0.1" ∧ formatG (-exTenth) = "-0.1" := by decide +kernel
example : formatG (F64.pow2 (-1074)) = "5e-324" ∧ formatJson (F64.pow2 (-1074)) = "5e-324" := by decide +kernel
example : formatG (toFloat64 (1 / 40000)) = "2.5e-05" ∧ formatJson (toFloat64 (1 / 40000)) = "0.000025" := by decide +kernel
example : formatG (toFloat64 (1 / 10 ^ 7)) = "1e-07" ∧ formatJson (toFloat64 (1 / 10 ^ 7)) = "1e-7" := by decide +kernel
example : formatG (toFloat64 (1 / 3)) = "0.3333333333333333" ∧ formatG (toFloat64 (10 ^ 23)) = "1e+23" := by decide +kernel
example : Float64 exTenth ∧ Digits (1 / 10) 15 ∧ (10 : Rat) ^ (-307 : Int) ≤ |(1 / 10 : Rat)| :=
  ⟨(C123_nearest _).1, ⟨1, -1, by decide, by rw [abs_of_pos (by norm_num)]; norm_num⟩,
    by rw [abs_of_pos (by norm_num)]; decide +kernel⟩

/-- Sixteen digits are too many in general: the text of the number nearest to 2⁵³ + 1 is another. -/
example : formatJson (toFloat64 9007199254740993) = "9007199254740992" := by decide +kernel

/-- The condition on small numbers is needed: this one has one digit and comes back as another. -/
theorem C123_tiny : formatG (toFloat64 (3 / 10 ^ 324)) = "5e-324" := by decide +kernel

example : encodeMap (floatTexts formatG) (.map [(.str "a", .float (2469135 / 2))]) = "{\"a\":1234567.5}" ∧
    encodeSlice (floatTexts formatG) [.float (2469135 / 2)] = "1.2345675e+06" := by decide +kernel

end Drone
