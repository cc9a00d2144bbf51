/-
Lemmas about reading and writing sizes.
-/
import Verif.Model.Units
import Verif.Spec.Units
import Verif.Proof.Float64
import Mathlib.Tactic.Common
import Mathlib.Tactic.Linarith
import Mathlib.Tactic.NormNum
import Mathlib.Tactic.Ring
import Mathlib.Tactic.FieldSimp
import Mathlib.Tactic.Positivity
import Mathlib.Tactic.IntervalCases

namespace Drone
namespace Units
open Spec

/-! ### Digits -/

theorem isDigit_iff (c : Char) : isDigit c = true ↔ c ∈ decimalDigits := by
  unfold isDigit
  constructor
  · intro h
    simp only [Bool.and_eq_true, decide_eq_true_eq] at h
    have h1 : 48 ≤ c.toNat := h.1
    have h2 : c.toNat ≤ 57 := h.2
    have hc : c = Char.ofNat c.toNat := (Char.ofNat_toNat c).symm
    generalize c.toNat = n at *
    subst hc
    interval_cases n <;> decide
  · intro h
    simp only [decimalDigits, List.mem_cons, List.not_mem_nil, or_false] at h
    rcases h with rfl | rfl | rfl | rfl | rfl | rfl | rfl | rfl | rfl | rfl <;> decide

theorem isDigit_core (c : Char) : c.isDigit = true → isDigit c = true := by
  intro h
  unfold Char.isDigit at h
  unfold isDigit
  simp only [Bool.and_eq_true, decide_eq_true_eq, ge_iff_le] at h ⊢
  exact h

theorem digits_spec (s : List Char) : s = (digits s).1 ++ (digits s).2 ∧ (∀ c ∈ (digits s).1, isDigit c = true) ∧
    ∀ c, (digits s).2.head? = some c → isDigit c = false := by
  induction s with
  | nil => simp [digits]
  | cons c s ih =>
    rw [digits]
    by_cases h : isDigit c = true
    · rw [if_pos h]
      refine ⟨by simpa using ih.1, ?_, ih.2.2⟩
      intro d hd
      rcases List.mem_cons.mp hd with rfl | hd
      · exact h
      · exact ih.2.1 d hd
    · rw [if_neg h]
      refine ⟨rfl, by simp, ?_⟩
      intro d hd
      simp only [List.head?_cons, Option.some.injEq] at hd
      subst hd
      simpa using h

theorem digits_append {ds rest : List Char} (h : ∀ c ∈ ds, isDigit c = true)
    (hr : ∀ c, rest.head? = some c → isDigit c = false) : digits (ds ++ rest) = (ds, rest) := by
  induction ds with
  | nil =>
    cases rest with
    | nil => rfl
    | cons c cs =>
      have := hr c rfl
      rw [List.nil_append, digits, if_neg (by simp [this])]
  | cons d ds ih =>
    rw [List.cons_append, digits, if_pos (h d (by simp)), ih fun c hc => h c (List.mem_cons_of_mem _ hc)]

/-! ### Reading -/

theorem prefixExp_iff (c : Char) (e : Nat) : prefixExp c = some e ↔ ([c], e) ∈ unitPrefixes ∧ e ≠ 0 := by
  unfold prefixExp
  constructor
  · intro h
    split at h
    · rename_i hc; cases h; rcases hc with rfl | rfl <;> decide
    split at h
    · rename_i hc; cases h; rcases hc with rfl | rfl <;> decide
    split at h
    · rename_i hc; cases h; rcases hc with rfl | rfl <;> decide
    split at h
    · rename_i hc; cases h; rcases hc with rfl | rfl <;> decide
    split at h
    · rename_i hc; cases h; rcases hc with rfl | rfl <;> decide
    cases h
  · rintro ⟨h, he⟩
    simp only [unitPrefixes, List.mem_cons, Prod.mk.injEq, List.cons.injEq, and_true, List.not_mem_nil, or_false,
      reduceCtorEq, false_and, false_or] at h
    rcases h with ⟨rfl, rfl⟩ | ⟨rfl, rfl⟩ | ⟨rfl, rfl⟩ | ⟨rfl, rfl⟩ | ⟨rfl, rfl⟩ | ⟨rfl, rfl⟩ | ⟨rfl, rfl⟩ |
      ⟨rfl, rfl⟩ | ⟨rfl, rfl⟩ | ⟨rfl, rfl⟩ <;> decide

/-- What follows the number of a size. -/
def suffix (z : SizeText) : List Char := (if z.space then [' '] else []) ++ z.unit ++ z.i ++ z.b

theorem suffix_head {z : SizeText} {e : Nat} (h : z.Ok e) (c : Char) (hc : (suffix z).head? = some c) :
    isDigit c = false ∧ c ≠ '.' := by
  obtain ⟨_, _, hu, hi, hb⟩ := h
  unfold suffix at hc
  simp only [unitPrefixes, List.mem_cons, Prod.mk.injEq, List.not_mem_nil, or_false] at hu
  simp only [List.mem_cons, List.not_mem_nil, or_false] at hi hb
  have key : c ∈ [' ', 'k', 'K', 'm', 'M', 'g', 'G', 't', 'T', 'p', 'P', 'i', 'I', 'b', 'B'] := by
    cases hs : z.space with
    | true => rw [hs] at hc; simp at hc; simp [← hc]
    | false =>
      rw [hs] at hc
      rcases hu with ⟨h1, _⟩ | ⟨h1, _⟩ | ⟨h1, _⟩ | ⟨h1, _⟩ | ⟨h1, _⟩ | ⟨h1, _⟩ | ⟨h1, _⟩ | ⟨h1, _⟩ | ⟨h1, _⟩ |
        ⟨h1, _⟩ | ⟨h1, _⟩ <;> rw [h1] at hc
      · rcases hi with h2 | h2 | h2 <;> rw [h2] at hc
        · rcases hb with h3 | h3 | h3 <;> rw [h3] at hc <;> simp at hc <;> simp [← hc]
        · simp at hc; simp [← hc]
        · simp at hc; simp [← hc]
      all_goals (simp at hc; simp [← hc])
  clear hc hu hi hb
  revert c
  decide

theorem text_eq (z : SizeText) : z.text = z.whole ++ ((if z.frac = [] then [] else '.' :: z.frac) ++ suffix z) := by
  simp [SizeText.text, suffix]

theorem number_text {z : SizeText} {e : Nat} (h : z.Ok e) : number z.text = some (z.number, suffix z) := by
  have hw : ∀ c ∈ z.whole, isDigit c = true := fun c hc => (isDigit_iff c).mpr (h.whole.2 c hc)
  have hf : ∀ c ∈ z.frac, isDigit c = true := fun c hc => (isDigit_iff c).mpr (h.frac c hc)
  obtain ⟨w, ws, hws⟩ := List.exists_cons_of_ne_nil h.whole.1
  rw [text_eq]
  by_cases hfr : z.frac = []
  · rw [if_pos hfr, List.nil_append]
    unfold number
    rw [digits_append hw fun c hc => (suffix_head h c hc).1]
    have hnum : z.number = (decimal z.whole : Rat) := by
      simp [SizeText.number, hfr, digitsNumber, decimal]
    rw [hnum, hws]
    rcases hs : suffix z with _ | ⟨c, cs⟩
    · rfl
    · have hdot := (suffix_head h c (by rw [hs]; rfl)).2
      split
      · rename_i heq; simp at heq
      · rename_i heq; simp only [Prod.mk.injEq, List.cons.injEq] at heq; exact absurd heq.2.1 hdot
      · rename_i heq; simp only [Prod.mk.injEq] at heq; rw [← heq.1, ← heq.2]
  · rw [if_neg hfr]
    unfold number
    rw [List.cons_append, digits_append hw (by intro c hc; simp at hc; subst hc; decide)]
    rw [hws]
    show (match digits (z.frac ++ suffix z) with
      | ([], _) => none
      | (fs, rest') =>
        match rest' with
        | '.' :: _ => none
        | _ => some ((decimal (w :: ws ++ fs) : Rat) / (10 ^ fs.length : Nat), rest')) = _
    rw [digits_append hf fun c hc => (suffix_head h c hc).1]
    obtain ⟨f, fs, hfs⟩ := List.exists_cons_of_ne_nil hfr
    have hnum : z.number = (decimal (w :: ws ++ f :: fs) : Rat) / ((10 ^ (f :: fs).length : Nat) : Rat) := by
      simp [SizeText.number, hfs, hws, digitsNumber, decimal]
    rw [hnum, hfs]
    rcases hs : suffix z with _ | ⟨c, cs⟩
    · rfl
    · have hdot := (suffix_head h c (by rw [hs]; rfl)).2
      dsimp only
      split
      · rename_i heq; simp only [List.cons.injEq] at heq; exact absurd heq.1 hdot
      · rfl

theorem suffix_read {z : SizeText} {e : Nat} (h : z.Ok e) :
    (unitPrefix (skipSpace (suffix z))).1 = e ∧ skipB (skipI (unitPrefix (skipSpace (suffix z))).2) = [] := by
  obtain ⟨_, _, hu, hi, hb⟩ := h
  have e1 : skipSpace (suffix z) = z.unit ++ z.i ++ z.b := by
    unfold suffix
    cases hs : z.space with
    | true => simp [skipSpace]
    | false =>
      simp only [unitPrefixes, List.mem_cons, Prod.mk.injEq, List.not_mem_nil, or_false] at hu
      simp only [List.mem_cons, List.not_mem_nil, or_false] at hi hb
      rcases hu with ⟨h1, _⟩ | ⟨h1, _⟩ | ⟨h1, _⟩ | ⟨h1, _⟩ | ⟨h1, _⟩ | ⟨h1, _⟩ | ⟨h1, _⟩ | ⟨h1, _⟩ | ⟨h1, _⟩ |
        ⟨h1, _⟩ | ⟨h1, _⟩ <;> rw [h1]
      · rcases hi with h2 | h2 | h2 <;> rw [h2] <;> rcases hb with h3 | h3 | h3 <;> rw [h3] <;> decide
      all_goals simp [skipSpace]
  rw [e1]
  have key : ∀ u ∈ unitPrefixes, ∀ i ∈ [[], ['i'], ['I']], ∀ b ∈ [[], ['b'], ['B']],
      (unitPrefix (u.1 ++ i ++ b)).1 = u.2 ∧ skipB (skipI (unitPrefix (u.1 ++ i ++ b)).2) = [] := by decide
  exact key _ hu _ hi _ hb

/-- A size that obeys the grammar is read. -/
theorem ram_text {z : SizeText} {e : Nat} (h : z.Ok e) :
    ramInBytes (String.ofList z.text) =
      if F64.round z.number < ((2 ^ 1024 : Nat) : Rat) then
        some (toInt64 (F64.round (F64.round z.number * ((1024 ^ e : Nat) : Rat)))) else none := by
  obtain ⟨h1, h2⟩ := suffix_read h
  unfold ramInBytes
  rw [String.toList_ofList, number_text h]
  dsimp only
  rw [h1, if_pos h2]

/-- Nothing else is read. -/
theorem ram_some {s : String} {r : Int} (h : ramInBytes s = some r) : ∃ z e, SizeText.Ok z e ∧ s = String.ofList z.text := by
  unfold ramInBytes at h
  split at h
  · cases h
  · rename_i v rest hn
    dsimp only at h
    split at h
    · rename_i hb
      clear h
      -- the suffix
      obtain ⟨sp, u, i, b, e, hrest, hu, hi, hbm⟩ : ∃ (sp : Bool) (u i b : List Char) (e : Nat),
          rest = (if sp then [' '] else []) ++ u ++ i ++ b ∧ (u, e) ∈ unitPrefixes ∧
          i ∈ [[], ['i'], ['I']] ∧ b ∈ [[], ['b'], ['B']] := by
        obtain ⟨sp, hsp⟩ : ∃ sp : Bool, rest = (if sp then [' '] else []) ++ skipSpace rest := by
          rcases rest with _ | ⟨c, cs⟩
          · exact ⟨false, rfl⟩
          · by_cases hc : c = ' '
            · subst hc; exact ⟨true, rfl⟩
            · refine ⟨false, ?_⟩
              have : skipSpace (c :: cs) = c :: cs := by
                unfold skipSpace
                split
                · rename_i heq; simp at heq; exact absurd heq.1 hc
                · rfl
              simp [this]
        obtain ⟨u, hu, huu⟩ : ∃ u, skipSpace rest = u ++ (unitPrefix (skipSpace rest)).2 ∧
            (u, (unitPrefix (skipSpace rest)).1) ∈ unitPrefixes := by
          rcases skipSpace rest with _ | ⟨c, cs⟩
          · exact ⟨[], rfl, by decide⟩
          · cases hp : prefixExp c with
            | none => exact ⟨[], by simp [unitPrefix, hp], by simp [unitPrefix, hp, unitPrefixes]⟩
            | some e =>
              exact ⟨[c], by simp [unitPrefix, hp], by simpa [unitPrefix, hp] using ((prefixExp_iff c e).mp hp).1⟩
        obtain ⟨i, hi, hii⟩ : ∃ i, (unitPrefix (skipSpace rest)).2 = i ++ skipI (unitPrefix (skipSpace rest)).2 ∧
            i ∈ [[], ['i'], ['I']] := by
          rcases (unitPrefix (skipSpace rest)).2 with _ | ⟨c, cs⟩
          · exact ⟨[], rfl, by decide⟩
          · by_cases hc : c = 'i' ∨ c = 'I'
            · exact ⟨[c], by simp [skipI, hc], by rcases hc with rfl | rfl <;> decide⟩
            · exact ⟨[], by simp [skipI, hc], by decide⟩
        obtain ⟨b, hb', hbb⟩ : ∃ b, skipI (unitPrefix (skipSpace rest)).2 = b ++ skipB (skipI (unitPrefix (skipSpace rest)).2) ∧
            b ∈ [[], ['b'], ['B']] := by
          rcases skipI (unitPrefix (skipSpace rest)).2 with _ | ⟨c, cs⟩
          · exact ⟨[], rfl, by decide⟩
          · by_cases hc : c = 'b' ∨ c = 'B'
            · exact ⟨[c], by simp [skipB, hc], by rcases hc with rfl | rfl <;> decide⟩
            · exact ⟨[], by simp [skipB, hc], by decide⟩
        rw [hb, List.append_nil] at hb'
        refine ⟨sp, u, i, b, _, ?_, huu, hii, hbb⟩
        rw [List.append_assoc, List.append_assoc, ← hb', ← hi, ← hu]
        exact hsp
      have dig : ∀ l : List Char, (∀ c ∈ l, isDigit c = true) → ∀ c ∈ l, c ∈ decimalDigits :=
        fun l hl c hc => (isDigit_iff c).mp (hl c hc)
      obtain ⟨w, f, hw, hwd, hfd, hs⟩ : ∃ w f : List Char, w ≠ [] ∧ (∀ c ∈ w, isDigit c = true) ∧
          (∀ c ∈ f, isDigit c = true) ∧ s.toList = w ++ ((if f = [] then [] else '.' :: f) ++ rest) := by
        unfold number at hn
        obtain ⟨hs1, hs2, -⟩ := digits_spec s.toList
        generalize digits s.toList = p at *
        split at hn
        · cases hn
        · rename_i ds rest1 hne
          obtain ⟨ht1, ht2, -⟩ := digits_spec rest1
          generalize digits rest1 = q at *
          split at hn
          · cases hn
          · rename_i fs rest2 hne2
            split at hn
            · cases hn
            · simp only [Option.some.injEq, Prod.mk.injEq] at hn
              obtain ⟨_, rfl⟩ := hn
              have hf : fs ≠ [] := hne2
              refine ⟨ds, fs, hne, hs2, ht2, ?_⟩
              rw [if_neg hf, hs1]
              simp only at ht1
              rw [ht1]
              simp
        · rename_i ds rest1 hne _
          simp only [Option.some.injEq, Prod.mk.injEq] at hn
          obtain ⟨_, rfl⟩ := hn
          exact ⟨ds, [], hne, hs2, by simp, by simpa using hs1⟩
      refine ⟨{ whole := w, frac := f, space := sp, unit := u, i := i, b := b }, e,
        ⟨⟨hw, dig w hwd⟩, dig f hfd, hu, hi, hbm⟩, ?_⟩
      rw [← String.toList_inj, String.toList_ofList, hs, hrest, text_eq]
      rfl
    · cases h

/-! ### Writing -/

theorem unit_loop : ∀ (i n : Nat) (q : Rat) (j : Nat), i ≤ n → (i = 0 ∨ (1024 : Rat) ^ i ≤ q) → q < 1024 ^ (i + 1) →
    sizeAndUnit n q j = (q / 1024 ^ i, j + i)
  | 0, n, q, j, _, _, h2 => by
    cases n with
    | zero => simp [sizeAndUnit]
    | succ n =>
      rw [sizeAndUnit, if_neg (by simpa using h2)]
      simp
  | i + 1, 0, _, _, h, _, _ => by omega
  | i + 1, n + 1, q, j, h, h1, h2 => by
    have h1 : (1024 : Rat) ^ (i + 1) ≤ q := h1.resolve_left (by omega)
    have hp : (1 : Rat) ≤ 1024 ^ i := one_le_pow₀ (by norm_num)
    have hq : (1024 : Rat) ≤ q := le_trans (by rw [pow_succ]; linarith) h1
    rw [sizeAndUnit, if_pos hq, unit_loop i n (q / 1024) (j + 1) (by omega)
      (.inr (by rw [le_div_iff₀ (by norm_num), ← pow_succ]; exact h1))
      (by rw [div_lt_iff₀ (by norm_num), ← pow_succ]; exact h2)]
    rw [div_div, pow_succ', Nat.add_assoc, Nat.add_comm 1 i]

theorem width_spec : ∀ n < 1024, n ≠ 0 → 1 ≤ width n ∧ width n ≤ 4 ∧ 10 ^ (width n - 1) ≤ n ∧ n < 10 ^ width n := by
  decide +kernel

theorem width_unique {n d : Nat} (hn : n < 1024) (h0 : n ≠ 0) (hd : 1 ≤ d) (h1 : 10 ^ (d - 1) ≤ n) (h2 : n < 10 ^ d) :
    width n = d := by
  obtain ⟨a, b, c, e⟩ := width_spec n hn h0
  rcases Nat.lt_trichotomy (width n) d with h | h | h
  · have := Nat.pow_le_pow_right (n := 10) (by norm_num) (show width n ≤ d - 1 by omega)
    omega
  · exact h
  · have := Nat.pow_le_pow_right (n := 10) (by norm_num) (show d ≤ width n - 1 by omega)
    omega

theorem padded_length (k n : Nat) : (padded k n).length = k := by
  induction k generalizing n with
  | zero => rfl
  | succ k ih => simp [padded, ih]

theorem digitChar_digit {m : Nat} (h : m < 10) : Nat.digitChar m ∈ decimalDigits ∧ (Nat.digitChar m).toNat - 48 = m := by
  interval_cases m <;> decide

theorem padded_digits (k n : Nat) : ∀ c ∈ padded k n, c ∈ decimalDigits := by
  induction k generalizing n with
  | zero => simp [padded]
  | succ k ih =>
    intro c hc
    rw [padded, List.mem_append, List.mem_singleton] at hc
    rcases hc with hc | rfl
    · exact ih _ c hc
    · exact (digitChar_digit (Nat.mod_lt _ (by norm_num))).1

theorem decimal_snoc (a : List Char) (c : Char) : digitsNumber (a ++ [c]) = 10 * digitsNumber a + (c.toNat - 48) := by
  simp [digitsNumber]

theorem decimal_append (a b : List Char) : digitsNumber (a ++ b) = digitsNumber a * 10 ^ b.length + digitsNumber b := by
  induction b using List.reverseRecOn with
  | nil => simp [digitsNumber]
  | append_singleton b c ih =>
    rw [← List.append_assoc, decimal_snoc, decimal_snoc, ih, List.length_append, List.length_singleton, pow_succ]
    ring

theorem decimal_padded (k n : Nat) (h : n < 10 ^ k) : digitsNumber (padded k n) = n := by
  induction k generalizing n with
  | zero => simp at h; subst h; rfl
  | succ k ih =>
    rw [padded, decimal_snoc, ih _ (by rw [Nat.div_lt_iff_lt_mul (by norm_num), ← pow_succ]; exact h),
      (digitChar_digit (Nat.mod_lt n (by norm_num))).2]
    omega

theorem decimal_zeros (j : Nat) : digitsNumber (List.replicate j '0') = 0 := by
  induction j with
  | zero => rfl
  | succ j ih =>
    rw [List.replicate_succ', decimal_snoc, ih]
    decide

theorem decimal_toDigits (n : Nat) : digitsNumber (Nat.toDigits 10 n) = n := by
  have := Nat.ofDigitChars_ten_toDigits (n := n)
  exact this

theorem toDigits_digits (n : Nat) : Nat.toDigits 10 n ≠ [] ∧ ∀ c ∈ Nat.toDigits 10 n, c ∈ decimalDigits :=
  ⟨Nat.toDigits_ne_nil, fun c hc => (isDigit_iff c).mp (isDigit_core c
    (Nat.isDigit_of_mem_toDigits (by decide) (by decide) hc))⟩

theorem trim_spec (s : List Char) : ∃ j, s = trimZeros s ++ List.replicate j '0' := by
  refine ⟨(s.reverse.takeWhile (· = '0')).length, ?_⟩
  have h := List.takeWhile_append_dropWhile (p := (· = '0')) (l := s.reverse)
  have hz : s.reverse.takeWhile (· = '0') = List.replicate (s.reverse.takeWhile (· = '0')).length '0' := by
    rw [List.eq_replicate_iff]
    refine ⟨rfl, fun c hc => ?_⟩
    simpa using List.all_eq_true.mp (List.all_takeWhile (p := (· = '0')) (l := s.reverse)) c hc
  have h2 := congrArg List.reverse h
  rw [List.reverse_append, List.reverse_reverse, hz, List.reverse_replicate] at h2
  exact h2.symm

/-- The name of a unit with index up to five as it is read. -/
def unitParts : Nat → List Char × List Char
  | 0 => ([], [])
  | 1 => (['K'], ['i'])
  | 2 => (['M'], ['i'])
  | 3 => (['G'], ['i'])
  | 4 => (['T'], ['i'])
  | _ => (['P'], ['i'])

/-- The printed size as a size text. -/
def shownSize (t k i : Nat) : SizeText where
  whole := Nat.toDigits 10 (t / 10 ^ k)
  frac := trimZeros (padded k (t % 10 ^ k))
  unit := (unitParts i).1
  i := (unitParts i).2
  b := ['B']

theorem shownSize_ok (t k : Nat) {i : Nat} (hi : i ≤ 5) : (shownSize t k i).Ok i where
  whole := toDigits_digits _
  frac := by
    intro c hc
    obtain ⟨j, hj⟩ := trim_spec (padded k (t % 10 ^ k))
    exact padded_digits k (t % 10 ^ k) c (by rw [hj]; exact List.mem_append_left _ hc)
  unit := by
    show ((unitParts i).1, i) ∈ unitPrefixes
    interval_cases i <;> decide
  i := by
    show (unitParts i).2 ∈ _
    interval_cases i <;> decide
  b := by show ['B'] ∈ _; decide

theorem shownSize_text (t k : Nat) {i : Nat} (hi : i ≤ 5) :
    String.ofList (shownSize t k i).text = String.ofList (fixed t k) ++ unitNames.getD i "" := by
  rw [← String.toList_inj, String.toList_append, String.toList_ofList, String.toList_ofList]
  have : (unitNames.getD i "").toList = (unitParts i).1 ++ (unitParts i).2 ++ ['B'] := by
    interval_cases i <;> decide
  rw [this]
  by_cases h : trimZeros (padded k (t % 10 ^ k)) = [] <;> simp [SizeText.text, shownSize, fixed, h]

theorem shownSize_number (t k i : Nat) : (shownSize t k i).number = (t : Rat) / ((10 ^ k : Nat) : Rat) := by
  have hk : 0 < 10 ^ k := by positivity
  obtain ⟨j, hj⟩ := trim_spec (padded k (t % 10 ^ k))
  have hlen : k = (trimZeros (padded k (t % 10 ^ k))).length + j := by
    have := congrArg List.length hj
    rwa [padded_length, List.length_append, List.length_replicate] at this
  have hdec : t % 10 ^ k = digitsNumber (trimZeros (padded k (t % 10 ^ k))) * 10 ^ j := by
    have := congrArg digitsNumber hj
    rwa [decimal_padded _ _ (Nat.mod_lt _ hk), decimal_append, decimal_zeros, List.length_replicate,
      Nat.add_zero] at this
  unfold SizeText.number shownSize
  dsimp only
  rw [decimal_append, decimal_toDigits]
  generalize htr : trimZeros (padded k (t % 10 ^ k)) = f at *
  rw [div_eq_div_iff (by positivity) (by positivity)]
  have ht : t = 10 ^ k * (t / 10 ^ k) + digitsNumber f * 10 ^ j := by
    rw [← hdec]; exact (Nat.div_add_mod _ _).symm
  have hk10 : 10 ^ k = 10 ^ f.length * 10 ^ j := by rw [← pow_add, ← hlen]
  have : (t / 10 ^ k * 10 ^ f.length + digitsNumber f) * 10 ^ k = t * 10 ^ f.length := by
    conv_rhs => rw [ht]
    generalize t / 10 ^ k = w
    rw [hk10]
    ring
  exact_mod_cast this

/-! ### Reading what was written -/

theorem round_repr {q : Rat} (h : 0 < q) : ∃ m e : Int, F64.round q = m * F64.pow2 e ∧ 0 ≤ m ∧ m < 2 ^ 53 ∧ -1074 ≤ e := by
  obtain ⟨_, h2⟩ := F64.top_spec h
  have hl := F64.pow2_pos (F64.last q)
  have hge : F64.top q - 52 ≤ F64.last q := le_max_left _ _
  have hx : q / F64.pow2 (F64.last q) < 2 ^ 53 := by
    rw [div_lt_iff₀ hl]
    refine lt_of_lt_of_le h2 ?_
    rw [F64.pow2_eq, F64.pow2_eq]
    have : (2 : Rat) ^ (53 : Nat) * 2 ^ F64.last q = 2 ^ (53 + F64.last q) := by
      rw [zpow_add₀ (by norm_num)]; norm_cast
    rw [this]
    exact zpow_le_zpow_right₀ (by norm_num) (by omega)
  have hx0 : 0 < q / F64.pow2 (F64.last q) := by positivity
  have hn0 : 0 ≤ F64.nearest (q / F64.pow2 (F64.last q)) := by
    rcases F64.nearest_cases (q / F64.pow2 (F64.last q)) with ⟨_, e⟩ | ⟨_, e⟩ <;> rw [e]
    · exact Int.floor_nonneg.mpr hx0.le
    · have := Int.floor_nonneg.mpr hx0.le; omega
  have hn1 : F64.nearest (q / F64.pow2 (F64.last q)) ≤ 2 ^ 53 := by
    have hf : ⌊q / F64.pow2 (F64.last q)⌋ < 2 ^ 53 := Int.floor_lt.mpr (by exact_mod_cast hx)
    rcases F64.nearest_cases (q / F64.pow2 (F64.last q)) with ⟨_, e⟩ | ⟨_, e⟩ <;> rw [e] <;> omega
  rcases lt_or_eq_of_le hn1 with hlt | heq
  · exact ⟨_, F64.last q, rfl, hn0, hlt, le_max_right _ _⟩
  · refine ⟨2 ^ 52, F64.last q + 1, ?_, by norm_num, by norm_num, ?_⟩
    · unfold F64.round
      rw [heq, F64.pow2_eq, F64.pow2_eq, zpow_add₀ (by norm_num)]
      push_cast
      ring
    · have : -1074 ≤ F64.last q := le_max_right _ _
      omega

/-- Multiplying by a power of 1024 is exact. -/
theorem round_scaled {q : Rat} (h : 0 < q) (hr : 0 < F64.round q) (e : Nat) :
    F64.round (F64.round q * ((1024 ^ e : Nat) : Rat)) = F64.round q * ((1024 ^ e : Nat) : Rat) := by
  obtain ⟨m, k, hm, _, hlt, hk⟩ := round_repr h
  refine F64.round_exact (m := m) (e := k + (10 * e : Nat)) (by positivity) ?_ hlt (by omega)
  rw [hm, F64.pow2_eq, F64.pow2_eq, zpow_add₀ (by norm_num), zpow_natCast, pow_mul, mul_assoc]
  push_cast
  norm_num

theorem nearest_unique {x : Rat} {t : Int} (h : |x - t| < 1 / 2) : F64.nearest x = t := by
  have h1 := F64.nearest_le x
  have : |((F64.nearest x - t : Int) : Rat)| < 1 := by
    push_cast
    calc |(F64.nearest x : Rat) - t| = |((F64.nearest x : Rat) - x) + (x - t)| := by ring_nf
      _ ≤ |(F64.nearest x : Rat) - x| + |x - t| := abs_add_le _ _
      _ < 1 := by linarith
  have h2 : |F64.nearest x - t| < 1 := by exact_mod_cast this
  have := Int.abs_lt_one_iff.mp h2
  omega

theorem round_near {x : Rat} (h : 1 ≤ x) : |F64.round x - x| ≤ x / 2 ^ 53 := by
  have := F64.round_error (q := x) (le_trans (by decide +kernel) h)
  rw [F64.pow2_eq] at this
  rw [div_eq_mul_inv]
  refine le_of_le_of_eq this ?_
  congr 1

/-- How a size is shown: unit, digits before the point, and the rounded number. -/
structure Shown (b i d t : Nat) : Prop where
  unit : i ≤ 5
  low : 1024 ^ i ≤ b
  high : b < 1024 ^ (i + 1)
  float : F64.round (b : Rat) = b
  digit : 1 ≤ d ∧ d ≤ 4
  dlow : 10 ^ (d - 1) * 1024 ^ i ≤ b
  dhigh : b < 10 ^ d * 1024 ^ i
  near : F64.nearest ((b : Rat) / 1024 ^ i * ((10 ^ (4 - d) : Nat) : Rat)) = t

theorem nearest_nonneg {x : Rat} (h : 0 ≤ x) : 0 ≤ F64.nearest x := by
  rcases F64.nearest_cases x with ⟨_, e⟩ | ⟨_, e⟩ <;> rw [e]
  · exact Int.floor_nonneg.mpr h
  · have := Int.floor_nonneg.mpr h; omega

theorem floor_div (b i : Nat) : ((b : Rat) / 1024 ^ i).floor.toNat = b / 1024 ^ i := by
  rw [F64.floor_eq]
  have : ((b : Rat) / 1024 ^ i) = ((b : Rat) / ((1024 ^ i : Nat) : Rat)) := by push_cast; rfl
  have h2 := Rat.floor_intCast_div_natCast b (1024 ^ i)
  rw [Int.cast_natCast] at h2
  rw [this, h2]
  exact Int.toNat_natCast _

theorem shown_exists {b : Nat} (h0 : b ≠ 0) (h : b < 2 ^ 60) (hr : F64.round (b : Rat) = b) :
    ∃ i d t, Shown b i d t := by
  obtain ⟨i, hi, h1, h2⟩ : ∃ i, i ≤ 5 ∧ 1024 ^ i ≤ b ∧ b < 1024 ^ (i + 1) := by
    by_cases e1 : b < 1024
    · exact ⟨0, by omega, by omega, by omega⟩
    by_cases e2 : b < 1024 ^ 2
    · exact ⟨1, by omega, by omega, by omega⟩
    by_cases e3 : b < 1024 ^ 3
    · exact ⟨2, by omega, by omega, by omega⟩
    by_cases e4 : b < 1024 ^ 4
    · exact ⟨3, by omega, by omega, by omega⟩
    by_cases e5 : b < 1024 ^ 5
    · exact ⟨4, by omega, by omega, by omega⟩
    · exact ⟨5, by omega, by omega, by omega⟩
  have hU : 0 < 1024 ^ i := by positivity
  have hw := width_spec (b / 1024 ^ i) (by rw [Nat.div_lt_iff_lt_mul hU, ← pow_succ']; exact h2)
    (by have := (Nat.le_div_iff_mul_le hU).mpr (show 1 * 1024 ^ i ≤ b by omega); omega)
  refine ⟨i, width (b / 1024 ^ i), (F64.nearest ((b : Rat) / 1024 ^ i * ((10 ^ (4 - width (b / 1024 ^ i)) : Nat) : Rat))).toNat,
    hi, h1, h2, hr, ⟨hw.1, hw.2.1⟩, ?_, ?_, ?_⟩
  · exact (Nat.le_div_iff_mul_le hU).mp hw.2.2.1
  · exact (Nat.div_lt_iff_lt_mul hU).mp hw.2.2.2
  · rw [Int.toNat_of_nonneg]
    exact nearest_nonneg (by positivity)

theorem Shown.width {b i d t : Nat} (h : Shown b i d t) : Units.width (b / 1024 ^ i) = d := by
  have hU : 0 < 1024 ^ i := by positivity
  refine width_unique (by rw [Nat.div_lt_iff_lt_mul hU, ← pow_succ']; exact h.high) ?_ h.digit.1
    ((Nat.le_div_iff_mul_le hU).mpr h.dlow) ((Nat.div_lt_iff_lt_mul hU).mpr h.dhigh)
  have := (Nat.le_div_iff_mul_le hU).mpr (show 1 * 1024 ^ i ≤ b by have := h.low; omega)
  omega

theorem round_nat {b : Nat} (h0 : b ≠ 0) (h : b < 2 ^ 53) : F64.round (b : Rat) = b :=
  F64.round_exact (m := b) (e := 0) (by exact_mod_cast Nat.pos_of_ne_zero h0) (by rw [F64.pow2_eq]; simp)
    (by exact_mod_cast h) (by norm_num)

/-- The rounded number lies in the right range. -/
theorem Shown.t_low {b i d t : Nat} (h : Shown b i d t) : 1000 ≤ t ∧ t ≤ 10000 := by
  have hU : (0 : Rat) < 1024 ^ i := by positivity
  have hn := F64.nearest_le ((b : Rat) / 1024 ^ i * ((10 ^ (4 - d) : Nat) : Rat))
  rw [h.near] at hn
  have h1 : (1000 : Rat) ≤ (b : Rat) / 1024 ^ i * ((10 ^ (4 - d) : Nat) : Rat) := by
    rw [div_mul_eq_mul_div, le_div_iff₀ hU]
    have := Nat.mul_le_mul_right (10 ^ (4 - d)) h.dlow
    have e : 10 ^ (d - 1) * 1024 ^ i * 10 ^ (4 - d) = 1000 * 1024 ^ i := by
      have : 10 ^ (d - 1) * 10 ^ (4 - d) = 10 ^ 3 := by
        rw [← pow_add]; congr 1; have := h.digit; omega
      calc 10 ^ (d - 1) * 1024 ^ i * 10 ^ (4 - d) = 10 ^ (d - 1) * 10 ^ (4 - d) * 1024 ^ i := by ring
        _ = _ := by rw [this]; norm_num
    rw [e] at this
    exact_mod_cast this
  have h2 : (b : Rat) / 1024 ^ i * ((10 ^ (4 - d) : Nat) : Rat) < 10000 := by
    rw [div_mul_eq_mul_div, div_lt_iff₀ hU]
    have := Nat.mul_lt_mul_of_pos_right h.dhigh (show 0 < 10 ^ (4 - d) by positivity)
    have e : 10 ^ d * 1024 ^ i * 10 ^ (4 - d) = 10000 * 1024 ^ i := by
      have : 10 ^ d * 10 ^ (4 - d) = 10 ^ 4 := by
        rw [← pow_add]; congr 1; have := h.digit; omega
      calc 10 ^ d * 1024 ^ i * 10 ^ (4 - d) = 10 ^ d * 10 ^ (4 - d) * 1024 ^ i := by ring
        _ = _ := by rw [this]; norm_num
    rw [e] at this
    exact_mod_cast this
  have ha := abs_le.mp hn
  rw [Int.cast_natCast] at ha
  constructor
  · have : (999 : Rat) < t := by linarith [ha.1]
    have : 999 < t := by exact_mod_cast this
    omega
  · have : (t : Rat) < 10001 := by linarith [ha.2]
    have : t < 10001 := by exact_mod_cast this
    omega

/-- The text of a size. -/
theorem Shown.text {b i d t : Nat} (h : Shown b i d t) :
    bytesSize b = String.ofList (shownSize t (4 - d) i).text := by
  have hb0 : b ≠ 0 := by
    have := h.low
    have : 0 < 1024 ^ i := by positivity
    omega
  have hq : ((b : Int) : Rat) = (b : Rat) := by push_cast; rfl
  have hU : (0 : Rat) < 1024 ^ i := by positivity
  rw [shownSize_text _ _ h.unit]
  unfold bytesSize
  rw [if_neg (by omega)]
  rw [hq, h.float]
  have hlow : (1024 : Rat) ^ i ≤ b := by exact_mod_cast h.low
  have hhigh : (b : Rat) < 1024 ^ (i + 1) := by exact_mod_cast h.high
  rw [unit_loop i 8 (b : Rat) 0 (by have := h.unit; omega) (.inr hlow) hhigh]
  dsimp only
  have hname : binaryAbbrs.getD (0 + i) "" = unitNames.getD i "" := by
    have := h.unit
    interval_cases i <;> rfl
  rw [hname]
  congr 2
  unfold g4
  have hne : (b : Rat) / 1024 ^ i ≠ 0 := by
    have : (b : Rat) ≠ 0 := by exact_mod_cast hb0
    positivity
  rw [if_neg hne, floor_div, h.width]
  dsimp only
  rw [if_pos h.digit.2, h.near]
  have ht := h.t_low
  rw [if_pos, Int.toNat_natCast]
  by_cases hd : d < 4
  · exact .inr hd
  · left
    have hd4 : d = 4 := by have := h.digit; omega
    have hn := F64.nearest_le ((b : Rat) / 1024 ^ i * ((10 ^ (4 - d) : Nat) : Rat))
    rw [h.near, hd4] at hn
    have hlt : (b : Rat) / 1024 ^ i < 1024 := by
      rw [div_lt_iff₀ hU, ← pow_succ']; exact hhigh
    have := (abs_le.mp hn).2
    push_cast at this
    have : (t : Rat) < 1025 := by norm_num at this; linarith
    have : t < 1025 := by exact_mod_cast this
    simp only [Int.toNat_natCast]
    omega

/-- The number shown. -/
def shownNumber (t d : Nat) : Rat := (t : Rat) / ((10 ^ (4 - d) : Nat) : Rat)

theorem Shown.number_low {b i d t : Nat} (h : Shown b i d t) : 1 ≤ shownNumber t d ∧ shownNumber t d ≤ 1024 := by
  have hg : (0 : Rat) < ((10 ^ (4 - d) : Nat) : Rat) := by positivity
  have hU : (0 : Rat) < 1024 ^ i := by positivity
  constructor
  · unfold shownNumber
    rw [le_div_iff₀ hg, one_mul]
    have h1 : 10 ^ (4 - d) ≤ 10 ^ 3 := Nat.pow_le_pow_right (by norm_num) (by have := h.digit; omega)
    have := h.t_low.1
    exact_mod_cast (show 10 ^ (4 - d) ≤ t by omega)
  · -- the number lies below 1024, which is a multiple of the last digit
    unfold shownNumber
    rw [div_le_iff₀ hg]
    have hlt : (b : Rat) / 1024 ^ i < 1024 := by
      rw [div_lt_iff₀ hU, ← pow_succ']; exact_mod_cast h.high
    have hx : (b : Rat) / 1024 ^ i * ((10 ^ (4 - d) : Nat) : Rat) < ((1024 * 10 ^ (4 - d) : Int) : Rat) := by
      push_cast
      have := mul_lt_mul_of_pos_right hlt hg
      push_cast at this
      exact this
    have hle : F64.nearest ((b : Rat) / 1024 ^ i * ((10 ^ (4 - d) : Nat) : Rat)) ≤ 1024 * 10 ^ (4 - d) := by
      have hf := Int.floor_lt.mpr hx
      rcases F64.nearest_cases ((b : Rat) / 1024 ^ i * ((10 ^ (4 - d) : Nat) : Rat)) with ⟨_, e⟩ | ⟨_, e⟩ <;>
        rw [e] <;> omega
    rw [h.near] at hle
    have : t ≤ 1024 * 10 ^ (4 - d) := by exact_mod_cast hle
    exact_mod_cast this

theorem Shown.below {b i d t : Nat} (h : Shown b i d t) : b < 2 ^ 60 := by
  have : 1024 ^ (i + 1) ≤ 1024 ^ 6 := Nat.pow_le_pow_right (by norm_num) (by have := h.unit; omega)
  have := h.high
  norm_num at *
  omega

/-- A whole number that is a float stays one if it is divided by a power of 1024. -/
theorem round_divided {b : Nat} (h0 : b ≠ 0) (hr : F64.round (b : Rat) = b) {i : Nat} (hi : i ≤ 5) :
    F64.round ((b : Rat) / 1024 ^ i) = (b : Rat) / 1024 ^ i := by
  have hb : (0 : Rat) < b := by exact_mod_cast Nat.pos_of_ne_zero h0
  have hb1 : (1 : Rat) ≤ b := by exact_mod_cast Nat.pos_of_ne_zero h0
  obtain ⟨m, e, hm, hm0, hlt, _⟩ := round_repr hb
  rw [hr] at hm
  have he : -53 < e := by
    by_contra hle
    have h1 : F64.pow2 e ≤ F64.pow2 (-53) := by
      rw [F64.pow2_eq, F64.pow2_eq]
      exact zpow_le_zpow_right₀ (by norm_num) (by omega)
    have h2 : (m : Rat) < 2 ^ 53 := by exact_mod_cast hlt
    have h3 : (0 : Rat) ≤ m := by exact_mod_cast hm0
    have h4 : (m : Rat) * F64.pow2 e ≤ m * F64.pow2 (-53) := mul_le_mul_of_nonneg_left h1 h3
    have h5 : (m : Rat) * F64.pow2 (-53) < 2 ^ 53 * F64.pow2 (-53) := mul_lt_mul_of_pos_right h2 (F64.pow2_pos _)
    have h6 : (2 : Rat) ^ 53 * F64.pow2 (-53) = 1 := by decide +kernel
    rw [h6] at h5
    linarith
  refine F64.round_exact (m := m) (e := e - (10 * i : Nat)) (by positivity) ?_ hlt (by omega)
  rw [hm, F64.pow2_eq, F64.pow2_eq, zpow_sub₀ (by norm_num), zpow_natCast, pow_mul]
  norm_num
  ring

/-- The number shown is within half a unit of the last digit. -/
theorem Shown.number_near {b i d t : Nat} (h : Shown b i d t) :
    |shownNumber t d - (b : Rat) / 1024 ^ i| ≤ 1 / (2 * ((10 ^ (4 - d) : Nat) : Rat)) := by
  have hg : (0 : Rat) < ((10 ^ (4 - d) : Nat) : Rat) := by positivity
  have hn := F64.nearest_le ((b : Rat) / 1024 ^ i * ((10 ^ (4 - d) : Nat) : Rat))
  rw [h.near, Int.cast_natCast] at hn
  unfold shownNumber
  generalize ((10 ^ (4 - d) : Nat) : Rat) = g at *
  have : (t : Rat) / g - (b : Rat) / 1024 ^ i = ((t : Rat) - (b : Rat) / 1024 ^ i * g) / g := by
    field_simp
  rw [this, abs_div, abs_of_pos hg, div_le_div_iff₀ hg (by positivity)]
  calc |(t : Rat) - (b : Rat) / 1024 ^ i * g| * (2 * g) ≤ 1 / 2 * (2 * g) :=
        mul_le_mul_of_nonneg_right hn (by positivity)
    _ = 1 * g := by ring

/-- Relative to the size, the error is at most one in two thousand. -/
theorem Shown.number_rel {b i d t : Nat} (h : Shown b i d t) :
    |shownNumber t d - (b : Rat) / 1024 ^ i| ≤ (b : Rat) / 1024 ^ i / 2000 := by
  have hU : (0 : Rat) < 1024 ^ i := by positivity
  refine le_trans h.number_near ?_
  have hg : (0 : Rat) < ((10 ^ (4 - d) : Nat) : Rat) := by positivity
  rw [div_div, div_le_div_iff₀ (by positivity) (by positivity)]
  have hd : 10 ^ (d - 1) * 10 ^ (4 - d) = 1000 := by
    rw [← pow_add, show d - 1 + (4 - d) = 3 by have := h.digit; omega]; norm_num
  have := Nat.mul_le_mul_right (10 ^ (4 - d)) h.dlow
  have e : 10 ^ (d - 1) * 1024 ^ i * 10 ^ (4 - d) = 1000 * 1024 ^ i := by rw [← hd]; ring
  rw [e] at this
  have this' : (1000 : Rat) * 1024 ^ i ≤ b * ((10 ^ (4 - d) : Nat) : Rat) := by exact_mod_cast this
  linarith

/-- What is read from the text of a size. -/
theorem Shown.ram {b i d t : Nat} (h : Shown b i d t) :
    ramInBytes (bytesSize b) = some ⌊F64.round (shownNumber t d) * 1024 ^ i⌋ := by
  rw [h.text, ram_text (shownSize_ok t (4 - d) h.unit), shownSize_number]
  change (if F64.round (shownNumber t d) < _ then some (toInt64 (F64.round (F64.round (shownNumber t d) * _))) else _) = _
  obtain ⟨h1, h2⟩ := h.number_low
  have hr := abs_le.mp (round_near h1)
  have hdiv : shownNumber t d / 2 ^ 53 ≤ 1 / 2 := by
    rw [div_le_iff₀ (by positivity)]
    norm_num
    linarith
  have hpos : 0 < F64.round (shownNumber t d) := by linarith [hr.1]
  have hlt : F64.round (shownNumber t d) < 2048 := by linarith [hr.2]
  have big : (2048 : Rat) < ((2 ^ 1024 : Nat) : Rat) := by
    have : (2 : Nat) ^ 11 < 2 ^ 1024 := Nat.pow_lt_pow_right (by norm_num) (by norm_num)
    have e : (2 : Nat) ^ 11 = 2048 := by norm_num
    rw [e] at this
    exact_mod_cast this
  rw [if_pos (lt_trans hlt big), round_scaled (by linarith) hpos]
  unfold toInt64
  have hcast : ((1024 ^ i : Nat) : Rat) = 1024 ^ i := by push_cast; rfl
  rw [hcast, if_pos, F64.floor_eq]
  clear big
  have hU : (0 : Rat) < 1024 ^ i := by positivity
  have hq := (abs_le.mp h.number_rel).2
  have hb : (b : Rat) / 1024 ^ i * 1024 ^ i = b := by field_simp
  have hbs : (b : Rat) < 1152921504606846976 := by exact_mod_cast h.below
  have hle : F64.round (shownNumber t d) ≤ 4 * ((b : Rat) / 1024 ^ i) := by
    have : (0 : Rat) ≤ (b : Rat) / 1024 ^ i := by positivity
    linarith [hr.2]
  have := mul_le_mul_of_nonneg_right hle hU.le
  rw [mul_assoc, hb] at this
  refine lt_of_le_of_lt this ?_
  push_cast
  norm_num only
  linarith

/-- A size that is shown exactly is read again. -/
theorem Shown.exact {b i d t : Nat} (h : Shown b i d t) (hd : 1024 ^ i ∣ b * 10 ^ (4 - d)) :
    ramInBytes (bytesSize b) = some (b : Int) := by
  obtain ⟨k, hk⟩ := hd
  have hU : (1024 : Rat) ^ i ≠ 0 := by positivity
  have hg : ((10 ^ (4 - d) : Nat) : Rat) ≠ 0 := by positivity
  have hkq : (b : Rat) / 1024 ^ i * ((10 ^ (4 - d) : Nat) : Rat) = ((k : Int) : Rat) := by
    rw [div_mul_eq_mul_div, div_eq_iff hU]
    push_cast
    have : (b : Rat) * ((10 ^ (4 - d) : Nat) : Rat) = ((1024 ^ i * k : Nat) : Rat) := by exact_mod_cast hk
    push_cast at this
    linarith
  have ht : t = k := by
    have := h.near
    rw [hkq, F64.nearest_int] at this
    exact_mod_cast this.symm
  have hx : shownNumber t d = (b : Rat) / 1024 ^ i := by
    unfold shownNumber
    rw [div_eq_iff hg, hkq, ht]
    push_cast
    rfl
  have h1 := h.number_low.1
  have hb0 : b ≠ 0 := by
    have := h.low
    have : 0 < 1024 ^ i := by positivity
    omega
  have hround : F64.round (shownNumber t d) = shownNumber t d := by
    rw [hx]
    exact round_divided hb0 h.float h.unit
  rw [h.ram, hround, hx]
  have : (b : Rat) / 1024 ^ i * 1024 ^ i = ((b : Int) : Rat) := by field_simp; push_cast; rfl
  rw [this, Int.floor_intCast]

end Units
end Drone
