/-
The reader of JSON texts follows the grammar: strings and numbers.
-/
import Verif.Model.JsonText
import Verif.Spec.JsonText
import Verif.Props.ManifestJson

namespace Drone
namespace Json
open Drone.Spec Drone.Spec.JsonGrammar

/-! ### Strings -/

theorem toNat_ofNat_valid {n : Nat} (h : n.isValidChar) : (Char.ofNat n).toNat = n := by
  unfold Char.ofNat
  rw [dif_pos h]
  rfl

theorem hexDigit_eq (c : Char) : hexDigit c = hexValue c := rfl

theorem hexValue_lt {c : Char} {n : Nat} (h : hexValue c = some n) : n < 16 := by
  unfold hexValue at h
  simp only [Char.le_def] at h
  have e0 : ('0' : Char).val.toNat = 48 := rfl
  split at h
  · rename_i g
    have h1 := UInt32.le_iff_toNat_le.mp g.1
    have h2 := UInt32.le_iff_toNat_le.mp g.2
    have : ('9' : Char).val.toNat = 57 := rfl
    simp only [Option.some.injEq] at h
    rw [← h, Char.toNat]; omega
  · split at h
    · rename_i g
      have h1 := UInt32.le_iff_toNat_le.mp g.1
      have h2 := UInt32.le_iff_toNat_le.mp g.2
      have : ('f' : Char).val.toNat = 102 := rfl
      have : ('a' : Char).val.toNat = 97 := rfl
      simp only [Option.some.injEq] at h
      rw [← h, Char.toNat]; omega
    · split at h
      · rename_i g
        have h1 := UInt32.le_iff_toNat_le.mp g.1
        have h2 := UInt32.le_iff_toNat_le.mp g.2
        have : ('F' : Char).val.toNat = 70 := rfl
        have : ('A' : Char).val.toNat = 65 := rfl
        simp only [Option.some.injEq] at h
        rw [← h, Char.toNat]; omega
      · cases h

theorem hexValue_quote : hexValue '"' = none := by decide

theorem unit_iff {s r : List Char} {n : Nat} : unit s = some (n, r) ↔ ∃ u, s = u ++ r ∧ CodeUnit u n := by
  constructor
  · intro h
    unfold unit at h
    split at h
    · rename_i a b c d r'
      simp only [Option.map_eq_some_iff, Prod.mk.injEq, hex4, hexDigit_eq] at h
      obtain ⟨m, h, rfl, rfl⟩ := h
      split at h
      · rename_i w x y z h1 h2 h3 h4
        simp only [Option.some.injEq] at h
        exact ⟨_, rfl, a, b, c, d, w, x, y, z, rfl, h1, h2, h3, h4, h.symm⟩
      · cases h
    · cases h
  · rintro ⟨u, rfl, a, b, c, d, w, x, y, z, rfl, h1, h2, h3, h4, rfl⟩
    simp [unit, hex4, hexDigit_eq, h1, h2, h3, h4]

theorem codeUnit_lt {u : List Char} {n : Nat} (h : CodeUnit u n) : n < 65536 := by
  obtain ⟨a, b, c, d, w, x, y, z, -, h1, h2, h3, h4, rfl⟩ := h
  have := hexValue_lt h1
  have := hexValue_lt h2
  have := hexValue_lt h3
  have := hexValue_lt h4
  omega

theorem codeUnit_unique {u : List Char} {n m : Nat} (h : CodeUnit u n) (h' : CodeUnit u m) : n = m := by
  have e1 := (unit_iff (s := u ++ []) (r := [])).mpr ⟨u, rfl, h⟩
  have e2 := (unit_iff (s := u ++ []) (r := [])).mpr ⟨u, rfl, h'⟩
  rw [e1] at e2
  simpa using e2

theorem codeUnit_length {u : List Char} {n : Nat} (h : CodeUnit u n) : u.length = 6 := by
  obtain ⟨a, b, c, d, w, x, y, z, rfl, -⟩ := h
  rfl

/-- A code unit in front of the closing quote does not reach past it. -/
theorem codeUnit_inside {s r u r' : List Char} {n : Nat} (h : s ++ '"' :: r = u ++ r') (hu : CodeUnit u n) :
    ∃ s', s = u ++ s' := by
  obtain ⟨a, b, c, d, w, x, y, z, rfl, h1, h2, h3, h4, -⟩ := hu
  have hq := hexValue_quote
  match s, h with
  | [], h => simp at h
  | [_], h => simp at h
  | [_, _], h =>
    simp only [List.cons_append, List.nil_append, List.cons.injEq] at h
    rw [← h.2.2.1, hq] at h1; cases h1
  | [_, _, _], h =>
    simp only [List.cons_append, List.nil_append, List.cons.injEq] at h
    rw [← h.2.2.2.1, hq] at h2; cases h2
  | [_, _, _, _], h =>
    simp only [List.cons_append, List.nil_append, List.cons.injEq] at h
    rw [← h.2.2.2.2.1, hq] at h3; cases h3
  | [_, _, _, _, _], h =>
    simp only [List.cons_append, List.nil_append, List.cons.injEq] at h
    rw [← h.2.2.2.2.2.1, hq] at h4; cases h4
  | _ :: _ :: _ :: _ :: _ :: _ :: s', h =>
    simp only [List.cons_append, List.nil_append, List.cons.injEq] at h
    obtain ⟨rfl, rfl, rfl, rfl, rfl, rfl, -⟩ := h
    exact ⟨s', rfl⟩

theorem char_unit {s u : List Char} {n : Nat} (h : CodeUnit u n) : char (u ++ s) =
    (if isSurrogate n then
        match unit s with
        | some (m, r') => match pairChar n m with
          | some c => some (c, r')
          | none => some ('�', s)
        | none => some ('�', s)
      else some (Char.ofNat n, s)) := by
  have e : unit (u ++ s) = some (n, s) := unit_iff.mpr ⟨u, rfl, h⟩
  obtain ⟨a, b, c, d, w, x, y, z, rfl, -⟩ := h
  simp only [List.cons_append, List.nil_append] at e ⊢
  simp only [char, e]
  split
  · cases unit s with
    | none => rfl
    | some p => cases h : pairChar n p.1 <;> simp [h]
  · rfl

theorem not_surrogate (c : Char) : isSurrogate c.toNat = false := by
  have := c.valid
  simp only [isSurrogate, Char.toNat, Bool.and_eq_false_iff, decide_eq_false_iff_not]
  rcases this with h | h
  · left; omega
  · right; omega

theorem pairChar_iff {hi lo : Nat} {c : Char} : pairChar hi lo = some c ↔
    Pair hi lo ∧ c.toNat = (hi - 0xD800) * 0x400 + (lo - 0xDC00) + 0x10000 := by
  unfold pairChar Pair
  split
  · rename_i h
    have hv : ((hi - 0xD800) * 1024 + (lo - 0xDC00) + 0x10000).isValidChar := by
      right; constructor <;> omega
    have ht : (Char.ofNat ((hi - 0xD800) * 1024 + (lo - 0xDC00) + 0x10000)).toNat =
        (hi - 0xD800) * 1024 + (lo - 0xDC00) + 0x10000 := toNat_ofNat_valid hv
    simp only [Option.some.injEq, h, and_self, true_and]
    constructor
    · rintro rfl
      exact ht
    · intro e
      rw [← e]
      exact Char.ofNat_toNat c
  · rename_i h
    simp [h]

theorem isSurrogate_pair {hi lo : Nat} (h : Pair hi lo) : isSurrogate hi = true := by
  simp only [isSurrogate, Bool.and_eq_true, decide_eq_true_eq]
  exact ⟨h.1, by have := h.2.1; omega⟩

theorem escape_eq (c : Char) : escape c = simpleEscape c := rfl

theorem string_succ (n : Nat) (s : List Char) : string (n + 1) s = match s with
    | '"' :: r => some ([], r)
    | _ => (char s).bind fun p => (string n p.2).map fun q => (p.1 :: q.1, q.2) := by
  rw [string.eq_def]
  rfl

theorem string_step {n : Nat} {s r : List Char} {c : Char} (hq : s.head? ≠ some '"') (h : char s = some (c, r)) :
    string (n + 1) s = (string n r).map fun q => (c :: q.1, q.2) := by
  rw [string_succ]
  split
  · exact absurd rfl hq
  · rw [h]; rfl

theorem string_complete {s v : List Char} (h : Chars s v) : ∀ (r : List Char) (n : Nat), s.length < n →
    string n (s ++ '"' :: r) = some (v, r) := by
  induction h with
  | nil =>
    intro r n hn
    obtain ⟨n, rfl⟩ : ∃ k, n = k + 1 := ⟨n - 1, by omega⟩
    rfl
  | @plain c s v h1 h2 h3 _ ih =>
    intro r n hn
    simp only [List.length_cons] at hn
    obtain ⟨n, rfl⟩ : ∃ k, n = k + 1 := ⟨n - 1, by omega⟩
    have hc : char (c :: (s ++ '"' :: r)) = some (c, s ++ '"' :: r) := by
      unfold char
      split
      · rename_i e; simp only [List.cons.injEq] at e; exact absurd e.1 h3
      · rename_i e; simp only [List.cons.injEq] at e; exact absurd e.1 h3
      · rename_i e
        simp only [List.cons.injEq] at e
        obtain ⟨rfl, rfl⟩ := e
        rw [if_neg (by simp [h1, h3])]
      · rename_i e; cases e
    rw [List.cons_append, string_step (by simpa using h2) hc, ih r n (by omega)]
    rfl
  | @short e c s v h1 _ ih =>
    intro r n hn
    simp only [List.length_cons] at hn
    obtain ⟨n, rfl⟩ : ∃ k, n = k + 1 := ⟨n - 1, by omega⟩
    have he : e ≠ 'u' := by rintro rfl; simp [simpleEscape] at h1
    have hc : char ('\\' :: e :: (s ++ '"' :: r)) = some (c, s ++ '"' :: r) := by
      unfold char
      split
      · rename_i g; simp only [List.cons.injEq, true_and] at g; exact absurd g.1 he
      · rename_i g
        simp only [List.cons.injEq, true_and] at g
        obtain ⟨rfl, rfl⟩ := g
        rw [escape_eq, h1]; rfl
      · rename_i g1 g2
        simp only [List.cons.injEq] at g2
        exact absurd g2.2.symm (fun k => g1 e _ g2.1.symm k)
      · rename_i g; cases g
    rw [List.cons_append, List.cons_append, string_step (by simp) hc, ih r n (by omega)]
    rfl
  | @unit u s v c h1 _ ih =>
    intro r n hn
    rw [List.length_append, codeUnit_length h1] at hn
    obtain ⟨n, rfl⟩ : ∃ k, n = k + 1 := ⟨n - 1, by omega⟩
    have hc : char (u ++ (s ++ '"' :: r)) = some (c, s ++ '"' :: r) := by
      rw [char_unit h1, not_surrogate]
      simp [Char.ofNat_toNat]
    have hh : (u ++ (s ++ '"' :: r)).head? ≠ some '"' := by
      obtain ⟨a, b, c, d, w, x, y, z, rfl, -⟩ := h1
      simp
    rw [List.append_assoc, string_step hh hc, ih r n (by omega)]
    rfl
  | @pair u u' s v hi lo c h1 h2 h3 h4 _ ih =>
    intro r n hn
    rw [List.length_append, List.length_append, codeUnit_length h1, codeUnit_length h2] at hn
    obtain ⟨n, rfl⟩ : ∃ k, n = k + 1 := ⟨n - 1, by omega⟩
    have hc : char (u ++ (u' ++ (s ++ '"' :: r))) = some (c, s ++ '"' :: r) := by
      rw [char_unit h1, isSurrogate_pair h3, unit_iff.mpr ⟨u', rfl, h2⟩]
      simp only [if_true, pairChar_iff.mpr ⟨h3, h4⟩]
    have hh : (u ++ (u' ++ (s ++ '"' :: r))).head? ≠ some '"' := by
      obtain ⟨a, b, c, d, w, x, y, z, rfl, -⟩ := h1
      simp
    rw [List.append_assoc, List.append_assoc, string_step hh hc, ih r n (by omega)]
    rfl
  | @lone u s v k h1 h2 h3 h4 _ ih =>
    intro r n hn
    rw [List.length_append, codeUnit_length h1] at hn
    obtain ⟨n, rfl⟩ : ∃ k, n = k + 1 := ⟨n - 1, by omega⟩
    have hs : isSurrogate k = true := by simp [isSurrogate, h2, h3]
    have hc : char (u ++ (s ++ '"' :: r)) = some ('�', s ++ '"' :: r) := by
      rw [char_unit h1, hs]
      simp only [if_true]
      split
      · rename_i m r' g
        split
        · rename_i c g2
          exfalso
          obtain ⟨u', g3, g4⟩ := unit_iff.mp g
          obtain ⟨s', g5⟩ := codeUnit_inside g3 g4
          exact h4 ⟨u', m, s', g5, g4, (pairChar_iff.mp g2).1⟩
        · rfl
      · rfl
    have hh : (u ++ (s ++ '"' :: r)).head? ≠ some '"' := by
      obtain ⟨a, b, c, d, w, x, y, z, rfl, -⟩ := h1
      simp
    rw [List.append_assoc, string_step hh hc, ih r n (by omega)]
    rfl

/-- What the next character can be. -/
theorem char_sound {s r : List Char} {c : Char} (hq : s.head? ≠ some '"') (h : char s = some (c, r)) :
    (s = c :: r ∧ ¬ c.toNat < 0x20 ∧ c ≠ '"' ∧ c ≠ '\\') ∨ (∃ e, s = '\\' :: e :: r ∧ simpleEscape e = some c) ∨
    (∃ u, s = u ++ r ∧ CodeUnit u c.toNat) ∨
    (∃ u u' hi lo, s = u ++ (u' ++ r) ∧ CodeUnit u hi ∧ CodeUnit u' lo ∧ Pair hi lo ∧
      c.toNat = (hi - 0xD800) * 0x400 + (lo - 0xDC00) + 0x10000) ∨
    (∃ u n, s = u ++ r ∧ CodeUnit u n ∧ 0xD800 ≤ n ∧ n < 0xE000 ∧ c = '�' ∧
      ¬ ∃ u' lo s', r = u' ++ s' ∧ CodeUnit u' lo ∧ Pair n lo) := by
  unfold char at h
  split at h
  · split at h
    · cases h
    · rename_i n r1 g
      obtain ⟨u, hu, g1⟩ := unit_iff.mp g
      have lone : unit r1 = none ∨ (∃ m r', unit r1 = some (m, r') ∧ pairChar n m = none) →
          ¬ ∃ u' lo s', r1 = u' ++ s' ∧ CodeUnit u' lo ∧ Pair n lo := by
        rintro k ⟨u', lo, s', e, k1, k2⟩
        have e' := unit_iff.mpr ⟨u', e, k1⟩
        rcases k with k | ⟨m, r', k3, k4⟩
        · rw [k] at e'; cases e'
        · rw [k3] at e'
          simp only [Option.some.injEq, Prod.mk.injEq] at e'
          obtain ⟨rfl, rfl⟩ := e'
          have hv : ((n - 0xD800) * 1024 + (m - 0xDC00) + 0x10000).isValidChar := by
            obtain ⟨p1, p2, p3, p4⟩ := k2
            right; constructor <;> omega
          rw [pairChar_iff.mpr ⟨k2, (toNat_ofNat_valid hv)⟩] at k4
          cases k4
      split at h
      · rename_i hs
        simp only [isSurrogate, Bool.and_eq_true, decide_eq_true_eq] at hs
        split at h
        · rename_i m r' g2
          split at h
          · rename_i c' g3
            simp only [Option.some.injEq, Prod.mk.injEq] at h
            obtain ⟨rfl, rfl⟩ := h
            obtain ⟨u', hu', g4⟩ := unit_iff.mp g2
            obtain ⟨p1, p2⟩ := pairChar_iff.mp g3
            exact .inr (.inr (.inr (.inl ⟨u, u', n, m, by rw [hu, hu'], g1, g4, p1, p2⟩)))
          · rename_i g3
            simp only [Option.some.injEq, Prod.mk.injEq] at h
            obtain ⟨rfl, rfl⟩ := h
            exact .inr (.inr (.inr (.inr ⟨u, n, hu, g1, hs.1, hs.2, rfl, lone (.inr ⟨m, r', g2, g3⟩)⟩)))
        · rename_i g2
          simp only [Option.some.injEq, Prod.mk.injEq] at h
          obtain ⟨rfl, rfl⟩ := h
          exact .inr (.inr (.inr (.inr ⟨u, n, hu, g1, hs.1, hs.2, rfl, lone (.inl g2)⟩)))
      · rename_i hs
        simp only [Option.some.injEq, Prod.mk.injEq] at h
        obtain ⟨rfl, rfl⟩ := h
        refine .inr (.inr (.inl ⟨u, hu, ?_⟩))
        have hv : n.isValidChar := by
          have := codeUnit_lt g1
          simp only [isSurrogate, Bool.and_eq_true, decide_eq_true_eq, not_and_or, not_le, not_lt] at hs
          rcases hs with hs | hs
          · exact .inl (by omega)
          · exact .inr ⟨by omega, by omega⟩
        rw [toNat_ofNat_valid hv]
        exact g1
  · rename_i e r1 _
    simp only [Option.map_eq_some_iff, Prod.mk.injEq, escape_eq] at h
    obtain ⟨c', h, rfl, rfl⟩ := h
    exact .inr (.inl ⟨e, rfl, h⟩)
  · rename_i c' r1 g1 g2
    split at h
    · cases h
    · rename_i g3
      simp only [Option.some.injEq, Prod.mk.injEq] at h
      obtain ⟨rfl, rfl⟩ := h
      exact .inl ⟨rfl, fun k => g3 (.inl k), by simpa using hq, fun k => g3 (.inr k)⟩
  · cases h

theorem string_sound : ∀ (n : Nat) {s v r : List Char}, string n s = some (v, r) → ∃ u, s = u ++ '"' :: r ∧ Chars u v := by
  intro n
  induction n with
  | zero => intro s v r h; cases h
  | succ n ih =>
    intro s v r h
    rw [string_succ] at h
    split at h
    · simp only [Option.some.injEq, Prod.mk.injEq] at h
      obtain ⟨rfl, rfl⟩ := h
      exact ⟨[], rfl, .nil⟩
    · rename_i hq
      simp only [Option.bind_eq_some_iff, Option.map_eq_some_iff, Prod.mk.injEq] at h
      obtain ⟨⟨c, r1⟩, h1, ⟨v1, r2⟩, h2, rfl, rfl⟩ := h
      obtain ⟨u, h3, h4⟩ := ih h2
      simp only at h3 h4
      have hh : s.head? ≠ some '"' := by
        cases s with
        | nil => simp
        | cons c s => intro k; simp only [List.head?_cons, Option.some.injEq] at k; exact hq s (by rw [k])
      rcases char_sound hh h1 with ⟨e, g⟩ | ⟨x, e, g⟩ | ⟨x, e, g⟩ | ⟨x, x', hi, lo, e, g1, g2, g3, g4⟩ |
        ⟨x, k, e, g1, g2, g3, rfl, g4⟩
      · exact ⟨c :: u, by rw [e, h3]; rfl, .plain g.1 g.2.1 g.2.2 h4⟩
      · exact ⟨'\\' :: x :: u, by rw [e, h3]; rfl, .short g h4⟩
      · exact ⟨x ++ u, by rw [e, h3, List.append_assoc], .unit g h4⟩
      · exact ⟨x ++ (x' ++ u), by rw [e, h3]; simp, .pair g1 g2 g3 g4 h4⟩
      · refine ⟨x ++ u, by rw [e, h3, List.append_assoc], .lone g1 g2 g3 ?_ h4⟩
        rintro ⟨u', lo, s', k1, k2, k3⟩
        exact g4 ⟨u', lo, s' ++ '"' :: r2, by rw [h3, k1, List.append_assoc], k2, k3⟩

/-! ### Numbers -/

theorem numeral_eq (s : List Char) : numeral s = digitsNumber s := rfl

theorem all_digits {s : List Char} : (s ≠ [] ∧ s.all Char.isDigit = true) ↔ AllDigits s := by
  unfold AllDigits
  simp

/-- The number the sign stands for. -/
def signOf (neg : Bool) : Int := if neg then -1 else 1

/-- The exponent after `e`. -/
def expOf (r : List Char) : Option Int := match r with
  | [] => some 0
  | 'e' :: r => exponentOf r
  | 'E' :: r => exponentOf r
  | _ => none

theorem exponentOf_eq (s : List Char) : exponentOf s = match s with
    | '-' :: r => if AllDigits r then some (-(digitsNumber r : Int)) else none
    | '+' :: r => if AllDigits r then some (digitsNumber r : Int) else none
    | r => if AllDigits r then some (digitsNumber r : Int) else none := by
  unfold exponentOf
  simp only [all_digits, numeral_eq]
  split
  · split <;> rename_i h <;> simp [h]
  · rfl
  · rename_i h1 h2
    generalize ho : (if AllDigits s then some (digitsNumber s : Int) else none) = o
    split
    · exact absurd rfl (h1 _)
    · exact absurd rfl (h2 _)
    · exact ho.symm

theorem digits_head {ds : List Char} (h : AllDigits ds) : ds.head? ≠ some '-' ∧ ds.head? ≠ some '+' ∧ ds.head? ≠ some '.' ∧
    ds.head? ≠ some 'e' ∧ ds.head? ≠ some 'E' := by
  cases ds with
  | nil => exact absurd rfl h.1
  | cons c s =>
    have := h.2 c (by simp)
    simp only [List.head?_cons, ne_eq, Option.some.injEq]
    refine ⟨?_, ?_, ?_, ?_, ?_⟩ <;> · rintro rfl; revert this; decide

theorem expOf_iff {s : List Char} {e : Int} : expOf s = some e ↔ Exponent s e := by
  constructor
  · intro h
    have key : ∀ x r, x = 'e' ∨ x = 'E' → exponentOf r = some e → Exponent (x :: r) e := by
      intro x r hx h
      rw [exponentOf_eq] at h
      split at h
      · split at h
        · rename_i g; cases h; exact .minus hx g
        · cases h
      · split at h
        · rename_i g; cases h; exact .plus hx g
        · cases h
      · split at h
        · rename_i g; cases h; exact .some hx g
        · cases h
    unfold expOf at h
    split at h
    · cases h; exact .none
    · exact key _ _ (.inl rfl) h
    · exact key _ _ (.inr rfl) h
    · cases h
  · have key : ∀ x r, x = 'e' ∨ x = 'E' → expOf (x :: r) = exponentOf r := by
      rintro x r (rfl | rfl) <;> rfl
    intro h
    cases h with
    | none => rfl
    | some hx hd =>
      rename_i x ds
      rw [key _ _ hx, exponentOf_eq]
      obtain ⟨h1, h2, -⟩ := digits_head hd
      split
      · exact absurd rfl h1
      · exact absurd rfl h2
      · rw [if_pos hd]
    | plus hx hd => rw [key _ _ hx, exponentOf_eq]; simp only [if_pos hd]
    | minus hx hd => rw [key _ _ hx, exponentOf_eq]; simp only [if_pos hd]

theorem exponent_head {s : List Char} {e : Int} (h : Exponent s e) :
    ∀ c, s.head? = some c → c.isDigit = false ∧ c ≠ '.' := by
  intro c hc
  cases h with
  | none => cases hc
  | some hx _ => cases hc; rcases hx with rfl | rfl <;> decide
  | plus hx _ => cases hc; rcases hx with rfl | rfl <;> decide
  | minus hx _ => cases hc; rcases hx with rfl | rfl <;> decide

theorem take_drop (p : Char → Bool) (s : List Char) : s.takeWhile p ++ s.dropWhile p = s := List.takeWhile_append_dropWhile

theorem take_all (p : Char → Bool) (s : List Char) : ∀ c ∈ s.takeWhile p, p c = true := fun _ h => List.mem_takeWhile_imp h

theorem drop_head (p : Char → Bool) (s : List Char) : ∀ c, (s.dropWhile p).head? = some c → p c = false := by
  intro c h
  have := List.head?_dropWhile_not p s
  rw [h] at this
  simpa using this

theorem tailOf_eq (s : List Char) : tailOf s = match s with
    | '.' :: r => if r.takeWhile Char.isDigit = [] then none
      else (expOf (r.dropWhile Char.isDigit)).map fun e => (r.takeWhile Char.isDigit, e)
    | r => (expOf r).map fun e => ([], e) := rfl

theorem tailOf_iff {s ds : List Char} {e : Int} : tailOf s = some (ds, e) ↔
    ∃ f x, s = f ++ x ∧ Fraction f ds ∧ Exponent x e := by
  constructor
  · intro h
    rw [tailOf_eq] at h
    split at h
    · rename_i r
      split at h
      · cases h
      · rename_i g
        simp only [Option.map_eq_some_iff, Prod.mk.injEq] at h
        obtain ⟨e', h, rfl, rfl⟩ := h
        exact ⟨'.' :: r.takeWhile Char.isDigit, r.dropWhile Char.isDigit, by rw [List.cons_append, take_drop],
          .some ⟨g, take_all _ _⟩, expOf_iff.mp h⟩
    · simp only [Option.map_eq_some_iff, Prod.mk.injEq] at h
      obtain ⟨e', h, rfl, rfl⟩ := h
      exact ⟨[], s, rfl, .none, expOf_iff.mp h⟩
  · rintro ⟨f, x, rfl, hf, hx⟩
    have hh := exponent_head hx
    rw [tailOf_eq]
    cases hf with
    | none =>
      rw [List.nil_append]
      split
      · exact absurd rfl (hh _ rfl).2
      · rw [expOf_iff.mpr hx]; rfl
    | some hd =>
      obtain ⟨h1, h2⟩ := FloatText.take_digits hd.2 (fun c hc => (hh c hc).1)
      simp only [List.cons_append, h1, h2, if_neg hd.1, expOf_iff.mpr hx, Option.map_some]

theorem fraction_head {f ds x : List Char} {e : Int} (hf : Fraction f ds) (hx : Exponent x e) :
    ∀ c, (f ++ x).head? = some c → c.isDigit = false := by
  intro c hc
  cases hf with
  | none => exact (exponent_head hx c hc).1
  | some _ => cases hc; decide

theorem unsigned_iff {neg : Bool} {s : List Char} {t : Tree} : unsigned neg s = some t ↔ Unsigned (signOf neg) s t := by
  constructor
  · intro h
    unfold unsigned at h
    dsimp only at h
    split at h
    · cases h
    · rename_i g
      have hw : Natural (s.takeWhile Char.isDigit) :=
        ⟨⟨fun k => g (.inl k), take_all _ _⟩, fun k => by by_contra k'; exact g (.inr ⟨k, k'⟩)⟩
      split at h
      · rename_i g2
        have e := take_drop Char.isDigit s
        rw [g2, List.append_nil] at e
        simp only [Option.some.injEq] at h
        rw [e] at h hw
        rw [← h]
        have := Unsigned.int (sign := signOf neg) hw
        cases neg <;> simpa [signOf, numeral_eq] using this
      · rename_i g2
        simp only [Option.map_eq_some_iff] at h
        obtain ⟨⟨ds, e⟩, h, rfl⟩ := h
        obtain ⟨f, x, h1, h2, h3⟩ := tailOf_iff.mp h
        have e1 := take_drop Char.isDigit s
        rw [h1] at e1 g2
        have := Unsigned.float (sign := signOf neg) hw h2 h3 g2
        rw [e1] at this
        simp only [toFloat_eq, numeral_eq, FloatText.pow10_eq]
        cases neg <;> simpa [signOf] using this
  · intro h
    unfold unsigned
    dsimp only
    cases h with
    | int hw =>
      obtain ⟨h1, h2⟩ := FloatText.take_digits (rest := []) hw.1.2 (by simp)
      rw [List.append_nil] at h1 h2
      rw [h1, h2, if_neg (by
        rintro (k | ⟨k, k'⟩)
        · exact hw.1.1 k
        · exact k' (hw.2 k)), if_pos rfl]
      cases neg <;> simp [signOf, numeral_eq]
    | @float w f ds x e hw hf hx hne =>
      obtain ⟨h1, h2⟩ := FloatText.take_digits hw.1.2 (fraction_head hf hx)
      rw [h1, h2, if_neg (by
        rintro (k | ⟨k, k'⟩)
        · exact hw.1.1 k
        · exact k' (hw.2 k)), if_neg hne, tailOf_iff.mpr ⟨f, x, rfl, hf, hx⟩]
      simp only [toFloat_eq, numeral_eq, FloatText.pow10_eq, Option.map_some]
      cases neg <;> simp [signOf]

theorem unsigned_head {sign : Int} {s : List Char} {t : Tree} (h : Unsigned sign s t) : ∃ c, s.head? = some c ∧ c.isDigit = true := by
  have key : ∀ w r, Natural w → ∃ c, (w ++ r).head? = some c ∧ c.isDigit = true := by
    intro w r hw
    cases w with
    | nil => exact absurd rfl hw.1.1
    | cons c w => exact ⟨c, rfl, hw.1.2 c (by simp)⟩
  cases h with
  | int hw => simpa using key _ [] hw
  | float hw _ _ _ => exact key _ _ hw

theorem number_iff {s : List Char} {t : Tree} : number s = some t ↔ Number s t := by
  constructor
  · intro h
    unfold number at h
    split at h
    · exact .neg (unsigned_iff (neg := true).mp h)
    · exact .pos (unsigned_iff (neg := false).mp h)
  · intro h
    cases h with
    | pos h =>
      obtain ⟨c, h1, h2⟩ := unsigned_head h
      unfold number
      split
      · cases h1; exact absurd h2 (by decide)
      · exact unsigned_iff (neg := false).mpr h
    | neg h => exact unsigned_iff (neg := true).mpr h

theorem digit_inNumber {c : Char} (h : c.isDigit = true) : inNumber c = true := by simp [inNumber, h]

theorem exponent_chars {s : List Char} {e : Int} (h : Exponent s e) : ∀ c ∈ s, inNumber c = true := by
  have e1 : ∀ x, x = 'e' ∨ x = 'E' → inNumber x = true := by rintro x (rfl | rfl) <;> decide
  intro c hc
  cases h with
  | none => cases hc
  | some hx hd =>
    rcases List.mem_cons.mp hc with rfl | hc
    · exact e1 _ hx
    · exact digit_inNumber (hd.2 c hc)
  | plus hx hd =>
    rcases List.mem_cons.mp hc with rfl | hc
    · exact e1 _ hx
    · rcases List.mem_cons.mp hc with rfl | hc
      · decide
      · exact digit_inNumber (hd.2 c hc)
  | minus hx hd =>
    rcases List.mem_cons.mp hc with rfl | hc
    · exact e1 _ hx
    · rcases List.mem_cons.mp hc with rfl | hc
      · decide
      · exact digit_inNumber (hd.2 c hc)

theorem unsigned_chars {sign : Int} {s : List Char} {t : Tree} (h : Unsigned sign s t) : ∀ c ∈ s, inNumber c = true := by
  cases h with
  | int hw => exact fun c hc => digit_inNumber (hw.1.2 c hc)
  | float hw hf hx _ =>
    intro c hc
    rcases List.mem_append.mp hc with hc | hc
    · exact digit_inNumber (hw.1.2 c hc)
    · rcases List.mem_append.mp hc with hc | hc
      · cases hf with
        | none => cases hc
        | some hd =>
          rcases List.mem_cons.mp hc with rfl | hc
          · decide
          · exact digit_inNumber (hd.2 c hc)
      · exact exponent_chars hx c hc

/-- A number begins with a sign or digit and has no other characters than numbers have. -/
theorem number_chars {s : List Char} {t : Tree} (h : Number s t) :
    (∃ c, s.head? = some c ∧ (c = '-' ∨ c.isDigit = true)) ∧ ∀ c ∈ s, inNumber c = true := by
  cases h with
  | pos h =>
    obtain ⟨c, h1, h2⟩ := unsigned_head h
    exact ⟨⟨c, h1, .inr h2⟩, unsigned_chars h⟩
  | neg h =>
    refine ⟨⟨'-', rfl, .inl rfl⟩, fun c hc => ?_⟩
    rcases List.mem_cons.mp hc with rfl | hc
    · decide
    · exact unsigned_chars h c hc

/-! ### White space -/

theorem isSpace_iff {c : Char} : isSpace c = true ↔ c = ' ' ∨ c = '\t' ∨ c = '\n' ∨ c = '\r' := by
  simp only [isSpace, Bool.or_eq_true, decide_eq_true_eq]
  tauto

theorem skip_split (s : List Char) : ∃ a, s = a ++ skip s ∧ Blank a :=
  ⟨s.takeWhile isSpace, (take_drop _ _).symm, fun c hc => isSpace_iff.mp (take_all _ _ c hc)⟩

/-- The text begins with a character other than white space. -/
def Solid (s : List Char) : Prop := ∀ c, s.head? = some c → isSpace c = false

theorem skip_solid {s : List Char} (h : Solid s) : skip s = s := by
  cases s with
  | nil => rfl
  | cons c s => simp [skip, h c rfl]

theorem skip_blank {a s : List Char} (ha : Blank a) (h : Solid s) : skip (a ++ s) = s := by
  unfold skip
  rw [List.dropWhile_append_of_pos (fun c hc => isSpace_iff.mpr (ha c hc))]
  exact skip_solid h

theorem skip_blank' {a s : List Char} (ha : Blank a) : skip (a ++ s) = skip s := by
  unfold skip
  rw [List.dropWhile_append_of_pos (fun c hc => isSpace_iff.mpr (ha c hc))]

theorem blank_append {a b : List Char} (ha : Blank a) (hb : Blank b) : Blank (a ++ b) := by
  intro c hc
  rcases List.mem_append.mp hc with hc | hc
  · exact ha c hc
  · exact hb c hc

theorem blank_nil : Blank [] := by simp [Blank]

/-! ### Values -/

theorem value_succ (fuel : Nat) (s : List Char) : value (fuel + 1) s = match s with
    | 'n' :: 'u' :: 'l' :: 'l' :: r => some (.null, r)
    | 't' :: 'r' :: 'u' :: 'e' :: r => some (.bool true, r)
    | 'f' :: 'a' :: 'l' :: 's' :: 'e' :: r => some (.bool false, r)
    | '"' :: r => (string (r.length + 1) r).map fun p => (.str (String.ofList p.1), p.2)
    | '[' :: r => match skip r with
      | ']' :: r => some (.arr [], r)
      | r => (items fuel r).map fun p => (.arr p.1, p.2)
    | '{' :: r => match skip r with
      | '}' :: r => some (.obj [], r)
      | r => (members fuel r).map fun p => (.obj p.1, p.2)
    | r => (number (r.takeWhile inNumber)).map fun t => (t, r.dropWhile inNumber) := by
  rw [value.eq_def]
  rfl

theorem items_succ (fuel : Nat) (s : List Char) : items (fuel + 1) s = (value fuel s).bind fun p => match skip p.2 with
    | ',' :: r => (items fuel (skip r)).map fun q => (p.1 :: q.1, q.2)
    | ']' :: r => some ([p.1], r)
    | _ => none := by
  rw [items.eq_def]
  rfl

theorem members_succ (fuel : Nat) (s : List Char) : members (fuel + 1) s = match s with
    | '"' :: s => (string (s.length + 1) s).bind fun k => match skip k.2 with
      | ':' :: s => (value fuel (skip s)).bind fun p => match skip p.2 with
        | ',' :: r => (members fuel (skip r)).map fun q => ((String.ofList k.1, p.1) :: q.1, q.2)
        | '}' :: r => some ([(String.ofList k.1, p.1)], r)
        | _ => none
      | _ => none
    | _ => none := by
  rw [members.eq_def]
  rfl

theorem items_blank {a s : List Char} {ts : List Tree} (ha : Blank a) (h : Items s ts) : Items (a ++ s) ts := by
  cases h with
  | one h1 h2 h3 => rw [← List.append_assoc]; exact .one (blank_append ha h1) h2 h3
  | cons h1 h2 h3 h4 => rw [← List.append_assoc]; exact .cons (blank_append ha h1) h2 h3 h4

theorem members_blank {a s : List Char} {kvs : List (String × Tree)} (ha : Blank a) (h : Members s kvs) : Members (a ++ s) kvs := by
  cases h with
  | one h1 h2 h3 h4 h5 h6 => rw [← List.append_assoc]; exact .one (blank_append ha h1) h2 h3 h4 h5 h6
  | cons h1 h2 h3 h4 h5 h6 h7 => rw [← List.append_assoc]; exact .cons (blank_append ha h1) h2 h3 h4 h5 h6 h7

/-- What is read is a text of the grammar. -/
theorem sound : ∀ fuel : Nat,
    (∀ s t r, value fuel s = some (t, r) → ∃ u, s = u ++ r ∧ Text u t) ∧
    (∀ s ts r, items fuel s = some (ts, r) → ∃ u, s = u ++ ']' :: r ∧ Items u ts) ∧
    (∀ s kvs r, members fuel s = some (kvs, r) → ∃ u, s = u ++ '}' :: r ∧ Members u kvs) := by
  intro fuel
  induction fuel with
  | zero =>
    refine ⟨?_, ?_, ?_⟩
    · intro s t r h; rw [value.eq_def] at h; cases h
    · intro s t r h; rw [items.eq_def] at h; cases h
    · intro s t r h; rw [members.eq_def] at h; cases h
  | succ fuel ih =>
    obtain ⟨ih1, ih2, ih3⟩ := ih
    refine ⟨?_, ?_, ?_⟩
    · intro s t r h
      rw [value_succ] at h
      split at h
      · cases h; exact ⟨['n', 'u', 'l', 'l'], rfl, .null⟩
      · cases h; exact ⟨['t', 'r', 'u', 'e'], rfl, .true⟩
      · cases h; exact ⟨['f', 'a', 'l', 's', 'e'], rfl, .false⟩
      · rename_i r1
        simp only [Option.map_eq_some_iff, Prod.mk.injEq] at h
        obtain ⟨⟨v, r2⟩, h, rfl, rfl⟩ := h
        obtain ⟨u, rfl, hu⟩ := string_sound _ h
        exact ⟨'"' :: (u ++ ['"']), by simp, .str hu⟩
      · rename_i r1
        obtain ⟨a, e, ha⟩ := skip_split r1
        split at h
        · rename_i r2 g
          cases h
          exact ⟨'[' :: (a ++ [']']), by rw [e, g]; simp, .noItems ha⟩
        · simp only [Option.map_eq_some_iff, Prod.mk.injEq] at h
          obtain ⟨⟨ts, r2⟩, h, rfl, rfl⟩ := h
          obtain ⟨u, e2, hu⟩ := ih2 _ _ _ h
          exact ⟨'[' :: ((a ++ u) ++ [']']), by rw [e, e2]; simp, .arr (items_blank ha hu)⟩
      · rename_i r1
        obtain ⟨a, e, ha⟩ := skip_split r1
        split at h
        · rename_i r2 g
          cases h
          exact ⟨'{' :: (a ++ ['}']), by rw [e, g]; simp, .noMembers ha⟩
        · simp only [Option.map_eq_some_iff, Prod.mk.injEq] at h
          obtain ⟨⟨ts, r2⟩, h, rfl, rfl⟩ := h
          obtain ⟨u, e2, hu⟩ := ih3 _ _ _ h
          exact ⟨'{' :: ((a ++ u) ++ ['}']), by rw [e, e2]; simp, .obj (members_blank ha hu)⟩
      · simp only [Option.map_eq_some_iff, Prod.mk.injEq] at h
        obtain ⟨t', h, rfl, rfl⟩ := h
        exact ⟨s.takeWhile inNumber, (take_drop _ _).symm, .num (number_iff.mp h)⟩
    · intro s ts r h
      rw [items_succ] at h
      simp only [Option.bind_eq_some_iff] at h
      obtain ⟨⟨t, r1⟩, h1, h2⟩ := h
      obtain ⟨u, rfl, hu⟩ := ih1 _ _ _ h1
      obtain ⟨b, e, hb⟩ := skip_split r1
      dsimp only at h2
      split at h2
      · rename_i r2 g
        simp only [Option.map_eq_some_iff, Prod.mk.injEq] at h2
        obtain ⟨⟨ts', r3⟩, h3, rfl, rfl⟩ := h2
        obtain ⟨w, e2, hw⟩ := ih2 _ _ _ h3
        obtain ⟨a, e3, ha⟩ := skip_split r2
        refine ⟨[] ++ (u ++ (b ++ ',' :: (a ++ w))), ?_, .cons blank_nil hu hb (items_blank ha hw)⟩
        rw [e, g, e3, e2]; simp
      · rename_i r2 g
        cases h2
        refine ⟨[] ++ (u ++ b), ?_, .one blank_nil hu hb⟩
        rw [e, g]; simp
      · cases h2
    · intro s kvs r h
      rw [members_succ] at h
      split at h
      · rename_i s1
        simp only [Option.bind_eq_some_iff] at h
        obtain ⟨⟨k, r1⟩, h1, h2⟩ := h
        obtain ⟨u, rfl, hu⟩ := string_sound _ h1
        obtain ⟨b, e, hb⟩ := skip_split r1
        dsimp only at h2
        split at h2
        · rename_i s2 g
          simp only [Option.bind_eq_some_iff] at h2
          obtain ⟨⟨t, r2⟩, h3, h4⟩ := h2
          obtain ⟨c, e2, hc⟩ := skip_split s2
          obtain ⟨x, e3, hx⟩ := ih1 _ _ _ h3
          obtain ⟨d, e4, hd⟩ := skip_split r2
          dsimp only at h4
          split at h4
          · rename_i r3 g2
            simp only [Option.map_eq_some_iff, Prod.mk.injEq] at h4
            obtain ⟨⟨kvs', r4⟩, h5, rfl, rfl⟩ := h4
            obtain ⟨w, e5, hw⟩ := ih3 _ _ _ h5
            obtain ⟨a, e6, ha⟩ := skip_split r3
            refine ⟨[] ++ '"' :: (u ++ '"' :: (b ++ ':' :: (c ++ (x ++ (d ++ ',' :: (a ++ w)))))), ?_,
              .cons blank_nil hu hb hc hx hd (members_blank ha hw)⟩
            rw [e, g, e2, e3, e4, g2, e6, e5]; simp
          · rename_i r3 g2
            cases h4
            refine ⟨[] ++ '"' :: (u ++ '"' :: (b ++ ':' :: (c ++ (x ++ d)))), ?_, .one blank_nil hu hb hc hx hd⟩
            rw [e, g, e2, e3, e4, g2]; simp
          · cases h4
        · cases h2
      · cases h

/-- How a value begins. -/
theorem text_head {s : List Char} {t : Tree} (h : Text s t) : ∃ c, s.head? = some c ∧ isSpace c = false ∧ c ≠ ']' ∧ c ≠ '}' := by
  cases h with
  | null => exact ⟨_, rfl, by decide⟩
  | true => exact ⟨_, rfl, by decide⟩
  | false => exact ⟨_, rfl, by decide⟩
  | num h =>
    obtain ⟨⟨c, h1, h2⟩, -⟩ := number_chars h
    refine ⟨c, h1, ?_⟩
    rcases h2 with rfl | h2
    · decide
    · refine ⟨?_, ?_, ?_⟩
      · rw [Bool.eq_false_iff]
        intro k
        rcases isSpace_iff.mp k with rfl | rfl | rfl | rfl <;> revert h2 <;> decide
      · rintro rfl; revert h2; decide
      · rintro rfl; revert h2; decide
  | str _ => exact ⟨_, rfl, by decide⟩
  | noItems _ => exact ⟨_, rfl, by decide⟩
  | arr _ => exact ⟨_, rfl, by decide⟩
  | noMembers _ => exact ⟨_, rfl, by decide⟩
  | obj _ => exact ⟨_, rfl, by decide⟩

theorem text_solid {s : List Char} {t : Tree} (h : Text s t) (r : List Char) : Solid (s ++ r) := by
  obtain ⟨c, h1, h2, -⟩ := text_head h
  cases s with
  | nil => cases h1
  | cons x s => intro c' hc; cases hc; cases h1; exact h2

theorem solid_cons {c : Char} (h : isSpace c = false) (r : List Char) : Solid (c :: r) := by
  intro c' hc; cases hc; exact h

theorem items_head {s : List Char} {ts : List Tree} (h : Items s ts) (r : List Char) : (skip (s ++ r)).head? ≠ some ']' := by
  have key : ∀ {a x : List Char} {t : Tree} (y : List Char), Blank a → Text x t → (skip (a ++ (x ++ y))).head? ≠ some ']' := by
    intro a x t y ha hx
    rw [skip_blank ha (text_solid hx y)]
    obtain ⟨c, h1, -, h2, -⟩ := text_head hx
    cases x with
    | nil => cases h1
    | cons z x => cases h1; simpa using h2
  cases h with
  | one ha hx _ => rw [List.append_assoc, List.append_assoc]; exact key _ ha hx
  | cons ha hx _ _ => rw [List.append_assoc, List.append_assoc]; exact key _ ha hx

theorem members_head {s : List Char} {kvs : List (String × Tree)} (h : Members s kvs) (r : List Char) :
    ∃ x, skip (s ++ r) = '"' :: x := by
  cases h with
  | one ha _ _ _ _ _ => rw [List.append_assoc, List.cons_append, skip_blank ha (solid_cons (c := '"') (by decide) _)]; exact ⟨_, rfl⟩
  | cons ha _ _ _ _ _ _ => rw [List.append_assoc, List.cons_append, skip_blank ha (solid_cons (c := '"') (by decide) _)]; exact ⟨_, rfl⟩

/-- Nothing that could belong to a number follows. -/
def Ends (r : List Char) : Prop := ∀ c, r.head? = some c → inNumber c = false

theorem ends_cons {c : Char} (h : inNumber c = false) (r : List Char) : Ends (c :: r) := by
  intro c' hc; cases hc; exact h

theorem ends_blank {b r : List Char} (hb : Blank b) (h : Ends r) : Ends (b ++ r) := by
  cases b with
  | nil => exact h
  | cons c b =>
    intro c' hc
    cases hc
    rcases hb c (by simp) with rfl | rfl | rfl | rfl <;> decide

theorem value_number {fuel : Nat} {s r : List Char} {t : Tree} (h : Number s t) (hr : Ends r) :
    value (fuel + 1) (s ++ r) = some (t, r) := by
  obtain ⟨⟨c, h1, h2⟩, h3⟩ := number_chars h
  have ht : (s ++ r).takeWhile inNumber = s := by
    rw [List.takeWhile_append_of_pos h3]
    cases r with
    | nil => simp
    | cons c r => simp [hr c rfl]
  have hd : (s ++ r).dropWhile inNumber = r := by
    rw [List.dropWhile_append_of_pos h3]
    cases r with
    | nil => simp
    | cons c r => simp [hr c rfl]
  have hn := number_iff.mpr h
  have hh : (s ++ r).head? = some c := by
    cases s with
    | nil => cases h1
    | cons x s => exact h1
  have no : ∀ d : Char, d = c → d = '-' ∨ d.isDigit = true := by rintro d rfl; exact h2
  rw [value_succ]
  split
  case h_7 => rw [ht, hd, hn]; rfl
  all_goals
    rename_i e
    rw [e] at hh
    exact absurd (no _ (Option.some.inj hh)) (by decide)

/-- A text of the grammar is read. -/
theorem string_enough {s v : List Char} (h : Chars s v) (r : List Char) :
    string ((s ++ '"' :: r).length + 1) (s ++ '"' :: r) = some (v, r) := by
  refine string_complete h r _ ?_
  simp only [List.length_append, List.length_cons]
  omega

mutual
theorem text_complete : ∀ {s : List Char} {t : Tree}, Text s t → ∀ (r : List Char) (fuel : Nat), 2 * s.length ≤ fuel → Ends r →
    value fuel (s ++ r) = some (t, r)
  | _, _, .null, r, fuel, hf, _ => by
    obtain ⟨n, rfl⟩ : ∃ n, fuel = n + 1 := ⟨fuel - 1, by simp at hf; omega⟩
    rw [value_succ]; rfl
  | _, _, .true, r, fuel, hf, _ => by
    obtain ⟨n, rfl⟩ : ∃ n, fuel = n + 1 := ⟨fuel - 1, by simp at hf; omega⟩
    rw [value_succ]; rfl
  | _, _, .false, r, fuel, hf, _ => by
    obtain ⟨n, rfl⟩ : ∃ n, fuel = n + 1 := ⟨fuel - 1, by simp at hf; omega⟩
    rw [value_succ]; rfl
  | _, _, @Text.num s t h, r, fuel, hf, hr => by
    have hl : 1 ≤ s.length := by
      obtain ⟨⟨c, h1, -⟩, -⟩ := number_chars h
      cases s with
      | nil => cases h1
      | cons x s => simp
    obtain ⟨n, rfl⟩ : ∃ n, fuel = n + 1 := ⟨fuel - 1, by omega⟩
    exact value_number h hr
  | _, _, @Text.str s v h, r, fuel, hf, _ => by
    obtain ⟨n, rfl⟩ : ∃ n, fuel = n + 1 := ⟨fuel - 1, by simp at hf; omega⟩
    rw [value_succ, List.cons_append, List.append_assoc]
    show (string ((s ++ '"' :: r).length + 1) (s ++ '"' :: r)).map _ = _
    rw [string_enough h]
    rfl
  | _, _, @Text.noItems b hb, r, fuel, hf, _ => by
    obtain ⟨n, rfl⟩ : ∃ n, fuel = n + 1 := ⟨fuel - 1, by simp at hf; omega⟩
    have e : skip (b ++ ']' :: r) = ']' :: r := skip_blank hb (solid_cons (by decide) _)
    rw [value_succ, List.cons_append, List.append_assoc]
    simp only [List.cons_append, List.nil_append, e]
  | _, _, @Text.arr s ts h, r, fuel, hf, _ => by
    obtain ⟨n, rfl⟩ : ∃ n, fuel = n + 1 := ⟨fuel - 1, by simp at hf; omega⟩
    simp only [List.length_cons, List.length_append, List.length_nil] at hf
    have e := items_complete h r n (by omega)
    have hh := items_head h (']' :: r)
    rw [value_succ, List.cons_append, List.append_assoc]
    simp only [List.cons_append, List.nil_append]
    split
    · rename_i g; rw [g] at hh; exact absurd rfl hh
    · rw [e]; rfl
  | _, _, @Text.noMembers b hb, r, fuel, hf, _ => by
    obtain ⟨n, rfl⟩ : ∃ n, fuel = n + 1 := ⟨fuel - 1, by simp at hf; omega⟩
    have e : skip (b ++ '}' :: r) = '}' :: r := skip_blank hb (solid_cons (by decide) _)
    rw [value_succ, List.cons_append, List.append_assoc]
    simp only [List.cons_append, List.nil_append, e]
  | _, _, @Text.obj s ts h, r, fuel, hf, _ => by
    obtain ⟨n, rfl⟩ : ∃ n, fuel = n + 1 := ⟨fuel - 1, by simp at hf; omega⟩
    simp only [List.length_cons, List.length_append, List.length_nil] at hf
    have e := members_complete h r n (by omega)
    obtain ⟨x, hh⟩ := members_head h ('}' :: r)
    rw [value_succ, List.cons_append, List.append_assoc]
    simp only [List.cons_append, List.nil_append]
    split
    · rename_i g; rw [g] at hh; cases hh
    · rw [e]; rfl
theorem items_complete : ∀ {s : List Char} {ts : List Tree}, Items s ts → ∀ (r : List Char) (fuel : Nat), 2 * s.length + 1 ≤ fuel →
    items fuel (skip (s ++ ']' :: r)) = some (ts, r)
  | _, _, @JsonGrammar.Items.one a s b t ha h hb, r, fuel, hf => by
    obtain ⟨n, rfl⟩ : ∃ n, fuel = n + 1 := ⟨fuel - 1, by omega⟩
    simp only [List.length_append] at hf
    rw [List.append_assoc, List.append_assoc, skip_blank ha (text_solid h _), items_succ,
      text_complete h (b ++ ']' :: r) n (by omega) (ends_blank hb (ends_cons (by decide) _))]
    have e : skip (b ++ ']' :: r) = ']' :: r := skip_blank hb (solid_cons (by decide) _)
    simp only [Option.bind_some, e]
  | _, _, @JsonGrammar.Items.cons a s b x t ts ha h hb hx, r, fuel, hf => by
    obtain ⟨n, rfl⟩ : ∃ n, fuel = n + 1 := ⟨fuel - 1, by omega⟩
    simp only [List.length_append, List.length_cons] at hf
    rw [List.append_assoc, List.append_assoc, List.append_assoc, List.cons_append, skip_blank ha (text_solid h _), items_succ,
      text_complete h _ n (by omega) (ends_blank hb (ends_cons (by decide) _))]
    have e : skip (b ++ ',' :: (x ++ ']' :: r)) = ',' :: (x ++ ']' :: r) := skip_blank hb (solid_cons (by decide) _)
    simp only [Option.bind_some, e, items_complete hx r n (by omega), Option.map_some]
theorem members_complete : ∀ {s : List Char} {kvs : List (String × Tree)}, Members s kvs → ∀ (r : List Char) (fuel : Nat),
    2 * s.length + 1 ≤ fuel → members fuel (skip (s ++ '}' :: r)) = some (kvs, r)
  | _, _, @Members.one a k v b c s d t ha hk hb hc h hd, r, fuel, hf => by
    obtain ⟨n, rfl⟩ : ∃ n, fuel = n + 1 := ⟨fuel - 1, by omega⟩
    simp only [List.length_append, List.length_cons] at hf
    have e0 : a ++ '"' :: (k ++ '"' :: (b ++ ':' :: (c ++ (s ++ d)))) ++ '}' :: r =
        a ++ '"' :: (k ++ '"' :: (b ++ ':' :: (c ++ (s ++ (d ++ '}' :: r))))) := by simp
    have e1 : skip (b ++ ':' :: (c ++ (s ++ (d ++ '}' :: r)))) = ':' :: (c ++ (s ++ (d ++ '}' :: r))) :=
      skip_blank hb (solid_cons (by decide) _)
    have e2 : skip (c ++ (s ++ (d ++ '}' :: r))) = s ++ (d ++ '}' :: r) := skip_blank hc (text_solid h _)
    have e3 : skip (d ++ '}' :: r) = '}' :: r := skip_blank hd (solid_cons (by decide) _)
    rw [e0, skip_blank ha (solid_cons (by decide) _), members_succ]
    have e4 := text_complete h (d ++ '}' :: r) n (by omega) (ends_blank hd (ends_cons (by decide) _))
    simp only [string_enough hk, Option.bind_some, e1, e2, e4, e3]
  | _, _, @Members.cons a k v b c s d x t kvs ha hk hb hc h hd hx, r, fuel, hf => by
    obtain ⟨n, rfl⟩ : ∃ n, fuel = n + 1 := ⟨fuel - 1, by omega⟩
    simp only [List.length_append, List.length_cons] at hf
    have e0 : a ++ '"' :: (k ++ '"' :: (b ++ ':' :: (c ++ (s ++ (d ++ ',' :: x))))) ++ '}' :: r =
        a ++ '"' :: (k ++ '"' :: (b ++ ':' :: (c ++ (s ++ (d ++ ',' :: (x ++ '}' :: r)))))) := by simp
    have e1 : skip (b ++ ':' :: (c ++ (s ++ (d ++ ',' :: (x ++ '}' :: r))))) =
        ':' :: (c ++ (s ++ (d ++ ',' :: (x ++ '}' :: r)))) := skip_blank hb (solid_cons (by decide) _)
    have e2 : skip (c ++ (s ++ (d ++ ',' :: (x ++ '}' :: r)))) = s ++ (d ++ ',' :: (x ++ '}' :: r)) :=
      skip_blank hc (text_solid h _)
    have e3 : skip (d ++ ',' :: (x ++ '}' :: r)) = ',' :: (x ++ '}' :: r) := skip_blank hd (solid_cons (by decide) _)
    rw [e0, skip_blank ha (solid_cons (by decide) _), members_succ]
    have e4 := text_complete h (d ++ ',' :: (x ++ '}' :: r)) n (by omega) (ends_blank hd (ends_cons (by decide) _))
    simp only [string_enough hk, Option.bind_some, e1, e2, e4, e3, members_complete hx r n (by omega), Option.map_some]
end

theorem parse_complete {s : List Char} {t : Tree} (h : IsText s t) : parse s = some t := by
  obtain ⟨a, u, b, ha, hu, hb, rfl⟩ := h
  unfold parse
  have e : skip b = [] := by simpa using skip_blank (s := []) hb (by intro c hc; cases hc)
  rw [skip_blank ha (text_solid hu _), text_complete hu b _ (by simp only [List.length_append]; omega)
    (by simpa using ends_blank (r := []) hb (by intro c hc; cases hc))]
  simp [e]

theorem parse_sound {s : List Char} {t : Tree} (h : parse s = some t) : IsText s t := by
  unfold parse at h
  simp only [Option.bind_eq_some_iff] at h
  obtain ⟨⟨t', r⟩, h1, h2⟩ := h
  split at h2
  · rename_i g
    cases h2
    obtain ⟨a, e, ha⟩ := skip_split s
    obtain ⟨b, e2, hb⟩ := skip_split r
    obtain ⟨u, e3, hu⟩ := (sound _).1 _ _ _ h1
    dsimp only at g
    rw [g, List.append_nil] at e2
    rw [e2] at e3
    exact ⟨a, u, b, ha, hu, hb, by rw [e, e3]⟩
  · cases h2

end Json
end Drone
