/- C45: random identifiers. -/
import Verif.Model.Rand
import Mathlib.Tactic.Common
import Mathlib.Data.List.Basic

namespace Drone
namespace Spec

/-- The alphabet of identifiers. -/
def idAlphabet (c : Char) : Prop := ('a' ≤ c ∧ c ≤ 'z') ∨ ('0' ≤ c ∧ c ≤ '9')

/-- A byte is used iff it is below the largest multiple of 36 that fits a byte. -/
def usable (b : UInt8) : Bool := b.toNat < 252

/-- The character a usable byte stands for: `a`..`z`, then `0`..`9`, round and round. -/
def idChar (b : UInt8) : Char :=
  let k := b.toNat % 36
  if k < 26 then Char.ofNat ('a'.toNat + k) else Char.ofNat ('0'.toNat + (k - 26))

end Spec
namespace Rand

theorem char_eq : ∀ b : UInt8, chars.getD (b.toNat % chars.length) ' ' = Spec.idChar b := by
  have : ∀ k : Fin 36, chars.getD k.val ' ' =
      (if k.val < 26 then Char.ofNat ('a'.toNat + k.val) else Char.ofNat ('0'.toNat + (k.val - 26))) := by
    decide
  intro b
  exact this ⟨b.toNat % 36, Nat.mod_lt _ (by decide)⟩

theorem maxrb_eq (b : UInt8) : (b.toNat > maxrb) ↔ ¬ Spec.usable b = true := by
  have : maxrb = 251 := by decide
  rw [this]
  unfold Spec.usable
  rw [decide_eq_true_eq]
  omega

/-- The characters the bytes `bs` stand for. -/
def chs (bs : List UInt8) : List Char := (bs.filter Spec.usable).map Spec.idChar

theorem scanBlock_spec : ∀ (bs : List UInt8) (b : List Char), b.length < length →
    scanBlock b bs =
      if (b ++ chs bs).length < length then .more (b ++ chs bs)
      else .done ((b ++ chs bs).take length)
  | [], b, hb => by simp [scanBlock, chs, hb]
  | x :: xs, b, hb => by
    unfold scanBlock
    simp only
    by_cases hx : Spec.usable x = true
    · have h1 : ¬ x.toNat > maxrb := fun h => (maxrb_eq x).mp h hx
      rw [if_neg h1, char_eq]
      have hc : chs (x :: xs) = Spec.idChar x :: chs xs := by
        simp [chs, hx]
      by_cases hl : (b ++ [Spec.idChar x]).length = length
      · rw [if_pos hl, hc]
        rw [if_neg (by simp at hl ⊢; omega)]
        rw [show b ++ Spec.idChar x :: chs xs = (b ++ [Spec.idChar x]) ++ chs xs by simp,
          List.take_append_of_le_length (by omega), ← hl, List.take_length]
      · rw [if_neg hl, scanBlock_spec xs _ (by simp at hl ⊢; omega), hc]
        simp
    · have h1 : x.toNat > maxrb := (maxrb_eq x).mpr hx
      rw [if_pos h1, scanBlock_spec xs b hb]
      have hc : chs (x :: xs) = chs xs := by simp [chs, hx]
      rw [hc]

theorem readBlocks_spec : ∀ (bss : List (List UInt8)) (b : List Char), b.length < length →
    readBlocks b bss =
      if (b ++ chs bss.flatten).length < length then .more (b ++ chs bss.flatten)
      else .done ((b ++ chs bss.flatten).take length)
  | [], b, hb => by simp [readBlocks, chs, hb]
  | x :: xs, b, hb => by
    unfold readBlocks
    rw [scanBlock_spec x b hb]
    have hc : chs (x :: xs).flatten = chs x ++ chs xs.flatten := by simp [chs]
    rw [hc]
    by_cases hl : (b ++ chs x).length < length
    · rw [if_pos hl]
      simp only
      rw [readBlocks_spec xs _ hl]
      simp
    · rw [if_neg hl]
      simp only
      rw [if_neg (by simp at hl ⊢; omega)]
      rw [← List.append_assoc (as := b), List.take_append_of_le_length (l₁ := b ++ chs x) (by omega)]

end Rand

open Rand

/-- C45, the result: the identifier is returned exactly when 32 usable bytes were
read, and consists of the characters of the first 32 usable bytes, however the
source was cut into blocks. -/
theorem C45_string (blocks : List (List UInt8)) (s : List Char) :
    Rand.string blocks = .done s ↔
      32 ≤ (blocks.flatten.filter Spec.usable).length ∧
      s = ((blocks.flatten.filter Spec.usable).take 32).map Spec.idChar := by
  unfold Rand.string
  rw [readBlocks_spec _ _ (by decide)]
  simp only [List.nil_append, chs, List.length_map]
  have : length = 32 := rfl
  rw [this]
  by_cases h : (blocks.flatten.filter Spec.usable).length < 32
  · rw [if_pos h]
    exact ⟨fun e => by simp at e, fun e => by omega⟩
  · rw [if_neg h]
    simp only [Out.done.injEq, List.map_take]
    constructor
    · intro e; exact ⟨by omega, e.symm⟩
    · intro e; exact e.2.symm

/-- C45, chunking: only the concatenation of the blocks matters. -/
theorem C45_chunking (xs ys : List (List UInt8)) (h : xs.flatten = ys.flatten) (s : List Char) :
    Rand.string xs = .done s ↔ Rand.string ys = .done s := by
  rw [C45_string, C45_string, h]

/-- C45, shape: exactly 32 characters from `a`-`z` and `0`-`9`. -/
theorem C45_shape (blocks : List (List UInt8)) (s : List Char)
    (h : Rand.string blocks = .done s) : s.length = 32 ∧ ∀ c ∈ s, Spec.idAlphabet c := by
  obtain ⟨hl, rfl⟩ := (C45_string blocks s).mp h
  refine ⟨by rw [List.length_map, List.length_take]; omega, ?_⟩
  intro c hc
  obtain ⟨b, _, rfl⟩ := List.mem_map.mp hc
  have : ∀ k : Fin 36, Spec.idAlphabet
      (if k.val < 26 then Char.ofNat ('a'.toNat + k.val) else Char.ofNat ('0'.toNat + (k.val - 26))) := by
    unfold Spec.idAlphabet
    decide
  exact this ⟨b.toNat % 36, Nat.mod_lt _ (by decide)⟩

/-- C45, no bias: each character of the alphabet is produced by exactly seven of
the 256 byte values. -/
theorem C45_uniform (c : Char) (hc : c ∈ Rand.chars) :
    (((List.range 256).map UInt8.ofNat).filter
      fun b => Spec.usable b && Spec.idChar b = c).length = 7 := by
  revert c
  decide +kernel

/-- C45, prompt: once 32 usable bytes were read the identifier is returned, and
reading further blocks would not change it. -/
theorem C45_prompt (blocks rest : List (List UInt8))
    (h : 32 ≤ (blocks.flatten.filter Spec.usable).length) :
    ∃ s, Rand.string blocks = .done s ∧ Rand.string (blocks ++ rest) = .done s := by
  refine ⟨_, (C45_string blocks _).mpr ⟨h, rfl⟩, (C45_string _ _).mpr ⟨?_, ?_⟩⟩
  · rw [List.flatten_append, List.filter_append, List.length_append]; omega
  · rw [List.flatten_append, List.filter_append, List.take_append_of_le_length h]

/-- Two blocks, the second needed, with unusable bytes in between. -/
example : Rand.string [List.replicate 20 0 ++ List.replicate 20 255, List.replicate 40 27] =
    .done (List.replicate 20 'a' ++ List.replicate 12 '1') := by decide +kernel

/-- Not enough usable bytes: nothing is returned yet. -/
example : Rand.string [List.replicate 40 252] = .more [] := by decide +kernel

end Drone
