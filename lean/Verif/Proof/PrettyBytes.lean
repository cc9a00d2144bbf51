/-
Facts about the bytes the printer writes: no scalar contains a line break.
-/
import Mathlib.Data.List.Basic
import Mathlib.Data.String.Basic
import Mathlib.Tactic.Common
import Verif.Model.Pretty
import Verif.Props.Script

namespace Drone
namespace Pretty

theorem utf8EncodeChar_low {c : Char} {b : UInt8} (hb : b.toNat < 128)
    (h : b ∈ String.utf8EncodeChar c) : c.toNat = b.toNat := by
  have hc : c.toNat = c.val.toNat := rfl
  unfold String.utf8EncodeChar at h
  simp only at h
  split at h
  · simp only [List.mem_singleton] at h
    subst h
    rw [UInt8.toNat_ofNat', hc]
    omega
  split at h
  · simp only [List.mem_cons, List.not_mem_nil, or_false] at h
    rcases h with rfl | rfl <;> rw [UInt8.toNat_ofNat'] at hb <;> omega
  split at h
  · simp only [List.mem_cons, List.not_mem_nil, or_false] at h
    rcases h with rfl | rfl | rfl <;> rw [UInt8.toNat_ofNat'] at hb <;> omega
  · simp only [List.mem_cons, List.not_mem_nil, or_false] at h
    rcases h with rfl | rfl | rfl | rfl <;> rw [UInt8.toNat_ofNat'] at hb <;> omega

theorem char_eq_of_toNat {c d : Char} (h : c.toNat = d.toNat) : c = d := by
  apply Char.ext
  apply UInt32.toNat_inj.1
  exact h

theorem utf8_append (s t : String) : utf8 (s ++ t) = utf8 s ++ utf8 t := by
  simp [utf8, String.toList_append]

/-- No line feed and no carriage return. -/
def Flat (b : Bytes) : Prop := (10 : UInt8) ∉ b ∧ (13 : UInt8) ∉ b

theorem Flat.append {a b : Bytes} (ha : Flat a) (hb : Flat b) : Flat (a ++ b) := by
  simp only [Flat, List.mem_append, not_or] at *
  exact ⟨⟨ha.1, hb.1⟩, ⟨ha.2, hb.2⟩⟩

theorem flat_nil : Flat [] := by simp [Flat]

theorem utf8_flat {s : String} (h1 : '\n' ∉ s.toList) (h2 : '\r' ∉ s.toList) : Flat (utf8 s) := by
  unfold Flat utf8
  constructor
  · intro h
    obtain ⟨c, hc, hb⟩ := List.mem_flatMap.1 h
    have := utf8EncodeChar_low (by decide) hb
    have : c = '\n' := char_eq_of_toNat this
    subst this; exact h1 hc
  · intro h
    obtain ⟨c, hc, hb⟩ := List.mem_flatMap.1 h
    have := utf8EncodeChar_low (by decide) hb
    have : c = '\r' := char_eq_of_toNat this
    subst this; exact h2 hc

theorem utf8_no_cr {s : String} (h2 : '\r' ∉ s.toList) : (13 : UInt8) ∉ utf8 s := by
  intro h
  obtain ⟨c, hc, hb⟩ := List.mem_flatMap.1 h
  have := utf8EncodeChar_low (by decide) hb
  have : c = '\r' := char_eq_of_toNat this
  subst this; exact h2 hc

theorem quoteChar_flat {p : Char → Bool} (hn : p '\n' = false) (hr : p '\r' = false) (c : Char) :
    '\n' ∉ Script.quoteChar p c ∧ '\r' ∉ Script.quoteChar p c := by
  refine ⟨quoteChar_no_nl hn c, ?_⟩
  rcases quoteChar_cases p c with ⟨h, h1⟩ | ⟨h, h1, _⟩ | ⟨e, t, h, _, he, ht⟩
  · rw [h]; rcases h1 with rfl | rfl <;> decide
  · rw [h]
    simp only [List.mem_singleton]
    rintro rfl
    rw [hr] at h1; simp at h1
  · rw [h]
    simp only [List.mem_cons, not_or]
    refine ⟨by decide, ?_, fun hm => ?_⟩
    · rintro rfl; revert he; decide
    · have := ht _ hm
      revert this; unfold Spec.isHex; decide

theorem needsQuote_mem {p : Char} {s : List Char} (h : needsQuote p s = false) :
    ∀ c ∈ s, isEscapeCode c = false := by
  induction s generalizing p with
  | nil => simp
  | cons b rest ih =>
    unfold needsQuote at h
    intro c hc
    by_cases h1 : isEscapeCode b = true
    · rw [if_pos h1] at h; simp at h
    · rw [if_neg h1] at h
      rcases List.mem_cons.1 hc with rfl | hc
      · simpa using h1
      · split at h
        · simp at h
        · split at h
          · simp at h
          · exact ih h c hc

theorem isQuoted_false {s : List Char} (h : isQuoted s = false) :
    s ≠ [] ∧ trimSpace s = s ∧ needsQuote '\x00' s = false ∧ s.getLast? ≠ some ':' ∧
    s.getD 0 '\x00' ∉ [',', '[', ']', '{', '}', '*', '"', '\'', '%', '@', '`', '|', '>', '#'] ∧
    ¬ (s.getD 0 '\x00' ∈ ['&', '!', '-', ':', '?'] ∧ s.getD 1 '\x00' = ' ') := by
  unfold isQuoted at h
  by_cases h0 : s.length = 0
  · rw [if_pos h0] at h; simp at h
  rw [if_neg h0] at h
  dsimp only at h
  by_cases h1 : trimSpace s ≠ s
  · rw [if_pos h1] at h; simp at h
  rw [if_neg h1] at h
  have h1' : trimSpace s = s := not_not.1 h1
  rw [h1'] at h
  by_cases h2 : s.getD 0 '\x00' ∈ [',', '[', ']', '{', '}', '*', '"', '\'', '%', '@', '`', '|', '>', '#']
  · rw [if_pos h2] at h; simp at h
  rw [if_neg h2] at h
  by_cases h3 : s.getD 0 '\x00' ∈ ['&', '!', '-', ':', '?'] ∧ s.getD 1 '\x00' = ' '
  · rw [if_pos h3] at h; simp at h
  rw [if_neg h3] at h
  by_cases h4 : needsQuote '\x00' s = true
  · rw [if_pos h4] at h; simp at h
  rw [if_neg h4] at h
  refine ⟨fun hs => h0 (by simp [hs]), h1', by simpa using h4, by simpa using h, h2, h3⟩

theorem encode_flat (L : PrettyLib) (v : String) : Flat (utf8 (encode L v)) := by
  unfold encode
  by_cases h0 : v.length = 0
  · rw [if_pos h0]; exact utf8_flat (by decide) (by decide)
  rw [if_neg h0]
  by_cases h1 : isQuoted v.toList = true
  · rw [if_pos h1]
    have key : ∀ c ∈ Script.quote L.isPrint v.toList, c ≠ '\n' ∧ c ≠ '\r' := by
      intro c hc
      unfold Script.quote at hc
      simp only [List.mem_cons, List.mem_append, List.mem_flatMap, List.not_mem_nil, or_false] at hc
      rcases hc with rfl | ⟨a, _, ha⟩ | rfl
      · decide
      · obtain ⟨q1, q2⟩ := quoteChar_flat L.print_nl L.print_cr a
        exact ⟨fun h => q1 (h ▸ ha), fun h => q2 (h ▸ ha)⟩
      · decide
    apply utf8_flat
    · rw [String.toList_ofList]; exact fun h => (key _ h).1 rfl
    · rw [String.toList_ofList]; exact fun h => (key _ h).2 rfl
  · rw [if_neg h1]
    obtain ⟨_, _, h2, _⟩ := isQuoted_false (by simpa using h1)
    have := needsQuote_mem h2
    exact utf8_flat (fun h => by simpa [isEscapeCode] using this _ h)
      (fun h => by simpa [isEscapeCode] using this _ h)

theorem toString_int_flat (i : Int) : Flat (utf8 (toString i)) := by
  have nat : ∀ n : Nat, ∀ c ∈ (Nat.repr n).toList, c.isDigit = true := by
    intro n c hc
    unfold Nat.repr at hc
    rw [String.toList_ofList] at hc
    exact Nat.isDigit_of_mem_toDigits (by decide) (by decide) hc
  have dig : ∀ n : Nat, '\n' ∉ (Nat.repr n).toList ∧ '\r' ∉ (Nat.repr n).toList :=
    fun n => ⟨fun h => by simpa using nat n _ h, fun h => by simpa using nat n _ h⟩
  show Flat (utf8 (Int.repr i))
  cases i with
  | ofNat m => exact utf8_flat (dig m).1 (dig m).2
  | negSucc m =>
    show Flat (utf8 ("-" ++ m.succ.repr))
    rw [utf8_append]
    exact Flat.append (utf8_flat (by decide) (by decide)) (utf8_flat (dig _).1 (dig _).2)

theorem padding_flat (d : Int) : Flat (Writer.padding d) := by
  have : ∀ b ∈ Writer.padding d, b = 32 := by
    intro b hb
    unfold Writer.padding at hb
    obtain ⟨l, hl, hb⟩ := List.mem_flatten.1 hb
    obtain ⟨_, rfl⟩ := List.mem_replicate.1 hl
    simpa using hb
  exact ⟨fun h => by simpa using this _ h, fun h => by simpa using this _ h⟩

theorem padding_pos {d : Int} (h : 1 ≤ d) : ∃ t, Writer.padding d = 32 :: t := by
  obtain ⟨n, hn⟩ : ∃ n, d.toNat = n + 1 := ⟨d.toNat - 1, by omega⟩
  refine ⟨32 :: Writer.padding n, ?_⟩
  simp [Writer.padding, hn, List.replicate_succ]

theorem padding_zero {d : Int} (h : d ≤ 0) : Writer.padding d = [] := by
  have : d.toNat = 0 := by omega
  simp [Writer.padding, this]

end Pretty
end Drone
