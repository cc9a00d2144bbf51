/-
The layout of what the printer writes: every line after the first is empty, starts
with a space, starts with "- ", or starts with one of the fixed top level keys.
`Adds`, `AddsO` and `AddsV` are the invariants of the printing functions.
-/
import Mathlib.Data.List.Basic
import Mathlib.Tactic.Common
import Verif.Spec.Lines
import Verif.Proof.PrettyBytes

namespace Drone
namespace Pretty
open Spec

/-- The keys written without indentation. -/
def topKeys : List String :=
  ["version", "kind", "type", "name", "platform", "clone", "concurrency", "workspace", "steps",
   "services", "volumes", "image_pull_secrets", "node", "trigger", "depends_on", "spec", "hmac",
   "data", "get"]

/-- How a printed line may begin. -/
def Safe (l : Bytes) : Prop :=
  l = [] ∨ (∃ r, l = 32 :: r) ∨ (∃ r, l = 45 :: 32 :: r) ∨ ∃ k ∈ topKeys, ∃ r, l = utf8 k ++ 58 :: r

theorem Safe.append {l : Bytes} (h : Safe l) (hne : l ≠ []) (f : Bytes) : Safe (l ++ f) := by
  rcases h with h | ⟨r, rfl⟩ | ⟨r, rfl⟩ | ⟨k, hk, r, rfl⟩
  · exact absurd h hne
  · exact .inr (.inl ⟨r ++ f, rfl⟩)
  · exact .inr (.inr (.inl ⟨r ++ f, rfl⟩))
  · exact .inr (.inr (.inr ⟨k, hk, r ++ f, by simp⟩))

theorem topKeys_head : ∀ k ∈ topKeys, ∃ a r, utf8 k = a :: r ∧ a ≠ 45 ∧ a ≠ 46 := by
  have : ∀ k ∈ topKeys, (utf8 k).head? ≠ none ∧ (utf8 k).head? ≠ some 45 ∧ (utf8 k).head? ≠ some 46 := by
    decide
  intro k hk
  obtain ⟨h1, h2, h3⟩ := this k hk
  cases h : utf8 k with
  | nil => rw [h] at h1; simp at h1
  | cons a r =>
    rw [h] at h2 h3
    exact ⟨a, r, rfl, by simpa using h2, by simpa using h3⟩

theorem Safe.not_sep {l : Bytes} (h : Safe l) : ¬ SepLine l := by
  rintro ⟨r, rfl⟩
  rcases h with h | ⟨s, h⟩ | ⟨s, h⟩ | ⟨k, hk, s, h⟩
  · simp at h
  · simp at h
  · simp at h
  · obtain ⟨a, t, ha, h1, _⟩ := topKeys_head k hk
    rw [ha] at h
    simp at h
    exact h1 h.1.symm

theorem Safe.not_term {l : Bytes} (h : Safe l) : ¬ TermLine l := by
  rintro ⟨r, rfl⟩
  rcases h with h | ⟨s, h⟩ | ⟨s, h⟩ | ⟨k, hk, s, h⟩
  · simp at h
  · simp at h
  · simp at h
  · obtain ⟨a, t, ha, _, h1⟩ := topKeys_head k hk
    rw [ha] at h
    simp at h
    exact h1 h.1.symm

/-- What is said about the lines: `cr` when there is no carriage return, `late` when there is neither
the key `version` nor the key `kind`. -/
structure Lay where
  cr : Prop
  late : Prop

/-- How a printed line may begin where `version` and `kind` may be excluded. -/
def Begins (C : Lay) (l : Bytes) : Prop :=
  l = [] ∨ (∃ r, l = 32 :: r) ∨ (∃ r, l = 45 :: 32 :: r) ∨
    ∃ k ∈ topKeys, ∃ r, l = utf8 k ++ 58 :: r ∧ (C.late → k ≠ "version" ∧ k ≠ "kind")

theorem Begins.safe {C : Lay} {l : Bytes} (h : Begins C l) : Safe l :=
  h.imp id (Or.imp id (Or.imp id fun ⟨k, hk, r, h, _⟩ => ⟨k, hk, r, h⟩))

theorem Begins.append {C : Lay} {l : Bytes} (h : Begins C l) (hne : l ≠ []) (f : Bytes) : Begins C (l ++ f) := by
  rcases h with h | ⟨r, rfl⟩ | ⟨r, rfl⟩ | ⟨k, hk, r, rfl, hc⟩
  · exact absurd h hne
  · exact .inr (.inl ⟨r ++ f, rfl⟩)
  · exact .inr (.inr (.inl ⟨r ++ f, rfl⟩))
  · exact .inr (.inr (.inr ⟨k, hk, r ++ f, by simp, hc⟩))

/-- Complete new lines, each after a line feed. -/
def Blk (C : Lay) (o : Bytes) : Prop :=
  ∃ ls : List Bytes, o = ls.flatMap (10 :: ·) ∧ (∀ l ∈ ls, (10 : UInt8) ∉ l ∧ Begins C l) ∧ (C.cr → (13 : UInt8) ∉ o)

/-- New lines of which the last one is not empty and may be continued. -/
def OBlk (C : Lay) (o : Bytes) : Prop :=
  ∃ (ls : List Bytes) (l : Bytes), o = ls.flatMap (10 :: ·) ++ 10 :: l ∧ l ≠ [] ∧
    (∀ l ∈ ls, (10 : UInt8) ∉ l ∧ Begins C l) ∧ (10 : UInt8) ∉ l ∧ Begins C l ∧ (C.cr → (13 : UInt8) ∉ o)

variable {C : Lay}

theorem Blk.nil : Blk C [] := ⟨[], rfl, by simp, by simp⟩

theorem Blk.append {a b : Bytes} (ha : Blk C a) (hb : Blk C b) : Blk C (a ++ b) := by
  obtain ⟨ls, rfl, h1, h2⟩ := ha
  obtain ⟨ms, rfl, h3, h4⟩ := hb
  refine ⟨ls ++ ms, by simp, ?_, ?_⟩
  · intro l hl
    rcases List.mem_append.1 hl with hl | hl
    exacts [h1 l hl, h3 l hl]
  · intro hc hm
    rcases List.mem_append.1 hm with hm | hm
    exacts [h2 hc hm, h4 hc hm]

theorem OBlk.blk {a : Bytes} (ha : OBlk C a) : Blk C a := by
  obtain ⟨ls, l, rfl, _, h1, h2, h3, h4⟩ := ha
  refine ⟨ls ++ [l], by simp, ?_, h4⟩
  intro x hx
  rcases List.mem_append.1 hx with hx | hx
  · exact h1 x hx
  · rw [List.mem_singleton.1 hx]; exact ⟨h2, h3⟩

/-- Continue the last line by bytes without a line feed. -/
theorem OBlk.cont {a f : Bytes} (ha : OBlk C a) (hf : (10 : UInt8) ∉ f) (hc : C.cr → (13 : UInt8) ∉ f) :
    OBlk C (a ++ f) := by
  obtain ⟨ls, l, rfl, h0, h1, h2, h3, h4⟩ := ha
  refine ⟨ls, l ++ f, by simp, by simp [h0], h1, by simp [h2, hf], h3.append h0 f, ?_⟩
  intro c hm
  rcases List.mem_append.1 hm with hm | hm
  exacts [h4 c hm, hc c hm]

theorem Blk.line {l : Bytes} (h : (10 : UInt8) ∉ l) (hs : Begins C l) (hc : C.cr → (13 : UInt8) ∉ l) :
    Blk C (10 :: l) := ⟨[l], by simp, by simp [h, hs], by simpa using hc⟩

theorem OBlk.line {l : Bytes} (h0 : l ≠ []) (h : (10 : UInt8) ∉ l) (hs : Begins C l)
    (hc : C.cr → (13 : UInt8) ∉ l) : OBlk C (10 :: l) :=
  ⟨[], l, by simp, h0, by simp, h, hs, by simpa using hc⟩

/-- A condition on depth and kind of writer. -/
abbrev Ctx := Int → Bool → Prop
/-- Indented. -/
def Pos : Ctx := fun d _ => 1 ≤ d
/-- At the top level. -/
def Top : Ctx := fun d i => d = 0 ∧ i = false
/-- Anywhere. -/
def Any : Ctx := fun _ _ => True

/-- Complete lines are added. -/
structure Adds (C : Lay) (G : Ctx) (w w' : Writer) : Prop where
  depth : w'.depth = w.depth
  index : w'.index.isSome = w.index.isSome
  zero : w.zero = false → w'.zero = false
  out : G w.depth w.index.isSome → ∃ o, w'.buf = w.buf ++ o ∧ Blk C o

/-- Lines are added of which the last one may be continued. -/
structure AddsO (C : Lay) (G : Ctx) (w w' : Writer) : Prop where
  depth : w'.depth = w.depth
  index : w'.index.isSome = w.index.isSome
  zero : w'.zero = w.zero
  out : G w.depth w.index.isSome → ∃ o, w'.buf = w.buf ++ o ∧ OBlk C o

/-- The current line is continued and then complete lines are added. -/
structure AddsV (C : Lay) (G : Ctx) (w w' : Writer) : Prop where
  depth : w'.depth = w.depth
  index : w'.index = w.index
  zero : w'.zero = w.zero
  out : G w.depth w.index.isSome → ∃ f b, w'.buf = w.buf ++ (f ++ b) ∧ Flat f ∧ Blk C b

variable {G : Ctx} {w w' w'' : Writer}

theorem Adds.refl : Adds C G w w := ⟨rfl, rfl, id, fun _ => ⟨[], by simp, .nil⟩⟩

theorem Adds.trans (h : Adds C G w w') (h' : Adds C G w' w'') : Adds C G w w'' := by
  refine ⟨h'.depth.trans h.depth, h'.index.trans h.index, fun z => h'.zero (h.zero z), fun g => ?_⟩
  obtain ⟨o, ho, b⟩ := h.out g
  obtain ⟨o', ho', b'⟩ := h'.out (by rw [h.depth, h.index]; exact g)
  exact ⟨o ++ o', by rw [ho', ho, List.append_assoc], b.append b'⟩

theorem Adds.weaken {G' : Ctx} (h : Adds C G w w') (hg : ∀ d i, G' d i → G d i) : Adds C G' w w' :=
  ⟨h.depth, h.index, h.zero, fun g => h.out (hg _ _ g)⟩

theorem AddsO.adds (h : AddsO C G w w') : Adds C G w w' :=
  ⟨h.depth, h.index, fun z => h.zero.trans z, fun g =>
    let ⟨o, ho, b⟩ := h.out g; ⟨o, ho, b.blk⟩⟩

theorem AddsO.weaken {G' : Ctx} (h : AddsO C G w w') (hg : ∀ d i, G' d i → G d i) : AddsO C G' w w' :=
  ⟨h.depth, h.index, h.zero, fun g => h.out (hg _ _ g)⟩

theorem AddsO.bytes (h : AddsO C G w w') {f : Bytes} (hf : Flat f) : AddsO C G w (w'.bytes f) := by
  refine ⟨h.depth, h.index, h.zero, fun g => ?_⟩
  obtain ⟨o, ho, b⟩ := h.out g
  exact ⟨o ++ f, by simp [Writer.bytes, ho], b.cont hf.1 (fun _ => hf.2)⟩

/-- A value after a key. -/
theorem AddsO.value (h : AddsO C G w w') (h' : AddsV C G w' w'') : Adds C G w w'' := by
  refine ⟨h'.depth.trans h.depth, by rw [h'.index, h.index], fun z => by rw [h'.zero, h.zero, z], fun g => ?_⟩
  obtain ⟨o, ho, b⟩ := h.out g
  obtain ⟨f, b', ho', hf, hb⟩ := h'.out (by rw [h.depth, h.index]; exact g)
  exact ⟨o ++ f ++ b', by rw [ho', ho]; simp [List.append_assoc],
    ((b.cont hf.1 (fun _ => hf.2)).blk).append hb⟩

theorem AddsO.then (h : AddsO C G w w') (h' : Adds C G w' w'') : Adds C G w w'' := h.adds.trans h'

theorem AddsV.weaken {G' : Ctx} (h : AddsV C G w w') (hg : ∀ d i, G' d i → G d i) : AddsV C G' w w' :=
  ⟨h.depth, h.index, h.zero, fun g => h.out (hg _ _ g)⟩

theorem AddsV.refl : AddsV C G w w := ⟨rfl, rfl, rfl, fun _ => ⟨[], [], by simp, flat_nil, .nil⟩⟩

theorem AddsV.of_bytes {f : Bytes} (hf : Flat f) : AddsV C G w (w.bytes f) :=
  ⟨rfl, rfl, rfl, fun _ => ⟨f, [], by simp [Writer.bytes], hf, .nil⟩⟩

/-- Continue the line and then a value. -/
theorem AddsV.pre {f : Bytes} (hf : Flat f) (h : AddsV C G (w.bytes f) w') : AddsV C G w w' := by
  refine ⟨h.depth, h.index, h.zero, fun g => ?_⟩
  obtain ⟨f', b, ho, hf', hb⟩ := h.out g
  exact ⟨f ++ f', b, by simp [ho, Writer.bytes, List.append_assoc], hf.append hf', hb⟩

/-- A value and then complete lines which leave the writer as it is. -/
theorem AddsV.then (h : AddsV C G w w') (h' : Adds C G w' w'') (hi : w''.index = w'.index)
    (hz : w''.zero = w'.zero) : AddsV C G w w'' := by
  refine ⟨h'.depth.trans h.depth, hi.trans h.index, hz.trans h.zero, fun g => ?_⟩
  obtain ⟨f, b, ho, hf, hb⟩ := h.out g
  obtain ⟨o, ho', b'⟩ := h'.out (by rw [h.depth, h.index]; exact g)
  exact ⟨f, b ++ o, by rw [ho', ho]; simp [List.append_assoc], hf, hb.append b'⟩

/-- A line feed, the padding and a value. -/
theorem AddsV.newline (h : AddsV C Pos (w.str "\n").indent w') : Adds C Pos w w' := by
  refine ⟨h.depth, by rw [h.index]; rfl, fun z => by rw [h.zero]; exact z, fun g => ?_⟩
  obtain ⟨f, b, ho, hf, hb⟩ := h.out g
  obtain ⟨t, ht⟩ := padding_pos g
  have hp := padding_flat w.depth
  have ho' : w'.buf = w.buf ++ (10 :: (Writer.padding w.depth ++ f) ++ b) := by
    rw [ho]
    simp [Writer.indent, Writer.str, Writer.bytes, utf8, String.utf8EncodeChar]
  have hs : Begins C (Writer.padding w.depth ++ f) := by
    rw [ht]; exact .inr (.inl ⟨t ++ f, rfl⟩)
  exact ⟨_, ho', (Blk.line (by simp [hp.1, hf.1]) hs (fun _ => by simp [hp.2, hf.2])).append hb⟩

theorem AddsV.inc_dec (h : AddsV C Pos w.inc w') (hg : ∀ d i, G d i → 1 ≤ d + 1) :
    AddsV C G w w'.dec := by
  refine ⟨?_, h.index, h.zero, fun g => ?_⟩
  · have := h.depth
    simp only [Writer.inc] at this
    simp only [Writer.dec, this]; omega
  · obtain ⟨f, b, ho, hf, hb⟩ := h.out (hg _ _ g)
    exact ⟨f, b, ho, hf, hb⟩

theorem Adds.inc_dec (h : Adds C Pos w.inc w') (hg : ∀ d i, G d i → 1 ≤ d + 1) :
    Adds C G w w'.dec := by
  refine ⟨?_, h.index, h.zero, fun g => ?_⟩
  · have := h.depth
    simp only [Writer.inc] at this
    simp only [Writer.dec, this]; omega
  · obtain ⟨o, ho, hb⟩ := h.out (hg _ _ g)
    exact ⟨o, ho, hb⟩

theorem pos_inc : ∀ d i, Pos d i → 1 ≤ d + 1 := fun d _ h => by unfold Pos at h; omega
theorem top_inc : ∀ d i, Top d i → 1 ≤ d + 1 := fun d _ h => by unfold Top at h; omega

/-- An empty line. -/
theorem adds_nl : Adds C G w (w.str "\n") :=
  ⟨rfl, rfl, id, fun _ => ⟨[10], rfl, Blk.line (by simp) (.inl rfl) (by simp)⟩⟩

/-- An `indexWriter` around `w`. -/
theorem adds_seq {f : Writer → Writer} (hg : ∀ d i, G d i → 1 ≤ d + 1)
    (h : ∀ s : Writer, s.zero = false → s.depth = w.depth → Adds C (fun d _ => 1 ≤ d + 1) s (f s)) :
    Adds C G w (w.seq f) := by
  have h := h { w with zero := false, index := some 0 } rfl rfl
  refine ⟨h.depth, rfl, id, fun g => ?_⟩
  obtain ⟨o, ho, hb⟩ := h.out (hg _ _ g)
  exact ⟨o, ho, hb⟩

/-! ### Tags -/

theorem str_bytes (w : Writer) (s : String) : w.str s = w.bytes (utf8 s) := rfl
theorem bytes_bytes (w : Writer) (a b : Bytes) : (w.bytes a).bytes b = w.bytes (a ++ b) := by
  simp [Writer.bytes]

theorem flat_of_decide {s : String} (h : ('\n' ∉ s.toList ∧ '\r' ∉ s.toList) := by decide) :
    Flat (utf8 s) := utf8_flat h.1 h.2

/-- Two writers that differ in the number of keys written only. -/
theorem writeTag_pos (L : PrettyLib) (w : Writer) (k : String) : AddsO C Pos w (writeTag L w k) := by
  have hp := padding_flat w.depth
  have hp' := padding_flat (w.depth - 1)
  have he := encode_flat L k
  unfold writeTag
  dsimp only [Writer.str, Writer.bytes]
  rcases hi : w.index with _ | i
  · refine ⟨rfl, by simp [writeEncode, Writer.str, Writer.bytes, Writer.indent, hi], rfl, fun g => ?_⟩
    obtain ⟨t, ht⟩ := padding_pos g
    refine ⟨10 :: (Writer.padding w.depth ++ (utf8 (encode L k) ++ [58])), ?_, ?_⟩
    · simp [writeEncode, Writer.str, Writer.bytes, Writer.indent, utf8, String.utf8EncodeChar]
    · refine OBlk.line (by simp) ?_ ?_ ?_
      · simp [hp.1, he.1]
      · rw [ht]; exact .inr (.inl ⟨_, rfl⟩)
      · intro _; simp [hp.2, he.2]
  · dsimp only
    by_cases h0 : i = 0
    · rw [if_pos h0]
      refine ⟨?_, by simp [hi], rfl, fun g => ?_⟩
      · simp [writeEncode, Writer.str, Writer.bytes, Writer.indent, Writer.dec, Writer.inc]
      refine ⟨10 :: (Writer.padding (w.depth - 1) ++ (45 :: 32 :: (utf8 (encode L k) ++ [58]))), ?_, ?_⟩
      · simp [writeEncode, Writer.str, Writer.bytes, Writer.indent, Writer.dec, Writer.inc, utf8,
          String.utf8EncodeChar]
      · refine OBlk.line (by simp) ?_ ?_ ?_
        · simp [hp'.1, he.1]
        · by_cases hd : 1 ≤ w.depth - 1
          · obtain ⟨t, ht⟩ := padding_pos hd
            rw [ht]; exact .inr (.inl ⟨_, rfl⟩)
          · rw [padding_zero (by omega)]; exact .inr (.inr (.inl ⟨_, rfl⟩))
        · intro _; simp [hp'.2, he.2]
    · rw [if_neg h0]
      refine ⟨rfl, by simp [hi], rfl, fun g => ?_⟩
      obtain ⟨t, ht⟩ := padding_pos g
      refine ⟨10 :: (Writer.padding w.depth ++ (utf8 (encode L k) ++ [58])), ?_, ?_⟩
      · simp [writeEncode, Writer.str, Writer.bytes, Writer.indent, utf8, String.utf8EncodeChar]
      · refine OBlk.line (by simp) ?_ ?_ ?_
        · simp [hp.1, he.1]
        · rw [ht]; exact .inr (.inl ⟨_, rfl⟩)
        · intro _; simp [hp.2, he.2]

theorem encode_top (L : PrettyLib) {k : String} (hk : k ∈ topKeys) : encode L k = k := by
  have : ∀ k ∈ topKeys, k.length ≠ 0 ∧ isQuoted k.toList = false := by decide
  unfold encode
  rw [if_neg (this k hk).1, (this k hk).2]
  rfl

theorem writeTag_top (L : PrettyLib) (w : Writer) {k : String} (hk : k ∈ topKeys)
    (hl : C.late → k ≠ "version" ∧ k ≠ "kind" := by exact fun _ => by decide) :
    AddsO C Top w (writeTag L w k) := by
  have h0 := writeTag_pos (C := C) L w k
  refine ⟨h0.depth, h0.index, h0.zero, fun g => ?_⟩
  have he := encode_flat L k
  obtain ⟨g1, g2⟩ := g
  have hi : w.index = none := by simpa using g2
  refine ⟨10 :: (utf8 k ++ [58]), ?_, ?_⟩
  · simp [writeTag, writeEncode, Writer.str, Writer.bytes, Writer.indent, utf8, String.utf8EncodeChar, hi,
      g1, padding_zero, encode_top L hk]
  · rw [encode_top L hk] at he
    refine OBlk.line (by simp) ?_ ?_ ?_
    · simp [he.1]
    · exact .inr (.inr (.inr ⟨k, hk, [], rfl, hl⟩))
    · intro _; simp [he.2]

/-! ### Values -/

theorem writeEncode_v (L : PrettyLib) (w : Writer) (s : String) : AddsV C G w (writeEncode L w s) :=
  AddsV.of_bytes (encode_flat L s)

theorem seqStrLoop_state (L : PrettyLib) (b : Bool) (w : Writer) (l : List String) :
    (seqStrLoop L b w l).index = w.index ∧ (seqStrLoop L b w l).zero = w.zero ∧
    (seqStrLoop L b w l).depth = w.depth := by
  induction l generalizing b w with
  | nil => exact ⟨rfl, rfl, rfl⟩
  | cons v vs ih =>
    unfold seqStrLoop
    obtain ⟨h1, h2, h3⟩ := ih false
      (writeEncode L (((if b then w else (w.str "\n").indent).str "-").str " ") v)
    refine ⟨h1.trans ?_, h2.trans ?_, h3.trans ?_⟩ <;> cases b <;> rfl

/-- The items after the first. -/
theorem seqStrLoop_false (L : PrettyLib) (w : Writer) (l : List String) :
    Adds C Any w (seqStrLoop L false w l) := by
  induction l generalizing w with
  | nil => exact .refl
  | cons v vs ih =>
    unfold seqStrLoop
    refine Adds.trans ?_ (ih _)
    refine ⟨rfl, rfl, id, fun _ => ?_⟩
    have hp := padding_flat w.depth
    have he := encode_flat L v
    refine ⟨10 :: (Writer.padding w.depth ++ (45 :: 32 :: utf8 (encode L v))), ?_, ?_⟩
    · simp [writeEncode, Writer.str, Writer.bytes, Writer.indent, utf8, String.utf8EncodeChar]
    · refine Blk.line ?_ ?_ ?_
      · simp [hp.1, he.1]
      · by_cases hd : 1 ≤ w.depth
        · obtain ⟨t, ht⟩ := padding_pos hd
          rw [ht]; exact .inr (.inl ⟨_, rfl⟩)
        · rw [padding_zero (by omega)]; exact .inr (.inr (.inl ⟨_, rfl⟩))
      · intro _; simp [hp.2, he.2]

/-- A sequence of strings on new lines. -/
theorem writeSequenceStr_any (L : PrettyLib) (w : Writer) (l : List String) (hl : l.length ≠ 0) :
    Adds C Any w (writeSequenceStr L (w.str "\n").indent l) := by
  cases l with
  | nil => simp at hl
  | cons v vs =>
    have : writeSequenceStr L (w.str "\n").indent (v :: vs) = seqStrLoop L false w (v :: vs) := rfl
    rw [this]
    exact seqStrLoop_false L w _

theorem writeSequenceStr_v (L : PrettyLib) (w : Writer) (l : List String) :
    AddsV C Pos w (writeSequenceStr L w l) := by
  unfold writeSequenceStr
  cases l with
  | nil => exact AddsV.pre (f := utf8 "[") flat_of_decide (AddsV.of_bytes (f := utf8 "]") flat_of_decide)
  | cons v vs =>
    rw [if_neg (by simp)]
    unfold seqStrLoop
    have h1 : AddsV C Pos w (writeEncode L ((w.str "-").str " ") v) :=
      AddsV.pre (f := utf8 "-") flat_of_decide (AddsV.pre (f := utf8 " ") flat_of_decide (writeEncode_v L _ v))
    obtain ⟨a, b, c⟩ := seqStrLoop_state L false (writeEncode L ((w.str "-").str " ") v) vs
    exact h1.then ((seqStrLoop_false L _ vs).weaken fun _ _ _ => trivial) a b

theorem mapStrLoop_state (L : PrettyLib) (m : GoMap String) (b : Bool) (w : Writer) (l : List String) :
    (mapStrLoop L m b w l).index = w.index ∧ (mapStrLoop L m b w l).zero = w.zero := by
  induction l generalizing b w with
  | nil => exact ⟨rfl, rfl⟩
  | cons v vs ih =>
    unfold mapStrLoop
    obtain ⟨h1, h2⟩ := ih false (writeEncode L (((writeEncode L (if b then w else (w.str "\n").indent) v).str
      ":").str " ") ((m.get? v).getD ""))
    refine ⟨h1.trans ?_, h2.trans ?_⟩ <;> cases b <;> rfl

theorem mapStrLoop_false (L : PrettyLib) (m : GoMap String) (w : Writer) (l : List String) :
    Adds C Pos w (mapStrLoop L m false w l) := by
  induction l generalizing w with
  | nil => exact .refl
  | cons k ks ih =>
    unfold mapStrLoop
    refine Adds.trans (AddsV.newline ?_) (ih _)
    exact AddsV.pre (f := utf8 (encode L k)) (encode_flat L k) (AddsV.pre (f := utf8 ":") flat_of_decide
      (AddsV.pre (f := utf8 " ") flat_of_decide (writeEncode_v L _ _)))

theorem writeMappingStr_v (L : PrettyLib) (w : Writer) (m : GoMap String) :
    AddsV C Pos w (writeMappingStr L w m) := by
  unfold writeMappingStr
  split
  · exact AddsV.pre (f := utf8 "{") flat_of_decide (AddsV.of_bytes (f := utf8 "}") flat_of_decide)
  generalize sortStrings m.keys = l
  cases l with
  | nil => exact .refl
  | cons k ks =>
    unfold mapStrLoop
    have h1 : AddsV C Pos w (writeEncode L (((writeEncode L w k).str ":").str " ") ((m.get? k).getD "")) :=
      AddsV.pre (f := utf8 (encode L k)) (encode_flat L k) (AddsV.pre (f := utf8 ":") flat_of_decide
        (AddsV.pre (f := utf8 " ") flat_of_decide (writeEncode_v L _ _)))
    obtain ⟨a, b⟩ := mapStrLoop_state L m false
      (writeEncode L (((writeEncode L w k).str ":").str " ") ((m.get? k).getD "")) ks
    exact h1.then (mapStrLoop_false L m _ ks) a b

/-- Entries of a mapping that continue the line of their key. -/
def GoodEntries (C : Lay) (es : GoMap (Writer → Writer)) : Prop :=
  ∀ k f, es.get? k = some f → ∀ w, AddsV C Pos w (f w)

theorem mapLoop_entry (L : PrettyLib) {es : GoMap (Writer → Writer)} (he : GoodEntries C es) (w : Writer)
    (k : String) : AddsV C Pos w (match es.get? k with
      | some f => f ((writeEncode L w k).str ":")
      | none => (((writeEncode L w k).str ":").str " ").str "~") := by
  refine AddsV.pre (f := utf8 (encode L k)) (encode_flat L k) (AddsV.pre (f := utf8 ":") flat_of_decide ?_)
  cases hk : es.get? k with
  | none => exact AddsV.pre (f := utf8 " ") flat_of_decide (AddsV.of_bytes (f := utf8 "~") flat_of_decide)
  | some f => exact he k f hk _

theorem mapLoop_false (L : PrettyLib) {es : GoMap (Writer → Writer)} (he : GoodEntries C es) (w : Writer)
    (l : List String) : Adds C Pos w (mapLoop L es false w l) ∧ (mapLoop L es false w l).index = w.index ∧
      (mapLoop L es false w l).zero = w.zero := by
  induction l generalizing w with
  | nil => exact ⟨.refl, rfl, rfl⟩
  | cons k ks ih =>
    unfold mapLoop
    have h1 := mapLoop_entry L he (w.str "\n").indent k
    obtain ⟨a, b, c⟩ := ih (match es.get? k with
      | some f => f ((writeEncode L (w.str "\n").indent k).str ":")
      | none => (((writeEncode L (w.str "\n").indent k).str ":").str " ").str "~")
    exact ⟨(AddsV.newline h1).trans a, b.trans h1.index, c.trans h1.zero⟩

theorem mapLoop_true (L : PrettyLib) {es : GoMap (Writer → Writer)} (he : GoodEntries C es) (w : Writer)
    (l : List String) : AddsV C Pos w (mapLoop L es true w l) := by
  cases l with
  | nil => exact .refl
  | cons k ks =>
    unfold mapLoop
    have h1 := mapLoop_entry L he w k
    obtain ⟨a, b, c⟩ := mapLoop_false L he (match es.get? k with
      | some f => f ((writeEncode L w k).str ":")
      | none => (((writeEncode L w k).str ":").str " ").str "~") ks
    exact h1.then a b c

/-- A line feed, padding and a value continue a line too. -/
theorem AddsV.of_adds (h : Adds C Pos w w') (hi : w'.index = w.index) (hz : w'.zero = w.zero) :
    AddsV C Pos w w' :=
  ⟨h.depth, hi, hz, fun g => let ⟨o, ho, hb⟩ := h.out g; ⟨[], o, by simpa using ho, flat_nil, hb⟩⟩

theorem mapEntry_v {v : Value} {f : Writer → Writer} (hf : ∀ w, AddsV C Pos w (f w)) (w : Writer) :
    AddsV C Pos w (mapEntry v f w) := by
  unfold mapEntry
  generalize (_ || _ || _ : Bool) = c
  cases c
  case true => exact AddsV.pre (f := utf8 " ") flat_of_decide (hf _)
  rw [if_neg (by simp)]
  split
  · have := hf (w.str "\n").indent
    exact AddsV.of_adds (AddsV.newline this) this.index this.zero
  · have := hf (w.inc.str "\n").indent
    refine AddsV.inc_dec (G := Pos) ?_ pos_inc
    exact AddsV.of_adds (AddsV.newline this) this.index this.zero

mutual
theorem writeVal_v (L : PrettyLib) (v : Value) (w : Writer) : AddsV C Pos w (writeVal L v w) := by
  cases v with
  | null => exact AddsV.of_bytes (f := utf8 "~") flat_of_decide
  | bool b => cases b <;> exact AddsV.of_bytes flat_of_decide
  | int i => exact AddsV.of_bytes (toString_int_flat i)
  | float q => exact AddsV.of_bytes (utf8_flat (L.float_line q).1 (L.float_line q).2)
  | str s => exact writeEncode_v L w s
  | seq xs =>
    simp only [writeVal]
    split
    · exact AddsV.pre (f := utf8 "[") flat_of_decide (AddsV.of_bytes (f := utf8 "]") flat_of_decide)
    · exact writeSeq_true L xs w
  | map kvs =>
    simp only [writeVal]
    split
    · exact AddsV.pre (f := utf8 "{") flat_of_decide (AddsV.of_bytes (f := utf8 "}") flat_of_decide)
    · exact mapLoop_true L (mapEntries_good L kvs) w _

theorem writeSeq_true (L : PrettyLib) (xs : List Value) (w : Writer) :
    AddsV C Pos w (writeSeq L true xs w) := by
  cases xs with
  | nil =>
    simp only [writeSeq]
    exact .refl
  | cons v vs =>
    simp only [writeSeq, if_true]
    have h1 : AddsV C Pos w (writeVal L v ((w.str "-").str " ").inc).dec :=
      AddsV.pre (f := utf8 "-") flat_of_decide (AddsV.pre (f := utf8 " ") flat_of_decide
        (AddsV.inc_dec (writeVal_v L v _) pos_inc))
    obtain ⟨a, b, c⟩ := writeSeq_false L vs (writeVal L v ((w.str "-").str " ").inc).dec
    exact h1.then a b c

theorem writeSeq_false (L : PrettyLib) (xs : List Value) (w : Writer) :
    Adds C Pos w (writeSeq L false xs w) ∧ (writeSeq L false xs w).index = w.index ∧
      (writeSeq L false xs w).zero = w.zero := by
  cases xs with
  | nil =>
    rw [show writeSeq L false [] w = w by simp only [writeSeq]]
    exact ⟨.refl, rfl, rfl⟩
  | cons v vs =>
    simp only [writeSeq, Bool.false_eq_true, if_false]
    have h1 : AddsV C Pos (w.str "\n").indent
        (writeVal L v ((((w.str "\n").indent).str "-").str " ").inc).dec :=
      AddsV.pre (f := utf8 "-") flat_of_decide (AddsV.pre (f := utf8 " ") flat_of_decide
        (AddsV.inc_dec (writeVal_v L v _) pos_inc))
    obtain ⟨a, b, c⟩ := writeSeq_false L vs
      (writeVal L v ((((w.str "\n").indent).str "-").str " ").inc).dec
    exact ⟨(AddsV.newline h1).trans a, b.trans h1.index, c.trans h1.zero⟩

theorem mapEntries_good (L : PrettyLib) (kvs : List (Value × Value)) :
    GoodEntries C (mapEntries L kvs) := by
  cases kvs with
  | nil => intro k f h; simp [mapEntries, GoMap.get?] at h
  | cons kv kvs =>
    obtain ⟨k, v⟩ := kv
    have ih := mapEntries_good L kvs
    cases k with
    | str s =>
      simp only [mapEntries]
      intro k f h w
      unfold GoMap.get? at h
      rw [List.lookup_cons] at h
      split at h
      · simp only [Option.some.injEq] at h
        subst h
        exact mapEntry_v (writeVal_v L v) w
      · exact ih k f h w
    | _ => simpa only [mapEntries] using ih
end

theorem writeValue_v (L : PrettyLib) (w : Writer) (v : Arg) : AddsV C Pos w (writeValue L w v) := by
  cases v with
  | val v => exact writeVal_v L v w
  | strs l => exact writeSequenceStr_v L w l
  | strMap m => exact writeMappingStr_v L w m
  | size n => exact writeEncode_v L w _

/-- A primitive value does not look at the depth. -/
theorem writeValue_prim (L : PrettyLib) (w : Writer) {v : Arg} (hv : isPrimative v = true) :
    AddsV C Any w (writeValue L w v) := by
  cases v with
  | val v =>
    cases v with
    | bool b => unfold writeValue writeVal; cases b <;> exact AddsV.of_bytes flat_of_decide
    | int i => unfold writeValue writeVal; exact AddsV.of_bytes (toString_int_flat i)
    | float q => unfold writeValue writeVal; exact AddsV.of_bytes (utf8_flat (L.float_line q).1 (L.float_line q).2)
    | str s => unfold writeValue writeVal; exact writeEncode_v L w s
    | null => simp [isPrimative, isPrimValue] at hv
    | seq _ => simp [isPrimative, isPrimValue] at hv
    | map _ => simp [isPrimative, isPrimValue] at hv
  | strs l => simp [isPrimative] at hv
  | strMap l => simp [isPrimative] at hv
  | size n => exact writeEncode_v L w _

/-- A tag and a value which change neither depth nor zero mode. -/
theorem writeTagValue_zero (L : PrettyLib) (w : Writer) (k : String) (v : Arg) :
    (writeTagValue L w k v).zero = w.zero := by
  unfold writeTagValue
  have ht := (writeTag_pos (C := ⟨True, False⟩) L w k).zero
  split
  · rfl
  dsimp only
  split
  · exact (writeValue_v (C := ⟨True, False⟩) L _ v).zero.trans ht
  split
  · exact (writeValue_v (C := ⟨True, False⟩) L _ v).zero.trans ht
  · exact (writeValue_v (C := ⟨True, False⟩) L _ v).zero.trans ht

theorem writeTagValue_pos (L : PrettyLib) (w : Writer) (k : String) (v : Arg) :
    Adds C Pos w (writeTagValue L w k v) := by
  unfold writeTagValue
  split
  · exact .refl
  dsimp only
  have ht := writeTag_pos (C := C) L w k
  split
  · exact AddsO.value (ht.bytes (f := utf8 " ") flat_of_decide) (writeValue_v L _ v)
  split
  · exact ht.then (AddsV.newline (writeValue_v L _ v))
  · exact ht.then (Adds.inc_dec (AddsV.newline (writeValue_v L _ v)) pos_inc)

/-- A key at the top level: a primitive value, a non-empty list of strings or a
mapping. -/
theorem writeTagValue_top (L : PrettyLib) (w : Writer) {k : String} (hk : k ∈ topKeys) {v : Arg}
    (hv : isPrimative v = true ∨ (∃ l : List String, v = .strs l ∧ l.length ≠ 0) ∨ ∃ m, v = .strMap m)
    (hl : C.late → k ≠ "version" ∧ k ≠ "kind" := by exact fun _ => by decide) :
    Adds C Top w (writeTagValue L w k v) := by
  unfold writeTagValue
  split
  · exact .refl
  dsimp only
  have ht := writeTag_top (C := C) L w hk hl
  split
  · rename_i hp
    exact AddsO.value (ht.bytes (f := utf8 " ") flat_of_decide)
      ((writeValue_prim L _ hp).weaken fun _ _ _ => trivial)
  rename_i hp
  split
  · rename_i hs
    rcases hv with hv | ⟨l, rfl, hl⟩ | ⟨m, rfl⟩
    · exact absurd hv hp
    · exact ht.then ((writeSequenceStr_any L _ l hl).weaken fun _ _ _ => trivial)
    · simp [isSlice] at hs
  · exact ht.then (Adds.inc_dec (AddsV.newline (writeValue_v L _ v)) top_inc)

theorem tagStr_top (L : PrettyLib) (w : Writer) {k : String} (hk : k ∈ topKeys) (s : String)
    (hl : C.late → k ≠ "version" ∧ k ≠ "kind" := by exact fun _ => by decide) :
    Adds C Top w (tagStr L w k s) := writeTagValue_top L w hk (.inl rfl) hl

end Pretty
end Drone
