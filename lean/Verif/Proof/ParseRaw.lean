import Verif.Model.ParseRaw
import Verif.Spec.Lines
import Mathlib.Data.List.Basic
import Mathlib.Data.List.TakeWhile
import Mathlib.Data.List.Induction
import Mathlib.Tactic.Cases
import Mathlib.Tactic.Common
/-
Lemmas about the document splitter.
-/
namespace Drone
open Spec

theorem unlines_nil : unlines [] = [] := rfl
theorem unlines_cons (l : Bytes) (ls) : unlines (l :: ls) = l ++ [10] ++ unlines ls := by
  simp [unlines]
theorem unlines_append (a b : List Bytes) : unlines (a ++ b) = unlines a ++ unlines b := by
  simp [unlines]

/-! ### Lines -/

theorem rawLinesAux_noLF (data : Bytes) : ∀ cur : Bytes, LF ∉ cur →
    ∀ l ∈ rawLinesAux cur data, LF ∉ l := by
  induction data with
  | nil =>
    intro cur h l hl
    unfold rawLinesAux at hl
    split at hl <;> simp_all
  | cons b bs ih =>
    intro cur h l hl
    unfold rawLinesAux at hl
    split at hl
    · rcases List.mem_cons.1 hl with rfl | hl
      · exact h
      · exact ih [] (by simp) l hl
    · refine ih (cur ++ [b]) ?_ l hl
      simp_all [eq_comm]

theorem rawLinesAux_unlines (data : Bytes) : ∀ cur : Bytes,
    (cur ++ data = [] ∨ (cur ++ data).getLast? = some LF → unlines (rawLinesAux cur data) = cur ++ data ∨
      (data = [] ∧ cur.getLast? = some LF)) ∧
    (cur ++ data ≠ [] → (cur ++ data).getLast? ≠ some LF →
      unlines (rawLinesAux cur data) = cur ++ data ++ [10]) := by
  induction data with
  | nil =>
    intro cur
    unfold rawLinesAux
    cases cur with
    | nil => simp [unlines]
    | cons c cs => simp [unlines]
  | cons b bs ih =>
    intro cur
    unfold rawLinesAux
    by_cases hb : b = LF
    · subst hb
      simp only [if_true, unlines_cons]
      obtain ⟨h1, h2⟩ := ih []
      simp only [List.nil_append] at h1 h2
      refine ⟨fun h => Or.inl ?_, fun _ h => ?_⟩
      · have : bs = [] ∨ bs.getLast? = some LF := by
          rcases h with h | h
          · simp at h
          · cases bs with
            | nil => simp
            | cons x xs => right; simpa [List.getLast?_append, List.getLast?_cons_cons] using h
        rcases h1 this with h | ⟨_, h⟩
        · rw [h]; simp [LF]
        · simp at h
      · cases bs with
        | nil => simp at h
        | cons x xs =>
          have hx : (x :: xs).getLast? ≠ some LF := by
            simpa [List.getLast?_append, List.getLast?_cons_cons] using h
          rw [h2 (by simp) hx]; simp [LF]
    · simp only [hb, if_false]
      obtain ⟨h1, h2⟩ := ih (cur ++ [b])
      simp only [List.append_assoc, List.singleton_append] at h1 h2
      refine ⟨fun h => ?_, fun h h' => ?_⟩
      · rcases h1 h with h | ⟨_, h⟩
        · exact Or.inl h
        · simp at h; exact absurd h hb
      · have := h2 h h'
        simpa using this

theorem rawLines_isLines (data : Bytes) : IsLines data (rawLines data) := by
  refine ⟨rawLinesAux_noLF data [] (by simp), ?_⟩
  obtain ⟨h1, h2⟩ := rawLinesAux_unlines data []
  simp only [List.nil_append] at h1 h2
  by_cases h : data = [] ∨ data.getLast? = some LF
  · rcases h1 h with h | ⟨_, h⟩
    · exact Or.inl h
    · simp at h
  · obtain ⟨ha, hb⟩ := not_or.1 h
    exact Or.inr ⟨h2 ha hb, ha, hb⟩

/-- Newline-free lines are determined by their concatenation. -/
theorem unlines_inj : ∀ (a b : List Bytes), (∀ l ∈ a, (10 : UInt8) ∉ l) → (∀ l ∈ b, (10 : UInt8) ∉ l) →
    unlines a = unlines b → a = b := by
  have key : ∀ (x y r s : Bytes), (10 : UInt8) ∉ x → (10 : UInt8) ∉ y →
      x ++ 10 :: r = y ++ 10 :: s → x = y ∧ r = s := by
    intro x
    induction x with
    | nil =>
      intro y r s _ hy h
      cases y with
      | nil => simpa using h
      | cons c cs => simp only [List.nil_append, List.cons_append, List.cons.injEq] at h
                     simp [← h.1] at hy
    | cons c cs ih =>
      intro y r s hx hy h
      cases y with
      | nil => simp only [List.nil_append, List.cons_append, List.cons.injEq] at h
               simp [h.1] at hx
      | cons d ds =>
        simp only [List.cons_append, List.cons.injEq] at h
        simp only [List.mem_cons, not_or] at hx hy
        obtain ⟨h1, h2⟩ := ih ds r s hx.2 hy.2 h.2
        exact ⟨by rw [h.1, h1], h2⟩
  intro a
  induction a with
  | nil =>
    intro b _ _ h
    cases b with
    | nil => rfl
    | cons y ys => simp [unlines] at h
  | cons x xs ih =>
    intro b ha hb h
    cases b with
    | nil => simp [unlines] at h
    | cons y ys =>
      rw [unlines_cons, unlines_cons] at h
      simp only [List.append_assoc, List.singleton_append] at h
      obtain ⟨h1, h2⟩ := key x y _ _ (ha x (by simp)) (hb y (by simp)) h
      rw [h1, ih ys (fun l hl => ha l (by simp [hl])) (fun l hl => hb l (by simp [hl])) h2]

theorem isLines_unique {data : Bytes} {a b : List Bytes} (ha : IsLines data a)
    (hb : IsLines data b) : a = b := by
  have last : ∀ ls : List Bytes, unlines ls = data → data ≠ [] → data.getLast? = some 10 := by
    intro ls h hne
    induction ls using List.reverseRecOn with
    | nil => simp [unlines] at h; exact absurd h hne
    | append_singleton xs x _ => rw [← h, unlines_append]; simp [unlines]
  obtain ⟨ha1, ha2⟩ := ha
  obtain ⟨hb1, hb2⟩ := hb
  refine unlines_inj a b ha1 hb1 ?_
  rcases ha2 with ha2 | ⟨ha2, hn, hl⟩ <;> rcases hb2 with hb2 | ⟨hb2, hn', hl'⟩
  · rw [ha2, hb2]
  · exact absurd (last a ha2 hn') hl'
  · exact absurd (last b hb2 hn) hl
  · rw [ha2, hb2]

theorem rawLines_eq {data : Bytes} {ls : List Bytes} (h : IsLines data ls) : rawLines data = ls :=
  isLines_unique (rawLines_isLines data) h

theorem rawLines_unlines {ls : List Bytes} (h : ∀ l ∈ ls, (10 : UInt8) ∉ l) :
    rawLines (unlines ls) = ls := rawLines_eq ⟨h, Or.inl rfl⟩

/-! ### Carriage returns, visibility -/

theorem chopsTo_iff (l l' : Bytes) : ChopsTo l l' ↔ dropCR l = l' := by
  unfold ChopsTo dropCR
  induction l using List.reverseRecOn with
  | nil => simp [CR]
  | append_singleton xs x _ =>
    simp only [List.getLast?_append, List.getLast?_singleton, Option.some_or,
      List.dropLast_concat, CR]
    by_cases hx : x = 13
    · subst hx; simp
    · simp [hx, eq_comm]

theorem visible_iff (ls vis : List Bytes) :
    Visible ls vis ↔ (ls.takeWhile (fun l => l.length < maxToken)).map dropCR = vis := by
  have f2 : ∀ (a b : List Bytes), List.Forall₂ ChopsTo a b ↔ a.map dropCR = b := by
    intro a
    induction a with
    | nil => intro b; cases b <;> simp
    | cons x xs ih => intro b; cases b <;> simp [chopsTo_iff, ih]
  constructor
  · rintro ⟨short, tail, rfl, hs, ht, h2⟩
    rw [f2] at h2
    have : (short ++ tail).takeWhile (fun l => decide (l.length < maxToken)) = short := by
      rw [List.takeWhile_append_of_pos (by intro l hl; rw [decide_eq_true_eq]; exact hs l hl)]
      rcases ht with rfl | ⟨t, ts, rfl, h⟩
      · simp
      · rw [List.takeWhile_cons_of_neg (by rw [decide_eq_true_eq]; exact Nat.not_lt.2 h)]; simp
    rw [this, h2]
  · rintro rfl
    refine ⟨ls.takeWhile (fun l => l.length < maxToken),
      ls.dropWhile (fun l => l.length < maxToken), by simp, ?_, ?_, by rw [f2]⟩
    · intro l hl; have := List.mem_takeWhile_imp hl; rw [decide_eq_true_eq] at this; exact this
    · cases hd : ls.dropWhile (fun l => decide (l.length < maxToken)) with
      | nil => simp
      | cons t ts =>
        right
        refine ⟨t, ts, rfl, ?_⟩
        have := List.head_dropWhile_not (fun l => decide (l.length < maxToken)) (l := ls)
          (by rw [hd]; simp)
        simp only [hd, List.head_cons, decide_eq_false_iff_not, Nat.not_lt] at this
        exact this

/-! ### The splitting loop -/

theorem isSeparator_iff (l : Bytes) : isSeparator l = true ↔ SepLine l := by
  unfold isSeparator SepLine
  rw [List.isPrefixOf_iff_prefix]
  constructor
  · rintro ⟨r, rfl⟩; exact ⟨r, rfl⟩
  · rintro ⟨r, rfl⟩; exact ⟨r, rfl⟩

theorem isTerminator_iff (l : Bytes) : isTerminator l = true ↔ TermLine l := by
  unfold isTerminator TermLine
  rw [List.isPrefixOf_iff_prefix]
  constructor
  · rintro ⟨r, rfl⟩; exact ⟨r, rfl⟩
  · rintro ⟨r, rfl⟩; exact ⟨r, rfl⟩

theorem sep_not_term {l : Bytes} : SepLine l → ¬ TermLine l := by
  rintro ⟨r, rfl⟩ ⟨s, h⟩
  simp at h

theorem appendLast_append (ds : List Bytes) (d e : Bytes) :
    appendLast (ds ++ [d]) e = ds ++ [d ++ e] := by
  induction ds with
  | nil => rfl
  | cons x xs ih =>
    cases xs with
    | nil => simp [appendLast]
    | cons y ys =>
      have : x :: y :: ys ++ [d] = x :: (y :: ys ++ [d]) := rfl
      rw [this, List.cons_append, appendLast.eq_3, ← List.cons_append, ih]
      · rfl
      · simp

theorem splitLoop_cut (ds : List Bytes) (d : Bytes) (shown hidden first : List Bytes)
    (rest : List (List Bytes)) (hshown : ∀ l ∈ shown, ¬ TermLine l)
    (hh : hidden = [] ∨ ∃ t ts, hidden = t :: ts ∧ TermLine t) (hc : Cut shown first rest) :
    (splitLoop ⟨ds ++ [d], true⟩ (shown ++ hidden)).docs
      = ds ++ (d ++ unlines first) :: rest.map unlines := by
  induction hc generalizing ds d with
  | nil =>
    rcases hh with rfl | ⟨t, ts, rfl, ht⟩
    · simp [splitLoop, unlines]
    · have h1 : isSeparator t = false := by
        cases hs : isSeparator t
        · rfl
        · exact absurd ht (sep_not_term ((isSeparator_iff t).1 hs))
      have h2 : isTerminator t = true := (isTerminator_iff t).2 ht
      simp [splitLoop, h1, h2, unlines]
  | sep hs _ ih =>
    rename_i l ls first rest _
    have h1 : isSeparator l = true := (isSeparator_iff l).2 hs
    simp only [List.cons_append, splitLoop, h1, if_true, Bool.false_eq_true, if_false]
    rw [ih _ _ (fun l hl => hshown l (by simp [hl]))]
    simp [unlines]
  | line hs _ ih =>
    rename_i l ls first rest _
    have h1 : isSeparator l = false := by
      cases h : isSeparator l
      · rfl
      · exact absurd ((isSeparator_iff l).1 h) hs
    have h2 : isTerminator l = false := by
      cases h : isTerminator l
      · rfl
      · exact absurd ((isTerminator_iff l).1 h) (hshown l (by simp))
    simp only [List.cons_append, splitLoop, h1, h2, if_true, Bool.false_eq_true, if_false,
      appendLast_append]
    rw [ih _ _ (fun l hl => hshown l (by simp [hl]))]
    simp [unlines_cons, LF]

theorem cut_exists (ls : List Bytes) : ∃ first rest, Cut ls first rest := by
  induction ls with
  | nil => exact ⟨_, _, .nil⟩
  | cons l ls ih =>
    obtain ⟨f, r, h⟩ := ih
    by_cases hs : SepLine l
    · exact ⟨_, _, .sep hs h⟩
    · exact ⟨_, _, .line hs h⟩

theorem splitLoop_documents (ls docs : List Bytes) (h : Documents ls docs) :
    (splitLoop {} ls).docs = docs := by
  obtain ⟨shown, hidden, first, rest, rfl, hs, hh, hc, hd1, hd2⟩ := h
  cases hc with
  | nil =>
    rcases hh with rfl | ⟨t, ts, rfl, ht⟩
    · rw [hd1 (Or.inl rfl)]; simp [splitLoop]
    · have h1 : isSeparator t = false := by
        cases hs : isSeparator t
        · rfl
        · exact absurd ht (sep_not_term ((isSeparator_iff t).1 hs))
      have h2 : isTerminator t = true := (isTerminator_iff t).2 ht
      have h3 : ¬ SepLine t := fun h => sep_not_term h ht
      rw [hd2 (by simp [StartsWithSep, h3])]
      simp [splitLoop, h1, h2, unlines]
  | sep hsep hc =>
    rename_i l ls first rest
    have h1 : isSeparator l = true := (isSeparator_iff l).2 hsep
    have := splitLoop_cut [] [] ls hidden first rest (fun l hl => hs l (by simp [hl])) hh hc
    simp only [List.nil_append] at this
    rw [hd1 (Or.inr ⟨l, _, rfl, hsep⟩)]
    simp [splitLoop, h1, this]
  | line hsep hc =>
    rename_i l ls first
    have h1 : isSeparator l = false := by
      cases h : isSeparator l
      · rfl
      · exact absurd ((isSeparator_iff l).1 h) hsep
    have := splitLoop_cut [] [] (l :: ls) hidden (l :: first) rest hs hh (.line hsep hc)
    have h2 : splitLoop {} (l :: ls ++ hidden) = splitLoop ⟨[] ++ [[]], true⟩ (l :: ls ++ hidden) := by
      simp only [List.cons_append, splitLoop, h1, Bool.false_eq_true, if_false, if_true]
    rw [h2, this, hd2 (by simp [StartsWithSep, hsep])]
    simp

theorem documents_exists (ls : List Bytes) : ∃ docs, Documents ls docs := by
  classical
  obtain ⟨f, r, h⟩ := cut_exists (ls.takeWhile (fun l => ¬ TermLine l))
  refine ⟨if ls = [] ∨ StartsWithSep ls then r.map unlines else unlines f :: r.map unlines,
    ls.takeWhile (fun l => ¬ TermLine l), ls.dropWhile (fun l => ¬ TermLine l), f, r,
    by simp, ?_, ?_, h, fun h => if_pos h, fun h => if_neg h⟩
  · intro l hl; simpa using List.mem_takeWhile_imp hl
  · cases hd : ls.dropWhile (fun l => decide (¬ TermLine l)) with
    | nil => simp
    | cons t ts =>
      right
      refine ⟨t, ts, rfl, ?_⟩
      have := List.head_dropWhile_not (fun l => decide (¬ TermLine l)) (l := ls) (by rw [hd]; simp)
      simp only [hd, List.head_cons] at this
      simpa using this

theorem documents_iff (ls docs : List Bytes) :
    Documents ls docs ↔ (splitLoop {} ls).docs = docs := by
  refine ⟨splitLoop_documents ls docs, fun h => ?_⟩
  obtain ⟨docs', h'⟩ := documents_exists ls
  rw [splitLoop_documents _ _ h'] at h
  exact h ▸ h'

/-! ### Re-emission -/

/-- A line that can stand in a document and survive re-reading. -/
def GoodLine (l : Bytes) : Prop :=
  (10 : UInt8) ∉ l ∧ l.length < 65536 ∧ l.getLast? ≠ some 13 ∧ ¬ SepLine l ∧ ¬ TermLine l

theorem dropCR_good {l : Bytes} (h : l.getLast? ≠ some 13) : dropCR l = l := by
  simp [dropCR, CR, h]

theorem scanLines_unlines {ls : List Bytes} (h : ∀ l ∈ ls, (10 : UInt8) ∉ l ∧ l.length < 65536 ∧
    l.getLast? ≠ some 13) : scanLines (unlines ls) = ls := by
  unfold scanLines
  rw [rawLines_unlines (fun l hl => (h l hl).1)]
  rw [List.takeWhile_eq_self_iff.2 (by intro l hl; rw [decide_eq_true_eq]; exact (h l hl).2.1)]
  conv_rhs => rw [← List.map_id ls]
  exact List.map_congr_left (fun l hl => dropCR_good (h l hl).2.2)

/-- The lines of a file written as `---` blocks. -/
def blockLines (bs : List (List Bytes)) : List Bytes := bs.flatMap (fun b => [45, 45, 45] :: b)

theorem cut_good (b : List Bytes) (h : ∀ l ∈ b, ¬ SepLine l) (ls first : List Bytes)
    (rest : List (List Bytes)) (hc : Cut ls first rest) :
    Cut (b ++ ls) (b ++ first) rest := by
  induction b with
  | nil => exact hc
  | cons x xs ih =>
    exact .line (h x (by simp)) (ih (fun l hl => h l (by simp [hl])))

theorem cut_blocks (bs : List (List Bytes)) (h : ∀ b ∈ bs, ∀ l ∈ b, ¬ SepLine l) :
    Cut (blockLines bs) [] bs := by
  induction bs with
  | nil => exact .nil
  | cons b bs ih =>
    have h1 := ih (fun b hb => h b (by simp [hb]))
    have h2 := cut_good b (h b (by simp)) _ _ _ h1
    simp only [List.append_nil] at h2
    simpa [blockLines] using Cut.sep ⟨[], rfl⟩ h2

/-- Reading a file made of `---` blocks, optionally followed by a terminator
line and anything else. -/
theorem splitDocs_blocks (bs : List (List Bytes)) (tail : List Bytes)
    (h : ∀ b ∈ bs, ∀ l ∈ b, GoodLine l) (hne : bs ≠ [])
    (ht : tail = [] ∨ tail = [[46, 46, 46]]) :
    splitDocs (unlines (blockLines bs ++ tail)) = bs.map unlines := by
  unfold splitDocs
  rw [scanLines_unlines]
  · rw [← documents_iff]
    refine ⟨blockLines bs, tail, [], bs, rfl, ?_, ?_, cut_blocks bs (fun b hb l hl => (h b hb l hl).2.2.2.1),
      fun _ => rfl, fun hn => absurd (Or.inr ?_) hn⟩
    · intro l hl
      simp only [blockLines, List.mem_flatMap, List.mem_cons] at hl
      obtain ⟨b, hb, rfl | hl⟩ := hl
      · exact sep_not_term ⟨[], rfl⟩
      · exact (h b hb l hl).2.2.2.2
    · rcases ht with rfl | rfl
      · simp
      · exact Or.inr ⟨_, _, rfl, [], rfl⟩
    · cases bs with
      | nil => exact absurd rfl hne
      | cons b bs => exact ⟨[45, 45, 45], _, rfl, [], rfl⟩
  · intro l hl
    simp only [List.mem_append, blockLines, List.mem_flatMap, List.mem_cons] at hl
    rcases hl with ⟨b, hb, rfl | hl⟩ | hl
    · refine ⟨by decide, by decide, by decide⟩
    · exact ⟨(h b hb l hl).1, (h b hb l hl).2.1, (h b hb l hl).2.2.1⟩
    · rcases ht with rfl | rfl
      · simp at hl
      · simp only [List.mem_singleton] at hl
        subst hl
        refine ⟨by decide, by decide, by decide⟩

theorem unlines_blockLines (bs : List (List Bytes)) :
    unlines (blockLines bs) = (bs.map unlines).flatMap (fun d => [45, 45, 45, 10] ++ d) := by
  induction bs with
  | nil => rfl
  | cons b bs ih =>
    have : blockLines (b :: bs) = ([45, 45, 45] :: b) ++ blockLines bs := by simp [blockLines]
    rw [this, unlines_append, ih, unlines_cons]
    simp

end Drone

namespace Drone
open Spec

/-! ### Lines of documents -/

theorem cut_mem {ls first : List Bytes} {rest : List (List Bytes)} (hc : Cut ls first rest) :
    (∀ l ∈ first, l ∈ ls ∧ ¬ SepLine l) ∧ (∀ b ∈ rest, ∀ l ∈ b, l ∈ ls ∧ ¬ SepLine l) := by
  induction hc with
  | nil => simp
  | sep hs _ ih =>
    refine ⟨by simp, ?_⟩
    intro b hb l hl
    rcases List.mem_cons.1 hb with rfl | hb
    · exact ⟨by simp [(ih.1 l hl).1], (ih.1 l hl).2⟩
    · exact ⟨by simp [(ih.2 b hb l hl).1], (ih.2 b hb l hl).2⟩
  | line hs _ ih =>
    refine ⟨?_, fun b hb l hl => ⟨by simp [(ih.2 b hb l hl).1], (ih.2 b hb l hl).2⟩⟩
    intro l hl
    rcases List.mem_cons.1 hl with rfl | hl
    · exact ⟨by simp, hs⟩
    · exact ⟨by simp [(ih.1 l hl).1], (ih.1 l hl).2⟩

theorem documents_lines {vis docs : List Bytes} (h : Documents vis docs) :
    ∃ bs : List (List Bytes), docs = bs.map unlines ∧
      ∀ b ∈ bs, ∀ l ∈ b, l ∈ vis ∧ ¬ SepLine l ∧ ¬ TermLine l := by
  obtain ⟨shown, hidden, first, rest, rfl, hs, hh, hc, hd1, hd2⟩ := h
  obtain ⟨m1, m2⟩ := cut_mem hc
  by_cases hx : shown ++ hidden = [] ∨ StartsWithSep (shown ++ hidden)
  · refine ⟨rest, hd1 hx, fun b hb l hl => ?_⟩
    have := m2 b hb l hl
    exact ⟨by simp [this.1], this.2, hs l this.1⟩
  · refine ⟨first :: rest, hd2 hx, fun b hb l hl => ?_⟩
    rcases List.mem_cons.1 hb with rfl | hb
    · have := m1 l hl
      exact ⟨by simp [this.1], this.2, hs l this.1⟩
    · have := m2 b hb l hl
      exact ⟨by simp [this.1], this.2, hs l this.1⟩

theorem dropCR_sub (l : Bytes) : ∀ x ∈ dropCR l, x ∈ l := by
  intro x hx
  unfold dropCR at hx
  split at hx
  · exact (List.dropLast_sublist l).mem hx
  · exact hx

theorem scanLines_mem {data l : Bytes} (h : l ∈ scanLines data) :
    (10 : UInt8) ∉ l ∧ l.length < 65536 ∧ ∃ r ∈ rawLines data, dropCR r = l := by
  unfold scanLines at h
  rw [List.mem_map] at h
  obtain ⟨r, hr, rfl⟩ := h
  have h1 : r ∈ rawLines data := (List.takeWhile_subset _) hr
  have h2 := List.mem_takeWhile_imp hr
  rw [decide_eq_true_eq] at h2
  refine ⟨fun hm => ?_, ?_, r, h1, rfl⟩
  · exact (rawLines_isLines data).1 r h1 (dropCR_sub r _ hm)
  · have : (dropCR r).length ≤ r.length := by
      unfold dropCR; split <;> simp
    exact Nat.lt_of_le_of_lt this h2

theorem splitDocs_documents (data : Bytes) : Documents (scanLines data) (splitDocs data) :=
  (documents_iff _ _).2 rfl

/-- Every document is made of lines that are neither separators nor
terminators. -/
theorem splitDocs_lines (data : Bytes) : ∃ bs : List (List Bytes),
    splitDocs data = bs.map unlines ∧ ∀ b ∈ bs, ∀ l ∈ b,
      ((10 : UInt8) ∉ l ∧ l.length < 65536 ∧ ∃ r ∈ rawLines data, dropCR r = l) ∧
      ¬ SepLine l ∧ ¬ TermLine l := by
  obtain ⟨bs, h1, h2⟩ := documents_lines (splitDocs_documents data)
  exact ⟨bs, h1, fun b hb l hl => ⟨scanLines_mem (h2 b hb l hl).1, (h2 b hb l hl).2⟩⟩

theorem mem_unlines_infix {ls : List Bytes} {l : Bytes} (h : l ∈ ls) :
    (l ++ [10]) <:+: unlines ls := by
  induction ls with
  | nil => simp at h
  | cons x xs ih =>
    rw [unlines_cons]
    rcases List.mem_cons.1 h with rfl | h
    · exact (List.prefix_append _ _).isInfix
    · exact (ih h).trans (List.suffix_append _ _).isInfix

/-- No line of the file ends in two carriage returns. -/
def NoDoubleCR (data : Bytes) : Prop := ¬ [13, 13, 10] <:+: data ∧ ¬ [13, 13] <:+ data

theorem rawLines_no_double {data l : Bytes} (hcr : NoDoubleCR data) (h : l ∈ rawLines data) :
    ¬ [13, 13] <:+ l := by
  intro hs
  obtain ⟨_, hd⟩ := rawLines_isLines data
  have hi := mem_unlines_infix h
  have h3 : [13, 13, 10] <:+: unlines (rawLines data) := by
    obtain ⟨p, rfl⟩ := hs
    refine List.IsInfix.trans ⟨p, [], ?_⟩ hi
    simp
  rcases hd with hd | ⟨hd, _, _⟩
  · exact hcr.1 (hd ▸ h3)
  · rw [hd] at h3
    rcases (List.infix_concat_iff).1 h3 with h3 | h3
    · obtain ⟨p, hp⟩ := h3
      refine hcr.2 ⟨p, ?_⟩
      have : p ++ [13, 13] ++ [10] = data ++ [10] := by simpa using hp
      exact List.append_inj_left' this rfl
    · exact hcr.1 h3

theorem dropCR_no_cr {r : Bytes} (h : ¬ [13, 13] <:+ r) : (dropCR r).getLast? ≠ some 13 := by
  intro hl
  unfold dropCR at hl
  split at hl
  · rename_i hr
    obtain ⟨p, rfl⟩ := List.getLast?_eq_some_iff.1 hr
    simp only [List.dropLast_concat] at hl
    obtain ⟨q, rfl⟩ := List.getLast?_eq_some_iff.1 hl
    exact h ⟨q, by simp [CR]⟩
  · rename_i hr
    exact hr hl

theorem splitDocs_good {data : Bytes} (hcr : NoDoubleCR data) : ∃ bs : List (List Bytes),
    splitDocs data = bs.map unlines ∧ ∀ b ∈ bs, ∀ l ∈ b, GoodLine l := by
  obtain ⟨bs, h1, h2⟩ := splitDocs_lines data
  refine ⟨bs, h1, fun b hb l hl => ?_⟩
  obtain ⟨⟨ha, hb', r, hr, rfl⟩, hc, hd⟩ := h2 b hb l hl
  exact ⟨ha, hb', dropCR_no_cr (rawLines_no_double hcr hr), hc, hd⟩

/-- The same, with the condition on the documents instead of the file. -/
theorem splitDocs_good' {data : Bytes} (hcr : ∀ d ∈ splitDocs data, ¬ [13, 10] <:+: d) :
    ∃ bs : List (List Bytes),
    splitDocs data = bs.map unlines ∧ ∀ b ∈ bs, ∀ l ∈ b, GoodLine l := by
  obtain ⟨bs, h1, h2⟩ := splitDocs_lines data
  refine ⟨bs, h1, fun b hb l hl => ?_⟩
  obtain ⟨⟨ha, hb', _⟩, hc, hd⟩ := h2 b hb l hl
  refine ⟨ha, hb', fun hl' => ?_, hc, hd⟩
  refine hcr (unlines b) (by rw [h1]; exact List.mem_map_of_mem hb) ?_
  obtain ⟨p, rfl⟩ := List.getLast?_eq_some_iff.1 hl'
  exact List.IsInfix.trans ⟨p, [], by simp⟩ (mem_unlines_infix hl)

theorem splitDocs_emit (bs : List (List Bytes)) (h : ∀ b ∈ bs, ∀ l ∈ b, GoodLine l) :
    splitDocs ((bs.map unlines).flatMap (fun d => [45, 45, 45, 10] ++ d)) = bs.map unlines := by
  rw [← unlines_blockLines]
  cases bs with
  | nil => rfl
  | cons b bs =>
    have := splitDocs_blocks (b :: bs) [] h (by simp) (Or.inl rfl)
    simpa using this

/-! ### Headers -/

theorem decodeHeaders_ok_iff (Y : YamlLib) (ds : List Bytes) (rs : List RawResource) :
    decodeHeaders Y ds = .ok rs ↔
      List.Forall₂ (fun d (r : RawResource) => r.data = d ∧ Y.header d = .ok ⟨r.version, r.kind, r.type⟩) ds rs := by
  induction ds generalizing rs with
  | nil => cases rs <;> simp [decodeHeaders]
  | cons d ds ih =>
    unfold decodeHeaders
    cases hd : Y.header d with
    | error e => cases rs <;> simp [hd]
    | ok h =>
      cases hr : decodeHeaders Y ds with
      | error e =>
        cases rs with
        | nil => simp
        | cons r rs =>
          simp only [reduceCtorEq, List.forall₂_cons, hd, false_iff, not_and]
          intro _ hf
          rw [← ih rs, hr] at hf
          simp at hf
      | ok rs' =>
        cases rs with
        | nil => simp
        | cons r rs =>
          simp only [Except.ok.injEq, List.cons.injEq, List.forall₂_cons, hd]
          rw [← ih rs, hr]
          constructor
          · rintro ⟨rfl, rfl⟩; simp
          · rintro ⟨⟨h1, h2⟩, h3⟩
            subst h1 h2
            simp only [Except.ok.injEq] at h3
            exact ⟨rfl, h3⟩

theorem decodeHeaders_data {Y : YamlLib} {ds : List Bytes} {rs : List RawResource}
    (h : decodeHeaders Y ds = .ok rs) : rs.map (·.data) = ds := by
  rw [decodeHeaders_ok_iff] at h
  induction h with
  | nil => rfl
  | cons h _ ih => simp [h.1, ih]

theorem parseAll_ok_iff (Y : YamlLib) (raws : List RawResource) (out : List Resource) :
    parseAll Y raws = .ok out ↔
      List.Forall₂ (fun raw res => parseResource Y raw = .ok res ∧ res.getKind ≠ "") raws out := by
  induction raws generalizing out with
  | nil => cases out <;> simp [parseAll]
  | cons r rs ih =>
    unfold parseAll
    cases hr : parseResource Y r with
    | error e => cases out <;> simp [hr]
    | ok res =>
      by_cases hk : res.getKind = ""
      · cases out with
        | nil => simp [hk]
        | cons o out =>
          simp only [hk, if_true, reduceCtorEq, List.forall₂_cons, hr, Except.ok.injEq, false_iff, not_and]
          rintro ⟨rfl, h⟩; exact absurd hk h
      · simp only [hk, if_false]
        cases hp : parseAll Y rs with
        | error e =>
          cases out with
          | nil => simp
          | cons o out =>
            simp only [reduceCtorEq, List.forall₂_cons, false_iff, not_and]
            intro _ hf
            rw [← ih out, hp] at hf
            simp at hf
        | ok out' =>
          cases out with
          | nil => simp
          | cons o out =>
            simp only [Except.ok.injEq, List.cons.injEq, List.forall₂_cons, hr]
            rw [← ih out, hp]
            constructor
            · rintro ⟨rfl, rfl⟩; simp [hk]
            · rintro ⟨⟨h1, _⟩, h3⟩
              simp only [Except.ok.injEq] at h3
              exact ⟨h1, h3⟩

end Drone
