/-
Lemmas about the pattern matcher: what it does with the text of a pattern.
-/
import Verif.Model.Glob
import Verif.Spec.Glob
import Mathlib.Tactic.Common
import Mathlib.Data.List.Basic

namespace Drone
namespace Glob
open Spec

/-! ### Meaning of terms -/

theorem star_iff {ts : List Term} {s : Str} :
    TermsMatch (.star :: ts) s ↔ ∃ t, t <:+ s ∧ TermsMatch ts t := by
  constructor
  · intro h
    cases h with
    | star h => exact ⟨_, List.suffix_append _ _, h⟩
  · rintro ⟨t, ⟨u, rfl⟩, h⟩
    exact .star h

theorem noTwoStars_tail {t : Term} {ts : List Term} (h : NoTwoStars (t :: ts)) : NoTwoStars ts := by
  cases ts with
  | nil => trivial
  | cons u us => cases t <;> cases u <;> first | exact h | exact absurd h id

theorem noTwoStars_drop : ∀ {o ts : List Term}, NoTwoStars (o ++ ts) → NoTwoStars ts
  | [], _, h => h
  | _ :: _, _, h => noTwoStars_drop (noTwoStars_tail h)

/-- Only no term and a single star stand for the empty text. -/
theorem match_nil {ts : List Term} (h2 : NoTwoStars ts) : TermsMatch ts [] ↔ ts = [] ∨ ts = [.star] := by
  constructor
  · intro h
    cases ts with
    | nil => exact .inl rfl
    | cons t us =>
      cases t with
      | star =>
        obtain ⟨t, ht, hm⟩ := star_iff.mp h
        rw [List.suffix_nil] at ht
        subst ht
        cases us with
        | nil => exact .inr rfl
        | cons u vs =>
          cases u with
          | star => exact absurd h2 id
          | lit => cases hm
          | one => cases hm
          | cls => cases hm
      | lit => cases h
      | one => cases h
      | cls => cases h
  · rintro (rfl | rfl)
    · exact .nil
    · exact .star (u := []) .nil

/-- Terms of which one stands for a character do not stand for the empty text. -/
theorem match_nil_single {ts : List Term} (h : ∃ t ∈ ts, t.Single) : ¬ TermsMatch ts [] := by
  induction ts with
  | nil => simp at h
  | cons t us ih =>
    intro hm
    cases t with
    | star =>
      obtain ⟨t, ht, hm⟩ := star_iff.mp hm
      rw [List.suffix_nil] at ht
      subst ht
      obtain ⟨x, hx, hs⟩ := h
      rcases List.mem_cons.mp hx with rfl | hx
      · exact hs
      · exact ih ⟨x, hx, hs⟩ hm
    | lit => cases hm
    | one => cases hm
    | cls => cases hm

/-! ### Choices -/

theorem choices_term (t : Term) (ps : List Part) (s : Str) :
    PartsMatch (.term t :: ps) s ↔ ∃ ts ∈ choices ps, TermsMatch (t :: ts) s := by
  simp only [PartsMatch, choices, List.mem_map]
  constructor
  · rintro ⟨_, ⟨ts, h, rfl⟩, hm⟩
    exact ⟨ts, h, hm⟩
  · rintro ⟨ts, h, hm⟩
    exact ⟨_, ⟨ts, h, rfl⟩, hm⟩

theorem choices_terms (o : List Term) (ps : List Part) :
    choices (o.map Part.term ++ ps) = (choices ps).map (o ++ ·) := by
  induction o with
  | nil => simp
  | cons t o ih => simp [choices, ih]

theorem choices_alt (os : List (List Term)) (ps : List Part) (s : Str) :
    PartsMatch (.alt os :: ps) s ↔ ∃ o ∈ os, PartsMatch (o.map Part.term ++ ps) s := by
  simp only [PartsMatch, choices, List.mem_flatMap, choices_terms]
  constructor
  · rintro ⟨ts, ⟨o, ho, h⟩, hm⟩
    exact ⟨o, ho, ts, h, hm⟩
  · rintro ⟨o, ho, ts, h, hm⟩
    exact ⟨ts, ⟨o, ho, h⟩, hm⟩

/-- The parts the matcher is right about. -/
def Good (ps : List Part) : Prop := (∀ p ∈ ps, p.Ok) ∧ ∀ ts ∈ choices ps, NoTwoStars ts

theorem Good.tail {p : Part} {ps : List Part} (h : Good (p :: ps)) : Good ps := by
  refine ⟨fun q hq => h.1 q (List.mem_cons_of_mem _ hq), fun ts hts => ?_⟩
  cases p with
  | term t => exact noTwoStars_tail (h.2 (t :: ts) (by simpa [choices] using hts))
  | alt os =>
    have hp := h.1 _ (List.mem_cons_self ..)
    cases os with
    | nil => exact absurd rfl hp.1
    | cons o os =>
      refine noTwoStars_drop (o := o) (h.2 _ ?_)
      simp only [choices, List.mem_flatMap, List.mem_map]
      exact ⟨o, List.mem_cons_self .., ts, hts, rfl⟩

theorem Good.option {os : List (List Term)} {ps : List Part} (h : Good (.alt os :: ps)) {o : List Term}
    (ho : o ∈ os) : Good (o.map Part.term ++ ps) := by
  have hp := h.1 _ (List.mem_cons_self ..)
  refine ⟨fun q hq => ?_, fun ts hts => ?_⟩
  · rcases List.mem_append.mp hq with hq | hq
    · obtain ⟨t, ht, rfl⟩ := List.mem_map.mp hq
      exact (hp.2 o ho).1 t ht
    · exact h.1 q (List.mem_cons_of_mem _ hq)
  · refine h.2 ts ?_
    rw [choices_terms] at hts
    simp only [choices, List.mem_flatMap]
    exact ⟨o, ho, hts⟩

theorem choices_ne_nil : ∀ {ps : List Part}, (∀ p ∈ ps, p.Ok) → choices ps ≠ []
  | [], _ => by simp [choices]
  | .term t :: ps, h => by
    simpa [choices] using choices_ne_nil fun q hq => h q (List.mem_cons_of_mem _ hq)
  | .alt [] :: ps, h => absurd rfl (h _ (List.mem_cons_self ..)).1
  | .alt (o :: os) :: ps, h => by
    have := choices_ne_nil fun q hq => h q (List.mem_cons_of_mem (Part.alt (o :: os)) hq)
    simp only [choices, List.flatMap_cons, ne_eq, List.append_eq_nil_iff, List.map_eq_nil_iff]
    exact fun hh => this hh.1

/-- Only no part and a single star stand for the empty text. -/
theorem parts_nil {ps : List Part} (h : Good ps) : PartsMatch ps [] ↔ ps = [] ∨ ps = [.term .star] := by
  constructor
  · rintro ⟨ts, hts, hm⟩
    rcases ps with _ | ⟨p, qs⟩
    · exact .inl rfl
    · right
      cases p with
      | term t =>
        simp only [choices, List.mem_map] at hts
        obtain ⟨us, hus, rfl⟩ := hts
        rcases (match_nil (h.2 _ (by simpa [choices] using hus))).mp hm with hh | hh
        · simp at hh
        · simp only [List.cons.injEq] at hh
          obtain ⟨rfl, rfl⟩ := hh
          rcases qs with _ | ⟨q, qs⟩
          · rfl
          · exfalso
            cases q with
            | term t => simp [choices] at hus
            | alt os =>
              simp only [choices, List.mem_flatMap, List.mem_map] at hus
              obtain ⟨o, ho, us, _, hh⟩ := hus
              have hs := (h.tail.1 _ (List.mem_cons_self ..)).2 o ho
              obtain ⟨t, ht, _⟩ := hs.2
              rw [(List.append_eq_nil_iff.mp hh).1] at ht
              cases ht
      | alt os =>
        exfalso
        simp only [choices, List.mem_flatMap, List.mem_map] at hts
        obtain ⟨o, ho, us, _, rfl⟩ := hts
        obtain ⟨t, ht, hs⟩ := ((h.1 _ (List.mem_cons_self ..)).2 o ho).2
        exact match_nil_single ⟨t, List.mem_append_left _ ht, hs⟩ hm
  · rintro (rfl | rfl)
    · exact ⟨[], by simp [choices], .nil⟩
    · exact ⟨[.star], by simp [choices], .star (u := []) .nil⟩

/-! ### Cutting and splitting -/

/-- A text in which a separator is always written with a backslash. -/
inductive Quiet (r : Char) : Str → Prop
  | nil : Quiet r []
  | plain {c l} : c ≠ r → c ≠ '\\' → Quiet r l → Quiet r (c :: l)
  | esc {c l} : c ≠ '\\' → Quiet r l → Quiet r ('\\' :: c :: l)

theorem Quiet.append {r : Char} {a b : Str} (ha : Quiet r a) (hb : Quiet r b) : Quiet r (a ++ b) := by
  induction ha with
  | nil => exact hb
  | plain h1 h2 _ ih => exact .plain h1 h2 ih
  | esc h _ ih => exact .esc h ih

theorem Quiet.flatMap {α : Type} {r : Char} {f : α → Str} {l : List α} (h : ∀ a ∈ l, Quiet r (f a)) :
    Quiet r (l.flatMap f) := by
  induction l with
  | nil => exact .nil
  | cons a l ih =>
    rw [List.flatMap_cons]
    exact (h a (List.mem_cons_self ..)).append (ih fun b hb => h b (List.mem_cons_of_mem _ hb))

theorem quiet_of_plain {r : Char} {l : Str} (h : ∀ c ∈ l, c ≠ r ∧ c ≠ '\\') : Quiet r l := by
  induction l with
  | nil => exact .nil
  | cons c l ih =>
    exact .plain (h c (by simp)).1 (h c (by simp)).2 (ih fun d hd => h d (List.mem_cons_of_mem _ hd))

theorem cutEsc_quiet {r : Char} (hr : r ≠ '\\') {l : Str} (h : Quiet r l) (rest : Str) :
    cutEsc r false (l ++ rest) = (cutEsc r false rest).map fun p => (l ++ p.1, p.2) := by
  induction h with
  | nil => rw [List.nil_append]; cases cutEsc r false rest <;> rfl
  | @plain c l h1 h2 _ ih =>
    rw [List.cons_append, cutEsc, if_neg (by simp [h1])]
    have : decide (c = '\\') = false := by simp [h2]
    rw [this, ih, Option.map_map]
    rfl
  | @esc c l h1 _ ih =>
    rw [List.cons_append, cutEsc, if_neg (by simp [Ne.symm hr]), List.cons_append, cutEsc,
      if_neg (by simp)]
    have : decide (c = '\\') = false := by simp [h1]
    rw [this, ih, Option.map_map, Option.map_map]
    rfl

theorem cutEsc_at {r : Char} (hr : r ≠ '\\') {l : Str} (h : Quiet r l) (rest : Str) :
    cutEsc r false (l ++ r :: rest) = some (l, rest) := by
  rw [cutEsc_quiet hr h, cutEsc, if_pos ⟨rfl, rfl⟩]
  simp

theorem splitLoop_quiet {r : Char} (hr : r ≠ '\\') {l : Str} (h : Quiet r l) (cur rest : Str) :
    splitLoop r cur false (l ++ rest) = splitLoop r (cur ++ l) false rest := by
  induction h generalizing cur with
  | nil => simp
  | @plain c l h1 h2 _ ih =>
    rw [List.cons_append, splitLoop, if_neg (by simp [h1])]
    have : decide (c = '\\') = false := by simp [h2]
    rw [this, ih]
    simp
  | @esc c l h1 _ ih =>
    rw [List.cons_append, splitLoop, if_neg (by simp [Ne.symm hr]), List.cons_append, splitLoop,
      if_neg (by simp)]
    have : decide (c = '\\') = false := by simp [h1]
    rw [this, ih]
    simp

theorem inter_cons' {r : Char} (a : Str) {l : List Str} (h : l ≠ []) :
    [r].intercalate (a :: l) = a ++ r :: [r].intercalate l := by
  cases l with
  | nil => exact absurd rfl h
  | cons b bs => simp [List.intercalate, List.intersperse]

/-- Splitting texts joined by the separator gives the texts back, if the last one is not
empty. -/
theorem splitLoop_inter {r : Char} (hr : r ≠ '\\') : ∀ {l : List Str}, l ≠ [] → (∀ a ∈ l, Quiet r a) →
    l.getLast? ≠ some [] → splitLoop r [] false ([r].intercalate l) = l
  | [], h, _, _ => absurd rfl h
  | [a], _, hq, hl => by
    have := splitLoop_quiet hr (hq a (by simp)) [] []
    rw [List.append_nil] at this
    have e : [r].intercalate [a] = a := by simp [List.intercalate, List.intersperse]
    rw [e, this, splitLoop, List.nil_append, if_neg (by simpa using hl)]
  | a :: b :: bs, _, hq, hl => by
    rw [inter_cons' a (by simp), splitLoop_quiet hr (hq a (by simp)), splitLoop, if_pos ⟨rfl, rfl⟩,
      splitLoop_inter hr (by simp) (fun x hx => hq x (List.mem_cons_of_mem _ hx)) (by simpa using hl)]
    simp

theorem inter_ne_nil {r : Char} {l : List Str} (h : l ≠ []) (hl : l.getLast? ≠ some []) :
    [r].intercalate l ≠ [] := by
  rcases l with _ | ⟨a, _ | ⟨b, bs⟩⟩
  · exact absurd rfl h
  · have e : [r].intercalate [a] = a := by simp [List.intercalate, List.intersperse]
    rw [e]
    simpa using hl
  · rw [inter_cons' a (by simp)]
    simp

theorem split_inter {r : Char} (hr : r ≠ '\\') {l : List Str} (h : l ≠ []) (hq : ∀ a ∈ l, Quiet r a)
    (hl : l.getLast? ≠ some []) : split r ([r].intercalate l) = l := by
  rw [split, if_neg (inter_ne_nil h hl), splitLoop_inter hr h hq hl]

/-! ### The text of terms -/

theorem not_special {c : Char} (h : Special c = false) : c ≠ '*' ∧ c ≠ '?' ∧ c ≠ '[' ∧ c ≠ ']' ∧ c ≠ '{' ∧
    c ≠ '}' ∧ c ≠ ',' ∧ c ≠ '-' ∧ c ≠ '^' := by
  unfold Special at h
  simpa using h

theorem special_ne {c : Char} (h : Special c = true) : c ≠ '\\' ∧ c.toNat ≠ 0xfffd ∧ c ≠ '/' := by
  unfold Special at h
  simp only [List.mem_cons, List.not_mem_nil, or_false, decide_eq_true_eq] at h
  rcases h with rfl | rfl | rfl | rfl | rfl | rfl | rfl | rfl | rfl <;> decide

theorem quiet_lit {r c : Char} (hr : r = ',' ∨ r = '}' ∨ r = '/') (h : c ≠ '/' ∧ c ≠ '\\') :
    Quiet r (litText c) := by
  unfold litText
  cases hs : Special c with
  | true => exact .esc h.2 .nil
  | false =>
    have := not_special hs
    refine .plain ?_ h.2 .nil
    rcases hr with rfl | rfl | rfl
    · exact this.2.2.2.2.2.2.1
    · exact this.2.2.2.2.2.1
    · exact h.1

theorem quiet_range {r : Char} (hr : r = ',' ∨ r = '}' ∨ r = '/' ∨ r = ']') {x : Char × Char}
    (h : ClassChar x.1 ∧ ClassChar x.2) : Quiet r (rangeText x) := by
  have key : ∀ c, ClassChar c → c ≠ r ∧ c ≠ '\\' := by
    intro c hc
    have := not_special hc.2.2
    refine ⟨?_, hc.2.1⟩
    rcases hr with rfl | rfl | rfl | rfl
    · exact this.2.2.2.2.2.2.1
    · exact this.2.2.2.2.2.1
    · exact hc.1
    · exact this.2.2.2.1
  refine quiet_of_plain fun c hc => ?_
  unfold rangeText at hc
  split at hc
  · simp only [List.mem_singleton] at hc
    subst hc
    exact key _ h.1
  · simp only [List.mem_cons, List.not_mem_nil, or_false] at hc
    rcases hc with rfl | rfl | rfl
    · exact key _ h.1
    · rcases hr with rfl | rfl | rfl | rfl <;> decide
    · exact key _ h.2

theorem quiet_body {r : Char} (hr : r = ',' ∨ r = '}' ∨ r = '/' ∨ r = ']') (neg : Bool)
    {rs : List (Char × Char)} (h : ∀ x ∈ rs, ClassChar x.1 ∧ ClassChar x.2) :
    Quiet r ((if neg then ['^'] else []) ++ rs.flatMap rangeText) := by
  refine Quiet.append ?_ (Quiet.flatMap fun x hx => quiet_range hr (h x hx))
  cases neg with
  | false => exact .nil
  | true =>
    refine .plain ?_ (by decide) .nil
    rcases hr with rfl | rfl | rfl | rfl <;> decide

theorem quiet_term {r : Char} (hr : r = ',' ∨ r = '}' ∨ r = '/') {t : Term} (h : t.Ok) : Quiet r t.text := by
  have h1 : r ≠ '?' ∧ r ≠ '*' ∧ r ≠ '[' ∧ r ≠ ']' := by rcases hr with rfl | rfl | rfl <;> decide
  cases t with
  | lit c => exact quiet_lit hr h
  | one => exact .plain h1.1.symm (by decide) .nil
  | star => exact .plain h1.2.1.symm (by decide) .nil
  | cls neg rs =>
    refine .plain h1.2.2.1.symm (by decide) ?_
    exact (quiet_body (by rcases hr with rfl | rfl | rfl <;> simp) neg h.2).append
      (.plain h1.2.2.2.symm (by decide) .nil)

theorem quiet_terms {r : Char} (hr : r = ',' ∨ r = '}' ∨ r = '/') {ts : List Term} (h : ∀ t ∈ ts, t.Ok) :
    Quiet r (termsText ts) := Quiet.flatMap fun t ht => quiet_term hr (h t ht)

theorem quiet_inter {r s : Char} (hs : s ≠ r) (hs' : s ≠ '\\') : ∀ {l : List Str}, (∀ a ∈ l, Quiet r a) →
    Quiet r ([s].intercalate l)
  | [], _ => by simpa [List.intercalate] using Quiet.nil
  | [a], h => by simpa [List.intercalate, List.intersperse] using h a (by simp)
  | a :: b :: bs, h => by
    rw [inter_cons' a (by simp)]
    exact (h a (by simp)).append (.plain hs hs' (quiet_inter hs hs' fun x hx => h x (List.mem_cons_of_mem _ hx)))

theorem quiet_part {p : Part} (h : p.Ok) : Quiet '/' p.text := by
  cases p with
  | term t => exact quiet_term (by simp) h
  | alt os =>
    refine .plain (by decide) (by decide) (Quiet.append (quiet_inter (by decide) (by decide) ?_)
      (.plain (by decide) (by decide) .nil))
    intro a ha
    obtain ⟨o, ho, rfl⟩ := List.mem_map.mp ha
    exact quiet_terms (by simp) (h.2 o ho).1

theorem quiet_parts {ps : List Part} (h : ∀ p ∈ ps, p.Ok) : Quiet '/' (partsText ps) :=
  Quiet.flatMap fun p hp => quiet_part (h p hp)

theorem text_terms (o : List Term) (ps : List Part) :
    partsText (o.map Part.term ++ ps) = termsText o ++ partsText ps := by
  induction o with
  | nil => rfl
  | cons t o ih =>
    have h1 : termsText (t :: o) = t.text ++ termsText o := by simp [termsText]
    have h2 : ∀ p qs, partsText (p :: qs) = p.text ++ partsText qs := by simp [partsText]
    rw [List.map_cons, List.cons_append, h2, ih, h1, List.append_assoc]
    rfl

theorem term_text_ne (t : Term) : t.text ≠ [] := by
  cases t with
  | lit c =>
    show litText c ≠ []
    unfold litText
    split <;> simp
  | one => simp [Term.text]
  | star => simp [Term.text]
  | cls => simp [Term.text]

theorem part_text_ne (p : Part) : p.text ≠ [] := by
  cases p with
  | term t => exact term_text_ne t
  | alt os => simp [Part.text]

theorem partsText_cons (p : Part) (ps : List Part) : partsText (p :: ps) = p.text ++ partsText ps := by
  simp [partsText]

theorem partsText_eq_nil {ps : List Part} : partsText ps = [] ↔ ps = [] := by
  cases ps with
  | nil => simp [partsText]
  | cons p ps => simp [partsText_cons, part_text_ne]

/-- A text that begins with a star is that of a star. -/
theorem text_star {ps : List Part} {rest : Str} (h : partsText ps = '*' :: rest) :
    ∃ qs, ps = .term .star :: qs ∧ partsText qs = rest := by
  cases ps with
  | nil => simp [partsText] at h
  | cons p qs =>
    rw [partsText_cons] at h
    cases p with
    | term t =>
      cases t with
      | star => exact ⟨qs, rfl, by simpa [Part.text, Term.text] using h⟩
      | one => simp [Part.text, Term.text] at h
      | cls => simp [Part.text, Term.text] at h
      | lit c =>
        exfalso
        simp only [Part.text, Term.text, litText] at h
        cases hs : Special c with
        | true => simp [hs] at h
        | false =>
          simp only [hs, Bool.false_eq_true, if_false, List.cons_append, List.nil_append, List.cons.injEq] at h
          exact (not_special hs).1 h.1
    | alt os => simp [Part.text] at h

/-! ### Character classes -/

theorem classRune_char {c : Char} (h : ClassChar c) (rest : Str) : classRune (c :: rest) = some (c, rest) := by
  show (if c = '-' then none else if c = '\\' then _ else some (c, rest)) = _
  rw [if_neg (not_special h.2.2).2.2.2.2.2.2.2.1, if_neg h.2.1]

open Classical in
theorem classLoop_ranges (x : Char) : ∀ (rs : List (Char × Char)) (n : Nat) (m : Bool),
    (∀ r ∈ rs, ClassChar r.1 ∧ ClassChar r.2) → (rs.flatMap rangeText).length < n →
    classLoop x n m (rs.flatMap rangeText) = some (m || decide (InRanges rs x))
  | [], 0, _, _, hn => by simp at hn
  | [], n + 1, m, _, _ => by simp [classLoop, InRanges]
  | r :: rs, 0, _, _, hn => by simp at hn
  | r :: rs, n + 1, m, h, hn => by
    obtain ⟨lo, hi⟩ := r
    have hr := h (lo, hi) (by simp)
    have hrs : ∀ r ∈ rs, ClassChar r.1 ∧ ClassChar r.2 := fun r hr => h r (List.mem_cons_of_mem _ hr)
    rw [List.flatMap_cons] at hn ⊢
    have hin : ∀ a : Bool, (a || decide (lo ≤ x ∧ x ≤ hi) || decide (InRanges rs x)) =
        (a || decide (InRanges ((lo, hi) :: rs) x)) := by
      intro a
      rw [Bool.or_assoc]
      congr 1
      by_cases h1 : lo ≤ x ∧ x ≤ hi <;> by_cases h2 : InRanges rs x <;>
        simp [InRanges] at h1 h2 ⊢ <;> simp_all [InRanges]
    by_cases e : lo = hi
    · subst e
      have ht : rangeText (lo, lo) = [lo] := by simp [rangeText]
      rw [ht] at hn ⊢
      rw [List.singleton_append, classLoop, classRune_char hr.1]
      have hnext : ∀ rest, rs.flatMap rangeText ≠ '-' :: rest := by
        intro rest hh
        cases rs with
        | nil => simp at hh
        | cons q qs =>
          have hq := (hrs q (by simp)).1
          rw [List.flatMap_cons, rangeText] at hh
          split at hh <;> simp at hh <;> exact (not_special hq.2.2).2.2.2.2.2.2.2.1 hh.1
      split
      · exact absurd ‹_ = none› (by simp)
      · rename_i low rest' heq
        simp only [Option.some.injEq, Prod.mk.injEq] at heq
        obtain ⟨rfl, rfl⟩ := heq
        split
        · rename_i rest'' hh
          exact absurd hh (hnext _)
        · rw [classLoop_ranges x rs n _ hrs (by simp only [List.length_append, List.length_cons, List.length_nil] at hn; omega), hin]
    · have ht : rangeText (lo, hi) = [lo, '-', hi] := by simp [rangeText, e]
      rw [ht] at hn ⊢
      simp only [List.cons_append, List.nil_append]
      rw [classLoop, classRune_char hr.1]
      simp only
      rw [classRune_char hr.2]
      simp only
      rw [classLoop_ranges x rs n _ hrs (by simp only [List.length_append, List.length_cons, List.length_nil] at hn; omega), hin]

open Classical in
/-- A class as it is written matches the right characters. -/
theorem classMatch_iff (neg : Bool) {rs : List (Char × Char)} (hne : rs ≠ [])
    (h : ∀ r ∈ rs, ClassChar r.1 ∧ ClassChar r.2) (x : Char) :
    classMatch ((if neg then ['^'] else []) ++ rs.flatMap rangeText) x =
      if (neg = true ↔ ¬ InRanges rs x) then .yes else .no := by
  cases neg with
  | true =>
    simp only [if_true, List.singleton_append, classMatch]
    rw [classLoop_ranges x rs _ false h (by simp; omega)]
    by_cases hi : InRanges rs x <;> simp [hi]
  | false =>
    obtain ⟨q, qs, rfl⟩ := List.exists_cons_of_ne_nil hne
    have hq := (h q (by simp)).1
    have hc : q.1 ≠ '^' := (not_special hq.2.2).2.2.2.2.2.2.2.2
    obtain ⟨c, cs, hcs⟩ : ∃ cs', ∃ cs, ((q :: qs).flatMap rangeText) = cs' :: cs ∧ cs' = q.1 := by
      rw [List.flatMap_cons, rangeText]
      split
      · exact ⟨_, _, rfl, rfl⟩
      · exact ⟨_, _, rfl, rfl⟩
    have hl := classLoop_ranges x (q :: qs) (((q :: qs).flatMap rangeText).length + 1) false h (by omega)
    rw [hcs.1] at hl
    simp only [Bool.false_eq_true, if_false, List.nil_append]
    rw [hcs.1]
    simp only [classMatch]
    rw [if_neg (by rw [hcs.2]; exact hc), hl]
    have : decide (c = '^') = false := by rw [hcs.2]; simp [hc]
    rw [this]
    by_cases hi : InRanges (q :: qs) x <;> simp [hi]

/-! ### The loop -/

/-- The result says whether the proposition holds. -/
def Agrees (r : Res) (P : Prop) : Prop := (P → r = .yes) ∧ (¬ P → r = .no)

theorem Agrees.iff {r : Res} {P : Prop} (h : Agrees r P) : r = .yes ↔ P := by
  constructor
  · intro hr
    by_contra hp
    rw [h.2 hp] at hr
    cases hr
  · exact h.1

theorem Agrees.congr {r : Res} {P Q : Prop} (h : Agrees r P) (e : P ↔ Q) : Agrees r Q :=
  ⟨fun q => h.1 (e.mpr q), fun q => h.2 fun p => q (e.mp p)⟩

theorem mem_endings {α : Type} {t s : List α} : t ∈ endings s ↔ t <:+ s ∧ t ≠ [] := by
  induction s with
  | nil => simp [endings, List.suffix_nil]
  | cons a s ih =>
    rw [endings, List.mem_cons, ih, List.suffix_cons_iff]
    constructor
    · rintro (rfl | ⟨h, hn⟩)
      · exact ⟨.inl rfl, by simp⟩
      · exact ⟨.inr h, hn⟩
    · rintro ⟨rfl | h, hn⟩
      · exact .inl rfl
      · exact .inr ⟨h, hn⟩

theorem enter_pos {loop : Str → Str → Res} {p s : Str} (hp : p ≠ []) (hs : s ≠ []) :
    enter loop p s = loop p s := by
  unfold enter
  rw [if_neg (by simp [hp]), if_neg hp, if_neg (by simp [hs])]

theorem firstOption_agrees {α : Type} {f : Str → Res} {txt : α → Str} {P : α → Prop} : ∀ {os : List α},
    (∀ o ∈ os, Agrees (f (txt o)) (P o)) → Agrees (firstOption f (os.map txt)) (∃ o ∈ os, P o)
  | [], _ => ⟨fun h => by simp at h, fun _ => rfl⟩
  | o :: os, h => by
    have h1 := h o (by simp)
    have h2 := firstOption_agrees fun x hx => h x (List.mem_cons_of_mem _ hx)
    by_cases hp : P o
    · refine ⟨fun _ => ?_, fun hn => absurd ⟨o, by simp, hp⟩ hn⟩
      rw [List.map_cons, firstOption, h1.1 hp]
    · constructor
      · rintro ⟨x, hx, hpx⟩
        rcases List.mem_cons.mp hx with rfl | hx
        · exact absurd hpx hp
        · rw [List.map_cons, firstOption, h1.2 hp]
          exact h2.1 ⟨x, hx, hpx⟩
      · intro hn
        rw [List.map_cons, firstOption, h1.2 hp]
        exact h2.2 fun ⟨x, hx, hpx⟩ => hn ⟨x, List.mem_cons_of_mem _ hx, hpx⟩

theorem lit_cons {x : Char} {ps : List Part} {c : Char} {cs : Str} :
    PartsMatch (.term (.lit x) :: ps) (c :: cs) ↔ x = c ∧ PartsMatch ps cs := by
  rw [choices_term]
  constructor
  · rintro ⟨ts, h, hm⟩
    cases hm with
    | lit hm => exact ⟨rfl, ts, h, hm⟩
  · rintro ⟨rfl, ts, h, hm⟩
    exact ⟨ts, h, .lit hm⟩

theorem one_cons {ps : List Part} {c : Char} {cs : Str} :
    PartsMatch (.term .one :: ps) (c :: cs) ↔ PartsMatch ps cs := by
  rw [choices_term]
  constructor
  · rintro ⟨ts, h, hm⟩
    cases hm with
    | one hm => exact ⟨ts, h, hm⟩
  · rintro ⟨ts, h, hm⟩
    exact ⟨ts, h, .one hm⟩

theorem cls_cons {neg : Bool} {rs : List (Char × Char)} {ps : List Part} {c : Char} {cs : Str} :
    PartsMatch (.term (.cls neg rs) :: ps) (c :: cs) ↔
      (neg = true ↔ ¬ InRanges rs c) ∧ PartsMatch ps cs := by
  rw [choices_term]
  constructor
  · rintro ⟨ts, h, hm⟩
    cases hm with
    | inCls hi hm => exact ⟨by simp [hi], ts, h, hm⟩
    | notInCls hi hm => exact ⟨by simp [hi], ts, h, hm⟩
  · rintro ⟨hi, ts, h, hm⟩
    refine ⟨ts, h, ?_⟩
    cases neg with
    | true => exact .notInCls (hi.mp rfl) hm
    | false =>
      refine .inCls ?_ hm
      by_contra hh
      exact absurd (hi.mpr hh) (by simp)

theorem star_parts {ps : List Part} {s : Str} :
    PartsMatch (.term .star :: ps) s ↔ ∃ t, t <:+ s ∧ PartsMatch ps t := by
  rw [choices_term]
  constructor
  · rintro ⟨ts, h, hm⟩
    obtain ⟨t, ht, hm⟩ := star_iff.mp hm
    exact ⟨t, ht, ts, h, hm⟩
  · rintro ⟨t, ht, ts, h, hm⟩
    exact ⟨ts, h, star_iff.mpr ⟨t, ht, hm⟩⟩

theorem parts_empty {s : Str} : PartsMatch [] s ↔ s = [] := by
  simp only [PartsMatch, choices, List.mem_singleton, exists_eq_left]
  constructor
  · intro h
    cases h
    rfl
  · rintro rfl
    exact .nil

theorem not_two_stars {qs : List Part} (h : Good (.term .star :: .term .star :: qs)) : False := by
  obtain ⟨ts, hts⟩ := List.exists_mem_of_ne_nil _ (choices_ne_nil h.tail.tail.1)
  have := h.2 (.star :: .star :: ts) (by simpa [choices] using hts)
  exact this

theorem option_text_ne {o : List Term} (h : ∃ t ∈ o, t.Single) : termsText o ≠ [] := by
  obtain ⟨t, ht, _⟩ := h
  cases o with
  | nil => cases ht
  | cons u us => simp [termsText, term_text_ne]

theorem length_option {r : Char} : ∀ {l : List Str} {a : Str}, a ∈ l → a.length ≤ ([r].intercalate l).length
  | [b], a, h => by
    simp only [List.mem_singleton] at h
    simp [List.intercalate, List.intersperse, h]
  | b :: c :: cs, a, h => by
    rw [inter_cons' b (by simp)]
    rcases List.mem_cons.mp h with rfl | h
    · simp
    · have := length_option (r := r) h
      simp only [List.length_append, List.length_cons]
      omega

theorem loop_cons (n : Nat) (p : Char) (ps : Str) (c : Char) (cs : Str) :
    matchLoop (n + 1) (p :: ps) (c :: cs) =
    if p = '\\' then
      match ps with
      | [] => .bad
      | q :: qs => if q.toNat = 0xfffd then .bad else if q = c then matchLoop n qs cs else .no
    else if p = '*' then
      if ps = [] then .yes
      else if (endings (c :: cs)).any (fun t => enter (matchLoop n) ps t = .yes) then .yes else .no
    else if p = '[' then
      match cutEsc ']' false ps with
      | none => .bad
      | some (cls, rest) =>
        match classMatch cls c with
        | .bad => .bad
        | .no => .no
        | .yes => matchLoop n rest cs
    else if p = '{' then
      match cutEsc '}' false ps with
      | none => .bad
      | some (opts, rest) => firstOption (fun o => enter (matchLoop n) (o ++ rest) (c :: cs)) (split ',' opts)
    else if p = '?' ∨ p = c then matchLoop n ps cs
    else .no := rfl

theorem loop_lit {n : Nat} {p c : Char} {ps cs : Str} (h1 : p ≠ '\\') (h2 : p ≠ '*') (h3 : p ≠ '[') (h4 : p ≠ '{') :
    matchLoop (n + 1) (p :: ps) (c :: cs) = if p = '?' ∨ p = c then matchLoop n ps cs else .no := by
  rw [loop_cons, if_neg h1, if_neg h2, if_neg h3, if_neg h4]

/-- The loop decides whether the parts stand for the text. -/
theorem loop_agrees : ∀ (n : Nat) (ps : List Part) (s : Str), (partsText ps).length ≤ n → Good ps →
    Agrees (matchLoop n (partsText ps) s) (PartsMatch ps s) := by
  intro n
  induction n with
  | zero =>
    intro ps s hn _
    have : partsText ps = [] := List.length_eq_zero_iff.mp (by omega)
    rw [this]
    rw [partsText_eq_nil] at this
    subst this
    refine Agrees.congr ?_ parts_empty.symm
    cases s with
    | nil => exact ⟨fun _ => by simp [matchLoop], fun h => absurd rfl h⟩
    | cons c cs => exact ⟨fun h => (by cases h), fun _ => by simp [matchLoop]⟩
  | succ n ih =>
    intro ps s hn hg
    rcases ps with _ | ⟨p, qs⟩
    · refine Agrees.congr ?_ parts_empty.symm
      cases s with
      | nil => exact ⟨fun _ => by simp [matchLoop, partsText], fun h => absurd rfl h⟩
      | cons c cs => exact ⟨fun h => (by cases h), fun _ => by simp [matchLoop, partsText]⟩
    rcases s with _ | ⟨c, cs⟩
    · -- the text is empty
      refine Agrees.congr ?_ (parts_nil hg).symm
      obtain ⟨x, xs, hx⟩ := List.exists_cons_of_ne_nil
        (show partsText (p :: qs) ≠ [] by rw [Ne, partsText_eq_nil]; simp)
      have hloop : matchLoop (n + 1) (partsText (p :: qs)) [] =
          if partsText (p :: qs) = ['*'] ∨ partsText (p :: qs) = ['*', '*'] then .yes else .no := by
        rw [hx, matchLoop]
      rw [hloop]
      constructor
      · rintro (h | h)
        · cases h
        · rw [h, if_pos (.inl rfl)]
      · intro hnot
        rw [if_neg]
        rintro (h | h)
        · obtain ⟨qs', he, ht⟩ := text_star h
          rw [partsText_eq_nil] at ht
          subst ht
          exact hnot (.inr he)
        · obtain ⟨qs', he, ht⟩ := text_star h
          obtain ⟨qs'', he', _⟩ := text_star ht
          subst he'
          rw [he] at hg
          exact not_two_stars hg
    have hgt := hg.tail
    rw [partsText_cons] at hn
    have hlen : (partsText qs).length ≤ n := by
      have := List.length_pos_of_ne_nil (part_text_ne p)
      rw [List.length_append] at hn
      omega
    cases p with
    | term t =>
      have hok : t.Ok := hg.1 _ (List.mem_cons_self ..)
      cases t with
      | lit x =>
        refine Agrees.congr ?_ lit_cons.symm
        have ht : partsText (.term (.lit x) :: qs) = litText x ++ partsText qs := partsText_cons _ _
        rw [ht]
        have h := ih qs cs hlen hgt
        have hstep : matchLoop (n + 1) (litText x ++ partsText qs) (c :: cs) =
            if x = c then matchLoop n (partsText qs) cs else .no := by
          unfold litText
          cases hs : Special x with
          | true =>
            rw [if_pos rfl]
            show matchLoop (n + 1) ('\\' :: x :: partsText qs) (c :: cs) = _
            rw [loop_cons, if_pos rfl]
            show (if x.toNat = 0xfffd then Res.bad else if x = c then matchLoop n (partsText qs) cs else .no) = _
            rw [if_neg (special_ne hs).2.1]
          | false =>
            have hx := not_special hs
            rw [if_neg (by simp), List.singleton_append, loop_lit hok.2 hx.1 hx.2.2.1 hx.2.2.2.2.1]
            simp [hx.2.1]
        rw [hstep]
        by_cases e : x = c
        · rw [if_pos e]
          exact h.congr (by simp [e])
        · rw [if_neg e]
          exact ⟨fun hh => absurd hh.1 e, fun _ => rfl⟩
      | one =>
        refine Agrees.congr ?_ one_cons.symm
        have ht : partsText (.term .one :: qs) = '?' :: partsText qs := partsText_cons _ _
        rw [ht, loop_lit (by decide) (by decide) (by decide) (by decide), if_pos (.inl rfl)]
        exact ih qs cs hlen hgt
      | star =>
        refine Agrees.congr ?_ star_parts.symm
        have ht : partsText (.term .star :: qs) = '*' :: partsText qs := partsText_cons _ _
        rw [ht, loop_cons, if_neg (by decide), if_pos rfl]
        by_cases hq : qs = []
        · subst hq
          rw [if_pos (by simp [partsText])]
          exact ⟨fun _ => rfl, fun hh => absurd ⟨[], List.nil_suffix, parts_empty.mpr rfl⟩ hh⟩
        · have hqt : partsText qs ≠ [] := by rwa [Ne, partsText_eq_nil]
          rw [if_neg hqt]
          have key : (endings (c :: cs)).any (fun t => enter (matchLoop n) (partsText qs) t = .yes) = true ↔
              ∃ t, t <:+ c :: cs ∧ PartsMatch qs t := by
            rw [List.any_eq_true]
            constructor
            · rintro ⟨t, ht, he⟩
              rw [mem_endings] at ht
              rw [enter_pos hqt ht.2, decide_eq_true_eq] at he
              exact ⟨t, ht.1, (ih qs t hlen hgt).iff.mp he⟩
            · rintro ⟨t, ht, hm⟩
              have hne : t ≠ [] := by
                rintro rfl
                rcases (parts_nil hgt).mp hm with h | h
                · exact hq h
                · subst h
                  exact not_two_stars hg
              refine ⟨t, mem_endings.mpr ⟨ht, hne⟩, ?_⟩
              rw [enter_pos hqt hne, decide_eq_true_eq]
              exact (ih qs t hlen hgt).iff.mpr hm
          constructor
          · intro h
            rw [if_pos (key.mpr h)]
          · intro h
            rw [if_neg (mt key.mp h)]
      | cls neg rs =>
        refine Agrees.congr ?_ cls_cons.symm
        have ht : partsText (.term (.cls neg rs) :: qs) =
            '[' :: (((if neg then ['^'] else []) ++ rs.flatMap rangeText) ++ ']' :: partsText qs) := by
          rw [partsText_cons, Part.text, Term.text]
          simp
        rw [ht, loop_cons, if_neg (by decide), if_neg (by decide), if_pos rfl,
          cutEsc_at (by decide) (quiet_body (by simp) neg hok.2)]
        simp only
        rw [classMatch_iff neg hok.1 hok.2]
        have h := ih qs cs hlen hgt
        by_cases e : (neg = true ↔ ¬ InRanges rs c)
        · rw [if_pos e]
          exact h.congr (by rw [and_iff_right e])
        · rw [if_neg e]
          exact ⟨fun hh => absurd hh.1 e, fun _ => rfl⟩
    | alt os =>
      refine Agrees.congr ?_ (choices_alt os qs (c :: cs)).symm
      have hok : Part.Ok (.alt os) := hg.1 _ (List.mem_cons_self ..)
      have ht : partsText (.alt os :: qs) =
          '{' :: ([','].intercalate (os.map termsText) ++ '}' :: partsText qs) := by
        rw [partsText_cons, Part.text]
        simp
      have hq : ∀ r, r = ',' ∨ r = '}' ∨ r = '/' → ∀ a ∈ os.map termsText, Quiet r a := by
        intro r hr a ha
        obtain ⟨o, ho, rfl⟩ := List.mem_map.mp ha
        exact quiet_terms hr (hok.2 o ho).1
      have hlast : (os.map termsText).getLast? ≠ some [] := by
        intro hh
        have := List.mem_of_getLast? hh
        obtain ⟨o, ho, he⟩ := List.mem_map.mp this
        exact option_text_ne (hok.2 o ho).2 he
      rw [ht, loop_cons, if_neg (by decide), if_neg (by decide), if_neg (by decide), if_pos rfl,
        cutEsc_at (by decide) (quiet_inter (by decide) (by decide) (hq '}' (by simp)))]
      simp only
      rw [split_inter (by decide) (by simpa using hok.1) (hq ',' (by simp)) hlast]
      refine firstOption_agrees fun o ho => ?_
      have hne := option_text_ne (hok.2 o ho).2
      rw [enter_pos (by simp [hne]) (by simp), ← text_terms]
      refine ih _ _ ?_ (hg.option ho)
      rw [text_terms]
      have h1 := length_option (r := ',') (List.mem_map_of_mem (f := termsText) ho)
      have h2 : (Part.alt os).text.length = ([','].intercalate (os.map termsText)).length + 2 := by
        simp [Part.text]
      rw [List.length_append] at hn ⊢
      omega

/-- `matchComponent` decides whether the parts stand for the text. -/
theorem matchComponent_agrees {ps : List Part} (hne : ps ≠ []) (hg : Good ps) (s : Str) :
    Agrees (matchComponent (partsText ps) s) (PartsMatch ps s) := by
  have ht : partsText ps ≠ [] := by rwa [Ne, partsText_eq_nil]
  have h := loop_agrees _ ps s (Nat.le_refl _) hg
  unfold matchComponent enter
  rw [if_neg (by simp [ht]), if_neg ht]
  by_cases e : s = [] ∧ partsText ps ≠ ['*']
  · rw [if_pos e]
    obtain ⟨rfl, e⟩ := e
    refine ⟨fun hm => ?_, fun _ => rfl⟩
    rcases (parts_nil hg).mp hm with hh | hh
    · exact absurd hh hne
    · subst hh
      exact absurd rfl e
  · rw [if_neg e]
    exact h

/-! ### Paths -/

theorem text_ne_deep {ps : List Part} (hg : Good ps) : partsText ps ≠ ['*', '*'] := by
  intro h
  obtain ⟨qs, rfl, ht⟩ := text_star h
  obtain ⟨qs', rfl, _⟩ := text_star ht
  exact not_two_stars hg

theorem path_nil {cs : List PatComp} (h : PathMatch cs []) : cs = [] := by
  generalize hn : ([] : List Str) = ns at h
  induction h with
  | nil => rfl
  | parts => cases hn
  | deepLast => cases hn
  | @deep cs ms ns hne _ ih =>
    obtain ⟨rfl, rfl⟩ := List.append_eq_nil_iff.mp hn.symm
    exact absurd (ih rfl) hne

theorem deep_iff {cs : List PatComp} (hc : cs ≠ []) {ns : List Str} :
    PathMatch (.deep :: cs) ns ↔ ∃ ms, ms <:+ ns ∧ PathMatch cs ms := by
  constructor
  · intro h
    generalize hd : PatComp.deep :: cs = ds at h
    cases h with
    | nil => cases hd
    | parts => cases hd
    | deepLast =>
      simp only [List.cons.injEq, true_and] at hd
      exact absurd hd hc
    | deep _ hm =>
      simp only [List.cons.injEq, true_and] at hd
      subst hd
      exact ⟨_, List.suffix_append _ _, hm⟩
  · rintro ⟨ms, ⟨u, rfl⟩, hm⟩
    exact .deep hc hm

theorem doMatching_iff : ∀ (cs : List PatComp) (ns : List Str), (∀ c ∈ cs, c.Ok) →
    (doMatching (cs.map PatComp.text) ns = true ↔ PathMatch cs ns)
  | [], [], _ => by simp [doMatching, PathMatch.nil]
  | [], n :: ns, _ => by
    simp only [List.map_nil, doMatching, Bool.false_eq_true, false_iff]
    intro h
    cases h
  | c :: cs, [], _ => by
    simp only [List.map_cons, doMatching, Bool.false_eq_true, false_iff]
    intro h
    cases path_nil h
  | c :: cs, n :: ns, h => by
    have hcs : ∀ x ∈ cs, x.Ok := fun x hx => h x (List.mem_cons_of_mem _ hx)
    rw [List.map_cons, doMatching]
    cases c with
    | deep =>
      rw [if_pos (show PatComp.deep.text = ['*', '*'] from rfl)]
      by_cases hc : cs = []
      · subst hc
        simp only [List.map_nil, if_true, true_iff]
        exact .deepLast
      · rw [if_neg (by simpa using hc), deep_iff hc, List.any_eq_true]
        constructor
        · rintro ⟨ms, hms, hm⟩
          rw [mem_endings] at hms
          exact ⟨ms, hms.1, (doMatching_iff cs ms hcs).mp hm⟩
        · rintro ⟨ms, hms, hm⟩
          refine ⟨ms, mem_endings.mpr ⟨hms, ?_⟩, (doMatching_iff cs ms hcs).mpr hm⟩
          rintro rfl
          exact hc (path_nil hm)
    | parts ps =>
      have hp := h _ (List.mem_cons_self ..)
      have hg : Good ps := hp.2
      rw [if_neg (show PatComp.text (.parts ps) ≠ ['*', '*'] from text_ne_deep hg), Bool.and_eq_true, decide_eq_true_eq, doMatching_iff cs ns hcs,
        (show matchComponent (PatComp.text (.parts ps)) n = .yes ↔ PartsMatch ps n from
          (matchComponent_agrees hp.1 hg n).iff)]
      constructor
      · rintro ⟨h1, h2⟩
        exact .parts h1 h2
      · intro hm
        cases hm with
        | parts h1 h2 => exact ⟨h1, h2⟩

theorem quiet_comp {c : PatComp} (h : c.Ok) : Quiet '/' c.text := by
  cases c with
  | deep => exact .plain (by decide) (by decide) (.plain (by decide) (by decide) .nil)
  | parts ps => exact quiet_parts h.2.1

theorem comp_text_ne {c : PatComp} (h : c.Ok) : c.text ≠ [] := by
  cases c with
  | deep => simp [PatComp.text]
  | parts ps =>
    show partsText ps ≠ []
    rw [Ne, partsText_eq_nil]
    exact h.1

theorem split_pattern {cs : List PatComp} (hne : cs ≠ []) (h : ∀ c ∈ cs, c.Ok) :
    split '/' (patternText cs) = cs.map PatComp.text := by
  refine split_inter (by decide) (by simpa using hne) ?_ ?_
  · intro a ha
    obtain ⟨c, hc, rfl⟩ := List.mem_map.mp ha
    exact quiet_comp (h c hc)
  · intro hh
    obtain ⟨c, hc, he⟩ := List.mem_map.mp (List.mem_of_getLast? hh)
    exact comp_text_ne (h c hc) he

theorem quiet_name {n : Str} (h : '/' ∉ n ∧ '\\' ∉ n) : Quiet '/' n :=
  quiet_of_plain fun _ hc => ⟨fun e => h.1 (e ▸ hc), fun e => h.2 (e ▸ hc)⟩

theorem split_name {ns : List Str} (h : NameComps ns) : split '/' (nameText ns) = ns := by
  by_cases e : ns = [[]]
  · subst e
    rfl
  · exact split_inter (by decide) h.1 (fun a ha => quiet_name (h.2.1 a ha)) fun hh => e (h.2.2 hh)

/-- A slash at the end of a text makes no difference to its components. -/
theorem splitLoop_trail {r : Char} (cur : Str) (esc : Bool) : ∀ (s : Str), s.getLast? ≠ some '\\' →
    s.getLast? ≠ some r → s ≠ [] → splitLoop r cur esc (s ++ [r]) = splitLoop r cur esc s := by
  intro s
  induction s generalizing cur esc with
  | nil => intro _ _ h; exact absurd rfl h
  | cons c s ih =>
    intro h1 h2 _
    cases s with
    | nil =>
      simp only [List.getLast?_singleton, ne_eq, Option.some.injEq] at h1 h2
      have h1' : decide (c = '\\') = false := by simp [h1]
      simp [splitLoop, h2, h1']
    | cons d s =>
      have h1' : (d :: s).getLast? ≠ some '\\' := by simpa using h1
      have h2' : (d :: s).getLast? ≠ some r := by simpa using h2
      rw [List.cons_append, splitLoop, splitLoop]
      split
      · rw [ih _ _ h1' h2' (by simp)]
      · rw [ih _ _ h1' h2' (by simp)]

end Glob
end Drone
