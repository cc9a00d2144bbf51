import Verif.Model.PathMatch
import Verif.Spec.PathMatch
import Verif.Props.Foreign
import Mathlib.Data.List.Forall2
import Mathlib.Tactic.Push
/-
C117: what the patterns of a Bitbucket file stand for (/repo/yaml/converter/bitbucket/config.go:75-93).
-/
namespace Drone
namespace PathMatch
open Spec.PathMatch

/-! ### Classes -/

theorem getEsc_some {p rest : Str} {c : Char} (h : getEsc p = some (c, rest)) :
    ∃ t, EndText t c ∧ p = t ++ rest ∧ rest ≠ [] := by
  cases p with
  | nil => cases h
  | cons x xs =>
    simp only [getEsc] at h
    by_cases h1 : x = '-' ∨ x = ']'
    · rw [if_pos h1] at h; cases h
    · rw [if_neg h1] at h
      by_cases h2 : x = '\\'
      · rw [if_pos h2] at h
        cases xs with
        | nil => cases h
        | cons d ds =>
          by_cases h3 : ds = []
          · simp only [h3, if_true] at h; cases h
          · simp only [h3, if_false, Option.some.injEq, Prod.mk.injEq] at h
            obtain ⟨rfl, rfl⟩ := h
            exact ⟨['\\', d], .escaped, by rw [h2]; rfl, h3⟩
      · rw [if_neg h2] at h
        by_cases h3 : xs = []
        · rw [if_pos h3] at h; cases h
        · rw [if_neg h3] at h
          cases h
          push Not at h1
          exact ⟨[c], .plain (by simp [h1.1, h1.2, h2]), rfl, h3⟩

theorem getEsc_text {t rest : Str} {c : Char} (h : EndText t c) (hr : rest ≠ []) : getEsc (t ++ rest) = some (c, rest) := by
  cases h with
  | plain hc =>
    simp only [List.mem_cons, List.not_mem_nil, or_false, not_or] at hc
    show getEsc (c :: rest) = _
    simp only [getEsc]
    rw [if_neg (by simp [hc]), if_neg hc.1, if_neg hr]
  | escaped =>
    show getEsc ('\\' :: c :: rest) = _
    simp only [getEsc]
    simp [hr]

theorem EndText.head {t : Str} {c : Char} (h : EndText t c) : ∃ x xs, t = x :: xs ∧ x ≠ '-' ∧ x ≠ ']' := by
  cases h with
  | plain hc =>
    simp only [List.mem_cons, List.not_mem_nil, or_false, not_or] at hc
    exact ⟨c, [], rfl, hc.2.1, hc.2.2⟩
  | escaped => exact ⟨'\\', [c], rfl, by decide, by decide⟩

theorem RangeText.head {t : Str} {r : Char × Char} (h : RangeText t r) : ∃ x xs, t = x :: xs ∧ x ≠ '-' ∧ x ≠ ']' := by
  cases h with
  | one h => exact EndText.head h
  | range h _ =>
    obtain ⟨x, xs, rfl, h1⟩ := EndText.head h
    exact ⟨x, _, rfl, h1⟩

theorem RangesText.head {t : Str} {rs : List (Char × Char)} (h : RangesText t rs) : ∃ x xs, t = x :: xs ∧ x ≠ '-' ∧ x ≠ ']' := by
  cases h with
  | last h => exact RangeText.head h
  | cons h _ =>
    obtain ⟨x, xs, rfl, h1⟩ := RangeText.head h
    exact ⟨x, _, rfl, h1⟩

/-- Has one of the ranges the character? -/
def within (x : Char) (rs : List (Char × Char)) : Bool := rs.any fun r => decide (r.1 ≤ x ∧ x ≤ r.2)

theorem within_iff (x : Char) (rs : List (Char × Char)) : within x rs = true ↔ ∃ r ∈ rs, r.1 ≤ x ∧ x ≤ r.2 := by
  simp [within]

theorem ranges_sound (x : Char) : ∀ (n : Nat) (m seen : Bool) (p rest : Str) (b : Bool), ranges x n m seen p = some (b, rest) →
    (seen = true ∧ p = ']' :: rest ∧ b = m) ∨
    ∃ u rs, RangesText u rs ∧ p = u ++ ']' :: rest ∧ b = (m || within x rs) := by
  intro n
  induction n with
  | zero => intro m seen p rest b h; cases h
  | succ n ih =>
    intro m seen p rest b h
    unfold ranges at h
    by_cases h1 : p.head? = some ']' ∧ seen = true
    · rw [if_pos h1] at h
      cases h
      cases p with
      | nil => cases h1.1
      | cons y ys =>
        cases h1.1
        exact .inl ⟨h1.2, rfl, rfl⟩
    · rw [if_neg h1] at h
      cases he : getEsc p with
      | none => rw [he] at h; cases h
      | some q =>
        obtain ⟨lo, r1⟩ := q
        rw [he] at h
        obtain ⟨t, ht, rfl, hr1⟩ := getEsc_some he
        right
        have fin : ∀ (t : Str) (r : Char × Char) (r2 : Str) , RangeText t r →
            ranges x n (m || decide (r.1 ≤ x ∧ x ≤ r.2)) true r2 = some (b, rest) →
            ∃ u rs, RangesText u rs ∧ t ++ r2 = u ++ ']' :: rest ∧ b = (m || within x rs) := by
          intro t r r2 hr hx
          rcases ih _ _ _ _ _ hx with ⟨_, rfl, rfl⟩ | ⟨u, rs, hu, rfl, rfl⟩
          · exact ⟨t, [r], .last hr, rfl, by simp [within]⟩
          · exact ⟨t ++ u, r :: rs, .cons hr hu, by simp, by simp [within, Bool.or_assoc]⟩
        simp only at h
        by_cases h2 : r1.head? = some '-'
        · rw [if_pos h2] at h
          cases r1 with
          | nil => cases h2
          | cons y ys =>
            cases h2
            cases he2 : getEsc (('-' :: ys).tail) with
            | none => rw [he2] at h; cases h
            | some q =>
              obtain ⟨hi, r3⟩ := q
              rw [he2] at h
              obtain ⟨t2, ht2, e, _⟩ := getEsc_some he2
              have e : ys = t2 ++ r3 := e
              subst e
              have := fin (t ++ '-' :: t2) (lo, hi) r3 (.range ht ht2) h
              simpa using this
        · rw [if_neg h2] at h
          exact fin t (lo, lo) r1 (.one ht) h

theorem ranges_text (x : Char) {u : Str} {rs : List (Char × Char)} (h : RangesText u rs) : ∀ (n : Nat) (m seen : Bool) (rest : Str),
    u.length < n → ranges x n m seen (u ++ ']' :: rest) = some (m || within x rs, rest) := by
  have one : ∀ {t : Str} {r : Char × Char} (_ : RangeText t r) (n : Nat) (m seen : Bool) (more : Str), more ≠ [] → more.head? ≠ some '-' →
      ranges x (n + 1) m seen (t ++ more) = ranges x n (m || decide (r.1 ≤ x ∧ x ≤ r.2)) true more := by
    intro t r hr n m seen more hm hd
    obtain ⟨y, ys, e, h1, h2⟩ := RangeText.head hr
    unfold ranges
    rw [if_neg (by rw [e]; simp [h2])]
    cases hr with
    | one ht =>
      rw [getEsc_text ht hm]
      simp only
      rw [if_neg hd]
      rw [ranges.eq_def]
    | @range t u lo hi ht hu =>
      have e2 : t ++ '-' :: u ++ more = t ++ ('-' :: (u ++ more)) := by simp
      rw [e2, getEsc_text ht (by simp)]
      simp only [List.head?_cons, List.tail_cons, if_true]
      rw [getEsc_text hu hm]
      simp only
      rw [ranges.eq_def]
  induction h with
  | @last t r hr =>
    intro n m seen rest hn
    obtain ⟨n, rfl⟩ : ∃ k, n = k + 2 := ⟨n - 2, by
      obtain ⟨y, ys, e, _⟩ := RangeText.head hr
      rw [e] at hn
      simp at hn
      omega⟩
    rw [one hr _ m seen _ (by simp) (by simp), ranges]
    simp [within]
  | @cons t u r rs hr hu ih =>
    intro n m seen rest hn
    obtain ⟨y, ys, e, h1, h2⟩ := RangeText.head hr
    obtain ⟨z, zs, e', h1', h2'⟩ := RangesText.head hu
    obtain ⟨n, rfl⟩ : ∃ k, n = k + 1 := ⟨n - 1, by omega⟩
    rw [List.append_assoc, one hr n m seen _ (by simp) (by rw [e']; simp [h1']), ih _ _ _ _ (by
      rw [List.length_append, e] at hn
      simp at hn
      omega)]
    simp [within, Bool.or_assoc]

/-! ### Scanning -/

theorem scanTo_append (t : Str) : ∀ b, (scanTo b t).1 ++ (scanTo b t).2 = t := by
  intro b
  fun_induction scanTo b t <;> simp_all

/-- The text has no star outside of brackets. -/
def Clean (t : Str) : Prop := scanTo false t = (t, [])

theorem scanTo_plain {c : Char} (b : Bool) (cs : Str) (h1 : c = '\\' → cs = []) (h2 : c ≠ '[') (h3 : c ≠ ']') (h4 : c ≠ '*') :
    scanTo b (c :: cs) = (c :: (scanTo b cs).1, (scanTo b cs).2) := by
  rw [scanTo]
  · exact fun d ds e1 e2 => by rw [h1 e1] at e2; cases e2
  · exact h2
  · exact h3
  · exact h4

theorem scanTo_clean (b : Bool) (t : Str) : scanTo b (scanTo b t).1 = ((scanTo b t).1, []) := by
  fun_induction scanTo b t with
  | case1 => rfl
  | case2 b c cs ih =>
    rw [scanTo]
    simp only [ih]
  | case3 b cs ih => rw [scanTo]; simp only [ih]
  | case4 b cs ih => rw [scanTo]; simp only [ih]
  | case5 cs ih =>
    rw [scanTo]
    simp only [ih, if_true]
  | case6 => rfl
  | case7 b c cs h1 h2 h3 h4 ih =>
    rw [scanTo_plain b _ (fun e => ?_) h2 h3 h4]
    · simp only [ih]
    · cases cs with
      | nil => rfl
      | cons d ds => exact (h1 d ds e rfl).elim

theorem scanTo_end {t : Str} {c : Char} (h : EndText t c) (more : Str) :
    scanTo true (t ++ more) = (t ++ (scanTo true more).1, (scanTo true more).2) := by
  cases h with
  | plain hc =>
    simp only [List.mem_cons, List.not_mem_nil, or_false, not_or] at hc
    by_cases h1 : c = '['
    · subst h1
      rfl
    · by_cases h2 : c = '*'
      · subst h2
        show scanTo true ('*' :: more) = _
        rw [scanTo]
        rfl
      · exact scanTo_plain true more (fun e => absurd e hc.1) h1 hc.2.2 h2
  | escaped => rfl

theorem scanTo_range {t : Str} {r : Char × Char} (h : RangeText t r) (more : Str) :
    scanTo true (t ++ more) = (t ++ (scanTo true more).1, (scanTo true more).2) := by
  cases h with
  | one h => exact scanTo_end h more
  | range h h' =>
    rw [List.append_assoc, scanTo_end h, List.cons_append, scanTo_plain true _ (fun h => absurd h (by decide)) (by decide) (by decide) (by decide), scanTo_end h']
    simp

theorem scanTo_ranges {u : Str} {rs : List (Char × Char)} (h : RangesText u rs) (more : Str) :
    scanTo true (u ++ ']' :: more) = (u ++ ']' :: (scanTo false more).1, (scanTo false more).2) := by
  induction h with
  | last h => rw [scanTo_range h]; rfl
  | cons h _ ih => rw [List.append_assoc, scanTo_range h, ih]; simp

/-- Scanning a text of a pattern finds the parts up to the next star. -/
theorem scanTo_text {t : Str} {p : List Part} (h : Text t p) :
    ∃ es p', p = es ++ p' ∧ Part.star ∉ es ∧ Text (scanTo false t).1 es ∧ Text (scanTo false t).2 p' ∧
      (p' = [] ∧ (scanTo false t).2 = [] ∨ ∃ p'', p' = .star :: p'' ∧ (scanTo false t).2 ≠ []) := by
  induction h with
  | nil => exact ⟨[], [], rfl, by simp, .nil, .nil, .inl ⟨rfl, rfl⟩⟩
  | @lit c t p hc ht ih =>
    obtain ⟨es, p', rfl, h1, h2, h3, h4⟩ := ih
    have hc' := hc
    simp only [List.mem_cons, List.not_mem_nil, or_false, not_or] at hc
    by_cases hb : c = ']'
    · subst hb
      exact ⟨.lit ']' :: es, p', rfl, by simpa using h1, .lit hc' h2, h3, h4⟩
    · rw [scanTo_plain false t (fun e => absurd e hc.2.2.1) hc.2.2.2 hb hc.1]
      exact ⟨.lit c :: es, p', rfl, by simpa using h1, .lit hc' h2, h3, h4⟩
  | @escaped c t p ht ih =>
    obtain ⟨es, p', rfl, h1, h2, h3, h4⟩ := ih
    exact ⟨.lit c :: es, p', rfl, by simpa using h1, .escaped h2, h3, h4⟩
  | @any t p ht ih =>
    obtain ⟨es, p', rfl, h1, h2, h3, h4⟩ := ih
    rw [scanTo_plain false t (fun h => absurd h (by decide)) (by decide) (by decide) (by decide)]
    exact ⟨.any :: es, p', rfl, by simpa using h1, .any h2, h3, h4⟩
  | @star t p ht _ =>
    have : scanTo false ('*' :: t) = ([], '*' :: t) := by rw [scanTo]; rfl
    rw [this]
    exact ⟨[], .star :: p, rfl, by simp, .nil, .star ht, .inr ⟨p, rfl, by simp⟩⟩
  | @cls u rs t p hu hn ht ih =>
    obtain ⟨es, p', rfl, h1, h2, h3, h4⟩ := ih
    have : scanTo false ('[' :: (u ++ ']' :: t)) = ('[' :: (u ++ ']' :: (scanTo false t).1), (scanTo false t).2) := by
      rw [scanTo, scanTo_ranges hu]
    rw [this]
    exact ⟨.cls false rs :: es, p', rfl, by simpa using h1, .cls hu hn h2, h3, h4⟩
  | @notCls u rs t p hu ht ih =>
    obtain ⟨es, p', rfl, h1, h2, h3, h4⟩ := ih
    have : scanTo false ('[' :: '^' :: (u ++ ']' :: t)) = ('[' :: '^' :: (u ++ ']' :: (scanTo false t).1), (scanTo false t).2) := by
      rw [scanTo, scanTo_plain true _ (fun h => absurd h (by decide)) (by decide) (by decide) (by decide), scanTo_ranges hu]
    rw [this]
    exact ⟨.cls true rs :: es, p', rfl, by simpa using h1, .notCls hu h2, h3, h4⟩

theorem Text.append {t u : Str} {p q : List Part} (h : Text t p) (h' : Text u q) : Text (t ++ u) (p ++ q) := by
  induction h with
  | nil => exact h'
  | lit hc _ ih => exact .lit hc ih
  | escaped _ ih => exact .escaped ih
  | any _ ih => exact .any ih
  | star _ ih => exact .star ih
  | cls hu hn _ ih => simpa using Text.cls hu hn ih
  | notCls hu _ ih => simpa using Text.notCls hu ih

theorem text_stars (n : Nat) : Text (List.replicate n '*') (List.replicate n .star) := by
  induction n with
  | zero => exact .nil
  | succ n ih => exact .star ih

/-! ### Chunks -/

/-- The parts stand for these characters, one for each. -/
abbrev Chunk (es : List Part) (pre : Str) : Prop := List.Forall₂ Part.Stands es pre

theorem matchChunk_cons (n : Nat) (p : Char) (ps : Str) (x : Char) (xs : Str) : matchChunk (n + 1) (p :: ps) (x :: xs) =
    if p = '[' then
      match ranges x (ps.length + 1) false false (if ps.head? = some '^' then ps.tail else ps) with
      | none => .bad
      | some (m, rest) => if m = decide (ps.head? ≠ some '^') then matchChunk n rest xs else .no
    else if p = '?' then
      if x = '/' then .no else matchChunk n ps xs
    else if p = '\\' then
      match ps with
      | [] => .bad
      | q :: qs => if q = x then matchChunk n qs xs else .no
    else if p = x then matchChunk n ps xs
    else .no := by
  cases ps <;> rfl

theorem matchChunk_empty (n : Nat) (p : Char) (ps : Str) : matchChunk n (p :: ps) [] = .no := by
  cases n <;> rfl

theorem matchChunk_sound : ∀ (n : Nat) (chunk s rest : Str), Clean chunk → matchChunk n chunk s = .ok rest →
    ∃ es pre, Text chunk es ∧ s = pre ++ rest ∧ Chunk es pre := by
  intro n
  induction n with
  | zero =>
    intro chunk s rest hc h
    cases chunk with
    | nil =>
      cases h
      exact ⟨[], [], .nil, rfl, .nil⟩
    | cons p ps =>
      cases s <;> cases h
  | succ n ih =>
    intro chunk s rest hc h
    cases chunk with
    | nil =>
      cases h
      exact ⟨[], [], .nil, rfl, .nil⟩
    | cons p ps =>
      cases s with
      | nil => cases h
      | cons x xs =>
        rw [matchChunk_cons] at h
        by_cases h1 : p = '['
        · subst h1
          rw [if_pos rfl] at h
          by_cases hh : ps.head? = some '^'
          · obtain ⟨qs, rfl⟩ : ∃ qs, ps = '^' :: qs := by
              cases ps with
              | nil => cases hh
              | cons y ys => cases hh; exact ⟨ys, rfl⟩
            simp only [List.head?_cons, if_true, List.tail_cons] at h
            cases hr : ranges x (('^' :: qs).length + 1) false false qs with
            | none => rw [hr] at h; cases h
            | some q =>
              obtain ⟨m, r⟩ := q
              rw [hr] at h
              rcases ranges_sound x _ _ _ _ _ _ hr with ⟨h, _⟩ | ⟨u, rs, hu, rfl, rfl⟩
              · cases h
              · simp only [ne_eq, not_true_eq_false, decide_false, Bool.false_or] at h
                by_cases hm : within x rs = false
                · rw [if_pos hm] at h
                  have hcl : Clean r := by
                    unfold Clean at hc ⊢
                    rw [scanTo, scanTo_plain true _ (fun h => absurd h (by decide)) (by decide) (by decide) (by decide), scanTo_ranges hu] at hc
                    simp only [Prod.mk.injEq, List.cons.injEq, true_and, List.append_cancel_left_eq] at hc
                    exact Prod.ext hc.1 hc.2
                  obtain ⟨es, pre, e1, rfl, e3⟩ := ih _ _ _ hcl h
                  refine ⟨.cls true rs :: es, x :: pre, .notCls hu e1, rfl, .cons ?_ e3⟩
                  show _ ↔ _
                  rw [← within_iff, hm]
                  decide
                · rw [if_neg hm] at h; cases h
          · simp only [hh, if_false] at h
            cases hr : ranges x (ps.length + 1) false false ps with
            | none => rw [hr] at h; cases h
            | some q =>
              obtain ⟨m, r⟩ := q
              rw [hr] at h
              rcases ranges_sound x _ _ _ _ _ _ hr with ⟨h, _⟩ | ⟨u, rs, hu, rfl, rfl⟩
              · cases h
              · simp only [ne_eq, hh, not_false_eq_true, decide_true, Bool.false_or] at h
                by_cases hm : within x rs = true
                · rw [if_pos hm] at h
                  have hcl : Clean r := by
                    unfold Clean at hc ⊢
                    rw [scanTo, scanTo_ranges hu] at hc
                    simp only [Prod.mk.injEq, List.cons.injEq, true_and, List.append_cancel_left_eq] at hc
                    exact Prod.ext hc.1 hc.2
                  obtain ⟨es, pre, e1, rfl, e3⟩ := ih _ _ _ hcl h
                  refine ⟨.cls false rs :: es, x :: pre, .cls hu ?_ e1, rfl, .cons ?_ e3⟩
                  · obtain ⟨y, ys, e, _⟩ := RangesText.head hu
                    rw [e] at hh ⊢
                    exact hh
                  · show _ ↔ _
                    rw [← within_iff, hm]
                    decide
                · rw [if_neg hm] at h; cases h
        · rw [if_neg h1] at h
          by_cases h2 : p = '?'
          · subst h2
            rw [if_pos rfl] at h
            by_cases hx : x = '/'
            · rw [if_pos hx] at h; cases h
            · rw [if_neg hx] at h
              have hcl : Clean ps := by
                unfold Clean at hc ⊢
                rw [scanTo_plain false _ (fun h => absurd h (by decide)) (by decide) (by decide) (by decide)] at hc
                simp only [Prod.mk.injEq, List.cons.injEq, true_and] at hc
                exact Prod.ext hc.1 hc.2
              obtain ⟨es, pre, e1, rfl, e3⟩ := ih _ _ _ hcl h
              exact ⟨.any :: es, x :: pre, .any e1, rfl, .cons hx e3⟩
          · rw [if_neg h2] at h
            by_cases h3 : p = '\\'
            · subst h3
              rw [if_pos rfl] at h
              cases ps with
              | nil => cases h
              | cons q qs =>
                simp only at h
                by_cases hq : q = x
                · subst hq
                  rw [if_pos rfl] at h
                  have hcl : Clean qs := by
                    unfold Clean at hc ⊢
                    rw [scanTo] at hc
                    simp only [Prod.mk.injEq, List.cons.injEq, true_and] at hc
                    exact Prod.ext hc.1 hc.2
                  obtain ⟨es, pre, e1, rfl, e3⟩ := ih _ _ _ hcl h
                  exact ⟨.lit q :: es, q :: pre, .escaped e1, rfl, .cons rfl e3⟩
                · rw [if_neg hq] at h; cases h
            · rw [if_neg h3] at h
              by_cases hx : p = x
              · subst hx
                rw [if_pos rfl] at h
                have h4 : p ≠ '*' := by
                  rintro rfl
                  unfold Clean at hc
                  rw [scanTo] at hc
                  simp at hc
                have hcl : Clean ps := by
                  unfold Clean at hc ⊢
                  by_cases h5 : p = ']'
                  · subst h5
                    rw [scanTo] at hc
                    simp only [Prod.mk.injEq, List.cons.injEq, true_and] at hc
                    exact Prod.ext hc.1 hc.2
                  · rw [scanTo_plain false _ (fun e => absurd e h3) h1 h5 h4] at hc
                    simp only [Prod.mk.injEq, List.cons.injEq, true_and] at hc
                    exact Prod.ext hc.1 hc.2
                obtain ⟨es, pre, e1, rfl, e3⟩ := ih _ _ _ hcl h
                exact ⟨.lit p :: es, p :: pre, .lit (by simp [h1, h2, h3, h4]) e1, rfl, .cons rfl e3⟩
              · rw [if_neg hx] at h; cases h

/-- On the text of a chunk, a match is found exactly if there is one, and the text is not bad. -/
theorem matchChunk_text {chunk : Str} {es : List Part} (h : Text chunk es) (hs : Part.star ∉ es) : ∀ (n : Nat) (s : Str), chunk.length ≤ n →
    (∀ pre rest, s = pre ++ rest → Chunk es pre → matchChunk n chunk s = .ok rest) ∧ matchChunk n chunk s ≠ .bad := by
  induction h with
  | nil =>
    intro n s _
    refine ⟨fun pre rest e hc => ?_, ?_⟩
    · cases hc
      subst e
      cases n <;> rfl
    · cases n <;> nofun
  | @lit c t p hc ht ih =>
    intro n s hn
    obtain ⟨n, rfl⟩ : ∃ k, n = k + 1 := ⟨n - 1, by simp at hn; omega⟩
    simp only [List.mem_cons, List.not_mem_nil, or_false, not_or] at hc
    cases s with
    | nil => exact ⟨fun pre rest e hx => (by cases hx; cases e), by rw [matchChunk_empty]; nofun⟩
    | cons x xs =>
      obtain ⟨i1, i2⟩ := ih (fun hm => hs (.tail _ hm)) n xs (by simp at hn; omega)
      rw [matchChunk_cons, if_neg hc.2.2.2, if_neg hc.2.1, if_neg hc.2.2.1]
      refine ⟨fun pre rest e hx => ?_, ?_⟩
      · cases hx with
        | cons h1 h2 =>
          cases e
          rw [if_pos (Eq.symm h1)]
          exact i1 _ _ rfl h2
      · split
        · exact i2
        · nofun
  | @escaped c t p ht ih =>
    intro n s hn
    obtain ⟨n, rfl⟩ : ∃ k, n = k + 1 := ⟨n - 1, by simp at hn; omega⟩
    cases s with
    | nil => exact ⟨fun pre rest e hx => (by cases hx; cases e), by rw [matchChunk_empty]; nofun⟩
    | cons x xs =>
      obtain ⟨i1, i2⟩ := ih (fun hm => hs (.tail _ hm)) n xs (by simp at hn; omega)
      rw [matchChunk_cons, if_neg (by decide), if_neg (by decide), if_pos rfl]
      refine ⟨fun pre rest e hx => ?_, ?_⟩
      · cases hx with
        | cons h1 h2 =>
          cases e
          simp only
          rw [if_pos (Eq.symm h1)]
          exact i1 _ _ rfl h2
      · simp only
        split
        · exact i2
        · nofun
  | @any t p ht ih =>
    intro n s hn
    obtain ⟨n, rfl⟩ : ∃ k, n = k + 1 := ⟨n - 1, by simp at hn; omega⟩
    cases s with
    | nil => exact ⟨fun pre rest e hx => (by cases hx; cases e), by rw [matchChunk_empty]; nofun⟩
    | cons x xs =>
      obtain ⟨i1, i2⟩ := ih (fun hm => hs (.tail _ hm)) n xs (by simp at hn; omega)
      rw [matchChunk_cons, if_neg (by decide), if_pos rfl]
      refine ⟨fun pre rest e hx => ?_, ?_⟩
      · cases hx with
        | cons h1 h2 =>
          cases e
          rw [if_neg h1]
          exact i1 _ _ rfl h2
      · split
        · nofun
        · exact i2
  | star _ _ => exact absurd (.head _) hs
  | @cls u rs t p hu hh ht ih =>
    intro n s hn
    obtain ⟨n, rfl⟩ : ∃ k, n = k + 1 := ⟨n - 1, by simp at hn; omega⟩
    cases s with
    | nil => exact ⟨fun pre rest e hx => (by cases hx; cases e), by rw [matchChunk_empty]; nofun⟩
    | cons x xs =>
      obtain ⟨i1, i2⟩ := ih (fun hm => hs (.tail _ hm)) n xs (by simp at hn; omega)
      have hh' : (u ++ ']' :: t).head? ≠ some '^' := by
        obtain ⟨y, ys, e, _⟩ := RangesText.head hu
        rw [e] at hh ⊢
        exact hh
      have hr := ranges_text x hu ((u ++ ']' :: t).length + 1) false false t (by simp; omega)
      rw [matchChunk_cons, if_pos rfl, if_neg hh', hr]
      simp only [Bool.false_or, ne_eq, hh', not_false_eq_true, decide_true]
      refine ⟨fun pre rest e hx => ?_, ?_⟩
      · cases hx with
        | cons h1 h2 =>
          cases e
          have h1 : _ ↔ _ := h1
          rw [if_pos ((within_iff _ _).2 (h1.2 rfl))]
          exact i1 _ _ rfl h2
      · split
        · exact i2
        · nofun
  | @notCls u rs t p hu ht ih =>
    intro n s hn
    obtain ⟨n, rfl⟩ : ∃ k, n = k + 1 := ⟨n - 1, by simp at hn; omega⟩
    cases s with
    | nil => exact ⟨fun pre rest e hx => (by cases hx; cases e), by rw [matchChunk_empty]; nofun⟩
    | cons x xs =>
      obtain ⟨i1, i2⟩ := ih (fun hm => hs (.tail _ hm)) n xs (by simp at hn; omega)
      have hr := ranges_text x hu (('^' :: (u ++ ']' :: t)).length + 1) false false t (by simp; omega)
      rw [matchChunk_cons, if_pos rfl, List.head?_cons, if_pos rfl, List.tail_cons, hr]
      simp only [Bool.false_or, ne_eq, List.head?_cons, not_true_eq_false, decide_false]
      refine ⟨fun pre rest e hx => ?_, ?_⟩
      · cases hx with
        | cons h1 h2 =>
          cases e
          have h1 : _ ↔ _ := h1
          rw [if_pos (by
            cases hw : within x rs with
            | false => rfl
            | true => exact absurd (h1.1 ((within_iff _ _).1 hw)) (by decide))]
          exact i1 _ _ rfl h2
      · split
        · exact i2
        · nofun

/-- What is found on the text of a chunk is a match of this chunk. -/
theorem matchChunk_back {chunk : Str} {es : List Part} (h : Text chunk es) (hs : Part.star ∉ es) : ∀ (n : Nat) (s rest : Str), chunk.length ≤ n →
    matchChunk n chunk s = .ok rest → ∃ pre, s = pre ++ rest ∧ Chunk es pre := by
  have step : ∀ {e : Part} {p : List Part} {x : Char} {xs rest : Str}, e.Stands x → (∃ pre, xs = pre ++ rest ∧ Chunk p pre) →
      ∃ pre, x :: xs = pre ++ rest ∧ Chunk (e :: p) pre := by
    rintro e p x xs rest he ⟨pre, rfl, h⟩
    exact ⟨x :: pre, rfl, .cons he h⟩
  induction h with
  | nil =>
    intro n s rest _ h
    refine ⟨[], ?_, .nil⟩
    cases n <;> cases h <;> rfl
  | @lit c t p hc ht ih =>
    intro n s rest hn h
    obtain ⟨n, rfl⟩ : ∃ k, n = k + 1 := ⟨n - 1, by simp at hn; omega⟩
    simp only [List.mem_cons, List.not_mem_nil, or_false, not_or] at hc
    cases s with
    | nil => rw [matchChunk_empty] at h; cases h
    | cons x xs =>
      rw [matchChunk_cons, if_neg hc.2.2.2, if_neg hc.2.1, if_neg hc.2.2.1] at h
      split at h
      · rename_i hx
        exact step hx.symm (ih (fun hm => hs (.tail _ hm)) n xs _ (by simp at hn; omega) h)
      · cases h
  | @escaped c t p ht ih =>
    intro n s rest hn h
    obtain ⟨n, rfl⟩ : ∃ k, n = k + 1 := ⟨n - 1, by simp at hn; omega⟩
    cases s with
    | nil => rw [matchChunk_empty] at h; cases h
    | cons x xs =>
      rw [matchChunk_cons, if_neg (by decide), if_neg (by decide), if_pos rfl] at h
      simp only at h
      split at h
      · rename_i hx
        exact step hx.symm (ih (fun hm => hs (.tail _ hm)) n xs _ (by simp at hn; omega) h)
      · cases h
  | @any t p ht ih =>
    intro n s rest hn h
    obtain ⟨n, rfl⟩ : ∃ k, n = k + 1 := ⟨n - 1, by simp at hn; omega⟩
    cases s with
    | nil => rw [matchChunk_empty] at h; cases h
    | cons x xs =>
      rw [matchChunk_cons, if_neg (by decide), if_pos rfl] at h
      split at h
      · cases h
      · rename_i hx
        exact step hx (ih (fun hm => hs (.tail _ hm)) n xs _ (by simp at hn; omega) h)
  | star _ _ => exact absurd (.head _) hs
  | @cls u rs t p hu hh ht ih =>
    intro n s rest hn h
    obtain ⟨n, rfl⟩ : ∃ k, n = k + 1 := ⟨n - 1, by simp at hn; omega⟩
    cases s with
    | nil => rw [matchChunk_empty] at h; cases h
    | cons x xs =>
      have hh' : (u ++ ']' :: t).head? ≠ some '^' := by
        obtain ⟨y, ys, e, _⟩ := RangesText.head hu
        rw [e] at hh ⊢
        exact hh
      have hr := ranges_text x hu ((u ++ ']' :: t).length + 1) false false t (by simp; omega)
      rw [matchChunk_cons, if_pos rfl, if_neg hh', hr] at h
      simp only [Bool.false_or, ne_eq, hh', not_false_eq_true, decide_true] at h
      split at h
      · rename_i hx
        refine step ?_ (ih (fun hm => hs (.tail _ hm)) n xs _ (by simp at hn; omega) h)
        show _ ↔ _
        rw [← within_iff, hx]
        decide
      · cases h
  | @notCls u rs t p hu ht ih =>
    intro n s rest hn h
    obtain ⟨n, rfl⟩ : ∃ k, n = k + 1 := ⟨n - 1, by simp at hn; omega⟩
    cases s with
    | nil => rw [matchChunk_empty] at h; cases h
    | cons x xs =>
      have hr := ranges_text x hu (('^' :: (u ++ ']' :: t)).length + 1) false false t (by simp; omega)
      rw [matchChunk_cons, if_pos rfl, List.head?_cons, if_pos rfl, List.tail_cons, hr] at h
      simp only [Bool.false_or, ne_eq, List.head?_cons, not_true_eq_false, decide_false] at h
      split at h
      · rename_i hx
        refine step ?_ (ih (fun hm => hs (.tail _ hm)) n xs _ (by simp at hn; omega) h)
        show _ ↔ _
        rw [← within_iff, hx]
        decide
      · cases h

/-! ### Names -/

theorem names_chunk {es : List Part} {pre : Str} (h : Chunk es pre) {p : List Part} {s : Str} (hs : Names p s) :
    Names (es ++ p) (pre ++ s) := by
  induction h with
  | nil => exact hs
  | cons h1 _ ih => exact .one h1 ih

theorem names_skip {skip : Str} (h : '/' ∉ skip) {p : List Part} {s : Str} (hs : Names (.star :: p) s) :
    Names (.star :: p) (skip ++ s) := by
  induction skip with
  | nil => exact hs
  | cons x xs ih =>
    simp only [List.mem_cons, not_or] at h
    exact .more (fun e => h.1 e.symm) (ih h.2)

theorem names_stars {k : Nat} {p : List Part} {s : Str} (hs : Names p s) : Names (List.replicate k .star ++ p) s := by
  induction k with
  | zero => exact hs
  | succ k ih => exact .none ih

/-- What a run of stars, a chunk and the rest of a pattern stand for -/
theorem names_split {k : Nat} {es p' : List Part} {name : Str} (hs : Part.star ∉ es)
    (h : Names (List.replicate k .star ++ (es ++ p')) name) :
    ∃ skip pre s', name = skip ++ (pre ++ s') ∧ '/' ∉ skip ∧ (k = 0 → skip = []) ∧ Chunk es pre ∧ Names p' s' := by
  have chunk : ∀ (es : List Part) (name : Str), Part.star ∉ es → Names (es ++ p') name → ∃ pre s', name = pre ++ s' ∧ Chunk es pre ∧ Names p' s' := by
    intro es
    induction es with
    | nil => exact fun name _ h => ⟨[], name, rfl, .nil, h⟩
    | cons e es ih =>
      intro name hn h
      simp only [List.mem_cons, not_or] at hn
      cases h with
      | one h1 h2 =>
        obtain ⟨pre, s', rfl, a, b⟩ := ih _ hn.2 h2
        exact ⟨_ :: pre, s', rfl, .cons h1 a, b⟩
      | none _ => exact absurd rfl hn.1
      | more _ _ => exact absurd rfl hn.1
  induction k generalizing name with
  | zero =>
    obtain ⟨pre, s', rfl, a, b⟩ := chunk es name hs h
    exact ⟨[], pre, s', rfl, by simp, fun _ => rfl, a, b⟩
  | succ k ih =>
    have key : ∀ (q : List Part) (name : Str), Names q name → q = .star :: (List.replicate k .star ++ (es ++ p')) →
        ∃ skip pre s', name = skip ++ (pre ++ s') ∧ '/' ∉ skip ∧ Chunk es pre ∧ Names p' s' := by
      intro q name h
      induction h with
      | nil => nofun
      | one h1 _ _ => rintro ⟨⟩; cases h1
      | none h _ =>
        rintro ⟨⟩
        obtain ⟨skip, pre, s', rfl, a, _, b, c⟩ := ih h
        exact ⟨skip, pre, s', rfl, a, b, c⟩
      | more h1 h2 ih2 =>
        intro e
        obtain ⟨skip, pre, s', rfl, a, b, c⟩ := ih2 e
        refine ⟨_ :: skip, pre, s', rfl, ?_, b, c⟩
        simp only [List.mem_cons, not_or]
        exact ⟨fun e => h1 e.symm, a⟩
    obtain ⟨skip, pre, s', a, b, c, d⟩ := key _ _ h rfl
    exact ⟨skip, pre, s', a, b, fun e => absurd e (by omega), c, d⟩

/-! ### Searching -/

theorem search_sound {chunk : Str} {last : Bool} {name t : Str} (hc : Clean chunk) (h : search chunk last name = some t) :
    ∃ skip es pre, name = skip ++ (pre ++ t) ∧ '/' ∉ skip ∧ Text chunk es ∧ Chunk es pre := by
  induction name with
  | nil => cases h
  | cons x xs ih =>
    rw [search] at h
    by_cases hx : x = '/'
    · rw [if_pos hx] at h; cases h
    · rw [if_neg hx] at h
      have go : search chunk last xs = some t → ∃ skip es pre, x :: xs = skip ++ (pre ++ t) ∧ '/' ∉ skip ∧ Text chunk es ∧ Chunk es pre := by
        intro h
        obtain ⟨skip, es, pre, rfl, a, b, c⟩ := ih h
        exact ⟨x :: skip, es, pre, rfl, by simp [a, Ne.symm hx], b, c⟩
      cases hm : matchChunk chunk.length chunk xs with
      | bad => rw [hm] at h; cases h
      | no =>
        rw [hm] at h
        exact go h
      | ok t' =>
        rw [hm] at h
        simp only at h
        by_cases hl : last = true ∧ t' ≠ []
        · rw [if_pos hl] at h
          exact go h
        · rw [if_neg hl] at h
          cases h
          obtain ⟨es, pre, a, rfl, c⟩ := matchChunk_sound _ _ _ _ hc hm
          exact ⟨[x], es, pre, rfl, by simp [Ne.symm hx], a, c⟩

/-- A search finds something if there is something, and finds nothing behind it. -/
theorem search_finds {chunk : Str} {es : List Part} (hc : Text chunk es) (hs : Part.star ∉ es) (last : Bool) {pre t : Str}
    (hp : Chunk es pre) (hl : last = true → t = []) : ∀ (x : Char) (skip : Str), '/' ∉ x :: skip →
    ∃ a pre' t', search chunk last (x :: skip ++ (pre ++ t)) = some t' ∧ x :: skip ++ (pre ++ t) = a ++ (pre' ++ t') ∧
      a.length ≤ (x :: skip).length ∧ Chunk es pre' ∧ (last = true → t' = []) := by
  intro x skip
  induction skip generalizing x with
  | nil =>
    intro hx
    simp only [List.mem_cons, List.not_mem_nil, or_false] at hx
    refine ⟨[x], pre, t, ?_, rfl, Nat.le_refl _, hp, hl⟩
    rw [List.cons_append, search, if_neg (Ne.symm hx), List.nil_append, (matchChunk_text hc hs _ _ (Nat.le_refl _)).1 pre t rfl hp]
    simp only
    rw [if_neg (fun h => h.2 (hl h.1))]
  | cons y ys ih =>
    intro hx
    have hx1 : x ≠ '/' := fun e => hx (by simp [e])
    have hx2 : '/' ∉ y :: ys := fun e => hx (.tail _ e)
    obtain ⟨a, pre', t', h1, h2, h3, h4, h5⟩ := ih y hx2
    have go : search chunk last (y :: ys ++ (pre ++ t)) = some t' → ∃ a pre' t', search chunk last (y :: ys ++ (pre ++ t)) = some t' ∧
        x :: y :: ys ++ (pre ++ t) = a ++ (pre' ++ t') ∧ a.length ≤ (x :: y :: ys).length ∧ Chunk es pre' ∧ (last = true → t' = []) := by
      intro h1
      refine ⟨x :: a, pre', t', h1, ?_, by simpa using h3, h4, h5⟩
      exact congrArg (x :: ·) h2
    rw [List.cons_append, search, if_neg hx1]
    cases hm : matchChunk chunk.length chunk (y :: ys ++ (pre ++ t)) with
    | bad => exact absurd hm (matchChunk_text hc hs _ _ (Nat.le_refl _)).2
    | no => exact go h1
    | ok r =>
      simp only
      by_cases hr : last = true ∧ r ≠ []
      · rw [if_pos hr]
        exact go h1
      · rw [if_neg hr]
        obtain ⟨q, e, hq⟩ := matchChunk_back hc hs _ _ _ (Nat.le_refl _) hm
        refine ⟨[x], q, r, rfl, ?_, by simp, hq, fun hl' => ?_⟩
        · rw [e]; rfl
        · by_cases h0 : r = []
          · exact h0
          · exact absurd ⟨hl', h0⟩ hr

/-! ### An earlier match is as good as a later one -/

/-- How many slashes a chunk has, is fixed by its parts. -/
theorem chunk_slash {es : List Part} (hf : SlashFree es) {pre : Str} (h : Chunk es pre) :
    pre.count '/' = es.count (.lit '/') := by
  induction h with
  | nil => rfl
  | @cons e x es pre he h ih =>
    rw [List.count_cons, List.count_cons, ih (fun neg rs hm => hf neg rs (.tail _ hm))]
    congr 1
    cases e with
    | lit c =>
      have he : x = c := he
      subst he
      by_cases hx : x = '/' <;> simp [hx]
    | any =>
      have he : x ≠ '/' := he
      simp [he]
    | star => cases he
    | cls neg rs =>
      have : x ≠ '/' := by
        rintro rfl
        exact hf neg rs (.head _) he
      simp [this]

/-- If a chunk is found earlier than it must be, the star behind it takes the rest. -/
theorem exchange {es p : List Part} (hf : SlashFree es) {a b pre1 pre2 t1 t2 : Str}
    (e : a ++ (pre1 ++ t1) = b ++ (pre2 ++ t2)) (hl : a.length ≤ b.length) (hb : '/' ∉ b) (h1 : Chunk es pre1) (h2 : Chunk es pre2)
    (hn : Names (.star :: p) t2) : Names (.star :: p) t1 := by
  obtain ⟨d, rfl⟩ : ∃ d, b = a ++ d := by
    have : a <+: b := List.prefix_of_prefix_length_le (List.prefix_append a (pre1 ++ t1)) (e ▸ List.prefix_append b _) hl
    obtain ⟨d, h⟩ := this
    exact ⟨d, h.symm⟩
  rw [List.append_assoc, List.append_cancel_left_eq] at e
  have l1 := h1.length_eq
  have l2 := h2.length_eq
  have le := congrArg List.length e
  simp only [List.length_append] at le
  obtain ⟨mid, rfl⟩ : ∃ mid, t1 = mid ++ t2 := by
    have : t2 <:+ t1 := List.suffix_of_suffix_length_le (l₃ := pre1 ++ t1) (e ▸ (⟨d ++ pre2, by simp⟩ : t2 <:+ d ++ (pre2 ++ t2))) (List.suffix_append _ _) (by omega)
    obtain ⟨mid, h⟩ := this
    exact ⟨mid, h.symm⟩
  rw [← List.append_assoc, ← List.append_assoc, List.append_cancel_right_eq] at e
  have c := congrArg (List.count '/') e
  rw [List.count_append, List.count_append, chunk_slash hf h1, chunk_slash hf h2, List.count_eq_zero.2 (fun h => hb (List.mem_append_right _ h))] at c
  exact names_skip (List.count_eq_zero.1 (by omega)) hn

/-! ### The whole -/

theorem dropWhile_stars (pat : Str) : ∃ k, pat = List.replicate k '*' ++ pat.dropWhile (· = '*') ∧ (k = 0 ↔ pat.head? ≠ some '*') := by
  induction pat with
  | nil => exact ⟨0, rfl, by simp⟩
  | cons c cs ih =>
    by_cases h : c = '*'
    · obtain ⟨k, e, _⟩ := ih
      refine ⟨k + 1, ?_, by simp [h]⟩
      rw [List.dropWhile_cons_of_pos (by simpa using h), List.replicate_succ, List.cons_append, ← e, h]
    · exact ⟨0, by rw [List.dropWhile_cons_of_neg (by simpa using h)]; rfl, by simp [h]⟩

theorem run_cons (n : Nat) (c : Char) (cs name : Str) : run (n + 1) (c :: cs) name =
    if (scanChunk (c :: cs)).1 = true ∧ (scanChunk (c :: cs)).2.1 = [] then decide ('/' ∉ name)
    else
      match matchChunk (scanChunk (c :: cs)).2.1.length (scanChunk (c :: cs)).2.1 name with
      | .ok t => if t = [] ∨ (scanChunk (c :: cs)).2.2 ≠ [] then run n (scanChunk (c :: cs)).2.2 t else
          if (scanChunk (c :: cs)).1 then
            match search (scanChunk (c :: cs)).2.1 ((scanChunk (c :: cs)).2.2 = []) name with
            | some t => run n (scanChunk (c :: cs)).2.2 t
            | none => false
          else false
      | .bad => false
      | .no =>
          if (scanChunk (c :: cs)).1 then
            match search (scanChunk (c :: cs)).2.1 ((scanChunk (c :: cs)).2.2 = []) name with
            | some t => run n (scanChunk (c :: cs)).2.2 t
            | none => false
          else false := rfl

theorem scan_nothing (pat : Str) (h : (scanChunk pat).2.1 = []) : pat.dropWhile (· = '*') = [] := by
  have h : (scanTo false (pat.dropWhile (· = '*'))).1 = [] := h
  have hd : (pat.dropWhile (· = '*')).head? ≠ some '*' := by
    intro e
    have := List.head?_dropWhile_not (p := fun x => decide (x = '*')) pat
    rw [e] at this
    simp at this
  generalize pat.dropWhile (· = '*') = x at *
  cases x with
  | nil => rfl
  | cons c cs =>
    have h0 : c ≠ '*' := fun e => hd (by rw [e]; rfl)
    by_cases h1 : c = '['
    · subst h1; cases h
    · by_cases h2 : c = ']'
      · subst h2; cases h
      · by_cases h3 : c = '\\'
        · subst h3
          cases cs <;> cases h
        · rw [scanTo_plain false cs (fun e => absurd e h3) h1 h2 h0] at h
          cases h

/-- What a pattern matches, is what it stands for. -/
theorem run_sound : ∀ (n : Nat) (pat name : Str), run n pat name = true → ∃ p, Text pat p ∧ Names p name := by
  intro n
  induction n with
  | zero =>
    intro pat name h
    cases pat with
    | nil => exact ⟨[], .nil, by rw [of_decide_eq_true h]; exact .nil⟩
    | cons c cs => cases h
  | succ n ih =>
    intro pat name h
    cases pat with
    | nil => exact ⟨[], .nil, by rw [of_decide_eq_true h]; exact .nil⟩
    | cons c cs =>
      rw [run_cons] at h
      obtain ⟨k, ek, hk⟩ := dropWhile_stars (c :: cs)
      have es : scanChunk (c :: cs) = (decide ((c :: cs).head? = some '*'), scanTo false ((c :: cs).dropWhile (· = '*'))) := rfl
      have hstar : (scanChunk (c :: cs)).1 = true ↔ k ≠ 0 := by
        rw [es]
        simp only [decide_eq_true_eq]
        exact ⟨fun h e => hk.1 e h, fun h => Classical.byContradiction fun h' => h (hk.2 h')⟩
      have e2 : (scanChunk (c :: cs)).2.1 ++ (scanChunk (c :: cs)).2.2 = (c :: cs).dropWhile (· = '*') := scanTo_append _ _
      have hcl : Clean (scanChunk (c :: cs)).2.1 := scanTo_clean _ _
      have hrest : (scanChunk (c :: cs)).2.1 = [] → (scanChunk (c :: cs)).2.2 = [] := by
        intro h
        have := scan_nothing (c :: cs) h
        rw [← e2, h] at this
        simpa using this
      rw [← e2] at ek
      generalize (scanChunk (c :: cs)).1 = star at *
      generalize (scanChunk (c :: cs)).2.1 = chunk at *
      generalize (scanChunk (c :: cs)).2.2 = rest at *
      rw [ek]
      have fin : ∀ es pre skip t, (k = 0 → skip = []) → '/' ∉ skip → Text chunk es → Chunk es pre → run n rest t = true →
          name = skip ++ (pre ++ t) → ∃ p, Text (List.replicate k '*' ++ (chunk ++ rest)) p ∧ Names p name := by
        rintro es pre skip t h1 h2 h3 h4 h5 rfl
        obtain ⟨q, hq, hn⟩ := ih _ _ h5
        refine ⟨List.replicate k .star ++ (es ++ q), Text.append (text_stars k) (Text.append h3 hq), ?_⟩
        have base : Names (es ++ q) (pre ++ t) := names_chunk h4 hn
        cases k with
        | zero => rw [h1 rfl]; exact base
        | succ k => exact names_skip h2 (names_stars (k := k + 1) base)
      have skipped : (if star then
            match search chunk (rest = []) name with
            | some t => run n rest t
            | none => false
          else false) = true → ∃ p, Text (List.replicate k '*' ++ (chunk ++ rest)) p ∧ Names p name := by
        intro h
        by_cases hst : star = true
        · rw [if_pos hst] at h
          cases hse : search chunk (rest = []) name with
          | none => rw [hse] at h; cases h
          | some t =>
            rw [hse] at h
            obtain ⟨skip, es, pre, e, h1, h2, h3⟩ := search_sound hcl hse
            exact fin es pre skip t (fun e => absurd e (hstar.1 hst)) h1 h2 h3 h e
        · rw [if_neg hst] at h; cases h
      by_cases hsc : star = true ∧ chunk = []
      · rw [if_pos hsc] at h
        refine ⟨List.replicate k .star ++ [], ?_, ?_⟩
        · rw [hsc.2, hrest hsc.2]
          exact Text.append (text_stars k) .nil
        · obtain ⟨k, rfl⟩ : ∃ j, k = j + 1 := ⟨k - 1, by have := hstar.1 hsc.1; omega⟩
          have := names_skip (of_decide_eq_true h) (names_stars (k := k + 1) (p := []) (s := []) .nil)
          rwa [List.append_nil] at this
      · rw [if_neg hsc] at h
        cases hm : matchChunk chunk.length chunk name with
        | bad => rw [hm] at h; cases h
        | no => rw [hm] at h; exact skipped h
        | ok t =>
          rw [hm] at h
          simp only at h
          by_cases ht : t = [] ∨ rest ≠ []
          · rw [if_pos ht] at h
            obtain ⟨es, pre, h1, h2, h3⟩ := matchChunk_sound _ _ _ _ hcl hm
            exact fin es pre [] t (fun _ => rfl) (by simp) h1 h3 h h2
          · rw [if_neg ht] at h
            exact skipped h

theorem text_drop {k : Nat} {t : Str} {p : List Part} (h : Text (List.replicate k '*' ++ t) p) :
    ∃ q, p = List.replicate k .star ++ q ∧ Text t q := by
  induction k generalizing p with
  | zero => exact ⟨p, rfl, h⟩
  | succ k ih =>
    rw [List.replicate_succ, List.cons_append] at h
    cases h with
    | lit hc _ => simp at hc
    | star h =>
      obtain ⟨q, rfl, hq⟩ := ih h
      exact ⟨q, rfl, hq⟩

/-- A pattern matches what it stands for, if its classes have no slash. -/
theorem run_text : ∀ (n : Nat) (pat name : Str) (p : List Part), pat.length ≤ n → Text pat p → SlashFree p → Names p name →
    run n pat name = true := by
  intro n
  induction n with
  | zero =>
    intro pat name p hn ht _ hp
    cases pat with
    | nil => cases ht; cases hp; rfl
    | cons c cs => simp at hn
  | succ n ih =>
    intro pat name p hn ht hf hp
    cases pat with
    | nil => cases ht; cases hp; rfl
    | cons c cs =>
      rw [run_cons]
      obtain ⟨k, ek, hk⟩ := dropWhile_stars (c :: cs)
      have es : scanChunk (c :: cs) = (decide ((c :: cs).head? = some '*'), scanTo false ((c :: cs).dropWhile (· = '*'))) := rfl
      have hstar : (scanChunk (c :: cs)).1 = true ↔ k ≠ 0 := by
        rw [es]
        simp only [decide_eq_true_eq]
        exact ⟨fun h e => hk.1 e h, fun h => Classical.byContradiction fun h' => h (hk.2 h')⟩
      have e2 : (scanChunk (c :: cs)).2.1 ++ (scanChunk (c :: cs)).2.2 = (c :: cs).dropWhile (· = '*') := scanTo_append _ _
      have hrest : (scanChunk (c :: cs)).2.1 = [] → (scanChunk (c :: cs)).2.2 = [] := by
        intro h
        have := scan_nothing (c :: cs) h
        rw [← e2, h] at this
        simpa using this
      have ht' := ht
      rw [ek] at ht'
      obtain ⟨q, rfl, hq⟩ := text_drop ht'
      obtain ⟨es, p', rfl, hs, hc, hr, hend⟩ := scanTo_text hq
      have hc : Text (scanChunk (c :: cs)).2.1 es := hc
      have hr : Text (scanChunk (c :: cs)).2.2 p' := hr
      have hend : (p' = [] ∧ (scanChunk (c :: cs)).2.2 = [] ∨ ∃ p'', p' = .star :: p'' ∧ (scanChunk (c :: cs)).2.2 ≠ []) := hend
      rw [← e2] at ek
      have hlen : (scanChunk (c :: cs)).2.2.length ≤ n := by
        have l := congrArg List.length ek
        simp only [List.length_append, List.length_replicate] at l
        by_cases h0 : (scanChunk (c :: cs)).2.1 = []
        · rw [hrest h0]; simp
        · have := List.length_pos_iff.2 h0
          omega
      generalize (scanChunk (c :: cs)).1 = star at *
      generalize (scanChunk (c :: cs)).2.1 = chunk at *
      generalize (scanChunk (c :: cs)).2.2 = rest at *
      have hfe : SlashFree es := fun neg rs hm => hf neg rs (by simp [hm])
      have hfp : SlashFree p' := fun neg rs hm => hf neg rs (by simp [hm])
      obtain ⟨skip, pre, s', rfl, hsl, hsk, hpre, hns⟩ := names_split hs hp
      by_cases hsc : star = true ∧ chunk = []
      · rw [if_pos hsc, decide_eq_true_eq]
        obtain ⟨rfl, _⟩ | ⟨_, _, h⟩ := hend
        · cases hns
          rw [hsc.2] at hc
          cases hc
          cases hpre
          simpa using hsl
        · exact absurd (hrest hsc.2) h
      · rw [if_neg hsc]
        have later : skip ≠ [] → (if star then
              match search chunk (rest = []) (skip ++ (pre ++ s')) with
              | some t => run n rest t
              | none => false
            else false) = true := by
          intro h0
          rw [if_pos (hstar.2 fun e => h0 (hsk e))]
          obtain ⟨x, skip, rfl⟩ := List.exists_cons_of_ne_nil h0
          obtain ⟨a, pre', t', h1, h2, h3, h4, h5⟩ := search_finds hc hs (decide (rest = [])) hpre (t := s') (by
            intro h
            obtain ⟨rfl, _⟩ | ⟨_, _, h'⟩ := hend
            · cases hns; rfl
            · exact absurd (of_decide_eq_true h) h') x skip hsl
          rw [h1]
          simp only
          obtain ⟨rfl, hre⟩ | ⟨p'', rfl, hre⟩ := hend
          · rw [h5 (decide_eq_true hre), hre]
            cases n <;> rfl
          · exact ih _ _ _ hlen hr hfp (exchange hfe h2.symm h3 hsl h4 hpre hns)
        cases hm : matchChunk chunk.length chunk (skip ++ (pre ++ s')) with
        | bad => exact absurd hm (matchChunk_text hc hs _ _ (Nat.le_refl _)).2
        | no =>
          refine later ?_
          rintro rfl
          rw [List.nil_append, (matchChunk_text hc hs _ _ (Nat.le_refl _)).1 pre s' rfl hpre] at hm
          cases hm
        | ok t =>
          simp only
          by_cases hre : rest = []
          · by_cases h0 : t = []
            · rw [if_pos (.inl h0), hre, h0]
              cases n <;> rfl
            · rw [if_neg (by simp [h0, hre])]
              refine later ?_
              rintro rfl
              rw [List.nil_append, (matchChunk_text hc hs _ _ (Nat.le_refl _)).1 pre s' rfl hpre] at hm
              obtain ⟨rfl, _⟩ | ⟨_, _, h'⟩ := hend
              · cases hns
                cases hm
                exact h0 rfl
              · exact h' hre
          · rw [if_pos (.inr hre)]
            obtain ⟨_, h⟩ | ⟨p'', rfl, _⟩ := hend
            · exact absurd h hre
            · obtain ⟨pre1, e1, h1⟩ := matchChunk_back hc hs _ _ _ (Nat.le_refl _) hm
              exact ih _ _ _ hlen hr hfp (exchange (a := []) hfe e1.symm (by simp) hsl h1 hpre hns)

/-! ### A text has one meaning -/

theorem end_unique {t t' r r' : Str} {c c' : Char} (h : EndText t c) (h' : EndText t' c') (hr : r ≠ []) (hr' : r' ≠ []) (e : t ++ r = t' ++ r') :
    c = c' ∧ r = r' := by
  have := getEsc_text h hr
  rw [e, getEsc_text h' hr'] at this
  cases this
  exact ⟨rfl, rfl⟩

theorem range_unique {t t' r r' : Str} {c c' : Char × Char} (h : RangeText t c) (h' : RangeText t' c') (hr : r ≠ []) (hr' : r' ≠ [])
    (hd : r.head? ≠ some '-') (hd' : r'.head? ≠ some '-') (e : t ++ r = t' ++ r') : c = c' ∧ r = r' := by
  cases h with
  | one h =>
    cases h' with
    | one h' =>
      obtain ⟨rfl, rfl⟩ := end_unique h h' hr hr' e
      exact ⟨rfl, rfl⟩
    | range h' h2 =>
      rw [List.append_assoc] at e
      obtain ⟨rfl, rfl⟩ := end_unique h h' hr (by simp) e
      exact absurd rfl hd
  | range h h1 =>
    cases h' with
    | one h' =>
      rw [List.append_assoc] at e
      obtain ⟨rfl, rfl⟩ := end_unique h h' (by simp) hr' e
      exact absurd rfl hd'
    | range h' h2 =>
      rw [List.append_assoc, List.append_assoc] at e
      obtain ⟨rfl, e⟩ := end_unique h h' (by simp) (by simp) e
      obtain ⟨rfl, rfl⟩ := end_unique h1 h2 hr hr' (List.cons.inj e).2
      exact ⟨rfl, rfl⟩

theorem ranges_unique {u u' r r' : Str} {rs rs' : List (Char × Char)} (h : RangesText u rs) (h' : RangesText u' rs')
    (e : u ++ ']' :: r = u' ++ ']' :: r') : rs = rs' ∧ r = r' := by
  induction h generalizing u' rs' with
  | last h =>
    cases h' with
    | last h' =>
      obtain ⟨rfl, e⟩ := range_unique h h' (by simp) (by simp) (by simp) (by simp) e
      exact ⟨rfl, (List.cons.inj e).2⟩
    | cons h' h2 =>
      obtain ⟨y, ys, rfl, h3, h4⟩ := RangesText.head h2
      rw [List.append_assoc] at e
      obtain ⟨rfl, e⟩ := range_unique h h' (by simp) (by simp) (by simp) (by simp [h3]) e
      exact absurd (List.cons.inj e).1.symm h4
  | cons h h1 ih =>
    obtain ⟨z, zs, rfl, h5, h6⟩ := RangesText.head h1
    rw [List.append_assoc] at e
    cases h' with
    | last h' =>
      obtain ⟨rfl, e⟩ := range_unique h h' (by simp) (by simp) (by simp [h5]) (by simp) e
      exact absurd (List.cons.inj e).1 h6
    | cons h' h2 =>
      obtain ⟨y, ys, rfl, h3, h4⟩ := RangesText.head h2
      rw [List.append_assoc] at e
      obtain ⟨rfl, e⟩ := range_unique h h' (by simp) (by simp) (by simp [h5]) (by simp [h3]) e
      obtain ⟨rfl, rfl⟩ := ih h2 e
      exact ⟨rfl, rfl⟩

theorem text_unique {t : Str} {p q : List Part} (h : Text t p) (h' : Text t q) : p = q := by
  have key : ∀ {t t' : Str} {p q : List Part}, Text t p → Text t' q → t = t' → p = q := by
    intro t t' p q h h'
    induction h generalizing t' q with
    | nil => rintro rfl; cases h'; rfl
    | lit hc _ ih =>
      cases h' with
      | nil => nofun
      | lit _ h' => rintro ⟨⟩; rw [ih h' rfl]
      | escaped _ => rintro ⟨⟩; simp at hc
      | any _ => rintro ⟨⟩; simp at hc
      | star _ => rintro ⟨⟩; simp at hc
      | cls _ _ _ => intro e; rw [(List.cons.inj e).1] at hc; simp at hc
      | notCls _ _ => intro e; rw [(List.cons.inj e).1] at hc; simp at hc
    | escaped _ ih =>
      cases h' with
      | lit hc _ => rintro ⟨⟩; simp at hc
      | escaped h' => rintro ⟨⟩; rw [ih h' rfl]
      | _ => nofun
    | any _ ih =>
      cases h' with
      | lit hc _ => rintro ⟨⟩; simp at hc
      | any h' => rintro ⟨⟩; rw [ih h' rfl]
      | _ => nofun
    | star _ ih =>
      cases h' with
      | lit hc _ => rintro ⟨⟩; simp at hc
      | star h' => rintro ⟨⟩; rw [ih h' rfl]
      | _ => nofun
    | @cls u rs t p hu hn _ ih =>
      cases h' with
      | lit hc _ => intro e; rw [← (List.cons.inj e).1] at hc; simp at hc
      | cls hu' hn' h' =>
        intro e
        obtain ⟨rfl, e⟩ := ranges_unique hu hu' (List.cons.inj e).2
        rw [ih h' e]
      | notCls hu' h' =>
        intro e
        obtain ⟨y, ys, rfl, _⟩ := RangesText.head hu
        exact absurd (congrArg some (List.cons.inj (List.cons.inj e).2).1) hn
      | _ => nofun
    | @notCls u rs t p hu _ ih =>
      cases h' with
      | lit hc _ => intro e; rw [← (List.cons.inj e).1] at hc; simp at hc
      | cls hu' hn' h' =>
        intro e
        obtain ⟨y, ys, rfl, _⟩ := RangesText.head hu'
        exact absurd (congrArg some (List.cons.inj (List.cons.inj e).2).1.symm) hn'
      | notCls hu' h' =>
        intro e
        obtain ⟨rfl, e⟩ := ranges_unique hu hu' (List.cons.inj (List.cons.inj e).2).2
        rw [ih h' e]
      | _ => nofun
  exact key h h' rfl

theorem names_slash {p : List Part} (hf : SlashFree p) {name : Str} (h : Names p name) : name.count '/' = p.count (.lit '/') := by
  induction h with
  | nil => rfl
  | @one e x p s he h ih =>
    have := chunk_slash (es := [e]) (fun neg rs hm => hf neg rs (by simp at hm; simp [hm])) (pre := [x]) (.cons he .nil)
    rw [List.count_cons, List.count_cons, ih (fun neg rs hm => hf neg rs (.tail _ hm))]
    simp only [List.count_cons, List.count_nil] at this
    omega
  | none h ih => rw [ih (fun neg rs hm => hf neg rs (.tail _ hm)), List.count_cons_of_ne (by simp)]
  | more hx h ih => rw [List.count_cons_of_ne hx, ih hf]

end PathMatch

open Spec.PathMatch

/-- C117: a pattern of a Bitbucket file matches only what it stands for; in particular, one that is not
well written matches nothing. -/
theorem C117_sound (pattern name : String) (h : pathMatch pattern name = true) : StandsFor pattern name :=
  PathMatch.run_sound _ _ _ h

/-- C117: a pattern whose classes have no slash matches exactly what it stands for. -/
theorem C117_iff (pattern name : String) (h : Plain pattern) : pathMatch pattern name = true ↔ StandsFor pattern name :=
  ⟨C117_sound _ _, fun ⟨p, ht, hn⟩ => PathMatch.run_text _ _ _ p (Nat.le_refl _) ht (h p ht) hn⟩

/-- C117: a pattern has one meaning. -/
theorem C117_unambiguous (pattern : String) (p q : List Part) (h : Text pattern.toList p) (h' : Text pattern.toList q) : p = q :=
  PathMatch.text_unique h h'

/-- C117: a pattern has the slashes of the names it matches: a star stands for none. -/
theorem C117_slashes (pattern name : String) (p : List Part) (ht : Text pattern.toList p) (hf : SlashFree p) (h : pathMatch pattern name = true) :
    name.toList.count '/' = p.count (.lit '/') := by
  obtain ⟨q, hq, hn⟩ := C117_sound _ _ h
  rw [PathMatch.text_unique hq ht] at hn
  exact PathMatch.names_slash hf hn

theorem shallow_ref {pattern : String} (h1 : Plain pattern) (h2 : Shallow pattern) (s : String) (hs : 2 ≤ s.toList.count '/') :
    pathMatch pattern s = false := by
  rw [Bool.eq_false_iff]
  intro h
  obtain ⟨p, ht, _⟩ := C117_sound _ _ h
  have := C117_slashes _ _ p ht (h1 p ht) h
  have := h2 p ht
  omega

theorem trim_tags (b : String) : Bitbucket.trimPrefix "refs/tags/" ("refs/heads/" ++ b) = "refs/heads/" ++ b := by
  refine (C64_trimPrefix _ _).2 ?_
  rintro ⟨t, e⟩
  have e := congrArg (fun s => s.toList[5]?) e
  simp [String.toList_append] at e

theorem trim_heads (b : String) : Bitbucket.trimPrefix "refs/heads/" ("refs/tags/" ++ b) = "refs/tags/" ++ b := by
  refine (C64_trimPrefix _ _).2 ?_
  rintro ⟨t, e⟩
  have e := congrArg (fun s => s.toList[5]?) e
  simp [String.toList_append] at e

/-- C117: if the patterns of the tags have fewer than two slashes, a build of a branch has the steps of a
branch whose pattern stands for it, or the default ones if there is none. -/
theorem C117_branch (it : Orders (List (Option Bitbucket.Step))) (c : Bitbucket.Config) (b : String)
    (ht : ∀ e ∈ c.tags, Plain e.1 ∧ Shallow e.1) (hb : ∀ e ∈ c.branches, Plain e.1) :
    (∃ e ∈ c.branches, StandsFor e.1 b ∧ c.pipeline pathMatch it ("refs/heads/" ++ b) = e.2) ∨
    ((∀ e ∈ c.branches, ¬ StandsFor e.1 b) ∧ c.pipeline pathMatch it ("refs/heads/" ++ b) = c.default_) := by
  have hn : ∀ e ∈ c.tags, pathMatch e.1 ("refs/heads/" ++ b) = false := fun e he =>
    shallow_ref (ht e he).1 (ht e he).2 _ (by rw [String.toList_append, List.count_append]; exact Nat.le_add_right _ _)
  have h := C64_selection pathMatch it c ("refs/heads/" ++ b)
  generalize c.pipeline pathMatch it ("refs/heads/" ++ b) = l at h
  cases h with
  | tag pat l hm h =>
    rw [trim_tags, hn _ hm] at h
    cases h
  | branch pat l _ hm h =>
    rw [(C64_trimPrefix _ _).1] at h
    exact .inl ⟨_, hm, C117_sound _ _ h, rfl⟩
  | default_ _ h =>
    refine .inr ⟨fun e he hs => ?_, rfl⟩
    have := h e he
    rw [(C64_trimPrefix _ _).1, (C117_iff _ _ (hb e he)).2 hs] at this
    cases this

/-- C117: and if the patterns of the branches have fewer than two slashes, a build of a tag has the steps
of a tag whose pattern stands for it, or the default ones if there is none. -/
theorem C117_tag (it : Orders (List (Option Bitbucket.Step))) (c : Bitbucket.Config) (t : String)
    (ht : ∀ e ∈ c.tags, Plain e.1) (hb : ∀ e ∈ c.branches, Plain e.1 ∧ Shallow e.1) :
    (∃ e ∈ c.tags, StandsFor e.1 t ∧ c.pipeline pathMatch it ("refs/tags/" ++ t) = e.2) ∨
    ((∀ e ∈ c.tags, ¬ StandsFor e.1 t) ∧ c.pipeline pathMatch it ("refs/tags/" ++ t) = c.default_) := by
  have hn : ∀ e ∈ c.branches, pathMatch e.1 ("refs/tags/" ++ t) = false := fun e he =>
    shallow_ref (hb e he).1 (hb e he).2 _ (by rw [String.toList_append, List.count_append]; exact Nat.le_add_right _ _)
  have h := C64_selection pathMatch it c ("refs/tags/" ++ t)
  generalize c.pipeline pathMatch it ("refs/tags/" ++ t) = l at h
  have no : (∀ e ∈ c.tags, pathMatch e.1 (Bitbucket.trimPrefix "refs/tags/" ("refs/tags/" ++ t)) = false) → ∀ e ∈ c.tags, ¬ StandsFor e.1 t := by
    intro h e he hs
    have := h e he
    rw [(C64_trimPrefix _ _).1, (C117_iff _ _ (ht e he)).2 hs] at this
    cases this
  cases h with
  | tag pat l hm h =>
    rw [(C64_trimPrefix _ _).1] at h
    exact .inl ⟨_, hm, C117_sound _ _ h, rfl⟩
  | branch pat l _ hm h =>
    rw [trim_heads, hn _ hm] at h
    cases h
  | default_ h _ => exact .inr ⟨no h, rfl⟩

/-- The conditions cannot be dropped: a class with a slash behind a star misses a name that the pattern
stands for, and a pattern of a tag with two slashes is taken for a branch, before the pattern of the
branch. -/
theorem C117_limits :
    (StandsFor "*[^a]*b" "x/b" ∧ pathMatch "*[^a]*b" "x/b" = false) ∧
    ({ tags := [("*/*/*", [some { name := "tag" }])], branches := [("master", [some { name := "branch" }])] : Bitbucket.Config }.pipeline
      pathMatch (exOrders _) "refs/heads/master" = [some { name := "tag" }]) := by
  refine ⟨⟨?_, by decide +kernel⟩, ?_⟩
  · refine ⟨[.star, .cls true [('a', 'a')], .star, .lit 'b'], ?_, ?_⟩
    · exact .star (.notCls (u := ['a']) (.last (.one (.plain (by decide)))) (.star (.lit (by decide) .nil)))
    · refine .more (by decide) (.none (.one ?_ (.none (.one rfl .nil))))
      show _ ↔ _
      decide
  · rfl

/-! ### Examples -/

/-- `v[0-9].*` is well written, `[a` is not. -/
theorem exTag : Text "v[0-9].*".toList [.lit 'v', .cls false [('0', '9')], .lit '.', .star] :=
  .lit (by decide) (.cls (u := ['0', '-', '9']) (.last (.range (t := ['0']) (u := ['9']) (.plain (by decide)) (.plain (by decide)))) (by decide)
    (.lit (by decide) (.star .nil)))

theorem exTag_plain : Plain "v[0-9].*" ∧ Shallow "v[0-9].*" := by
  refine ⟨fun p h => ?_, fun p h => ?_⟩
  · rw [C117_unambiguous _ _ _ h exTag]
    intro neg rs hm
    simp only [List.mem_cons, List.not_mem_nil, or_false, reduceCtorEq, Part.cls.injEq, false_or] at hm
    obtain ⟨rfl, rfl⟩ := hm
    show ¬ (_ ↔ _)
    decide
  · rw [C117_unambiguous _ _ _ h exTag]
    decide

example : pathMatch "v[0-9].*" "v1.2" = true ∧ pathMatch "v[0-9].*" "v1.2/x" = false ∧ pathMatch "v[0-9].*" "va.2" = false ∧
    pathMatch "v[0-9" "v1" = false ∧ pathMatch "feature/*" "feature/a" = true ∧ pathMatch "*a*b" "xaab" = true ∧
    pathMatch "\\*" "*" = true ∧ pathMatch "[^a-c]?" "dx" = true := by
  decide +kernel

example : StandsFor "v[0-9].*" "v1.2" := C117_sound _ _ (by decide +kernel)

example : ¬ StandsFor "v[0-9].*" "v1.2/x" := fun h => by
  have := (C117_iff _ _ exTag_plain.1).2 h
  revert this
  decide +kernel

/-- The branch `master` with a pattern for tags that is no pattern for branches -/
def exRefs : Bitbucket.Config :=
  { tags := [("v[0-9].*", [some { name := "tag" }])], branches := [("v[0-9].*", [some { name := "branch" }])], default_ := [some { name := "rest" }] }

example : exRefs.pipeline pathMatch (exOrders _) ("refs/heads/" ++ "v1.2") = [some { name := "branch" }] := by
  rcases C117_branch (exOrders _) exRefs "v1.2" (by simp [exRefs, exTag_plain]) (by simp [exRefs, exTag_plain]) with ⟨e, he, _, h⟩ | ⟨h, _⟩
  · rw [h]
    simp only [exRefs, List.mem_singleton] at he
    rw [he]
  · exact absurd (C117_sound _ _ (by decide +kernel)) (h _ (.head _))

example : exRefs.pipeline pathMatch (exOrders _) ("refs/tags/" ++ "v1.2") = [some { name := "tag" }] := by
  rcases C117_tag (exOrders _) exRefs "v1.2" (by simp [exRefs, exTag_plain]) (by simp [exRefs, exTag_plain]) with ⟨e, he, _, h⟩ | ⟨h, _⟩
  · rw [h]
    simp only [exRefs, List.mem_singleton] at he
    rw [he]
  · exact absurd (C117_sound _ _ (by decide +kernel)) (h _ (.head _))

example : "v1.2".toList.count '/' = [Part.lit 'v', .cls false [('0', '9')], .lit '.', .star].count (.lit '/') :=
  C117_slashes "v[0-9].*" "v1.2" _ exTag (exTag_plain.1 _ exTag) (by decide +kernel)

end Drone
