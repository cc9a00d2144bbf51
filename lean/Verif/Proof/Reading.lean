/-
Reading block text (Spec/Block.lean) has at most one result.
-/
import Mathlib.Tactic.Common
import Verif.Spec.Block
import Verif.Props.Quote

namespace Drone
open Spec Yaml
open Yaml (Scalar)

variable {R : Resolver}

/-! ### Scalars -/

theorem doubleQuoted_append {t v r : List Char} (h : DoubleQuoted t v r) (s : List Char) :
    DoubleQuoted (t ++ s) v (r ++ s) := by
  induction h with
  | close => exact .close
  | char hu h1 h2 _ ih => exact .char hu h1 h2 ih
  | esc he _ ih => exact .esc he ih
  | hex he hl hx _ ih =>
    simp only [List.cons_append, List.append_assoc]
    exact .hex he hl hx ih

theorem plain_head {s : List Char} (h : PlainScalar s) : ∃ c t, s = c :: t ∧ c ≠ ' ' ∧ c ≠ '"' ∧ c ≠ '[' ∧
    c ≠ '{' ∧ c ≠ '>' ∧ (c = '-' → ∃ d u, t = d :: u ∧ d ≠ ' ') := by
  obtain ⟨c, t, e, h1, h2, h3⟩ := h.first
  simp only [indicators, List.mem_cons, List.not_mem_nil, or_false, not_or] at h2
  exact ⟨c, t, e, h1, h2.2.2.2.2.2.2.2.2.2.2.2.2.1, h2.2.1, h2.2.2.2.1, h2.2.2.2.2.2.2.2.2.2.2.1, fun hc => h3 (by simp [hc])⟩

/-- The first character of a scalar. -/
theorem scalarText_head {k : List Char} {n : Yaml.Node} (h : ScalarText R k n) : ∃ c t, k = c :: t ∧ c ≠ ' ' ∧
    c ≠ '[' ∧ c ≠ '{' ∧ c ≠ '>' ∧ (c = '-' → ∃ d u, t = d :: u ∧ d ≠ ' ') := by
  cases h with
  | plain hp =>
    obtain ⟨c, t, e, h1, h2, h3, h4, h5, h6⟩ := plain_head hp
    exact ⟨c, t, e, h1, h3, h4, h5, h6⟩
  | quoted hd => exact ⟨_, _, rfl, by decide, by decide, by decide, by decide, fun h => absurd h (by decide)⟩

theorem scalarText_unique {k : List Char} {n n' : Yaml.Node} (h : ScalarText R k n) (h' : ScalarText R k n') :
    n = n' := by
  cases h with
  | plain hp =>
    generalize hk : k = k' at h'
    cases h' with
    | plain hp' => rfl
    | quoted hd =>
      obtain ⟨c, t, e, _, h2, _⟩ := plain_head hp
      rw [hk] at e
      simp only [List.cons.injEq] at e
      exact absurd e.1.symm h2
  | quoted hd =>
    generalize hk : '"' :: _ = k' at h'
    cases h' with
    | plain hp' =>
      obtain ⟨c, t, e, _, h2, _⟩ := plain_head hp'
      rw [← hk] at e
      simp only [List.cons.injEq] at e
      exact absurd e.1.symm h2
    | quoted hd' =>
      simp only [List.cons.injEq, true_and] at hk
      subst hk
      rw [(C55_reader_unique hd _ _ hd').1]

theorem atom_head {t : List Char} {n : Yaml.Node} (h : Atom R t n) : ∃ c u, t = c :: u ∧ c ≠ ' ' ∧ c ≠ '>' ∧
    (c = '-' → ∃ d v, u = d :: v ∧ d ≠ ' ') := by
  cases h with
  | scalar hs =>
    obtain ⟨c, t, e, h1, _, _, h4, h5⟩ := scalarText_head hs
    exact ⟨c, t, e, h1, h4, h5⟩
  | emptySeq => exact ⟨_, _, rfl, by decide, by decide, fun h => absurd h (by decide)⟩
  | emptyMap => exact ⟨_, _, rfl, by decide, by decide, fun h => absurd h (by decide)⟩

theorem atom_unique {t : List Char} {n n' : Yaml.Node} (h : Atom R t n) (h' : Atom R t n') : n = n' := by
  have key : ∀ {t : List Char} {n : Yaml.Node}, ScalarText R t n → t ≠ ['[', ']'] ∧ t ≠ ['{', '}'] := by
    intro t n h
    obtain ⟨c, u, rfl, _, h1, h2, _⟩ := scalarText_head h
    constructor
    · intro e; simp only [List.cons.injEq] at e; exact h1 e.1
    · intro e; simp only [List.cons.injEq] at e; exact h2 e.1
  cases h with
  | scalar hs =>
    cases h' with
    | scalar hs' => exact scalarText_unique hs hs'
    | emptySeq => exact absurd rfl (key hs).1
    | emptyMap => exact absurd rfl (key hs).2
  | emptySeq =>
    cases h' with
    | scalar hs' => exact absurd rfl (key hs').1
    | emptySeq => rfl
  | emptyMap =>
    cases h' with
    | scalar hs' => exact absurd rfl (key hs').2
    | emptyMap => rfl

/-- What may stand behind the colon of a key. -/
def AfterColon (s : List Char) : Prop := s = [] ∨ ∃ t, s = ' ' :: t

theorem plain_no_colon {k s : List Char} (hk : PlainScalar (k ++ ':' :: s)) (hs : AfterColon s) : False := by
  rcases hs with rfl | ⟨t, rfl⟩
  · exact hk.last.2 (by simp)
  · exact hk.colon ⟨k, t, by simp⟩

theorem plain_key_unique {k k' s s' : List Char} (hk : PlainScalar k) (hk' : PlainScalar k')
    (hs : AfterColon s) (hs' : AfterColon s') (h : k ++ ':' :: s = k' ++ ':' :: s') : k = k' := by
  have key : ∀ {k s s' a : List Char}, PlainScalar (k ++ a) → AfterColon s → ':' :: s = a ++ ':' :: s' → a = [] := by
    intro k s s' a hp hs h
    cases a with
    | nil => rfl
    | cons x b =>
      exfalso
      simp only [List.cons_append, List.cons.injEq] at h
      obtain ⟨rfl, rfl⟩ := h
      rcases hs with hs | ⟨t, ht⟩
      · simp at hs
      · cases b with
        | nil => simp at ht
        | cons y b =>
          simp only [List.cons_append, List.cons.injEq] at ht
          obtain ⟨rfl, -⟩ := ht
          exact hp.colon ⟨k, b, by simp⟩
  rcases List.append_eq_append_iff.1 h with ⟨a, rfl, h2⟩ | ⟨a, rfl, h2⟩
  · rw [key hk' hs h2, List.append_nil]
  · rw [key hk hs' h2, List.append_nil]

theorem key_unique {k k' s s' : List Char} {n n' : Yaml.Node} (hk : ScalarText R k n) (hk' : ScalarText R k' n')
    (hs : AfterColon s) (hs' : AfterColon s') (h : k ++ ':' :: s = k' ++ ':' :: s') :
    k = k' ∧ s = s' ∧ n = n' := by
  have main : k = k' := by
    cases hk with
    | plain hp =>
      cases hk' with
      | plain hp' => exact plain_key_unique hp hp' hs hs' h
      | quoted hd =>
        obtain ⟨c, t, rfl, _, h2, _⟩ := plain_head hp
        simp only [List.cons_append, List.cons.injEq] at h
        exact absurd h.1 h2
    | quoted hd =>
      cases hk' with
      | plain hp' =>
        obtain ⟨c, t, rfl, _, h2, _⟩ := plain_head hp'
        simp only [List.cons_append, List.cons.injEq] at h
        exact absurd h.1.symm h2
      | quoted hd' =>
        simp only [List.cons_append, List.cons.injEq, true_and] at h
        have e1 := doubleQuoted_append hd (':' :: s)
        have e2 := doubleQuoted_append hd' (':' :: s')
        rw [h] at e1
        have := (C55_reader_unique e1 _ _ e2).2
        simp only [List.nil_append] at this
        rw [this] at h
        rw [List.append_cancel_right h]
  subst main
  have h2 := List.append_cancel_left h
  simp only [List.cons.injEq, true_and] at h2
  exact ⟨rfl, h2, scalarText_unique hk hk'⟩

theorem atom_not_key {t k s : List Char} {v n : Yaml.Node} (ht : Atom R t v) (hk : ScalarText R k n)
    (hs : AfterColon s) (h : t = k ++ ':' :: s) : False := by
  obtain ⟨c, u, e, _, h1, h2, _⟩ := scalarText_head hk
  cases ht with
  | emptySeq =>
    rw [e] at h
    simp only [List.cons_append, List.cons.injEq] at h
    exact h1 h.1.symm
  | emptyMap =>
    rw [e] at h
    simp only [List.cons_append, List.cons.injEq] at h
    exact h2 h.1.symm
  | scalar hs' =>
    cases hs' with
    | plain hp => rw [h] at hp; exact plain_no_colon hp hs
    | quoted hd =>
      cases hk with
      | plain hp =>
        obtain ⟨c, t, rfl, _, h2, _⟩ := plain_head hp
        simp only [List.cons_append, List.cons.injEq] at h
        exact absurd h.1.symm h2
      | quoted hd' =>
        simp only [List.cons_append, List.cons.injEq, true_and] at h
        have e1 := doubleQuoted_append hd' (':' :: s)
        rw [← h] at e1
        have := (C55_reader_unique hd _ _ e1).2
        simp at this

/-! ### Lines -/

theorem scalar_not_dash {k s t : List Char} {n : Yaml.Node} (hk : ScalarText R k n)
    (h : '-' :: ' ' :: t = k ++ ':' :: s) : False := by
  obtain ⟨c, u, rfl, _, _, _, _, h3⟩ := scalarText_head hk
  simp only [List.cons_append, List.cons.injEq] at h
  obtain ⟨d, v, rfl, h4⟩ := h3 h.1.symm
  simp only [List.cons_append, List.cons.injEq] at h
  exact h4 h.2.1.symm

theorem atom_not_dash {t u : List Char} {n : Yaml.Node} (hk : Atom R u n) (h : '-' :: ' ' :: t = u) : False := by
  obtain ⟨c, u, rfl, _, _, h3⟩ := atom_head hk
  simp only [List.cons.injEq] at h
  obtain ⟨d, v, rfl, h4⟩ := h3 h.1.symm
  simp only [List.cons.injEq] at h
  exact h4 h.2.1.symm

theorem content_unique {c : Nat} {t : List Char} {ts : List Tok} (h : Content R c t ts) :
    ∀ ts', Content R c t ts' → ts = ts' := by
  induction h with
  | @dash c t ts _ ih =>
    intro ts' h'
    generalize ht : '-' :: ' ' :: t = u at h'
    cases h' with
    | dash h1 =>
      simp only [List.cons.injEq, true_and] at ht
      subst ht
      rw [ih _ h1]
    | atom h1 => exact (atom_not_dash h1 ht).elim
    | key h1 _ => exact (scalar_not_dash h1 ht).elim
    | entry h1 _ _ => exact (scalar_not_dash h1 ht).elim
  | @atom c t v h1 =>
    intro ts' h'
    cases h' with
    | dash _ => exact (atom_not_dash h1 rfl).elim
    | atom h2 => rw [atom_unique h1 h2]
    | key h2 _ => exact (atom_not_key h1 h2 (.inl rfl) rfl).elim
    | entry h2 _ _ => exact (atom_not_key h1 h2 (.inr ⟨_, rfl⟩) rfl).elim
  | @key c k n h1 _ =>
    intro ts' h'
    generalize ht : k ++ [':'] = u at h'
    cases h' with
    | dash _ => exact (scalar_not_dash h1 ht.symm).elim
    | atom h2 => exact (atom_not_key h2 h1 (.inl rfl) ht.symm).elim
    | key h2 _ =>
      obtain ⟨_, _, rfl⟩ := key_unique h1 h2 (.inl rfl) (.inl rfl) ht
      rfl
    | entry h2 _ _ =>
      obtain ⟨_, h3, _⟩ := key_unique h1 h2 (.inl rfl) (.inr ⟨_, rfl⟩) ht
      simp at h3
  | @entry c k n t v h1 _ h3 =>
    intro ts' h'
    generalize ht : k ++ ':' :: ' ' :: t = u at h'
    cases h' with
    | dash _ => exact (scalar_not_dash h1 ht.symm).elim
    | atom h2 => exact (atom_not_key h2 h1 (.inr ⟨_, rfl⟩) ht.symm).elim
    | key h2 _ =>
      obtain ⟨_, h3, _⟩ := key_unique h1 h2 (.inr ⟨_, rfl⟩) (.inl rfl) ht
      simp at h3
    | entry h2 _ h4 =>
      obtain ⟨_, h5, rfl⟩ := key_unique h1 h2 (.inr ⟨_, rfl⟩) (.inr ⟨_, rfl⟩) ht
      simp only [List.cons.injEq, true_and] at h5
      subst h5
      rw [atom_unique h3 h4]

theorem content_head {c : Nat} {t : List Char} {ts : List Tok} (h : Content R c t ts) :
    ∃ x u, t = x :: u ∧ x ≠ ' ' := by
  cases h with
  | dash _ => exact ⟨_, _, rfl, by decide⟩
  | atom h1 => obtain ⟨c, u, e, h, _⟩ := atom_head h1; exact ⟨c, u, e, h⟩
  | key h1 _ => obtain ⟨c, u, rfl, h, _⟩ := scalarText_head h1; exact ⟨c, _, rfl, h⟩
  | entry h1 _ _ => obtain ⟨c, u, rfl, h, _⟩ := scalarText_head h1; exact ⟨c, _, rfl, h⟩

/-- The indentation of a line is determined by it. -/
theorem indent_unique {c c' : Nat} {x x' : Char} {t t' : List Char} (hx : x ≠ ' ') (hx' : x' ≠ ' ')
    (h : List.replicate c ' ' ++ x :: t = List.replicate c' ' ' ++ x' :: t') : c = c' ∧ x :: t = x' :: t' := by
  induction c generalizing c' with
  | zero =>
    cases c' with
    | zero => exact ⟨rfl, h⟩
    | succ c' =>
      simp only [List.replicate_zero, List.nil_append, List.replicate_succ, List.cons_append, List.cons.injEq] at h
      exact absurd h.1 hx
  | succ c ih =>
    cases c' with
    | zero =>
      simp only [List.replicate_zero, List.nil_append, List.replicate_succ, List.cons_append, List.cons.injEq] at h
      exact absurd h.1.symm hx'
    | succ c' =>
      simp only [List.replicate_succ, List.cons_append, List.cons.injEq, true_and] at h
      obtain ⟨h1, h2⟩ := ih h
      exact ⟨by omega, h2⟩

theorem lineToks_unique {l : List Char} {ts ts' : List Tok} (h : LineToks R l ts) (h' : LineToks R l ts') :
    ts = ts' := by
  cases h with
  | @mk c t ts hc =>
    generalize hl : List.replicate c ' ' ++ t = l at h'
    cases h' with
    | @mk c' t' ts' hc' =>
      obtain ⟨x, u, rfl, hx⟩ := content_head hc
      obtain ⟨x', u', rfl, hx'⟩ := content_head hc'
      obtain ⟨rfl, e⟩ := indent_unique hx hx' hl
      rw [← e] at hc'
      exact content_unique hc _ hc'

theorem blank_not_text {c : Nat} {x : Char} {t l : List Char} (hb : BlankLine l) (hx : x ≠ ' ')
    (h : l = List.replicate c ' ' ++ x :: t) : False :=
  hx (hb x (by rw [h]; simp))

theorem lineToks_not_blank {l : List Char} {ts : List Tok} (h : LineToks R l ts) (hb : BlankLine l) : False := by
  cases h with
  | @mk c t ts hc =>
    obtain ⟨x, u, rfl, hx⟩ := content_head hc
    exact blank_not_text hb hx rfl

theorem folded_head {c : Nat} {k : List Char} {n : Yaml.Node} (hk : ScalarText R k n) : ∃ x u, x ≠ ' ' ∧
    List.replicate c ' ' ++ k ++ [':', ' ', '>'] = List.replicate c ' ' ++ x :: u ∧
    k ++ [':', ' ', '>'] = x :: u := by
  obtain ⟨x, u, rfl, hx, _⟩ := scalarText_head hk
  exact ⟨x, u ++ [':', ' ', '>'], hx, by simp, by simp⟩

theorem lineToks_not_folded {c : Nat} {k : List Char} {n : Yaml.Node} {ts : List Tok} (hk : ScalarText R k n)
    (h : LineToks R (List.replicate c ' ' ++ k ++ [':', ' ', '>']) ts) : False := by
  obtain ⟨x, u, hx, e, e'⟩ := folded_head (c := c) hk
  rw [e] at h
  generalize hl : List.replicate c ' ' ++ x :: u = l at h
  cases h with
  | @mk c' t' ts' hc' =>
    obtain ⟨x', u', rfl, hx'⟩ := content_head hc'
    obtain ⟨rfl, e2⟩ := indent_unique hx hx' hl
    rw [← e2, ← e'] at hc'
    generalize ht : k ++ [':', ' ', '>'] = t at hc'
    cases hc' with
    | dash _ => exact scalar_not_dash hk ht.symm
    | atom h2 => exact atom_not_key h2 hk (.inr ⟨_, rfl⟩) ht.symm
    | key h2 _ =>
      obtain ⟨_, h3, _⟩ := key_unique hk h2 (.inr ⟨_, rfl⟩) (.inl rfl) ht
      simp at h3
    | entry h2 _ h4 =>
      obtain ⟨_, h5, _⟩ := key_unique hk h2 (.inr ⟨_, rfl⟩) (.inr ⟨_, rfl⟩) ht
      simp only [List.cons.injEq, true_and] at h5
      obtain ⟨c, w, e, _, h6, _⟩ := atom_head h4
      rw [← h5] at e
      simp only [List.cons.injEq] at e
      exact h6 e.1.symm

theorem foldLine_head {d : Nat} {l t : List Char} (h : FoldLine d l t) :
    ∃ x u, x ≠ ' ' ∧ t = x :: u ∧ l = List.replicate d ' ' ++ x :: u := by
  obtain ⟨h1, h2, h3⟩ := h
  cases t with
  | nil => exact absurd rfl h2
  | cons x u =>
    refine ⟨x, u, ?_, rfl, h1⟩
    rintro rfl
    have := (h3 ' ' (by simp)).1
    simp at this

theorem foldLine_not_outside {c d : Nat} {l t : List Char} (hd : c < d) (h : FoldLine d l t) : ¬ Outside c l := by
  obtain ⟨x, u, hx, _, e⟩ := foldLine_head h
  rintro (hb | ⟨d', x', t', hc, hx', e'⟩)
  · exact blank_not_text hb hx e
  · rw [e] at e'
    have := (indent_unique hx hx' e').1
    omega

theorem foldLine_unique {d d' : Nat} {l t t' : List Char} (h : FoldLine d l t) (h' : FoldLine d' l t') :
    d = d' ∧ t = t' := by
  obtain ⟨x, u, hx, rfl, e⟩ := foldLine_head h
  obtain ⟨x', u', hx', rfl, e'⟩ := foldLine_head h'
  rw [e] at e'
  exact indent_unique hx hx' e'

theorem fold_body_unique {c d d' : Nat} {b r b' r' : List (List Char)} {ts ts' : List (List Char)}
    (hd : c < d) (hd' : c < d')
    (h : List.Forall₂ (FoldLine d) b ts) (h' : List.Forall₂ (FoldLine d') b' ts')
    (hr : ∀ l, r.head? = some l → Outside c l) (hr' : ∀ l, r'.head? = some l → Outside c l)
    (e : b ++ r = b' ++ r') : b = b' ∧ r = r' ∧ ts = ts' := by
  induction h generalizing b' ts' with
  | nil =>
    cases h' with
    | nil => exact ⟨rfl, e, rfl⟩
    | cons h1 h2 =>
      simp only [List.nil_append, List.cons_append] at e
      exact absurd (hr _ (by rw [e]; rfl)) (foldLine_not_outside hd' h1)
  | cons h1 h2 ih =>
    cases h' with
    | nil =>
      simp only [List.nil_append, List.cons_append] at e
      exact absurd (hr' _ (by rw [← e]; rfl)) (foldLine_not_outside hd h1)
    | cons h3 h4 =>
      simp only [List.cons_append, List.cons.injEq] at e
      obtain ⟨rfl, e⟩ := e
      obtain ⟨rfl, rfl, rfl⟩ := ih h4 e
      obtain ⟨_, rfl⟩ := foldLine_unique h1 h3
      exact ⟨rfl, rfl, rfl⟩

theorem toks_unique {ls : List (List Char)} {ts : List Tok} (h : Toks R ls ts) : ∀ ts', Toks R ls ts' → ts = ts' := by
  induction h with
  | nil => intro ts' h'; cases h'; rfl
  | @blank l ls ts hb _ ih =>
    intro ts' h'
    generalize hl : l :: ls = ls' at h'
    cases h' with
    | nil => simp at hl
    | blank _ h2 =>
      simp only [List.cons.injEq] at hl
      obtain ⟨rfl, rfl⟩ := hl
      exact ih _ h2
    | line h1 _ =>
      simp only [List.cons.injEq] at hl
      obtain ⟨rfl, rfl⟩ := hl
      exact (lineToks_not_blank h1 hb).elim
    | folded h1 _ _ _ _ _ _ =>
      simp only [List.cons.injEq] at hl
      obtain ⟨rfl, rfl⟩ := hl
      obtain ⟨x, u, hx, e, _⟩ := folded_head h1
      exact (blank_not_text hb hx e).elim
  | @line l ls us ts h1 _ ih =>
    intro ts' h'
    generalize hl : l :: ls = ls' at h'
    cases h' with
    | nil => simp at hl
    | blank hb _ =>
      simp only [List.cons.injEq] at hl
      obtain ⟨rfl, rfl⟩ := hl
      exact (lineToks_not_blank h1 hb).elim
    | line h2 h3 =>
      simp only [List.cons.injEq] at hl
      obtain ⟨rfl, rfl⟩ := hl
      rw [lineToks_unique h1 h2, ih _ h3]
    | folded h2 _ _ _ _ _ _ =>
      simp only [List.cons.injEq] at hl
      obtain ⟨rfl, rfl⟩ := hl
      exact (lineToks_not_folded h2 h1).elim
  | @folded c d k n body texts rest ts h1 _ hd hne hf hr _ ih =>
    intro ts' h'
    generalize hl : _ :: (body ++ rest) = ls' at h'
    cases h' with
    | nil => simp at hl
    | blank hb _ =>
      simp only [List.cons.injEq] at hl
      obtain ⟨rfl, rfl⟩ := hl
      obtain ⟨x, u, hx, e, _⟩ := folded_head (c := c) h1
      exact (blank_not_text hb hx e).elim
    | line h2 _ =>
      simp only [List.cons.injEq] at hl
      obtain ⟨rfl, rfl⟩ := hl
      exact (lineToks_not_folded h1 h2).elim
    | @folded c' d' k' n' body' texts' rest' ts' h2 _ hd' hne' hf' hr' h3 =>
      simp only [List.cons.injEq] at hl
      obtain ⟨e1, e2⟩ := hl
      obtain ⟨x, u, hx, e, e0⟩ := folded_head (c := c) h1
      obtain ⟨x', u', hx', e', e0'⟩ := folded_head (c := c') h2
      rw [e, e'] at e1
      obtain ⟨rfl, e3⟩ := indent_unique hx hx' e1
      rw [← e0, ← e0'] at e3
      obtain ⟨rfl, _, rfl⟩ := key_unique h1 h2 (.inr ⟨_, rfl⟩) (.inr ⟨_, rfl⟩) e3
      obtain ⟨rfl, rfl, rfl⟩ := fold_body_unique hd hd' hf hf' hr hr' e2
      rw [ih _ h3]

/-! ### Blocks -/

/-- The piece belongs to the value of a key at a column. -/
def Inner (c : Nat) : Tok → Bool
  | .dash d => c ≤ d
  | .key d _ _ => c < d
  | .atom d _ => c < d

theorem split_unique {p : Tok → Bool} {b r b' r' : List Tok} (hb : ∀ t ∈ b, p t = true) (hb' : ∀ t ∈ b', p t = true)
    (hr : ∀ t, r.head? = some t → p t = false) (hr' : ∀ t, r'.head? = some t → p t = false)
    (e : b ++ r = b' ++ r') : b = b' ∧ r = r' := by
  induction b generalizing b' with
  | nil =>
    cases b' with
    | nil => exact ⟨rfl, e⟩
    | cons t b' =>
      simp only [List.nil_append, List.cons_append] at e
      have h1 := hr t (by rw [e]; rfl)
      rw [hb' t (by simp)] at h1
      simp at h1
  | cons t b ih =>
    cases b' with
    | nil =>
      simp only [List.nil_append, List.cons_append] at e
      have h1 := hr' t (by rw [← e]; rfl)
      rw [hb t (by simp)] at h1
      simp at h1
    | cons t' b' =>
      simp only [List.cons_append, List.cons.injEq] at e
      obtain ⟨rfl, e⟩ := e
      obtain ⟨rfl, rfl⟩ := ih (fun t ht => hb t (by simp [ht])) (fun t ht => hb' t (by simp [ht])) e
      exact ⟨rfl, rfl⟩

mutual
theorem block_cols {c : Nat} {ts : List Tok} {n : Yaml.Node} (h : Block c ts n) : ∀ t ∈ ts, c ≤ t.col := by
  cases h with
  | atom => intro t ht; simp at ht; subst ht; exact Nat.le_refl _
  | seq h _ => intro t ht; exact (items_cols h t ht).1
  | map h _ => exact entries_cols h
theorem items_cols {c : Nat} {ts : List Tok} {xs : List Yaml.Node} (h : Items c ts xs) :
    ∀ t ∈ ts, c ≤ t.col ∧ (t.col = c → t = .dash c) := by
  cases h with
  | nil => simp
  | cons hd hb hr =>
    intro t ht
    rcases List.mem_cons.1 ht with rfl | ht
    · exact ⟨Nat.le_refl _, fun _ => rfl⟩
    · rcases List.mem_append.1 ht with ht | ht
      · have := block_cols hb t ht
        exact ⟨by omega, fun h => by omega⟩
      · exact items_cols hr t ht
theorem entries_cols {c : Nat} {ts : List Tok} {kvs : List (Yaml.Node × Yaml.Node)} (h : Entries c ts kvs) :
    ∀ t ∈ ts, c ≤ t.col := by
  cases h with
  | nil => simp
  | inline hr =>
    intro t ht
    rcases List.mem_cons.1 ht with rfl | ht
    · exact Nat.le_refl _
    · exact entries_cols hr t ht
  | null hr =>
    intro t ht
    rcases List.mem_cons.1 ht with rfl | ht
    · exact Nat.le_refl _
    · exact entries_cols hr t ht
  | block hd hb hr =>
    intro t ht
    rcases List.mem_cons.1 ht with rfl | ht
    · exact Nat.le_refl _
    · rcases List.mem_append.1 ht with ht | ht
      · have := block_cols hb t ht
        omega
      · exact entries_cols hr t ht
  | seq hb _ hr =>
    intro t ht
    rcases List.mem_cons.1 ht with rfl | ht
    · exact Nat.le_refl _
    · rcases List.mem_append.1 ht with ht | ht
      · exact (items_cols hb t ht).1
      · exact entries_cols hr t ht
end

theorem items_head {c : Nat} {ts : List Tok} {xs : List Yaml.Node} (h : Items c ts xs) :
    ∀ t, ts.head? = some t → t = .dash c := by
  cases h <;> simp

theorem entries_head {c : Nat} {ts : List Tok} {kvs : List (Yaml.Node × Yaml.Node)} (h : Entries c ts kvs) :
    ∀ t, ts.head? = some t → ∃ k v, t = .key c k v := by
  cases h <;> simp

theorem items_ne {c : Nat} {ts : List Tok} {xs : List Yaml.Node} (h : Items c ts xs) (hx : xs ≠ []) :
    ∃ ts', ts = .dash c :: ts' := by
  cases h with
  | nil => exact absurd rfl hx
  | cons _ _ _ => exact ⟨_, rfl⟩

theorem entries_ne {c : Nat} {ts : List Tok} {kvs : List (Yaml.Node × Yaml.Node)} (h : Entries c ts kvs) (hx : kvs ≠ []) :
    ∃ k v ts', ts = .key c k v :: ts' := by
  cases h with
  | nil => exact absurd rfl hx
  | inline _ => exact ⟨_, _, _, rfl⟩
  | null _ => exact ⟨_, _, _, rfl⟩
  | block _ _ _ => exact ⟨_, _, _, rfl⟩
  | seq _ _ _ => exact ⟨_, _, _, rfl⟩

theorem block_ne {c : Nat} {ts : List Tok} {n : Yaml.Node} (h : Block c ts n) : ∃ t ts', ts = t :: ts' ∧ t.col = c := by
  cases h with
  | atom => exact ⟨_, _, rfl, rfl⟩
  | seq h hx => obtain ⟨ts', rfl⟩ := items_ne h hx; exact ⟨_, _, rfl, rfl⟩
  | map h hx => obtain ⟨k, v, ts', rfl⟩ := entries_ne h hx; exact ⟨_, _, rfl, rfl⟩

theorem inner_block {c d : Nat} {ts : List Tok} {n : Yaml.Node} (hd : c < d) (h : Block d ts n) :
    ∀ t ∈ ts, Inner c t = true := by
  intro t ht
  have := block_cols h t ht
  cases t <;> simp only [Tok.col] at this <;> simp only [Inner, decide_eq_true_eq] <;> omega

theorem inner_items {c : Nat} {ts : List Tok} {xs : List Yaml.Node} (h : Items c ts xs) :
    ∀ t ∈ ts, Inner c t = true := by
  intro t ht
  obtain ⟨h1, h2⟩ := items_cols h t ht
  cases t with
  | dash d => simpa [Inner, Tok.col] using h1
  | key d k v =>
    simp only [Tok.col] at h1 h2
    simp only [Inner, decide_eq_true_eq]
    rcases Nat.lt_or_ge c d with h | h
    · exact h
    · have := h2 (by omega); simp at this
  | atom d v =>
    simp only [Tok.col] at h1 h2
    simp only [Inner, decide_eq_true_eq]
    rcases Nat.lt_or_ge c d with h | h
    · exact h
    · have := h2 (by omega); simp at this

theorem inner_rest {c : Nat} {ts : List Tok} {kvs : List (Yaml.Node × Yaml.Node)} (h : Entries c ts kvs) :
    ∀ t, ts.head? = some t → Inner c t = false := by
  intro t ht
  obtain ⟨k, v, rfl⟩ := entries_head h t ht
  simp [Inner]

/-- The value of a key without a value on its line. -/
inductive Under (c : Nat) : List Tok → Yaml.Node → Prop
  | null : Under c [] .null
  | block {d body v} : c < d → Block d body v → Under c body v
  | seq {body xs} : Items c body xs → xs ≠ [] → Under c body (.seq xs)

theorem Under.inner {c : Nat} {b : List Tok} {v : Yaml.Node} (h : Under c b v) : ∀ t ∈ b, Inner c t = true := by
  cases h with
  | null => simp
  | block hd hb => exact inner_block hd hb
  | seq hi _ => exact inner_items hi

theorem entries_inv {c : Nat} {ts : List Tok} {kvs : List (Yaml.Node × Yaml.Node)} (h : Entries c ts kvs) :
    (ts = [] ∧ kvs = []) ∨
    (∃ k v rest kvs', ts = .key c k (some v) :: rest ∧ kvs = (k, v) :: kvs' ∧ Entries c rest kvs') ∨
    (∃ k v b rest kvs', ts = .key c k none :: (b ++ rest) ∧ kvs = (k, v) :: kvs' ∧ Under c b v ∧
      Entries c rest kvs') := by
  cases h with
  | nil => exact .inl ⟨rfl, rfl⟩
  | inline hr => exact .inr (.inl ⟨_, _, _, _, rfl, rfl, hr⟩)
  | null hr => exact .inr (.inr ⟨_, _, [], _, _, rfl, rfl, .null, hr⟩)
  | block hd hb hr => exact .inr (.inr ⟨_, _, _, _, _, rfl, rfl, .block hd hb, hr⟩)
  | seq hi hx hr => exact .inr (.inr ⟨_, _, _, _, _, rfl, rfl, .seq hi hx, hr⟩)

theorem reading_unique (m : Nat) : ∀ ts : List Tok, ts.length ≤ m →
    (∀ c n c' n', Block c ts n → Block c' ts n' → c = c' ∧ n = n') ∧
    (∀ c xs xs', Items c ts xs → Items c ts xs' → xs = xs') ∧
    (∀ c kvs kvs', Entries c ts kvs → Entries c ts kvs' → kvs = kvs') := by
  induction m with
  | zero =>
    intro ts hl
    have : ts = [] := by cases ts <;> simp_all
    subst this
    refine ⟨?_, ?_, ?_⟩
    · intro c n c' n' h
      obtain ⟨t, ts', e, _⟩ := block_ne h
      simp at e
    · intro c xs xs' h h'
      cases h; cases h'; rfl
    · intro c xs xs' h h'
      cases h; cases h'; rfl
  | succ m ih =>
    intro ts hl
    have hi : ∀ c xs xs', Items c ts xs → Items c ts xs' → xs = xs' := by
      intro c xs xs' h h'
      cases h with
      | nil => cases h'; rfl
      | @cons c d body rest x xs hd hb hr =>
        generalize he : Tok.dash c :: (body ++ rest) = us at h'
        cases h' with
        | nil => simp at he
        | @cons _ d' body' rest' x' xs' hd' hb' hr' =>
          simp only [List.cons.injEq, true_and] at he
          have hrest : ∀ {r : List Tok} {xs : List Yaml.Node}, Items c r xs → ∀ t, r.head? = some t →
              (decide (c < t.col)) = false := by
            intro r xs h t ht
            rw [items_head h t ht]
            simp [Tok.col]
          obtain ⟨rfl, rfl⟩ := split_unique (p := fun t => decide (c < t.col))
            (fun t ht => by have := block_cols hb t ht; simp; omega)
            (fun t ht => by have := block_cols hb' t ht; simp; omega) (hrest hr) (hrest hr') he
          simp only [List.length_cons, List.length_append] at hl
          obtain ⟨_, rfl⟩ := (ih body (by omega)).1 _ _ _ _ hb hb'
          rw [(ih rest (by omega)).2.1 _ _ _ hr hr']
    have he : ∀ c kvs kvs', Entries c ts kvs → Entries c ts kvs' → kvs = kvs' := by
      intro c kvs kvs' h h'
      rcases entries_inv h with ⟨rfl, rfl⟩ | ⟨k, v, rest, kvs1, rfl, rfl, hr⟩ | ⟨k, v, b, rest, kvs1, rfl, rfl, hu, hr⟩
      · rcases entries_inv h' with ⟨_, rfl⟩ | ⟨k', v', rest', kvs1', e, rfl, hr'⟩ | ⟨k', v', b', rest', kvs1', e, rfl, hu', hr'⟩
        · rfl
        · simp at e
        · simp at e
      · rcases entries_inv h' with ⟨e, rfl⟩ | ⟨k', v', rest', kvs1', e, rfl, hr'⟩ | ⟨k', v', b', rest', kvs1', e, rfl, hu', hr'⟩
        · simp at e
        · simp only [List.cons.injEq, Tok.key.injEq, true_and, Option.some.injEq] at e
          obtain ⟨⟨rfl, rfl⟩, rfl⟩ := e
          simp only [List.length_cons] at hl
          rw [(ih rest (by omega)).2.2 _ _ _ hr hr']
        · simp at e
      · rcases entries_inv h' with ⟨e, rfl⟩ | ⟨k', v', rest', kvs1', e, rfl, hr'⟩ | ⟨k', v', b', rest', kvs1', e, rfl, hu', hr'⟩
        · simp at e
        · simp at e
        · simp only [List.cons.injEq, Tok.key.injEq, true_and, and_true] at e
          obtain ⟨rfl, e⟩ := e
          obtain ⟨rfl, rfl⟩ := split_unique hu.inner hu'.inner (inner_rest hr) (inner_rest hr') e
          simp only [List.length_cons, List.length_append] at hl
          rw [(ih rest (by omega)).2.2 _ _ _ hr hr']
          have : v = v' := by
            cases hu with
            | null =>
              cases hu' with
              | null => rfl
              | block _ hb => obtain ⟨t, ts', e, _⟩ := block_ne hb; simp at e
              | seq hi' hx => obtain ⟨ts', e⟩ := items_ne hi' hx; simp at e
            | block hd hb =>
              cases hu' with
              | null => obtain ⟨t, ts', e, _⟩ := block_ne hb; simp at e
              | block _ hb' => exact ((ih b (by omega)).1 _ _ _ _ hb hb').2
              | seq hi' hx =>
                obtain ⟨ts', rfl⟩ := items_ne hi' hx
                obtain ⟨t, ts', e, e'⟩ := block_ne hb
                simp only [List.cons.injEq] at e
                rw [← e.1] at e'
                simp only [Tok.col] at e'
                omega
            | seq hi' hx =>
              cases hu' with
              | null => obtain ⟨ts', e⟩ := items_ne hi' hx; simp at e
              | block hd hb =>
                obtain ⟨ts', rfl⟩ := items_ne hi' hx
                obtain ⟨t, ts', e, e'⟩ := block_ne hb
                simp only [List.cons.injEq] at e
                rw [← e.1] at e'
                simp only [Tok.col] at e'
                omega
              | seq hi'' _ => rw [(ih b (by omega)).2.1 _ _ _ hi' hi'']
          rw [this]
    refine ⟨?_, hi, he⟩
    intro c n c' n' h h'
    have hc : c = c' := by
      obtain ⟨t, ts', rfl, e1⟩ := block_ne h
      obtain ⟨t', ts'', e, e2⟩ := block_ne h'
      simp only [List.cons.injEq] at e
      rw [← e1, ← e2, e.1]
    subst hc
    refine ⟨rfl, ?_⟩
    cases h with
    | atom =>
      generalize hg : [Tok.atom c n] = us at h'
      cases h' with
      | atom => simp at hg; exact hg
      | seq h2 hx => obtain ⟨ts', e⟩ := items_ne h2 hx; simp [e] at hg
      | map h2 hx => obtain ⟨k, v, ts', e⟩ := entries_ne h2 hx; simp [e] at hg
    | seq h1 hx =>
      obtain ⟨us, hu⟩ := items_ne h1 hx
      generalize hg : ts = ts' at h'
      cases h' with
      | atom => simp [hu] at hg
      | seq h2 _ => subst hg; rw [hi _ _ _ h1 h2]
      | map h2 hx2 => obtain ⟨k, v, ts', e⟩ := entries_ne h2 hx2; subst hg; simp [hu] at e
    | map h1 hx =>
      obtain ⟨k, v, us, hu⟩ := entries_ne h1 hx
      generalize hg : ts = ts' at h'
      cases h' with
      | atom => simp [hu] at hg
      | seq h2 hx2 => obtain ⟨ts', e⟩ := items_ne h2 hx2; subst hg; simp [hu] at e
      | map h2 _ => subst hg; rw [he _ _ _ h1 h2]

/-! ### Texts -/

theorem lines_unique {ls ls' : List (List Char)} (h : ∀ l ∈ ls, '\n' ∉ l) (h' : ∀ l ∈ ls', '\n' ∉ l)
    (e : ls.flatMap (· ++ ['\n']) = ls'.flatMap (· ++ ['\n'])) : ls = ls' := by
  have cut : ∀ {l r l' r' : List Char}, '\n' ∉ l → '\n' ∉ l' → l ++ '\n' :: r = l' ++ '\n' :: r' →
      l = l' ∧ r = r' := by
    intro l
    induction l with
    | nil =>
      intro r l' r' _ h2 e
      cases l' with
      | nil => simp at e; exact ⟨rfl, e⟩
      | cons c l' => simp only [List.nil_append, List.cons_append, List.cons.injEq] at e; simp [← e.1] at h2
    | cons c l ih =>
      intro r l' r' h1 h2 e
      cases l' with
      | nil => simp only [List.nil_append, List.cons_append, List.cons.injEq] at e; simp [e.1] at h1
      | cons c' l' =>
        simp only [List.cons_append, List.cons.injEq] at e
        obtain ⟨rfl, rfl⟩ := ih (by simp_all) (by simp_all) e.2
        exact ⟨by rw [e.1], rfl⟩
  induction ls generalizing ls' with
  | nil =>
    cases ls' with
    | nil => rfl
    | cons l ls' => simp at e
  | cons l ls ih =>
    cases ls' with
    | nil => simp at e
    | cons l' ls' =>
      simp only [List.flatMap_cons, List.append_assoc, List.cons_append, List.nil_append] at e
      obtain ⟨rfl, e2⟩ := cut (h l (by simp)) (h' l' (by simp)) e
      rw [ih (fun x hx => h x (by simp [hx])) (fun x hx => h' x (by simp [hx])) e2]

/-- A text is read in one way. -/
theorem reads_unique {text : String} {n n' : Yaml.Node} (h : Reads R text n) (h' : Reads R text n') : n = n' := by
  obtain ⟨ls, ts, c, h1, h2, h3, h4⟩ := h
  obtain ⟨ls', ts', c', h1', h2', h3', h4'⟩ := h'
  have hl : ls = ls' := lines_unique (fun l hl => (h2 l hl).1) (fun l hl => (h2' l hl).1) (h1.symm.trans h1')
  subst hl
  obtain rfl := toks_unique h3 _ h3'
  exact ((reading_unique _ ts (Nat.le_refl _)).1 _ _ _ _ h4 h4').2

end Drone
