/-
Putting values into a block text: it is read as the tree with the values in its strings.
-/
import Verif.Proof.Fill
import Verif.Proof.Retag
import Mathlib.Data.List.Basic
import Mathlib.Data.List.Chain

namespace Drone
open Spec Yaml

namespace Legacy

/-! ### One replacement -/

/-- The rounds are enough. -/
theorem replaceLoop_enough (old new : List Char) (ho : old ≠ []) (n : Nat) (s : List Char) (h : s.length ≤ n) :
    replaceLoop old new n s = replaceAll old new s := by
  have key : ∀ n m s, s.length ≤ n → s.length ≤ m → replaceLoop old new n s = replaceLoop old new m s := by
    intro n
    induction n with
    | zero =>
      intro m s h _
      have : s = [] := List.length_eq_zero_iff.1 (by omega)
      subst this
      rw [replaceLoop_nil, replaceLoop_nil]
    | succ n ih =>
      intro m s h1 h2
      cases s with
      | nil => rw [replaceLoop_nil, replaceLoop_nil]
      | cons c s =>
        cases m with
        | zero => simp at h2
        | succ m =>
          simp only [List.length_cons] at h1 h2
          have hl : 0 < old.length := List.length_pos_iff.2 ho
          rw [replaceLoop, replaceLoop]
          rw [ih m s (by omega) (by omega), ih m ((c :: s).drop old.length) (by simp; omega) (by simp; omega)]
  exact key n s.length s h (Nat.le_refl _)

section one

variable {old new : List Char}

theorem replaceAll_nil : replaceAll old new [] = [] := rfl

theorem replaceAll_hit (ho : old ≠ []) (t : List Char) : replaceAll old new (old ++ t) = new ++ replaceAll old new t := by
  cases hs : old ++ t with
  | nil => exact absurd (List.append_eq_nil_iff.1 hs).1 ho
  | cons c s =>
    have h : old <+: c :: s := hs ▸ List.prefix_append _ _
    unfold replaceAll
    rw [List.length_cons, replaceLoop, if_pos h, ← hs, List.drop_left]
    have hl : 0 < old.length := List.length_pos_iff.2 ho
    have e : (c :: s).length = (old ++ t).length := by rw [hs]
    simp only [List.length_cons, List.length_append] at e
    rw [replaceLoop_enough old new ho s.length t (by omega)]
    rfl

theorem replaceAll_miss (ho : old ≠ []) {c : Char} {t : List Char} (h : ¬ old <+: c :: t) :
    replaceAll old new (c :: t) = c :: replaceAll old new t := by
  unfold replaceAll
  rw [List.length_cons, replaceLoop, if_neg h]

/-- Going through a text: either a replacement or a character. -/
theorem replace_ind (ho : old ≠ []) {P : List Char → Prop} (nil : P []) (hit : ∀ t, P t → P (old ++ t))
    (miss : ∀ c t, ¬ old <+: c :: t → P t → P (c :: t)) (s : List Char) : P s := by
  generalize hn : s.length = n
  induction n using Nat.strongRecOn generalizing s with
  | _ n ih =>
    cases s with
    | nil => exact nil
    | cons c t =>
      by_cases h : old <+: c :: t
      · obtain ⟨u, hu⟩ := h
        rw [← hu]
        have hl : 0 < old.length := List.length_pos_iff.2 ho
        have e := congrArg List.length hu
        simp only [List.length_cons, List.length_append] at e hn
        exact hit u (ih u.length (by omega) u rfl)
      · simp only [List.length_cons] at hn
        exact miss c t h (ih t.length (by omega) t rfl)

/-- A character that is not in the text to replace is a border. -/
theorem replaceAll_border (ho : old ≠ []) {c : Char} (hc : c ∉ old) (a b : List Char) :
    replaceAll old new (a ++ c :: b) = replaceAll old new a ++ c :: replaceAll old new b := by
  refine replace_ind ho (P := fun a => replaceAll old new (a ++ c :: b) = replaceAll old new a ++ c :: replaceAll old new b)
    ?_ ?_ ?_ a
  · rw [List.nil_append, replaceAll_miss ho, replaceAll_nil, List.nil_append]
    intro h
    cases hold : old with
    | nil => exact ho hold
    | cons x xs =>
      rw [hold, List.cons_prefix_cons] at h
      exact hc (by rw [hold, h.1]; exact List.mem_cons_self)
  · intro t ih
    rw [List.append_assoc, replaceAll_hit ho, replaceAll_hit ho, ih, List.append_assoc]
  · intro x t h ih
    have h' : ¬ old <+: x :: (t ++ c :: b) := by
      intro hp
      apply h
      obtain ⟨u, hu⟩ := hp
      by_cases hl : old.length ≤ (x :: t).length
      · refine List.prefix_of_prefix_length_le (l₃ := x :: (t ++ c :: b)) ⟨u, hu⟩ ⟨c :: b, rfl⟩ hl
      · exfalso
        apply hc
        have h1 : (x :: t) ++ [c] <+: old := by
          refine List.prefix_of_prefix_length_le (l₃ := x :: (t ++ c :: b)) ⟨b, by simp⟩ ⟨u, hu⟩ ?_
          simp only [List.length_append, List.length_cons, List.length_nil] at hl ⊢
          omega
        exact h1.subset (by simp)
    rw [List.cons_append, replaceAll_miss ho h', ih, replaceAll_miss ho h, List.cons_append]

/-- Every character comes from the text or from what is put in. -/
theorem mem_replaceAll (ho : old ≠ []) {s : List Char} {c : Char} (h : c ∈ replaceAll old new s) : c ∈ s ∨ c ∈ new := by
  revert h
  refine replace_ind ho (P := fun s => c ∈ replaceAll old new s → c ∈ s ∨ c ∈ new) ?_ ?_ ?_ s
  · intro h; simp [replaceAll_nil] at h
  · intro t ih h
    rw [replaceAll_hit ho, List.mem_append] at h
    rcases h with h | h
    · exact .inr h
    · exact (ih h).imp_left fun h => by simp [h]
  · intro x t hx ih h
    rw [replaceAll_miss ho hx, List.mem_cons] at h
    rcases h with rfl | h
    · exact .inl List.mem_cons_self
    · exact (ih h).imp_left fun h => List.mem_cons_of_mem _ h

/-- The first character. -/
theorem head_replaceAll (ho : old ≠ []) (hn : new ≠ []) (s : List Char) :
    (replaceAll old new s).head? = s.head? ∨ (replaceAll old new s).head? = new.head? := by
  refine replace_ind ho (P := fun s => (replaceAll old new s).head? = s.head? ∨ (replaceAll old new s).head? = new.head?)
    (.inl rfl) ?_ ?_ s
  · intro t _
    rw [replaceAll_hit ho]
    right
    cases new with
    | nil => exact absurd rfl hn
    | cons x xs => rfl
  · intro c t h _
    rw [replaceAll_miss ho h]
    exact .inl rfl

/-- The last character. -/
theorem last_replaceAll (ho : old ≠ []) (hn : new ≠ []) (s : List Char) :
    (replaceAll old new s).getLast? = s.getLast? ∨ (replaceAll old new s).getLast? = new.getLast? := by
  refine replace_ind ho (P := fun s => (replaceAll old new s).getLast? = s.getLast? ∨
    (replaceAll old new s).getLast? = new.getLast?) (.inl rfl) ?_ ?_ s
  · intro t ih
    rw [replaceAll_hit ho, List.getLast?_append, List.getLast?_append]
    cases t with
    | nil => simp [replaceAll_nil]
    | cons c t =>
      have hne : replaceAll old new (c :: t) ≠ [] := replaceLoop_ne _ _ _ _ hn (by simp)
      rcases ih with h | h
      · left
        rw [h]
        simp [List.getLast?_cons]
      · right
        rw [h, Option.or_of_isSome]
        cases new with
        | nil => exact absurd rfl hn
        | cons x xs => simp [List.getLast?_cons]
  · intro c t h ih
    rw [replaceAll_miss ho h, List.getLast?_cons, List.getLast?_cons]
    cases t with
    | nil => exact .inl rfl
    | cons d t =>
      have hne : replaceAll old new (d :: t) ≠ [] := replaceLoop_ne _ _ _ _ hn (by simp)
      rcases ih with h | h
      · left; rw [h]
      · right
        rw [h]
        cases new with
        | nil => exact absurd rfl hn
        | cons x xs => simp [List.getLast?_cons]

/-- Two characters one after the other. -/
def Never (a b x y : Char) : Prop := ¬ (x = a ∧ y = b)

theorem infix_iff_chain (a b : Char) (s : List Char) : ¬ [a, b] <:+: s ↔ s.IsChain (Never a b) := by
  induction s with
  | nil => simp
  | cons c s ih =>
    rw [List.infix_cons_iff, not_or, ih]
    cases s with
    | nil => simp
    | cons d s =>
      rw [List.isChain_cons_cons]
      refine and_congr_left fun _ => ?_
      unfold Never
      simp only [List.cons_prefix_cons, List.nil_prefix, and_true]
      constructor <;> intro h hc <;> exact h ⟨hc.1.symm, hc.2.symm⟩

/-- What is put in brings the two characters together nowhere. -/
theorem chain_replaceAll (ho : old ≠ []) {r : Char → Char → Prop} (hn : new ≠ []) (hv : new.IsChain r)
    (h1 : ∀ x, ∀ y ∈ new.head?, r x y) (h2 : ∀ x ∈ new.getLast?, ∀ y, r x y) {s : List Char} (hs : s.IsChain r) :
    (replaceAll old new s).IsChain r := by
  revert hs
  refine replace_ind ho (P := fun s => s.IsChain r → (replaceAll old new s).IsChain r) (fun h => h) ?_ ?_ s
  · intro t ih hs
    rw [replaceAll_hit ho]
    exact List.IsChain.append hv (ih hs.right_of_append) fun x hx y _ => h2 x hx y
  · intro c t h ih hs
    rw [replaceAll_miss ho h]
    rw [List.isChain_cons] at hs ⊢
    refine ⟨fun y hy => ?_, ih hs.2⟩
    rcases head_replaceAll ho hn t with e | e
    · exact hs.1 y (by rw [← e]; exact hy)
    · exact h1 c y (by rw [← e]; exact hy)

/-- A plain scalar stays one. -/
theorem plain_replaceAll (ho : old ≠ []) (hv : PlainScalar new) {s : List Char} (h : PlainScalar s) :
    PlainScalar (replaceAll old new s) := by
  obtain ⟨c0, t0, e0, h01, h02, h03⟩ := hv.first
  have hn : new ≠ [] := by rw [e0]; simp
  have hhead : new.head? = some c0 := by rw [e0]; rfl
  have hc0 : c0 ≠ '#' := fun hc => h02 (by rw [hc]; decide)
  refine ⟨?_, ?_, ?_, ?_, ?_⟩
  · intro c hc
    exact (mem_replaceAll ho hc).elim (h.chars c) (hv.chars c)
  · obtain ⟨c, t, e, h1, h2, h3⟩ := h.first
    by_cases hp : old <+: s
    · obtain ⟨u, hu⟩ := hp
      rw [← hu, replaceAll_hit ho, e0]
      refine ⟨c0, t0 ++ replaceAll old (c0 :: t0) u, rfl, h01, h02, fun hm => ?_⟩
      obtain ⟨d, w, e, hd⟩ := h03 hm
      exact ⟨d, w ++ replaceAll old (c0 :: t0) u, by rw [e]; rfl, hd⟩
    · rw [e] at hp ⊢
      rw [replaceAll_miss ho hp]
      refine ⟨c, _, rfl, h1, h2, fun hm => ?_⟩
      obtain ⟨d, w, et, hd⟩ := h3 hm
      have hne : replaceAll old new t ≠ [] := replaceLoop_ne _ _ _ _ hn (by rw [et]; simp)
      obtain ⟨x, xs, ex⟩ := List.exists_cons_of_ne_nil hne
      refine ⟨x, xs, ex, ?_⟩
      rcases head_replaceAll ho hn t with e | e
      · rw [ex, et] at e
        simp only [List.head?_cons, Option.some.injEq] at e
        rw [e]; exact hd
      · rw [ex, hhead] at e
        simp only [List.head?_cons, Option.some.injEq] at e
        rw [e]; exact h01
  · rcases last_replaceAll ho hn s with e | e <;> rw [e]
    · exact h.last
    · exact hv.last
  · have h1 := h.colon
    have h2 := hv.colon
    rw [infix_iff_chain] at h1 h2 ⊢
    refine chain_replaceAll ho hn h2 ?_ ?_ h1
    · intro x y hy hc
      rw [hhead, Option.mem_some_iff] at hy
      exact h01 (by rw [hy, hc.2])
    · intro x hx y hc
      have := hv.last.2
      rw [Option.mem_def] at hx
      rw [hx, hc.1] at this
      exact this rfl
  · have h1 := h.comment
    have h2 := hv.comment
    rw [infix_iff_chain] at h1 h2 ⊢
    refine chain_replaceAll ho hn h2 ?_ ?_ h1
    · intro x y hy hc
      rw [hhead, Option.mem_some_iff] at hy
      exact hc0 (by rw [hy, hc.2])
    · intro x hx y hc
      have := hv.last.1
      rw [Option.mem_def] at hx
      rw [hx, hc.1] at this
      exact this rfl

end one

/-! ### Quotes -/

/-- The characters of a reference. -/
def RefChar (c : Char) : Prop := c.isAlphanum = true ∨ c = '_' ∨ c = '$' ∨ c = '{' ∨ c = '}'

theorem refChar_unescaped {c : Char} (h : RefChar c) : Unescaped c ∧ c ≠ '"' ∧ c ≠ '\\' := by
  unfold RefChar at h
  unfold Unescaped
  rcases h with h | rfl | rfl | rfl | rfl
  · refine ⟨.inl ?_, ?_, ?_⟩
    · simp only [Char.isAlphanum, Char.isAlpha, Char.isUpper, Char.isLower, Char.isDigit, Bool.or_eq_true, Bool.and_eq_true,
        decide_eq_true_eq, UInt32.le_iff_toNat_le, Char.toNat] at h ⊢
      simp at h ⊢
      omega
    · rintro rfl; exact absurd h (by decide)
    · rintro rfl; exact absurd h (by decide)
  all_goals exact ⟨.inl (by decide), by decide, by decide⟩

theorem escapes_not_ref {e c : Char} (h : (e, c) ∈ escapes) : ¬ RefChar c := by
  have key : ∀ p ∈ escapes, ¬ (p.2.isAlphanum = true ∨ p.2 = '_' ∨ p.2 = '$' ∨ p.2 = '{' ∨ p.2 = '}') := by decide
  exact key _ h

theorem escapes_letter {e c : Char} (h : (e, c) ∈ escapes) : e ≠ '$' := by
  have key : ∀ p ∈ escapes, p.1 ≠ '$' := by decide
  exact key _ h

theorem hexEscapes_letter {e : Char} {n : Nat} (h : (e, n) ∈ hexEscapes) : e ≠ '$' := by
  have key : ∀ p ∈ hexEscapes, p.1 ≠ '$' := by decide
  exact key _ h

theorem hex_no_dollar {ds : List Char} {n : Nat} (h : Hex ds n) : '$' ∉ ds := by
  induction h with
  | nil => simp
  | snoc _ hd ih =>
    have key : ∀ p ∈ hexTable, p.1 ≠ '$' := by decide
    have := key _ hd
    simp only [List.mem_append, List.mem_singleton, not_or]
    exact ⟨ih, fun hc => this hc.symm⟩

theorem dq_literal {p t v : List Char} (hp : ∀ c ∈ p, Unescaped c ∧ c ≠ '"' ∧ c ≠ '\\') (h : DoubleQuoted t v []) :
    DoubleQuoted (p ++ t) (p ++ v) [] := by
  induction p with
  | nil => exact h
  | cons c p ih =>
    obtain ⟨h1, h2, h3⟩ := hp c List.mem_cons_self
    exact .char h1 h2 h3 (ih fun d hd => hp d (List.mem_cons_of_mem _ hd))

theorem dq_strip {p t v : List Char} (hp : ∀ c ∈ p, Unescaped c ∧ c ≠ '"' ∧ c ≠ '\\') (h : DoubleQuoted (p ++ t) v []) :
    ∃ w, v = p ++ w ∧ DoubleQuoted t w [] := by
  induction p generalizing v with
  | nil => exact ⟨v, rfl, h⟩
  | cons c p ih =>
    obtain ⟨h1, h2, h3⟩ := hp c List.mem_cons_self
    rw [List.cons_append] at h
    generalize e : c :: (p ++ t) = m at h
    cases h with
    | close => exact absurd (List.cons.inj e).1 h2
    | char _ _ _ h =>
      obtain ⟨rfl, rfl⟩ := List.cons.inj e
      obtain ⟨w, rfl, hw⟩ := ih (fun d hd => hp d (List.mem_cons_of_mem _ hd)) h
      exact ⟨w, rfl, hw⟩
    | esc => exact absurd (List.cons.inj e).1 h3
    | hex => exact absurd (List.cons.inj e).1 h3

theorem hexFree_of_suffix {s t : List Char} (h : HexFree t) (hs : s <:+ t) : HexFree s :=
  fun e n ds x h1 h2 h3 h4 h5 h6 => h e n ds x h1 h2 h3 h4 h5 (h6.trans hs.isInfix)

/-- Where a reference is in the value, it stands in the text. -/
theorem dq_prefix {p t v : List Char} (hp : ∀ c ∈ p, RefChar c) (hx : HexFree t) (h : DoubleQuoted t v [])
    (hv : p <+: v) : p <+: t := by
  induction p generalizing t v with
  | nil => exact List.nil_prefix
  | cons c p ih =>
    have hc := hp c List.mem_cons_self
    have ih := fun {t v} => ih (t := t) (v := v) fun d hd => hp d (List.mem_cons_of_mem _ hd)
    cases h with
    | close => simp at hv
    | char h1 h2 h3 h =>
      rw [List.cons_prefix_cons] at hv ⊢
      exact ⟨hv.1, ih (hexFree_of_suffix hx (List.suffix_cons _ _)) h hv.2⟩
    | esc he h =>
      rw [List.cons_prefix_cons] at hv
      rw [hv.1] at hc
      exact absurd hc (escapes_not_ref he)
    | @hex e n ds d t v r h1 h2 h3 h4 =>
      rw [List.cons_prefix_cons] at hv
      rw [hv.1] at hc
      have hu := (refChar_unescaped hc)
      have hr : 0x20 ≤ d.toNat ∧ d.toNat < 0x7f := by
        unfold RefChar at hc
        rcases hc with hc | rfl | rfl | rfl | rfl
        · simp only [Char.isAlphanum, Char.isAlpha, Char.isUpper, Char.isLower, Char.isDigit, Bool.or_eq_true,
            Bool.and_eq_true, decide_eq_true_eq, UInt32.le_iff_toNat_le, Char.toNat] at hc ⊢
          simp at hc ⊢
          omega
        all_goals decide
      exact absurd ⟨[], t, by simp⟩ (hx e n ds _ h1 h2 h3 hr.1 hr.2)

section ref

variable {k v : List Char}

/-- The reference of a key. -/
def refOf (k : List Char) : List Char := '$' :: '{' :: k ++ ['}']

theorem refOf_ne : refOf k ≠ [] := by simp [refOf]

theorem refOf_chars (hk : AxisName k) : ∀ c ∈ refOf k, RefChar c := by
  intro c hc
  simp only [refOf, List.cons_append, List.mem_cons, List.mem_append, List.not_mem_nil, or_false] at hc
  unfold RefChar
  rcases hc with rfl | rfl | h | rfl
  · simp
  · simp
  · rcases hk c h with h | h <;> simp [h]
  · simp

theorem not_prefix_ref {c : Char} {t : List Char} (hc : c ≠ '$') : ¬ refOf k <+: c :: t := fun h => hc (prefix_dollar h)

theorem replaceAll_text {l : List Char} (s : List Char) (hl : '$' ∉ l) :
    replaceAll (refOf k) v (l ++ s) = l ++ replaceAll (refOf k) v s := by
  induction l with
  | nil => rfl
  | cons c l ih =>
    rw [List.cons_append, replaceAll_miss refOf_ne (not_prefix_ref fun hc => hl (by simp [hc])),
      ih fun h => hl (List.mem_cons_of_mem _ h), List.cons_append]

/-- In double quotes the value is put into the text and into what it stands for. -/
theorem dq_replaceAll (hk : AxisName k) (hv : AxisValue v) {t w : List Char} (hx : HexFree t) (h : DoubleQuoted t w []) :
    DoubleQuoted (replaceAll (refOf k) v t) (replaceAll (refOf k) v w) [] := by
  generalize hn : t.length = n
  induction n using Nat.strongRecOn generalizing t w with
  | _ n ih =>
    have hlit : ∀ c ∈ v, Unescaped c ∧ c ≠ '"' ∧ c ≠ '\\' := fun c hc =>
      ⟨hv.plain.chars c hc, fun e => hv.quote (e ▸ hc), fun e => hv.backslash (e ▸ hc)⟩
    have hsuf : ∀ {s w : List Char}, s.length < n → s <:+ t → DoubleQuoted s w [] →
        DoubleQuoted (replaceAll (refOf k) v s) (replaceAll (refOf k) v w) [] := by
      intro s w h1 h2 h3
      exact ih _ h1 (hexFree_of_suffix hx h2) h3 rfl
    by_cases hp : refOf k <+: t
    · obtain ⟨u, rfl⟩ := hp
      obtain ⟨w', rfl, hw⟩ := dq_strip (fun c hc => refChar_unescaped (refOf_chars hk c hc)) h
      rw [replaceAll_hit refOf_ne, replaceAll_hit refOf_ne]
      refine dq_literal hlit (hsuf ?_ (List.suffix_append _ _) hw)
      rw [← hn]
      simp [refOf]
      omega
    · have hw : ¬ refOf k <+: w := fun hc => hp (dq_prefix (refOf_chars hk) hx h hc)
      cases h with
      | close => exact .close
      | char h1 h2 h3 h =>
        rw [replaceAll_miss refOf_ne hp, replaceAll_miss refOf_ne hw]
        exact .char h1 h2 h3 (hsuf (by simp at hn; omega) (List.suffix_cons _ _) h)
      | @esc e c t' v' r' he h =>
        rw [replaceAll_miss refOf_ne hp, replaceAll_miss refOf_ne hw,
          replaceAll_miss refOf_ne (not_prefix_ref (escapes_letter he))]
        refine .esc he (hsuf (by simp at hn; omega) ?_ h)
        exact ⟨['\\', e], rfl⟩
      | @hex e n' ds d t' v' r' h1 h2 h3 h4 =>
        rw [replaceAll_miss refOf_ne hp, replaceAll_miss refOf_ne hw,
          replaceAll_miss refOf_ne (not_prefix_ref (hexEscapes_letter h1)), replaceAll_text _ (hex_no_dollar h3)]
        refine .hex h1 h2 h3 (hsuf (by simp at hn; omega) ?_ h4)
        exact ⟨'\\' :: e :: ds, by simp⟩

/-- Escapes stay. -/
theorem hexFree_back (hk : AxisName k) {t : List Char} (h : HexFree (replaceAll (refOf k) v t)) : HexFree t := by
  intro e n ds x h1 h2 h3 h4 h5 h6
  obtain ⟨a, b, rfl⟩ := h6
  refine h e n ds x h1 h2 h3 h4 h5 ⟨replaceAll (refOf k) v a, replaceAll (refOf k) v b, ?_⟩
  have hb : '\\' ∉ refOf k := fun hc => (refChar_unescaped (refOf_chars hk _ hc)).2.2 rfl
  have e1 : a ++ '\\' :: e :: ds ++ b = a ++ '\\' :: ((e :: ds) ++ b) := by simp
  rw [e1, replaceAll_border refOf_ne hb, replaceAll_text]
  · simp
  · simp only [List.mem_cons, not_or]
    exact ⟨fun hc => hexEscapes_letter h1 hc.symm, hex_no_dollar h3⟩

end ref

/-! ### All replacements -/

/-- The keys and values of an axis that can be put in. -/
def _root_.Drone.Spec.PlainAxis (env : GoMap String) : Prop := ∀ kv ∈ env, AxisName kv.1.toList ∧ AxisValue kv.2.toList

theorem axisValue_line {v : List Char} (h : AxisValue v) : '\n' ∉ v := by
  intro hc
  have := h.plain.chars _ hc
  unfold Unescaped at this
  simp at this

section all

variable {X : LegacyLib} {env : GoMap String}

theorem substitute_step (hv : AxisValue v.toList) (s : List Char) :
    substitute X ((k, v) :: env) s = substitute X env (replaceAll (refOf k.toList) v.toList s) :=
  substitute_cons X k v env s (axisValue_line hv)

theorem plainAxis_tail {kv : String × String} (h : PlainAxis (kv :: env)) : PlainAxis env :=
  fun x hx => h x (List.mem_cons_of_mem _ hx)

theorem substitute_border (h : PlainAxis env) {c : Char} (hc : ¬ RefChar c) (a b : List Char) :
    substitute X env (a ++ c :: b) = substitute X env a ++ c :: substitute X env b := by
  induction env generalizing a b with
  | nil => rfl
  | cons kv env ih =>
    obtain ⟨k, v⟩ := kv
    obtain ⟨h1, h2⟩ := h (k, v) List.mem_cons_self
    rw [substitute_step h2, substitute_step h2, substitute_step h2,
      replaceAll_border refOf_ne (fun hm => hc (refOf_chars h1 c hm)), ih (plainAxis_tail h)]

theorem substitute_text (h : PlainAxis env) {l : List Char} (hl : '$' ∉ l) (s : List Char) :
    substitute X env (l ++ s) = l ++ substitute X env s := by
  induction env generalizing s with
  | nil => rfl
  | cons kv env ih =>
    obtain ⟨k, v⟩ := kv
    obtain ⟨h1, h2⟩ := h (k, v) List.mem_cons_self
    rw [substitute_step h2, substitute_step h2, replaceAll_text _ hl, ih (plainAxis_tail h)]

theorem substitute_scalar (h : PlainAxis env) {s : List Char} (hs : PlainScalar s) : PlainScalar (substitute X env s) := by
  induction env generalizing s with
  | nil => exact hs
  | cons kv env ih =>
    obtain ⟨k, v⟩ := kv
    obtain ⟨h1, h2⟩ := h (k, v) List.mem_cons_self
    rw [substitute_step h2]
    exact ih (plainAxis_tail h) (plain_replaceAll refOf_ne h2.plain hs)

theorem hexFree_substitute (h : PlainAxis env) {t : List Char} (hx : HexFree (substitute X env t)) : HexFree t := by
  induction env generalizing t with
  | nil => exact hx
  | cons kv env ih =>
    obtain ⟨k, v⟩ := kv
    obtain ⟨h1, h2⟩ := h (k, v) List.mem_cons_self
    rw [substitute_step h2] at hx
    exact hexFree_back h1 (ih (plainAxis_tail h) hx)

theorem substitute_quoted (h : PlainAxis env) {t w : List Char} (hx : HexFree (substitute X env t))
    (hs : DoubleQuoted t w []) : DoubleQuoted (substitute X env t) (substitute X env w) [] := by
  induction env generalizing t w with
  | nil => exact hs
  | cons kv env ih =>
    obtain ⟨k, v⟩ := kv
    obtain ⟨h1, h2⟩ := h (k, v) List.mem_cons_self
    rw [substitute_step h2] at hx
    rw [substitute_step h2, substitute_step h2]
    exact ih (plainAxis_tail h) hx (dq_replaceAll h1 h2 (hexFree_back h1 (v := v.toList) (hexFree_substitute (plainAxis_tail h) hx)) hs)

theorem substitute_line (h : PlainAxis env) {l : List Char} (hl : '\n' ∉ l) : '\n' ∉ substitute X env l := by
  induction env generalizing l with
  | nil => exact hl
  | cons kv env ih =>
    obtain ⟨k, v⟩ := kv
    obtain ⟨h1, h2⟩ := h (k, v) List.mem_cons_self
    rw [substitute_step h2]
    exact ih (plainAxis_tail h) fun hc => (mem_replaceAll refOf_ne hc).elim hl (axisValue_line h2)

theorem newline_border : ¬ RefChar '\n' := by unfold RefChar; decide
theorem space_border : ¬ RefChar ' ' := by unfold RefChar; decide
theorem colon_border : ¬ RefChar ':' := by unfold RefChar; decide

theorem substitute_lines (h : PlainAxis env) (ls : List (List Char)) :
    substitute X env (ls.flatMap (· ++ ['\n'])) = (ls.map (substitute X env)).flatMap (· ++ ['\n']) := by
  induction ls with
  | nil => exact substitute_plain X env [] (by simp)
  | cons l ls ih =>
    rw [List.flatMap_cons, List.map_cons, List.flatMap_cons, List.append_assoc, List.singleton_append,
      substitute_border h newline_border, ih]
    simp

/-! ### Trees -/

/-- What a resolver needs: texts with a dollar sign are strings, as YAML has it. -/
def _root_.Drone.Spec.DollarText (R : Resolver) : Prop := ∀ s : String, '$' ∈ s.toList → R.plain s = some .str

/-- The filled-in text is not null, and a string if it must be one. -/
def _root_.Drone.Spec.FillsTo (R : Resolver) (keep : String → Prop) (s : String) : Prop :=
  R.plain s ≠ none ∧ (keep s → R.plain s = some .str)

variable {R : Resolver} {keep : String → Prop}

/-- A tree and the one with the values in it. -/
def FillNode (X : LegacyLib) (env : GoMap String) (keep : String → Prop) (n n' : Yaml.Node) : Prop :=
  SameText keep (mapNode (fillString X env) n) n'

/-- A tree whose texts can be filled in. -/
def FillOk (X : LegacyLib) (env : GoMap String) (R : Resolver) (keep : String → Prop) (n : Yaml.Node) : Prop :=
  ∀ s ∈ leaves n, '$' ∈ s.toList → FillsTo R keep (fillString X env s)

theorem plainNode_dollar (hR : DollarText R) {s : String} (h : '$' ∈ s.toList) : plainNode R s = .scalar s .str := by
  unfold plainNode
  rw [hR s h]

theorem fill_plain {s : String} (h : '$' ∉ s.toList) : fillString X env s = s := by
  unfold fillString
  rw [substitute_plain X env _ h, String.ofList_toList]

theorem mapNode_plainNode {s : String} (h : '$' ∉ s.toList) : mapNode (fillString X env) (plainNode R s) = plainNode R s := by
  unfold plainNode
  cases hr : R.plain s with
  | none => rfl
  | some r =>
    cases r with
    | str => simp only [mapNode, fill_plain h]
    | _ => rfl

theorem fill_scalarText (h : PlainAxis env) (hR : DollarText R) {t : List Char} {n : Yaml.Node} (ht : ScalarText R t n)
    (hx : HexFree (substitute X env t)) (hn : FillOk X env R keep n) :
    ∃ n', ScalarText R (substitute X env t) n' ∧ FillNode X env keep n n' := by
  cases ht with
  | plain hs =>
    refine ⟨_, .plain (substitute_scalar h hs), ?_⟩
    by_cases hd : '$' ∈ t
    · have hd' : '$' ∈ (String.ofList t).toList := by rwa [String.toList_ofList]
      rw [plainNode_dollar hR hd'] at hn ⊢
      have := hn (String.ofList t) (by simp [leaves]) hd'
      have e : String.ofList (substitute X env t) = fillString X env (String.ofList t) := by
        unfold fillString
        rw [String.toList_ofList]
      rw [e]
      unfold FillNode
      simp only [mapNode]
      generalize fillString X env (String.ofList t) = s at *
      unfold plainNode
      cases hr : R.plain s with
      | none => exact absurd hr this.1
      | some r =>
        by_cases hk : keep s
        · have := this.2 hk
          rw [hr] at this
          cases this
          exact .scalar
        · exact .text hk
    · have hd' : '$' ∉ (String.ofList t).toList := by rwa [String.toList_ofList]
      rw [substitute_plain X env t hd]
      unfold FillNode
      rw [mapNode_plainNode hd']
      exact Yaml.SameText.refl _ _
  | @quoted t v hq =>
    have e : substitute X env ('"' :: t) = '"' :: substitute X env t := substitute_text h (l := ['"']) (by decide) t
    rw [e] at hx ⊢
    refine ⟨_, .quoted (substitute_quoted h (hexFree_of_suffix hx (List.suffix_cons _ _)) hq), ?_⟩
    unfold FillNode
    simp only [mapNode, fillString, String.toList_ofList]
    exact .scalar

theorem fill_atom (h : PlainAxis env) (hR : DollarText R) {t : List Char} {n : Yaml.Node} (ht : Atom R t n)
    (hx : HexFree (substitute X env t)) (hn : FillOk X env R keep n) :
    ∃ n', Atom R (substitute X env t) n' ∧ FillNode X env keep n n' := by
  cases ht with
  | scalar hs =>
    obtain ⟨n', h1, h2⟩ := fill_scalarText h hR hs hx hn
    exact ⟨n', .scalar h1, h2⟩
  | emptySeq =>
    rw [substitute_plain X env _ (by decide)]
    exact ⟨_, .emptySeq, Yaml.SameText.refl _ _⟩
  | emptyMap =>
    rw [substitute_plain X env _ (by decide)]
    exact ⟨_, .emptyMap, Yaml.SameText.refl _ _⟩

/-- Where the value of a scalar has no dollar sign, the text has none. -/
theorem scalarText_dollar {t : List Char} {n : Yaml.Node} (ht : ScalarText R t n) (hn : ∀ s ∈ leaves n, '$' ∉ s.toList) : '$' ∉ t := by
  cases ht with
  | plain hs =>
    intro hc
    unfold plainNode at hn
    cases hr : R.plain (String.ofList t) with
    | none =>
      have := (R.null_iff _).1 hr
      have key : ∀ s ∈ ["", "~", "null", "Null", "NULL"], '$' ∉ s.toList := by decide
      have := key _ this
      rw [String.toList_ofList] at this
      exact this hc
    | some r =>
      rw [hr] at hn
      have := hn (String.ofList t) (by simp [leaves])
      rw [String.toList_ofList] at this
      exact this hc
  | @quoted t v hq =>
    have hv := hn (String.ofList v) (by simp [leaves])
    rw [String.toList_ofList] at hv
    clear hn
    have key : ∀ {t v r : List Char}, DoubleQuoted t v r → '$' ∉ v → '$' ∈ t → '$' ∈ r := by
      intro t v r hq
      induction hq with
      | close => intro _ hc; simpa using hc
      | char _ _ _ _ ih =>
        intro hv hc
        simp only [List.mem_cons, not_or] at hv
        rcases List.mem_cons.1 hc with hc | hc
        · exact absurd hc hv.1
        · exact ih hv.2 hc
      | esc he _ ih =>
        intro hv hc
        simp only [List.mem_cons, not_or] at hv hc
        rcases hc with hc | hc | hc
        · exact absurd hc (by decide)
        · exact absurd hc.symm (escapes_letter he)
        · exact ih hv.2 hc
      | hex he _ h3 _ ih =>
        intro hv hc
        simp only [List.mem_cons, not_or] at hv
        simp only [List.mem_cons, List.mem_append] at hc
        rcases hc with hc | hc | hc | hc
        · exact absurd hc (by decide)
        · exact absurd hc.symm (hexEscapes_letter he)
        · exact absurd hc (hex_no_dollar h3)
        · exact ih hv.2 hc
    intro hc
    rcases List.mem_cons.1 hc with hc | hc
    · exact absurd hc (by decide)
    · simpa using key hq hv hc

/-- The pieces of a line before and after. -/
inductive FillTok (X : LegacyLib) (env : GoMap String) (keep : String → Prop) : Tok → Tok → Prop
  | dash {c} : FillTok X env keep (.dash c) (.dash c)
  | key {c k} : mapNode (fillString X env) k = k → FillTok X env keep (.key c k none) (.key c k none)
  | entry {c k v v'} : mapNode (fillString X env) k = k → FillNode X env keep v v' →
      FillTok X env keep (.key c k (some v)) (.key c k (some v'))
  | atom {c v v'} : FillNode X env keep v v' → FillTok X env keep (.atom c v) (.atom c v')

/-- What a piece has to be. -/
def TokOk (X : LegacyLib) (env : GoMap String) (R : Resolver) (keep : String → Prop) : Tok → Prop
  | .dash _ => True
  | .key _ k none => ∀ s ∈ leaves k, '$' ∉ s.toList
  | .key _ k (some v) => (∀ s ∈ leaves k, '$' ∉ s.toList) ∧ FillOk X env R keep v
  | .atom _ v => FillOk X env R keep v

theorem scalar_mapNode {t : List Char} {n : Yaml.Node} (ht : ScalarText R t n) (hn : ∀ s ∈ leaves n, '$' ∉ s.toList) :
    mapNode (fillString X env) n = n := by
  have hd := scalarText_dollar ht hn
  cases ht with
  | plain hs => exact mapNode_plainNode (by rwa [String.toList_ofList])
  | quoted hq =>
    simp only [mapNode]
    rw [fill_plain (hn _ (by simp [leaves]))]

theorem fill_content (h : PlainAxis env) (hR : DollarText R) {c : Nat} {t : List Char} {ts : List Tok}
    (ht : Content R c t ts) (hx : HexFree (substitute X env t)) (hn : ∀ k ∈ ts, TokOk X env R keep k) :
    ∃ ts', Content R c (substitute X env t) ts' ∧ List.Forall₂ (FillTok X env keep) ts ts' := by
  induction ht with
  | @dash c t ts _ ih =>
    have e : substitute X env ('-' :: ' ' :: t) = '-' :: ' ' :: substitute X env t :=
      substitute_text h (l := ['-', ' ']) (by decide) t
    rw [e] at hx ⊢
    obtain ⟨ts', h1, h2⟩ := ih (hexFree_of_suffix hx ⟨['-', ' '], rfl⟩) fun k hk => hn k (List.mem_cons_of_mem _ hk)
    exact ⟨_, .dash h1, .cons .dash h2⟩
  | atom ha =>
    obtain ⟨n', h1, h2⟩ := fill_atom h hR ha hx (hn _ List.mem_cons_self)
    exact ⟨_, .atom h1, .cons (.atom h2) .nil⟩
  | @key c k n hk hf =>
    have hn' := hn _ List.mem_cons_self
    have hd := scalarText_dollar hk hn'
    rw [substitute_plain X env _ (by simpa using hd)]
    exact ⟨_, .key hk hf, .cons (.key (scalar_mapNode hk hn')) .nil⟩
  | @entry c k n t v hk hf ha =>
    have hn' := hn _ List.mem_cons_self
    have hd := scalarText_dollar hk hn'.1
    have e : substitute X env (k ++ ':' :: ' ' :: t) = k ++ ':' :: ' ' :: substitute X env t := by
      have e1 := substitute_text (X := X) h (l := k ++ [':', ' ']) (by simpa using hd) t
      simpa using e1
    rw [e] at hx ⊢
    obtain ⟨n', h1, h2⟩ := fill_atom h hR ha (hexFree_of_suffix hx ⟨k ++ [':', ' '], by simp⟩) hn'.2
    exact ⟨_, .entry hk hf h1, .cons (.entry (scalar_mapNode hk hn'.1) h2) .nil⟩

theorem fill_toks (h : PlainAxis env) (hR : DollarText R) {ls : List (List Char)} {ts : List Tok} (ht : Toks R ls ts)
    (hx : ∀ l ∈ ls, HexFree (substitute X env l)) (hf : ∀ l ∈ ls, ¬ [' ', '>'] <:+ l)
    (hn : ∀ k ∈ ts, TokOk X env R keep k) :
    ∃ ts', Toks R (ls.map (substitute X env)) ts' ∧ List.Forall₂ (FillTok X env keep) ts ts' := by
  induction ht with
  | nil => exact ⟨[], .nil, .nil⟩
  | @blank l ls ts hb _ ih =>
    obtain ⟨ts', h1, h2⟩ := ih (fun l hl => hx l (List.mem_cons_of_mem _ hl)) (fun l hl => hf l (List.mem_cons_of_mem _ hl)) hn
    rw [List.map_cons, substitute_plain X env l (fun hc => absurd (hb _ hc) (by decide))]
    exact ⟨ts', .blank hb h1, h2⟩
  | @line l ls us ts hl _ ih =>
    obtain ⟨ts', h1, h2⟩ := ih (fun l hl => hx l (List.mem_cons_of_mem _ hl)) (fun l hl => hf l (List.mem_cons_of_mem _ hl))
      fun k hk => hn k (List.mem_append_right _ hk)
    cases hl with
    | @mk c t _ hc =>
      have hr : '$' ∉ List.replicate c ' ' := fun hm => absurd (List.mem_replicate.1 hm).2 (by decide)
      have hx0 := hx _ List.mem_cons_self
      rw [substitute_text h hr] at hx0
      obtain ⟨us', h3, h4⟩ := fill_content h hR hc (hexFree_of_suffix hx0 (List.suffix_append _ _))
        fun k hk => hn k (List.mem_append_left _ hk)
      refine ⟨us' ++ ts', ?_, List.rel_append h4 h2⟩
      rw [List.map_cons, substitute_text h hr]
      exact .line (.mk h3) h1
  | @folded c d k n body texts rest ts _ _ _ _ _ _ _ _ =>
    refine absurd ?_ (hf _ List.mem_cons_self)
    exact ⟨List.replicate c ' ' ++ k ++ [':'], by simp⟩

end all

/-! ### Blocks -/

section blocks

variable {X : LegacyLib} {env : GoMap String} {R : Resolver} {keep : String → Prop}

theorem forall₂_split {α β : Type} {r : α → β → Prop} : ∀ {a b : List α} {l : List β}, List.Forall₂ r (a ++ b) l →
    ∃ l1 l2, List.Forall₂ r a l1 ∧ List.Forall₂ r b l2 ∧ l = l1 ++ l2
  | [], _, l, h => ⟨[], l, .nil, h, rfl⟩
  | x :: a, b, _, .cons hx h => by
    obtain ⟨l1, l2, h1, h2, rfl⟩ := forall₂_split h
    exact ⟨_ :: l1, l2, .cons hx h1, h2, rfl⟩

mutual
theorem fill_block : ∀ {c : Nat} {ts ts' : List Tok} {n : Yaml.Node}, Block c ts n → List.Forall₂ (FillTok X env keep) ts ts' →
    ∃ n', Block c ts' n' ∧ FillNode X env keep n n'
  | _, _, _, _, .atom, .cons (.atom h) .nil => ⟨_, .atom, h⟩
  | _, _, _, _, .seq hi hne, h => by
    obtain ⟨ys, h1, h2⟩ := fill_items hi h
    refine ⟨.seq ys, .seq h1 ?_, .seq h2⟩
    rintro rfl
    cases hi with
    | nil => exact hne rfl
    | cons => simp only [mapNodes] at h2; cases h2
  | _, _, _, _, .map hi hne, h => by
    obtain ⟨ys, h1, h2⟩ := fill_entries hi h
    refine ⟨.map ys, .map h1 ?_, .map h2⟩
    rintro rfl
    cases hi with
    | nil => exact hne rfl
    | inline => simp only [mapEntries] at h2; cases h2
    | null => simp only [mapEntries] at h2; cases h2
    | block => simp only [mapEntries] at h2; cases h2
    | seq => simp only [mapEntries] at h2; cases h2
theorem fill_items : ∀ {c : Nat} {ts ts' : List Tok} {xs : List Yaml.Node}, Items c ts xs →
    List.Forall₂ (FillTok X env keep) ts ts' →
    ∃ ys, Items c ts' ys ∧ SameTexts keep (mapNodes (fillString X env) xs) ys
  | _, _, _, _, .nil, .nil => ⟨[], .nil, .nil⟩
  | _, _, _, _, .cons hc hb hi, .cons .dash h => by
    obtain ⟨l1, l2, h1, h2, rfl⟩ := forall₂_split h
    obtain ⟨y, h3, h4⟩ := fill_block hb h1
    obtain ⟨ys, h5, h6⟩ := fill_items hi h2
    exact ⟨y :: ys, .cons hc h3 h5, .cons h4 h6⟩
theorem fill_entries : ∀ {c : Nat} {ts ts' : List Tok} {xs : List (Yaml.Node × Yaml.Node)}, Entries c ts xs →
    List.Forall₂ (FillTok X env keep) ts ts' →
    ∃ ys, Entries c ts' ys ∧ SameTextPairs keep (mapEntries (fillString X env) xs) ys
  | _, _, _, _, .nil, .nil => ⟨[], .nil, .nil⟩
  | _, _, _, _, .inline hi, .cons (.entry hk hv) h => by
    obtain ⟨ys, h5, h6⟩ := fill_entries hi h
    refine ⟨_ :: ys, .inline h5, .cons ?_ hv h6⟩
    rw [hk]
    exact Yaml.SameText.refl _ _
  | _, _, _, _, .null hi, .cons (.key hk) h => by
    obtain ⟨ys, h5, h6⟩ := fill_entries hi h
    refine ⟨_ :: ys, .null h5, .cons ?_ .null h6⟩
    rw [hk]
    exact Yaml.SameText.refl _ _
  | _, _, _, _, .block hc hb hi, .cons (.key hk) h => by
    obtain ⟨l1, l2, h1, h2, rfl⟩ := forall₂_split h
    obtain ⟨y, h3, h4⟩ := fill_block hb h1
    obtain ⟨ys, h5, h6⟩ := fill_entries hi h2
    refine ⟨(_, y) :: ys, .block hc h3 h5, .cons ?_ h4 h6⟩
    rw [hk]
    exact Yaml.SameText.refl _ _
  | _, _, _, _, .seq hb hne hi, .cons (.key hk) h => by
    obtain ⟨l1, l2, h1, h2, rfl⟩ := forall₂_split h
    obtain ⟨zs, h3, h4⟩ := fill_items hb h1
    obtain ⟨ys, h5, h6⟩ := fill_entries hi h2
    refine ⟨(_, .seq zs) :: ys, .seq h3 ?_ h5, .cons ?_ (.seq h4) h6⟩
    · rintro rfl
      cases hb with
      | nil => exact hne rfl
      | cons => simp only [mapNodes] at h4; cases h4
    · rw [hk]
      exact Yaml.SameText.refl _ _
end

/-- What holds of the texts and keys of a tree. -/
def NodeOk (X : LegacyLib) (env : GoMap String) (R : Resolver) (keep : String → Prop) (ls ns : List String) : Prop :=
  (∀ s ∈ ls, '$' ∈ s.toList → FillsTo R keep (fillString X env s)) ∧ ∀ s ∈ ns, '$' ∉ s.toList

theorem NodeOk.left {a b c d : List String} (h : NodeOk X env R keep (a ++ b) (c ++ d)) : NodeOk X env R keep a c :=
  ⟨fun s hs => h.1 s (List.mem_append_left _ hs), fun s hs => h.2 s (List.mem_append_left _ hs)⟩

theorem NodeOk.right {a b c d : List String} (h : NodeOk X env R keep (a ++ b) (c ++ d)) : NodeOk X env R keep b d :=
  ⟨fun s hs => h.1 s (List.mem_append_right _ hs), fun s hs => h.2 s (List.mem_append_right _ hs)⟩

mutual
theorem tokOk_block : ∀ {c : Nat} {ts : List Tok} {n : Yaml.Node}, Block c ts n → NodeOk X env R keep (leaves n) (names n) →
    ∀ k ∈ ts, TokOk X env R keep k
  | _, _, _, .atom, h => by
    intro k hk
    rw [List.mem_singleton] at hk
    subst hk
    exact h.1
  | _, _, _, .seq hi _, h => tokOk_items hi (by simpa only [leaves, names] using h)
  | _, _, _, .map hi _, h => tokOk_entries hi (by simpa only [leaves, names] using h)
theorem tokOk_items : ∀ {c : Nat} {ts : List Tok} {xs : List Yaml.Node}, Items c ts xs →
    NodeOk X env R keep (leavesList xs) (namesList xs) → ∀ k ∈ ts, TokOk X env R keep k
  | _, _, _, .nil, _ => by simp
  | _, _, _, .cons _ hb hi, h => by
    simp only [leavesList, namesList] at h
    intro k hk
    rcases List.mem_cons.1 hk with rfl | hk
    · exact True.intro
    · rcases List.mem_append.1 hk with hk | hk
      · exact tokOk_block hb h.left k hk
      · exact tokOk_items hi h.right k hk
theorem tokOk_entries : ∀ {c : Nat} {ts : List Tok} {xs : List (Yaml.Node × Yaml.Node)}, Entries c ts xs →
    NodeOk X env R keep (leavesEntries xs) (namesEntries xs) → ∀ k ∈ ts, TokOk X env R keep k
  | _, _, _, .nil, _ => by simp
  | _, _, _, .inline hi, h => by
    simp only [leavesEntries, namesEntries] at h
    intro k hk
    rcases List.mem_cons.1 hk with rfl | hk
    · exact ⟨fun s hs => h.2 s (by simp [hs]), fun s hs => h.1 s (by simp [hs])⟩
    · exact tokOk_entries hi h.right k hk
  | _, _, _, .null hi, h => by
    simp only [leavesEntries, namesEntries] at h
    intro k hk
    rcases List.mem_cons.1 hk with rfl | hk
    · exact fun s hs => h.2 s (by simp [hs])
    · exact tokOk_entries hi h.right k hk
  | _, _, _, .block _ hb hi, h => by
    simp only [leavesEntries, namesEntries] at h
    intro k hk
    rcases List.mem_cons.1 hk with rfl | hk
    · exact fun s hs => h.2 s (by simp [hs])
    · rcases List.mem_append.1 hk with hk | hk
      · exact tokOk_block hb ⟨h.left.1, fun s hs => h.2 s (by simp [hs])⟩ k hk
      · exact tokOk_entries hi h.right k hk
  | _, _, _, .seq hb _ hi, h => by
    simp only [leavesEntries, namesEntries] at h
    intro k hk
    rcases List.mem_cons.1 hk with rfl | hk
    · exact fun s hs => h.2 s (by simp [hs])
    · rcases List.mem_append.1 hk with hk | hk
      · exact tokOk_items hb ⟨fun s hs => h.1 s (by simp [leaves, hs]), fun s hs => h.2 s (by simp [names, hs])⟩ k hk
      · exact tokOk_entries hi h.right k hk
end

theorem lines_inj : ∀ {ls ks : List (List Char)}, (∀ l ∈ ls, '\n' ∉ l) → (∀ l ∈ ks, '\n' ∉ l) →
    ls.flatMap (· ++ ['\n']) = ks.flatMap (· ++ ['\n']) → ls = ks
  | [], [], _, _, _ => rfl
  | [], k :: ks, _, _, h => by simp at h
  | l :: ls, [], _, _, h => by simp at h
  | l :: ls, k :: ks, h1, h2, h => by
    have key : ∀ (a b c d : List Char), '\n' ∉ a → '\n' ∉ b → a ++ '\n' :: c = b ++ '\n' :: d → a = b ∧ c = d := by
      intro a
      induction a with
      | nil =>
        intro b c d _ hb e
        cases b with
        | nil => exact ⟨rfl, (List.cons.inj e).2⟩
        | cons x b => exact absurd ((List.cons.inj e).1 ▸ List.mem_cons_self) hb
      | cons x a ih =>
        intro b c d ha hb e
        cases b with
        | nil => exact absurd ((List.cons.inj e).1 ▸ List.mem_cons_self) ha
        | cons y b =>
          obtain ⟨e1, e2⟩ := List.cons.inj e
          obtain ⟨e3, e4⟩ := ih b c d (fun hc => ha (List.mem_cons_of_mem _ hc)) (fun hc => hb (List.mem_cons_of_mem _ hc)) e2
          exact ⟨by rw [e1, e3], e4⟩
    simp only [List.flatMap_cons, List.append_assoc, List.singleton_append] at h
    obtain ⟨e1, e2⟩ := key _ _ _ _ (h1 l List.mem_cons_self) (h2 k List.mem_cons_self) h
    rw [e1, lines_inj (fun x hx => h1 x (List.mem_cons_of_mem _ hx)) (fun x hx => h2 x (List.mem_cons_of_mem _ hx)) e2]

/-- A block text with the values of an axis put in is read as the tree with the values in its
strings. -/
theorem reads_filled (h : PlainAxis env) (hR : DollarText R) {text : String} {n : Yaml.Node} (hr : Reads R text n)
    (hx : HexFree (fillString X env text).toList) (hl : TidyLines (fillString X env text).toList)
    (ho : NodeOk X env R keep (leaves n) (names n)) :
    ∃ n', Reads R (fillString X env text) n' ∧ SameText keep (mapNode (fillString X env) n) n' := by
  obtain ⟨ls, ts, c, e, h1, h2, h3⟩ := hr
  have et : (fillString X env text).toList = (ls.map (substitute X env)).flatMap (· ++ ['\n']) := by
    unfold fillString
    rw [String.toList_ofList, e, substitute_lines h]
  obtain ⟨ks, ek, hk⟩ := hl
  have eks : ls.map (substitute X env) = ks := by
    refine lines_inj ?_ (fun l hl => (hk l hl).1) (et.symm.trans ek)
    intro l hl
    obtain ⟨l0, h0, rfl⟩ := List.mem_map.1 hl
    exact substitute_line h (h1 l0 h0).1
  subst eks
  have hx' : ∀ l ∈ ls, HexFree (substitute X env l) := by
    intro l hl
    rw [et] at hx
    obtain ⟨a, b, eab⟩ := List.append_of_mem hl
    intro e n ds x g1 g2 g3 g4 g5 g6
    refine hx e n ds x g1 g2 g3 g4 g5 (g6.trans ?_)
    rw [eab]
    exact ⟨(a.map (substitute X env)).flatMap (· ++ ['\n']), '\n' :: (b.map (substitute X env)).flatMap (· ++ ['\n']), by simp⟩
  have hf : ∀ l ∈ ls, ¬ [' ', '>'] <:+ l := by
    rintro l hl ⟨a, rfl⟩
    refine (hk _ (List.mem_map_of_mem hl)).2.2.2 ?_
    rw [show a ++ [' ', '>'] = a ++ ' ' :: ['>'] from rfl, substitute_border h space_border,
      substitute_plain X env ['>'] (by decide)]
    exact ⟨_, rfl⟩
  obtain ⟨ts', h4, h5⟩ := fill_toks (X := X) (keep := keep) h hR h2 hx' hf (tokOk_block h3 ho)
  obtain ⟨n', h6, h7⟩ := fill_block h3 h5
  exact ⟨n', ⟨_, ts', c, et, fun l hl => ⟨(hk l hl).1, (hk l hl).2.1, (hk l hl).2.2.1⟩, h4, h6⟩, h7⟩

end blocks

end Legacy
end Drone
