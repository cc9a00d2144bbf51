/-
The block text of a tree is read as the tree.
-/
import Verif.Spec.BlockText
import Verif.Props.Quote
import Verif.Props.MatrixTree

namespace Drone
open Spec Yaml Pretty

variable {R : Resolver} {L : PrettyLib}

/-- Lines and their pieces. -/
inductive Rendered (R : Resolver) : List (Nat × List Char) → List Tok → Prop
  | nil : Rendered R [] []
  | cons {c t ls us ts} : Content R c t us → Rendered R ls ts → Rendered R ((c, t) :: ls) (us ++ ts)

theorem Rendered.append {a b : List (Nat × List Char)} {ts us : List Tok} (h : Rendered R a ts) (h' : Rendered R b us) :
    Rendered R (a ++ b) (ts ++ us) := by
  induction h with
  | nil => exact h'
  | cons hc _ ih =>
    rw [List.append_assoc]
    exact .cons hc ih

theorem Rendered.toks {ls : List (Nat × List Char)} {ts : List Tok} (h : Rendered R ls ts) :
    Toks R (ls.map lineText) ts := by
  induction h with
  | nil => exact .nil
  | cons hc _ ih => exact .line (.mk hc) ih

theorem plain_null : PlainScalar "null".toList :=
  ⟨by unfold Unescaped; decide, ⟨'n', "ull".toList, by decide, by decide, by decide, fun h => absurd h (by decide)⟩, by decide, by decide, by decide⟩

theorem scalar_reads {t : String} {r : Scalar} (h : ScalarOk R t r) :
    ScalarText R (inlineText L.isPrint (.scalar t r)) (.scalar t r) := by
  cases r with
  | str =>
    have := ScalarText.quoted (R := R) (flatMap_reads L t.toList [])
    simpa [inlineText, Script.quote, String.ofList_toList] using this
  | _ =>
    obtain ⟨h1, h2, _⟩ := h
    have := ScalarText.plain (R := R) h1
    rw [String.ofList_toList] at this
    simpa only [inlineText, plainNode, h2] using this

theorem inlineNull_reads : ScalarText R (inlineText L.isPrint .null) .null := by
  have := ScalarText.plain (R := R) plain_null
  have e : R.plain (String.ofList "null".toList) = none := (R.null_iff _).2 (by decide)
  simpa only [inlineText, plainNode, e] using this

theorem inline_reads {n : Yaml.Node} (hi : isInline n = true) (h : Writable R L.isPrint n) :
    Atom R (inlineText L.isPrint n) n := by
  cases n with
  | null => exact .scalar inlineNull_reads
  | scalar t r =>
    unfold Writable at h
    exact .scalar (scalar_reads h)
  | seq xs =>
    cases xs with
    | nil => exact .emptySeq
    | cons => simp [isInline] at hi
  | map xs =>
    cases xs with
    | nil => exact .emptyMap
    | cons => simp [isInline] at hi

theorem key_reads {k : Yaml.Node} (h : KeyOk R L.isPrint k) :
    ScalarText R (inlineText L.isPrint k) k ∧ KeyForm (inlineText L.isPrint k) := by
  cases k with
  | null => exact ⟨inlineNull_reads, by simp only [KeyForm, inlineText]; decide⟩
  | scalar t r =>
    obtain ⟨h1, h2, h3⟩ := h
    exact ⟨scalar_reads h1, h2, h3⟩
  | seq => exact h.elim
  | map => exact h.elim

/-- The first line starts at the column. -/
theorem nodeLines_head (print : Char → Bool) (c : Nat) (n : Yaml.Node) : ∃ t ls, nodeLines print c n = (c, t) :: ls := by
  have item : ∀ (x : Yaml.Node) (ls : List (Nat × List Char)), (∃ t l, nodeLines print (c + 2) x = (c + 2, t) :: l) →
      ∃ t l, dashFirst c (nodeLines print (c + 2) x) ++ ls = (c, t) :: l := by
    rintro x ls ⟨t, l, e⟩
    rw [e]
    exact ⟨_, _, rfl⟩
  cases n with
  | null => exact ⟨_, _, by rw [nodeLines]; all_goals simp⟩
  | scalar t r => exact ⟨_, _, by rw [nodeLines]; all_goals simp⟩
  | seq xs =>
    cases xs with
    | nil => exact ⟨_, _, by simp [nodeLines]; exact ⟨rfl, rfl⟩⟩
    | cons x xs =>
      simp only [nodeLines, List.isEmpty_cons, Bool.false_eq_true, if_false, itemLines]
      exact item x _ (nodeLines_head print (c + 2) x)
  | map xs =>
    cases xs with
    | nil => exact ⟨_, _, by simp [nodeLines]; exact ⟨rfl, rfl⟩⟩
    | cons kv xs =>
      obtain ⟨k, v⟩ := kv
      simp only [nodeLines, List.isEmpty_cons, Bool.false_eq_true, if_false, entryLines]
      split <;> exact ⟨_, _, rfl⟩
termination_by sizeOf n

mutual
theorem node_rendered : ∀ (c : Nat) {n : Yaml.Node}, Writable R L.isPrint n →
    ∃ ts, Rendered R (nodeLines L.isPrint c n) ts ∧ Block c ts n
  | c, .null, h => by
    refine ⟨_, ?_, .atom⟩
    simp only [nodeLines]
    exact .cons (.atom (inline_reads rfl h)) .nil
  | c, .scalar t r, h => by
    refine ⟨_, ?_, .atom⟩
    simp only [nodeLines]
    exact .cons (.atom (inline_reads rfl h)) .nil
  | c, .seq [], h => by
    refine ⟨_, ?_, .atom⟩
    simp only [nodeLines, List.isEmpty_nil, if_true]
    exact .cons (.atom .emptySeq) .nil
  | c, .seq (x :: xs), h => by
    unfold Writable at h
    obtain ⟨ts, h1, h2⟩ := items_rendered c (xs := x :: xs) h
    refine ⟨ts, ?_, .seq h2 (by simp)⟩
    simpa only [nodeLines, List.isEmpty_cons, Bool.false_eq_true, if_false] using h1
  | c, .map [], h => by
    refine ⟨_, ?_, .atom⟩
    simp only [nodeLines, List.isEmpty_nil, if_true]
    exact .cons (.atom .emptyMap) .nil
  | c, .map (x :: xs), h => by
    unfold Writable at h
    obtain ⟨ts, h1, h2⟩ := entries_rendered c (xs := x :: xs) h
    refine ⟨ts, ?_, .map h2 (by simp)⟩
    simpa only [nodeLines, List.isEmpty_cons, Bool.false_eq_true, if_false] using h1
theorem items_rendered : ∀ (c : Nat) {xs : List Yaml.Node}, WritableList R L.isPrint xs →
    ∃ ts, Rendered R (itemLines L.isPrint c xs) ts ∧ Items c ts xs
  | c, [], h => ⟨[], .nil, .nil⟩
  | c, x :: xs, h => by
    unfold WritableList at h
    obtain ⟨ts, h1, h2⟩ := node_rendered (c + 2) h.1
    obtain ⟨us, h3, h4⟩ := items_rendered c h.2
    refine ⟨.dash c :: (ts ++ us), ?_, .cons (by omega) h2 h4⟩
    obtain ⟨t, ls, e⟩ := nodeLines_head L.isPrint (c + 2) x
    rw [itemLines, e]
    rw [e] at h1
    cases h1 with
    | @cons _ _ _ vs ws hc hr =>
      have := Rendered.cons (Content.dash hc) (hr.append h3)
      simpa [dashFirst] using this
theorem entries_rendered : ∀ (c : Nat) {xs : List (Yaml.Node × Yaml.Node)}, WritableEntries R L.isPrint xs →
    ∃ ts, Rendered R (entryLines L.isPrint c xs) ts ∧ Entries c ts xs
  | c, [], h => ⟨[], .nil, .nil⟩
  | c, (k, v) :: xs, h => by
    unfold WritableEntries at h
    obtain ⟨us, h3, h4⟩ := entries_rendered c h.2.2
    obtain ⟨hk1, hk2⟩ := key_reads h.1
    rw [entryLines]
    by_cases hi : isInline v = true
    · rw [if_pos hi]
      exact ⟨_, .cons (.entry hk1 hk2 (inline_reads hi h.2.1)) h3, .inline h4⟩
    · rw [if_neg hi]
      obtain ⟨ts, h1, h2⟩ := node_rendered (c + 2) h.2.1
      refine ⟨.key c k none :: (ts ++ us), ?_, .block (by omega) h2 h4⟩
      exact .cons (.key hk1 hk2) (h1.append h3)
end

/-! ### No markers -/

/-- What a line must not start with. -/
def MarkerFree (t : List Char) : Prop := '\n' ∉ t ∧ ¬ ['-', '-', '-'] <+: t ∧ ¬ ['.', '.', '.'] <+: t ∧ '\r' ∉ t

theorem markerFree_first {x : Char} {t : List Char} (h1 : x ≠ '-') (h2 : x ≠ '.') (hl : '\n' ∉ x :: t)
    (hr : '\r' ∉ x :: t) : MarkerFree (x :: t) :=
  ⟨hl, fun h => h1 (List.cons_prefix_cons.1 h).1.symm, fun h => h2 (List.cons_prefix_cons.1 h).1.symm, hr⟩

theorem markerFree_append {t s : List Char} (h : MarkerFree t) {x : Char} (h1 : x ≠ '-') (h2 : x ≠ '.')
    (hs : '\n' ∉ x :: s) (hr : '\r' ∉ x :: s) : MarkerFree (t ++ x :: s) := by
  refine ⟨fun hc => (List.mem_append.1 hc).elim h.1 hs, ?_, ?_, fun hc => (List.mem_append.1 hc).elim h.2.2.2 hr⟩
  · intro hp
    match t, h, hp with
    | [], h, hp => exact h1 (List.cons_prefix_cons.1 hp).1.symm
    | [a], h, hp => exact h1 (List.cons_prefix_cons.1 (List.cons_prefix_cons.1 hp).2).1.symm
    | [a, b], h, hp => exact h1 (List.cons_prefix_cons.1 (List.cons_prefix_cons.1 (List.cons_prefix_cons.1 hp).2).2).1.symm
    | a :: b :: d :: t, h, hp =>
      apply h.2.1
      simp only [List.cons_append, List.cons_prefix_cons, List.nil_prefix, and_true] at hp ⊢
      exact hp
  · intro hp
    match t, h, hp with
    | [], h, hp => exact h2 (List.cons_prefix_cons.1 hp).1.symm
    | [a], h, hp => exact h2 (List.cons_prefix_cons.1 (List.cons_prefix_cons.1 hp).2).1.symm
    | [a, b], h, hp => exact h2 (List.cons_prefix_cons.1 (List.cons_prefix_cons.1 (List.cons_prefix_cons.1 hp).2).2).1.symm
    | a :: b :: d :: t, h, hp =>
      apply h.2.2.1
      simp only [List.cons_append, List.cons_prefix_cons, List.nil_prefix, and_true] at hp ⊢
      exact hp

theorem quote_line (L : PrettyLib) (s : List Char) : '\n' ∉ Script.quote L.isPrint s ∧ '\r' ∉ Script.quote L.isPrint s :=
  ⟨quote_no (by decide) (by unfold Spec.isHex; decide) _ (.inr L.print_nl),
    quote_no (by decide) (by unfold Spec.isHex; decide) _ (.inr L.print_cr)⟩

theorem plain_line {s : List Char} (h : PlainScalar s) : '\n' ∉ s ∧ '\r' ∉ s := by
  constructor <;>
  · intro hc
    have := h.chars _ hc
    unfold Unescaped at this
    simp at this

theorem scalar_markerFree {t : String} {r : Scalar} (h : ScalarOk R t r) :
    MarkerFree (inlineText L.isPrint (.scalar t r)) := by
  cases r with
  | str =>
    have := quote_line L t.toList
    unfold Script.quote at this
    simp only [inlineText, Script.quote]
    exact markerFree_first (by decide) (by decide) this.1 this.2
  | _ =>
    obtain ⟨h1, _, h2, h3⟩ := h
    exact ⟨(plain_line h1).1, h2, h3, (plain_line h1).2⟩

theorem inline_markerFree {n : Yaml.Node} (h : Writable R L.isPrint n) : MarkerFree (inlineText L.isPrint n) := by
  cases n with
  | null => simp only [MarkerFree, inlineText]; decide
  | scalar t r => unfold Writable at h; exact scalar_markerFree h
  | seq => simp only [MarkerFree, inlineText]; decide
  | map => simp only [MarkerFree, inlineText]; decide

theorem key_markerFree {n : Yaml.Node} (h : KeyOk R L.isPrint n) : MarkerFree (inlineText L.isPrint n) := by
  cases n with
  | null => simp only [MarkerFree, inlineText]; decide
  | scalar t r => exact scalar_markerFree h.1
  | seq => exact h.elim
  | map => exact h.elim

mutual
theorem node_markerFree : ∀ (c : Nat) {n : Yaml.Node}, Writable R L.isPrint n → ∀ l ∈ nodeLines L.isPrint c n, MarkerFree l.2
  | c, .null, h => by
    simp only [nodeLines]
    intro l hl
    rw [List.mem_singleton] at hl
    subst hl
    exact inline_markerFree h
  | c, .scalar t r, h => by
    simp only [nodeLines]
    intro l hl
    rw [List.mem_singleton] at hl
    subst hl
    exact inline_markerFree h
  | c, .seq [], h => by
    simp only [nodeLines, List.isEmpty_nil, if_true]
    intro l hl
    rw [List.mem_singleton] at hl
    subst hl
    simp only [MarkerFree]; decide
  | c, .seq (x :: xs), h => by
    unfold Writable at h
    simp only [nodeLines, List.isEmpty_cons, Bool.false_eq_true, if_false]
    exact items_markerFree c (xs := x :: xs) h
  | c, .map [], h => by
    simp only [nodeLines, List.isEmpty_nil, if_true]
    intro l hl
    rw [List.mem_singleton] at hl
    subst hl
    simp only [MarkerFree]; decide
  | c, .map (x :: xs), h => by
    unfold Writable at h
    simp only [nodeLines, List.isEmpty_cons, Bool.false_eq_true, if_false]
    exact entries_markerFree c (xs := x :: xs) h
theorem items_markerFree : ∀ (c : Nat) {xs : List Yaml.Node}, WritableList R L.isPrint xs →
    ∀ l ∈ itemLines L.isPrint c xs, MarkerFree l.2
  | c, [], h => by simp [itemLines]
  | c, x :: xs, h => by
    unfold WritableList at h
    have h1 := node_markerFree (c + 2) h.1
    have h2 := items_markerFree c h.2
    rw [itemLines]
    intro l hl
    rcases List.mem_append.1 hl with hl | hl
    · obtain ⟨t, ls, e⟩ := nodeLines_head L.isPrint (c + 2) x
      rw [e] at hl h1
      simp only [dashFirst] at hl
      rcases List.mem_cons.1 hl with rfl | hl
      · have := (h1 _ List.mem_cons_self).1
        have h4 := (h1 _ List.mem_cons_self).2.2.2
        refine ⟨by simpa using this, ?_, ?_, by simpa using h4⟩
        · intro hp
          exact absurd (List.cons_prefix_cons.1 (List.cons_prefix_cons.1 hp).2).1 (by decide)
        · intro hp
          exact absurd (List.cons_prefix_cons.1 hp).1 (by decide)
      · exact h1 l (List.mem_cons_of_mem _ hl)
    · exact h2 l hl
theorem entries_markerFree : ∀ (c : Nat) {xs : List (Yaml.Node × Yaml.Node)}, WritableEntries R L.isPrint xs →
    ∀ l ∈ entryLines L.isPrint c xs, MarkerFree l.2
  | c, [], h => by simp [entryLines]
  | c, (k, v) :: xs, h => by
    unfold WritableEntries at h
    have h1 := node_markerFree (c + 2) h.2.1
    have h2 := entries_markerFree c h.2.2
    have hk := key_markerFree h.1
    rw [entryLines]
    intro l hl
    rcases List.mem_append.1 hl with hl | hl
    · by_cases hi : isInline v = true
      · rw [if_pos hi, List.mem_singleton] at hl
        subst hl
        refine markerFree_append hk (by decide) (by decide) ?_ ?_
        · have := (inline_markerFree h.2.1).1
          simpa using this
        · have := (inline_markerFree h.2.1).2.2.2
          simpa using this
      · rw [if_neg hi] at hl
        rcases List.mem_cons.1 hl with rfl | hl
        · exact markerFree_append hk (by decide) (by decide) (by decide) (by decide)
        · exact h1 l hl
    · exact h2 l hl
end

theorem line_markerFree {l : Nat × List Char} (h : MarkerFree l.2) : MarkerFree (lineText l) := by
  obtain ⟨c, t⟩ := l
  cases c with
  | zero => exact h
  | succ c =>
    unfold lineText
    rw [List.replicate_succ, List.cons_append]
    refine markerFree_first (by decide) (by decide) ?_ ?_ <;> simp only [List.mem_cons, List.mem_append, not_or]
    · exact ⟨by decide, fun hc => absurd (List.mem_replicate.1 hc).2 (by decide), h.1⟩
    · exact ⟨by decide, fun hc => absurd (List.mem_replicate.1 hc).2 (by decide), h.2.2.2⟩

/-- The text of a tree is read as the tree. -/
theorem blockText_reads (R : Resolver) (L : PrettyLib) {n : Yaml.Node} (h : Writable R L.isPrint n) :
    Reads R (blockText L.isPrint n) n := by
  obtain ⟨ts, h1, h2⟩ := node_rendered (L := L) 0 h
  refine ⟨(nodeLines L.isPrint 0 n).map lineText, ts, 0, ?_, ?_, h1.toks, h2⟩
  · unfold blockText
    rw [String.toList_ofList, List.flatMap_map]
  · intro l hl
    obtain ⟨x, hx, rfl⟩ := List.mem_map.1 hl
    have := line_markerFree (node_markerFree 0 h x hx)
    exact ⟨this.1, this.2.1, this.2.2.1⟩

end Drone
