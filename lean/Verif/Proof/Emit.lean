/-
What the printer writes, as pieces of block text (Spec/Block.lean): lines, entries and items.
-/
import Mathlib.Tactic.Common
import Verif.Proof.Reading
import Verif.Proof.PrettyBlock
import Verif.Props.Decode

namespace Drone
open Spec Yaml Pretty

variable {R : Resolver}

/-! ### Characters and lines -/

/-- The bytes of characters. -/
def utf8L (l : List Char) : Bytes := l.flatMap String.utf8EncodeChar

theorem utf8_eq (s : String) : utf8 s = utf8L s.toList := rfl

theorem utf8L_append (a b : List Char) : utf8L (a ++ b) = utf8L a ++ utf8L b := by simp [utf8L]

theorem utf8L_nil : utf8L [] = [] := rfl

/-- Lines, each with a line feed before it. -/
def feed (ls : List (List Char)) : List Char := ls.flatMap ('\n' :: ·)

theorem feed_append (a b : List (List Char)) : feed (a ++ b) = feed a ++ feed b := by simp [feed]

theorem feed_cons (l : List Char) (ls : List (List Char)) : feed (l :: ls) = '\n' :: l ++ feed ls := by simp [feed]

/-- The pieces of lines without folded blocks. -/
inductive PToks (R : Resolver) : List (List Char) → List Tok → Prop
  | nil : PToks R [] []
  | blank {l ls ts} : BlankLine l → PToks R ls ts → PToks R (l :: ls) ts
  | line {l ls us ts} : LineToks R l us → PToks R ls ts → PToks R (l :: ls) (us ++ ts)

theorem PToks.append {a b : List (List Char)} {ts us : List Tok} (ha : PToks R a ts) (hb : PToks R b us) :
    PToks R (a ++ b) (ts ++ us) := by
  induction ha with
  | nil => exact hb
  | blank h _ ih => exact .blank h ih
  | line h _ ih => rw [List.append_assoc]; exact .line h ih

theorem PToks.toks {a b : List (List Char)} {ts us : List Tok} (ha : PToks R a ts) (hb : Toks R b us) :
    Toks R (a ++ b) (ts ++ us) := by
  induction ha with
  | nil => exact hb
  | blank h _ ih => exact .blank h ih
  | line h _ ih => rw [List.append_assoc]; exact .line h ih

theorem entries_append {c : Nat} {ts us : List Tok} {es fs : List (Yaml.Node × Yaml.Node)}
    (h : Entries c ts es) (h' : Entries c us fs) : Entries c (ts ++ us) (es ++ fs) := by
  induction es generalizing ts with
  | nil => cases h; exact h'
  | cons e es ih =>
    cases h with
    | inline hr => exact .inline (ih hr)
    | null hr => exact .null (ih hr)
    | block hd hb hr => rw [List.cons_append, List.append_assoc]; exact .block hd hb (ih hr)
    | seq hi hx hr => rw [List.cons_append, List.append_assoc]; exact .seq hi hx (ih hr)

theorem items_append {c : Nat} {ts us : List Tok} {xs ys : List Yaml.Node}
    (h : Items c ts xs) (h' : Items c us ys) : Items c (ts ++ us) (xs ++ ys) := by
  induction xs generalizing ts with
  | nil => cases h; exact h'
  | cons x xs ih =>
    cases h with
    | cons hd hb hr => rw [List.cons_append, List.append_assoc]; exact .cons hd hb (ih hr)

/-! ### Scalars as the printer writes them -/

/-- The node of a string. -/
def strNode (R : Resolver) (s : String) : Yaml.Node :=
  if isQuoted s.toList then .scalar s .str else plainNode R s

/-- A string that survives: if it is written plain, it is read as a plain scalar that is not null. -/
structure Spec.Readable (R : Resolver) (s : String) : Prop where
  chars : WrittenPlain s.toList → ∀ c ∈ s.toList, Unescaped c
  first : WrittenPlain s.toList → s.toList.head? ≠ some '&' ∧ s.toList.head? ≠ some '!'
  lone : s ≠ "-" ∧ s ≠ "?"
  notNull : WrittenPlain s.toList → R.plain s ≠ none

/-- A key that survives. -/
structure Spec.ReadableKey (R : Resolver) (L : PrettyLib) (s : String) : Prop extends Spec.Readable R s where
  short : (encode L s).toList.length ≤ 1024
  notMerge : s ≠ "<<"

theorem isQuoted_nil : isQuoted [] = true := rfl

theorem strNode_text {s : String} (h : Readable R s) : textOf (strNode R s) = some s := by
  unfold strNode
  by_cases hq : isQuoted s.toList = true
  · rw [if_pos hq]; rfl
  · rw [if_neg hq]
    have hp := (C55_plain_iff _).1 (by simpa using hq)
    unfold plainNode
    cases hr : R.plain s with
    | none => exact absurd hr (h.notNull hp)
    | some r => rfl

theorem strNode_scalar {s : String} (h : Readable R s) : ∃ r, strNode R s = .scalar s r := by
  have := strNode_text h
  cases hn : strNode R s with
  | scalar t r => rw [hn] at this; simp only [textOf, Option.some.injEq] at this; exact ⟨r, by rw [this]⟩
  | null =>
    unfold strNode at hn
    by_cases hq : isQuoted s.toList = true
    · simp [hq] at hn
    · rw [if_neg hq] at hn
      have hp := (C55_plain_iff _).1 (by simpa using hq)
      unfold plainNode at hn
      cases hr : R.plain s with
      | none => exact absurd hr (h.notNull hp)
      | some r => rw [hr] at hn; simp at hn
  | seq xs => rw [hn] at this; simp [textOf] at this
  | map xs => rw [hn] at this; simp [textOf] at this

theorem strNode_dec {s : String} (h : Readable R s) (o : String) : decString (strNode R s) o = { val := s } := by
  obtain ⟨r, e⟩ := strNode_scalar h
  rw [e]; rfl

theorem strNode_text' (L : PrettyLib) {s : String} (h : Readable R s) :
    ScalarText R (encode L s).toList (strNode R s) := by
  unfold strNode
  by_cases hq : isQuoted s.toList = true
  · rw [if_pos hq]
    obtain ⟨b, e, hb⟩ := C55_quoted L s (.inr hq)
    have := hb []
    rw [List.append_nil] at this
    rw [e]
    have := ScalarText.quoted (R := R) this
    rwa [String.ofList_toList] at this
  · rw [if_neg hq]
    have hq' : isQuoted s.toList = false := by simpa using hq
    have hp := (C55_plain_iff _).1 hq'
    rw [C55_plain L s hp]
    have := ScalarText.plain (R := R) (C68_plain_partial s.toList hq' (h.chars hp) (h.first hp).1 (h.first hp).2
      (fun e => h.lone.1 (String.toList_inj.1 e)) (fun e => h.lone.2 (String.toList_inj.1 e)))
    rwa [String.ofList_toList] at this

theorem key_form (L : PrettyLib) {s : String} (h : ReadableKey R L s) : KeyForm (encode L s).toList := by
  refine ⟨h.short, fun e => ?_⟩
  by_cases hq : isQuoted s.toList = true
  · obtain ⟨b, e', hb⟩ := C55_quoted L s (.inr hq)
    rw [e'] at e
    simp at e
  · have hp := (C55_plain_iff _).1 (by simpa using hq)
    rw [C55_plain L s hp] at e
    exact h.notMerge (String.toList_inj.1 e)

/-- A word: letters, digits and underscores, not null. -/
def Word (k : String) : Prop :=
  isQuoted k.toList = false ∧ (∀ c ∈ k.toList, Unescaped c) ∧ k.toList.head? ≠ some '&' ∧ k.toList.head? ≠ some '!' ∧
  k ≠ "-" ∧ k ≠ "?" ∧ k ∉ ["", "~", "null", "Null", "NULL"] ∧ k.toList.length ≤ 1024 ∧ k ≠ "<<"

instance (c : Char) : Decidable (Unescaped c) := by unfold Unescaped; infer_instance
instance (k : String) : Decidable (Word k) := by unfold Word; infer_instance

theorem Word.key (L : PrettyLib) {k : String} (h : Word k) : ReadableKey R L k := by
  obtain ⟨h1, h2, h3, h4, h5, h6, h7, h8, h9⟩ := h
  exact ⟨⟨fun _ => h2, fun _ => ⟨h3, h4⟩, ⟨h5, h6⟩, fun _ e => h7 ((R.null_iff _).1 e)⟩,
    by rwa [C55_plain L k ((C55_plain_iff _).1 h1)], h9⟩

/-! ### Writers -/

theorem padding_chars (d : Nat) : Writer.padding d = utf8L (List.replicate (2 * d) ' ') := by
  unfold Writer.padding
  rw [Int.toNat_natCast]
  induction d with
  | zero => rfl
  | succ d ih =>
    rw [List.replicate_succ, List.flatten_cons, ih, show 2 * (d + 1) = 2 * d + 1 + 1 by omega,
      List.replicate_succ, List.replicate_succ]
    rfl

/-- What a line starts with: the indentation, for the first key of an item with its dash. -/
def pfx (d : Nat) (w : Writer) : List Char :=
  if w.index = some 0 then List.replicate (2 * (d - 1)) ' ' ++ ['-', ' '] else List.replicate (2 * d) ' '

/-- The dash before the first key. -/
def lead (d : Nat) (w : Writer) (es : List (Yaml.Node × Yaml.Node)) : List Tok :=
  if w.index = some 0 ∧ es ≠ [] then [.dash (2 * (d - 1))] else []

/-- The buffer gets characters. -/
def Puts (w w' : Writer) (cs : List Char) : Prop := w'.buf = w.buf ++ utf8L cs

theorem Puts.trans {a b c : Writer} {x y : List Char} (h : Puts a b x) (h' : Puts b c y) : Puts a c (x ++ y) := by
  unfold Puts at *
  rw [h', h, utf8L_append, List.append_assoc]

theorem Puts.refl (w : Writer) : Puts w w [] := by simp [Puts, utf8L]

theorem puts_str (w : Writer) (s : String) : Puts w (w.str s) s.toList := rfl

theorem puts_encode (L : PrettyLib) (w : Writer) (s : String) : Puts w (writeEncode L w s) (encode L s).toList := rfl

theorem puts_indent {w : Writer} {d : Nat} (h : w.depth = d) : Puts w w.indent (List.replicate (2 * d) ' ') := by
  unfold Puts Writer.indent Writer.bytes
  rw [h, padding_chars]

/-- The same indentation and mode. -/
structure Same (w w' : Writer) : Prop where
  depth : w'.depth = w.depth
  zero : w'.zero = w.zero

theorem Same.refl (w : Writer) : Same w w := ⟨rfl, rfl⟩
theorem Same.trans {a b c : Writer} (h : Same a b) (h' : Same b c) : Same a c :=
  ⟨h'.depth.trans h.depth, h'.zero.trans h.zero⟩

theorem writeTag_same (L : PrettyLib) (w : Writer) (k : String) : Same w (writeTag L w k) := by
  unfold writeTag
  dsimp only [Writer.str, Writer.bytes]
  rcases hi : w.index with _ | i
  · exact ⟨rfl, rfl⟩
  · by_cases h0 : i = 0
    · simp only [h0, if_true]
      exact ⟨by simp [writeEncode, Writer.str, Writer.bytes, Writer.indent, Writer.dec, Writer.inc], rfl⟩
    · simp only [h0, if_false]
      exact ⟨rfl, rfl⟩

theorem writeTag_index (L : PrettyLib) (w : Writer) (k : String) : (writeTag L w k).index = w.index.map (· + 1) := by
  unfold writeTag
  dsimp only [Writer.str, Writer.bytes]
  rcases hi : w.index with _ | i
  · simp [writeEncode, Writer.str, Writer.bytes, Writer.indent, hi]
  · simp

theorem writeTag_puts (L : PrettyLib) {w : Writer} {d : Nat} (hd : w.depth = d) (h1 : w.index = some 0 → 1 ≤ d)
    (k : String) : Puts w (writeTag L w k) ('\n' :: (pfx d w ++ (encode L k).toList ++ [':'])) := by
  unfold writeTag Puts pfx
  dsimp only [Writer.str, Writer.bytes]
  rcases hi : w.index with _ | i
  · simp [writeEncode, Writer.str, Writer.bytes, Writer.indent, utf8_eq, utf8L, hd, padding_chars]
  · by_cases h0 : i = 0
    · subst h0
      have : (d : Int) - 1 = ((d - 1 : Nat) : Int) := by have := h1 hi; omega
      simp [writeEncode, Writer.str, Writer.bytes, Writer.indent, Writer.dec, Writer.inc, utf8_eq, utf8L, hd, this,
        padding_chars]
    · simp [writeEncode, Writer.str, Writer.bytes, Writer.indent, utf8_eq, utf8L, hd, padding_chars, h0]

/-- The writer writes entries of a mapping at its indentation. -/
structure Ents (R : Resolver) (d : Nat) (w w' : Writer) (es : List (Yaml.Node × Yaml.Node)) : Prop where
  same : Same w w'
  has : w'.index.isSome = w.index.isSome
  first : w'.index = some 0 ↔ w.index = some 0 ∧ es = []
  out : w.depth = d → (w.index = some 0 → 1 ≤ d) →
    ∃ ls ts, Puts w w' (feed ls) ∧ PToks R ls (lead d w es ++ ts) ∧ Entries (2 * d) ts es

theorem Ents.nl (d : Nat) (w : Writer) : Ents R d w (w.str "\n") [] :=
  ⟨⟨rfl, rfl⟩, rfl, by simp [Writer.str, Writer.bytes], fun _ _ =>
    ⟨[[]], [], rfl, by simpa [lead] using PToks.blank (R := R) (l := []) (by simp [BlankLine]) .nil, .nil⟩⟩

theorem Ents.refl (d : Nat) (w : Writer) : Ents R d w w [] :=
  ⟨.refl w, rfl, by simp, fun _ _ => ⟨[], [], Puts.refl w, by simpa [lead] using PToks.nil, .nil⟩⟩

theorem Ents.trans {d : Nat} {a b c : Writer} {es fs : List (Yaml.Node × Yaml.Node)} (h : Ents R d a b es)
    (h' : Ents R d b c fs) : Ents R d a c (es ++ fs) := by
  refine ⟨h.same.trans h'.same, h'.has.trans h.has, ?_, fun hd h1 => ?_⟩
  · rw [h'.first, h.first, List.append_eq_nil_iff, and_assoc]
  · obtain ⟨ls, ts, o1, p1, e1⟩ := h.out hd h1
    obtain ⟨ls', ts', o2, p2, e2⟩ := h'.out (by rw [h.same.depth, hd]) (fun hb => h1 (h.first.1 hb).1)
    refine ⟨ls ++ ls', ts ++ ts', by rw [feed_append]; exact o1.trans o2, ?_, entries_append e1 e2⟩
    cases es with
    | nil =>
      cases e1
      have : lead d b fs = lead d a fs := by
        unfold lead
        have : b.index = some 0 ↔ a.index = some 0 := by rw [h.first]; simp
        simp [this]
      rw [this] at p2
      have := p1.append p2
      simpa [lead] using this
    | cons e es =>
      have h2 : lead d b fs = [] := by
        unfold lead
        rw [if_neg]
        rintro ⟨hb, _⟩
        have := h.first.1 hb
        simp at this
      have h3 : lead d a (e :: es ++ fs) = lead d a (e :: es) := by simp [lead]
      rw [h2, List.nil_append] at p2
      rw [h3, ← List.append_assoc]
      exact p1.append p2

/-- The writer writes items of a list at its indentation. -/
structure Itms (R : Resolver) (d : Nat) (w w' : Writer) (xs : List Yaml.Node) : Prop where
  same : Same w w'
  index : w'.index = w.index
  out : w.depth = d → ∃ ls ts, Puts w w' (feed ls) ∧ PToks R ls ts ∧ Items (2 * d) ts xs

theorem Itms.refl (d : Nat) (w : Writer) : Itms R d w w [] :=
  ⟨.refl w, rfl, fun _ => ⟨[], [], Puts.refl w, .nil, .nil⟩⟩

theorem Itms.trans {d : Nat} {a b c : Writer} {xs ys : List Yaml.Node} (h : Itms R d a b xs)
    (h' : Itms R d b c ys) : Itms R d a c (xs ++ ys) := by
  refine ⟨h.same.trans h'.same, h'.index.trans h.index, fun hd => ?_⟩
  obtain ⟨ls, ts, o1, p1, e1⟩ := h.out hd
  obtain ⟨ls', ts', o2, p2, e2⟩ := h'.out (by rw [h.same.depth, hd])
  exact ⟨ls ++ ls', ts ++ ts', by rw [feed_append]; exact o1.trans o2, p1.append p2, items_append e1 e2⟩

/-! ### A key and its value -/

theorem lineToks_pfx {d : Nat} {w : Writer} {t : List Char} {us : List Tok} (h1 : w.index = some 0 → 1 ≤ d)
    (h : Content R (2 * d) t us) (e : Yaml.Node × Yaml.Node) : LineToks R (pfx d w ++ t) (lead d w [e] ++ us) := by
  unfold pfx lead
  by_cases hi : w.index = some 0
  · have hd := h1 hi
    rw [if_pos hi, if_pos ⟨hi, by simp⟩]
    obtain ⟨n, rfl⟩ : ∃ n, d = n + 1 := ⟨d - 1, by omega⟩
    rw [List.append_assoc]
    exact .mk (.dash h)
  · rw [if_neg hi, if_neg (fun h => hi h.1)]
    exact .mk h

/-- A line with a key, and lines below it. -/
theorem ents_key (L : PrettyLib) {d : Nat} {w w' : Writer} {k : String} {v : Yaml.Node} (hs : Same w w')
    (hi : w'.index.isSome = w.index.isSome) (h0 : w'.index ≠ some 0)
    (out : w.depth = d → (w.index = some 0 → 1 ≤ d) → ∃ r ls us ts,
      Puts (writeTag L w k) w' (r ++ feed ls) ∧ Content R (2 * d) ((encode L k).toList ++ ':' :: r) us ∧
      PToks R ls ts ∧ Entries (2 * d) (us ++ ts) [(strNode R k, v)]) :
    Ents R d w w' [(strNode R k, v)] := by
  refine ⟨hs, hi, ⟨fun h => absurd h h0, fun h => by simp at h⟩, fun hd h1 => ?_⟩
  obtain ⟨r, ls, us, ts, o, hc, hp, he⟩ := out hd h1
  refine ⟨(pfx d w ++ ((encode L k).toList ++ ':' :: r)) :: ls, us ++ ts, ?_, ?_, he⟩
  · have := (writeTag_puts L hd h1 k).trans o
    rw [feed_cons]
    convert this using 1
    simp
  · rw [← List.append_assoc (lead d w _)]
    exact .line (lineToks_pfx h1 hc _) hp

theorem writeTag_index_ne (L : PrettyLib) (w : Writer) (k : String) : (writeTag L w k).index ≠ some 0 := by
  rw [writeTag_index]
  cases w.index <;> simp

theorem writeTag_index_some (L : PrettyLib) (w : Writer) (k : String) :
    (writeTag L w k).index.isSome = w.index.isSome := by
  rw [writeTag_index]
  cases w.index <;> simp

/-- A value on the line of its key. -/
theorem ents_inline (L : PrettyLib) {d : Nat} {w w' : Writer} {k : String} {t : List Char} {v : Yaml.Node}
    (hk : ReadableKey R L k) (ht : Atom R t v) (hs : Same (writeTag L w k) w')
    (hi : w'.index = (writeTag L w k).index) (hp : Puts (writeTag L w k) w' (' ' :: t)) :
    Ents R d w w' [(strNode R k, v)] := by
  refine ents_key L ((writeTag_same L w k).trans hs) (by rw [hi, writeTag_index_some])
    (by rw [hi]; exact writeTag_index_ne L w k) fun _ _ => ?_
  refine ⟨' ' :: t, [], _, [], by simpa [feed] using hp, .entry (strNode_text' L hk.toReadable) (key_form L hk) ht,
    .nil, ?_⟩
  exact .inline .nil

theorem pfx_inc {d : Nat} {w : Writer} (h : w.index ≠ some 0) : pfx d w = List.replicate (2 * d) ' ' := by
  rw [pfx, if_neg h]

/-- A mapping under its key. -/
theorem ents_block (L : PrettyLib) {d : Nat} {w w' : Writer} {k : String} {es : List (Yaml.Node × Yaml.Node)}
    (hk : ReadableKey R L k) (h : Ents R (d + 1) (writeTag L w k).inc w' es) :
    Ents R d w w'.dec [(strNode R k, if es = [] then .null else .map es)] := by
  have hx : (writeTag L w k).inc.index ≠ some 0 := writeTag_index_ne L w k
  have ht := writeTag_same L w k
  refine ents_key L ?_ ?_ ?_ fun hd h1 => ?_
  · refine ⟨?_, h.same.zero.trans ht.zero⟩
    have := h.same.depth
    simp only [Writer.inc] at this
    simp [Writer.dec, this, ht.depth]
  · show w'.index.isSome = _
    rw [h.has]; exact writeTag_index_some L w k
  · show w'.index ≠ _
    rw [ne_eq, h.first]; exact fun h => hx h.1
  · obtain ⟨ls, ts, o, p, e⟩ := h.out (by simp [Writer.inc, ht.depth, hd]) (fun h => absurd h hx)
    have hl : lead (d + 1) (writeTag L w k).inc es = [] := by rw [lead, if_neg fun h => hx h.1]
    rw [hl, List.nil_append] at p
    refine ⟨[], ls, _, ts, o, .key (strNode_text' L hk.toReadable) (key_form L hk), p, ?_⟩
    by_cases hes : es = []
    · subst hes
      cases e
      simpa using Entries.null (c := 2 * d) (k := strNode R k) .nil
    · rw [if_neg hes]
      have := Entries.block (c := 2 * d) (k := strNode R k) (by omega : 2 * d < 2 * (d + 1)) (.map e hes) .nil
      simpa using this

/-- A list under its key. -/
theorem ents_list (L : PrettyLib) {d : Nat} {w w' : Writer} {k : String} {xs : List Yaml.Node}
    (hk : ReadableKey R L k) (h : Itms R d (writeTag L w k) w' xs) :
    Ents R d w w' [(strNode R k, if xs = [] then .null else .seq xs)] := by
  have ht := writeTag_same L w k
  refine ents_key L (ht.trans h.same) ?_ ?_ fun hd _ => ?_
  · rw [h.index]; exact writeTag_index_some L w k
  · rw [h.index]; exact writeTag_index_ne L w k
  · obtain ⟨ls, ts, o, p, e⟩ := h.out (by rw [ht.depth, hd])
    refine ⟨[], ls, _, ts, o, .key (strNode_text' L hk.toReadable) (key_form L hk), p, ?_⟩
    by_cases hes : xs = []
    · subst hes
      cases e
      simpa using Entries.null (c := 2 * d) (k := strNode R k) .nil
    · rw [if_neg hes]
      have := Entries.seq (c := 2 * d) (k := strNode R k) e hes .nil
      simpa using this

/-- A mapping as an item. -/
theorem itms_seq {d : Nat} {w : Writer} {f : Writer → Writer} {s' : Writer} {es : List (Yaml.Node × Yaml.Node)}
    (hf : f { w with zero := false, index := some 0 } = s'.dec)
    (h : Ents R (d + 1) (Writer.inc { w with zero := false, index := some 0 }) s' es) :
    Itms R d w (w.seq f) (if es = [] then [] else [.map es]) := by
  have hdep := h.same.depth
  simp only [Writer.inc] at hdep
  refine ⟨⟨?_, rfl⟩, rfl, fun hd => ?_⟩
  · simp [Writer.seq, hf, Writer.dec, hdep]
  · obtain ⟨ls, ts, o, p, e⟩ := h.out (by simp [Writer.inc, hd]) (fun _ => by omega)
    refine ⟨ls, _, ?_, p, ?_⟩
    · unfold Puts at *
      simpa [Writer.seq, hf, Writer.dec, Writer.inc] using o
    · by_cases hes : es = []
      · subst hes
        cases e
        simpa [lead] using Items.nil
      · rw [if_neg hes]
        have := Items.cons (c := 2 * d) (by omega : 2 * d < 2 * (d + 1)) (.map e hes) .nil
        simpa [lead, Writer.inc, hes] using this

end Drone
