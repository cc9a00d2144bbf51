/-
What the printer writes for values: strings, numbers, lists, maps and settings.
-/
import Mathlib.Tactic.Common
import Verif.Proof.Emit
import Verif.Props.PrettyOrder

namespace Drone
open Spec Yaml Pretty

variable {R : Resolver}

/-! ### Lines -/

theorem itms_line {d : Nat} {w w' : Writer} {t : List Char} {v : Yaml.Node} (hs : Same w w') (hi : w'.index = w.index)
    (ht : Atom R t v) (hp : w.depth = d → Puts w w' ('\n' :: (List.replicate (2 * d) ' ' ++ '-' :: ' ' :: t))) :
    Itms R d w w' [v] := by
  refine ⟨hs, hi, fun hd => ⟨[List.replicate (2 * d) ' ' ++ '-' :: ' ' :: t], _, ?_, .line (.mk (.dash (.atom ht))) .nil, ?_⟩⟩
  · simpa [feed] using hp hd
  · have := Items.cons (c := 2 * d) (by omega : 2 * d < 2 * d + 2) (Block.atom (v := v)) .nil
    simpa using this

theorem ents_line (L : PrettyLib) {d : Nat} {w w' : Writer} {k : String} {t : List Char} {v : Yaml.Node}
    (hs : Same w w') (hi : w'.index = w.index) (h0 : w.index ≠ some 0) (hk : ReadableKey R L k) (ht : Atom R t v)
    (hp : w.depth = d → Puts w w' ('\n' :: (List.replicate (2 * d) ' ' ++ ((encode L k).toList ++ ':' :: ' ' :: t)))) :
    Ents R d w w' [(strNode R k, v)] := by
  refine ⟨hs, by rw [hi], ⟨fun h => absurd (hi ▸ h) h0, fun h => by simp at h⟩, fun hd _ =>
    ⟨[List.replicate (2 * d) ' ' ++ ((encode L k).toList ++ ':' :: ' ' :: t)], _, ?_, ?_, .inline .nil⟩⟩
  · simpa [feed] using hp hd
  · have : lead d w [(strNode R k, v)] = [] := by rw [lead, if_neg fun h => h0 h.1]
    rw [this]
    have := PToks.line (R := R) (.mk (c := 2 * d) (.entry (strNode_text' L hk.toReadable) (key_form L hk) ht)) .nil
    simpa using this

theorem str_atom (L : PrettyLib) {s : String} (h : Readable R s) : Atom R (encode L s).toList (strNode R s) :=
  .scalar (strNode_text' L h)

/-! ### Lists and maps of strings -/

theorem newline_puts {w : Writer} {d : Nat} (hd : w.depth = d) :
    Puts w (w.str "\n").indent ('\n' :: List.replicate (2 * d) ' ') := by
  have := (puts_str w "\n").trans (puts_indent (w := w.str "\n") (d := d) hd)
  exact this

theorem seqStrLoop_itms (L : PrettyLib) (d : Nat) (w : Writer) (l : List String) (h : ∀ s ∈ l, Readable R s) :
    Itms R d w (seqStrLoop L false w l) (l.map (strNode R)) := by
  induction l generalizing w with
  | nil => exact .refl d w
  | cons s l ih =>
    have h1 : Itms R d w (writeEncode L (((w.str "\n").indent.str "-").str " ") s) [strNode R s] := by
      refine itms_line ⟨rfl, rfl⟩ rfl (str_atom L (h s (by simp))) fun hd => ?_
      have := (((newline_puts hd).trans (puts_str _ "-")).trans (puts_str _ " ")).trans (puts_encode L _ s)
      convert this using 1
      simp
    exact h1.trans (ih _ fun s hs => h s (by simp [hs]))

theorem writeSequenceStr_itms (L : PrettyLib) (d : Nat) (w : Writer) {l : List String} (hl : l ≠ [])
    (h : ∀ s ∈ l, Readable R s) :
    Itms R d w (writeSequenceStr L (w.str "\n").indent l) (l.map (strNode R)) := by
  cases l with
  | nil => exact absurd rfl hl
  | cons s l => exact seqStrLoop_itms L d w (s :: l) h

theorem mapStrLoop_ents (L : PrettyLib) (d : Nat) (m : GoMap String) (w : Writer) (h0 : w.index ≠ some 0)
    (ks : List String) (hk : ∀ k ∈ ks, ReadableKey R L k) (hv : ∀ k ∈ ks, Readable R ((m.get? k).getD "")) :
    Ents R d w (mapStrLoop L m false w ks) (ks.map fun k => (strNode R k, strNode R ((m.get? k).getD ""))) := by
  induction ks generalizing w with
  | nil => exact .refl d w
  | cons k ks ih =>
    have h1 : Ents R d w (writeEncode L (((writeEncode L (w.str "\n").indent k).str ":").str " ") ((m.get? k).getD ""))
        [(strNode R k, strNode R ((m.get? k).getD ""))] := by
      refine ents_line L ⟨rfl, rfl⟩ rfl h0 (hk k (by simp)) (str_atom L (hv k (by simp))) fun hd => ?_
      have := ((((newline_puts hd).trans (puts_encode L _ k)).trans (puts_str _ ":")).trans (puts_str _ " ")).trans
        (puts_encode L _ ((m.get? k).getD ""))
      convert this using 1
      simp
    exact h1.trans (ih _ h0 (fun k hk' => hk k (by simp [hk'])) fun k hk' => hv k (by simp [hk']))

theorem writeMappingStr_ents (L : PrettyLib) (d : Nat) (w : Writer) (h0 : w.index ≠ some 0) {m : GoMap String}
    (hm : m ≠ []) (hk : ∀ k ∈ sortStrings m.keys, ReadableKey R L k)
    (hv : ∀ k ∈ sortStrings m.keys, Readable R ((m.get? k).getD "")) :
    Ents R d w (writeMappingStr L (w.str "\n").indent m)
      ((sortStrings m.keys).map fun k => (strNode R k, strNode R ((m.get? k).getD ""))) := by
  have hl : m.length ≠ 0 := by simpa using hm
  unfold writeMappingStr
  rw [if_neg hl]
  have := mapStrLoop_ents L d m w h0 _ hk hv
  cases hs : sortStrings m.keys with
  | nil =>
    have := (sortStrings_perm m.keys).length_eq
    rw [hs] at this
    simp [GoMap.keys] at this
    exact absurd this.symm (by simpa using hm)
  | cons k ks =>
    rw [hs] at this
    exact this

/-! ### Values of settings -/

/-- How the printer writes what is not a string. -/
def primText (L : PrettyLib) : Value → String
  | .bool b => if b then "true" else "false"
  | .int i => toString i
  | .float q => L.fmtFloat q
  | _ => ""

mutual
/-- Maps sorted by key; entries whose key is not a string are left out. -/
def sortV : Value → Value
  | .seq xs => .seq (sortVs xs)
  | .map kvs => .map ((sortStrings (sortEs kvs).keys).filterMap fun k =>
      ((sortEs kvs).get? k).map fun v => (.str k, v))
  | v => v
def sortVs : List Value → List Value
  | [] => []
  | x :: xs => sortV x :: sortVs xs
def sortEs : List (Value × Value) → GoMap Value
  | [] => []
  | (.str k, v) :: kvs => (k, sortV v) :: sortEs kvs
  | (_, _) :: kvs => sortEs kvs
end

mutual
/-- A value of a setting that survives. -/
def ValOk (R : Resolver) (L : PrettyLib) : Value → Prop
  | .null => True
  | .bool _ => True
  | .int i => -2 ^ 63 ≤ i ∧ i < 2 ^ 63
  | .float q => PlainScalar (L.fmtFloat q).toList ∧ R.plain (L.fmtFloat q) = some (.float q) ∧
      ¬ (q.den = 1 ∧ q.num.natAbs < 1000000)
  | .str s => Readable R s ∧ (WrittenPlain s.toList → R.plain s = some .str)
  | .seq xs => ValsOk R L xs
  | .map kvs => EntriesOk R L kvs ∧ (kvs.map Prod.fst).Nodup
def ValsOk (R : Resolver) (L : PrettyLib) : List Value → Prop
  | [] => True
  | x :: xs => ValOk R L x ∧ ValsOk R L xs
def EntriesOk (R : Resolver) (L : PrettyLib) : List (Value × Value) → Prop
  | [] => True
  | (k, v) :: kvs => (∃ s, k = .str s ∧ ReadableKey R L s ∧ (WrittenPlain s.toList → R.plain s = some .str)) ∧
      ValOk R L v ∧ EntriesOk R L kvs
end

/-- The node the printed value is read as. -/
abbrev vNode (L : PrettyLib) (v : Value) : Yaml.Node := valueNode (primText L) (sortV v)

theorem strNode_str {s : String} (h : WrittenPlain s.toList → R.plain s = some .str) : strNode R s = .scalar s .str := by
  unfold strNode
  by_cases hq : isQuoted s.toList = true
  · rw [if_pos hq]
  · rw [if_neg hq]
    unfold plainNode
    rw [h ((C55_plain_iff _).1 (by simpa using hq))]

theorem toString_int_plain (i : Int) : PlainScalar (toString i).toList := by
  have nat : ∀ n : Nat, ∀ c ∈ (Nat.repr n).toList, c.isDigit = true := by
    intro n c hc
    unfold Nat.repr at hc
    rw [String.toList_ofList] at hc
    exact Nat.isDigit_of_mem_toDigits (by decide) (by decide) hc
  have ne : ∀ n : Nat, ∃ c t, (Nat.repr n).toList = c :: t := by
    intro n
    unfold Nat.repr
    rw [String.toList_ofList]
    cases h : Nat.toDigits 10 n with
    | nil => exact absurd h Nat.toDigits_ne_nil
    | cons c t => exact ⟨c, t, rfl⟩
  have dig : ∀ c : Char, c.isDigit = true → 0x30 ≤ c.toNat ∧ c.toNat ≤ 0x39 := by
    intro c hc
    simp only [Char.isDigit, Bool.and_eq_true, decide_eq_true_eq] at hc
    exact ⟨hc.1, hc.2⟩
  have ok : ∀ l : List Char, l ≠ [] → (∀ c ∈ l, c = '-' ∨ c.isDigit = true) →
      (∃ c t, l = c :: t ∧ (c = '-' → ∃ d u, t = d :: u ∧ d.isDigit = true)) → PlainScalar l := by
    intro l hl h ⟨c, t, e, h2⟩
    have nsp : ∀ c ∈ l, c ≠ ' ' ∧ c ≠ ':' := by
      intro c hc
      rcases h c hc with rfl | h
      · decide
      · constructor <;> rintro rfl <;> simp [Char.isDigit] at h
    refine ⟨fun c hc => ?_, ⟨c, t, e, ?_, ?_, ?_⟩, ⟨?_, ?_⟩, ?_, ?_⟩
    · rcases h c hc with rfl | h
      · decide
      · have := dig c h
        left; omega
    · exact (nsp c (by simp [e])).1
    · rcases h c (by simp [e]) with rfl | h
      · decide
      · have := dig c h
        intro hm
        have key : ∀ x ∈ indicators, ¬ (0x30 ≤ x.toNat ∧ x.toNat ≤ 0x39) := by decide
        exact key c hm this
    · intro hc
      simp only [List.mem_cons, List.not_mem_nil, or_false] at hc
      rcases hc with hc | hc | hc
      · obtain ⟨d, u, rfl, hd⟩ := h2 hc
        refine ⟨d, u, rfl, ?_⟩
        rintro rfl; simp [Char.isDigit] at hd
      · rcases h c (by simp [e]) with h | h
        · rw [hc] at h; simp at h
        · rw [hc] at h; simp [Char.isDigit] at h
      · rcases h c (by simp [e]) with h | h
        · rw [hc] at h; simp at h
        · rw [hc] at h; simp [Char.isDigit] at h
    · intro hg
      exact (nsp _ (List.mem_of_getLast? hg)).1 rfl
    · intro hg
      exact (nsp _ (List.mem_of_getLast? hg)).2 rfl
    · intro hi
      exact (nsp ':' (hi.subset (by simp))).2 rfl
    · intro hi
      exact (nsp ' ' (hi.subset (by simp))).1 rfl
  show PlainScalar (Int.repr i).toList
  cases i with
  | ofNat m =>
    obtain ⟨c, t, e⟩ := ne m
    refine ok _ (by show (Nat.repr m).toList ≠ []; simp [e]) (fun c hc => .inr (nat m c hc)) ⟨c, t, e, ?_⟩
    rintro rfl
    have := nat m '-' (by rw [e]; simp)
    simp [Char.isDigit] at this
  | negSucc m =>
    obtain ⟨c, t, e⟩ := ne (m + 1)
    have hr : (Int.repr (Int.negSucc m)).toList = '-' :: (Nat.repr (m + 1)).toList := by
      show ("-" ++ (Nat.repr (m + 1))).toList = _
      rw [String.toList_append]; rfl
    rw [hr]
    refine ok _ (by simp) (fun c hc => ?_) ⟨'-', _, rfl, fun _ => ⟨c, t, e, nat (m + 1) c (by rw [e]; simp)⟩⟩
    rcases List.mem_cons.1 hc with rfl | hc
    · exact .inl rfl
    · exact .inr (nat _ c hc)

theorem plain_lit {s : String} (h : Word s) : PlainScalar s.toList := by
  obtain ⟨h1, h2, h3, h4, h5, h6, _⟩ := h
  exact C68_plain_partial _ h1 h2 h3 h4 (fun e => h5 (String.toList_inj.1 e)) (fun e => h6 (String.toList_inj.1 e))

theorem plain_atom {s : String} (h : PlainScalar s.toList) : Atom R s.toList (plainNode R s) := by
  have := Atom.scalar (ScalarText.plain (R := R) h)
  rwa [String.ofList_toList] at this

theorem bool_atom (b : Bool) : Atom R (if b then "true" else "false").toList
    (.scalar (if b then "true" else "false") (.bool b)) := by
  cases b
  · have := plain_atom (R := R) (s := "false") (plain_lit (by decide))
    unfold plainNode at this
    rw [R.plain_false] at this
    exact this
  · have := plain_atom (R := R) (s := "true") (plain_lit (by decide))
    unfold plainNode at this
    rw [R.plain_true] at this
    exact this

theorem int_atom {i : Int} (h1 : -2 ^ 63 ≤ i) (h2 : i < 2 ^ 63) :
    Atom R (toString i).toList (.scalar (toString i) (.int i)) := by
  have := plain_atom (R := R) (toString_int_plain i)
  unfold plainNode at this
  rw [R.plain_int i h1 h2] at this
  exact this

theorem null_atom : Atom R "~".toList .null := by
  have hp : PlainScalar "~".toList :=
    C68_plain_partial _ (by decide) (by decide) (by decide) (by decide) (by decide) (by decide)
  have := plain_atom (R := R) hp
  unfold plainNode at this
  rw [(R.null_iff "~").2 (by simp)] at this
  exact this

/-- A value written at a column, from there on. -/
structure ValAt (R : Resolver) (w w' : Writer) (n : Yaml.Node) : Prop where
  same : Same w w'
  index : w'.index = w.index
  out : ∀ d : Nat, w.depth = d → ∃ f ls us ts, Puts w w' (f ++ feed ls) ∧ Content R (2 * d) f us ∧ PToks R ls ts ∧
    Block (2 * d) (us ++ ts) n

/-- A value written behind a key. -/
structure After (R : Resolver) (w w' : Writer) (n : Yaml.Node) : Prop where
  same : Same w w'
  index : w'.index = w.index
  out : ∀ d : Nat, w.depth = d → (∃ t, Puts w w' (' ' :: t) ∧ Atom R t n) ∨
    (∃ ls ts, Puts w w' (feed ls) ∧ PToks R ls ts ∧ Under (2 * d) ts n)

theorem valAt_atom {w w' : Writer} {t : List Char} {n : Yaml.Node} (hs : Same w w') (hi : w'.index = w.index)
    (hp : Puts w w' t) (ha : Atom R t n) : ValAt R w w' n :=
  ⟨hs, hi, fun _ _ => ⟨t, [], _, [], by simpa [feed] using hp, .atom ha, .nil, by simpa using Block.atom⟩⟩

/-- An entry at a column, without a line feed. -/
theorem after_content (L : PrettyLib) {w w' : Writer} {d : Nat} {k : String} {n : Yaml.Node} (hd : w.depth = d)
    (hk : ReadableKey R L k) (h : After R ((writeEncode L w k).str ":") w' n) :
    ∃ f ls us ts, Puts w w' (f ++ feed ls) ∧ Content R (2 * d) f us ∧ PToks R ls ts ∧
      Entries (2 * d) (us ++ ts) [(strNode R k, n)] := by
  have hp : Puts w ((writeEncode L w k).str ":") ((encode L k).toList ++ [':']) :=
    (puts_encode L w k).trans (puts_str _ ":")
  rcases h.out d hd with ⟨t, ho, ha⟩ | ⟨ls, ts, ho, hpt, hu⟩
  · refine ⟨(encode L k).toList ++ ':' :: ' ' :: t, [], _, [], ?_,
      .entry (strNode_text' L hk.toReadable) (key_form L hk) ha, .nil, by simpa using Entries.inline .nil⟩
    have := hp.trans ho
    simpa [feed] using this
  · refine ⟨(encode L k).toList ++ [':'], ls, _, ts, hp.trans ho, .key (strNode_text' L hk.toReadable) (key_form L hk),
      hpt, ?_⟩
    cases hu with
    | null => simpa using Entries.null (c := 2 * d) (k := strNode R k) .nil
    | block hd hb => simpa using Entries.block (c := 2 * d) (k := strNode R k) hd hb .nil
    | seq hi hx => simpa using Entries.seq (c := 2 * d) (k := strNode R k) hi hx .nil

/-- An entry on a new line. -/
theorem after_ents (L : PrettyLib) {w w' : Writer} {d : Nat} {k : String} {n : Yaml.Node} (h0 : w.index ≠ some 0)
    (hk : ReadableKey R L k) (h : After R ((writeEncode L (w.str "\n").indent k).str ":") w' n) :
    Ents R d w w' [(strNode R k, n)] := by
  have hs : Same w w' := Same.trans (b := (writeEncode L (w.str "\n").indent k).str ":") ⟨rfl, rfl⟩ h.same
  have hi : w'.index = w.index := h.index
  refine ⟨hs, by rw [hi], ⟨fun h => absurd (hi ▸ h) h0, fun h => by simp at h⟩, fun hd _ => ?_⟩
  obtain ⟨f, ls, us, ts, o, hc, hp, he⟩ := after_content L (w := (w.str "\n").indent) (d := d) hd hk h
  refine ⟨(List.replicate (2 * d) ' ' ++ f) :: ls, us ++ ts, ?_, ?_, he⟩
  · rw [feed_cons]
    have := (newline_puts hd).trans o
    convert this using 1
    simp
  · have : lead d w [(strNode R k, n)] = [] := by rw [lead, if_neg fun h => h0 h.1]
    rw [this, List.nil_append]
    exact .line (.mk hc) hp

/-- What the entries of a map are written and read as. -/
def EntriesAt (R : Resolver) (es : GoMap (Writer → Writer)) (ns : GoMap Value) (node : Value → Yaml.Node) : Prop :=
  ∀ k f, es.get? k = some f → ∃ v, ns.get? k = some v ∧ ∀ w, w.index ≠ some 0 → After R w (f w) (node v)

theorem mapLoop_ents (L : PrettyLib) {es : GoMap (Writer → Writer)} {ns : GoMap Value} {node : Value → Yaml.Node}
    (h : EntriesAt R es ns node) (d : Nat) (w : Writer) (h0 : w.index ≠ some 0) (ks : List String)
    (hk : ∀ k ∈ ks, ReadableKey R L k ∧ (es.get? k).isSome) :
    Ents R d w (mapLoop L es false w ks) (ks.filterMap fun k => (ns.get? k).map fun v => (strNode R k, node v)) := by
  induction ks generalizing w with
  | nil => exact .refl d w
  | cons k ks ih =>
    obtain ⟨hk1, hk2⟩ := hk k (by simp)
    obtain ⟨f, hf⟩ := Option.isSome_iff_exists.1 hk2
    obtain ⟨v, hv, ha⟩ := h k f hf
    have h1 := after_ents L (d := d) h0 hk1 (ha ((writeEncode L (w.str "\n").indent k).str ":") h0)
    have h2 := h1.trans (ih _ (by rw [ne_eq, h1.first]; exact fun h => h0 h.1) fun k hk' => hk k (by simp [hk']))
    simp only [mapLoop, hf, hv, List.filterMap_cons, Option.map_some]
    exact h2

theorem mapLoop_at (L : PrettyLib) {es : GoMap (Writer → Writer)} {ns : GoMap Value} {node : Value → Yaml.Node}
    (h : EntriesAt R es ns node) (w : Writer) (h0 : w.index ≠ some 0) (ks : List String) (hne : ks ≠ [])
    (hk : ∀ k ∈ ks, ReadableKey R L k ∧ (es.get? k).isSome) :
    ValAt R w (mapLoop L es true w ks)
      (.map (ks.filterMap fun k => (ns.get? k).map fun v => (strNode R k, node v))) := by
  cases ks with
  | nil => exact absurd rfl hne
  | cons k ks =>
    obtain ⟨hk1, hk2⟩ := hk k (by simp)
    obtain ⟨f, hf⟩ := Option.isSome_iff_exists.1 hk2
    obtain ⟨v, hv, ha⟩ := h k f hf
    have ha := ha ((writeEncode L w k).str ":") h0
    have h1 : (f ((writeEncode L w k).str ":")).index = w.index := ha.index
    have h2 := fun d => mapLoop_ents L h d (f ((writeEncode L w k).str ":")) (by rw [h1]; exact h0) ks
      fun k hk' => hk k (by simp [hk'])
    have e : mapLoop L es true w (k :: ks) = mapLoop L es false (f ((writeEncode L w k).str ":")) ks := by
      simp only [mapLoop, hf, if_true]
    rw [e]
    have hs : Same w (mapLoop L es false (f ((writeEncode L w k).str ":")) ks) :=
      Same.trans (Same.trans (b := (writeEncode L w k).str ":") ⟨rfl, rfl⟩ ha.same) (h2 0).same
    have hidx : ∀ (w : Writer) ks, (∀ k ∈ ks, ReadableKey R L k ∧ (es.get? k).isSome) → w.index ≠ some 0 →
        (mapLoop L es false w ks).index = w.index := by
      intro w ks
      induction ks generalizing w with
      | nil => intro _ _; rfl
      | cons k ks ih =>
        intro hk h0
        obtain ⟨f, hf⟩ := Option.isSome_iff_exists.1 (hk k (by simp)).2
        obtain ⟨v, hv, ha⟩ := h k f hf
        have ha := ha ((writeEncode L (w.str "\n").indent k).str ":") h0
        simp only [mapLoop, hf, Bool.false_eq_true, if_false]
        exact (ih _ (fun k hk' => hk k (by simp [hk'])) (by rw [ha.index]; exact h0)).trans ha.index
    refine ⟨hs, (hidx _ _ (fun k hk' => hk k (by simp [hk'])) (by rw [h1]; exact h0)).trans h1, fun d hd => ?_⟩
    obtain ⟨t, ls, us, ts, o, hc, hp, he⟩ := after_content L (d := d) hd hk1 ha
    obtain ⟨ls', ts', o', hp', he'⟩ := (h2 d).out (by rw [ha.same.depth]; exact hd) (fun h => by rw [h1] at h; exact absurd h h0)
    have hl : lead d (f ((writeEncode L w k).str ":")) (ks.filterMap fun k => (ns.get? k).map fun v => (strNode R k, node v)) = [] := by
      rw [lead, if_neg fun h => by rw [h1] at h; exact h0 h.1]
    rw [hl, List.nil_append] at hp'
    refine ⟨t, ls ++ ls', us, ts ++ ts', ?_, hc, hp.append hp', ?_⟩
    · rw [feed_append, ← List.append_assoc]; exact o.trans o'
    · rw [← List.append_assoc]
      simp only [List.filterMap_cons, hv, Option.map_some]
      exact .map (entries_append he he') (by simp)

/-- One item whose value starts on its line. -/
theorem valAt_itms {w w' : Writer} {d : Nat} {n : Yaml.Node}
    (h : ValAt R (((w.str "\n").indent.str "-").str " ").inc w' n) : Itms R d w w'.dec [n] := by
  refine ⟨?_, h.index, fun hd => ?_⟩
  · refine ⟨?_, h.same.zero⟩
    have := h.same.depth
    simp only [Writer.inc, Writer.str, Writer.bytes, Writer.indent] at this
    simp [Writer.dec, this]
  · obtain ⟨f, ls, us, ts, o, hc, hp, hb⟩ := h.out (d + 1) (by
      simp [Writer.inc, Writer.str, Writer.bytes, Writer.indent, hd])
    refine ⟨(List.replicate (2 * d) ' ' ++ '-' :: ' ' :: f) :: ls, (Tok.dash (2 * d) :: us) ++ ts, ?_,
      .line (.mk (.dash hc)) hp, ?_⟩
    · have := (((newline_puts hd).trans (puts_str _ "-")).trans (puts_str _ " ")).trans o
      rw [feed_cons]
      unfold Puts at this ⊢
      show w'.buf = _
      rw [this]
      simp
    · have := Items.cons (by omega : 2 * d < 2 * (d + 1)) hb (Items.nil (c := 2 * d))
      simpa using this

theorem sortEs_keys (L : PrettyLib) {kvs : List (Value × Value)} (h : EntriesOk R L kvs) :
    kvs.map (fun kv => keyText L kv.1) = (sortEs kvs).keys := by
  induction kvs with
  | nil => rfl
  | cons p kvs ih =>
    obtain ⟨a, v⟩ := p
    obtain ⟨⟨s, rfl, _⟩, _, h3⟩ := h
    rw [List.map_cons, ih h3]
    rfl

theorem mapEntries_keys (L : PrettyLib) (kvs : List (Value × Value)) :
    (mapEntries L kvs).keys = (sortEs kvs).keys := by
  induction kvs with
  | nil => rfl
  | cons p kvs ih =>
    obtain ⟨a, v⟩ := p
    cases a with
    | str s => simp only [mapEntries, sortEs, GoMap.keys, List.map_cons, List.cons.injEq, true_and]; exact ih
    | _ => simpa only [mapEntries, sortEs] using ih

theorem get?_isSome {α : Type} {m : GoMap α} {k : String} (h : k ∈ m.keys) : (m.get? k).isSome := by
  induction m with
  | nil => simp [GoMap.keys] at h
  | cons p m ih =>
    obtain ⟨k', v⟩ := p
    rw [GoMap.get?_cons]
    split
    · rfl
    · rename_i hne
      apply ih
      simp only [GoMap.keys, List.map_cons, List.mem_cons] at h
      rcases h with h | h
      · exact absurd h (by simpa [eq_comm] using hne)
      · exact h

theorem entriesOk_key (L : PrettyLib) {kvs : List (Value × Value)} (h : EntriesOk R L kvs) :
    ∀ k ∈ (sortEs kvs).keys, ReadableKey R L k ∧ (WrittenPlain k.toList → R.plain k = some .str) := by
  induction kvs with
  | nil => simp [sortEs, GoMap.keys]
  | cons p kvs ih =>
    obtain ⟨a, v⟩ := p
    obtain ⟨⟨s, rfl, h1⟩, _, h3⟩ := h
    intro k hk
    simp only [sortEs, GoMap.keys, List.map_cons, List.mem_cons] at hk
    rcases hk with rfl | hk
    · exact h1
    · exact ih h3 k hk

theorem entryNodes_map (text : Value → String) (l : List (Value × Value)) :
    entryNodes text l = l.map fun kv => (valueNode text kv.1, valueNode text kv.2) := by
  induction l with
  | nil => rfl
  | cons p l ih => obtain ⟨k, v⟩ := p; simp only [entryNodes, ih, List.map_cons]

/-- Values written on the line of their key. -/
def inlineValue (v : Value) : Bool :=
  (match v with | .null => true | _ => false) || isPrimValue v || isZeroValue v

theorem mapEntry_eq (v : Value) (f : Writer → Writer) (w : Writer) :
    mapEntry v f w = if inlineValue v = true then f (w.str " ")
      else if isSliceValue v then f ((w.str "\n").indent) else (f ((w.inc.str "\n").indent)).dec := by
  cases v <;> rfl

theorem writeVal_inline (L : PrettyLib) {v : Value} (h : ValOk R L v) (hv : inlineValue v = true) (w : Writer) :
    Same w (writeVal L v w) ∧ (writeVal L v w).index = w.index ∧
    ∃ t, Puts w (writeVal L v w) t ∧ Atom R t (vNode L v) := by
  cases v with
  | null => exact ⟨⟨rfl, rfl⟩, rfl, _, puts_str w _, null_atom⟩
  | bool b => exact ⟨⟨rfl, rfl⟩, rfl, _, puts_str w _, bool_atom b⟩
  | int i => exact ⟨⟨rfl, rfl⟩, rfl, _, puts_str w _, int_atom h.1 h.2⟩
  | float q =>
    refine ⟨⟨rfl, rfl⟩, rfl, _, puts_str w _, ?_⟩
    have := plain_atom (R := R) h.1
    unfold plainNode at this
    rw [h.2.1] at this
    rw [show vNode L (.float q) = .scalar (L.fmtFloat q) (.float q) by
      simp only [vNode, sortV, valueNode, floatNode, if_neg h.2.2]; rfl]
    exact this
  | str s =>
    refine ⟨⟨rfl, rfl⟩, rfl, _, puts_encode L w _, ?_⟩
    have := str_atom L h.1
    rw [strNode_str h.2] at this
    exact this
  | seq xs =>
    have : xs = [] := by
      cases xs with
      | nil => rfl
      | cons x xs => simp [inlineValue, isPrimValue, isZeroValue] at hv
    subst this
    exact ⟨⟨rfl, rfl⟩, rfl, _, (puts_str w "[").trans (puts_str _ "]"), .emptySeq⟩
  | map kvs =>
    have : kvs = [] := by
      cases kvs with
      | nil => rfl
      | cons x xs => simp [inlineValue, isPrimValue, isZeroValue] at hv
    subst this
    exact ⟨⟨rfl, rfl⟩, rfl, _, (puts_str w "{").trans (puts_str _ "}"), .emptyMap⟩

theorem valAt_dash {w w1 w2 : Writer} {n : Yaml.Node} {ns : List Yaml.Node}
    (h : ValAt R ((w.str "-").str " ").inc w1 n) (h' : ∀ d, Itms R d w1.dec w2 ns) : ValAt R w w2 (.seq (n :: ns)) := by
  have hs : Same w w1.dec := by
    refine ⟨?_, h.same.zero⟩
    have := h.same.depth
    simp only [Writer.inc, Writer.str, Writer.bytes] at this
    simp [Writer.dec, this]
  refine ⟨hs.trans (h' 0).same, (h' 0).index.trans h.index, fun d hd => ?_⟩
  obtain ⟨f, ls, us, ts, o, hc, hp, hb⟩ := h.out (d + 1) (by simp [Writer.inc, Writer.str, Writer.bytes, hd])
  obtain ⟨ls', ts', o', hp', hi'⟩ := (h' d).out (by rw [hs.depth, hd])
  refine ⟨'-' :: ' ' :: f, ls ++ ls', Tok.dash (2 * d) :: us, ts ++ ts', ?_, .dash hc, hp.append hp', ?_⟩
  · have := (((puts_str w "-").trans (puts_str _ " ")).trans o).trans o'
    rw [feed_append]
    convert this using 1
    simp
  · have := Items.cons (by omega : 2 * d < 2 * (d + 1)) hb hi'
    refine .seq ?_ (by simp)
    simpa using this

theorem under_map {w w' : Writer} {n : Yaml.Node} (h : ValAt R (w.inc.str "\n").indent w' n) :
    After R w w'.dec n := by
  refine ⟨?_, h.index, fun d hd => .inr ?_⟩
  · refine ⟨?_, h.same.zero⟩
    have := h.same.depth
    simp only [Writer.inc, Writer.str, Writer.bytes, Writer.indent] at this
    simp [Writer.dec, this]
  · have hd' : w.inc.depth = ((d + 1 : Nat) : Int) := by simp [Writer.inc, hd]
    obtain ⟨f, ls, us, ts, o, hc, hp, hb⟩ := h.out (d + 1) hd'
    refine ⟨(List.replicate (2 * (d + 1)) ' ' ++ f) :: ls, us ++ ts, ?_, .line (.mk hc) hp, .block (by omega) hb⟩
    have := (newline_puts hd').trans o
    rw [feed_cons]
    unfold Puts at this ⊢
    show w'.buf = _
    rw [this]
    simp [Writer.inc]

theorem under_seq {w w' : Writer} {ns : List Yaml.Node} (hn : ns ≠ []) (h : ∀ d, Itms R d w w' ns) :
    After R w w' (.seq ns) := by
  refine ⟨(h 0).same, (h 0).index, fun d hd => .inr ?_⟩
  obtain ⟨ls, ts, o, hp, hi⟩ := (h d).out hd
  exact ⟨ls, ts, o, hp, .seq hi hn⟩

theorem sortStrings_mem {l : List String} {k : String} (h : k ∈ sortStrings l) : k ∈ l :=
  (sortStrings_perm l).mem_iff.1 h

theorem vNode_map (L : PrettyLib) {kvs : List (Value × Value)} (h : EntriesOk R L kvs) :
    vNode L (.map kvs) = .map ((sortStrings (sortEs kvs).keys).filterMap fun k =>
      ((sortEs kvs).get? k).map fun v => (strNode R k, valueNode (primText L) v)) := by
  unfold vNode
  rw [sortV, valueNode, entryNodes_map, List.map_filterMap]
  congr 1
  apply List.filterMap_congr
  intro k hk
  have := entriesOk_key L h k (sortStrings_mem hk)
  rw [strNode_str this.2, Option.map_map]
  rfl

mutual
theorem writeVal_at (L : PrettyLib) (v : Value) (h : ValOk R L v) (w : Writer) (h0 : w.index ≠ some 0) :
    ValAt R w (writeVal L v w) (vNode L v) := by
  by_cases hin : inlineValue v = true
  · obtain ⟨h1, h2, t, h3, h4⟩ := writeVal_inline L h hin w
    exact valAt_atom h1 h2 h3 h4
  · cases v with
    | seq xs =>
      cases xs with
      | nil => simp [inlineValue, isPrimValue, isZeroValue] at hin
      | cons x xs =>
        have hx := writeVal_at L x h.1 ((w.str "-").str " ").inc h0
        exact valAt_dash hx fun d => writeSeq_itms L xs h.2 d _ (by
          show (writeVal L x ((w.str "-").str " ").inc).index ≠ some 0
          rw [hx.index]; exact h0)
    | map kvs =>
      cases kvs with
      | nil => simp [inlineValue, isPrimValue, isZeroValue] at hin
      | cons p kvs =>
        have he := mapEntries_at L (p :: kvs) h.1
        have hne : sortStrings (sortEs (p :: kvs)).keys ≠ [] := by
          rw [← sortEs_keys L h.1]
          intro h
          have := (sortStrings_perm ((p :: kvs).map fun kv => keyText L kv.1)).length_eq
          rw [h] at this
          simp at this
        have := mapLoop_at L he w h0 (sortStrings (sortEs (p :: kvs)).keys) hne fun k hk =>
          ⟨(entriesOk_key L h.1 k (sortStrings_mem hk)).1,
            get?_isSome (by rw [mapEntries_keys]; exact sortStrings_mem hk)⟩
        rw [vNode_map L h.1]
        rw [← sortEs_keys L h.1] at this ⊢
        unfold writeVal
        rw [if_neg (by simp)]
        exact this
    | null => simp [inlineValue, isPrimValue, isZeroValue] at hin
    | bool b => simp [inlineValue, isPrimValue, isZeroValue] at hin
    | int b => simp [inlineValue, isPrimValue, isZeroValue] at hin
    | float b => simp [inlineValue, isPrimValue, isZeroValue] at hin
    | str b => simp [inlineValue, isPrimValue, isZeroValue] at hin
theorem writeSeq_itms (L : PrettyLib) (xs : List Value) (h : ValsOk R L xs) (d : Nat) (w : Writer)
    (h0 : w.index ≠ some 0) :
    Itms R d w (writeSeq L false xs w) (valueNodes (primText L) (sortVs xs)) := by
  cases xs with
  | nil => exact .refl d w
  | cons x xs =>
    have hx := writeVal_at L x h.1 (((w.str "\n").indent.str "-").str " ").inc h0
    have h1 : Itms R d w (writeVal L x (((w.str "\n").indent.str "-").str " ").inc).dec [vNode L x] := valAt_itms hx
    exact h1.trans (writeSeq_itms L xs h.2 d _ (by rw [h1.index]; exact h0))
theorem mapEntries_at (L : PrettyLib) (kvs : List (Value × Value)) (h : EntriesOk R L kvs) :
    EntriesAt R (mapEntries L kvs) (sortEs kvs) (valueNode (primText L)) := by
  cases kvs with
  | nil => intro k f hf; simp [mapEntries, GoMap.get?] at hf
  | cons p kvs =>
    obtain ⟨a, v⟩ := p
    obtain ⟨⟨s, rfl, _⟩, h2, h3⟩ := h
    intro k f hf
    simp only [mapEntries, sortEs, GoMap.get?_cons] at hf ⊢
    by_cases hk : k = s
    · rw [if_pos (by simpa [eq_comm] using hk)] at hf ⊢
      simp only [Option.some.injEq] at hf
      subst hf
      refine ⟨_, rfl, fun w hw => ?_⟩
      rw [mapEntry_eq]
      by_cases hin : inlineValue v = true
      · rw [if_pos hin]
        obtain ⟨e1, e2, t, e3, e4⟩ := writeVal_inline L h2 hin (w.str " ")
        exact ⟨Same.trans (b := w.str " ") ⟨rfl, rfl⟩ e1, e2, fun d hd => .inl ⟨t, (puts_str w " ").trans e3, e4⟩⟩
      · rw [if_neg hin]
        by_cases hsl : isSliceValue v = true
        · rw [if_pos hsl]
          cases v with
          | seq xs =>
            cases xs with
            | nil => simp [inlineValue, isPrimValue, isZeroValue] at hin
            | cons x xs => exact under_seq (by simp [sortVs, valueNodes]) fun d => writeSeq_itms L (x :: xs) h2 d w hw
          | _ => simp [isSliceValue] at hsl
        · rw [if_neg hsl]
          exact under_map (writeVal_at L v h2 _ hw)
    · rw [if_neg (by simpa [eq_comm] using hk)] at hf ⊢
      exact mapEntries_at L kvs h3 k f hf
end

end Drone
