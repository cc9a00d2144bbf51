/-
C55: scalars written in quotes read back, and what is written plain.
-/
import Mathlib.Tactic.Common
import Verif.Spec.Yaml
import Verif.Props.Pretty

namespace Drone
open Pretty Spec

/-! ### The reader is a function -/

theorem hexTable_fun : ∀ d v v', (d, v) ∈ hexTable → (d, v') ∈ hexTable → v = v' := by
  have : ∀ a ∈ hexTable, ∀ b ∈ hexTable, a.1 = b.1 → a.2 = b.2 := by decide
  exact fun d v v' h h' => this _ h _ h' rfl

theorem hex_fun {ds : List Char} {n n' : Nat} (h : Hex ds n) (h' : Hex ds n') : n = n' := by
  induction h generalizing n' with
  | nil =>
    generalize hd : ([] : List Char) = ds at h'
    cases h' with
    | nil => rfl
    | snoc _ _ => simp at hd
  | @snoc ds n d v _ hm ih =>
    generalize hd : ds ++ [d] = es at h'
    cases h' with
    | nil => simp at hd
    | @snoc ds' m d' v' hh hm' =>
      obtain ⟨rfl, hd⟩ := List.append_inj' hd rfl
      obtain rfl : d = d' := by simpa using hd
      rw [ih hh, hexTable_fun _ _ _ hm hm']

theorem escapes_fun : ∀ e c c', (e, c) ∈ escapes → (e, c') ∈ escapes → c = c' := by
  have : ∀ a ∈ escapes, ∀ b ∈ escapes, a.1 = b.1 → a.2 = b.2 := by decide
  exact fun d v v' h h' => this _ h _ h' rfl

theorem hexEscapes_fun : ∀ e n n', (e, n) ∈ hexEscapes → (e, n') ∈ hexEscapes → n = n' := by
  have : ∀ a ∈ hexEscapes, ∀ b ∈ hexEscapes, a.1 = b.1 → a.2 = b.2 := by decide
  exact fun d v v' h h' => this _ h _ h' rfl

theorem escapes_disjoint : ∀ e c n, (e, c) ∈ escapes → (e, n) ∈ hexEscapes → False := by
  have : ∀ a ∈ escapes, ∀ b ∈ hexEscapes, a.1 ≠ b.1 := by decide
  exact fun d v v' h h' => this _ h _ h' rfl

/-- Reading a double quoted scalar has one result. -/
theorem C55_reader_unique {t v r : List Char} (h : DoubleQuoted t v r) :
    ∀ v' r', DoubleQuoted t v' r' → v = v' ∧ r = r' := by
  induction h with
  | close =>
    intro v' r' h'
    cases h' with
    | close => exact ⟨rfl, rfl⟩
    | char _ h _ _ => exact absurd rfl h
  | char hu h1 h2 _ ih =>
    intro v' r' h'
    cases h' with
    | close => exact absurd rfl h1
    | char _ _ _ hd => obtain ⟨rfl, rfl⟩ := ih _ _ hd; exact ⟨rfl, rfl⟩
    | esc _ _ => exact absurd rfl h2
    | hex _ _ _ _ => exact absurd rfl h2
  | esc he _ ih =>
    intro v' r' h'
    cases h' with
    | char _ _ h _ => exact absurd rfl h
    | esc he' hd =>
      obtain ⟨rfl, rfl⟩ := ih _ _ hd
      rw [escapes_fun _ _ _ he he']; exact ⟨rfl, rfl⟩
    | hex he' _ _ _ => exact (escapes_disjoint _ _ _ he he').elim
  | @hex e n ds c t v r he hl hx _ ih =>
    intro v' r' h'
    generalize hg : '\\' :: e :: (ds ++ t) = text at h'
    cases h' with
    | close => simp at hg
    | char _ _ h _ => simp only [List.cons.injEq] at hg; exact absurd hg.1.symm h
    | esc he' hd =>
      simp only [List.cons.injEq, true_and] at hg
      obtain ⟨rfl, _⟩ := hg
      exact (escapes_disjoint _ _ _ he' he).elim
    | @hex e' n' ds' c' t' v' r' he' hl' hx' hd =>
      simp only [List.cons.injEq, true_and] at hg
      obtain ⟨rfl, hg⟩ := hg
      have hn := hexEscapes_fun _ _ _ he he'
      obtain ⟨rfl, rfl⟩ := List.append_inj hg (by rw [hl, hl', hn])
      obtain ⟨rfl, rfl⟩ := ih _ _ hd
      have := hex_fun hx hx'
      rw [char_eq_of_toNat this]; exact ⟨rfl, rfl⟩

/-! ### Quoting -/

theorem hexd_mem (n : Nat) : (Script.hexd n, n % 16) ∈ hexTable := by
  have : ∀ m < 16, ("0123456789abcdef".toList.getD m '0', m) ∈ hexTable := by decide
  exact this _ (Nat.mod_lt _ (by decide))

theorem hexN_hex (k n : Nat) (h : n < 16 ^ k) : Hex (Script.hexN k n) n := by
  induction k generalizing n with
  | zero =>
    have : n = 0 := by simpa using h
    subst this; exact .nil
  | succ k ih =>
    unfold Script.hexN
    have h1 : n / 16 < 16 ^ k := by
      rw [Nat.pow_succ] at h
      exact Nat.div_lt_of_lt_mul (by omega)
    have := Hex.snoc (ih _ h1) (hexd_mem n)
    rwa [show 16 * (n / 16) + n % 16 = n by omega] at this

theorem hexN_length (k n : Nat) : (Script.hexN k n).length = k := by
  induction k generalizing n with
  | zero => rfl
  | succ k ih => simp [Script.hexN, ih]

theorem quoteChar_reads (L : PrettyLib) (c : Char) {t v r : List Char} (h : DoubleQuoted t v r) :
    DoubleQuoted (Script.quoteChar L.isPrint c ++ t) (c :: v) r := by
  unfold Script.quoteChar
  by_cases h1 : c = '"' ∨ c = '\\'
  · rw [if_pos h1]
    rcases h1 with rfl | rfl <;> exact .esc (by decide) h
  rw [if_neg h1]
  by_cases h2 : L.isPrint c = true
  · rw [if_pos h2]
    refine .char ?_ (fun h => h1 (.inl h)) (fun h => h1 (.inr h)) h
    have := L.print_graphic c h2
    unfold Unescaped
    omega
  rw [if_neg h2]
  by_cases h3 : c = '\x07'
  · rw [if_pos h3]; subst h3; exact .esc (by decide) h
  rw [if_neg h3]
  by_cases h3 : c = '\x08'
  · rw [if_pos h3]; subst h3; exact .esc (by decide) h
  rw [if_neg h3]
  by_cases h3 : c = '\x0c'
  · rw [if_pos h3]; subst h3; exact .esc (by decide) h
  rw [if_neg h3]
  by_cases h3 : c = '\n'
  · rw [if_pos h3]; subst h3; exact .esc (by decide) h
  rw [if_neg h3]
  by_cases h3 : c = '\r'
  · rw [if_pos h3]; subst h3; exact .esc (by decide) h
  rw [if_neg h3]
  by_cases h3 : c = '\t'
  · rw [if_pos h3]; subst h3; exact .esc (by decide) h
  rw [if_neg h3]
  by_cases h3 : c = '\x0b'
  · rw [if_pos h3]; subst h3; exact .esc (by decide) h
  rw [if_neg h3]
  by_cases h3 : c.toNat < 32 ∨ c.toNat = 127
  · rw [if_pos h3]
    exact .hex (e := 'x') (by decide) (hexN_length 2 _) (hexN_hex 2 _ (by omega)) h
  rw [if_neg h3]
  by_cases h3 : c.toNat < 65536
  · rw [if_pos h3]
    exact .hex (e := 'u') (by decide) (hexN_length 4 _) (hexN_hex 4 _ (by omega)) h
  rw [if_neg h3]
  refine .hex (e := 'U') (by decide) (hexN_length 8 _) (hexN_hex 8 _ ?_) h
  have : c.toNat < UInt32.size := c.val.toNat_lt
  have h4 : UInt32.size = 4294967296 := rfl
  omega

theorem flatMap_reads (L : PrettyLib) (s rest : List Char) :
    DoubleQuoted (s.flatMap (Script.quoteChar L.isPrint) ++ ['"'] ++ rest) s rest := by
  induction s with
  | nil => exact .close
  | cons c s ih =>
    rw [List.flatMap_cons, List.append_assoc, List.append_assoc, ← List.append_assoc _ ['"'] rest]
    exact quoteChar_reads L c ih

/-- C55: a string that is written in quotes is read back, wherever it stands. -/
theorem C55_quoted (L : PrettyLib) (s : String) (h : s = "" ∨ isQuoted s.toList = true) :
    ∃ body, (encode L s).toList = '"' :: body ∧ ∀ rest, DoubleQuoted (body ++ rest) s.toList rest := by
  unfold encode
  by_cases h0 : s.length = 0
  · rw [if_pos h0]
    have : s = "" := by simpa using h0
    subst this
    exact ⟨['"'], rfl, fun rest => .close⟩
  · rw [if_neg h0]
    have h1 : isQuoted s.toList = true := by
      rcases h with rfl | h
      · exact absurd rfl h0
      · exact h
    rw [if_pos h1]
    exact ⟨_, String.toList_ofList, fun rest => flatMap_reads L s.toList rest⟩

/-! ### What is written plain -/

theorem needsQuote_iff (p : Char) (s : List Char) : needsQuote p s = false ↔
    (∀ c ∈ s, isEscapeCode c = false) ∧ ¬ [':', ' '] <:+: p :: s ∧ ¬ [' ', '#'] <:+: p :: s := by
  have two : ∀ (a b x : Char) (l : List Char), [a, b] <:+: x :: l ↔ (x = a ∧ l.head? = some b) ∨ [a, b] <:+: l := by
    intro a b x l
    rw [List.infix_cons_iff]
    refine or_congr_left ?_
    cases l with
    | nil =>
      constructor
      · rintro ⟨t, ht⟩; simp at ht
      · simp
    | cons y l =>
      constructor
      · rintro ⟨t, ht⟩; simp at ht; simp [ht.1, ht.2.1]
      · rintro ⟨rfl, h⟩
        simp at h; subst h; exact ⟨l, rfl⟩
  induction s generalizing p with
  | nil =>
    simp only [needsQuote, List.not_mem_nil, false_implies, implies_true, true_and]
    rw [two, two]
    simp
  | cons b s ih =>
    unfold needsQuote
    rw [two _ _ p, two _ _ p]
    by_cases h1 : isEscapeCode b = true
    · rw [if_pos h1]
      simp only [Bool.true_eq_false, List.mem_cons, false_iff]
      rintro ⟨h, _⟩
      have := h b (.inl rfl)
      rw [h1] at this; simp at this
    rw [if_neg h1]
    have h1' : isEscapeCode b = false := by simpa using h1
    by_cases h2 : b = ' ' ∧ p = ':'
    · rw [if_pos h2]
      simp [h2.1, h2.2]
    rw [if_neg h2]
    by_cases h3 : b = '#' ∧ p = ' '
    · rw [if_pos h3]
      simp [h3.1, h3.2]
    rw [if_neg h3]
    refine (ih b).trans ?_
    simp only [List.mem_cons, forall_eq_or_imp, h1', true_and, List.head?_cons, Option.some.injEq, not_or]
    constructor
    · rintro ⟨a, b', c⟩
      exact ⟨a, ⟨fun h => h2 ⟨h.2, h.1⟩, b'⟩, fun h => h3 ⟨h.2, h.1⟩, c⟩
    · rintro ⟨a, ⟨_, b'⟩, _, c⟩
      exact ⟨a, b', c⟩

theorem infix_null (a b : Char) (ha : a ≠ '\x00') (s : List Char) :
    [a, b] <:+: '\x00' :: s ↔ [a, b] <:+: s := by
  rw [List.infix_cons_iff]
  refine ⟨?_, .inr⟩
  rintro (⟨t, ht⟩ | h)
  · simp at ht; exact absurd ht.1 ha
  · exact h

theorem dropWhile_self {p : Char → Bool} {s : List Char} :
    s.dropWhile p = s ↔ ∀ c, s.head? = some c → p c = false := by
  cases s with
  | nil => simp
  | cons c s =>
    rw [List.dropWhile_cons]
    cases h : p c with
    | false => simp [h]
    | true =>
      simp only [List.head?_cons, Option.some.injEq, forall_eq', h, Bool.true_eq_false, iff_false, if_true]
      intro he
      have := congrArg List.length he
      have hle := (List.dropWhile_sublist p (l := s)).length_le
      simp at this
      omega

theorem trimSpace_self {s : List Char} : trimSpace s = s ↔
    (∀ c, s.head? = some c → isSpace c = false) ∧ (∀ c, s.getLast? = some c → isSpace c = false) := by
  unfold trimSpace
  constructor
  · intro h
    have hlen := congrArg List.length h
    have h1 := (List.dropWhile_sublist isSpace (l := s)).length_le
    have h2 := (List.dropWhile_sublist isSpace (l := (s.dropWhile isSpace).reverse)).length_le
    rw [List.length_reverse] at hlen h2
    have e1 : s.dropWhile isSpace = s :=
      (List.dropWhile_sublist isSpace).eq_of_length (by omega)
    rw [e1] at h
    have e2 : s.reverse.dropWhile isSpace = s.reverse := by
      have := congrArg List.reverse h
      simpa using this
    refine ⟨dropWhile_self.1 e1, ?_⟩
    have := dropWhile_self.1 e2
    simpa [List.head?_reverse] using this
  · rintro ⟨h1, h2⟩
    have e2 : s.reverse.dropWhile isSpace = s.reverse :=
      dropWhile_self.2 (by simpa [List.head?_reverse] using h2)
    rw [dropWhile_self.2 h1, e2, List.reverse_reverse]

/-- The code points of white space. -/
def Spec.whiteSpace : List Nat :=
  [0x09, 0x0A, 0x0B, 0x0C, 0x0D, 0x20, 0x85, 0xA0, 0x1680, 0x2000, 0x2001, 0x2002, 0x2003, 0x2004, 0x2005, 0x2006,
    0x2007, 0x2008, 0x2009, 0x200A, 0x2028, 0x2029, 0x202F, 0x205F, 0x3000]

theorem isSpace_false {c : Char} : isSpace c = false ↔ c.toNat ∉ Spec.whiteSpace := by
  have e : ∀ d : Char, c = d ↔ c.toNat = d.toNat := fun d => ⟨congrArg _, fun h => Char.toNat_inj.1 h⟩
  simp only [isSpace, decide_eq_false_iff_not, e, Spec.whiteSpace, List.mem_cons, List.not_mem_nil, or_false,
    show '\t'.toNat = 9 from rfl, show '\n'.toNat = 10 from rfl, show '\x0b'.toNat = 11 from rfl,
    show '\x0c'.toNat = 12 from rfl, show '\r'.toNat = 13 from rfl, show ' '.toNat = 32 from rfl]
  omega

/-- The rule by which the printer leaves a string as it is. -/
structure Spec.WrittenPlain (s : List Char) : Prop where
  nonempty : s ≠ []
  /-- no white space at the ends -/
  first : ∀ c, s.head? = some c → c.toNat ∉ Spec.whiteSpace
  last : ∀ c, s.getLast? = some c → c.toNat ∉ Spec.whiteSpace ∧ c ≠ ':'
  /-- no line break, tab or other escape code -/
  codes : ∀ c ∈ s, c ∉ ['\x07', '\x08', '\x0c', '\n', '\r', '\t', '\x0b']
  colon : ¬ [':', ' '] <:+: s
  comment : ¬ [' ', '#'] <:+: s
  indicator : ∀ c, s.head? = some c →
    c ∉ [',', '[', ']', '{', '}', '*', '"', '\'', '%', '@', '`', '|', '>', '#']
  dash : ∀ c t, s = c :: ' ' :: t → c ∉ ['&', '!', '-', ':', '?']

/-- C55: the strings written plain are those with no line break, no white space at the
ends, no ": " or " #", no ":" at the end and no indicator at the start. -/
theorem C55_plain_iff (s : List Char) : isQuoted s = false ↔ Spec.WrittenPlain s := by
  constructor
  · intro h
    obtain ⟨h1, h2, h3, h4, h5, h6⟩ := isQuoted_false h
    rw [trimSpace_self] at h2
    rw [needsQuote_iff, infix_null _ _ (by decide), infix_null _ _ (by decide)] at h3
    refine ⟨h1, fun c hc => isSpace_false.1 (h2.1 c hc), fun c hc => ⟨isSpace_false.1 (h2.2 c hc), fun he => h4 (he ▸ hc)⟩, ?_, h3.2.1, h3.2.2, ?_, ?_⟩
    · intro c hc hm
      have := h3.1 c hc
      simp [isEscapeCode] at this
      simp [this] at hm
    · intro c hc
      cases s with
      | nil => simp at hc
      | cons x xs => simp at hc; subst hc; exact h5
    · rintro c t rfl hm
      exact h6 ⟨hm, rfl⟩
  · intro h
    unfold isQuoted
    rw [if_neg (by simpa using h.nonempty)]
    dsimp only
    have ht : trimSpace s = s := trimSpace_self.2
      ⟨fun c hc => isSpace_false.2 (h.first c hc), fun c hc => isSpace_false.2 (h.last c hc).1⟩
    rw [if_neg (by simpa using ht), ht]
    obtain ⟨c, t, rfl⟩ : ∃ c t, s = c :: t := by
      cases s with
      | nil => exact absurd rfl h.nonempty
      | cons c t => exact ⟨c, t, rfl⟩
    rw [if_neg (show (c :: t).getD 0 '\x00' ∉ _ from h.indicator c rfl), if_neg, if_neg]
    · simp only [decide_eq_false_iff_not]
      exact fun he => (h.last _ he).2 rfl
    · have : needsQuote '\x00' (c :: t) = false := by
        rw [needsQuote_iff, infix_null _ _ (by decide), infix_null _ _ (by decide)]
        refine ⟨fun x hx => ?_, h.colon, h.comment⟩
        have := h.codes x hx
        simpa [isEscapeCode] using this
      simp [this]
    · rintro ⟨h1, h2⟩
      cases t with
      | nil => simp at h2
      | cons d u =>
        have : d = ' ' := by simpa using h2
        subst this
        exact h.dash c u rfl h1

/-- C55: such a string is written as it is. -/
theorem C55_plain (L : PrettyLib) (s : String) (h : Spec.WrittenPlain s.toList) : encode L s = s := by
  have h1 := (C55_plain_iff _).2 h
  unfold encode
  rw [if_neg, if_neg (by simp [h1])]
  intro h0
  have : s = "" := by simpa using h0
  subst this
  exact h.nonempty rfl

/-- Strings of both kinds. -/
example : isQuoted "golang:1.11".toList = false ∧ isQuoted "echo a: b".toList = true ∧
    isQuoted "a\tb\"".toList = true ∧ isQuoted "x: ".toList = true := by decide

/-- A quoted string with escapes of every kind. -/
example : encode exPretty "a: \"\n\x01é" = "\"a: \\\"\\n\\x01\\u00e9\"" := by decide +kernel

/-- `WrittenPlain` is met. -/
example : Spec.WrittenPlain "golang:1.11".toList := (C55_plain_iff _).1 (by decide)

/-- A string written plain is read as a plain scalar, unless it starts with "&" or "!",
is a lone "-" or "?", or has a character YAML does not take as it is. -/
theorem C68_plain_partial (s : List Char) (h : isQuoted s = false) (hc : ∀ c ∈ s, Unescaped c)
    (h1 : s.head? ≠ some '&') (h2 : s.head? ≠ some '!') (h3 : s ≠ ['-']) (h4 : s ≠ ['?']) :
    PlainScalar s := by
  have h := (C55_plain_iff s).1 h
  obtain ⟨c, t, rfl⟩ : ∃ c t, s = c :: t := by
    cases s with
    | nil => exact absurd rfl h.nonempty
    | cons c t => exact ⟨c, t, rfl⟩
  refine ⟨hc, ⟨c, t, rfl, ?_, ?_, ?_⟩, ⟨?_, ?_⟩, h.colon, h.comment⟩
  · rintro rfl
    exact absurd (h.first _ rfl) (by decide)
  · have := h.indicator c rfl
    simp only [List.head?_cons, ne_eq, Option.some.injEq] at h1 h2
    simp only [indicators, List.mem_cons, List.not_mem_nil, or_false, not_or] at this ⊢
    simp only [this, h1, h2, not_false_eq_true, and_self]
  · intro hm
    cases t with
    | nil =>
      simp only [List.mem_cons, List.not_mem_nil, or_false] at hm
      rcases hm with rfl | rfl | rfl
      · exact absurd rfl h3
      · exact absurd rfl h4
      · exact absurd rfl (h.last _ rfl).2
    | cons d u =>
      refine ⟨d, u, rfl, ?_⟩
      rintro rfl
      refine h.dash c u rfl ?_
      simp only [List.mem_cons, List.not_mem_nil, or_false] at hm ⊢
      rcases hm with rfl | rfl | rfl <;> simp
  · intro he
    exact absurd (h.last _ he).1 (by decide)
  · intro he
    exact (h.last _ he).2 rfl

/-- The exceptions are real: these are written plain, and are no plain scalars. -/
theorem C68_exceptions : ∀ s ∈ ["&a", "!a", "-", "?", "a\x01b"],
    (∀ L, encode L s = s) ∧ ¬ PlainScalar s.toList := by
  intro s hs
  have hq : ∀ s ∈ ["&a", "!a", "-", "?", "a\x01b"], isQuoted s.toList = false := by decide
  refine ⟨fun L => C55_plain L s ((C55_plain_iff _).1 (hq s hs)), fun hp => ?_⟩
  obtain ⟨c, t, e, _, h1, h2⟩ := hp.first
  have hch := hp.chars
  simp only [List.mem_cons, List.not_mem_nil, or_false] at hs
  rcases hs with rfl | rfl | rfl | rfl | rfl
  · simp at e; obtain ⟨rfl, rfl⟩ := e; exact h1 (by decide)
  · simp at e; obtain ⟨rfl, rfl⟩ := e; exact h1 (by decide)
  · simp at e; obtain ⟨rfl, rfl⟩ := e
    obtain ⟨d, u, h, _⟩ := h2 (by decide)
    simp at h
  · simp at e; obtain ⟨rfl, rfl⟩ := e
    obtain ⟨d, u, h, _⟩ := h2 (by decide)
    simp at h
  · exact absurd (hch '\x01' (by decide)) (by unfold Unescaped; decide)

/-- Types are not kept either: a string that looks like a number, a boolean or null is
printed like one. -/
theorem C68_types_lost (L : PrettyLib) (w : Writer) :
    writeVal L (.str "1") w = writeVal L (.int 1) w ∧
    writeVal L (.str "true") w = writeVal L (.bool true) w ∧
    writeVal L (.str "~") w = writeVal L .null w := by
  have key : ∀ s : String, isQuoted s.toList = false → encode L s = s :=
    fun s h => C55_plain L s ((C55_plain_iff _).1 h)
  refine ⟨?_, ?_, ?_⟩
  · simp only [writeVal, writeEncode]
    rw [key "1" (by decide)]
    rfl
  · simp only [writeVal, writeEncode]
    rw [key "true" (by decide)]
    rfl
  · simp only [writeVal, writeEncode]
    rw [key "~" (by decide)]

/-- `PlainScalar` holds of ordinary text. -/
example : PlainScalar "-v $HOME:/root #x".toList ↔ False :=
  ⟨fun h => h.comment ⟨"-v $HOME:/root".toList, ['x'], rfl⟩, False.elim⟩

example : PlainScalar "-v $HOME:/root".toList :=
  C68_plain_partial _ (by decide) (by unfold Unescaped; decide) (by decide) (by decide) (by decide) (by decide)

end Drone
