/- Lemmas about the image reference model: a parsed reference prints to a string
that parses to the same reference. -/
import Verif.Model.Image
import Mathlib.Tactic.Common
import Mathlib.Data.List.Basic

namespace Drone
namespace Img

theorem splitFirst_none {c : Char} : ∀ {s : Str}, splitFirst c s = none ↔ c ∉ s
  | [] => by simp [splitFirst]
  | x :: xs => by
    have ih := @splitFirst_none c xs
    unfold splitFirst
    by_cases h : x = c
    · simp [h]
    · rw [if_neg h, Option.map_eq_none_iff, ih]
      simp [Ne.symm h]

theorem splitFirst_some {c : Char} : ∀ {s a b : Str},
    splitFirst c s = some (a, b) ↔ s = a ++ c :: b ∧ c ∉ a
  | [], a, b => by simp [splitFirst]
  | x :: xs, a, b => by
    unfold splitFirst
    by_cases h : x = c
    · rw [if_pos h]
      constructor
      · intro e
        simp only [Option.some.injEq, Prod.mk.injEq] at e
        simp [← e.1, ← e.2, h]
      · rintro ⟨e, hn⟩
        cases a with
        | nil => simp at e; simp [e]
        | cons y ys =>
          simp at e hn
          exact absurd (h.symm.trans e.1) hn.1
    · rw [if_neg h, Option.map_eq_some_iff]
      constructor
      · rintro ⟨⟨p, q⟩, hp, e⟩
        have := splitFirst_some.mp hp
        simp only [Prod.mk.injEq] at e
        rw [← e.1, ← e.2]
        refine ⟨by simp [this.1], ?_⟩
        simp [this.2, Ne.symm h]
      · rintro ⟨e, hn⟩
        cases a with
        | nil => simp at e; exact absurd e.1 h
        | cons y ys =>
          simp at e hn
          refine ⟨(ys, b), splitFirst_some.mpr ⟨e.2, hn.2⟩, ?_⟩
          simp [e.1]

theorem segs_ne_nil (c : Char) (s : Str) : segs c s ≠ [] := by
  cases s with
  | nil => simp [segs]
  | cons x xs =>
    unfold segs
    split
    · simp
    · split <;> simp

/-- Every character of `s` other than the separator lies in some segment. -/
theorem mem_segs {c x : Char} : ∀ {s : Str}, x ∈ s → x ≠ c → ∃ g ∈ segs c s, x ∈ g
  | y :: ys, hx, hne => by
    unfold segs
    by_cases h : y = c
    · rw [if_pos h]
      have hx' : x ∈ ys := by
        rcases List.mem_cons.mp hx with e | e
        · exact absurd (e.trans h) hne
        · exact e
      obtain ⟨g, hg, hm⟩ := mem_segs hx' hne
      exact ⟨g, List.mem_cons_of_mem _ hg, hm⟩
    · rw [if_neg h]
      split
      · rename_i e
        exact absurd e (segs_ne_nil c ys)
      · rename_i s ss e
        rcases List.mem_cons.mp hx with e' | e'
        · exact ⟨_, List.mem_cons_self, by simp [e']⟩
        · obtain ⟨g, hg, hm⟩ := mem_segs e' hne
          rw [e] at hg
          rcases List.mem_cons.mp hg with e2 | e2
          · exact ⟨y :: s, List.mem_cons_self, by subst e2; simp [hm]⟩
          · exact ⟨g, List.mem_cons_of_mem _ e2, hm⟩

theorem segs_append {c : Char} {b : Str} : ∀ {a : Str}, c ∉ a →
    segs c (a ++ c :: b) = a :: segs c b
  | [], _ => by simp [segs]
  | x :: xs, h => by
    simp at h
    have ih := @segs_append c b xs h.2
    show segs c (x :: (xs ++ c :: b)) = _
    unfold segs
    rw [if_neg (Ne.symm h.1), ih]
    cases b <;> rfl

/-- Characters allowed in a path component. -/
def compChar (c : Char) : Prop := isAlnumL c = true ∨ c = '.' ∨ c = '_' ∨ c = '-'

theorem CompState.step_char {st st' : CompState} {c : Char} (h : st.step c = some st') :
    compChar c := by
  unfold compChar
  cases st <;> unfold CompState.step at h <;> split at h <;> simp_all <;>
    (split at h <;> simp_all) <;> (split at h <;> simp_all) <;> (split at h <;> simp_all)

theorem CompState.run_char : ∀ {s : Str} {st : CompState}, st.run s = true → ∀ c ∈ s, compChar c
  | [], _, _ => by simp
  | x :: xs, st, h => by
    unfold CompState.run at h
    split at h
    · rename_i st' e
      intro c hc
      rcases List.mem_cons.mp hc with e' | e'
      · exact e' ▸ CompState.step_char e
      · exact CompState.run_char h c e'
    · simp at h

theorem isPath_char {s : Str} (h : isPath s = true) : ∀ c ∈ s, compChar c ∨ c = '/' := by
  intro c hc
  by_cases hs : c = '/'
  · exact Or.inr hs
  · obtain ⟨g, hg, hm⟩ := mem_segs hc hs
    unfold isPath at h
    rw [List.all_eq_true] at h
    exact Or.inl (CompState.run_char (h g hg) c hm)

theorem alnumL_cases {c : Char} (h : isAlnumL c = true) :
    (97 ≤ c.toNat ∧ c.toNat ≤ 122) ∨ (48 ≤ c.toNat ∧ c.toNat ≤ 57) := by
  simp only [isAlnumL, isLowerC, isDigitC, Bool.or_eq_true, Bool.and_eq_true, decide_eq_true_eq,
    Char.le_def, UInt32.le_iff_toNat_le] at h
  exact h

theorem compChar_ne {c : Char} (h : compChar c) : c ≠ '@' ∧ c ≠ ':' ∧ c ≠ '/' := by
  rcases h with h | h | h | h
  · have := alnumL_cases h
    refine ⟨?_, ?_, ?_⟩ <;> (rintro rfl; revert h; decide)
  all_goals subst h; decide

theorem compChar_lower {c : Char} (h : compChar c) : c.toLower = c := by
  rcases h with h | h | h | h
  · have := alnumL_cases h
    unfold Char.toLower
    split
    · rename_i hu
      exfalso
      simp only [UInt32.le_iff_toNat_le, ge_iff_le] at hu
      have h1 : 65 ≤ c.toNat := hu.1
      have h2 : c.toNat ≤ 90 := hu.2
      omega
    · rfl
  all_goals subst h; rfl

theorem isPath_no {s : Str} (h : isPath s = true) : '@' ∉ s ∧ ':' ∉ s := by
  constructor <;> intro hm <;> rcases isPath_char h _ hm with h' | h'
  · exact (compChar_ne h').1 rfl
  · revert h'; decide
  · exact (compChar_ne h').2.1 rfl
  · revert h'; decide

theorem isPath_lower {s : Str} (h : isPath s = true) : ∀ c ∈ s, c.toLower = c := by
  intro c hc
  rcases isPath_char h _ hc with h' | h'
  · exact compChar_lower h'
  · subst h'; rfl

theorem isDomain_no_at {s : Str} (h : isDomain s = true) : '@' ∉ s := by
  have key : ∀ t : Str, (segs '.' t).all isDomainComponent = true → '@' ∉ t := by
    intro t ht hm
    obtain ⟨g, hg, hm'⟩ := mem_segs (c := '.') hm (by decide)
    rw [List.all_eq_true] at ht
    have := ht g hg
    simp only [isDomainComponent, Bool.and_eq_true, List.all_eq_true] at this
    have := this.1.1 _ hm'
    revert this; decide
  unfold isDomain at h
  split at h
  · rename_i a b e
    obtain ⟨rfl, _⟩ := splitFirst_some.mp e
    simp only [Bool.and_eq_true] at h
    intro hm
    rcases List.mem_append.mp hm with hm | hm
    · exact key _ h.1.1 hm
    · rcases List.mem_cons.mp hm with hm | hm
      · revert hm; decide
      · have := List.all_eq_true.mp h.2 _ hm
        revert this; decide
  · exact key _ h

theorem isDomain_ne_nil {s : Str} (h : isDomain s = true) : s ≠ [] := by
  rintro rfl
  revert h; decide

theorem isTag_no {s : Str} (h : isTag s = true) : '@' ∉ s ∧ '/' ∉ s := by
  simp only [isTag, Bool.and_eq_true, List.all_eq_true] at h
  constructor <;> intro hm <;> have := h.1.2 _ hm <;> revert this <;> decide

theorem splitTag_some : ∀ {s n t : Str}, splitTag s = (n, some t) → s = n ++ ':' :: t ∧ '/' ∉ t
  | [], _, _ => by simp [splitTag]
  | c :: cs, n, t => by
    unfold splitTag
    by_cases h : c = ':' ∧ '/' ∉ cs
    · rw [if_pos h]
      intro e
      simp only [Prod.mk.injEq, Option.some.injEq] at e
      rw [← e.1, ← e.2]
      simp [h.1, h.2]
    · rw [if_neg h]
      intro e
      simp only [Prod.mk.injEq] at e
      have := splitTag_some (s := cs) (n := (splitTag cs).1) (t := t) (by rw [← e.2])
      rw [← e.1]
      exact ⟨by rw [List.cons_append, ← this.1], this.2⟩

theorem splitTag_none : ∀ {s n : Str}, splitTag s = (n, none) → s = n
  | [], _ => by simp [splitTag]
  | c :: cs, n => by
    unfold splitTag
    by_cases h : c = ':' ∧ '/' ∉ cs
    · rw [if_pos h]; simp
    · rw [if_neg h]
      intro e
      simp only [Prod.mk.injEq] at e
      have := splitTag_none (s := cs) (n := (splitTag cs).1) (by rw [← e.2])
      rw [← e.1, ← this]

theorem splitTag_eq {s n : Str} {t : Option Str} (h : splitTag s = (n, t)) :
    s = n ++ tagSuffix t := by
  cases t with
  | none => simp [tagSuffix, splitTag_none h]
  | some t => exact (splitTag_some h).1

/-- `splitTag` splits at the colon of the tag when the last name component has none. -/
theorem splitTag_append {rest : Str} (h : ':' ∉ rest) (t : Option Str)
    (ht : ∀ x ∈ t, '/' ∉ x) : ∀ pre : Str,
    splitTag (pre ++ '/' :: (rest ++ tagSuffix t)) = (pre ++ '/' :: rest, t) := by
  have h2 : ∀ {r : Str}, ':' ∉ r → splitTag (r ++ tagSuffix t) = (r, t) := by
    intro r
    induction r with
    | nil =>
      intro _
      cases t with
      | none => rfl
      | some t => simp [tagSuffix, splitTag, ht t rfl]
    | cons x xs ih =>
      intro hx
      simp at hx
      show splitTag (x :: (xs ++ tagSuffix t)) = _
      unfold splitTag
      rw [if_neg (fun hh => hx.1 hh.1.symm), ih hx.2]
  intro pre
  induction pre with
  | nil =>
    show splitTag ('/' :: (rest ++ tagSuffix t)) = _
    unfold splitTag
    rw [if_neg (fun hh => absurd hh.1 (by decide)), h2 h]
    rfl
  | cons x xs ih =>
    show splitTag (x :: (xs ++ '/' :: (rest ++ tagSuffix t))) = _
    unfold splitTag
    rw [if_neg (by simp), ih]
    rfl

/-- A name that is already in normal form: it has a domain segment, and a
`docker.io` name has a namespace. -/
structure NormalName (n : Str) (d p : Str) : Prop where
  split : splitName n = some (d, p)
  len : ¬ n.length > 255
  shape : ∃ h rest, n = h ++ '/' :: rest ∧ '/' ∉ h ∧
    isHost h = true ∧
    h ≠ indexIO ∧ (h = dockerIO → '/' ∈ rest) ∧
    '@' ∉ h ∧ isPath rest = true

theorem splitName_name {n d p : Str} (h : splitName n = some (d, p)) :
    n = (if d = [] then p else d ++ '/' :: p) := by
  unfold splitName at h
  split at h
  · rename_i a b e
    obtain ⟨rfl, _⟩ := splitFirst_some.mp e
    split at h
    · rename_i hc
      simp only [Bool.and_eq_true] at hc
      simp only [Option.some.injEq, Prod.mk.injEq] at h
      rw [← h.1, ← h.2, if_neg (isDomain_ne_nil hc.1)]
    · split at h
      · simp only [Option.some.injEq, Prod.mk.injEq] at h
        rw [← h.1, ← h.2, if_pos rfl]
      · simp at h
  · split at h
    · simp only [Option.some.injEq, Prod.mk.injEq] at h
      rw [← h.1, ← h.2, if_pos rfl]
    · simp at h

/-- Shape of a name that contains a slash. -/
theorem splitName_rest {h rest d p : Str} (hh : '/' ∉ h)
    (e : splitName (h ++ '/' :: rest) = some (d, p)) :
    '@' ∉ h ∧ isPath rest = true := by
  unfold splitName at e
  rw [splitFirst_some.mpr ⟨rfl, hh⟩] at e
  simp only at e
  split at e
  · rename_i hc
    simp only [Bool.and_eq_true] at hc
    exact ⟨isDomain_no_at hc.1, hc.2⟩
  · split at e
    · rename_i hp
      constructor
      · intro hm
        exact (isPath_no hp).1 (by simp [hm])
      · unfold isPath at hp ⊢
        rw [segs_append hh, List.all_cons, Bool.and_eq_true] at hp
        exact hp.2
    · simp at e

/-- The references `parseNormalized` can return. -/
structure Canon (dg : DigestLib) (r : Ref) : Prop where
  normal : NormalName r.name r.domain r.path
  tag : ∀ t ∈ r.tag, isTag t = true
  digest : ∀ d ∈ r.digest, dg.ok d = true

theorem splitDigest_eq {s t : Str} {d : Option Str} (h : splitDigest s = (t, d)) :
    s = t ++ digestSuffix d ∧ '@' ∉ t := by
  unfold splitDigest at h
  split at h
  · rename_i a b e
    simp only [Prod.mk.injEq] at h
    rw [← h.1, ← h.2]
    exact splitFirst_some.mp e
  · rename_i e
    simp only [Prod.mk.injEq] at h
    rw [← h.1, ← h.2]
    exact ⟨by simp [digestSuffix], splitFirst_none.mp e⟩

theorem splitDigest_append {t : Str} (ht : '@' ∉ t) (d : Option Str) :
    splitDigest (t ++ digestSuffix d) = (t, d) := by
  unfold splitDigest
  cases d with
  | none =>
    have : splitFirst '@' (t ++ digestSuffix none) = none :=
      splitFirst_none.mpr (by simpa [digestSuffix] using ht)
    rw [this]; simp [digestSuffix]
  | some d =>
    have : splitFirst '@' (t ++ digestSuffix (some d)) = some (t, d) :=
      splitFirst_some.mpr ⟨rfl, ht⟩
    rw [this]

theorem splitDockerDomain_shape (s : Str) :
    '/' ∉ (splitDockerDomain s).1 ∧
    isHost (splitDockerDomain s).1 = true ∧
    (splitDockerDomain s).1 ≠ indexIO ∧
    ((splitDockerDomain s).1 = dockerIO → '/' ∈ (splitDockerDomain s).2) := by
  have h0 : '/' ∉ (splitDomain0 s).1 ∧
    isHost (splitDomain0 s).1 = true := by
    have hd : '/' ∉ dockerIO ∧ isHost dockerIO = true := by decide
    unfold splitDomain0
    split
    · rename_i h t e
      have := (splitFirst_some.mp e).2
      split
      · rename_i hc
        exact ⟨this, hc⟩
      · exact hd
    · exact hd
  unfold splitDockerDomain
  simp only
  refine ⟨?_, ?_, ?_, ?_⟩
  · split
    · decide
    · exact h0.1
  · by_cases h : (splitDomain0 s).1 = indexIO
    · rw [if_pos h]; decide
    · rw [if_neg h]; exact h0.2
  · split
    · decide
    · assumption
  · intro hd
    rw [hd]
    by_cases h : '/' ∈ (splitDomain0 s).2
    · rw [if_neg (by simp [h])]; exact h
    · rw [if_pos ⟨rfl, h⟩]; simp

theorem tagSuffix_noSlash {t : Option Str} (h : ∀ x ∈ t, isTag x = true) : '/' ∉ tagSuffix t := by
  cases t with
  | none => simp [tagSuffix]
  | some t => simp [tagSuffix, (isTag_no (h t rfl)).2]

theorem tagSuffix_noAt {t : Option Str} (h : ∀ x ∈ t, isTag x = true) : '@' ∉ tagSuffix t := by
  cases t with
  | none => simp [tagSuffix]
  | some t => simp [tagSuffix, (isTag_no (h t rfl)).1]

theorem digestSuffix_noSlash {dg : DigestLib} {t : Option Str} (h : ∀ x ∈ t, dg.ok x = true) :
    '/' ∉ digestSuffix t := by
  cases t with
  | none => simp [digestSuffix]
  | some t => simp [digestSuffix, dg.noSlash t (h t rfl)]

theorem option_all {α} {p : α → Bool} {o : Option α} (h : ¬ (!(o.all p)) = true) :
    ∀ x ∈ o, p x = true := by
  intro x hx
  cases hx
  simpa using h

/-- Two ways to write a string as slash-free prefix, slash, rest agree. -/
theorem split_unique {a b x y : Str} (ha : '/' ∉ a) (hx : '/' ∉ x)
    (h : a ++ '/' :: b = x ++ '/' :: y) : a = x ∧ b = y := by
  have h1 : splitFirst '/' (a ++ '/' :: b) = some (a, b) := splitFirst_some.mpr ⟨rfl, ha⟩
  have h2 := splitFirst_some.mpr ⟨h, hx⟩
  rw [h1] at h2
  simpa using h2

/-- If a slash-free prefix and slash start a concatenation whose second part has
no slash, they start the first part. -/
theorem split_prefix {a b n z : Str} (ha : '/' ∉ a) (hz : '/' ∉ z)
    (h : a ++ '/' :: b = n ++ z) : ∃ rest, n = a ++ '/' :: rest ∧ b = rest ++ z := by
  have hn : '/' ∈ n := by
    have : '/' ∈ n ++ z := by rw [← h]; simp
    rcases List.mem_append.mp this with h | h
    · exact h
    · exact absurd h hz
  cases e : splitFirst '/' n with
  | none => exact absurd hn (splitFirst_none.mp e)
  | some p =>
    obtain ⟨x, y⟩ := p
    obtain ⟨rfl, hx⟩ := splitFirst_some.mp e
    have : a ++ '/' :: b = x ++ '/' :: (y ++ z) := by rw [h]; simp
    obtain ⟨rfl, rfl⟩ := split_unique ha hx this
    exact ⟨y, rfl, rfl⟩

theorem parse_some {dg : DigestLib} {s : Str} {r : Ref} (h : parse dg s = some r) :
    s = r.str ∧ splitName r.name = some (r.domain, r.path) ∧ ¬ r.name.length > 255 ∧
    (∀ t ∈ r.tag, isTag t = true) ∧ (∀ d ∈ r.digest, dg.ok d = true) := by
  unfold parse at h
  simp only at h
  split at h
  · simp at h
  · rename_i hd
    split at h
    · simp at h
    · rename_i ht
      split at h
      · simp at h
      · rename_i hl
        rw [Option.map_eq_some_iff] at h
        obtain ⟨⟨d, p⟩, hn, rfl⟩ := h
        have hname := splitName_name hn
        have e1 := (splitDigest_eq (s := s) (t := (splitDigest s).1) (d := (splitDigest s).2) rfl).1
        have e2 := splitTag_eq (s := (splitDigest s).1) (n := (splitTag (splitDigest s).1).1)
          (t := (splitTag (splitDigest s).1).2) rfl
        have hname' : (Ref.mk d p (splitTag (splitDigest s).1).2 (splitDigest s).2).name
            = (splitTag (splitDigest s).1).1 := by
          unfold Ref.name; exact hname.symm
        refine ⟨?_, ?_, ?_, option_all ht, option_all hd⟩
        · unfold Ref.str
          rw [hname', ← e2, ← e1]
        · rw [hname']; exact hn
        · rw [hname']; exact hl

theorem canon_of_parseNormalized {dg : DigestLib} {s : Str} {r : Ref}
    (h : parseNormalized dg s = some r) : Canon dg r := by
  unfold parseNormalized at h
  simp only at h
  split at h
  · simp at h
  · split at h
    · simp at h
    · obtain ⟨es, hn, hl, ht, hd⟩ := parse_some h
      obtain ⟨s1, s2, s3, s4⟩ := splitDockerDomain_shape s
      have hz : '/' ∉ tagSuffix r.tag ++ digestSuffix r.digest := by
        intro hm
        rcases List.mem_append.mp hm with hm | hm
        · exact tagSuffix_noSlash ht hm
        · exact digestSuffix_noSlash hd hm
      obtain ⟨rest, e1, e2⟩ := split_prefix s1 hz (by rw [es, Ref.str, List.append_assoc])
      refine ⟨⟨hn, hl, (splitDockerDomain s).1, rest, e1, s1, s2, s3, ?_, ?_⟩, ht, hd⟩
      · intro hdk
        have := s4 hdk
        rw [e2] at this
        rcases List.mem_append.mp this with h | h
        · exact h
        · exact absurd h hz
      · rw [e1] at hn
        exact splitName_rest s1 hn

theorem parseNormalized_of_canon {dg : DigestLib} {r : Ref} (h : Canon dg r) :
    parseNormalized dg r.str = some r := by
  obtain ⟨⟨hn, hl, hd, rest, e, hs, hdom, hidx, hdk, hat, hp⟩, ht, hdg⟩ := h
  have estr : r.str = hd ++ '/' :: (rest ++ tagSuffix r.tag ++ digestSuffix r.digest) := by
    rw [Ref.str, e]; simp
  have hident : isIdent r.str = false := by
    have : '/' ∈ r.str := by rw [estr]; simp
    cases hh : isIdent r.str with
    | false => rfl
    | true =>
      simp only [isIdent, Bool.and_eq_true, List.all_eq_true] at hh
      have := hh.2 _ this
      revert this; decide
  have hsplit : splitDockerDomain r.str =
      (hd, rest ++ tagSuffix r.tag ++ digestSuffix r.digest) := by
    have h0 : splitDomain0 r.str = (hd, rest ++ tagSuffix r.tag ++ digestSuffix r.digest) := by
      unfold splitDomain0
      rw [estr, splitFirst_some.mpr ⟨rfl, hs⟩]
      simp only
      rw [if_pos hdom]
    unfold splitDockerDomain
    rw [h0]
    simp only
    rw [if_neg hidx, if_neg]
    rintro ⟨h1, h2⟩
    exact h2 (by simp [hdk h1])
  have hrest := isPath_no hp
  have hlow : (remoteName (rest ++ tagSuffix r.tag ++ digestSuffix r.digest)).all
      (fun c => decide (c.toLower = c)) = true := by
    rw [List.all_eq_true]
    intro c hc
    rw [decide_eq_true_eq]
    cases htg : r.tag with
    | some t =>
      have : remoteName (rest ++ tagSuffix r.tag ++ digestSuffix r.digest) = rest := by
        unfold remoteName
        have : splitFirst ':' (rest ++ tagSuffix r.tag ++ digestSuffix r.digest) =
            some (rest, t ++ digestSuffix r.digest) :=
          splitFirst_some.mpr ⟨by rw [htg, List.append_assoc]; rfl, hrest.2⟩
        rw [this]
      rw [this] at hc
      exact isPath_lower hp c hc
    | none =>
      cases hdig : r.digest with
      | none =>
        have : remoteName (rest ++ tagSuffix r.tag ++ digestSuffix r.digest) = rest := by
          rw [htg, hdig]
          simp only [tagSuffix, digestSuffix, List.append_nil]
          unfold remoteName
          rw [splitFirst_none.mpr hrest.2]
        rw [this] at hc
        exact isPath_lower hp c hc
      | some d =>
        obtain ⟨a, ex, rfl, hlow⟩ := dg.lowerAlg d (hdg d hdig)
        by_cases hca : ':' ∈ a
        · cases hsa : splitFirst ':' a with
          | none => exact absurd hca (splitFirst_none.mp hsa)
          | some p =>
            obtain ⟨a1, a2⟩ := p
            obtain ⟨rfl, ha1⟩ := splitFirst_some.mp hsa
            have : remoteName (rest ++ tagSuffix r.tag ++ digestSuffix r.digest)
                = rest ++ '@' :: a1 := by
              unfold remoteName
              have : splitFirst ':' (rest ++ tagSuffix r.tag ++ digestSuffix r.digest) =
                  some (rest ++ '@' :: a1, a2 ++ ':' :: ex) := by
                rw [splitFirst_some, htg, hdig]
                simp only [tagSuffix, digestSuffix, List.append_nil]
                exact ⟨by simp, by simp [hrest.2, ha1]⟩
              rw [this]
            rw [this] at hc
            rcases List.mem_append.mp hc with hc | hc
            · exact isPath_lower hp c hc
            · rcases List.mem_cons.mp hc with hc | hc
              · subst hc; rfl
              · exact hlow c (by simp [hc])
        · have : remoteName (rest ++ tagSuffix r.tag ++ digestSuffix r.digest)
              = rest ++ '@' :: a := by
            unfold remoteName
            have : splitFirst ':' (rest ++ tagSuffix r.tag ++ digestSuffix r.digest) =
                some (rest ++ '@' :: a, ex) := by
              rw [splitFirst_some, htg, hdig]
              simp only [tagSuffix, digestSuffix, List.append_nil]
              exact ⟨by simp, by simp [hrest.2, hca]⟩
            rw [this]
          rw [this] at hc
          rcases List.mem_append.mp hc with hc | hc
          · exact isPath_lower hp c hc
          · rcases List.mem_cons.mp hc with hc | hc
            · subst hc; rfl
            · exact hlow c (by simp [hc])
  have hparse : parse dg r.str = some r := by
    have hnoat : '@' ∉ r.name ++ tagSuffix r.tag := by
      rw [e]
      intro hm
      rcases List.mem_append.mp hm with hm | hm
      · rcases List.mem_append.mp hm with hm | hm
        · exact hat hm
        · rcases List.mem_cons.mp hm with hm | hm
          · revert hm; decide
          · exact hrest.1 hm
      · exact tagSuffix_noAt ht hm
    have h1 : splitDigest r.str = (r.name ++ tagSuffix r.tag, r.digest) := by
      rw [Ref.str]; exact splitDigest_append hnoat _
    have h2 : splitTag (r.name ++ tagSuffix r.tag) = (r.name, r.tag) := by
      rw [e, List.append_assoc]
      exact splitTag_append hrest.2 r.tag (fun x hx => (isTag_no (ht x hx)).2) hd
    have a1 : r.digest.all dg.ok = true := by
      cases hx : r.digest with
      | none => rfl
      | some d => exact hdg d hx
    have a2 : r.tag.all isTag = true := by
      cases hx : r.tag with
      | none => rfl
      | some d => exact ht d hx
    unfold parse
    rw [h1]
    simp only
    rw [h2]
    simp only
    rw [a1, a2, hn]
    simp only [Bool.not_true, Bool.false_eq_true, if_false, if_neg hl]
    rfl
  unfold parseNormalized
  rw [hident, hsplit]
  simp only [Bool.false_eq_true, if_false]
  rw [hlow]
  simp only [Bool.not_true, Bool.false_eq_true, if_false]
  rw [← estr]
  exact hparse

theorem canon_ident_false {dg : DigestLib} {r : Ref} (h : Canon dg r) :
    isIdent r.str = false ∧ dg.ok r.str = false := by
  obtain ⟨⟨_, _, hd, rest, e, _⟩, _, _⟩ := h
  have hm : '/' ∈ r.str := by rw [Ref.str, e]; simp
  constructor
  · cases hh : isIdent r.str with
    | false => rfl
    | true =>
      simp only [isIdent, Bool.and_eq_true, List.all_eq_true] at hh
      have := hh.2 _ hm
      revert this; decide
  · cases hh : dg.ok r.str with
    | false => rfl
    | true => exact absurd hm (dg.noSlash _ hh)

/-- A canonical reference is found again from its own string. -/
theorem named_of_canon {dg : DigestLib} {r : Ref} (h : Canon dg r) :
    named dg r.str = some r := by
  obtain ⟨h1, h2⟩ := canon_ident_false h
  have hp := parseNormalized_of_canon h
  have hnamed : parseNamed dg r.str = some r := by
    unfold parseNamed
    rw [hp]
    exact if_pos rfl
  unfold named parseAnyStr
  rw [h1, h2, hp]
  simpa using hnamed

theorem canon_of_named {dg : DigestLib} {s : Str} {r : Ref} (h : named dg s = some r) :
    Canon dg r := by
  unfold named at h
  split at h
  · simp at h
  · unfold parseNamed at h
    split at h
    · simp at h
    · rename_i hp
      split at h
      · simp only [Option.some.injEq] at h
        subst h
        exact canon_of_parseNormalized hp
      · simp at h

theorem canon_tagNameOnly {dg : DigestLib} {r : Ref} (h : Canon dg r) :
    Canon dg r.tagNameOnly := by
  unfold Ref.tagNameOnly
  split
  · obtain ⟨hn, ht, hd⟩ := h
    refine ⟨hn, ?_, hd⟩
    intro t e
    simp only [Option.mem_def, Option.some.injEq] at e
    subst e
    decide
  · exact h

theorem tagNameOnly_idem (r : Ref) : r.tagNameOnly.tagNameOnly = r.tagNameOnly := by
  unfold Ref.tagNameOnly
  split <;> simp_all

theorem familiar_tagNameOnly (r : Ref) : r.tagNameOnly.familiar = r.familiar := by
  unfold Ref.tagNameOnly
  split <;> rfl

theorem named_expandL {dg : DigestLib} {s : Str} {r : Ref} (h : named dg s = some r) :
    named dg (expandL dg s) = some r.tagNameOnly := by
  have : expandL dg s = r.tagNameOnly.str := by unfold expandL; rw [h]
  rw [this]
  exact named_of_canon (canon_tagNameOnly (canon_of_named h))

theorem expandL_none {dg : DigestLib} {s : Str} (h : named dg s = none) : expandL dg s = s := by
  unfold expandL; rw [h]

theorem expandL_idem (dg : DigestLib) (s : Str) : expandL dg (expandL dg s) = expandL dg s := by
  cases h : named dg s with
  | none => rw [expandL_none h, expandL_none h]
  | some r =>
    have h2 := named_expandL h
    have e1 : expandL dg s = r.tagNameOnly.str := by unfold expandL; rw [h]
    have gen : ∀ t r', named dg t = some r' → expandL dg t = r'.tagNameOnly.str := by
      intro t r' ht
      unfold expandL; rw [ht]
    rw [gen _ _ h2, tagNameOnly_idem, e1]

theorem trimL_expandL (dg : DigestLib) (s : Str) : trimL dg (expandL dg s) = trimL dg s := by
  cases h : named dg s with
  | none => rw [expandL_none h]
  | some r =>
    unfold trimL
    rw [named_expandL h, h]
    exact familiar_tagNameOnly r

/-! The `String` versions. -/

theorem expand_idem (dg : DigestLib) (s : String) : expand dg (expand dg s) = expand dg s := by
  unfold expand
  rw [String.toList_ofList, expandL_idem]

theorem trim_expand (dg : DigestLib) (s : String) : trim dg (expand dg s) = trim dg s := by
  unfold expand trim
  rw [String.toList_ofList, trimL_expandL]

theorem trim_eq_of_expand_eq {dg : DigestLib} {a b : String} (h : expand dg a = expand dg b) :
    trim dg a = trim dg b := by
  rw [← trim_expand, h, trim_expand]

end Img
end Drone
