import Verif.Model.Glob
import Verif.Spec.Glob
import Verif.Proof.Glob
import Verif.Props.Cond
import Verif.Props.Trigger
/-
C91: which names the patterns of conditions match.
-/
namespace Drone
open Spec Glob

/-- The pattern as a string. -/
def Spec.patternString (cs : List PatComp) : String := String.ofList (patternText cs)

/-- The name as a string. -/
def Spec.nameString (ns : List (List Char)) : String := String.ofList (nameText ns)

/-- C91: a pattern matches a name iff the name is one of those the pattern stands for. -/
theorem C91_match (cs : List PatComp) (hne : cs ≠ []) (hc : ∀ c ∈ cs, c.Ok) (ns : List (List Char))
    (hn : NameComps ns) : doublestar (patternString cs) (nameString ns) = true ↔ PathMatch cs ns := by
  unfold doublestar patternString nameString
  rw [String.toList_ofList, String.toList_ofList, split_pattern hne hc, split_name hn]
  exact doMatching_iff cs ns hc

/-- C91, conditions: a condition holds of a name iff none of its exclude patterns stands for the
name and, if there are include patterns, one of them does. -/
theorem C91_condition (incl excl : List (List PatComp)) (hi : ∀ p ∈ incl ++ excl, p ≠ [] ∧ ∀ c ∈ p, c.Ok)
    (ns : List (List Char)) (hn : NameComps ns) :
    Condition.matches doublestar { incl := incl.map patternString, excl := excl.map patternString }
        (nameString ns) = true ↔
      (∀ p ∈ excl, ¬ PathMatch p ns) ∧ (incl = [] ∨ ∃ p ∈ incl, PathMatch p ns) := by
  have key : ∀ p ∈ incl ++ excl, doublestar (patternString p) (nameString ns) = true ↔ PathMatch p ns :=
    fun p hp => C91_match p (hi p hp).1 (hi p hp).2 ns hn
  rw [C18_match_iff]
  simp only [List.mem_map, forall_exists_index, and_imp, forall_apply_eq_imp_iff₂, List.map_eq_nil_iff,
    exists_exists_and_eq_and]
  refine and_congr (forall₂_congr fun p hp => ?_) (or_congr Iff.rfl (exists_congr fun p => ?_))
  · rw [← key p (List.mem_append_right _ hp), Bool.not_eq_true]
  · exact and_congr_right fun hp => key p (List.mem_append_left _ hp)

/-! ### Patterns without special characters -/

/-- The characters of literal patterns. -/
def PlainChar (c : Char) : Prop :=
  c ≠ '*' ∧ c ≠ '?' ∧ c ≠ '[' ∧ c ≠ ']' ∧ c ≠ '{' ∧ c ≠ '}' ∧ c ≠ '\\'

theorem loop_plain : ∀ (n : Nat) (p s : List Char), p.length ≤ n → (∀ c ∈ p, PlainChar c) →
    matchLoop n p s = if p = s then .yes else .no
  | _, [], [], _, _ => by simp [matchLoop]
  | _, [], _ :: _, _, _ => by simp [matchLoop]
  | 0, p :: ps, _, h, _ => by simp at h
  | n + 1, p :: ps, [], h, hp => by
    rw [matchLoop, if_neg (by simp [(hp p (by simp)).1]), if_neg (by simp)]
  | n + 1, p :: ps, c :: cs, h, hp => by
    obtain ⟨h1, h2, h3, _, h5, _, h7⟩ := hp p (by simp)
    rw [loop_lit h7 h1 h3 h5]
    by_cases e : p = c
    · rw [if_pos (.inr e), loop_plain n ps cs (by simpa using h) fun x hx => hp x (List.mem_cons_of_mem _ hx)]
      simp [e]
    · rw [if_neg (by simp [h2, e]), if_neg (by simp [e])]

theorem component_plain {p : List Char} (hp : ∀ c ∈ p, PlainChar c) (s : List Char) :
    matchComponent p s = .yes ↔ p = s := by
  have h := loop_plain _ p s (Nat.le_refl _) hp
  unfold matchComponent enter
  by_cases e1 : p = []
  · subst e1
    by_cases e2 : s = []
    · simp [e2]
    · simp [e2, Ne.symm e2]
  · rw [if_neg (by simp [e1]), if_neg e1]
    by_cases e2 : s = []
    · subst e2
      rw [if_pos ⟨rfl, fun e => by rw [e] at hp; exact (hp '*' (by simp)).1 rfl⟩]
      simp [e1]
    · rw [if_neg (by simp [e2]), h]
      by_cases e : p = s <;> simp [e]

/-- Literal components match themselves. -/
theorem doMatching_plain : ∀ (l q ns : List (List Char)), (∀ p ∈ l, ∀ c ∈ p, PlainChar c) →
    (doMatching (l ++ q) ns = true ↔ ∃ ms, ns = l ++ ms ∧ doMatching q ms = true)
  | [], q, ns, _ => by simp
  | p :: l, q, [], _ => by simp [doMatching]
  | p :: l, q, n :: ns, h => by
    have hp := h p (by simp)
    rw [List.cons_append, doMatching, if_neg (fun e => by rw [e] at hp; exact (hp '*' (by simp)).1 rfl),
      Bool.and_eq_true, decide_eq_true_eq, component_plain hp,
      doMatching_plain l q ns fun x hx => h x (List.mem_cons_of_mem _ hx)]
    constructor
    · rintro ⟨rfl, ms, rfl, hm⟩
      exact ⟨ms, rfl, hm⟩
    · rintro ⟨ms, he, hm⟩
      simp only [List.cons_append, List.cons.injEq] at he
      exact ⟨he.1.symm, ms, he.2, hm⟩

/-- What precedes a slash is split independently of what follows it. -/
theorem split_dir (dir cur : List Char) (h : '\\' ∉ dir) : ∃ l : List (List Char), l ≠ [] ∧
    ['/'].intercalate l = cur ++ dir ∧ (∀ p ∈ l, ∀ c ∈ p, c ∈ cur ++ dir) ∧
    ∀ rest, Glob.splitLoop '/' cur false (dir ++ '/' :: rest) = l ++ Glob.splitLoop '/' [] false rest := by
  induction dir generalizing cur with
  | nil =>
    refine ⟨[cur], by simp, by simp [List.intercalate, List.intersperse], by simp, fun rest => ?_⟩
    rw [List.nil_append, Glob.splitLoop, if_pos ⟨rfl, rfl⟩]
    rfl
  | cons d dir ih =>
    have hd : d ≠ '\\' := fun e => h (by simp [e])
    have h' : '\\' ∉ dir := fun e => h (List.mem_cons_of_mem _ e)
    by_cases e : d = '/'
    · subst e
      obtain ⟨l, hl, hj, hm, hs⟩ := ih [] h'
      refine ⟨cur :: l, by simp, by rw [inter_cons' _ hl, hj]; simp, ?_, fun rest => ?_⟩
      · intro p hp c hc
        rcases List.mem_cons.mp hp with rfl | hp
        · simp [hc]
        · have := hm p hp c hc
          simp at this
          simp [this]
      · rw [List.cons_append, Glob.splitLoop, if_pos ⟨rfl, rfl⟩, hs]
        rfl
    · obtain ⟨l, hl, hj, hm, hs⟩ := ih (cur ++ [d]) h'
      refine ⟨l, hl, by rw [hj]; simp, fun p hp c hc => by simpa using hm p hp c hc, fun rest => ?_⟩
      have hd' : decide (d = '\\') = false := by simp [hd]
      rw [List.cons_append, Glob.splitLoop, if_neg (by simp [e]), hd', hs]

/-- The components of a text joined again: the text, except for a slash at its end. -/
theorem join_split (s cur : List Char) (esc : Bool) :
    (cur ++ s = [] ∧ Glob.splitLoop '/' cur esc s = []) ∨ Glob.splitLoop '/' cur esc s ≠ [] ∧
      (cur ++ s = ['/'].intercalate (Glob.splitLoop '/' cur esc s) ∨
        cur ++ s = ['/'].intercalate (Glob.splitLoop '/' cur esc s) ++ ['/'] ∧ s.getLast? = some '/') := by
  induction s generalizing cur esc with
  | nil =>
    rw [Glob.splitLoop]
    by_cases h : cur = []
    · left; simp [h]
    · right; rw [if_neg h]; simp [List.intercalate, List.intersperse]
  | cons c cs ih =>
    rw [Glob.splitLoop]
    by_cases h : c = '/' ∧ esc = false
    · rw [if_pos h]
      right
      refine ⟨by simp, ?_⟩
      rcases ih [] false with ⟨h1, h2⟩ | ⟨h1, h2⟩
      · right
        rw [h2]
        simp only [List.nil_append] at h1
        simp [List.intercalate, List.intersperse, h.1, h1]
      · rw [inter_cons' _ h1]
        rcases h2 with h2 | ⟨h2, h3⟩
        · left
          rw [← h2, h.1]
          simp
        · right
          have hcs : cs ≠ [] := by rintro rfl; simp at h3
          refine ⟨?_, by rw [List.getLast?_cons_of_ne_nil hcs]; exact h3⟩
          rw [List.append_assoc, List.cons_append, ← h2, h.1]
          simp
    · rw [if_neg h]
      rcases ih (cur ++ [c]) (c = '\\') with ⟨h1, h2⟩ | ⟨h1, h2⟩
      · simp at h1
      · right
        refine ⟨h1, ?_⟩
        rw [List.append_assoc, List.singleton_append] at h2
        rcases h2 with h2 | ⟨h2, h3⟩
        · exact .inl h2
        · have hcs : cs ≠ [] := by rintro rfl; simp at h3
          exact .inr ⟨h2, by rw [List.getLast?_cons_of_ne_nil hcs]; exact h3⟩

theorem split_ne_nil (s : List Char) : split '/' s ≠ [] := by
  unfold split
  by_cases h : s = []
  · simp [h]
  · rw [if_neg h]
    rcases join_split s [] false with ⟨h1, _⟩ | ⟨h1, _⟩
    · exact absurd (by simpa using h1) h
    · exact h1

/-- The components of a name joined again. -/
theorem join_split' (s : List Char) : s = ['/'].intercalate (split '/' s) ∨
    s = ['/'].intercalate (split '/' s) ++ ['/'] ∧ s.getLast? = some '/' := by
  unfold split
  by_cases h : s = []
  · subst h
    left
    simp [List.intercalate, List.intersperse]
  · rw [if_neg h]
    rcases join_split s [] false with ⟨h1, _⟩ | ⟨_, h2⟩
    · exact absurd (by simpa using h1) h
    · simpa using h2

theorem inter_append {r : Char} : ∀ (a : List (List Char)) {b : List (List Char)}, a ≠ [] → b ≠ [] →
    [r].intercalate (a ++ b) = [r].intercalate a ++ r :: [r].intercalate b
  | [], _, h, _ => absurd rfl h
  | [x], b, _, hb => by
    rw [List.singleton_append, inter_cons' _ hb]
    simp [List.intercalate, List.intersperse]
  | x :: y :: a, b, _, hb => by
    rw [List.cons_append, inter_cons' x (by simp), inter_append (y :: a) (by simp) hb,
      inter_cons' (l := y :: a) x (by simp)]
    simp

theorem Spec.Literal.plain {s : String} (h : Literal s) : ∀ c ∈ s.toList, PlainChar c := h

theorem Spec.Literal.no_esc {s : String} (h : Literal s) : '\\' ∉ s.toList :=
  fun hm => (h _ hm).2.2.2.2.2.2 rfl

/-- Splitting a literal directory with something below it. -/
theorem split_below {dir : String} (hd : Literal dir) : ∃ l : List (List Char), l ≠ [] ∧
    ['/'].intercalate l = dir.toList ∧ (∀ p ∈ l, ∀ c ∈ p, PlainChar c) ∧
    ∀ rest : List Char, split '/' (dir.toList ++ '/' :: rest) = l ++ Glob.splitLoop '/' [] false rest := by
  obtain ⟨l, hl, hj, hm, hs⟩ := split_dir dir.toList [] hd.no_esc
  refine ⟨l, hl, by simpa using hj, fun p hp c hc => hd c (by simpa using hm p hp c hc), fun rest => ?_⟩
  rw [split, if_neg (by simp), hs]

theorem splitLoop_ne_nil {s : List Char} (h : s ≠ []) : Glob.splitLoop '/' [] false s ≠ [] := by
  have := split_ne_nil s
  unfold split at this
  rwa [if_neg h] at this

theorem deep_last (ms : List (List Char)) : doMatching [['*', '*']] ms = true ↔ ms ≠ [] := by
  cases ms <;> simp [doMatching]

/-- C91: `dir/**` stands for everything below `dir`, at any depth, and for nothing else: not for
`dir` itself. -/
theorem C91_below (dir v : String) (hd : Literal dir) :
    doublestar (dir ++ "/**") v = true ↔ ∃ s, s ≠ "" ∧ v = dir ++ "/" ++ s := by
  obtain ⟨l, hl, hj, hp, hs⟩ := split_below hd
  have hpat : split '/' (dir ++ "/**").toList = l ++ [['*', '*']] := by
    rw [String.toList_append]
    exact hs ['*', '*']
  unfold doublestar
  rw [hpat, doMatching_plain _ _ _ hp]
  simp only [deep_last]
  constructor
  · rintro ⟨ms, he, hms⟩
    have hv : ∃ s : List Char, v.toList = dir.toList ++ '/' :: s := by
      rcases join_split' v.toList with h | ⟨h, _⟩
      · rw [he, inter_append l hl hms, hj] at h
        exact ⟨_, h⟩
      · rw [he, inter_append l hl hms, hj, List.append_assoc, List.cons_append] at h
        exact ⟨_, h⟩
    obtain ⟨s, hv⟩ := hv
    refine ⟨String.ofList s, ?_, ?_⟩
    · intro hs0
      have hnil : s = [] := by simpa using congrArg String.toList hs0
      subst hnil
      rw [hv, hs, List.append_cancel_left_eq] at he
      exact hms (by rw [← he]; rfl)
    · rw [← String.toList_inj, hv]
      simp
  · rintro ⟨s, hs0, rfl⟩
    have : (dir ++ "/" ++ s).toList = dir.toList ++ '/' :: s.toList := by simp
    rw [this, hs]
    exact ⟨_, rfl, splitLoop_ne_nil (by simpa using hs0)⟩

/-- C91: `dir/*` stands for what is directly below `dir`; the star does not stand for a slash. -/
theorem C91_star (dir b : String) (hd : Literal dir) (hb : '\\' ∉ b.toList) (hl : b.toList.getLast? ≠ some '/') :
    doublestar (dir ++ "/*") (dir ++ "/" ++ b) = true ↔ b ≠ "" ∧ '/' ∉ b.toList := by
  obtain ⟨l, hl0, _, hp, hs⟩ := split_below hd
  have hpat : split '/' (dir ++ "/*").toList = l ++ [['*']] := by
    rw [String.toList_append]
    exact hs ['*']
  have hname : (dir ++ "/" ++ b).toList = dir.toList ++ '/' :: b.toList := by simp
  unfold doublestar
  rw [hpat, hname, hs, doMatching_plain _ _ _ hp]
  have hstar : ∀ ms, doMatching [['*']] ms = true ↔ ∃ m, ms = [m] := by
    intro ms
    rcases ms with _ | ⟨m, _ | ⟨m', ms⟩⟩
    · simp [doMatching]
    · have : matchComponent ['*'] m = .yes := by
        cases m <;> simp [matchComponent, enter, matchLoop]
      simp [doMatching, this]
    · simp [doMatching]
  simp only [List.append_cancel_left_eq, hstar]
  constructor
  · rintro ⟨ms, he, m, rfl⟩
    have hne : b ≠ "" := by
      rintro rfl
      cases he
    refine ⟨hne, fun hin => ?_⟩
    obtain ⟨a, c, hac⟩ := List.append_of_mem hin
    have hc : c ≠ [] := by
      rintro rfl
      rw [hac] at hl
      simp at hl
    obtain ⟨l', hl', _, _, hs'⟩ := split_dir a [] fun h => hb (by rw [hac]; simp [h])
    rw [hac, hs'] at he
    have hlen := congrArg List.length he
    have h1 := List.length_pos_of_ne_nil hl'
    have h2 := List.length_pos_of_ne_nil (splitLoop_ne_nil hc)
    simp only [List.length_append, List.length_cons, List.length_nil] at hlen
    omega
  · rintro ⟨hne, hno⟩
    have hq := splitLoop_quiet (r := '/') (by decide) (quiet_name ⟨hno, hb⟩) [] []
    rw [List.append_nil] at hq
    refine ⟨_, rfl, b.toList, ?_⟩
    rw [hq, Glob.splitLoop, if_neg (by simpa using hne)]
    rfl

/-- C91: a pattern without special characters stands for itself only. -/
theorem C91_literal (p v : String) (hp : Literal p) (h1 : p.toList.getLast? ≠ some '/')
    (h2 : v.toList.getLast? ≠ some '/') : doublestar p v = true ↔ v = p := by
  have hpl : ∀ q ∈ split '/' p.toList, ∀ c ∈ q, PlainChar c := by
    intro q hq c hc
    obtain ⟨l, hl, hj, hm, hs⟩ := split_dir p.toList [] hp.no_esc
    have h0 := hs []
    by_cases e : p.toList = []
    · rw [e] at hq
      simp only [split, if_true, List.mem_singleton] at hq
      subst hq
      cases hc
    · have hlast : p.toList.getLast? ≠ some '\\' := fun hh => hp.no_esc (List.mem_of_getLast? hh)
      rw [splitLoop_trail [] false p.toList hlast h1 e] at h0
      rw [split, if_neg e, h0, Glob.splitLoop, if_pos rfl, List.append_nil] at hq
      exact hp c (by simpa using hm q hq c hc)
  have hjp := (join_split' p.toList).resolve_right fun h => h1 h.2
  have hjv := (join_split' v.toList).resolve_right fun h => h2 h.2
  have := doMatching_plain (split '/' p.toList) [] (split '/' v.toList) hpl
  rw [List.append_nil] at this
  unfold doublestar
  rw [this]
  constructor
  · rintro ⟨ms, he, hm⟩
    have : ms = [] := by
      cases ms with
      | nil => rfl
      | cons => simp [doMatching] at hm
    subst this
    rw [← String.toList_inj, hjv, he, List.append_nil, ← hjp]
  · rintro rfl
    exact ⟨[], by simp, by simp [doMatching]⟩

/-- C91: `**` stands for every name. -/
theorem C91_all (v : String) : doublestar "**" v = true := by
  have : split '/' "**".toList = [['*', '*']] := by decide
  unfold doublestar
  rw [this, deep_last]
  exact split_ne_nil _

/-- C91: a slash at the end of the name or of the pattern makes no difference. -/
theorem C91_trailing (p v : String) (hv : v ≠ "") (h1 : v.toList.getLast? ≠ some '/')
    (h2 : v.toList.getLast? ≠ some '\\') :
    doublestar p (v ++ "/") = doublestar p v ∧ doublestar (v ++ "/") p = doublestar v p := by
  have h : split '/' (v ++ "/").toList = split '/' v.toList := by
    have hv' : v.toList ≠ [] := by simpa using hv
    have e : (v ++ "/").toList = v.toList ++ ['/'] := by simp
    rw [e, split, if_neg (by simp), splitLoop_trail [] false _ h2 h1 hv', split, if_neg hv']
  unfold doublestar
  rw [h]
  exact ⟨rfl, rfl⟩

/-! ### The matcher in triggers -/

/-- The matcher has the properties C62 asks for. -/
theorem C91_laws : GlobLaws doublestar where
  below dir s hd hs := (C91_below dir _ hd).mpr ⟨s, hs, rfl⟩
  inside dir pat s hd h := by
    obtain ⟨l, hl, hj, hp, hsp⟩ := split_below hd
    have hpat : split '/' (dir ++ "/" ++ pat).toList = l ++ Glob.splitLoop '/' [] false pat.toList := by
      have : (dir ++ "/" ++ pat).toList = dir.toList ++ '/' :: pat.toList := by simp
      rw [this, hsp]
    unfold doublestar at h
    rw [hpat, doMatching_plain _ _ _ hp] at h
    obtain ⟨ms, he, _⟩ := h
    by_cases hm : ms = []
    · subst hm
      rw [List.append_nil] at he
      rcases join_split' s.toList with h | ⟨h, _⟩
      · left
        rw [he, hj] at h
        exact String.toList_inj.mp h
      · right
        rw [he, hj] at h
        rw [h]
        simp
    · right
      rcases join_split' s.toList with h | ⟨h, _⟩
      · rw [he, inter_append l hl hm, hj] at h
        rw [h, String.toList_append]
        exact ⟨['/'].intercalate ms, by simp⟩
      · rw [he, inter_append l hl hm, hj] at h
        rw [h, String.toList_append]
        exact ⟨['/'].intercalate ms ++ ['/'], by simp⟩

/-- C91, a converted legacy file whose branch list has no patterns: a push fires the trigger iff
its branch is in the list. -/
theorem C91_push (X : Legacy.LegacyLib) (env : Legacy.Env) (d : Bytes) (c : Legacy.Config) (remote : String)
    (m : Manifest) (hm : c.hasMatrix = false) (h : Legacy.toManifest X env d c remote = some (.ok m))
    (hi : c.branches.incl ≠ []) (he : c.branches.excl = [])
    (hlit : ∀ b ∈ c.branches.incl, Literal b ∧ b ≠ "" ∧ b.toList.getLast? ≠ some '/')
    (e : SkipData) (branch : String) (hb : branch ≠ "") (hbl : branch.toList.getLast? ≠ some '/')
    (href : e.ref = "refs/heads/" ++ branch) :
    ∃ p rest, m.resources = Resource.pipeline p :: rest ∧
      (Fires doublestar p.trigger e ↔ branch ∈ c.branches.incl) := by
  obtain ⟨p, rest, hr, hf⟩ := C62_push doublestar C91_laws X env d c remote m hm h hi he e branch href
  refine ⟨p, rest, hr, hf.trans ?_⟩
  have hlast : ∀ s : String, s ≠ "" → s.toList.getLast? ≠ some '/' →
      ("refs/heads/" ++ s).toList.getLast? ≠ some '/' := by
    intro s hs hl
    have hs' : s.toList ≠ [] := by simpa using hs
    rw [String.toList_append, List.getLast?_append_of_ne_nil _ hs']
    exact hl
  have hin : ∀ a b : String, "refs/heads/" ++ a = "refs/heads/" ++ b → a = b := by
    intro a b hab
    have := congrArg String.toList hab
    rw [String.toList_append, String.toList_append, List.append_cancel_left_eq] at this
    exact String.toList_inj.mp this
  constructor
  · rintro ⟨b, hbm, hg⟩
    obtain ⟨h1, h2, h3⟩ := hlit b hbm
    rw [href, C91_literal _ _ ?_ (hlast b h2 h3) (hlast branch hb hbl)] at hg
    · rw [hin _ _ hg]
      exact hbm
    · intro x hx
      rw [String.toList_append, List.mem_append] at hx
      rcases hx with hx | hx
      · revert x; decide
      · exact h1 x hx
  · intro hbm
    obtain ⟨h1, h2, h3⟩ := hlit branch hbm
    refine ⟨branch, hbm, ?_⟩
    rw [href, C91_literal _ _ ?_ (hlast branch h2 h3) (hlast branch h2 h3)]
    intro x hx
    rw [String.toList_append, List.mem_append] at hx
    rcases hx with hx | hx
    · revert x; decide
    · exact h1 x hx

/-! ### Examples -/

/-- `refs/**/v?.[0-9]*-{rc,beta}` -/
def exPattern : List PatComp :=
  [.parts (("refs".toList).map fun c => .term (.lit c)), .deep,
   .parts [.term (.lit 'v'), .term .one, .term (.lit '.'), .term (.cls false [('0', '9')]), .term .star,
     .term (.lit '-'), .alt [[.lit 'r', .lit 'c'], [.lit 'b', .lit 'e', .lit 't', .lit 'a']]]]

example : patternString exPattern = "refs/**/v?.[0-9]*\\-{rc,beta}" := by decide

example : (∀ c ∈ exPattern, c.Ok) ∧ NameComps ["refs".toList, "tags".toList, "v1.23-rc".toList] := by
  constructor
  · intro c hc
    simp only [exPattern, List.mem_cons, List.not_mem_nil, or_false] at hc
    rcases hc with rfl | rfl | rfl
    · refine ⟨by decide, ?_, ?_⟩
      · intro p hp
        obtain ⟨x, hx, rfl⟩ := List.mem_map.mp hp
        have : ∀ x ∈ "refs".toList, x ≠ '/' ∧ x ≠ '\\' := by decide
        exact this x hx
      · simp [choices, NoTwoStars]
    · trivial
    · refine ⟨by simp, ?_, ?_⟩
      · simp [Part.Ok, Term.Ok, Term.Single, ClassChar, Special]
      · simp [choices, NoTwoStars]
  · exact ⟨by simp, by decide, by decide⟩

example : doublestar "refs/**/v?.[0-9]*\\-{rc,beta}" "refs/tags/v1.23-rc" = true ∧
    doublestar "refs/**/v?.[0-9]*\\-{rc,beta}" "refs/v1.2-beta" = true ∧
    doublestar "refs/**/v?.[0-9]*\\-{rc,beta}" "refs/tags/v1.x-rc" = false := by decide

example : Literal "refs/heads" ∧ doublestar "refs/heads/**" "refs/heads/a/b" = true ∧
    doublestar "refs/heads/**" "refs/heads" = false ∧ doublestar "refs/heads/*" "refs/heads/a/b" = false :=
  ⟨literal_refs.2.2.2.1, by decide, by decide, by decide⟩

/-! What the conditions on patterns leave out: an empty alternative does not stand for the empty
text at the end of a name, the matcher stops at the first closing brace, and a malformed pattern
stands for nothing, so that excluding by it excludes nothing. -/

example : doublestar "a{b,}" "a" = false ∧ doublestar "a{,b}c" "ac" = true := by decide

example : doublestar "{a,{b,c}}" "a" = false ∧ doublestar "{a,{b,c}}" "a}" = true := by decide

example : doublestar "[a" "a" = false ∧
    Condition.matches doublestar { excl := ["release-[0-9"] } "release-1" = true := by decide

end Drone
