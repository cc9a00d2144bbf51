/-
Where a property holds only under a condition, these theorems say that the condition is exact.
-/
import Verif.Props.Script
import Verif.Props.Legacy
import Verif.Props.DecodeConvert
import Verif.Props.Quote
import Verif.Props.Volumes
import Verif.Props.Files
import Verif.Props.Envs

namespace Drone
open Spec

/-! ### C67 -/

/-- Single quotes come in pairs, read from the left. -/
def Spec.paired : List Char → Bool
  | [] => true
  | [c] => !decide (Spec.psQuote c)
  | c :: d :: r =>
    if Spec.psQuote c then decide (Spec.psQuote d) && Spec.paired r else Spec.paired (d :: r)

theorem squote_length : ∀ (n : Nat) (s t r : List Char), s.length ≤ n → Spec.squote s = some (t, r) →
    s.length = t.length + 1 + r.length + t.countP (fun c => decide (Spec.psQuote c))
  | 0, s, t, r, hn, h => by
    cases s with
    | nil => simp [Spec.squote] at h
    | cons c s => simp at hn
  | n + 1, s, t, r, hn, h => by
    match s with
    | [] => simp [Spec.squote] at h
    | [c] =>
      unfold Spec.squote at h
      split at h
      · simp only [Option.some.injEq, Prod.mk.injEq] at h
        obtain ⟨rfl, rfl⟩ := h
        rfl
      · simp at h
    | c :: d :: s =>
      unfold Spec.squote at h
      by_cases hc : Spec.psQuote c
      · rw [if_pos hc] at h
        by_cases hd : Spec.psQuote d
        · rw [if_pos hd, Option.map_eq_some_iff] at h
          obtain ⟨⟨t', r'⟩, h, e⟩ := h
          simp only [Prod.mk.injEq] at e
          obtain ⟨rfl, rfl⟩ := e
          have := squote_length n s t' r' (by simp at hn; omega) h
          simp only [List.length_cons, List.countP_cons, hd, decide_true, if_true]
          omega
        · rw [if_neg hd] at h
          simp only [Option.some.injEq, Prod.mk.injEq] at h
          obtain ⟨rfl, rfl⟩ := h
          simp; omega
      · rw [if_neg hc, Option.map_eq_some_iff] at h
        obtain ⟨⟨t', r'⟩, h, e⟩ := h
        simp only [Prod.mk.injEq] at e
        obtain ⟨rfl, rfl⟩ := e
        have := squote_length n (d :: s) t' r' (by simp at hn ⊢; omega) h
        simp only [List.length_cons, List.countP_cons, hc, decide_false, Bool.false_eq_true, if_false] at this ⊢
        omega

/-- Where a string that is followed by `"'` ends. -/
theorem squote_paired : ∀ (n : Nat) (s : List Char), s.length ≤ n → ∀ {d : Char} (rest : List Char),
    ¬ Spec.psQuote d →
    ((Spec.squote (s ++ '"' :: '\'' :: d :: rest)).map Prod.snd = some (d :: rest) ↔ Spec.paired s = true)
  | n, [], _, d, rest, hd => by
    have : ¬ Spec.psQuote '"' := by decide
    show (Spec.squote ('"' :: '\'' :: d :: rest)).map Prod.snd = _ ↔ _
    rw [Spec.squote, if_neg this, Spec.squote, if_pos (.inl rfl), if_neg hd]
    simp [Spec.paired]
  | 0, c :: s, hn, _, _, _ => by simp at hn
  | n + 1, [c], hn, d, rest, hd => by
    have hq : ¬ Spec.psQuote '"' := by decide
    show (Spec.squote (c :: '"' :: '\'' :: d :: rest)).map Prod.snd = _ ↔ _
    by_cases hc : Spec.psQuote c
    · rw [Spec.squote, if_pos hc, if_neg hq]
      simp only [Spec.paired, hc, decide_true, Bool.not_true, Bool.false_eq_true, iff_false, Option.map_some,
        Option.some.injEq]
      intro h
      have := congrArg List.length h
      simp at this
      omega
    · have ih := squote_paired n [] (by simp) rest hd
      rw [Spec.squote, if_neg hc, Option.map_map]
      simpa [Spec.paired, hc, Function.comp_def] using ih
  | n + 1, c :: e :: s, hn, d, rest, hd => by
    show (Spec.squote (c :: e :: (s ++ '"' :: '\'' :: d :: rest))).map Prod.snd = _ ↔ _
    by_cases hc : Spec.psQuote c
    · by_cases he : Spec.psQuote e
      · have ih := squote_paired n s (by simp at hn; omega) rest hd
        rw [Spec.squote, if_pos hc, if_pos he, Option.map_map]
        simpa [Spec.paired, hc, he, Function.comp_def] using ih
      · rw [Spec.squote, if_pos hc, if_neg he]
        simp only [Spec.paired, hc, he, if_true, decide_false, Bool.false_and, Bool.false_eq_true, iff_false,
          Option.map_some, Option.some.injEq]
        intro h
        have := congrArg List.length h
        simp at this
        omega
    · have ih := squote_paired n (e :: s) (by simp at hn ⊢; omega) rest hd
      rw [Spec.squote, if_neg hc, Option.map_map]
      simpa [Spec.paired, hc, Function.comp_def] using ih

theorem paired_plain {c : Char} (h : ¬ Spec.psQuote c) (r : List Char) : Spec.paired (c :: r) = Spec.paired r := by
  cases r with
  | nil => simp [Spec.paired, h]
  | cons d r => rw [Spec.paired, if_neg h]

theorem paired_skip : ∀ {w : List Char}, (∀ c ∈ w, ¬ Spec.psQuote c) → ∀ r, Spec.paired (w ++ r) = Spec.paired r
  | [], _, r => rfl
  | c :: w, h, r => by
    rw [List.cons_append, paired_plain (h c (by simp)), paired_skip (fun x hx => h x (by simp [hx]))]

/-- What a character of a command is written as in the trace. -/
abbrev traced (isPrint : Char → Bool) (c : Char) : List Char := Script.escapeDollar (Script.quoteChar isPrint c)

theorem traced_quote {isPrint : Char → Bool} {c : Char} (hp : isPrint c = true) (hc : Spec.psQuote c) :
    traced isPrint c = [c] := by
  have hd : c ≠ '$' := by rintro rfl; exact absurd hc (by decide)
  have : Script.quoteChar isPrint c = [c] := by
    rcases quoteChar_cases isPrint c with ⟨_, h | h⟩ | ⟨h, _⟩ | ⟨_, _, _, h, _⟩
    · subst h; exact absurd hc (by decide)
    · subst h; exact absurd hc (by decide)
    · exact h
    · rw [hp] at h; simp at h
  simp [traced, this, Script.escapeDollar, hd]

theorem traced_plain {isPrint : Char → Bool} {c : Char} (hc : ¬ Spec.psQuote c) :
    traced isPrint c ≠ [] ∧ ∀ x ∈ traced isPrint c, ¬ Spec.psQuote x := by
  constructor
  · have : ∀ (a : Char) (r : List Char), Script.escapeDollar (a :: r) ≠ [] := by
      intro a r h
      unfold Script.escapeDollar at h
      rw [List.flatMap_cons] at h
      split at h <;> simp at h
    rcases quoteChar_cases isPrint c with ⟨h, _⟩ | ⟨h, _⟩ | ⟨_, _, h, _⟩
    · rw [traced, h]; exact this _ _
    · rw [traced, h]; exact this _ _
    · rw [traced, h]; exact this _ _
  · have := escaped_psQuote (isPrint := isPrint) (cmd := [c]) (by simpa using hc)
    rw [escaped_eq] at this
    intro x hx
    exact this x (by simp [traced] at hx ⊢; exact .inr (.inl hx))

theorem paired_traced {isPrint : Char → Bool} (hp : ∀ c, Spec.psQuote c → isPrint c = true) :
    ∀ (n : Nat) (cmd : List Char), cmd.length ≤ n → Spec.paired (cmd.flatMap (traced isPrint)) = Spec.paired cmd
  | _, [], _ => rfl
  | 0, c :: s, hn => by simp at hn
  | n + 1, c :: s, hn => by
    by_cases hc : Spec.psQuote c
    · rw [List.flatMap_cons, traced_quote (hp c hc) hc]
      cases s with
      | nil => rfl
      | cons d s =>
        rw [List.flatMap_cons]
        by_cases hd : Spec.psQuote d
        · rw [traced_quote (hp d hd) hd]
          show Spec.paired (c :: d :: s.flatMap _) = _
          rw [Spec.paired, Spec.paired, if_pos hc, if_pos hc, paired_traced hp n s (by simp at hn; omega)]
        · obtain ⟨h1, h2⟩ := traced_plain (isPrint := isPrint) hd
          obtain ⟨a, w, e⟩ := List.exists_cons_of_ne_nil h1
          have ha := h2 a (by rw [e]; simp)
          rw [e]
          show Spec.paired (c :: a :: _) = _
          rw [Spec.paired, Spec.paired, if_pos hc, if_pos hc]
          simp [ha, hd]
    · rw [List.flatMap_cons, paired_skip (traced_plain hc).2, paired_plain hc,
        paired_traced hp n s (by simp at hn; omega)]

theorem traceWin_eq (isPrint : Char → Bool) (cmd : List Char) :
    Script.traceWin isPrint cmd = "\nWrite-Output ('".toList ++ ("+ ".toList ++ Script.escaped isPrint cmd ++
      '\'' :: ')' :: (";\n& ".toList ++ cmd ++ "; if ($LASTEXITCODE -ne 0) {exit $LASTEXITCODE}\n".toList)) := by
  unfold Script.traceWin
  generalize Script.escaped isPrint cmd = w
  simp

/-- C67, exactly: the trace is one string literal that stands for the escaped command iff the
command has no single quote. -/
theorem C67_trace_iff (isPrint : Char → Bool) (hp : ∀ c, Spec.psQuote c → isPrint c = true) (cmd : List Char) :
    (∃ body, Script.traceWin isPrint cmd = "\nWrite-Output ('".toList ++ body ∧
      Spec.squote body = some ("+ ".toList ++ Script.escaped isPrint cmd,
        ");\n& ".toList ++ cmd ++ "; if ($LASTEXITCODE -ne 0) {exit $LASTEXITCODE}\n".toList)) ↔
    ∀ c ∈ cmd, ¬ Spec.psQuote c := by
  refine ⟨?_, C67_trace_string_partial isPrint cmd⟩
  rintro ⟨body, h1, h2⟩
  rw [traceWin_eq] at h1
  have h1 := List.append_cancel_left h1
  have hlen := squote_length _ _ _ _ (le_refl _) h2
  rw [← h1] at hlen
  generalize "; if ($LASTEXITCODE -ne 0) {exit $LASTEXITCODE}\n".toList = tail at hlen
  have h0 : ("+ ".toList ++ Script.escaped isPrint cmd).countP (fun c => decide (Spec.psQuote c)) = 0 := by
    simp only [List.length_append, List.length_cons] at hlen
    have : (")" ++ ";\n& " : String).toList = ");\n& ".toList := rfl
    have e : ");\n& ".toList.length = 1 + ";\n& ".toList.length := rfl
    rw [e] at hlen
    omega
  rw [List.countP_eq_zero] at h0
  intro c hc hq
  refine absurd hq ?_
  have := h0 c ?_
  · simpa using this
  · rw [escaped_eq]
    simp only [List.mem_append, List.mem_cons, List.mem_flatMap]
    refine .inr (.inr (.inl ⟨c, hc, ?_⟩))
    have := traced_quote (hp c hq) hq
    rw [traced] at this
    rw [this]; simp

/-- C67: the literal at least ends where the trace line closes it iff the single quotes of the
command come in pairs; the rest of the command is read as code otherwise. -/
theorem C67_ends_iff (isPrint : Char → Bool) (hp : ∀ c, Spec.psQuote c → isPrint c = true) (cmd : List Char) :
    (∃ body text, Script.traceWin isPrint cmd = "\nWrite-Output ('".toList ++ body ∧
      Spec.squote body = some (text,
        ");\n& ".toList ++ cmd ++ "; if ($LASTEXITCODE -ne 0) {exit $LASTEXITCODE}\n".toList)) ↔
    Spec.paired cmd = true := by
  have key : ∀ tail : List Char, ((Spec.squote ("+ ".toList ++ Script.escaped isPrint cmd ++
      '\'' :: ')' :: (";\n& ".toList ++ cmd ++ tail))).map Prod.snd = some (')' :: (";\n& ".toList ++ cmd ++ tail)) ↔
      Spec.paired cmd = true) := by
    intro tail
    have := squote_paired _ ("+ \"".toList ++ cmd.flatMap (traced isPrint)) (le_refl _)
      (";\n& ".toList ++ cmd ++ tail) (d := ')') (by decide)
    rw [paired_skip (by decide), paired_traced hp _ _ (le_refl _)] at this
    rw [← this, escaped_eq]
    have e : ("+ ".toList ++ '"' :: (cmd.flatMap (fun c => Script.escapeDollar (Script.quoteChar isPrint c)) ++ ['"']) ++
        '\'' :: ')' :: (";\n& ".toList ++ cmd ++ tail)) =
      ("+ \"".toList ++ cmd.flatMap (traced isPrint) ++ '"' :: '\'' :: ')' :: (";\n& ".toList ++ cmd ++ tail)) := by
      generalize ";\n& ".toList ++ cmd ++ tail = z
      simp
    rw [e]
  rw [← key "; if ($LASTEXITCODE -ne 0) {exit $LASTEXITCODE}\n".toList, traceWin_eq]
  generalize "; if ($LASTEXITCODE -ne 0) {exit $LASTEXITCODE}\n".toList = tail
  have e : ");\n& ".toList ++ cmd ++ tail = ')' :: (";\n& ".toList ++ cmd ++ tail) := rfl
  rw [e]
  constructor
  · rintro ⟨body, text, h1, h2⟩
    rw [List.append_cancel_left h1, h2]
    rfl
  · intro h
    obtain ⟨⟨t, r⟩, h1, h2⟩ := Option.map_eq_some_iff.1 h
    exact ⟨_, t, rfl, by rw [h1]; simpa using h2⟩

example : Spec.paired "echo ''".toList = true ∧ Spec.paired "echo 'a'".toList = false ∧
    (∀ c, Spec.psQuote c → (fun _ : Char => true) c = true) := ⟨by decide, by decide, fun _ _ => rfl⟩

/-! ### C68 -/

/-- C68, exactly: which of the strings written plain are read as plain scalars. -/
theorem C68_plain_iff (s : List Char) (h : Pretty.isQuoted s = false) :
    PlainScalar s ↔ (∀ c ∈ s, Unescaped c) ∧ s.head? ≠ some '&' ∧ s.head? ≠ some '!' ∧ s ≠ ['-'] ∧ s ≠ ['?'] := by
  constructor
  · intro hp
    obtain ⟨c, t, rfl, h1, h2, h3⟩ := hp.first
    refine ⟨hp.chars, ?_, ?_, ?_, ?_⟩
    · simp only [List.head?_cons, ne_eq, Option.some.injEq]
      rintro rfl
      exact h2 (by decide)
    · simp only [List.head?_cons, ne_eq, Option.some.injEq]
      rintro rfl
      exact h2 (by decide)
    · intro e
      simp only [List.cons.injEq] at e
      obtain ⟨rfl, rfl⟩ := e
      obtain ⟨d, u, e, _⟩ := h3 (by decide)
      simp at e
    · intro e
      simp only [List.cons.injEq] at e
      obtain ⟨rfl, rfl⟩ := e
      obtain ⟨d, u, e, _⟩ := h3 (by decide)
      simp at e
  · rintro ⟨h1, h2, h3, h4, h5⟩
    exact C68_plain_partial s h h1 h2 h3 h4 h5

example : Pretty.isQuoted "golang:1.11".toList = false ∧ Pretty.isQuoted "&a".toList = false := by decide


/-! ### C61 -/

section
open Legacy

/-- The name of step `i` is in use when its turn comes: an earlier step is called the same, or was
renamed to it. -/
inductive Spec.Taken (names : List String) : Nat → Prop where
  | given {i j : Nat} {n : String} : j < i → names[j]? = some n → names[i]? = some n → Spec.Taken names i
  | made {i j : Nat} {n : String} : j < i → Spec.Taken names j → names[j]? = some n →
      names[i]? = some (n ++ "_" ++ toString j) → Spec.Taken names i

/-- Renaming a step gives it the name of an earlier step. -/
def Spec.Clash (names : List String) : Prop :=
  ∃ i j n, j < i ∧ Spec.Taken names i ∧ names[i]? = some n ∧ names[j]? = some (n ++ "_" ++ toString i)

/-- The names in use before step `i`. -/
theorem renameLoop_iff : ∀ (cs : List Drone.Container) (seen : List String) (i : Nat) (orig : List String),
    orig.drop i = cs.map (·.name) →
    (∀ s, s ∈ seen ↔ (∃ j, j < i ∧ orig[j]? = some s) ∨
      ∃ k n, k < i ∧ Spec.Taken orig k ∧ orig[k]? = some n ∧ s = n ++ "_" ++ toString k) →
    (((renameLoop seen i cs).map (·.name)).Nodup ∧ (∀ s ∈ (renameLoop seen i cs).map (·.name), s ∉ seen) ↔
      ¬ ∃ k j n, i ≤ k ∧ j < k ∧ Spec.Taken orig k ∧ orig[k]? = some n ∧ orig[j]? = some (n ++ "_" ++ toString k))
  | [], seen, i, orig, ho, _ => by
    simp only [renameLoop, List.map_nil, List.nodup_nil, List.not_mem_nil, false_imp_iff, implies_true, and_self, true_iff]
    rintro ⟨k, j, n, h1, _, _, h2, _⟩
    have : orig.length ≤ i := by simpa using ho
    rw [List.getElem?_eq_none (by omega)] at h2
    simp at h2
  | c :: cs, seen, i, orig, ho, hs => by
    have h0 : orig[i]? = some c.name := by
      have := congrArg (fun l => l[0]?) ho
      simpa using this
    have ht : c.name ∈ seen ↔ Spec.Taken orig i := by
      rw [hs]
      constructor
      · rintro (⟨j, h1, h2⟩ | ⟨k, n, h1, h2, h3, h4⟩)
        · exact .given h1 h2 h0
        · exact .made h1 h2 h3 (by rw [h0, h4])
      · intro h
        cases h with
        | given h1 h2 h3 =>
          rw [h0] at h3
          simp only [Option.some.injEq] at h3
          subst h3
          exact .inl ⟨_, h1, h2⟩
        | made h1 h2 h3 h4 =>
          rw [h0] at h4
          simp only [Option.some.injEq] at h4
          exact .inr ⟨_, _, h1, h2, h3, h4⟩
    have hf : (if c.name ∈ seen then c.name ++ "_" ++ toString i else c.name) ∈ seen ↔
        Spec.Taken orig i ∧ ∃ j, j < i ∧ orig[j]? = some (c.name ++ "_" ++ toString i) := by
      by_cases hc : c.name ∈ seen
      · rw [if_pos hc, hs]
        constructor
        · rintro (h | ⟨k, n, h1, _, _, h2⟩)
          · exact ⟨ht.1 hc, h⟩
          · have := suffix_inj h2; omega
        · exact fun h => .inl h.2
      · rw [if_neg hc]
        exact ⟨fun h => absurd h hc, fun h => absurd (ht.2 h.1) hc⟩
    have ih := renameLoop_iff cs ((if c.name ∈ seen then c.name ++ "_" ++ toString i else c.name) :: seen) (i + 1) orig
      (by
        have : orig.drop (i + 1) = (orig.drop i).drop 1 := by rw [List.drop_drop]
        rw [this, ho]; rfl)
      (by
        intro s
        rw [List.mem_cons]
        have hs' := hs s
        constructor
        · rw [hs']
          rintro (h | ⟨j, h1, h2⟩ | ⟨k, n, h1, h2⟩)
          · by_cases hc : c.name ∈ seen
            · rw [if_pos hc] at h
              exact .inr ⟨i, c.name, by omega, ht.1 hc, h0, h⟩
            · rw [if_neg hc] at h
              exact .inl ⟨i, by omega, by rw [h0, h]⟩
          · exact .inl ⟨j, by omega, h2⟩
          · exact .inr ⟨k, n, by omega, h2⟩
        · rintro (⟨j, h1, h2⟩ | ⟨k, n, h1, h2, h3, h4⟩)
          · by_cases hj : j = i
            · subst hj
              rw [h0] at h2
              simp only [Option.some.injEq] at h2
              subst h2
              by_cases hc : c.name ∈ seen
              · exact .inr hc
              · exact .inl (by rw [if_neg hc])
            · exact .inr (hs'.2 (.inl ⟨j, by omega, h2⟩))
          · by_cases hk : k = i
            · subst hk
              rw [h0] at h3
              simp only [Option.some.injEq] at h3
              subst h3
              exact .inl (by rw [if_pos (ht.2 h2), h4])
            · exact .inr (hs'.2 (.inr ⟨k, n, by omega, h2, h3, h4⟩)))
    unfold renameLoop
    dsimp only
    rw [List.map_cons, List.nodup_cons]
    generalize hnm : (if c.name ∈ seen then c.name ++ "_" ++ toString i else c.name) = nm at ih hf ⊢
    constructor
    · rintro ⟨⟨h1, h2⟩, h3⟩ ⟨k, j, n, hk, hj, h4, h5, h6⟩
      by_cases hi : k = i
      · subst hi
        rw [h0] at h5
        simp only [Option.some.injEq] at h5
        subst h5
        exact h3 nm (List.mem_cons_self ..) (hf.2 ⟨h4, j, hj, h6⟩)
      · refine ih.1 ⟨h2, ?_⟩ ⟨k, j, n, by omega, hj, h4, h5, h6⟩
        intro s hsm hms
        rcases List.mem_cons.1 hms with rfl | hms
        · exact h1 hsm
        · exact h3 s (List.mem_cons_of_mem _ hsm) hms
    · intro h
      have := ih.2 (fun ⟨k, j, n, hk, r⟩ => h ⟨k, j, n, by omega, r⟩)
      refine ⟨⟨fun hm => this.2 _ hm (List.mem_cons_self ..), this.1⟩, ?_⟩
      intro s hsm
      rcases List.mem_cons.1 hsm with rfl | hsm
      · intro hm
        obtain ⟨h1, j, h2, h3⟩ := hf.1 hm
        exact h ⟨i, j, c.name, le_refl _, h2, h1, h0, h3⟩
      · exact fun hm => this.2 s hsm (List.mem_cons_of_mem _ hm)

/-- C61, exactly: the names of the converted steps are distinct iff renaming a step never gives it
the name of an earlier one. -/
theorem C61_names_iff (X : LegacyLib) (env : Env) (d : Bytes) (c : Config) (remote : String) (m : Manifest)
    (hm : c.hasMatrix = false) (h : toManifest X env d c remote = some (.ok m)) :
    ∃ p rest, m.resources = Resource.pipeline p :: rest ∧
      ((p.steps.map fun s => s.map (·.name)).Nodup ↔
        ¬ Spec.Clash (if c.clone = [] ∧ env.clone then "clone" :: c.pipeline.map (·.name)
          else (c.clone ++ c.pipeline).map (·.name))) := by
  obtain ⟨p, hp, hr⟩ := toManifest_plain hm h
  obtain ⟨steps, services, volumes, hs, _, _, e1, _⟩ := toPipeline_inv hp
  refine ⟨p, _, hr, ?_⟩
  have names : ∀ {l : List Legacy.Container} {r : List Drone.Container}, mapAll (toContainer X) l = some r →
      r.map (·.name) = l.map (·.name) := by
    intro l r h
    have := mapAll_forall₂ h
    clear h
    induction this with
    | nil => rfl
    | cons h _ ih =>
      unfold toContainer at h
      obtain ⟨_, _, h⟩ := Option.bind_eq_some_iff.1 h
      obtain ⟨_, _, rfl⟩ := Option.map_eq_some_iff.1 h
      simp [ih]
  have hn : steps.map (·.name) = (if c.clone = [] ∧ env.clone then "clone" :: c.pipeline.map (·.name)
      else (c.clone ++ c.pipeline).map (·.name)) := by
    unfold toSteps at hs
    by_cases hc : c.clone = []
    · rw [if_neg (by simp [hc])] at hs
      obtain ⟨tail, ht, rfl⟩ := Option.map_eq_some_iff.1 hs
      cases he : env.clone with
      | true => simp [hc, names ht, cloneStep]
      | false => simp [hc, names ht]
    · rw [if_pos (by simpa using hc)] at hs
      rw [if_neg (by simp [hc]), names hs]
  rw [← hn]
  have := renameLoop_iff steps [] 0 (steps.map (·.name)) (by simp) (by simp)
  rw [e1, List.map_map]
  have h2 : ((fun s : Option Drone.Container => s.map (·.name)) ∘ some) = (some ∘ fun s : Drone.Container => s.name) := rfl
  rw [h2, ← List.map_map, List.nodup_map_iff (Option.some_injective _)]
  simp only [List.not_mem_nil, not_false_eq_true, implies_true, and_true, Nat.zero_le, true_and] at this
  exact this

/-- A name made by renaming counts too: the third step is called `a_1`, which the second became. -/
example : (renameLoop [] 0 [{ name := "a" }, { name := "a" }, { name := "a_1" }]).map (·.name) =
    ["a", "a_1", "a_1_2"] ∧ ¬ Spec.NoClash ["a", "a", "a_1"] :=
  ⟨by decide, fun h => h 1 "a" "a_1" rfl (by simp) (by decide)⟩

example : Spec.Clash ["a_2", "a", "a"] :=
  ⟨2, 0, "a", by decide, .given (j := 1) (n := "a") (by decide) rfl rfl, rfl, by decide⟩

end

/-! ### C83 -/

section
open Yaml

theorem stepLoop_none (l : List (Option Bitbucket.Step)) : ∀ image i,
    Bitbucket.stepLoop image i l = none ↔ none ∈ l := by
  induction l with
  | nil => intro image i; simp [Bitbucket.stepLoop]
  | cons s l ih =>
    intro image i
    cases s with
    | none => simp [Bitbucket.stepLoop, Bitbucket.toContainer]
    | some s => simp [Bitbucket.stepLoop, Bitbucket.toContainer, ih image (i + 1)]

/-- C83, exactly: the converter panics iff the selected stage has an entry without a step, or a
service is null. -/
theorem C83_panics_iff (g : Glob) (it : Orders (List (Option Bitbucket.Step))) (its : Orders (Option Bitbucket.Step))
    (c : Bitbucket.Config) (ref : String) :
    Bitbucket.toPipeline g it its c ref = none ↔
      none ∈ c.pipeline g it ref ∨ ∃ k, (k, none) ∈ c.services := by
  have hsv : ∀ l : GoMap (Option Bitbucket.Step), Bitbucket.serviceLoop l = none ↔ ∃ k, (k, none) ∈ l := by
    intro l
    unfold Bitbucket.serviceLoop
    induction l with
    | nil => simp [mapAll]
    | cons kv l ih =>
      obtain ⟨k, v⟩ := kv
      cases v with
      | none =>
        simp only [mapAll, Bitbucket.toContainer, Option.map_none, Option.bind_none, true_iff]
        exact ⟨k, by simp⟩
      | some v =>
        simp only [mapAll, Bitbucket.toContainer, Option.map_some, Option.bind_some, Option.map_eq_none_iff] at ih ⊢
        rw [ih]
        simp
  rw [Bitbucket.toPipeline]
  cases hl : Bitbucket.stepLoop c.image 0 (c.pipeline g it ref) with
  | none => simp [(stepLoop_none _ _ _).1 hl]
  | some steps =>
    have : none ∉ c.pipeline g it ref := fun h => by
      rw [(stepLoop_none _ _ _).2 h] at hl; simp at hl
    simp only [Option.bind_some, Option.map_eq_none_iff, hsv, this, false_or, (its.perm 0 c.services).mem_iff]

/-- What `step` is last given counts. -/
theorem fill_step_none : ∀ (ns : List Yaml.Node) (o : Option Bitbucket.Step),
    fill (decPtr {} decBitbucketStep) o ns = none ↔ (ns = [] ∧ o = none) ∨ ns.getLast? = some .null
  | [], o => by simp [fill]
  | n :: ns, o => by
    have ih := fill_step_none ns (decPtr {} decBitbucketStep n o).val
    have : fill (decPtr {} decBitbucketStep) o (n :: ns) =
        fill (decPtr {} decBitbucketStep) (decPtr {} decBitbucketStep n o).val ns := rfl
    rw [this, ih]
    have hp : (decPtr {} decBitbucketStep n o).val = none ↔ n = .null := by
      cases n <;> simp [decPtr]
    cases ns with
    | nil => simp [hp]
    | cons m ns => simp

/-- C83: an entry of a stage is without a step iff `step` is missing or null. -/
theorem C83_entry_iff (kvs : List (Yaml.Node × Yaml.Node)) :
    (decStageEntry (.map kvs) none).val = none ↔
      valuesOf kvs "step" = [] ∨ (valuesOf kvs "step").getLast? = some .null := by
  have := fills_val (f := fun k => List.lookup k [("step", field id (fun _ v => v) (decPtr {} decBitbucketStep))])
    (get := id) (x := "step") (d := decPtr {} decBitbucketStep) (s := none)
    ⟨⟨_, by simp [List.lookup]; rfl, fun _ _ => rfl⟩, by
      intro k g hk hf
      have : (k == "step") = false := by simpa using hk
      simp [List.lookup, this] at hf⟩ kvs
  simp only [id_eq] at this
  have h2 := fill_step_none (valuesOf kvs "step") none
  rw [← this] at h2
  simpa [decStageEntry, decStruct] using h2

example : (decStageEntry (.map [(key "step", .null)]) none).val = none ∧
    (decStageEntry (.map [(key "step", .map [])]) none).val ≠ none := by
  constructor
  · rw [C83_entry_iff]; simp [valuesOf, textOf, key]
  · rw [Ne, C83_entry_iff]; simp [valuesOf, textOf, key]

end

/-! ### C28 -/

section
open Engine (Step File)

theorem expand_marked {dg : Img.DigestLib} {s : String} (h : ':' ∈ s.toList ∨ '@' ∈ s.toList) :
    ':' ∈ (Img.expand dg s).toList ∨ '@' ∈ (Img.expand dg s).toList := by
  unfold Img.expand Img.expandL
  rw [String.toList_ofList]
  cases Img.named dg s.toList with
  | none => exact h
  | some r =>
    obtain ⟨d, p, t, g⟩ := r
    cases t <;> cases g <;> simp [Img.Ref.tagNameOnly, Img.Ref.str, Img.tagSuffix, Img.digestSuffix]

theorem renameImage_marked {E : Ext} : ∀ {rn : GoMap String} {image : String},
    (':' ∈ image.toList ∨ '@' ∈ image.toList) →
    ':' ∈ (renameImage E image rn).toList ∨ '@' ∈ (renameImage E image rn).toList
  | [], _, h => h
  | (k, v) :: rn, image, h => by
    unfold renameImage
    split
    · exact renameImage_marked (expand_marked (.inl (by simp)))
    · exact renameImage_marked h

theorem renameImage_hit {E : Ext} : ∀ {rn : GoMap String} {image : String},
    (∃ kv ∈ rn, Img.matchTag E.dg image kv.1 = true) →
    ':' ∈ (renameImage E image rn).toList ∨ '@' ∈ (renameImage E image rn).toList
  | [], _, h => by simp at h
  | (k, v) :: rn, image, h => by
    unfold renameImage
    by_cases hk : Img.matchTag E.dg image k = true
    · rw [if_pos hk]
      exact renameImage_marked (expand_marked (.inl (by simp)))
    · rw [if_neg hk]
      apply renameImage_hit
      obtain ⟨kv, h1, h2⟩ := h
      rcases List.mem_cons.1 h1 with rfl | h1
      · exact absurd h2 hk
      · exact ⟨kv, h1, h2⟩

theorem set_key {α : Type} (m : GoMap α) (k : String) (v : α) : ∃ w, (k, w) ∈ m.set k v := by
  induction m with
  | nil => exact ⟨v, by simp [GoMap.set]⟩
  | cons q m ih =>
    unfold GoMap.set
    split
    · exact ⟨v, by simp⟩
    · obtain ⟨w, h⟩ := ih
      exact ⟨w, by simp [h]⟩

theorem set_keeps {α : Type} (m : GoMap α) (k a : String) (v w : α) (h : (a, w) ∈ m) : ∃ w', (a, w') ∈ m.set k v := by
  induction m with
  | nil => simp at h
  | cons q m ih =>
    unfold GoMap.set
    rcases List.mem_cons.1 h with rfl | h
    · split
      · rename_i e
        exact ⟨v, by simp at e; simp [e]⟩
      · exact ⟨w, by simp⟩
    · split
      · exact ⟨w, by simp [h]⟩
      · obtain ⟨w', h⟩ := ih h
        exact ⟨w', by simp [h]⟩

/-- The image of every build step is in the rename table. -/
theorem renameOf_has {p : Pipeline} {raw : List Step} (hl : (sources p).length = raw.length) {s : Container} {b : Build}
    (hs : some s ∈ p.steps) (hb : s.build = some b) : ∃ v, (b.image, v) ∈ renameOf p raw := by
  have keep : ∀ (zs : List ((Role × Container) × Step)) (rn : GoMap String) (a w : String), (a, w) ∈ rn →
      ∃ w', (a, w') ∈ zs.foldl addRename rn := by
    intro zs
    induction zs with
    | nil => intro rn a w h; exact ⟨w, h⟩
    | cons z zs ih =>
      intro rn a w h
      rw [List.foldl_cons]
      have : ∃ w', (a, w') ∈ addRename rn z := by
        unfold addRename
        split
        · exact set_keeps _ _ _ _ _ h
        · exact ⟨w, h⟩
      obtain ⟨w', h'⟩ := this
      exact ih _ a w' h'
  have add : ∀ (zs : List ((Role × Container) × Step)) (rn : GoMap String) (st : Step),
      (((.step, s) : Role × Container), st) ∈ zs → ∃ w', (b.image, w') ∈ zs.foldl addRename rn := by
    intro zs
    induction zs with
    | nil => intro rn st h; simp at h
    | cons z zs ih =>
      intro rn st h
      rw [List.foldl_cons]
      rcases List.mem_cons.1 h with rfl | h
      · have : addRename rn ((.step, s), st) = rn.set b.image st.md.uid := by simp [addRename, hb]
        rw [this]
        obtain ⟨w, hw⟩ := set_key rn b.image st.md.uid
        exact keep _ _ _ _ hw
      · exact ih _ st h
  have hm : ((.step, s) : Role × Container) ∈ sources p := mem_sources.mpr (.inr (.inr ⟨rfl, hs⟩))
  obtain ⟨i, hi, e⟩ := List.getElem_of_mem hm
  have hz : ((sources p)[i], raw[i]'(by omega)) ∈ List.zip (sources p) raw :=
    List.mem_iff_getElem.2 ⟨i, by simp; omega, by simp⟩
  rw [e] at hz
  exact add _ _ _ hz

/-- C28 (image), exactly: the containers that receive the socket run `drone/docker` iff no build
section builds an image whose name and tag denote `drone/docker:latest`. -/
theorem C28_socket_image_iff {E : Ext} {c : Compiler} (hc : c.Std) (ht : c.transform = none)
    {rnd : Nat → String} {p : Pipeline} {sp : Engine.Spec} (h : compile E c rnd p = some sp) :
    (∀ s ∈ sp.steps, (∃ m ∈ s.volumes, m.name = "_docker_socket") → s.docker.image = "drone/docker") ↔
    ∀ s b, some s ∈ p.steps → s.build = some b → Img.matchTag E.dg "drone/docker" b.image = false := by
  refine ⟨?_, C28_socket_image_partial hc ht h⟩
  intro hall s b hs hb
  cases hmt : Img.matchTag E.dg "drone/docker" b.image with
  | false => rfl
  | true =>
    exfalso
    have hmount := C28_socket_mount hc ht h
    obtain ⟨_, _, _, r, hr, hsp⟩ := compile_shape hc ht h
    have hst : List.Forall₂ (CompiledFrom (ctxOf E c rnd p) rnd (renameOf p r.1)) (sources p) sp.steps := by
      rw [hsp]
      exact renameSteps_forall (x := ctxOf E c rnd p) _ (emit_forall hr) 0
    obtain ⟨v, hv⟩ := renameOf_has (emit_forall hr).length_eq hs hb
    have hm : ((.step, s) : Role × Container) ∈ sources p := mem_sources.mpr (.inr (.inr ⟨rfl, hs⟩))
    obtain ⟨i, hi, e⟩ := List.getElem_of_mem hm
    have hlen := hst.length_eq
    have a1 := (List.forall₂_iff_get.mp hmount).2 i hi (by omega)
    have a2 := (List.forall₂_iff_get.mp hst).2 i hi (by omega)
    simp only [List.get_eq_getElem, e] at a1 a2
    have hvol := a1.1.mpr ⟨rfl, by simp [hb]⟩
    have himg := hall _ (List.getElem_mem _) hvol
    obtain ⟨k, raw, j, hraw, hset⟩ := a2
    have hd := (rawStep_build hc hb hraw).docker
    rw [hset] at himg
    change renameImage E raw.docker.image (E.iter j (renameOf p r.1)) = _ at himg
    rw [hd] at himg
    have := renameImage_hit (E := E) (rn := E.iter j (renameOf p r.1)) (image := "drone/docker")
      ⟨_, (E.iter_perm j _).mem_iff.mpr hv, hmt⟩
    change renameImage E "drone/docker" (E.iter j (renameOf p r.1)) = _ at himg
    rw [himg] at this
    exact absurd this (by decide)

/-! ### C36 -/

/-- C36, exactly: which containers see a file of the name of the credentials. -/
theorem C36_mounts_iff {E : Ext} {c : Compiler} (hc : c.Std) (ht : c.transform = none)
    {rnd : Nat → String} {p : Pipeline} {sp : Engine.Spec} (h : compile E c rnd p = some sp) :
    List.Forall₂ (fun y s => (∃ m ∈ s.files, m.name = ".git-credentials") ↔
      (y.1 = .clone ∧ c.gitCredentials.getD [] ≠ []) ∨
        (Spec.HasScript p y ∧ y.2.name = ".git-credentials")) (sources p) sp.steps := by
  refine compile_forall hc ht h ?_
  intro rename y s hy hs
  rw [hs.files hc]
  change (∃ m ∈ (if Spec.HasScript p y then _ else []) ++ (if y.1 = .clone ∧ c.gitCredentials.getD [] ≠ [] then _ else []),
    _) ↔ _
  by_cases h1 : Spec.HasScript p y
  · by_cases h2 : y.1 = .clone ∧ c.gitCredentials.getD [] ≠ []
    · simp [h1, h2]
    · rw [if_pos h1, if_neg h2]
      simp [h1, h2]
  · by_cases h2 : y.1 = .clone ∧ c.gitCredentials.getD [] ≠ []
    · simp [h2]
    · rw [if_neg h1, if_neg h2]
      simp [h1, h2]

/-- C36, exactly: the data of the files of that name. -/
theorem C36_files_exact {E : Ext} {c : Compiler} (hc : c.Std) (ht : c.transform = none)
    {rnd : Nat → String} {p : Pipeline} {sp : Engine.Spec} (h : compile E c rnd p = some sp) :
    (sp.files.filter (fun f => f.md.name = ".git-credentials")).map (·.data) =
      (sources p).flatMap fun y =>
        (if Spec.HasScript p y ∧ y.2.name = ".git-credentials" then
          [utf8 (Script.posix E.isPrint y.2.commands)] else []) ++
        (if y.1 = .clone ∧ c.gitCredentials.getD [] ≠ [] then [c.gitCredentials.getD []] else []) := by
  have hf := C40_files hc ht h
  have e1 : (sp.files.filter (fun f => f.md.name = ".git-credentials")).map (·.data) =
      ((sp.files.map (fun f => (f.md.name, f.data))).filter
        (fun q => q.1 = ".git-credentials")).map Prod.snd := by
    rw [List.filter_map, List.map_map]; rfl
  rw [e1, hf, List.filter_flatMap, List.map_flatMap]
  congr 1
  funext y
  unfold Spec.filesOf
  rw [List.filter_append, List.map_append]
  congr 1
  · by_cases h1 : Spec.HasScript p y
    · by_cases h2 : y.2.name = ".git-credentials"
      · simp [h1, h2]
      · simp [h1, h2]
    · simp [h1]
  · split <;> simp

/-- C36, exactly: the only files of that name hold the credentials iff no container with a script
has that name. -/
theorem C36_credentials_iff {E : Ext} {c : Compiler} (hc : c.Std) (ht : c.transform = none)
    {rnd : Nat → String} {p : Pipeline} {sp : Engine.Spec} (h : compile E c rnd p = some sp) :
    List.Forall₂ (fun y s => ∀ m ∈ s.files, m.name = ".git-credentials" → y.1 = .clone)
      (sources p) sp.steps ↔
    ∀ y ∈ sources p, Spec.HasScript p y → y.1 ≠ .clone → y.2.name ≠ ".git-credentials" := by
  have hm := C36_mounts_iff hc ht h
  rw [List.forall₂_iff_get] at hm ⊢
  obtain ⟨hl, hm⟩ := hm
  constructor
  · rintro ⟨_, hall⟩ y hy hs hne hname
    obtain ⟨i, hi, e⟩ := List.getElem_of_mem hy
    have a1 := hm i hi (by omega)
    have a2 := hall i hi (by omega)
    simp only [List.get_eq_getElem, e] at a1 a2
    obtain ⟨m, h1, h2⟩ := a1.2 (.inr ⟨hs, hname⟩)
    exact hne (a2 m h1 h2)
  · intro hall
    refine ⟨hl, fun i h1 h2 m hmem hmn => ?_⟩
    have a1 := hm i h1 h2
    rcases a1.1 ⟨m, hmem, hmn⟩ with h3 | ⟨h3, h4⟩
    · exact h3.1
    · by_contra hne
      exact hall _ (List.get_mem _ _) h3 hne h4

/-! ### C34 -/

open Spec (plainEnv plainSettings)

theorem exists_last {α : Type} {l : List α} {a : α} (h : a ∈ l) : ∃ r, l.Perm (r ++ [a]) := by
  obtain ⟨x, y, rfl⟩ := List.append_of_mem h
  exact ⟨x ++ y, by
    rw [List.append_assoc]
    exact (List.Perm.append_left x (List.perm_append_comm (l₁ := [a]) (l₂ := y)))⟩

theorem setAll_last (l m : GoMap String) (k v : String) : (setAll (l ++ [(k, v)]) m).get? k = some v := by
  unfold setAll
  rw [List.foldl_append]
  simp [GoMap.get?_set]

theorem plugin_ne {E : Ext} {k k' : String} (h : ∀ x : List Char, "PLUGIN_".toList ++ x ≠ k'.toList) :
    "PLUGIN_" ++ E.upper k ≠ k' := by
  intro e
  apply h (E.upper k).toList
  rw [← e, String.toList_append]

/-- The variable of a setting of a service or a step is what the environment of the step says. -/
theorem setting_get {E : Ext} {c : Compiler} (hc : c.Std) {rnd : Nat → String} {p : Pipeline} {rename : GoMap String}
    {y : Role × Container} {s : Step} (h : CompiledFrom (ctxOf E c rnd p) rnd rename y s) (hb : ¬ IsBuild y)
    (hr : y.1 ≠ .clone) (k : String) :
    s.envs.get? ("PLUGIN_" ++ E.upper k) = (stepEnvs E y.2).1.get? ("PLUGIN_" ++ E.upper k) := by
  obtain ⟨i, raw, j, h1, rfl⟩ := h
  have := (rawStep_plain hc hb h1).envs
  show raw.envs.get? _ = _
  rw [this, withWorkspace_get, if_neg hr,
    if_neg (plugin_ne (by intro x; simp)), if_neg (plugin_ne (by intro x; simp)),
    if_neg (plugin_ne (by intro x; simp)), if_neg (plugin_ne (by intro x; simp)),
    if_neg (plugin_ne (by intro x; simp)), if_neg (plugin_ne (by intro x; simp))]
  unfold withScript
  split
  · rw [id, GoMap.get?_set, if_neg (plugin_ne (by intro x; simp)), GoMap.get?_set,
      if_neg (plugin_ne (by intro x; simp))]
    rfl
  · rfl

/-- Of two settings that give different texts to one variable, the last one in the order wins. -/
theorem stepEnvs_choice {E : Ext} {a : Container} (h : ¬ Spec.Functional (plainSettings E a.settings)) :
    ∃ b k, Spec.Reordered a b ∧
      (stepEnvs E a).1.get? ("PLUGIN_" ++ E.upper k) ≠ (stepEnvs E b).1.get? ("PLUGIN_" ++ E.upper k) := by
  unfold Spec.Functional at h
  push Not at h
  obtain ⟨⟨n, x⟩, hx, ⟨n', y⟩, hy, e, hne⟩ := h
  simp only at e hne
  subst e
  have src : ∀ z, (n, z) ∈ plainSettings E a.settings → ∃ k v, (k, some v) ∈ a.settings ∧
      (n, z) = ("PLUGIN_" ++ E.upper k, encodeValue E v.value) ∧ v.secret = "" := by
    intro z hz
    unfold plainSettings at hz
    simp only [List.mem_filterMap, Option.bind_eq_some_iff] at hz
    obtain ⟨⟨k, o⟩, m1, v, r1, s1⟩ := hz
    split at s1
    · rename_i hs
      simp only at r1
      subst r1
      exact ⟨k, v, m1, (Option.some.inj s1).symm, hs⟩
    · simp at s1
  have make : ∀ z, (n, z) ∈ plainSettings E a.settings → ∃ b, Spec.Reordered a b ∧ (stepEnvs E b).1.get? n = some z := by
    intro z hz
    obtain ⟨k, v, m1, e1, hs⟩ := src z hz
    obtain ⟨r, hp⟩ := exists_last m1
    refine ⟨{ a with settings := r ++ [(k, some v)] }, ⟨a.environment, _, rfl, .refl _, hp⟩, ?_⟩
    rw [stepEnvs_eq]
    have : plainSettings E (r ++ [(k, some v)]) = plainSettings E r ++ [(n, z)] := by
      unfold plainSettings
      rw [List.filterMap_append]
      simp [hs, e1]
    simp only [this]
    exact setAll_last _ _ _ _
  obtain ⟨k, _, _, ek, _⟩ := src x hx
  simp only [Prod.mk.injEq] at ek
  obtain ⟨b1, r1, g1⟩ := make x hx
  obtain ⟨b2, r2, g2⟩ := make y hy
  by_cases hc : (stepEnvs E a).1.get? n = some x
  · refine ⟨b2, k, r2, ?_⟩
    rw [← ek.1, hc, g2]
    simpa using hne
  · refine ⟨b1, k, r1, ?_⟩
    rw [← ek.1, g1]
    exact hc

theorem Spec.Reordered.refl (a : Container) : Spec.Reordered a a := ⟨_, _, rfl, .refl _, .refl _⟩

theorem forall₂_reordered_refl : ∀ l : List (Option Container), List.Forall₂ (Option.Rel Spec.Reordered) l l
  | [] => .nil
  | none :: l => .cons .none (forall₂_reordered_refl l)
  | some a :: l => .cons (.some (.refl a)) (forall₂_reordered_refl l)

/-- C34, converse: if two plain settings of a service or of a step without a build section give
different texts to the same variable, there is another order of the maps for which the compiled
specification differs. -/
theorem C34_collision {E : Ext} {c : Compiler} (hc : c.Std) (ht : c.transform = none)
    {rnd : Nat → String} {p : Pipeline} {sp : Engine.Spec} (h : compile E c rnd p = some sp)
    {a : Container} (ha : some a ∈ p.services ∨ (some a ∈ p.steps ∧ a.build = none))
    (hcol : ¬ Spec.Functional (plainSettings E a.settings)) :
    ∃ p' sp', Spec.ReorderedPipeline p p' ∧ compile E c rnd p' = some sp' ∧
      ¬ List.Forall₂ Spec.SameStep sp.steps sp'.steps := by
  obtain ⟨b, k, hab, hne⟩ := stepEnvs_choice hcol
  -- the place of the container among the sources
  have place : ∃ p' r pre post, Spec.ReorderedPipeline p p' ∧ ¬ IsBuild (r, a) ∧ ¬ IsBuild (r, b) ∧ r ≠ .clone ∧
      sources p = pre ++ (r, a) :: post ∧ sources p' = pre ++ (r, b) :: post := by
    have hbb : b.build = a.build := Reordered.build hab
    rcases ha with ha | ⟨ha, hbld⟩
    · obtain ⟨l1, l2, e⟩ := List.append_of_mem ha
      refine ⟨{ p with services := l1 ++ some b :: l2, steps := p.steps }, .service,
        (if p.clone.disable then [] else [(.clone, { name := "clone", image := Spec.cloneImageOf p.platform })]) ++
          (l1.filterMap id).map (fun c => (.service, c)),
        (l2.filterMap id).map (fun c => (.service, c)) ++ (p.steps.filterMap id).map (fun c => (.step, c)),
        ⟨_, _, rfl, ?_, forall₂_reordered_refl _⟩, by simp [IsBuild], by simp [IsBuild], by simp, ?_, ?_⟩
      · rw [e]
        exact forall₂_append' (forall₂_reordered_refl _) (.cons (.some hab) (forall₂_reordered_refl _))
      · unfold sources
        rw [e]
        simp
      · unfold sources
        simp
    · obtain ⟨l1, l2, e⟩ := List.append_of_mem ha
      refine ⟨{ p with services := p.services, steps := l1 ++ some b :: l2 }, .step,
        (if p.clone.disable then [] else [(.clone, { name := "clone", image := Spec.cloneImageOf p.platform })]) ++
          (p.services.filterMap id).map (fun c => (.service, c)) ++ (l1.filterMap id).map (fun c => (.step, c)),
        (l2.filterMap id).map (fun c => (.step, c)),
        ⟨_, _, rfl, forall₂_reordered_refl _, ?_⟩, by simp [IsBuild, hbld], by simp [IsBuild, hbb, hbld], by simp, ?_, ?_⟩
      · rw [e]
        exact forall₂_append' (forall₂_reordered_refl _) (.cons (.some hab) (forall₂_reordered_refl _))
      · unfold sources
        rw [e]
        simp
      · unfold sources
        simp
  obtain ⟨p', r, pre, post, hpp, hb1, hb2, hr, e1, e2⟩ := place
  have hex : ∃ sp', compile E c rnd p' = some sp' := by
    have h0 := (C39_compile_iff (E := E) hc rnd p).1 ⟨sp, h⟩
    rw [C39_compile_iff hc]
    obtain ⟨sv, st, rfl, f1, f2⟩ := hpp
    have hnil : ∀ {l l' : List (Option Container)}, List.Forall₂ (Option.Rel Spec.Reordered) l l' →
        none ∉ l → none ∉ l' := by
      intro l l' hf
      induction hf with
      | nil => simp
      | cons h _ ih =>
        cases h with
        | some _ => simpa using ih
        | none => simp
    refine ⟨h0.1, hnil f1 h0.2.1, hnil f2 h0.2.2.1, ?_⟩
    intro y hy hb
    rw [e2] at hy
    have hall := h0.2.2.2
    rw [e1] at hall
    simp only [List.mem_append, List.mem_cons] at hy hall
    rcases hy with hy | rfl | hy
    · exact hall y (.inl hy) hb
    · have := hall (r, a) (.inr (.inl rfl)) hb1
      obtain ⟨_, _, rfl, _⟩ := hab
      exact this
    · exact hall y (.inr (.inr hy)) hb
  obtain ⟨sp', h'⟩ := hex
  refine ⟨p', sp', hpp, h', fun hsame => hne ?_⟩
  obtain ⟨rn, hf⟩ := compile_steps hc ht h
  obtain ⟨rn', hf'⟩ := compile_steps hc ht h'
  have hl1 := hf.length_eq
  have hl2 := hf'.length_eq
  have hi : pre.length < (sources p).length := by rw [e1]; simp
  have hi' : pre.length < (sources p').length := by rw [e2]; simp
  have a1 := (List.forall₂_iff_get.mp hf).2 pre.length hi (by omega)
  have a2 := (List.forall₂_iff_get.mp hf').2 pre.length hi' (by omega)
  have a3 := (List.forall₂_iff_get.mp hsame).2 pre.length (by omega) (by omega)
  have g1 : (sources p)[pre.length] = (r, a) := by simp [e1]
  have g2 : (sources p')[pre.length] = (r, b) := by simp [e2]
  simp only [List.get_eq_getElem, g1, g2] at a1 a2 a3
  have s1 := setting_get hc a1 hb1 hr k
  have s2 := setting_get hc a2 hb2 hr k
  rw [← s1, ← s2]
  exact a3.2.1 _

/-- Two settings that differ in case only, with different values. -/
example : ¬ Spec.Functional (plainSettings exExt [("key", some { value := .str "1" }), ("KEY", some { value := .str "2" })]) := by
  intro h
  have := h ("PLUGIN_KEY", "1") (by decide) ("PLUGIN_KEY", "2") (by decide) rfl
  simp at this

end

end Drone
