import Verif.Props.Cli
import Verif.Props.Pretty
import Verif.Props.Parse
/-
C110: what stands behind a line of 64 KiB, or behind a terminator, does not exist for any command
(/repo/yaml/parse.go:100-132, /repo/main.go).
-/
namespace Drone
open Spec Cli

namespace Spec

/-- `rest` begins on a new line after `front`, and begins with a line of at least 65536 bytes, or
with a terminator that is not at the beginning of the file. -/
structure Unseen (front rest : Bytes) : Prop where
  newline : front = [] ∨ front.getLast? = some 10
  hidden : (∃ line more, rest = line ++ more ∧ (10 : UInt8) ∉ line ∧ 65536 ≤ line.length) ∨
    (front ≠ [] ∧ [46, 46, 46] <+: rest)

/-- Two worlds that differ in one file at most. -/
structure Beside (name : String) (w w' : World) : Prop where
  others : ∀ n, n ≠ name → w.files.get? n = w'.files.get? n
  stdout : w.stdout = w'.stdout
  stderr : w.stderr = w'.stderr

/-- A command does the same in both worlds: same result, same output, and if it leaves another file
behind than it found, the same one. -/
def SameRun (name : String) (c : Command) (w w' : World) : Prop :=
  (c w).1 = (c w').1 ∧ Beside name (c w).2 (c w').2 ∧
  ((c w).2.files.get? name = (c w').2.files.get? name ∨
    ((c w).2.files = w.files ∧ (c w').2.files = w'.files))

end Spec

/-! ### Splitting -/

theorem rawLinesAux_line (line more : Bytes) (h : (10 : UInt8) ∉ line) : ∀ cur : Bytes,
    rawLinesAux cur (line ++ more) = rawLinesAux (cur ++ line) more := by
  induction line with
  | nil => intro cur; simp
  | cons b bs ih =>
    intro cur
    simp only [List.mem_cons, not_or] at h
    have hb : ¬ b = LF := fun e => h.1 e.symm
    rw [List.cons_append, rawLinesAux, if_neg hb, ih h.2]
    simp

theorem rawLinesAux_newline (front more : Bytes) (h : front.getLast? = some 10) : ∀ cur : Bytes,
    rawLinesAux cur (front ++ more) = rawLinesAux cur front ++ rawLines more := by
  induction front with
  | nil => cases h
  | cons b bs ih =>
    intro cur
    by_cases hbs : bs = []
    · subst hbs
      have : b = LF := by simp at h; exact h
      simp [rawLinesAux, this, rawLines]
    · have hl : bs.getLast? = some 10 := by
        rw [List.getLast?_cons] at h
        cases e : bs.getLast? with
        | none => exact absurd (List.getLast?_eq_none_iff.1 e) hbs
        | some x => rw [e] at h; simpa using h
      rw [List.cons_append, rawLinesAux, rawLinesAux]
      split
      · rw [ih hl]; rfl
      · rw [ih hl]

theorem rawLines_newline {front more : Bytes} (h : front = [] ∨ front.getLast? = some 10) :
    rawLines (front ++ more) = rawLines front ++ rawLines more := by
  rcases h with rfl | h
  · rfl
  · exact rawLinesAux_newline front more h []

/-- The first line of a text goes on at least as far as a piece without newline. -/
theorem rawLinesAux_head (more : Bytes) : ∀ cur : Bytes, cur ≠ [] →
    ∃ tail ls, rawLinesAux cur more = (cur ++ tail) :: ls := by
  induction more with
  | nil =>
    intro cur hc
    exact ⟨[], [], by cases cur <;> simp_all [rawLinesAux]⟩
  | cons b bs ih =>
    intro cur hc
    rw [rawLinesAux]
    split
    · exact ⟨[], rawLinesAux [] bs, by simp⟩
    · obtain ⟨t, ls, e⟩ := ih (cur ++ [b]) (by simp)
      exact ⟨b :: t, ls, by rw [e]; simp⟩

theorem takeWhile_stops {α : Type} (p : α → Bool) (a b : List α) (h : b.takeWhile p = []) :
    (a ++ b).takeWhile p = a.takeWhile p := by
  induction a with
  | nil => simpa using h
  | cons x xs ih =>
    rw [List.cons_append, List.takeWhile_cons, List.takeWhile_cons, ih]

theorem splitLoop_term (ls : List Bytes) (t : Bytes) (ts : List Bytes) (ht : isTerminator t = true) :
    ∀ st : SplitState, (st.active = true ∨ ls ≠ []) →
    (splitLoop st (ls ++ t :: ts)).docs = (splitLoop st ls).docs := by
  have hs : isSeparator t = false := by
    cases h : isSeparator t with
    | false => rfl
    | true => exact absurd ((isTerminator_iff t).1 ht) (sep_not_term ((isSeparator_iff t).1 h))
  induction ls with
  | nil =>
    rintro st (h | h)
    · simp [splitLoop, hs, ht, h]
    · exact absurd rfl h
  | cons l ls ih =>
    intro st _
    rw [List.cons_append, splitLoop, splitLoop]
    split
    · exact ih _ (.inl (by split <;> first | assumption | rfl))
    · split
      · rfl
      · exact ih _ (.inl (by dsimp only; split <;> first | assumption | rfl))

/-- C110: the documents of a file are the documents of its visible part. -/
theorem C110_documents (front rest : Bytes) (h : Unseen front rest) : splitDocs (front ++ rest) = splitDocs front := by
  have hr := rawLines_newline (more := rest) h.newline
  rcases h.hidden with ⟨line, more, rfl, hnl, hlen⟩ | ⟨hf, suffix, rfl⟩
  · have hne : line ≠ [] := by
      rintro rfl
      simp at hlen
    obtain ⟨t, ls, e⟩ := rawLinesAux_head more line hne
    have e' : rawLines (line ++ more) = (line ++ t) :: ls := by
      unfold rawLines
      rw [rawLinesAux_line line more hnl [], List.nil_append, e]
    have hs : scanLines (front ++ (line ++ more)) = scanLines front := by
      unfold scanLines
      rw [hr, e', takeWhile_stops]
      have : ¬ (line ++ t).length < maxToken := by
        rw [List.length_append]
        unfold maxToken
        omega
      rw [List.takeWhile_cons, if_neg (by simpa using this)]
    unfold splitDocs
    rw [hs]
  · obtain ⟨t, ls, e⟩ := rawLinesAux_head suffix [46, 46, 46] (by simp)
    have e' : rawLines ([46, 46, 46] ++ suffix) = ([46, 46, 46] ++ t) :: ls := by
      unfold rawLines
      rw [rawLinesAux_line [46, 46, 46] suffix (by decide) [], List.nil_append, e]
    unfold splitDocs scanLines
    rw [hr, e']
    by_cases hall : ∀ l ∈ rawLines front, l.length < maxToken
    · have h1 : (rawLines front).takeWhile (fun l => decide (l.length < maxToken)) = rawLines front :=
        List.takeWhile_eq_self_iff.2 (by simpa using hall)
      have hne : rawLines front ≠ [] := by
        intro hn
        have := (rawLines_isLines front).2
        rw [hn] at this
        rcases this with h | ⟨h, _⟩
        · exact hf h.symm
        · simp [unlines] at h
      rw [List.takeWhile_append_of_pos (by simpa using hall), h1, List.map_append, List.takeWhile_cons]
      split
      · rw [List.map_cons]
        refine splitLoop_term _ _ _ ?_ _ (.inr (by simpa using hne))
        have hdrop : ∃ t', dropCR ([46, 46, 46] ++ t) = [46, 46, 46] ++ t' := by
          unfold dropCR
          split
          · rename_i hcr
            rcases t.eq_nil_or_concat with rfl | ⟨t', x, rfl⟩
            · exact absurd hcr (by decide)
            · exact ⟨t', by rw [List.concat_eq_append, ← List.append_assoc, List.dropLast_concat]⟩
          · exact ⟨t, rfl⟩
        obtain ⟨t', ht'⟩ := hdrop
        rw [ht']
        exact (isTerminator_iff _).2 ⟨t', rfl⟩
      · simp
    · push Not at hall
      obtain ⟨l, hl, hlen⟩ := hall
      obtain ⟨a, b, hab⟩ := List.append_of_mem hl
      have : ∀ more : List Bytes, (rawLines front ++ more).takeWhile (fun l => decide (l.length < maxToken)) =
          a.takeWhile (fun l => decide (l.length < maxToken)) := by
        intro more
        rw [hab, List.append_assoc]
        refine takeWhile_stops _ _ _ ?_
        rw [List.cons_append, List.takeWhile_cons, if_neg (by simpa using hlen)]
      rw [this, ← List.append_nil (rawLines front), this]

/-- C110: parsing, signing and verifying see the visible part only, and report nothing. -/
theorem C110_unseen (Y : SigLib) (mac : Mac) (front rest key hex : Bytes) (h : Unseen front rest) :
    parseRawBytes Y.toYamlLib (front ++ rest) = parseRawBytes Y.toYamlLib front ∧
    parseBytes Y.toYamlLib (front ++ rest) = parseBytes Y.toYamlLib front ∧
    sign Y mac (front ++ rest) key = sign Y mac front key ∧
    signUpdate Y mac (front ++ rest) key = signUpdate Y mac front key ∧
    verify Y mac (front ++ rest) key = verify Y mac front key ∧
    writeTo Y (front ++ rest) hex = writeTo Y front hex := by
  have h1 : parseRawBytes Y.toYamlLib (front ++ rest) = parseRawBytes Y.toYamlLib front := by
    unfold parseRawBytes parseRawReader
    simp only [C110_documents front rest h]
  refine ⟨h1, ?_, ?_, ?_, ?_, ?_⟩
  · unfold parseBytes parseReader parseRawReader
    simp only [C110_documents front rest h]
  · unfold sign; rw [h1]
  · unfold signUpdate; rw [h1]
  · unfold verify; rw [h1]
  · unfold writeTo; rw [h1]

/-! ### Commands -/

/-- What a command does does not depend on the content of one file. -/
def Blind (name : String) (c : Command) : Prop := ∀ w w', Beside name w w' → SameRun name c w w'

theorem Blind.fail (name e : String) : Blind name (fail e) := fun _ _ h => ⟨rfl, h, .inr ⟨rfl, rfl⟩⟩
theorem Blind.panics (name : String) : Blind name panics := fun _ _ h => ⟨rfl, h, .inr ⟨rfl, rfl⟩⟩

theorem Blind.withResult {α : Type} {name : String} {o : Outcome α} {k : α → Command} (h : ∀ a, Blind name (k a)) :
    Blind name (withResult o k) := by
  match o with
  | none => exact .panics name
  | some (.error e) => exact .fail name e
  | some (.ok a) => exact h a

theorem Blind.writeFile (X : CliLib) (name : String) (b : Bytes) : Blind name (writeFile X name b) := by
  intro w w' h
  unfold SameRun Cli.writeFile
  split
  · refine ⟨rfl, ⟨fun n hn => ?_, h.stdout, h.stderr⟩, .inl ?_⟩
    · simp [GoMap.get?_set, hn, h.others n hn]
    · simp [GoMap.get?_set]
  · exact ⟨rfl, h, .inr ⟨rfl, rfl⟩⟩

theorem Blind.toStderr (name : String) (b : Bytes) : Blind name (toStderr b) := fun _ _ h =>
  ⟨rfl, ⟨h.others, h.stdout, congrArg (· ++ b) h.stderr⟩, .inr ⟨rfl, rfl⟩⟩

theorem Blind.toStdout (name : String) (b : Bytes) :
    Blind name (fun w => (some (.ok ()), { w with stdout := w.stdout ++ b })) := fun _ _ h =>
  ⟨rfl, ⟨h.others, congrArg (· ++ b) h.stdout, h.stderr⟩, .inr ⟨rfl, rfl⟩⟩

theorem Blind.println (name : String) (b : Bytes) : Blind name (println b) := fun _ _ h =>
  ⟨rfl, ⟨h.others, congrArg (· ++ b ++ [10]) h.stdout, h.stderr⟩, .inr ⟨rfl, rfl⟩⟩

theorem Blind.ite {name : String} {P : Prop} [Decidable P] {c d : Command} (hc : Blind name c) (hd : Blind name d) :
    Blind name (if P then c else d) := by split <;> assumption

theorem sameRun_file {name : String} {k : Bytes → Command} {w w' : World} {d d' : Bytes}
    (hd : w.files.get? name = some d) (hd' : w'.files.get? name = some d') (hk : k d = k d')
    (hb : Blind name (k d')) (h : Beside name w w') : SameRun name (withFile name k) w w' := by
  have e : withFile name k w = k d' w := by unfold withFile; rw [hd, ← hk]
  have e' : withFile name k w' = k d' w' := by unfold withFile; rw [hd']
  unfold SameRun
  rw [e, e']
  exact hb w w' h

/-- C110: every command but convert does the same to a file and to its visible part. -/
theorem C110_commands (X : CliLib) (fl : Flags) (cf : CompileFlags) (key name : String) (w w' : World)
    (front rest : Bytes) (h : Unseen front rest) (hd : w.files.get? name = some (front ++ rest))
    (hd' : w'.files.get? name = some front) (hw : Beside name w w') :
    SameRun name (runFormat X fl name) w w' ∧ SameRun name (runLint X fl name) w w' ∧
    SameRun name (runSign X fl key name) w w' ∧ SameRun name (runVerify X key name) w w' ∧
    SameRun name (runCompile X cf name) w w' := by
  obtain ⟨-, hp, hs, hu, hv, -⟩ := C110_unseen X.sig X.mac front rest (utf8 key) [] h
  unfold parseBytes at hp
  refine ⟨?_, ?_, ?_, ?_, ?_⟩
  · exact sameRun_file hd hd' (by simp only [hp])
      (.withResult fun m => .withResult fun b => .ite (.writeFile X name b) (.toStderr name b)) hw
  · exact sameRun_file hd hd' (by simp only [hp])
      (.withResult fun m => .withResult fun b => fun _ _ h => ⟨rfl, h, .inr ⟨rfl, rfl⟩⟩) hw
  · exact sameRun_file hd hd' (by simp only [hs, hu])
      (.ite (.withResult fun b => .writeFile X name b) (.withResult fun b => .println name b)) hw
  · exact sameRun_file hd hd' (by simp only [hv])
      (.withResult fun b => .ite (.println name _) (.fail name _)) hw
  · exact sameRun_file hd hd' (by simp only [hp])
      (.withResult fun m => .withResult fun b => .toStdout name _) hw

/-- C110: formatting or signing a file in place succeeds and drops what is not seen: the file is
what it would be without. -/
theorem C110_saved (X : CliLib) (fl : Flags) (key name : String) (w w1 : World)
    (front rest : Bytes) (h : Unseen front rest) (hd : w.files.get? name = some (front ++ rest)) :
    (fl.formatSave = true → runFormat X fl name w = (some (.ok ()), w1) →
      ∃ w2, runFormat X fl name { w with files := w.files.set name front } = (some (.ok ()), w2) ∧
        w1.files.get? name = w2.files.get? name) ∧
    (fl.signSave = true → runSign X fl key name w = (some (.ok ()), w1) →
      ∃ w2, runSign X fl key name { w with files := w.files.set name front } = (some (.ok ()), w2) ∧
        w1.files.get? name = w2.files.get? name) := by
  have hb : Beside name w { w with files := w.files.set name front } :=
    ⟨fun n hn => by simp [GoMap.get?_set, hn], rfl, rfl⟩
  have hd' : ({ w with files := w.files.set name front } : World).files.get? name = some front := by
    simp [GoMap.get?_set]
  obtain ⟨hf, -, hs, -⟩ := C110_commands X fl {} key name w _ front rest h hd hd' hb
  constructor
  · intro hsave hrun
    generalize he : runFormat X fl name { w with files := w.files.set name front } = r at *
    obtain ⟨o, w2⟩ := r
    unfold SameRun at hf
    rw [hrun, he] at hf
    obtain ⟨h1, -, -⟩ := hf
    dsimp only at h1
    subst h1
    refine ⟨w2, rfl, ?_⟩
    obtain ⟨d, m, b, e1, e2, e3, e4, -⟩ := C65_format X fl name w w1 hrun
    obtain ⟨d', m', b', e1', e2', e3', e4', -⟩ := C65_format X fl name _ w2 he
    rw [hd] at e1
    rw [hd'] at e1'
    cases e1
    cases e1'
    have hp := (C110_unseen X.sig X.mac front rest [] [] h).2.1
    unfold parseBytes at hp
    rw [hp, e2'] at e2
    rw [Except.ok.inj e2] at e3'
    rw [e3] at e3'
    rw [(e4 hsave).content, (e4' hsave).content, Option.some.inj e3']
  · intro hsave hrun
    generalize he : runSign X fl key name { w with files := w.files.set name front } = r at *
    obtain ⟨o, w2⟩ := r
    unfold SameRun at hs
    rw [hrun, he] at hs
    obtain ⟨h1, -, -⟩ := hs
    dsimp only at h1
    subst h1
    refine ⟨w2, rfl, ?_⟩
    obtain ⟨d, e1, hk⟩ := withFile_ok hrun
    obtain ⟨d', e1', hk'⟩ := withFile_ok he
    rw [hd] at e1
    rw [hd'] at e1'
    cases e1
    cases e1'
    rw [if_pos hsave] at hk hk'
    have hu := (C110_unseen X.sig X.mac front rest (utf8 key) [] h).2.2.2.1
    rw [hu] at hk
    obtain ⟨b, f1, f2⟩ := withResult_ok hk
    obtain ⟨b', f1', f2'⟩ := withResult_ok hk'
    rw [f1] at f1'
    cases f1'
    rw [(writeFile_ok f2).content, (writeFile_ok f2').content]

/-- A signed file, and a step behind a long line: the signature is still the right one. -/
example : Unseen (utf8 "kind: pipeline\n---\nkind: signature\nhmac: 00\n")
    (35 :: List.replicate 65535 35 ++ utf8 "\n---\nkind: pipeline\nname: hidden\n") where
  newline := .inr (by decide +kernel)
  hidden := .inl ⟨35 :: List.replicate 65535 35, _, rfl, by
    simp only [List.mem_cons, List.mem_replicate]
    decide, by rw [List.length_cons, List.length_replicate]⟩

example : Unseen (utf8 "kind: pipeline\n") (utf8 "... the end\nkind: secret\n") where
  newline := .inr (by decide +kernel)
  hidden := .inr ⟨by decide +kernel, by decide +kernel⟩

/-! ### Printed manifests -/

/-- C110: a printed manifest with a long line is read up to that line: the documents before, the
beginning of its own document, and nothing else. -/
theorem C110_printed (L : Pretty.PrettyLib) (m : Manifest) (text : Bytes) (h : Pretty.print L m = some text)
    (hcr : Spec.NoCRData m) :
    ∃ bodies : List (List Bytes),
      List.Forall₂ (fun r b => Pretty.print L ⟨[r]⟩ = some ([45, 45, 45, 10] ++ unlines b ++ [46, 46, 46, 10]))
        (Spec.printable m) bodies ∧ (∀ b ∈ bodies, ∀ l ∈ b, (10 : UInt8) ∉ l) ∧
      ∀ before start long stop after, bodies = before ++ (start ++ long :: stop) :: after →
        (∀ b ∈ before, ∀ l ∈ b, l.length < 65536) → (∀ l ∈ start, l.length < 65536) → 65536 ≤ long.length →
        splitDocs text = before.map unlines ++ [unlines start] := by
  unfold Pretty.print at h
  obtain ⟨w', hw, ht⟩ := Option.map_eq_some_iff.1 h
  obtain ⟨bs, rfl, h2, h3⟩ := printLoop_lines (C := True) L m.resources [] w' (fun s hs _ => hcr s hs) hw
  have htext : text = unlines (blockLines bs ++ [[46, 46, 46]]) := by
    rw [← ht, unlines_append]
    simp [Pretty.Writer.pre, Pretty.Writer.str, Pretty.Writer.bytes, utf8, String.utf8EncodeChar, unlines]
  refine ⟨bs, ?_, fun b hb l hl => (h3 b hb l hl).1, ?_⟩
  · refine h2.imp fun r b hb => ?_
    unfold Pretty.print Pretty.printLoop
    rw [hb]
    simp [Pretty.printLoop, Pretty.Writer.pre, Pretty.Writer.str, Pretty.Writer.bytes, utf8, String.utf8EncodeChar]
  · rintro before start long stop after rfl hbef hst hlong
    have e : text = unlines (blockLines (before ++ [start]) ++ []) ++
        (long ++ unlines ([] :: (stop ++ blockLines after ++ [[46, 46, 46]]))) := by
      rw [htext]
      simp [blockLines, unlines]
    have hgood : ∀ b ∈ before ++ [start], ∀ l ∈ b, GoodLine l := by
      intro b hb l hl
      have hm : ∃ b' ∈ before ++ (start ++ long :: stop) :: after, l ∈ b' := by
        rcases List.mem_append.1 hb with hb | hb
        · exact ⟨b, List.mem_append_left _ hb, hl⟩
        · rw [List.mem_singleton.1 hb] at hl
          exact ⟨_, List.mem_append_right _ List.mem_cons_self, List.mem_append_left _ hl⟩
      have hlt : l.length < 65536 := by
        rcases List.mem_append.1 hb with hb | hb
        · exact hbef b hb l hl
        · rw [List.mem_singleton.1 hb] at hl
          exact hst l hl
      obtain ⟨b', hb', hl'⟩ := hm
      obtain ⟨a1, a2, a3⟩ := h3 b' hb' l hl'
      exact ⟨a1, hlt, not_cr_last (a3 trivial), a2.not_sep, a2.not_term⟩
    have hnl : (10 : UInt8) ∉ long :=
      (h3 _ (List.mem_append_right _ List.mem_cons_self) long (List.mem_append_right _ List.mem_cons_self)).1
    rw [e, C110_documents _ _ ⟨.inr ?_, .inl ⟨long, _, rfl, hnl, hlong⟩⟩, splitDocs_blocks _ [] hgood (by simp) (.inl rfl)]
    · simp
    · rw [List.append_nil]
      have : unlines (blockLines (before ++ [start])) ≠ [] := by simp [blockLines, unlines]
      generalize blockLines (before ++ [start]) = ls at this
      rcases ls.eq_nil_or_concat with rfl | ⟨ls', x, rfl⟩
      · exact absurd rfl this
      · rw [List.concat_eq_append, unlines_append]
        simp [unlines]

theorem forall₂_split {α β : Type} {R : α → β → Prop} : ∀ {a a' : List α} {b : List β}, List.Forall₂ R (a ++ a') b →
    ∃ c c', b = c ++ c' ∧ List.Forall₂ R a c ∧ List.Forall₂ R a' c'
  | [], _, b, h => ⟨[], b, rfl, .nil, h⟩
  | _ :: _, _, _, .cons h t =>
    let ⟨c, c', e, h1, h2⟩ := forall₂_split t
    ⟨_ :: c, c', congrArg _ e, .cons h h1, h2⟩

/-- C110: if a resource is printed with a long line, all resources after it are lost when the
printed text is parsed, whatever the YAML library does. -/
theorem C110_lost (L : Pretty.PrettyLib) (Y : YamlLib) (m m' : Manifest) (text : Bytes)
    (h : Pretty.print L m = some text) (hcr : Spec.NoCRData m) (before after : List Resource) (r : Resource)
    (hm : Spec.printable m = before ++ r :: after)
    (hshort : ∀ x ∈ before, ∀ t ls, Pretty.print L ⟨[x]⟩ = some t → IsLines t ls → ∀ l ∈ ls, l.length < 65536)
    (hlong : ∀ t ls, Pretty.print L ⟨[r]⟩ = some t → IsLines t ls → ∃ l ∈ ls, 65536 ≤ l.length)
    (hp : parseBytes Y text = .ok m') : m'.resources.length = before.length + 1 := by
  obtain ⟨bodies, hb, hnl, hcut⟩ := C110_printed L m text h hcr
  rw [hm] at hb
  obtain ⟨bs1, bs2, rfl, h1, h2⟩ := forall₂_split hb
  obtain ⟨b, bs3, hr, -, rfl⟩ := List.forall₂_cons_left_iff.1 h2
  have lines : ∀ x ∈ bs1 ++ b :: bs3, IsLines ([45, 45, 45, 10] ++ unlines x ++ [46, 46, 46, 10])
      ([45, 45, 45] :: x ++ [[46, 46, 46]]) := by
    intro x hx
    refine ⟨?_, .inl (by simp [unlines])⟩
    intro l hl
    simp only [List.cons_append, List.mem_cons, List.mem_append, List.not_mem_nil, or_false] at hl
    rcases hl with rfl | hl | rfl
    · decide
    · exact hnl x hx l hl
    · decide
  have hbef : ∀ x ∈ bs1, ∀ l ∈ x, l.length < 65536 := by
    intro x hx l hl
    obtain ⟨i, hi, rfl⟩ := List.getElem_of_mem hx
    have hi' : i < before.length := by rw [h1.length_eq]; exact hi
    have := (List.forall₂_iff_get.1 h1).2 i hi' hi
    refine hshort _ (List.getElem_mem hi') _ _ this (lines _ (List.mem_append_left _ hx)) l ?_
    exact List.mem_append_left _ (List.mem_cons_of_mem _ hl)
  obtain ⟨l, hl, hlen⟩ := hlong _ _ hr (lines b (List.mem_append_right _ List.mem_cons_self))
  have hlb : ∃ l ∈ b, 65536 ≤ l.length := by
    simp only [List.cons_append, List.mem_cons, List.mem_append, List.not_mem_nil, or_false] at hl
    rcases hl with rfl | hl | rfl
    · simp at hlen
    · exact ⟨l, hl, hlen⟩
    · simp at hlen
  obtain ⟨start, long, stop, hsplit, hst, hlg⟩ : ∃ start long stop, b = start ++ long :: stop ∧
      (∀ l ∈ start, l.length < 65536) ∧ 65536 ≤ long.length := by
    clear hcut hb lines hnl h2 hr hl hlen
    induction b with
    | nil => obtain ⟨l, hl, -⟩ := hlb; cases hl
    | cons x xs ih =>
      by_cases hx : x.length < 65536
      · have : ∃ l ∈ xs, 65536 ≤ l.length := by
          obtain ⟨l, hl, hlen⟩ := hlb
          rcases List.mem_cons.1 hl with rfl | hl
          · omega
          · exact ⟨l, hl, hlen⟩
        obtain ⟨start, long, stop, rfl, a, b⟩ := ih this
        exact ⟨x :: start, long, stop, rfl, by
          intro l hl
          rcases List.mem_cons.1 hl with rfl | hl
          · exact hx
          · exact a l hl, b⟩
      · exact ⟨[], x, xs, rfl, nofun, by omega⟩
  have hd := hcut bs1 start long stop bs3 (by rw [hsplit]) hbef hst hlg
  have hlen := ((C03_parse_all_or_nothing Y text m').1 hp).length_eq
  rw [hd, List.length_append, List.length_map, ← h1.length_eq] at hlen
  exact hlen.symm

/-- Letters are printed as they are. -/
theorem encode_letters (L : Pretty.PrettyLib) (n : Nat) :
    Pretty.encode L (String.ofList (List.replicate (n + 1) 'a')) = String.ofList (List.replicate (n + 1) 'a') := by
  have hq : ∀ (m : Nat) (c : Char), Pretty.needsQuote c (List.replicate m 'a') = false := by
    intro m
    induction m with
    | zero => intro c; rfl
    | succ m ih =>
      intro c
      rw [List.replicate_succ, Pretty.needsQuote, if_neg (by decide), if_neg (by simp), if_neg (by simp), ih]
  have hd : ∀ m : Nat, (List.replicate (m + 1) 'a').dropWhile Pretty.isSpace = List.replicate (m + 1) 'a' := by
    intro m
    rw [List.replicate_succ, List.dropWhile_cons_of_neg (by decide)]
  have ht : Pretty.trimSpace (List.replicate (n + 1) 'a') = List.replicate (n + 1) 'a' := by
    unfold Pretty.trimSpace
    rw [hd, List.reverse_replicate, hd, List.reverse_replicate]
  have h1 : Pretty.isQuoted (List.replicate (n + 1) 'a') = false := by
    unfold Pretty.isQuoted
    simp only [ht, List.length_replicate, Nat.add_eq_zero_iff, one_ne_zero, and_false, if_false, ne_eq,
      not_true_eq_false, hq]
    have h0 : (List.replicate (n + 1) 'a').getD 0 '\x00' = 'a' := rfl
    rw [h0, if_neg (by decide), if_neg (by simp), if_neg (by simp), List.getLast?_replicate]
    simp
  unfold Pretty.encode
  rw [String.toList_ofList, h1]
  simp

/-- A manifest with a long signature and a pipeline after it. -/
def exLongSig : Signature := { kind := "signature", hmac := String.ofList (List.replicate 65536 'a') }
def exLong : Manifest := ⟨[.cron { kind := "cron" }, .signature exLongSig, .pipeline { kind := "pipeline" }]⟩

theorem letters_text (L : Pretty.PrettyLib) (n : Nat) :
    Pretty.print L ⟨[.signature { kind := "signature", hmac := String.ofList (List.replicate (n + 1) 'a') }]⟩ =
    some (utf8 "---\nkind: signature\nhmac: " ++ List.replicate (n + 1) 97 ++ utf8 "\n\n...\n") := by
  have hu : ∀ m, utf8 (String.ofList (List.replicate m 'a')) = List.replicate m 97 := by
    intro m
    unfold utf8
    rw [String.toList_ofList]
    induction m with
    | zero => rfl
    | succ n ih => rw [List.replicate_succ, List.replicate_succ, List.flatMap_cons, ih]; rfl
  have he := encode_letters L n
  have hz : Pretty.isZero (.val (.str (String.ofList (List.replicate (n + 1) 'a')))) = false := by
    simp [Pretty.isZero, Pretty.isZeroValue]
  have hk : Pretty.encode L "kind" = "kind" := rfl
  have hh : Pretty.encode L "hmac" = "hmac" := rfl
  have hs : Pretty.encode L "signature" = "signature" := rfl
  have hu := hu (n + 1)
  generalize String.ofList (List.replicate (n + 1) 'a') = s at *
  have z1 : Pretty.isZero (.val (.str "")) = true := rfl
  have z2 : Pretty.isZero (.val (.str "signature")) = false := rfl
  have p : ∀ s, Pretty.isPrimative (.val (.str s)) = true := fun _ => rfl
  simp only [Pretty.print, Pretty.printLoop, Pretty.printResource, Pretty.printSignature, Pretty.tagStr,
    Pretty.writeTagValue, Pretty.writeTag, Pretty.writeEncode, Pretty.writeValue, Pretty.writeVal, z1, z2, hz, p,
    Pretty.Writer.str, Pretty.Writer.bytes, Pretty.Writer.indent, Pretty.Writer.padding, he, hk, hh, hs, hu,
    Option.bind_some, Option.map_some]
  simp [utf8, String.utf8EncodeChar]

theorem exLong_long (L : Pretty.PrettyLib) (t : Bytes) (ls : List Bytes)
    (h : Pretty.print L ⟨[.signature exLongSig]⟩ = some t) (hl : IsLines t ls) : ∃ l ∈ ls, 65536 ≤ l.length := by
  have e := h.symm.trans (letters_text L 65535)
  have hr := rawLines_eq hl
  have e2 : t = utf8 "---\nkind: signature\n" ++ (utf8 "hmac: " ++ List.replicate 65536 97 ++ utf8 "\n\n...\n") := by
    rw [Option.some.inj e]
    have h0 : utf8 "---\nkind: signature\nhmac: " = utf8 "---\nkind: signature\n" ++ utf8 "hmac: " := by decide +kernel
    rw [h0]
    simp only [List.append_assoc]
  have hnl : (10 : UInt8) ∉ utf8 "hmac: " ++ List.replicate 65536 97 := by
    rw [List.mem_append, List.mem_replicate]
    decide
  obtain ⟨t', ls', e3⟩ := rawLinesAux_head (utf8 "\n\n...\n") (utf8 "hmac: " ++ List.replicate 65536 97) (by
    intro hn
    have := congrArg List.length hn
    rw [List.length_append, List.length_replicate, List.length_nil] at this
    omega)
  rw [← hr, e2, rawLines_newline (.inr (by decide +kernel))]
  refine ⟨_, List.mem_append_right _ (?_ : (utf8 "hmac: " ++ List.replicate 65536 97) ++ t' ∈ _), ?_⟩
  · unfold rawLines
    rw [rawLinesAux_line _ _ hnl [], List.nil_append, e3]
    exact List.mem_cons_self
  · rw [List.length_append, List.length_append, List.length_replicate]
    omega

/-- Formatting this manifest and reading it again loses the pipeline. -/
example (text : Bytes) (m' : Manifest) (h : Pretty.print exPretty exLong = some text)
    (hp : parseBytes exYaml text = .ok m') : m'.resources.length = 2 := by
  refine C110_lost exPretty exYaml exLong m' text h (by simp [Spec.NoCRData, exLong]) [.cron { kind := "cron" }]
    [.pipeline { kind := "pipeline" }] (.signature exLongSig) rfl ?_ (exLong_long exPretty) hp
  intro x hx t ls ht hl
  rw [List.mem_singleton.1 hx] at ht
  have h0 : (Pretty.print exPretty ⟨[.cron { kind := "cron" }]⟩).map
      (fun t => (rawLines t).all (fun l => decide (l.length < 65536))) = some true := by
    decide +kernel
  rw [ht] at h0
  rw [← rawLines_eq hl]
  simpa using h0

end Drone
