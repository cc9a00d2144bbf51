import Verif.Spec.Scanner
import Verif.Props.LongLines
/-
C116: parsing from a reader or a file (/repo/yaml/parse.go:31-54, 71-78, 100-140, 160-167).
-/
namespace Drone
open Spec Scan

namespace Scan

theorem scanLines_line {l more : Bytes} (h : LF ∉ l) (hl : l.length < maxToken) :
    scanLines (l ++ LF :: more) = dropCR l :: scanLines more := by
  have h1 : rawLines (l ++ LF :: more) = l :: rawLines more := by
    unfold rawLines
    rw [rawLinesAux_line l _ h []]
    simp [rawLinesAux]
  unfold scanLines
  rw [h1, List.takeWhile_cons_of_pos (by simpa using hl)]
  rfl

theorem scanLines_last {l : Bytes} (h : LF ∉ l) (hl : l.length < maxToken) (hne : l ≠ []) : scanLines l = [dropCR l] := by
  have h1 : rawLines l = [l] := by
    unfold rawLines
    have := rawLinesAux_line l [] h []
    simp only [List.append_nil, List.nil_append] at this
    rw [this]
    simp [rawLinesAux, hne]
  unfold scanLines
  rw [h1, List.takeWhile_cons_of_pos (by simpa using hl)]
  rfl

theorem scanLines_long {l : Bytes} (more : Bytes) (h : LF ∉ l) (hl : maxToken ≤ l.length) : scanLines (l ++ more) = [] := by
  have hne : l ≠ [] := by
    rintro rfl
    simp [maxToken] at hl
  unfold scanLines rawLines
  rw [rawLinesAux_line l _ h [], List.nil_append]
  obtain ⟨tail, ls, e⟩ := rawLinesAux_head more l hne
  rw [e, List.takeWhile_cons_of_neg (by simp; omega)]
  rfl

theorem takeWhile_split {data : Bytes} (h : LF ∈ data) :
    ∃ more, data = data.takeWhile (· ≠ LF) ++ LF :: more ∧ data.drop ((data.takeWhile (· ≠ LF)).length + 1) = more ∧
      LF ∉ data.takeWhile (· ≠ LF) := by
  induction data with
  | nil => cases h
  | cons b bs ih =>
    by_cases hb : b = LF
    · subst hb
      exact ⟨bs, by simp, by simp, by simp⟩
    · have hm : LF ∈ bs := by
        rcases List.mem_cons.1 h with e | h
        · exact absurd e.symm hb
        · exact h
      obtain ⟨more, e1, e2, e3⟩ := ih hm
      refine ⟨more, ?_, ?_, ?_⟩
      · rw [List.takeWhile_cons_of_pos (by simpa using hb), List.cons_append, ← e1]
      · rw [List.takeWhile_cons_of_pos (by simpa using hb)]
        exact e2
      · rw [List.takeWhile_cons_of_pos (by simpa using hb)]
        intro h'
        rcases List.mem_cons.1 h' with e | h'
        · exact hb e.symm
        · exact e3 h'

section
variable {σ : Type} {R : Source σ} {content : σ → Bytes} {left idle : σ → Nat}

/-- What is still to come: the pending bytes, and the content of the reader unless it is finished. -/
def remaining (content : σ → Bytes) (sc : Scanner σ) : Bytes :=
  sc.pending ++ if sc.err.isSome then [] else content sc.src

/-- The buffer is large enough for what is in it, and not too large. -/
structure Sound (R : Source σ) (sc : Scanner σ) : Prop where
  room : sc.start + sc.pending.length ≤ sc.size
  limit : sc.size ≤ maxToken
  ended : Separately R → sc.err.isSome → sc.pending.length < maxToken

theorem readSome_holds (H : Holds R maxEmpty content left idle) {n : Nat} (hn : 0 < n) : ∀ (tries : Nat) (s : σ), idle s < tries →
    (readSome R n tries s).1.length ≤ n ∧
    content s = (readSome R n tries s).1 ++ (if (readSome R n tries s).2.1.isSome then [] else content (readSome R n tries s).2.2) ∧
    ((readSome R n tries s).2.1 = none → left (readSome R n tries s).2.2 < left s) ∧
    (Separately R → (readSome R n tries s).2.1.isSome → (readSome R n tries s).1 = []) := by
  intro tries
  induction tries with
  | zero => intro s h; omega
  | succ tries ih =>
    intro s h
    have hf := H.fits s n
    rcases hr : R.read s n with ⟨b, e, s'⟩
    rw [hr] at hf
    unfold readSome
    rw [hr]
    cases e with
    | some e =>
      have := H.last s n b e s' hn hr
      simp only [Option.isSome_some, if_true, List.append_nil, reduceCtorEq, IsEmpty.forall_iff, true_and]
      exact ⟨hf, this, fun hp _ => hp _ _ _ _ _ hr⟩
    | none =>
      obtain ⟨h1, h2⟩ := H.more s n b s' hn hr
      cases b with
      | nil =>
        have h3 := H.nothing s n s' hn hr
        obtain ⟨a1, a2, a3, a4⟩ := ih s' (by omega)
        simp only [List.nil_append] at h1
        exact ⟨a1, h1 ▸ a2, fun h => lt_trans (a3 h) h2, a4⟩
      | cons x xs =>
        simp only [Option.isSome_none, Bool.false_eq_true, if_false]
        exact ⟨hf, h1, fun _ => h2, fun _ h => (by cases h)⟩

theorem shift_sound {sc : Scanner σ} (h : Sound R sc) : Sound R (shift sc) := by
  unfold shift
  split
  · exact ⟨by have := h.room; simp only; omega, h.limit, h.ended⟩
  · exact h

theorem shift_pending (sc : Scanner σ) :
    (shift sc).pending = sc.pending ∧ (shift sc).src = sc.src ∧ (shift sc).err = sc.err ∧ (shift sc).size = sc.size := by
  unfold shift
  split <;> exact ⟨rfl, rfl, rfl, rfl⟩

/-- A buffer that is full after shifting is full of pending bytes. -/
theorem shift_full {sc : Scanner σ} (h : (shift sc).start + (shift sc).pending.length = (shift sc).size) (hs : Sound R sc) :
    sc.pending.length = sc.size := by
  have := hs.room
  unfold shift at h
  split at h
  · rename_i hc
    simp only at h
    omega
  · rename_i hc
    simp only [not_and_or, not_or, Nat.not_lt, Nat.le_zero] at hc
    rcases hc with hc | hc
    · omega
    · exact absurd h hc.1

theorem grow_some {sc sc' : Scanner σ} (h : grow sc = some sc') (hs : Sound R sc) :
    Sound R sc' ∧ sc'.start + sc'.pending.length < sc'.size ∧ sc'.pending = sc.pending ∧ sc'.src = sc.src ∧ sc'.err = sc.err := by
  have hr := hs.room
  have hl := hs.limit
  unfold grow at h
  by_cases hc : sc.start + sc.pending.length = sc.size
  · rw [if_pos hc] at h
    by_cases hm : maxToken ≤ sc.size
    · rw [if_pos hm] at h
      cases h
    · rw [if_neg hm] at h
      cases h
      have hb : sc.pending.length ≤ sc.size := by omega
      refine ⟨⟨?_, ?_, hs.ended⟩, ?_, rfl, rfl, rfl⟩ <;> simp only <;> unfold maxToken startSize at * <;> split <;> split <;> omega
  · rw [if_neg hc] at h
    cases h
    exact ⟨hs, by omega, rfl, rfl, rfl⟩

theorem grow_none {sc : Scanner σ} (h : grow sc = none) : sc.start + sc.pending.length = sc.size ∧ maxToken ≤ sc.size := by
  unfold grow at h
  by_cases hc : sc.start + sc.pending.length = sc.size
  · rw [if_pos hc] at h
    by_cases hm : maxToken ≤ sc.size
    · exact ⟨hc, hm⟩
    · rw [if_neg hm] at h
      cases h
  · rw [if_neg hc] at h
    cases h

theorem fill_none {sc : Scanner σ} (h : fill R sc = none) (hs : Sound R sc) : maxToken ≤ sc.pending.length := by
  unfold fill at h
  cases hg : grow (shift sc) with
  | none =>
    obtain ⟨h1, h2⟩ := grow_none hg
    rw [shift_full h1 hs]
    exact (shift_pending sc).2.2.2 ▸ h2
  | some sc' =>
    rw [hg] at h
    cases h

theorem fill_some (H : Holds R maxEmpty content left idle) {sc sc' : Scanner σ} (h : fill R sc = some sc') (hs : Sound R sc)
    (he : sc.err = none) :
    Sound R sc' ∧ remaining content sc' = remaining content sc ∧ (sc'.err = none → left sc'.src < left sc.src) := by
  unfold fill at h
  cases hg : grow (shift sc) with
  | none =>
    rw [hg] at h
    cases h
  | some s1 =>
    rw [hg] at h
    obtain ⟨g1, g2, g3, g4, g5⟩ := grow_some hg (shift_sound hs)
    obtain ⟨q1, q2, q3, q4⟩ := shift_pending sc
    cases h
    obtain ⟨a1, a2, a3, a4⟩ := readSome_holds H (n := s1.size - (s1.start + s1.pending.length)) (by omega) (maxEmpty + 1) s1.src
      (by have := H.short s1.src; omega)
    have hsrc : s1.src = sc.src := g4.trans q2
    refine ⟨⟨?_, g1.limit, fun hp h => ?_⟩, ?_, fun h => ?_⟩
    · simp only [List.length_append]
      omega
    · simp only at h ⊢
      rw [a4 hp h, List.append_nil]
      have := g1.limit
      omega
    · unfold remaining
      simp only
      rw [List.append_assoc, ← a2, he, g3, q1, hsrc]
      rfl
    · simp only at h ⊢
      rw [← hsrc]
      exact a3 h

/-- One call of `Scan` takes one line. -/
theorem scan_takes (H : Holds R maxEmpty content left idle) : ∀ (rounds : Nat) (sc : Scanner σ), Sound R sc →
    (Separately R ∨ NoEdge (remaining content sc)) →
    (if sc.err.isSome then 0 else left sc.src + 1) < rounds →
    (∃ token sc', scan R rounds sc = some (some (token, sc')) ∧ Sound R sc' ∧ (Separately R ∨ NoEdge (remaining content sc')) ∧
      scanLines (remaining content sc) = token :: scanLines (remaining content sc') ∧
      (remaining content sc').length < (remaining content sc).length ∧
      (if sc'.err.isSome then 0 else left sc'.src + 1) ≤ (if sc.err.isSome then 0 else left sc.src + 1)) ∨
    (scan R rounds sc = some none ∧ scanLines (remaining content sc) = []) := by
  intro rounds
  induction rounds with
  | zero => intro sc _ _ h; omega
  | succ rounds ih =>
    intro sc hs hd hr
    have hlim : sc.pending.length ≤ maxToken := by have := hs.room; have := hs.limit; omega
    unfold scan
    by_cases hlf : LF ∈ sc.pending
    · -- a whole line is there
      obtain ⟨more, e1, e2, e3⟩ := takeWhile_split hlf
      have hne : sc.pending ≠ [] := by rintro e; rw [e] at hlf; cases hlf
      have hsp : splitLine sc.pending sc.err.isSome =
          some ((sc.pending.takeWhile (· ≠ LF)).length + 1, dropCR (sc.pending.takeWhile (· ≠ LF))) := by
        unfold splitLine
        rw [if_neg (fun h => hne h.2), if_pos hlf]
      rw [if_pos (Or.inl hne), hsp]
      have hlen := congrArg List.length e1
      simp only [List.length_append, List.length_cons] at hlen
      refine .inl ⟨_, _, rfl, ⟨?_, hs.limit, fun hp h => ?_⟩, ?_, ?_, ?_, le_refl _⟩
      · simp only [List.length_drop]
        have := hs.room
        omega
      · have := hs.ended hp h
        simp only [List.length_drop]
        omega
      · refine hd.imp id fun hd front l e hf hl => ?_
        refine hd (sc.pending.takeWhile (· ≠ LF) ++ LF :: front) l ?_ ?_ hl
        · unfold remaining at e ⊢
          simp only [e2] at e
          conv_lhs => rw [e1, List.append_assoc, List.cons_append, e]
          simp
        · right
          rcases hf with rfl | hf
          · simp [LF]
          · rw [List.getLast?_append, List.getLast?_cons, hf]
            rfl
      · unfold remaining
        simp only [e2]
        conv_lhs => rw [e1, List.append_assoc, List.cons_append]
        exact scanLines_line e3 (by omega)
      · unfold remaining
        simp only [e2, List.length_append]
        omega
    · by_cases he : sc.err.isSome = true
      · by_cases hp : sc.pending = []
        · -- nothing left
          have hsp : splitLine sc.pending sc.err.isSome = none := by
            unfold splitLine
            rw [if_pos ⟨he, hp⟩]
          rw [if_pos (Or.inr he), hsp]
          simp only [he, if_true]
          refine .inr ⟨trivial, ?_⟩
          simp [remaining, hp, he, scanLines, rawLines, rawLinesAux]
        · -- the last line
          have hsp : splitLine sc.pending sc.err.isSome = some (sc.pending.length, dropCR sc.pending) := by
            unfold splitLine
            rw [if_neg (fun h => hp h.2), if_neg hlf, if_pos he]
          rw [if_pos (Or.inr he), hsp]
          have hrem : remaining content sc = sc.pending := by simp [remaining, he]
          have hlt : sc.pending.length < maxToken := by
            rcases hd with hd | hd
            · exact hs.ended hd he
            · have := hd [] sc.pending (by rw [hrem]; rfl) (.inl rfl) hlf
              unfold maxToken at *
              omega
          have hrem' : remaining content { sc with pending := sc.pending.drop sc.pending.length, start := sc.start + sc.pending.length } = [] := by
            simp [remaining, he]
          refine .inl ⟨_, _, rfl, ⟨?_, hs.limit, fun _ _ => ?_⟩, ?_, ?_, ?_, le_refl _⟩
          · have := hs.room
            simp
            omega
          · simp [maxToken]
          · right
            rw [hrem']
            intro front l e _ _
            have := congrArg List.length e
            simp only [List.length_nil, List.length_append] at this
            omega
          · rw [hrem', hrem, scanLines_last hlf hlt hp]
            rfl
          · rw [hrem', hrem]
            exact List.length_pos_iff.2 hp
      · have he' : sc.err = none := by simpa using he
        have hsp : (if sc.pending ≠ [] ∨ sc.err.isSome = true then splitLine sc.pending sc.err.isSome else none) = none := by
          split
          · unfold splitLine
            rw [if_neg (fun h => he h.1), if_neg hlf, if_neg he]
          · rfl
        rw [hsp]
        simp only [he, if_false, Bool.false_eq_true] at hr ⊢
        cases hf : fill R sc with
        | none =>
          exact .inr ⟨rfl, scanLines_long _ hlf (fill_none hf hs)⟩
        | some s1 =>
          obtain ⟨f1, f2, f3⟩ := fill_some H hf hs he'
          have hb : (if s1.err.isSome = true then 0 else left s1.src + 1) < rounds ∧
              (if s1.err.isSome = true then 0 else left s1.src + 1) ≤ left sc.src + 1 := by
            cases h1 : s1.err with
            | none =>
              have := f3 h1
              simp only [Option.isSome_none, Bool.false_eq_true, if_false]
              omega
            | some e =>
              simp only [Option.isSome_some, if_true]
              omega
          rcases ih s1 f1 (f2 ▸ hd) hb.1 with ⟨t, s2, a1, a2, a2', a3, a4, a5⟩ | ⟨a1, a2⟩
          · refine .inl ⟨t, s2, a1, a2, a2', f2 ▸ a3, f2 ▸ a4, le_trans a5 hb.2⟩
          · exact .inr ⟨a1, f2 ▸ a2⟩

theorem splitLoop_cons (st : SplitState) (line : Bytes) (rest : List Bytes) :
    splitLoop st (line :: rest) = if (addLine st line).2 then (addLine st line).1 else splitLoop (addLine st line).1 rest := by
  rw [splitLoop]
  unfold addLine
  simp only
  split
  · rfl
  · split <;> rfl

theorem readDocs_holds (H : Holds R maxEmpty content left idle) : ∀ (rounds : Nat) (sc : Scanner σ) (st : SplitState), Sound R sc →
    (Separately R ∨ NoEdge (remaining content sc)) →
    (if sc.err.isSome then 0 else left sc.src + 1) + (remaining content sc).length < rounds →
    readDocs R rounds sc st = some (splitLoop st (scanLines (remaining content sc))).docs := by
  intro rounds
  induction rounds with
  | zero => intro sc st _ _ h; omega
  | succ rounds ih =>
    intro sc st hs hd hr
    unfold readDocs
    rcases scan_takes H (rounds + 1) sc hs hd (by omega) with ⟨t, s2, a1, a2, a2', a3, a4, a5⟩ | ⟨a1, a2⟩
    · rw [a1, a3, splitLoop_cons]
      simp only
      rcases ha : addLine st t with ⟨st', b⟩
      cases b with
      | true => simp
      | false =>
        simp only [Bool.false_eq_true, if_false]
        exact ih s2 st' a2 a2' (by omega)
    · rw [a1, a2]
      rfl

end

end Scan

/-- C116: however a reader splits its bytes, and whether it ends with the end of the file or with an
error, `ParseRaw` and `Parse` return, and return what they return for the bytes that were handed out. -/
theorem C116_reader {σ : Type} (Y : YamlLib) (R : Source σ) (content : σ → Bytes) (left idle : σ → Nat)
    (H : Holds R 100 content left idle) (s : σ) (hd : Separately R ∨ NoEdge (content s)) :
    ∃ enough, ∀ rounds, enough ≤ rounds →
      parseRawFrom Y R rounds s = some (parseRawBytes Y (content s)) ∧
      parseFrom Y R rounds s = some (parseBytes Y (content s)) := by
  refine ⟨left s + (content s).length + 2, fun rounds hr => ?_⟩
  have hrem : remaining content { src := s } = content s := rfl
  have := readDocs_holds H rounds { src := s } {} ⟨Nat.zero_le _, Nat.zero_le _, fun _ h => (by cases h)⟩ (by rw [hrem]; exact hd)
    (by rw [hrem]; simp only [Option.isSome_none, Bool.false_eq_true, if_false]; omega)
  rw [hrem] at this
  have h1 : parseRawFrom Y R rounds s = some (parseRawBytes Y (content s)) := by
    unfold parseRawFrom
    rw [this]
    rfl
  refine ⟨h1, ?_⟩
  unfold parseFrom
  rw [h1]
  unfold parseBytes parseReader parseRawBytes
  simp only [Option.map_some]
  cases parseRawReader Y { data := content s } with
  | error e => rfl
  | ok raws => rfl

/-- C116: `ParseFile` and `ParseRawFile` fail if the file cannot be opened; otherwise they return what
they return for the bytes that could be read. -/
theorem C116_file {σ : Type} (Y : YamlLib) (R : Source σ) (content : σ → Bytes) (left idle : σ → Nat)
    (H : Holds R 100 content left idle) (hd : Separately R) (opened : String → Except String σ) (p : String) :
    ∃ enough, ∀ rounds, enough ≤ rounds →
      parseRawFile Y R rounds opened p = some (match opened p with | .error e => .error e | .ok s => parseRawBytes Y (content s)) ∧
      parseFile Y R rounds opened p = some (match opened p with | .error e => .error e | .ok s => parseBytes Y (content s)) := by
  unfold parseRawFile parseFile
  cases opened p with
  | error e => exact ⟨0, fun _ _ => ⟨rfl, rfl⟩⟩
  | ok s => exact C116_reader Y R content left idle H s (.inl hd)

/-! ### Readers that meet the conditions -/

namespace Scan

/-- A reader that hands out pieces as they come, and then an error -/
def pieces (e : ReadErr) : Source (List Bytes) where
  read s n := match s with
    | [] => ([], some e, [])
    | c :: cs => (c.take n, none, if c.length ≤ n then cs else c.drop n :: cs)

/-- How many empty pieces come next -/
def blanks : List Bytes → Nat
  | [] :: cs => blanks cs + 1
  | _ => 0

/-- Not more than a hundred empty pieces in a row -/
def Brisk (s : List Bytes) : Prop := ∀ t, t <:+ s → blanks t ≤ 100

theorem pieces_separately (e : ReadErr) : Separately (pieces e) := by
  intro s n b e' s' h
  cases s with
  | nil => cases h; rfl
  | cons c cs => cases h

/-- The same reader, on the pieces that meet the condition -/
def briskPieces (e : ReadErr) : Source { s : List Bytes // Brisk s } where
  read s n := match s with
    | ⟨[], h⟩ => ([], some e, ⟨[], h⟩)
    | ⟨c :: cs, h⟩ => (c.take n, none, if hc : c.length ≤ n then ⟨cs, fun t ht => h t (ht.trans (List.suffix_cons c cs))⟩
        else ⟨c.drop n :: cs, fun t ht => by
          rcases List.suffix_cons_iff.1 ht with rfl | ht
          · have : c.drop n ≠ [] := by simp; omega
            cases hb : c.drop n with
            | nil => exact absurd hb this
            | cons x xs => simp [blanks]
          · exact h t (ht.trans (List.suffix_cons c cs))⟩)

/-- It meets the conditions of `C116_reader`: its content are the pieces, one after the other. -/
theorem briskPieces_holds (e : ReadErr) :
    Holds (briskPieces e) 100 (fun s => s.1.flatten) (fun s => s.1.length + s.1.flatten.length) (fun s => blanks s.1) ∧
    Separately (briskPieces e) := by
  refine ⟨⟨?_, ?_, ?_, ?_, ?_⟩, ?_⟩
  · rintro ⟨_ | ⟨c, cs⟩, h⟩ n
    · exact Nat.zero_le _
    · exact (List.length_take_le _ _)
  · rintro ⟨_ | ⟨c, cs⟩, h⟩ n b s' hn hr
    · cases hr
    · have h1 := congrArg Prod.fst hr
      have h2 := congrArg (fun r => r.2.2) hr
      simp only [briskPieces] at h1 h2
      subst h1 h2
      by_cases hc : c.length ≤ n
      · rw [dif_pos hc]
        simp only [List.flatten_cons, List.take_of_length_le hc, true_and, List.length_cons, List.length_append]
        omega
      · rw [dif_neg hc]
        simp only [List.flatten_cons, List.length_cons, List.length_append, List.length_drop]
        rw [← List.append_assoc, List.take_append_drop]
        exact ⟨rfl, by omega⟩
  · rintro ⟨_ | ⟨c, cs⟩, h⟩ n b e' s' hn hr
    · have h1 := congrArg Prod.fst hr
      simp only [briskPieces] at h1
      exact h1
    · cases congrArg (fun r => r.2.1) hr
  · rintro ⟨_ | ⟨c, cs⟩, h⟩ n s' hn hr
    · cases congrArg (fun r => r.2.1) hr
    · have h1 := congrArg Prod.fst hr
      have h2 := congrArg (fun r => r.2.2) hr
      simp only [briskPieces] at h1 h2
      subst h2
      have hc : c = [] := by
        rcases List.take_eq_nil_iff.1 h1 with h | h
        · omega
        · exact h
      subst hc
      rw [dif_pos (show ([] : Bytes).length ≤ n from Nat.zero_le _)]
      simp [blanks]
  · exact fun s => s.2 _ List.suffix_rfl
  · rintro ⟨_ | ⟨c, cs⟩, h⟩ n b e' s' hr
    · exact (congrArg Prod.fst hr).symm
    · cases congrArg (fun r => r.2.1) hr

/-- Two documents, handed out in pieces that do not end where the lines end, one of them empty -/
def exPieces : { s : List Bytes // Brisk s } :=
  ⟨[utf8 "kind: sec", [], utf8 "ret\r\n--", utf8 "-\nkind: cron"], fun t ht => by
    have := ht.length_le
    have hb : ∀ l : List Bytes, blanks l ≤ l.length := by
      intro l
      induction l with
      | nil => exact Nat.le_refl 0
      | cons c cs ih => cases c <;> simp [blanks]; omega
    have := hb t
    simp only [List.length_cons, List.length_nil] at *
    omega⟩

example : (briskPieces .eof).read exPieces 4 = (utf8 "kind", none,
    ⟨[utf8 ": sec", [], utf8 "ret\r\n--", utf8 "-\nkind: cron"], ((briskPieces .eof).read exPieces 4).2.2.2⟩) := by
  rfl

example : readDocs (briskPieces .eof) 100 { src := exPieces } {} = some [utf8 "kind: secret\n", utf8 "kind: cron\n"] := by
  decide +kernel

/-- A directory: it can be opened but not read. -/
def directory : Source Unit where
  read _ _ := ([], some (.other "is a directory"), ())

theorem directory_holds : Holds directory 100 (fun _ => []) (fun _ => 0) (fun _ => 0) ∧ Separately directory :=
  ⟨⟨fun _ _ => Nat.zero_le _, fun _ _ _ _ _ h => (by cases h), fun _ _ _ _ _ _ h => (by cases h; rfl),
    fun _ _ _ _ h => (by cases h), fun _ => Nat.zero_le _⟩, fun _ _ _ _ _ h => (by cases h; rfl)⟩

end Scan

/-- C116: the error of a reader is never reported.  What was read before it counts as the whole: a
directory is an empty manifest. -/
theorem C116_silent (Y : YamlLib) (p : String) :
    (∀ (e : ReadErr) (s : { s : List Bytes // Brisk s }), ∃ enough, ∀ rounds, enough ≤ rounds →
      parseFrom Y (briskPieces e) rounds s = some (parseBytes Y s.1.flatten)) ∧
    ∃ enough, ∀ rounds, enough ≤ rounds → parseFile Y directory rounds (fun _ => .ok ()) p = some (.ok {}) := by
  refine ⟨fun e s => ?_, ?_⟩
  · obtain ⟨k, h⟩ := C116_reader Y _ _ _ _ (briskPieces_holds e).1 s (.inl (briskPieces_holds e).2)
    exact ⟨k, fun rounds hr => (h rounds hr).2⟩
  · obtain ⟨k, h⟩ := C116_file Y _ _ _ _ directory_holds.1 directory_holds.2 (fun _ => .ok ()) p
    exact ⟨k, fun rounds hr => (h rounds hr).2⟩

/-- C116: the limit of a hundred empty reads is sharp.  After one more the rest is ignored without
an error. -/
theorem C116_idle : ∃ s : List Bytes, blanks s = 101 ∧ s.flatten = utf8 "kind: cron\n" ∧
    splitDocs s.flatten = [utf8 "kind: cron\n"] ∧ readDocs (pieces .eof) 10 { src := s } {} = some [] :=
  ⟨List.replicate 101 [] ++ [utf8 "kind: cron\n"], by decide +kernel, by decide +kernel, by decide +kernel, by decide +kernel⟩

namespace Scan

/-- A reader that says that this was all together with the last bytes -/
def together : Source Bytes where
  read d n := if d.length ≤ n then (d, some .eof, []) else (d.take n, none, d.drop n)

theorem together_holds : Holds together 100 id List.length (fun _ => 0) := by
  refine ⟨fun d n => ?_, fun d n b s' hn hr => ?_, fun d n b e s' hn hr => ?_, fun d n s' hn hr => ?_, fun _ => Nat.zero_le _⟩
  · unfold together
    by_cases h : d.length ≤ n
    · simp only [h, if_true]
    · simp only [h, if_false]
      exact List.length_take_le _ _
  · unfold together at hr
    by_cases h : d.length ≤ n
    · simp only [h, if_true] at hr
      cases hr
    · simp only [h, if_false] at hr
      cases hr
      simp only [id, List.take_append_drop, List.length_drop, true_and]
      omega
  · unfold together at hr
    by_cases h : d.length ≤ n
    · simp only [h, if_true] at hr
      cases hr
      rfl
    · simp only [h, if_false] at hr
      cases hr
  · unfold together at hr
    by_cases h : d.length ≤ n
    · simp only [h, if_true] at hr
      cases hr
    · simp only [h, if_false] at hr
      rcases List.take_eq_nil_iff.1 (congrArg Prod.fst hr) with h' | h'
      · omega
      · rw [h'] at h
        simp at h

theorem scan_fill {σ : Type} (R : Source σ) (rounds : Nat) (sc : Scanner σ) (h : LF ∉ sc.pending) (he : sc.err = none) :
    scan R (rounds + 1) sc = match fill R sc with | none => some none | some sc => scan R rounds sc := by
  have hsp : (if sc.pending ≠ [] ∨ sc.err.isSome = true then splitLine sc.pending sc.err.isSome else none) = none := by
    rw [he]
    split
    · unfold splitLine
      rw [if_neg (fun h => (by cases h.1)), if_neg h]
      rfl
    · rfl
  rw [scan, hsp, he]
  rfl

/-- The buffer is filled completely and doubled. -/
theorem fill_together (d : Bytes) (k k' : Nat) (hk : k < maxToken) (h2 : k' = if k = 0 then 4096 else k * 2) (hm : k' ≤ maxToken)
    (hd : k' ≤ d.length) :
    fill together { pending := d.take k, start := 0, size := k, err := none, src := d.drop k } =
      some { pending := d.take k', start := 0, size := k',
             err := if d.length ≤ k' then some .eof else none, src := if d.length ≤ k' then [] else d.drop k' } := by
  have hkk : k < k' := by split at h2 <;> omega
  have hl : (d.take k).length = k := by rw [List.length_take]; omega
  have hsh : shift ({ pending := d.take k, start := 0, size := k, err := none, src := d.drop k } : Scanner Bytes) =
      { pending := d.take k, start := 0, size := k, err := none, src := d.drop k } := by
    unfold shift
    rw [if_neg (fun h => absurd h.1 (Nat.lt_irrefl 0))]
  have hsize : (if maxToken < (if k * 2 = 0 then startSize else k * 2) then maxToken else (if k * 2 = 0 then startSize else k * 2)) = k' := by
    have : (if k * 2 = 0 then startSize else k * 2) = k' := by
      rw [h2]
      by_cases h0 : k = 0
      · rw [if_pos h0, if_pos (by omega)]
        rfl
      · rw [if_neg h0, if_neg (by omega)]
    rw [this, if_neg (by omega)]
  have hg : grow ({ pending := d.take k, start := 0, size := k, err := none, src := d.drop k } : Scanner Bytes) =
      some { pending := d.take k, start := 0, size := k', err := none, src := d.drop k } := by
    unfold grow
    simp only [hl, Nat.zero_add, if_true]
    rw [if_neg (by omega), hsize]
  unfold fill
  rw [hsh, hg]
  simp only [hl, Nat.zero_add, Option.some.injEq]
  unfold readSome
  have hr : together.read (d.drop k) (k' - k) = if d.length ≤ k' then (d.drop k, some .eof, []) else
      ((d.drop k).take (k' - k), none, (d.drop k).drop (k' - k)) := by
    unfold together
    simp only [List.length_drop]
    by_cases h : d.length ≤ k'
    · rw [if_pos (by omega), if_pos h]
    · rw [if_neg (by omega), if_neg h]
  rw [hr]
  by_cases h : d.length ≤ k'
  · simp only [h, if_true]
    rw [List.take_append_drop, List.take_of_length_le h]
  · simp only [h, if_false]
    have e1 : (d.drop k).take (k' - k) ≠ [] := by
      intro e
      have := congrArg List.length e
      simp only [List.length_take, List.length_drop, List.length_nil] at this
      omega
    have e2 : d.take k ++ (d.drop k).take (k' - k) = d.take k' := by
      have := List.take_add (l := d) (i := k) (j := k' - k)
      rw [show k + (k' - k) = k' from by omega] at this
      exact this.symm
    have e3 : (d.drop k).drop (k' - k) = d.drop k' := by
      rw [List.drop_drop]
      congr 1
      omega
    rw [← e2, e3]
    cases hc : (d.drop k).take (k' - k) with
    | nil => exact absurd hc e1
    | cons x xs => rfl

theorem scan_together (d : Bytes) (hd : d.length = maxToken) (hn : LF ∉ d) (rounds : Nat) (k k' : Nat) (hk : k < maxToken)
    (h2 : k' = if k = 0 then 4096 else k * 2) (hm : k' ≤ maxToken) :
    scan together (rounds + 1) { pending := d.take k, start := 0, size := k, err := none, src := d.drop k } =
      scan together rounds
        { pending := d.take k', start := 0, size := k',
          err := if d.length ≤ k' then some .eof else none, src := if d.length ≤ k' then [] else d.drop k' } := by
  rw [scan_fill _ _ _ (fun h => hn (List.mem_of_mem_take h)) rfl, fill_together d k k' hk h2 hm (by omega)]

end Scan

/-- C116: the exception in `C116_reader` is needed.  A last line of exactly 65536 bytes is read if the
reader says together with its last bytes that there are no more, and ignored if it says so separately (`C116_reader`). -/
theorem C116_together (d : Bytes) (hd : d.length = 65536) (hn : (10 : UInt8) ∉ d) (hs : isSeparator (dropCR d) = false)
    (ht : isTerminator (dropCR d) = false) :
    readDocs together 8 { src := d } {} = some [dropCR d ++ [10]] ∧ splitDocs d = [] := by
  have h0 : splitDocs d = [] := by
    unfold splitDocs
    have := scanLines_long (l := d) [] hn (Nat.le_of_eq hd.symm)
    rw [List.append_nil] at this
    rw [this]
    rfl
  refine ⟨?_, h0⟩
  · have hne : d ≠ [] := by rintro rfl; cases hd
    have hsc : scan together 8 ({ src := d } : Scanner Bytes) = some (some (dropCR d,
        { pending := [], start := 65536, size := 65536, err := some .eof, src := [] })) := by
      have h1 := scan_together d hd hn 7 0 4096 (by decide) rfl (by decide)
      have h2 := scan_together d hd hn 6 4096 8192 (by decide) rfl (by decide)
      have h3 := scan_together d hd hn 5 8192 16384 (by decide) rfl (by decide)
      have h4 := scan_together d hd hn 4 16384 32768 (by decide) rfl (by decide)
      have h5 := scan_together d hd hn 3 32768 65536 (by decide) rfl (by decide)
      simp only [hd, Nat.reduceLeDiff, if_false, if_true, List.drop_zero, List.take_zero, Nat.le_refl] at h1 h2 h3 h4 h5
      rw [List.take_of_length_le (Nat.le_of_eq hd)] at h5
      refine (h1.trans (h2.trans (h3.trans (h4.trans h5)))).trans ?_
      have hsp : splitLine d true = some (d.length, dropCR d) := by
        unfold splitLine
        rw [if_neg (fun h => hne h.2), if_neg (show LF ∉ d from hn), if_pos rfl]
      rw [scan]
      simp only [Option.isSome_some, or_true, if_true, hsp, hd, Nat.zero_add]
      rw [List.drop_of_length_le (Nat.le_of_eq hd)]
    rw [readDocs, hsc]
    simp only [addLine, hs, ht, Bool.false_eq_true, if_false, List.nil_append, appendLast]
    rfl

theorem edge_exists (n : Nat) : ∃ d : Bytes, d.length = n + 1 ∧ (10 : UInt8) ∉ d ∧ isSeparator (dropCR d) = false ∧
    isTerminator (dropCR d) = false := by
  have : dropCR (97 :: List.replicate n 97) = 97 :: List.replicate n 97 := by
    unfold dropCR
    rw [if_neg]
    rw [show (97 : UInt8) :: List.replicate n 97 = List.replicate n 97 ++ [97] from List.replicate_succ' (n := n)]
    simp [CR]
  exact ⟨97 :: List.replicate n 97, by simp, by simp, by rw [this]; rfl, by rw [this]; rfl⟩

example : ∃ d : Bytes, d.length = 65536 ∧ (10 : UInt8) ∉ d ∧ isSeparator (dropCR d) = false ∧ isTerminator (dropCR d) = false :=
  edge_exists 65535

end Drone
