/- The recognisers of Verif/Model/Image.lean accept exactly the grammar of
Verif/Spec/ImageName.lean. -/
import Verif.Proof.Image
import Verif.Spec.ImageName

namespace Drone
namespace Img
open Spec

theorem alnumL_iff (c : Char) : isAlnumL c = true ↔ LowerOrDigit c := by
  simp [isAlnumL, isLowerC, isDigitC, LowerOrDigit]

theorem alnum_iff (c : Char) : isAlnum c = true ↔ LetterOrDigit c := by
  simp [isAlnum, LetterOrDigit, alnumL_iff, isUpperC]

/-- What follows a run of letters and digits in a component. -/
def CompTail (s : Str) : Prop :=
  ∃ r, (∀ c ∈ r, LowerOrDigit c) ∧
    (s = r ∨ ∃ sep t, Separator sep ∧ Component t ∧ s = r ++ sep ++ t)

theorem CompTail.cons {c : Char} {s : Str} (hc : LowerOrDigit c) (h : CompTail s) :
    Component (c :: s) := by
  obtain ⟨r, hr, h⟩ := h
  have hr' : ∀ x ∈ c :: r, LowerOrDigit x := by
    intro x hx
    rcases List.mem_cons.mp hx with rfl | hx
    · exact hc
    · exact hr x hx
  rcases h with rfl | ⟨sep, t, hs, ht, rfl⟩
  · exact .run _ (by simp) hr'
  · exact .more (c :: r) sep t (by simp) hr' hs ht

theorem CompTail.cons' {c : Char} {s : Str} (hc : LowerOrDigit c) (h : CompTail s) :
    CompTail (c :: s) := by
  obtain ⟨r, hr, h⟩ := h
  refine ⟨c :: r, ?_, ?_⟩
  · intro x hx
    rcases List.mem_cons.mp hx with rfl | hx
    · exact hc
    · exact hr x hx
  · rcases h with rfl | ⟨sep, t, hs, ht, rfl⟩
    · exact .inl rfl
    · exact .inr ⟨sep, t, hs, ht, rfl⟩

/-- What each state of the recogniser accepts. -/
def Accepts : CompState → Str → Prop
  | .start, s => Component s
  | .alnum, s => CompTail s
  | .dot, s => Component s
  | .under, s => Component s ∨ ∃ t, s = '_' :: t ∧ Component t
  | .under2, s => Component s
  | .hyphen, s => ∃ n t, s = List.replicate n '-' ++ t ∧ Component t

theorem run_sound : ∀ (s : Str) (st : CompState), st.run s = true → Accepts st s
  | [], st, h => by
    have : st = .alnum := by simpa [CompState.run] using h
    subst this
    exact ⟨[], by simp, .inl rfl⟩
  | c :: cs, st, h => by
    unfold CompState.run at h
    have ih := run_sound cs
    cases st <;> simp only [CompState.step] at h <;> by_cases hc : isAlnumL c = true <;>
      simp only [hc, if_true, if_false, Bool.false_eq_true] at h
    · exact (ih _ h : CompTail cs).cons ((alnumL_iff c).mp hc)
    · exact (ih _ h : CompTail cs).cons' ((alnumL_iff c).mp hc)
    · by_cases h1 : c = '.'
      · simp only [h1, if_true] at h
        exact ⟨[], by simp, .inr ⟨_, _, .dot, ih _ h, by simp [h1]⟩⟩
      · by_cases h2 : c = '_'
        · simp only [h2, if_true] at h
          rcases ih .under h with h' | ⟨t, rfl, h'⟩
          · exact ⟨[], by simp, .inr ⟨_, _, .under, h', by simp [h2]⟩⟩
          · exact ⟨[], by simp, .inr ⟨_, _, .under2, h', by simp [h2]⟩⟩
        · by_cases h3 : c = '-'
          · simp only [h3, if_true] at h
            obtain ⟨n, t, rfl, h'⟩ := ih .hyphen h
            exact ⟨[], by simp, .inr ⟨_, _, .hyphens n, h', by simp [h3, List.replicate_succ]⟩⟩
          · simp [h1, h2, h3] at h
    · exact (ih _ h : CompTail cs).cons ((alnumL_iff c).mp hc)
    · exact .inl ((ih _ h : CompTail cs).cons ((alnumL_iff c).mp hc))
    · by_cases h2 : c = '_'
      · simp only [h2, if_true] at h
        exact .inr ⟨cs, by rw [h2], ih _ h⟩
      · simp [h2] at h
    · exact (ih _ h : CompTail cs).cons ((alnumL_iff c).mp hc)
    · exact ⟨0, _, rfl, (ih _ h : CompTail cs).cons ((alnumL_iff c).mp hc)⟩
    · by_cases h2 : c = '-'
      · simp only [h2, if_true] at h
        obtain ⟨n, t, rfl, h'⟩ := ih .hyphen h
        exact ⟨n + 1, t, by simp [h2, List.replicate_succ], h'⟩
      · simp [h2] at h

theorem run_alnums (rest : Str) : ∀ (r : Str), (∀ c ∈ r, LowerOrDigit c) →
    CompState.run .alnum (r ++ rest) = CompState.run .alnum rest
  | [], _ => rfl
  | c :: cs, h => by
    have hc := (alnumL_iff c).mpr (h c (by simp))
    rw [List.cons_append, CompState.run]
    simp only [CompState.step, hc, if_true]
    exact run_alnums rest cs (fun x hx => h x (by simp [hx]))

theorem run_first (st : CompState) {r : Str} (rest : Str) (hne : r ≠ [])
    (h : ∀ c ∈ r, LowerOrDigit c) : st.run (r ++ rest) = CompState.run .alnum rest := by
  cases r with
  | nil => exact absurd rfl hne
  | cons c cs =>
    have hc := (alnumL_iff c).mpr (h c (by simp))
    rw [List.cons_append, CompState.run]
    have : st.step c = some .alnum := by cases st <;> simp [CompState.step, hc]
    rw [this]
    exact run_alnums rest cs (fun x hx => h x (by simp [hx]))

/-- A component is accepted from every state. -/
theorem run_complete {s : Str} (h : Component s) : ∀ st : CompState, st.run s = true := by
  induction h with
  | run r hne hr =>
    intro st
    have := run_first st [] hne hr
    rw [List.append_nil] at this
    rw [this]; rfl
  | more r sep t hne hr hs ht ih =>
    intro st
    rw [List.append_assoc, run_first st _ hne hr]
    cases hs with
    | dot => exact ih .dot
    | under => exact ih .under
    | under2 => exact ih .under2
    | hyphens n =>
      have : ∀ (n : Nat) (st : CompState), st = .alnum ∨ st = .hyphen →
          st.run (List.replicate (n + 1) '-' ++ t) = CompState.run .hyphen t := by
        intro n
        induction n with
        | zero => rintro st (rfl | rfl) <;> rfl
        | succ n ihn =>
          rintro st (rfl | rfl)
          · rw [List.replicate_succ, List.cons_append]
            exact ihn .hyphen (.inr rfl)
          · rw [List.replicate_succ, List.cons_append]
            exact ihn .hyphen (.inr rfl)
      rw [this n .alnum (.inl rfl)]
      exact ih .hyphen

theorem isComponent_iff (s : Str) : isComponent s = true ↔ Component s :=
  ⟨fun h => run_sound s .start h, fun h => run_complete h .start⟩

/-! ### Joining and splitting -/

theorem inter_cons {c : Char} (a : Str) {l : List Str} (h : l ≠ []) :
    [c].intercalate (a :: l) = a ++ c :: [c].intercalate l := by
  cases l with
  | nil => exact absurd rfl h
  | cons b bs => simp [List.intercalate]

theorem inter_one {c : Char} (a : Str) : [c].intercalate [a] = a := by
  simp [List.intercalate]

theorem segs_none {c : Char} : ∀ {s : Str}, c ∉ s → segs c s = [s]
  | [], _ => rfl
  | x :: xs, h => by
    simp at h
    unfold segs
    rw [if_neg (Ne.symm h.1), segs_none h.2]

theorem segs_inter {c : Char} : ∀ {l : List Str}, l ≠ [] → (∀ g ∈ l, c ∉ g) →
    segs c ([c].intercalate l) = l
  | [], h, _ => absurd rfl h
  | [a], _, h => by
    rw [inter_one]
    exact segs_none (h a (by simp))
  | a :: b :: bs, _, h => by
    rw [inter_cons a (by simp), segs_append (h a (by simp)),
      segs_inter (by simp) (fun g hg => h g (List.mem_cons_of_mem _ hg))]

theorem inter_segs (c : Char) : ∀ s : Str, [c].intercalate (segs c s) = s
  | [] => by simp [segs, List.intercalate]
  | x :: xs => by
    have ih := inter_segs c xs
    unfold segs
    by_cases h : x = c
    · rw [if_pos h, inter_cons _ (segs_ne_nil c xs), ih, h]; rfl
    · rw [if_neg h]
      cases hs : segs c xs with
      | nil => exact absurd hs (segs_ne_nil c xs)
      | cons g gs =>
        rw [hs] at ih
        simp only
        cases gs with
        | nil => rw [inter_one] at ih ⊢; rw [ih]
        | cons b bs =>
          rw [inter_cons _ (by simp)] at ih ⊢
          rw [List.cons_append, ih]

theorem segs_no (c : Char) : ∀ (s : Str), ∀ g ∈ segs c s, c ∉ g
  | [], g, hg => by simp [segs] at hg; simp [hg]
  | x :: xs, g, hg => by
    have ih := segs_no c xs
    unfold segs at hg
    by_cases h : x = c
    · rw [if_pos h] at hg
      rcases List.mem_cons.mp hg with rfl | hg
      · simp
      · exact ih g hg
    · rw [if_neg h] at hg
      cases hs : segs c xs with
      | nil => exact absurd hs (segs_ne_nil c xs)
      | cons g' gs =>
        rw [hs] at hg ih
        rcases List.mem_cons.mp hg with rfl | hg
        · simp [Ne.symm h, ih g' (by simp)]
        · exact ih g (List.mem_cons_of_mem _ hg)

theorem component_no {s : Str} (h : Component s) : '/' ∉ s ∧ ':' ∉ s ∧ '@' ∉ s := by
  have hc := CompState.run_char (run_complete h .start)
  refine ⟨?_, ?_, ?_⟩ <;> intro hm <;> have := compChar_ne (hc _ hm)
  · exact this.2.2 rfl
  · exact this.2.1 rfl
  · exact this.1 rfl

theorem component_ne {s : Str} (h : Component s) : s ≠ [] := by
  rintro rfl
  have := run_complete h .start
  simp [CompState.run] at this

theorem isPath_inter {l : List Str} (hne : l ≠ []) (h : ∀ c ∈ l, Component c) :
    isPath (['/'].intercalate l) = true := by
  unfold isPath
  rw [segs_inter hne (fun g hg => (component_no (h g hg)).1), List.all_eq_true]
  exact fun c hc => (isComponent_iff c).mpr (h c hc)

theorem isPath_comps {s : Str} (h : isPath s = true) : ∀ c ∈ segs '/' s, Component c := by
  unfold isPath at h
  rw [List.all_eq_true] at h
  exact fun c hc => (isComponent_iff c).mp (h c hc)

/-! ### Hosts and tags -/

theorem isDomainComponent_iff (s : Str) : isDomainComponent s = true ↔ Label s := by
  have key : ∀ o : Option Char, (∀ c ∈ o, isAlnum c = true ∨ c = '-') →
      (o.any isAlnum = true ↔ o ≠ none ∧ o ≠ some '-') := by
    intro o ho
    cases o with
    | none => simp
    | some c =>
      simp only [Option.any_some, ne_eq, reduceCtorEq, not_false_eq_true, Option.some.injEq,
        true_and]
      constructor
      · rintro h rfl
        revert h; decide
      · intro hne
        rcases ho c rfl with h | h
        · exact h
        · exact absurd h hne
  unfold isDomainComponent Label
  simp only [Bool.and_eq_true, List.all_eq_true, Bool.or_eq_true, decide_eq_true_eq, ← alnum_iff]
  constructor
  · rintro ⟨⟨ha, hh⟩, hl⟩
    have h1 := (key s.head? (fun c hc => ha c (List.mem_of_mem_head? hc))).mp hh
    have h2 := (key s.getLast? (fun c hc => ha c (List.mem_of_mem_getLast? hc))).mp hl
    exact ⟨by rintro rfl; exact h1.1 rfl, ha, h1.2, h2.2⟩
  · rintro ⟨hne, ha, hh, hl⟩
    refine ⟨⟨ha, ?_⟩, ?_⟩
    · refine (key s.head? (fun c hc => ha c (List.mem_of_mem_head? hc))).mpr ⟨?_, hh⟩
      simpa using hne
    · refine (key s.getLast? (fun c hc => ha c (List.mem_of_mem_getLast? hc))).mpr ⟨?_, hl⟩
      simpa using hne

theorem label_no {l : Str} (h : Label l) : '.' ∉ l ∧ ':' ∉ l ∧ '/' ∉ l ∧ '@' ∉ l := by
  have h2 : ∀ c ∈ l, isAlnum c = true ∨ c = '-' := fun c hc => by
    rw [alnum_iff]; exact h.2.1 c hc
  refine ⟨?_, ?_, ?_, ?_⟩ <;> intro hm <;> have := h2 _ hm <;> revert this <;> decide

theorem mem_inter {c x : Char} : ∀ {l : List Str}, x ∈ [c].intercalate l →
    x = c ∨ ∃ g ∈ l, x ∈ g
  | [], h => by simp [List.intercalate] at h
  | [a], h => by
    rw [inter_one] at h
    exact .inr ⟨a, by simp, h⟩
  | a :: b :: bs, h => by
    rw [inter_cons a (by simp)] at h
    rcases List.mem_append.mp h with h | h
    · exact .inr ⟨a, by simp, h⟩
    · rcases List.mem_cons.mp h with h | h
      · exact .inl h
      · rcases mem_inter h with h | ⟨g, hg, hx⟩
        · exact .inl h
        · exact .inr ⟨g, List.mem_cons_of_mem _ hg, hx⟩

theorem labels_no {ls : List Str} (h : ∀ l ∈ ls, Label l) {x : Char}
    (hx : x = ':' ∨ x = '/' ∨ x = '@') : x ∉ ['.'].intercalate ls := by
  intro hm
  rcases mem_inter hm with e | ⟨g, hg, hm⟩
  · rcases hx with rfl | rfl | rfl <;> revert e <;> decide
  · have := label_no (h g hg)
    rcases hx with rfl | rfl | rfl
    · exact this.2.1 hm
    · exact this.2.2.1 hm
    · exact this.2.2.2 hm

theorem isDomain_iff (s : Str) : isDomain s = true ↔ Address s := by
  have hd : ∀ p : Str, p.all isDigitC = true ↔ ∀ c ∈ p, '0' ≤ c ∧ c ≤ '9' := by
    intro p; simp [isDigitC]
  have hl : ∀ t : Str, (segs '.' t).all isDomainComponent = true ↔
      ∀ l ∈ segs '.' t, Label l := by
    intro t
    rw [List.all_eq_true]
    exact forall₂_congr fun l _ => isDomainComponent_iff l
  constructor
  · intro h
    unfold isDomain at h
    split at h
    · rename_i a p e
      obtain ⟨rfl, _⟩ := splitFirst_some.mp e
      simp only [Bool.and_eq_true, hd, hl] at h
      refine ⟨segs '.' a, some p, segs_ne_nil _ _, h.1.1, ?_, ?_⟩
      · rintro q ⟨⟩
        refine ⟨?_, h.2⟩
        rintro rfl
        simp at h
      · rw [inter_segs]; rfl
    · refine ⟨segs '.' s, none, segs_ne_nil _ _, (hl _).mp h, by simp, ?_⟩
      rw [inter_segs]; simp [portText]
  · rintro ⟨ls, port, hne, hls, hp, rfl⟩
    have hcol : ':' ∉ ['.'].intercalate ls := labels_no hls (.inl rfl)
    have hseg : segs '.' (['.'].intercalate ls) = ls :=
      segs_inter hne (fun g hg => (label_no (hls g hg)).1)
    unfold isDomain
    cases port with
    | none =>
      have : splitFirst ':' (['.'].intercalate ls ++ portText none) = none :=
        splitFirst_none.mpr (by simpa [portText] using hcol)
      rw [this]
      simp only [portText, List.append_nil]
      rw [hl, hseg]; exact hls
    | some p =>
      have : splitFirst ':' (['.'].intercalate ls ++ portText (some p)) =
          some (['.'].intercalate ls, p) := splitFirst_some.mpr ⟨rfl, hcol⟩
      rw [this]
      obtain ⟨h1, h2⟩ := hp p rfl
      simp only [Bool.and_eq_true, hd]
      rw [hl, hseg]
      refine ⟨⟨hls, ?_⟩, h2⟩
      cases p with
      | nil => exact absurd rfl h1
      | cons => rfl

theorem address_no {h : Str} (hh : Address h) : '/' ∉ h ∧ '@' ∉ h := by
  obtain ⟨ls, port, _, hls, hp, rfl⟩ := hh
  have key : ∀ x : Char, x = '/' ∨ x = '@' → x ∉ ['.'].intercalate ls ++ portText port := by
    intro x hx hm
    rcases List.mem_append.mp hm with hm | hm
    · exact labels_no hls (.inr hx) hm
    · cases port with
      | none => simp [portText] at hm
      | some p =>
        rcases List.mem_cons.mp hm with e | hm
        · rcases hx with rfl | rfl <;> revert e <;> decide
        · have := (hp p rfl).2 _ hm
          rcases hx with rfl | rfl
          · exact absurd this.1 (by decide)
          · exact absurd this.2 (by decide)
  exact ⟨key _ (.inl rfl), key _ (.inr rfl)⟩

theorem isHost_iff (h : Str) : isHost h = true ↔ HostLike h := by
  unfold isHost HostLike localhost
  generalize "localhost".toList = L
  simp only [Bool.or_eq_true, List.any_eq_true, decide_eq_true_eq]
  constructor
  · rintro (⟨c, hc, rfl | rfl⟩ | h)
    · exact .inl hc
    · exact .inr (.inl hc)
    · exact .inr (.inr h)
  · rintro (h | h | h)
    · exact .inl ⟨_, h, .inl rfl⟩
    · exact .inl ⟨_, h, .inr rfl⟩
    · exact .inr h

theorem isTag_iff (t : Str) : isTag t = true ↔ TagText t := by
  unfold isTag TagText
  simp only [Bool.and_eq_true, List.all_eq_true, Bool.or_eq_true, decide_eq_true_eq, isWord,
    alnum_iff]
  constructor
  · rintro ⟨⟨h1, h2⟩, h3⟩
    refine ⟨?_, ?_, h3⟩
    · cases t with
      | nil => simp at h1
      | cons c cs =>
        refine ⟨c, cs, rfl, ?_⟩
        simpa [isWord, alnum_iff] using h1
    · intro c hc
      have := h2 c hc
      tauto
  · rintro ⟨⟨c, cs, rfl, hc⟩, h2, h3⟩
    refine ⟨⟨?_, ?_⟩, h3⟩
    · simpa [isWord, alnum_iff] using hc
    · intro c hc
      have := h2 c hc
      tauto

theorem isIdent_iff (s : Str) : isIdent s = true ↔ ImageId s := by
  simp [isIdent, ImageId, isHexL, isDigitC]

end Img
end Drone
