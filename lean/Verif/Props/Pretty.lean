/-
C52, C54, C56: framing of printed manifests, balanced indentation, secret data.
-/
import Mathlib.Data.List.Forall2
import Verif.Proof.ParseRaw
import Verif.Proof.PrettyPrint
import Verif.Proof.PrettyPre

namespace Drone
open Pretty
open Spec (IsLines unlines)

/-- A library that prints ASCII as it is; used in examples. -/
def exPretty : PrettyLib where
  isPrint c := decide (0x20 ≤ c.toNat ∧ c.toNat ≤ 0x7e)
  fmtFloat _ := "0.5"
  fmtSize n := toString n
  sprint _ := "1"
  print_graphic c h := .inl (by simpa using h)
  float_line _ := by decide

/-! ### C52 -/

/-- The resources the printer writes: all but registries. -/
def Spec.printable (m : Manifest) : List Resource :=
  m.resources.filter fun r => match r with | .registry _ => false | _ => true

/-- No secret has a carriage return in its data. -/
def Spec.NoCRData (m : Manifest) : Prop := ∀ s, Resource.secret s ∈ m.resources → '\r' ∉ s.data.toList

theorem flatMap_lf (ls : List Bytes) : ls.flatMap (10 :: ·) ++ [10] = 10 :: unlines ls := by
  induction ls with
  | nil => rfl
  | cons l ls ih =>
    rw [List.flatMap_cons, List.append_assoc, ih, unlines_cons]
    simp

/-- What is printed for one resource. -/
theorem printResource_doc {C : Prop} (L : PrettyLib) {r : Resource} {w' : Writer}
    (hr : ∀ x, r ≠ .registry x) (hc : ∀ s, r = .secret s → C → '\r' ∉ s.data.toList)
    (h : printResource L {} r = some w') : ∃ ls : List Bytes,
      w' = Writer.pre ([45, 45, 45, 10] ++ unlines ls) {} ∧
      ∀ l ∈ ls, (10 : UInt8) ∉ l ∧ Safe l ∧ (C → (13 : UInt8) ∉ l) := by
  have key : AddsDoc ⟨C, False⟩ {} w' := by
    cases r with
    | cron c =>
      simp only [printResource, Option.some.injEq] at h
      subst h; exact printCron_doc L _ c id
    | secret s =>
      simp only [printResource, Option.some.injEq] at h
      subst h; exact printSecret_doc L _ s (hc s rfl) id
    | signature s =>
      simp only [printResource, Option.some.injEq] at h
      subst h; exact printSignature_doc L _ s id
    | registry x => exact absurd rfl (hr x)
    | pipeline p => exact printPipeline_doc L h id
  obtain ⟨o, ho, ls, rfl, h1, h2⟩ := key.out rfl rfl
  refine ⟨ls, ?_, fun l hl => ⟨(h1 l hl).1, (h1 l hl).2.safe, fun c hm => h2 c ?_⟩⟩
  · have hd := key.depth
    have hi0 := key.index
    have hz := key.zero rfl
    obtain ⟨b, d, z, i⟩ := w'
    simp only at hd hz ho
    have hi : i = none := by simpa using hi0
    subst hd hz hi
    simp only [Writer.pre, Writer.mk.injEq, and_true]
    rw [ho, List.append_assoc, flatMap_lf]
    simp
  · exact List.mem_flatMap.2 ⟨l, hl, List.mem_cons_of_mem _ hm⟩

theorem printLoop_lines {C : Prop} (L : PrettyLib) (rs : List Resource) (p : Bytes) (w' : Writer)
    (hc : ∀ s, Resource.secret s ∈ rs → C → '\r' ∉ s.data.toList)
    (h : printLoop L rs (Writer.pre p {}) = some w') : ∃ bs : List (List Bytes),
      w' = Writer.pre (p ++ unlines (blockLines bs)) {} ∧
      List.Forall₂ (fun r b => printResource L {} r = some (Writer.pre ([45, 45, 45, 10] ++ unlines b) {}))
        (Spec.printable ⟨rs⟩) bs ∧
      ∀ b ∈ bs, ∀ l ∈ b, (10 : UInt8) ∉ l ∧ Safe l ∧ (C → (13 : UInt8) ∉ l) := by
  induction rs generalizing p with
  | nil =>
    simp only [printLoop, Option.some.injEq] at h
    exact ⟨[], by rw [← h]; simp [blockLines, unlines], .nil, by simp⟩
  | cons r rs ih =>
    obtain ⟨w1, h1, h2⟩ := Option.bind_eq_some_iff.1 h
    have hp := pre_printResource (p := p) L r {}
    dsimp only at hp
    rw [hp] at h1
    obtain ⟨w0, h0, rfl⟩ := Option.map_eq_some_iff.1 h1
    by_cases hr : ∃ x, r = .registry x
    · obtain ⟨x, rfl⟩ := hr
      simp only [printResource, Option.some.injEq] at h0
      subst h0
      exact ih p (fun s hs => hc s (List.mem_cons_of_mem _ hs)) h2
    · obtain ⟨ls, rfl, hl⟩ := printResource_doc L (fun x hx => hr ⟨x, hx⟩)
        (fun s hs => hc s (by rw [hs]; exact List.mem_cons_self)) h0
      have hpp : Writer.pre p (Writer.pre ([45, 45, 45, 10] ++ unlines ls) {})
          = Writer.pre (p ++ ([45, 45, 45, 10] ++ unlines ls)) {} := by simp [Writer.pre]
      rw [hpp] at h2
      obtain ⟨bs, e1, e2, e3⟩ := ih _ (fun s hs => hc s (List.mem_cons_of_mem _ hs)) h2
      refine ⟨ls :: bs, ?_, ?_, ?_⟩
      · rw [e1]
        simp [blockLines, unlines]
      · have : Spec.printable ⟨r :: rs⟩ = r :: Spec.printable ⟨rs⟩ := by
          unfold Spec.printable
          rw [List.filter_cons_of_pos]
          cases r <;> first | rfl | exact absurd ⟨_, rfl⟩ hr
        rw [this]
        exact .cons h0 e2
      · intro b hb
        rcases List.mem_cons.1 hb with rfl | hb
        · exact hl
        · exact e3 b hb

theorem print_single (L : PrettyLib) (r : Resource) (o : Bytes)
    (h : printResource L {} r = some (Writer.pre o {})) :
    print L ⟨[r]⟩ = some (o ++ [46, 46, 46, 10]) := by
  have : printLoop L [r] {} = some (Writer.pre o {}) := by
    simp only [printLoop, h, Option.bind_some]
  unfold print
  rw [this]
  simp [Writer.pre, Writer.str, Writer.bytes, utf8, String.utf8EncodeChar]

theorem not_cr_last {l : Bytes} (h : (13 : UInt8) ∉ l) : l.getLast? ≠ some 13 :=
  fun hl => h (List.mem_of_getLast? hl)

/-- C52: the printed text of a manifest is, for every resource but registries, the
separator and the body printed for the resource alone, and then the terminator.
Splitting the text gives back exactly these bodies. -/
theorem C52_frame (L : PrettyLib) (m : Manifest) (text : Bytes) (h : print L m = some text)
    (hne : Spec.printable m ≠ []) (hcr : Spec.NoCRData m)
    (hlen : ∃ ls, IsLines text ls ∧ ∀ l ∈ ls, l.length < 65536) :
    ∃ bodies : List Bytes,
      List.Forall₂ (fun r b => print L ⟨[r]⟩ = some ([45, 45, 45, 10] ++ b ++ [46, 46, 46, 10]))
        (Spec.printable m) bodies ∧
      text = bodies.flatMap ([45, 45, 45, 10] ++ ·) ++ [46, 46, 46, 10] ∧
      splitDocs text = bodies := by
  unfold print at h
  obtain ⟨w', hw, ht⟩ := Option.map_eq_some_iff.1 h
  obtain ⟨bs, rfl, h2, h3⟩ := printLoop_lines (C := True) L m.resources [] w' (fun s hs _ => hcr s hs) hw
  have htext : text = unlines (blockLines bs ++ [[46, 46, 46]]) := by
    rw [← ht, unlines_append]
    simp [Writer.pre, Writer.str, Writer.bytes, utf8, String.utf8EncodeChar, unlines]
  have hne' : bs ≠ [] := by
    rintro rfl
    cases hp : Spec.printable m with
    | nil => exact hne hp
    | cons a as =>
      have : Spec.printable ⟨m.resources⟩ = a :: as := hp
      rw [this] at h2; cases h2
  have hnl : ∀ l ∈ blockLines bs ++ [[46, 46, 46]], (10 : UInt8) ∉ l := by
    intro l hl
    rcases List.mem_append.1 hl with hl | hl
    · obtain ⟨b, hb, hl⟩ := List.mem_flatMap.1 hl
      rcases List.mem_cons.1 hl with rfl | hl
      · decide
      · exact (h3 b hb l hl).1
    · rw [List.mem_singleton.1 hl]; decide
  have hlines : ∀ l ∈ blockLines bs ++ [[46, 46, 46]], l.length < 65536 := by
    obtain ⟨ls, hls, hlt⟩ := hlen
    have : ls = blockLines bs ++ [[46, 46, 46]] :=
      isLines_unique hls ⟨hnl, .inl htext.symm⟩
    rw [← this]; exact hlt
  have hgood : ∀ b ∈ bs, ∀ l ∈ b, GoodLine l := by
    intro b hb l hl
    obtain ⟨a1, a2, a3⟩ := h3 b hb l hl
    refine ⟨a1, hlines l ?_, not_cr_last (a3 trivial), a2.not_sep, a2.not_term⟩
    exact List.mem_append_left _ (List.mem_flatMap.2 ⟨b, hb, List.mem_cons_of_mem _ hl⟩)
  refine ⟨bs.map unlines, ?_, ?_, ?_⟩
  · rw [List.forall₂_map_right_iff]
    have h2' : List.Forall₂ _ (Spec.printable m) bs := h2
    refine h2'.imp fun r b hb => ?_
    have := print_single L r _ hb
    simpa using this
  · rw [htext, unlines_append, unlines_blockLines]
    simp [unlines]
  · rw [htext]
    exact splitDocs_blocks bs [[46, 46, 46]] hgood hne' (.inr rfl)

/-- Without a resource to print, the text is a lone terminator, which is read as one
empty document. -/
theorem C52_empty (L : PrettyLib) (m : Manifest) (h : Spec.printable m = []) :
    print L m = some [46, 46, 46, 10] ∧ splitDocs [46, 46, 46, 10] = [[]] := by
  refine ⟨?_, by decide⟩
  have key : ∀ rs w, Spec.printable ⟨rs⟩ = [] → printLoop L rs w = some w := by
    intro rs
    induction rs with
    | nil => intro w _; rfl
    | cons r rs ih =>
      intro w hp
      cases r with
      | registry x => exact ih w hp
      | _ => simp [Spec.printable] at hp
  unfold print
  rw [key m.resources {} h]
  rfl

/-- A manifest with values that look like document boundaries. -/
def exManifest : Manifest := ⟨[
  .signature { kind := "signature", hmac := "x\n---\nkind: cron\n..." },
  .registry { kind := "registry" },
  .secret { kind := "secret", name := "---", data := "YWJj" }]⟩

example : print exPretty exManifest = some (utf8 ("---\nkind: signature\nhmac: \"x\\n---\\nkind: cron\\n...\"\n\n" ++
    "---\nkind: secret\nname: ---\ndata: >\n  YWJj\n\n...\n")) ∧
    Spec.printable exManifest ≠ [] ∧ Spec.NoCRData exManifest := by
  refine ⟨by decide +kernel, by simp [Spec.printable, exManifest], ?_⟩
  intro s hs
  simp [exManifest] at hs
  subst hs
  decide

/-- The bodies found in it. -/
example : splitDocs (utf8 ("---\nkind: signature\nhmac: \"x\\n---\\nkind: cron\\n...\"\n\n" ++
    "---\nkind: secret\nname: ---\ndata: >\n  YWJj\n\n...\n")) =
    [utf8 "kind: signature\nhmac: \"x\\n---\\nkind: cron\\n...\"\n\n",
     utf8 "kind: secret\nname: ---\ndata: >\n  YWJj\n\n"] := by decide +kernel

/-- The condition on secret data is needed: a carriage return at the end of a line of
data is lost. -/
theorem C52_cr_needed : ∃ (m : Manifest) (text body : Bytes),
    print exPretty m = some text ∧ text = [45, 45, 45, 10] ++ body ++ [46, 46, 46, 10] ∧
    (∀ l ∈ rawLines text, l.length < 65536) ∧ splitDocs text ≠ [body] :=
  ⟨⟨[.secret { kind := "secret", data := "a\r" }]⟩,
    utf8 "---\nkind: secret\ndata: >\n  a\r\n\n...\n", utf8 "kind: secret\ndata: >\n  a\r\n\n",
    by decide +kernel, by decide +kernel, by decide +kernel, by decide +kernel⟩

/-! ### C54 -/

/-- C54, values: depth, zero mode and item count are as before, whatever the state of the
writer. -/
theorem C54_value (L : PrettyLib) (w : Writer) (v : Arg) :
    (writeValue L w v).depth = w.depth ∧ (writeValue L w v).zero = w.zero ∧
    (writeValue L w v).index = w.index :=
  let h := writeValue_v (C := ⟨True, False⟩) L w v
  ⟨h.depth, h.zero, h.index⟩

/-- C54, keys with values. -/
theorem C54_tag (L : PrettyLib) (w : Writer) (k : String) (v : Arg) :
    (writeTagValue L w k v).depth = w.depth ∧ (writeTagValue L w k v).zero = w.zero :=
  ⟨(writeTagValue_pos (C := ⟨True, False⟩) L w k v).depth, writeTagValue_zero L w k v⟩

/-- C54, containers. -/
theorem C54_container (L : PrettyLib) (w w' : Writer) (c : Container)
    (h : printContainer L w c = some w') : w'.depth = w.depth ∧ (w.zero = false → w'.zero = false) :=
  let h := printContainer_pos (C := ⟨True, False⟩) L h
  ⟨h.depth, h.zero⟩

/-- C54, resources: every resource is printed at the depth and in the mode of the first. -/
theorem C54_resource (L : PrettyLib) (w w' : Writer) (r : Resource)
    (h : printResource L w r = some w') : w'.depth = w.depth ∧ (w.zero = false → w'.zero = false) ∧
      (w.index = none → w'.index = none) := by
  have none_of : AddsDoc ⟨False, False⟩ w w' → w'.depth = w.depth ∧ (w.zero = false → w'.zero = false) ∧
      (w.index = none → w'.index = none) := fun k =>
    ⟨k.depth, k.zero, fun hi => by have := k.index; rw [hi] at this; simpa using this⟩
  cases r with
  | cron c =>
    simp only [printResource, Option.some.injEq] at h
    subst h; exact none_of (printCron_doc L _ c id)
  | secret s =>
    simp only [printResource, Option.some.injEq] at h
    subst h; exact none_of (printSecret_doc L _ s False.elim id)
  | signature s =>
    simp only [printResource, Option.some.injEq] at h
    subst h; exact none_of (printSignature_doc L _ s id)
  | registry x =>
    simp only [printResource, Option.some.injEq] at h
    subst h; exact ⟨rfl, id, id⟩
  | pipeline p => exact none_of (printPipeline_doc L h id)

/-- A nested value printed by a writer in the middle of its work. -/
example :
    let w : Writer := { buf := [], depth := 3, zero := true, index := some 2 }
    let v : Value := .map [(.str "a", .seq [.map [(.str "b", .int 1)], .null])]
    let w' := writeTagValue exPretty w "k" (.val v)
    w'.depth = 3 ∧ w'.zero = true ∧
      w'.buf = utf8 "\n      k:\n        a:\n        - b: 1\n        - ~" := by
  decide +kernel

/-! ### C56 -/

theorem chunkLoop_spec (size : Nat) (hs : 0 < size) (fuel : Nat) (s : Bytes) (hf : s.length ≤ fuel) :
    (chunkLoop size fuel s).flatten = s ∧ (∀ c ∈ chunkLoop size fuel s, c.length ≤ size ∧ c ≠ []) ∧
    ∀ c ∈ (chunkLoop size fuel s).dropLast, c.length = size := by
  induction fuel generalizing s with
  | zero =>
    have : s = [] := List.eq_nil_of_length_eq_zero (by omega)
    subst this; simp [chunkLoop]
  | succ n ih =>
    unfold chunkLoop
    by_cases h0 : s.length = 0
    · rw [if_pos h0]
      have : s = [] := List.eq_nil_of_length_eq_zero h0
      subst this; simp
    rw [if_neg h0]
    have hd : (s.drop size).length ≤ n := by rw [List.length_drop]; omega
    obtain ⟨h1, h2, h3⟩ := ih (s.drop size) hd
    refine ⟨by rw [List.flatten_cons, h1, List.take_append_drop], ?_, ?_⟩
    · intro c hc
      rcases List.mem_cons.1 hc with rfl | hc
      · refine ⟨by rw [List.length_take]; omega, fun he => ?_⟩
        have := congrArg List.length he
        rw [List.length_take, List.length_nil] at this
        omega
      · exact h2 c hc
    · intro c hc
      by_cases hn : chunkLoop size n (s.drop size) = []
      · rw [hn] at hc; simp at hc
      · rw [List.dropLast_cons_of_ne_nil hn] at hc
        rcases List.mem_cons.1 hc with rfl | hc
        · rw [List.length_take]
          have : s.drop size ≠ [] := by
            rintro he
            rw [he] at hn
            apply hn
            cases n <;> simp [chunkLoop]
          have : (s.drop size).length ≠ 0 := fun h => this (List.eq_nil_of_length_eq_zero h)
          rw [List.length_drop] at this
          omega
        · exact h3 c hc

theorem printChunks_buf (w : Writer) (cs : List Bytes) :
    (printChunks w cs).buf = w.buf ++ cs.flatMap (fun c => 10 :: (Writer.padding w.depth ++ c)) ∧
    (printChunks w cs).depth = w.depth ∧ (printChunks w cs).zero = w.zero ∧
    (printChunks w cs).index = w.index := by
  induction cs generalizing w with
  | nil => simp [printChunks]
  | cons c cs ih =>
    obtain ⟨h1, h2, h3, h4⟩ := ih ((w.str "\n").indent.bytes c)
    refine ⟨?_, h2, h3, h4⟩
    unfold printChunks
    rw [h1]
    simp [Writer.str, Writer.bytes, Writer.indent, utf8, String.utf8EncodeChar]

/-- C56: the data of a secret is printed as the key, `>` and lines indented by two
spaces, each of at most 60 bytes (all but the last of exactly 60), which together are
the data without spaces and line feeds. -/
theorem C56_chunks (L : PrettyLib) (w : Writer) (d : String) (hw : w.depth = 0) (hi : w.index = none) :
    ∃ lines : List Bytes,
      (printData L w d).buf = w.buf ++ (10 :: utf8 "data: >" ++ lines.flatMap ([10, 32, 32] ++ ·)) ∧
      (∀ l ∈ lines, l.length ≤ 60) ∧ (∀ l ∈ lines.dropLast, l.length = 60) ∧
      lines.flatten = (utf8 d).filter (fun b => b ≠ 32 ∧ b ≠ 10) := by
  refine ⟨chunk (stripSpace (utf8 d)) 60, ?_, ?_⟩
  · unfold printData
    dsimp only
    show (printChunks _ _).buf = _
    rw [(printChunks_buf _ _).1]
    have hb : (((writeTag L w "data").str " ").str ">").inc.buf = w.buf ++ 10 :: utf8 "data: >" := by
      simp [writeTag, writeEncode, Writer.str, Writer.bytes, Writer.indent, Writer.inc, hi, hw,
        padding_zero, encode_top L (k := "data") (by decide)]
      decide
    have hd : (((writeTag L w "data").str " ").str ">").inc.depth = 1 := by
      show (writeTag L w "data").depth + 1 = 1
      rw [(writeTag_pos (C := ⟨True, False⟩) L w "data").depth, hw]; rfl
    rw [hb, hd]
    have : Writer.padding 1 = [32, 32] := by decide
    rw [this]
    simp
  · unfold chunk stripSpace
    split
    · rename_i h0
      have := List.eq_nil_of_length_eq_zero h0
      rw [this]; simp
    · obtain ⟨h1, h2, h3⟩ := chunkLoop_spec 60 (by decide) _ _ (Nat.le_refl
        ((utf8 d).filter fun b => b ≠ 32 ∧ b ≠ 10).length)
      exact ⟨fun l hl => (h2 l hl).1, h3, h1⟩

/-- No data, and data that needs two lines. -/
example : (printData exPretty {} "").buf = utf8 "\ndata: >\n  " ∧
    (chunk (stripSpace (utf8 (String.ofList (List.replicate 61 'a') ++ " \nb"))) 60).map List.length = [60, 2] := by
  decide +kernel

end Drone
