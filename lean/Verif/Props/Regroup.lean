/-
C130: what may be changed in a signed file without the key.  The signature covers the lines that are
neither separators nor behind a terminator, but not where one document ends and the next begins.
-/
import Verif.Props.Resign
import Verif.Props.LongLines

namespace Drone
open Spec Yaml

/-! ### The lines that are signed -/

/-- The lines of a file that belong to some document: those before the first terminator that are no
separators. -/
def Spec.OwnLines (data : Bytes) (own : List Bytes) : Prop :=
  ∃ ls vis shown hid first rest, IsLines data ls ∧ Visible ls vis ∧ vis = shown ++ hid ∧
    (∀ l ∈ shown, ¬ TermLine l) ∧ (hid = [] ∨ ∃ t ts, hid = t :: ts ∧ TermLine t) ∧
    Cut shown first rest ∧ own = first ++ rest.flatten

theorem unlines_flatten (ls : List (List Bytes)) : unlines ls.flatten = (ls.map unlines).flatten := by
  induction ls with
  | nil => rfl
  | cons l ls ih => rw [List.flatten_cons, unlines_append, ih]; rfl

theorem cut_first_nil {ls first : List Bytes} {rest : List (List Bytes)} (h : Cut ls first rest)
    (hs : ls = [] ∨ StartsWithSep ls) : first = [] := by
  rcases hs with rfl | ⟨l, ls', rfl, hl⟩
  · cases h; rfl
  · cases h with
    | sep _ _ => rfl
    | line hn _ => exact absurd hl hn

theorem own_docs {data : Bytes} {own : List Bytes} (h : OwnLines data own) (Y : YamlLib) {rs : List RawResource}
    (hp : parseRawBytes Y data = .ok rs) : (rs.map (·.data)).flatten = unlines own := by
  obtain ⟨ls, vis, shown, hid, first, rest, h1, h2, h3, h4, h5, h6, rfl⟩ := h
  rw [unlines_append, unlines_flatten]
  by_cases hs : vis = [] ∨ StartsWithSep vis
  · have hshown : shown = [] ∨ StartsWithSep shown := by
      rcases hs with rfl | ⟨l, ls', hl, hsep⟩
      · exact .inl (List.append_eq_nil_iff.1 h3.symm).1
      · cases shown with
        | nil => exact .inl rfl
        | cons a as =>
          rw [h3] at hl
          simp only [List.cons_append, List.cons.injEq] at hl
          exact .inr ⟨a, as, rfl, hl.1 ▸ hsep⟩
    rw [C01_parseRaw_unique Y data rs ls vis (rest.map unlines) h1 h2
      ⟨shown, hid, first, rest, h3, h4, h5, h6, fun _ => rfl, fun h => absurd hs h⟩ hp, cut_first_nil h6 hshown]
    rfl
  · rw [C01_parseRaw_unique Y data rs ls vis (unlines first :: rest.map unlines) h1 h2
      ⟨shown, hid, first, rest, h3, h4, h5, h6, fun h => absurd h hs, fun _ => rfl⟩ hp]
    rfl

theorem cut_own_mem {ls first : List Bytes} {rest : List (List Bytes)} (h : Cut ls first rest) :
    ∀ l ∈ first ++ rest.flatten, l ∈ ls := by
  induction h with
  | nil => simp
  | sep _ _ ih =>
    intro l hl
    exact List.mem_cons_of_mem _ (ih l (by simpa using hl))
  | line _ _ ih =>
    intro l hl
    simp only [List.cons_append, List.mem_cons] at hl ⊢
    exact hl.imp id (ih l)

theorem own_no_newline {data : Bytes} {own : List Bytes} (h : OwnLines data own) : ∀ l ∈ own, (10 : UInt8) ∉ l := by
  obtain ⟨ls, vis, shown, hid, first, rest, h1, ⟨short, tail, e1, _, _, h2⟩, h3, _, _, h6, rfl⟩ := h
  intro l hl hc
  have hl := cut_own_mem h6 l hl
  have hl : l ∈ vis := by rw [h3]; exact List.mem_append_left _ hl
  obtain ⟨l', hl', hch⟩ := forall₂_mem_right h2 hl
  refine h1.1 l' (by rw [e1]; exact List.mem_append_left _ hl') ?_
  rcases hch with rfl | ⟨rfl, _⟩
  · exact List.mem_append_left _ hc
  · exact hc

/-- **C130.** Every file has own lines, no others, and its documents together are these lines. -/
theorem C130_lines (Y : YamlLib) (data : Bytes) (rs : List RawResource) (h : parseRawBytes Y data = .ok rs) :
    ∃ own, OwnLines data own ∧ (∀ own', OwnLines data own' → own' = own) ∧
      (rs.map (·.data)).flatten = unlines own := by
  obtain ⟨ls, vis, h1, h2, shown, hid, first, rest, h3, h4, h5, h6, h7, h8⟩ := C01_parseRaw_exact Y data rs h
  have ho : OwnLines data (first ++ rest.flatten) := ⟨ls, vis, shown, hid, first, rest, h1, h2, h3, h4, h5, h6, rfl⟩
  refine ⟨_, ho, fun own' ho' => ?_, own_docs ho Y h⟩
  exact unlines_inj _ _ (own_no_newline ho') (own_no_newline ho) ((own_docs ho' Y h).symm.trans (own_docs ho Y h))

theorem content_all {rs : List RawResource} (h : ∀ r ∈ rs, r.kind ≠ "signature") :
    Spec.content rs = (rs.map (·.data)).flatten := by
  unfold Spec.content
  rw [List.filter_eq_self.2 (by simpa using h)]

/-- **C130.** What is signed of a file without signature documents is a function of its own lines, and
nothing less: two files have the same signature under all keys and for all MACs exactly if they have
the same own lines.  So it does not count where their separators are, what stands behind the dashes
and what stands behind a terminator. -/
theorem C130_signature_iff (Y : SigLib) (d1 d2 : Bytes) (r1 r2 : List RawResource)
    (h1 : parseRawBytes Y.toYamlLib d1 = .ok r1) (h2 : parseRawBytes Y.toYamlLib d2 = .ok r2)
    (n1 : ∀ r ∈ r1, r.kind ≠ "signature") (n2 : ∀ r ∈ r2, r.kind ≠ "signature") (own1 own2 : List Bytes)
    (o1 : OwnLines d1 own1) (o2 : OwnLines d2 own2) :
    (∀ mac key, sign Y mac d1 key = sign Y mac d2 key) ↔ own1 = own2 := by
  have e1 := own_docs o1 _ h1
  have e2 := own_docs o2 _ h2
  rw [← content_all n1] at e1
  rw [← content_all n2] at e2
  constructor
  · intro h
    have := h (fun _ d => d) (List.replicate 32 0)
    rw [sign_eq h1 (by simp), sign_eq h2 (by simp)] at this
    have := hexEncode_inj (Except.ok.inj this)
    rw [e1, e2] at this
    exact unlines_inj _ _ (own_no_newline o1) (own_no_newline o2) this
  · rintro rfl mac key
    unfold sign
    rw [h1, h2]
    simp only [signRes, signedBytes_eq, e1, e2]

/-- **C130.** Without the key: whoever has the signature of one file can put it under any other file with
the same own lines, and it verifies. -/
theorem C130_transplant (Y : SigLib) (hY : Y.ReadsSignature) (mac : Mac) (hmac : Mac32 mac) (d1 d2 key : Bytes)
    (r1 r2 : List RawResource) (h1 : parseRawBytes Y.toYamlLib d1 = .ok r1)
    (h2 : parseRawBytes Y.toYamlLib d2 = .ok r2) (n1 : ∀ r ∈ r1, r.kind ≠ "signature")
    (n2 : ∀ r ∈ r2, r.kind ≠ "signature") (own : List Bytes) (o1 : OwnLines d1 own) (o2 : OwnLines d2 own)
    (hcr : NoDoubleCR d2) (s : Bytes) (hs : sign Y mac d1 key = .ok s) :
    ∃ out, writeTo Y d2 s = (out, none) ∧ verify Y mac out key = .ok true := by
  have hk : 32 ≤ key.length := by
    by_contra hk
    have hk : key.length < 32 := by omega
    simp [sign, h1, signRes, hk] at hs
  have e1 := own_docs o1 _ h1
  have e2 := own_docs o2 _ h2
  rw [← content_all n1] at e1
  rw [← content_all n2] at e2
  rw [sign_eq h1 hk] at hs
  refine ⟨upsert r2 s, by simp [writeTo, h2], ?_⟩
  rw [← Except.ok.inj hs, verify_upsert hY h2 hk hcr (hmac _ _), e1, e2]
  simp

/-! ### One more separator -/

/-- What the rest of the lines adds to the current document, and the documents behind it. -/
def tailDocs : List Bytes → Bytes × List Bytes
  | [] => ([], [])
  | l :: ls =>
    if isSeparator l then ([], (tailDocs ls).1 :: (tailDocs ls).2)
    else if isTerminator l then ([], [])
    else (l ++ [LF] ++ (tailDocs ls).1, (tailDocs ls).2)

theorem splitLoop_tail (X : List Bytes) (x : Bytes) (ls : List Bytes) :
    (splitLoop { docs := X ++ [x], active := true } ls).docs = X ++ (x ++ (tailDocs ls).1) :: (tailDocs ls).2 := by
  induction ls generalizing X x with
  | nil => simp [splitLoop, tailDocs]
  | cons l ls ih =>
    unfold splitLoop tailDocs
    by_cases hs : isSeparator l = true
    · simp only [hs, if_true, Bool.false_eq_true, if_false]
      rw [ih (X ++ [x]) []]
      simp
    · by_cases ht : isTerminator l = true
      · simp [hs, ht]
      · simp only [hs, ht, if_true, if_false, Bool.false_eq_true]
        rw [appendLast_append, ih]
        simp

theorem splitLoop_front (sa : List Bytes) : ∀ (st : SplitState), (st.active = true → st.docs ≠ []) → sa ≠ [] →
    (∀ l ∈ sa, isTerminator l = false) →
    ∃ X x, ∀ sb, splitLoop st (sa ++ sb) = splitLoop { docs := X ++ [x], active := true } sb := by
  induction sa with
  | nil => intro st _ h; exact absurd rfl h
  | cons l sa ih =>
    intro st hst _ ht
    have htl := ht l (by simp)
    have ht' : ∀ l ∈ sa, isTerminator l = false := fun l hl => ht l (by simp [hl])
    -- the state after the first line
    have step : ∃ X x, ∀ more, splitLoop st (l :: more) = splitLoop { docs := X ++ [x], active := true } more := by
      by_cases hs : isSeparator l = true
      · exact ⟨st.docs, [], fun more => by rw [splitLoop]; simp [hs]⟩
      · by_cases hact : st.active = true
        · obtain ⟨X, x, hx⟩ := List.eq_nil_or_concat st.docs |>.resolve_left (hst hact)
          refine ⟨X, x ++ (l ++ [LF]), fun more => ?_⟩
          rw [splitLoop]
          simp only [hs, hact, htl, if_true, if_false, Bool.false_eq_true]
          rw [hx, List.concat_eq_append, appendLast_append]
        · refine ⟨st.docs, l ++ [LF], fun more => ?_⟩
          rw [splitLoop]
          simp only [hs, hact, htl, if_false, Bool.false_eq_true]
          rw [appendLast_append]
          rfl
    obtain ⟨X, x, hX⟩ := step
    cases sa with
    | nil => exact ⟨X, x, fun sb => by rw [List.cons_append, List.nil_append, hX]⟩
    | cons l2 sa =>
      obtain ⟨X', x', h'⟩ := ih { docs := X ++ [x], active := true } (fun _ => by simp) (by simp) ht'
      exact ⟨X', x', fun sb => by rw [List.cons_append, hX, h']⟩

theorem splitLoop_terminated (sa sb sc : List Bytes) (h : ∃ l ∈ sa, isTerminator l = true) : ∀ st,
    splitLoop st (sa ++ sb) = splitLoop st (sa ++ sc) := by
  induction sa with
  | nil => obtain ⟨l, hl, _⟩ := h; simp at hl
  | cons l sa ih =>
    intro st
    rw [List.cons_append, List.cons_append, splitLoop, splitLoop]
    by_cases hs : isSeparator l = true
    · have hl : isTerminator l = false := by
        have := sep_not_term ((isSeparator_iff l).1 hs)
        rw [← isTerminator_iff] at this
        simpa using this
      obtain ⟨t, htm, ht⟩ := h
      have : ∃ l ∈ sa, isTerminator l = true := by
        rcases List.mem_cons.1 htm with rfl | hm
        · rw [hl] at ht; cases ht
        · exact ⟨t, hm, ht⟩
      simp only [hs, if_true]
      exact ih this _
    · by_cases ht : isTerminator l = true
      · simp [hs, ht]
      · obtain ⟨t, htm, ht'⟩ := h
        have : ∃ l ∈ sa, isTerminator l = true := by
          rcases List.mem_cons.1 htm with rfl | hm
          · exact absurd ht' ht
          · exact ⟨t, hm, ht'⟩
        simp only [hs, ht, Bool.false_eq_true, if_false]
        exact ih this _

/-- What one more separator does to the documents: nothing, or one document is cut in two. -/
theorem splitDocs_insert {a b l : Bytes} (ha : a.getLast? = some 10) (hl : (10 : UInt8) ∉ l) (hsep : SepLine l)
    (hlen : l.length < 65536) :
    splitDocs (a ++ (l ++ [10]) ++ b) = splitDocs (a ++ b) ∨
    ∃ X x y Z, splitDocs (a ++ b) = X ++ (x ++ y) :: Z ∧ splitDocs (a ++ (l ++ [10]) ++ b) = X ++ x :: y :: Z := by
  have hne : a ≠ [] := by rintro rfl; simp at ha
  have hr : ∀ more, rawLines (a ++ more) = rawLines a ++ rawLines more := fun more => rawLines_newline (.inr ha)
  have hr2 : rawLines (l ++ [10] ++ b) = l :: rawLines b := by
    have h1 : rawLines (l ++ [10] ++ b) = rawLines (l ++ [10]) ++ rawLines b := rawLines_newline (.inr (by simp))
    rw [h1]
    have : rawLines (l ++ [10]) = [l] := rawLines_eq ⟨by simpa using hl, .inl (by simp [unlines])⟩
    rw [this]
    rfl
  have hane : rawLines a ≠ [] := by
    intro h
    have h0 := (rawLines_isLines a).2
    rw [h] at h0
    rcases h0 with h0 | ⟨h0, _⟩
    · exact hne h0.symm
    · simp [unlines] at h0
  by_cases hlong : ∀ r ∈ rawLines a, r.length < maxToken
  · have hs : ∀ more, scanLines (a ++ more) = (rawLines a).map dropCR ++ scanLines more := by
      intro more
      unfold scanLines
      rw [hr, List.takeWhile_append_of_pos (by simpa using hlong), List.map_append]
    by_cases hterm : ∃ r ∈ (rawLines a).map dropCR, isTerminator r = true
    · left
      unfold splitDocs
      rw [List.append_assoc, hs, hs, splitLoop_terminated _ _ _ hterm]
    · right
      have hterm : ∀ r ∈ (rawLines a).map dropCR, isTerminator r = false := by
        intro r hr
        by_contra h
        exact hterm ⟨r, hr, by simpa using h⟩
      obtain ⟨X, x, hX⟩ := splitLoop_front ((rawLines a).map dropCR) {} (by simp) (by simpa using hane) hterm
      have hb : scanLines (l ++ [10] ++ b) = dropCR l :: scanLines b := by
        unfold scanLines
        rw [hr2, List.takeWhile_cons_of_pos (by simp only [decide_eq_true_eq]; exact hlen)]
        rfl
      have hsd : isSeparator (dropCR l) = true := by
        obtain ⟨r, rfl⟩ := hsep
        unfold dropCR
        split
        · rename_i hcr
          cases hrr : r with
          | nil => rw [hrr] at hcr; simp [CR] at hcr
          | cons y ys =>
            rw [isSeparator_iff]
            exact ⟨(y :: ys).dropLast, by rw [List.dropLast_append_of_ne_nil (by simp)]⟩
        · rw [isSeparator_iff]; exact ⟨r, rfl⟩
      refine ⟨X, x, (tailDocs (scanLines b)).1, (tailDocs (scanLines b)).2, ?_, ?_⟩
      · unfold splitDocs
        rw [hs, hX, splitLoop_tail]
      · unfold splitDocs
        rw [List.append_assoc, hs, hX, splitLoop_tail, hb, tailDocs]
        simp [hsd]
  · left
    have : ∀ more, scanLines (a ++ more) = scanLines a := by
      intro more
      unfold scanLines
      rw [hr, List.takeWhile_append]
      have : ((rawLines a).takeWhile (fun l => decide (l.length < maxToken))).length ≠ (rawLines a).length := by
        intro h
        refine hlong fun r hr => ?_
        have h := List.takeWhile_eq_self_iff.1 ((List.takeWhile_prefix _).eq_of_length h) r hr
        simpa using h
      rw [if_neg this]
    unfold splitDocs
    rw [List.append_assoc, this, this]

theorem extract_filter (Y : SigLib) (rs : List RawResource) :
    extract Y rs = extract Y (rs.filter (fun r => r.kind = "signature")) := by
  induction rs with
  | nil => rfl
  | cons r rs ih =>
    by_cases h : r.kind = "signature"
    · rw [List.filter_cons_of_pos (by simpa using h)]
      simp only [extract]
      rw [ih]
    · rw [List.filter_cons_of_neg (by simpa using h), ← ih, extract]
      exact if_neg h

/-- **C130.** Between any two lines of a file a separator may be inserted without the key: as long as
both files are read and have the same signature documents, the verdict on them is the same, whatever the
key. -/
theorem C130_insert (Y : SigLib) (mac : Mac) (key a b l : Bytes) (ha : a.getLast? = some 10)
    (hl : (10 : UInt8) ∉ l) (hsep : SepLine l) (hlen : l.length < 65536) (r1 r2 : List RawResource)
    (h1 : parseRawBytes Y.toYamlLib (a ++ b) = .ok r1)
    (h2 : parseRawBytes Y.toYamlLib (a ++ (l ++ [10]) ++ b) = .ok r2)
    (hsig : r1.filter (fun r => r.kind = "signature") = r2.filter (fun r => r.kind = "signature")) :
    verify Y mac (a ++ (l ++ [10]) ++ b) key = verify Y mac (a ++ b) key := by
  have he : extract Y r2 = extract Y r1 := by rw [extract_filter, extract_filter Y r1, hsig]
  have hc : signedBytes r2 = signedBytes r1 := by
    rcases splitDocs_insert (b := b) ha hl hsep hlen with h | ⟨X, x, y, Z, e1, e2⟩
    · have : parseRawBytes Y.toYamlLib (a ++ (l ++ [10]) ++ b) = parseRawBytes Y.toYamlLib (a ++ b) := by
        show decodeHeaders _ (splitDocs _) = decodeHeaders _ (splitDocs _)
        rw [h]
      rw [h1, h2] at this
      rw [Except.ok.inj this]
    · have d1 : decodeHeaders _ (splitDocs (a ++ b)) = .ok r1 := h1
      have d2 : decodeHeaders _ (splitDocs (a ++ (l ++ [10]) ++ b)) = .ok r2 := h2
      rw [e1, decodeHeaders_ok_iff] at d1
      rw [e2, decodeHeaders_ok_iff] at d2
      obtain ⟨p1, q1, rfl, f1, g1⟩ := forall₂_split d1
      obtain ⟨p2, q2, rfl, f2, g2⟩ := forall₂_split d2
      have hp : decodeHeaders Y.toYamlLib X = .ok p1 := (decodeHeaders_ok_iff _ _ _).2 f1
      have hp' : decodeHeaders Y.toYamlLib X = .ok p2 := (decodeHeaders_ok_iff _ _ _).2 f2
      obtain rfl : p1 = p2 := Except.ok.inj (hp.symm.trans hp')
      cases g1 with
      | @cons _ r _ z1 hr g1 =>
        cases g2 with
        | @cons _ rx _ z2 hx g2 =>
          cases g2 with
          | @cons _ ry _ z2 hy g2 =>
            have hz : decodeHeaders Y.toYamlLib Z = .ok z1 := (decodeHeaders_ok_iff _ _ _).2 g1
            have hz' : decodeHeaders Y.toYamlLib Z = .ok z2 := (decodeHeaders_ok_iff _ _ _).2 g2
            obtain rfl : z1 = z2 := Except.ok.inj (hz.symm.trans hz')
            have hrd : r.data = rx.data ++ ry.data := by rw [hr.1, hx.1, hy.1]
            rw [signedBytes_eq, signedBytes_eq]
            have key : [r].filter (fun r => r.kind = "signature") = [rx, ry].filter (fun r => r.kind = "signature") := by
              have e : r :: z1 = [r] ++ z1 := rfl
              have e' : rx :: ry :: z1 = [rx, ry] ++ z1 := rfl
              rw [e, e'] at hsig
              simp only [List.filter_append] at hsig
              exact List.append_cancel_right (List.append_cancel_left hsig)
            have : Spec.content [rx, ry] = Spec.content [r] := by
              by_cases k : r.kind = "signature" <;> by_cases kx : rx.kind = "signature" <;>
                by_cases ky : ry.kind = "signature" <;>
                simp [List.filter_cons, k, kx, ky] at key
              · subst key
                simpa [Spec.content, List.filter_cons, k, kx, ky] using hrd
              · subst key
                simpa [Spec.content, List.filter_cons, k, kx, ky] using hrd
              · simp [Spec.content, List.filter_cons, k, kx, ky, hrd]
            unfold Spec.content at this ⊢
            have e : r :: z1 = [r] ++ z1 := rfl
            have e' : rx :: ry :: z1 = [rx, ry] ++ z1 := rfl
            rw [e, e']
            simp only [List.filter_append, List.map_append, List.flatten_append] at this ⊢
            rw [this]
  unfold verify
  rw [h1, h2]
  simp only [he, signRes, hc]

/-- **C130.** Behind a terminator anything may be changed without the key. -/
theorem C130_behind (Y : SigLib) (mac : Mac) (key a b c : Bytes) (ha : a.getLast? = some 10)
    (ht : ∃ ls, IsLines a ls ∧ (∀ l ∈ ls, l.length < 65536) ∧ ∃ l ∈ ls, TermLine l) :
    parseRawBytes Y.toYamlLib (a ++ b) = parseRawBytes Y.toYamlLib (a ++ c) ∧
    sign Y mac (a ++ b) key = sign Y mac (a ++ c) key ∧
    verify Y mac (a ++ b) key = verify Y mac (a ++ c) key := by
  obtain ⟨ls, hls, hlen, l, hl, hterm⟩ := ht
  have hs : ∀ more, scanLines (a ++ more) = ls.map dropCR ++ scanLines more := by
    intro more
    unfold scanLines
    rw [rawLines_newline (.inr ha), rawLines_eq hls, List.takeWhile_append_of_pos (by simp only [decide_eq_true_eq]; exact hlen),
      List.map_append]
  have hd : ∃ r ∈ ls.map dropCR, isTerminator r = true := by
    refine ⟨dropCR l, List.mem_map_of_mem hl, ?_⟩
    obtain ⟨r, rfl⟩ := hterm
    unfold dropCR
    split
    · rename_i hcr
      cases hrr : r with
      | nil => rw [hrr] at hcr; simp [CR] at hcr
      | cons y ys =>
        rw [isTerminator_iff]
        exact ⟨(y :: ys).dropLast, by rw [List.dropLast_append_of_ne_nil (by simp)]⟩
    · rw [isTerminator_iff]; exact ⟨r, rfl⟩
  have hp : parseRawBytes Y.toYamlLib (a ++ b) = parseRawBytes Y.toYamlLib (a ++ c) := by
    show decodeHeaders _ (splitDocs _) = decodeHeaders _ (splitDocs _)
    unfold splitDocs
    rw [hs, hs, splitLoop_terminated _ _ _ hd]
  refine ⟨hp, ?_, ?_⟩
  · unfold sign; rw [hp]
  · unfold verify; rw [hp]

/-! ### Examples -/

/-- Two lines of one document, or one line in each of two: the same signature. -/
example : ∃ r1 r2 own, parseRawBytes exSig.toYamlLib (utf8 "a: 1\nb: 2\n") = .ok r1 ∧
    parseRawBytes exSig.toYamlLib (utf8 "a: 1\n--- # x\nb: 2\n...\nc: 3\n") = .ok r2 ∧ r1.length = 1 ∧ r2.length = 2 ∧
    (∀ r ∈ r1, r.kind ≠ "signature") ∧ (∀ r ∈ r2, r.kind ≠ "signature") ∧
    OwnLines (utf8 "a: 1\nb: 2\n") own ∧ OwnLines (utf8 "a: 1\n--- # x\nb: 2\n...\nc: 3\n") own := by
  have p1 : parseRawBytes exSig.toYamlLib (utf8 "a: 1\nb: 2\n") =
      .ok [⟨"", "pipeline", "", utf8 "a: 1\nb: 2\n"⟩] := by rfl
  have p2 : parseRawBytes exSig.toYamlLib (utf8 "a: 1\n--- # x\nb: 2\n...\nc: 3\n") =
      .ok [⟨"", "pipeline", "", utf8 "a: 1\n"⟩, ⟨"", "pipeline", "", utf8 "b: 2\n"⟩] := by rfl
  obtain ⟨o1, h1, _, e1⟩ := C130_lines _ _ _ p1
  obtain ⟨o2, h2, _, e2⟩ := C130_lines _ _ _ p2
  obtain rfl : o1 = o2 := unlines_inj _ _ (own_no_newline h1) (own_no_newline h2) (by rw [← e1, ← e2]; rfl)
  exact ⟨_, _, o1, p1, p2, rfl, rfl, by decide, by decide, h1, h2⟩

example : sign exSig exMac (utf8 "a: 1\nb: 2\n") exKey = sign exSig exMac (utf8 "a: 1\n--- # x\nb: 2\n...\nc: 3\n") exKey ∧
    ∃ s, sign exSig exMac (utf8 "a: 1\nb: 2\n") exKey = .ok s := ⟨by decide +kernel, _, rfl⟩

/-- A signed file into which a separator is inserted without the key. -/
example : ∃ r1 r2, parseRawBytes exSig.toYamlLib (utf8 "a: 1\n" ++ utf8 "b: 2\n---\nkind: signature\nhmac: 00\n") = .ok r1 ∧
    parseRawBytes exSig.toYamlLib (utf8 "a: 1\n" ++ (utf8 "---" ++ [10]) ++ utf8 "b: 2\n---\nkind: signature\nhmac: 00\n") = .ok r2 ∧
    r1.length = 2 ∧ r2.length = 3 ∧
    r1.filter (fun r => r.kind = "signature") = r2.filter (fun r => r.kind = "signature") ∧
    r1.filter (fun r => r.kind = "signature") ≠ [] :=
  ⟨_, _, rfl, rfl, rfl, rfl, by decide +kernel, by decide +kernel⟩

example : ∃ ls, IsLines (utf8 "a: 1\n...\n") ls ∧ (∀ l ∈ ls, l.length < 65536) ∧ ∃ l ∈ ls, TermLine l :=
  ⟨[utf8 "a: 1", utf8 "..."], ⟨by decide, .inl (by decide)⟩, by decide, utf8 "...", by simp, [], rfl⟩

/-! ### What the file means -/

section Attack

variable (R : Resolver)

/-- A line `key: value` at a column, both words. -/
theorem entry_line {k v : String} (hk : Word k) (hv : Word v) (hkl : k.toList.length ≤ 1024) (hm : k.toList ≠ ['<', '<'])
    (c : Nat) : LineToks R (List.replicate c ' ' ++ (k.toList ++ ':' :: ' ' :: v.toList))
      [.key c (plainNode R k) (some (plainNode R v))] := by
  refine .mk (.entry ?_ ⟨hkl, hm⟩ (plain_atom (plain_lit hv)))
  have := ScalarText.plain (R := R) (plain_lit hk)
  simpa using this

theorem key_line {k : String} (hk : Word k) (hkl : k.toList.length ≤ 1024) (hm : k.toList ≠ ['<', '<'])
    (c : Nat) : LineToks R (List.replicate c ' ' ++ (k.toList ++ [':'])) [.key c (plainNode R k) none] := by
  refine .mk (.key ?_ ⟨hkl, hm⟩)
  have := ScalarText.plain (R := R) (plain_lit hk)
  simpa using this

/-- The trees of the examples. -/
abbrev wd (s : String) : Yaml.Node := .scalar s .str
def mvKind : Yaml.Node × Yaml.Node := (wd "kind", wd "pipeline")
def mvTest : Yaml.Node × Yaml.Node := (wd "name", wd "test")
def mvDeploy : Yaml.Node × Yaml.Node := (wd "name", wd "deploy")
def mvTrigger : Yaml.Node × Yaml.Node := (wd "trigger", .map [(wd "branch", wd "master")])

/-- The words of the example are strings for the library. -/
def Spec.Strings (R : Resolver) : Prop :=
  ∀ w ∈ ["kind", "pipeline", "name", "test", "deploy", "trigger", "branch", "master"], R.plain w = some .str

variable {R}

theorem plainNode_str {w : String} (hR : Spec.Strings R)
    (hw : w ∈ ["kind", "pipeline", "name", "test", "deploy", "trigger", "branch", "master"]) : plainNode R w = wd w := by
  unfold plainNode
  rw [hR w hw]

theorem mv_lines (hR : Spec.Strings R) :
    LineToks R "kind: pipeline".toList [.key 0 (wd "kind") (some (wd "pipeline"))] ∧
    LineToks R "name: test".toList [.key 0 (wd "name") (some (wd "test"))] ∧
    LineToks R "name: deploy".toList [.key 0 (wd "name") (some (wd "deploy"))] ∧
    LineToks R "trigger:".toList [.key 0 (wd "trigger") none] ∧
    LineToks R "  branch: master".toList [.key 2 (wd "branch") (some (wd "master"))] := by
  have e : ∀ w ∈ ["kind", "pipeline", "name", "test", "deploy", "trigger", "branch", "master"], plainNode R w = wd w :=
    fun w hw => plainNode_str hR hw
  refine ⟨?_, ?_, ?_, ?_, ?_⟩
  · have := entry_line R (k := "kind") (v := "pipeline") (by decide) (by decide) (by decide) (by decide) 0
    rwa [e _ (by decide), e _ (by decide)] at this
  · have := entry_line R (k := "name") (v := "test") (by decide) (by decide) (by decide) (by decide) 0
    rwa [e _ (by decide), e _ (by decide)] at this
  · have := entry_line R (k := "name") (v := "deploy") (by decide) (by decide) (by decide) (by decide) 0
    rwa [e _ (by decide), e _ (by decide)] at this
  · have := key_line R (k := "trigger") (by decide) (by decide) (by decide) 0
    rwa [e _ (by decide)] at this
  · have := entry_line R (k := "branch") (v := "master") (by decide) (by decide) (by decide) (by decide) 2
    rwa [e _ (by decide), e _ (by decide)] at this

theorem mv_a (hR : Spec.Strings R) : Reads R "kind: pipeline\nname: test\n" (.map [mvKind, mvTest]) := by
  obtain ⟨h1, h2, h3, h4, h5⟩ := mv_lines hR
  exact ⟨["kind: pipeline".toList, "name: test".toList], _, 0, by decide, by decide,
    .line h1 (.line h2 .nil), .map (.inline (.inline .nil)) (by simp)⟩

theorem mv_b (hR : Spec.Strings R) : Reads R "kind: pipeline\nname: deploy\n" (.map [mvKind, mvDeploy]) := by
  obtain ⟨h1, h2, h3, h4, h5⟩ := mv_lines hR
  exact ⟨["kind: pipeline".toList, "name: deploy".toList], _, 0, by decide, by decide,
    .line h1 (.line h3 .nil), .map (.inline (.inline .nil)) (by simp)⟩

theorem mv_at (hR : Spec.Strings R) :
    Reads R "kind: pipeline\nname: test\ntrigger:\n  branch: master\n" (.map [mvKind, mvTest, mvTrigger]) := by
  obtain ⟨h1, h2, h3, h4, h5⟩ := mv_lines hR
  refine ⟨["kind: pipeline".toList, "name: test".toList, "trigger:".toList, "  branch: master".toList], _, 0,
    by decide, by decide, .line h1 (.line h2 (.line h4 (.line h5 .nil))), .map (.inline (.inline ?_)) (by simp)⟩
  exact .block (d := 2) (body := [.key 2 (wd "branch") (some (wd "master"))]) (by decide)
    (.map (.inline .nil) (by simp)) .nil

theorem mv_tb (hR : Spec.Strings R) :
    Reads R "trigger:\n  branch: master\nkind: pipeline\nname: deploy\n" (.map [mvTrigger, mvKind, mvDeploy]) := by
  obtain ⟨h1, h2, h3, h4, h5⟩ := mv_lines hR
  refine ⟨["trigger:".toList, "  branch: master".toList, "kind: pipeline".toList, "name: deploy".toList], _, 0,
    by decide, by decide, .line h4 (.line h5 (.line h1 (.line h3 .nil))), .map ?_ (by simp)⟩
  exact .block (d := 2) (body := [.key 2 (wd "branch") (some (wd "master"))]) (by decide)
    (.map (.inline .nil) (by simp)) (.inline (.inline .nil))

/-- The file that is signed: the second pipeline runs for one branch only. -/
def mvSigned : Bytes :=
  utf8 "kind: pipeline\nname: test\n---\ntrigger:\n  branch: master\nkind: pipeline\nname: deploy\n"

/-- The file with the separator two lines further down. -/
def mvMoved : Bytes :=
  utf8 "kind: pipeline\nname: test\ntrigger:\n  branch: master\n---\nkind: pipeline\nname: deploy\n"

/-- **C130.** A signed file with a pipeline for one branch.  Without the key its separator can be moved so
that it still verifies and that pipeline runs for all branches. -/
theorem C130_moved (hR : Spec.Strings R) (ram : String → Option Int) (tree : Bytes → Except String Yaml.Node)
    (ht : Parses R tree) (mac : Mac) (hmac : Mac32 mac) (key : Bytes) (hk : 32 ≤ key.length) :
    parseBytes (treeLib ram tree) mvSigned = .ok ⟨[.pipeline { kind := "pipeline", name := "test" },
      .pipeline { kind := "pipeline", name := "deploy", trigger := { branch := { incl := ["master"] } } }]⟩ ∧
    parseBytes (treeLib ram tree) mvMoved = .ok ⟨[
      .pipeline { kind := "pipeline", name := "test", trigger := { branch := { incl := ["master"] } } },
      .pipeline { kind := "pipeline", name := "deploy" }]⟩ ∧
    ∃ s out, sign (treeSig ram tree) mac mvSigned key = .ok s ∧ writeTo (treeSig ram tree) mvMoved s = (out, none) ∧
      verify (treeSig ram tree) mac out key = .ok true := by
  have s1 : splitDocs mvSigned = [utf8 "kind: pipeline\nname: test\n",
      utf8 "trigger:\n  branch: master\nkind: pipeline\nname: deploy\n"] := by decide +kernel
  have s2 : splitDocs mvMoved = [utf8 "kind: pipeline\nname: test\ntrigger:\n  branch: master\n",
      utf8 "kind: pipeline\nname: deploy\n"] := by decide +kernel
  have t1 := ht _ _ (mv_a hR)
  have t2 := ht _ _ (mv_b hR)
  have t3 := ht _ _ (mv_at hR)
  have t4 := ht _ _ (mv_tb hR)
  have p1 : parseRawBytes (treeLib ram tree) mvSigned = .ok [⟨"", "pipeline", "", utf8 "kind: pipeline\nname: test\n"⟩,
      ⟨"", "pipeline", "", utf8 "trigger:\n  branch: master\nkind: pipeline\nname: deploy\n"⟩] := by
    show decodeHeaders _ (splitDocs _) = _
    rw [s1]
    simp only [decodeHeaders, treeLib, t1, t4, Except.bind]
    rfl
  have p2 : parseRawBytes (treeLib ram tree) mvMoved = .ok [
      ⟨"", "pipeline", "", utf8 "kind: pipeline\nname: test\ntrigger:\n  branch: master\n"⟩,
      ⟨"", "pipeline", "", utf8 "kind: pipeline\nname: deploy\n"⟩] := by
    show decodeHeaders _ (splitDocs _) = _
    rw [s2]
    simp only [decodeHeaders, treeLib, t2, t3, Except.bind]
    rfl
  refine ⟨?_, ?_, ?_⟩
  · unfold parseBytes parseReader
    rw [show parseRawReader (treeLib ram tree) { data := mvSigned } = _ from p1]
    simp only [parseAll, parseResource, treeLib, t1, t4, Except.bind]
    rfl
  · unfold parseBytes parseReader
    rw [show parseRawReader (treeLib ram tree) { data := mvMoved } = _ from p2]
    simp only [parseAll, parseResource, treeLib, t2, t3, Except.bind]
    rfl
  · have hs := sign_eq (Y := treeSig ram tree) (mac := mac) p1 hk
    obtain ⟨o1, q1, _, e1⟩ := C130_lines _ _ _ p1
    obtain ⟨o2, q2, _, e2⟩ := C130_lines _ _ _ p2
    obtain rfl : o1 = o2 := unlines_inj _ _ (own_no_newline q1) (own_no_newline q2)
      (by rw [← e1, ← e2]; decide +kernel)
    obtain ⟨out, h1, h2⟩ := C130_transplant _ (treeSig_reads ht) mac hmac _ _ _ _ _ p1 p2 (by decide) (by decide) _ q1 q2
      (by unfold NoDoubleCR; decide +kernel) _ hs
    exact ⟨_, out, hs, h1, h2⟩

/-- There is such a library. -/
example : Spec.Strings exResolver ∧ ∃ tree, Parses exResolver tree := ⟨by unfold Spec.Strings; decide, parser_exists _⟩

end Attack

end Drone
