/-
The text of a setting is read back as the JSON value that stands for it.
-/
import Mathlib.Data.List.Sort
import Verif.Spec.Json
import Verif.Proof.Refill

namespace Drone
open Spec Encode

variable {X : Floats}

/-! ### Order of entries -/

theorem insertEntry_perm {α : Type} (e : String × α) (l : List (String × α)) : (insertEntry e l).Perm (e :: l) := by
  induction l with
  | nil => exact .refl _
  | cons f fs ih =>
    unfold insertEntry
    split
    · exact .refl _
    · exact (ih.cons f).trans (.swap _ _ _)

theorem sortEntries_perm {α : Type} (l : List (String × α)) : (sortEntries l).Perm l := by
  induction l with
  | nil => exact .refl _
  | cons e l ih => exact (insertEntry_perm e _).trans (ih.cons e)

theorem insertEntry_pairwise {α : Type} {e : String × α} {l : List (String × α)}
    (h : l.Pairwise fun a b => a.1 < b.1) (hn : ∀ f ∈ l, f.1 ≠ e.1) :
    (insertEntry e l).Pairwise fun a b => a.1 < b.1 := by
  induction l with
  | nil => simp [insertEntry]
  | cons f fs ih =>
    unfold insertEntry
    rw [List.pairwise_cons] at h
    split
    · rename_i hlt
      refine List.pairwise_cons.2 ⟨?_, List.pairwise_cons.2 h⟩
      intro a ha
      rcases List.mem_cons.1 ha with rfl | ha
      · exact hlt
      · exact lt_trans hlt (h.1 a ha)
    · rename_i hlt
      refine List.pairwise_cons.2 ⟨?_, ih h.2 fun g hg => hn g (List.mem_cons_of_mem _ hg)⟩
      intro a ha
      rcases List.mem_cons.1 ((insertEntry_perm e fs).subset ha) with rfl | ha
      · exact lt_of_le_of_ne (not_lt.1 hlt) (hn f List.mem_cons_self)
      · exact h.1 a ha

theorem sortEntries_pairwise {α : Type} {l : List (String × α)} (h : (l.map Prod.fst).Nodup) :
    (sortEntries l).Pairwise fun a b => a.1 < b.1 := by
  induction l with
  | nil => exact .nil
  | cons e l ih =>
    rw [List.map_cons, List.nodup_cons] at h
    refine insertEntry_pairwise (ih h.2) fun f hf he => h.1 ?_
    rw [← he]
    exact List.mem_map_of_mem ((sortEntries_perm l).subset hf)

theorem pairwise_perm_eq {α : Type} {l l' : List (String × α)} (h : l.Pairwise fun a b => a.1 < b.1)
    (h' : l'.Pairwise fun a b => a.1 < b.1) (hp : l.Perm l') : l = l' := by
  refine hp.eq_of_pairwise (le := fun a b => a.1 < b.1) ?_ h h'
  intro a b _ _ h1 h2
  exact absurd (lt_trans h1 h2) (lt_irrefl _)

theorem pairwise_nodup {α : Type} {l : List (String × α)} (h : l.Pairwise fun a b => a.1 < b.1) :
    (l.map Prod.fst).Nodup := by
  rw [List.Nodup, List.pairwise_map]
  exact h.imp fun h => ne_of_lt h

theorem sortEntries_of_perm {α : Type} {l l' : List (String × α)} (h : l'.Pairwise fun a b => a.1 < b.1)
    (hp : l.Perm l') : sortEntries l = l' :=
  pairwise_perm_eq (sortEntries_pairwise ((hp.map Prod.fst).nodup_iff.2 (pairwise_nodup h))) h
    ((sortEntries_perm l).trans hp)

/-! ### The value handed to the encoder -/

theorem renderEntries_eq (l : List (String × Json)) : renderEntries l = l.map fun e => (e.1, render e.2) := by
  induction l with
  | nil => rfl
  | cons e l ih => obtain ⟨k, j⟩ := e; rw [renderEntries, ih]; rfl

theorem renders_eq (l : List Json) : renders l = l.map render := by
  induction l with
  | nil => rfl
  | cons e l ih => rw [renders, ih]; rfl

theorem keyName_text {k : Value} {s : String} (h : KeyName X.key k s) : keyText X k = some s := by
  cases h <;> rfl

theorem text_keyName {k : Value} {s : String} (h : keyText X k = some s) : KeyName X.key k s := by
  cases k with
  | str t => cases h; exact .str _
  | int t => cases h; exact .int _
  | float t => cases h; exact .float _
  | bool b => cases b <;> cases h
              · exact .false
              · exact .true
  | null => cases h
  | seq _ => cases h
  | map _ => cases h

mutual
theorem stands_render {v : Value} {j : Json} (h : Stands X.json X.key v j) :
    ∃ j0, toJson X v = some j0 ∧ render j0 = render j := by
  cases h with
  | null => exact ⟨_, rfl, rfl⟩
  | bool b => exact ⟨_, rfl, rfl⟩
  | int i => exact ⟨_, rfl, rfl⟩
  | float q => exact ⟨_, rfl, rfl⟩
  | str s => exact ⟨_, rfl, rfl⟩
  | seq h =>
    obtain ⟨js, h1, h2⟩ := standsList_render h
    exact ⟨.arr js, by rw [toJson, h1]; rfl, by rw [render, render, h2]⟩
  | @map kvs es fs h hp hs =>
    have hn : (es.map Prod.fst).Nodup := (hp.map Prod.fst).nodup_iff.2 (pairwise_nodup hs)
    obtain ⟨es0, h1, h2⟩ := standsEntries_render h [] (by simpa [GoMap.keys] using hn)
    refine ⟨.obj es0, by rw [toJson, h1]; rfl, ?_⟩
    rw [render, render, h2]
    have e : sortEntries (renderEntries es) = sortEntries (renderEntries fs) := by
      have hs' : (renderEntries fs).Pairwise fun a b => a.1 < b.1 := by
        rw [renderEntries_eq, List.pairwise_map]
        exact hs
      rw [sortEntries_of_perm hs' (.refl _)]
      refine sortEntries_of_perm hs' ?_
      rw [renderEntries_eq, renderEntries_eq]
      exact hp.map _
    rw [show renderEntries ([] ++ es) = renderEntries es from rfl, e]

theorem standsList_render {vs : List Value} {js : List Json} (h : StandsList X.json X.key vs js) :
    ∃ js0, toJsons X vs = some js0 ∧ renders js0 = renders js := by
  cases h with
  | nil => exact ⟨_, rfl, rfl⟩
  | cons h hs =>
    obtain ⟨j0, h1, h2⟩ := stands_render h
    obtain ⟨js0, h3, h4⟩ := standsList_render hs
    exact ⟨j0 :: js0, by rw [toJsons, h1, h3]; rfl, by rw [renders, renders, h2, h4]⟩

theorem standsEntries_render {kvs : List (Value × Value)} {es : List (String × Json)}
    (h : StandsEntries X.json X.key kvs es) (acc : GoMap Json) (hn : (acc.keys ++ es.map Prod.fst).Nodup) :
    ∃ es0, toEntries X kvs acc = some es0 ∧ renderEntries es0 = renderEntries (acc ++ es) := by
  cases h with
  | nil => exact ⟨acc, rfl, by rw [List.append_nil]⟩
  | @cons k s v j kvs es hk h hs =>
    obtain ⟨j0, h1, h2⟩ := stands_render h
    have hs0 : s ∉ acc.keys := by
      intro hm
      rw [List.nodup_append] at hn
      exact hn.2.2 s hm s (by simp) rfl
    have hset : acc.set s j0 = acc ++ [(s, j0)] := set_append j0 hs0
    obtain ⟨es0, h3, h4⟩ := standsEntries_render hs (acc.set s j0) (by
      rw [hset]
      simpa [GoMap.keys] using hn)
    refine ⟨es0, by rw [toEntries, keyName_text hk, h1]; exact h3, ?_⟩
    rw [h4, hset]
    simp only [renderEntries_eq, List.map_append, List.map_cons, List.map_nil, List.append_assoc, List.singleton_append, h2]
end

theorem stands_text {v : Value} {j : Json} (h : Stands X.json X.key v j) : jsonText X v = String.ofList (render j) := by
  obtain ⟨j0, h1, h2⟩ := stands_render h
  unfold jsonText
  rw [h1]
  simp only [h2]

/-! ### Reading strings -/

theorem hexValue_hexChar : ∀ n, n < 16 → hexValue (hexChar n) = some n := by decide +kernel

theorem hexChar_class : ∀ n, n < 16 → hexChar n ≠ '"' := by decide +kernel

theorem ofNatAux_toNat (c : Char) (h : c.toNat.isValidChar) : Char.ofNatAux c.toNat h = c := by
  apply Char.ext
  apply UInt32.toNat.inj
  rfl

theorem readString_u (a b c d : Char) (r : List Char) : readString ('\\' :: 'u' :: a :: b :: c :: d :: r) =
    match hexValue a, hexValue b, hexValue c, hexValue d with
    | some w, some x, some y, some z =>
      if h : (4096 * w + 256 * x + 16 * y + z).isValidChar then
        onto (Char.ofNatAux _ h) (readString r)
      else none
    | _, _, _, _ => none := by
  rw [readString]
  rfl

theorem read_escaped (c : Char) (hc : c.toNat < 65536) (r : List Char) :
    readString (escaped c.toNat ++ r) = onto c (readString r) := by
  unfold escaped
  simp only [List.cons_append, List.nil_append]
  rw [readString_u, hexValue_hexChar _ (Nat.mod_lt _ (by decide)), hexValue_hexChar _ (Nat.mod_lt _ (by decide)),
    hexValue_hexChar _ (Nat.mod_lt _ (by decide)), hexValue_hexChar _ (Nat.mod_lt _ (by decide))]
  have e : 4096 * (c.toNat / 4096 % 16) + 256 * (c.toNat / 256 % 16) + 16 * (c.toNat / 16 % 16) + c.toNat % 16 = c.toNat := by
    omega
  have hv : c.toNat.isValidChar := c.valid
  simp only [e]
  rw [dif_pos hv, ofNatAux_toNat]

theorem read_plain (c : Char) (h1 : ¬ c.toNat < 0x20) (h2 : c ≠ '"') (h3 : c ≠ '\\') (r : List Char) :
    readString (c :: r) = onto c (readString r) := by
  rw [readString]
  · rw [if_neg (by simp [h1, h3])]
  · exact h2
  · rintro _ _ _ _ _ h _
    exact h3 h
  · rintro _ _ h _
    exact h3 h

theorem read_jsonChar (c : Char) (r : List Char) : readString (jsonChar c ++ r) = onto c (readString r) := by
  unfold jsonChar
  split
  · rename_i h
    rcases h with rfl | rfl
    · rfl
    · rfl
  · rename_i h
    obtain ⟨hq, hb⟩ := not_or.1 h
    split
    · rename_i h; subst h; rfl
    · split
      · rename_i h; subst h; rfl
      · split
        · rename_i h; subst h; rfl
        · split
          · rename_i h
            refine read_escaped c ?_ r
            rcases h with h | rfl | rfl | rfl | h | h
            · omega
            · decide
            · decide
            · decide
            · omega
            · omega
          · rename_i h
            exact read_plain c (fun hc => h (.inl hc)) hq hb r

theorem read_chars (s r : List Char) : readString (s.flatMap jsonChar ++ '"' :: r) = some (s, r) := by
  induction s with
  | nil => rw [List.flatMap_nil, List.nil_append, readString]
  | cons c s ih =>
    rw [List.flatMap_cons, List.append_assoc, read_jsonChar, ih]
    rfl

/-! ### Reading numbers -/

theorem takeWhile_all {p : Char → Bool} {s : List Char} (h : ∀ c ∈ s, p c = true) (r : List Char)
    (hr : ∀ c, r.head? = some c → p c = false) : (s ++ r).takeWhile p = s ∧ (s ++ r).dropWhile p = r := by
  have h0 : r.takeWhile p = [] ∧ r.dropWhile p = r := by
    cases r with
    | nil => exact ⟨rfl, rfl⟩
    | cons c r => simp [List.takeWhile_cons, List.dropWhile_cons, hr c rfl]
  rw [List.takeWhile_append_of_pos h, List.dropWhile_append_of_pos h, h0.1, h0.2]
  simp

theorem digit_numberChar {c : Char} (h : c.isDigit = true) : numberChar c = true := by
  unfold numberChar
  rw [h]
  rfl

theorem isDigits_iff {s : List Char} (h : isDigits s = true) : s ≠ [] ∧ ∀ c ∈ s, c.isDigit = true := by
  simpa [isDigits] using h

theorem isExponent_chars {s : List Char} (h : isExponent s = true) : ∀ c ∈ s, numberChar c = true := by
  unfold isExponent at h
  split at h
  · intro c hc
    rcases List.mem_cons.1 hc with rfl | hc
    · rfl
    · exact digit_numberChar ((isDigits_iff h).2 c hc)
  · intro c hc
    rcases List.mem_cons.1 hc with rfl | hc
    · rfl
    · exact digit_numberChar ((isDigits_iff h).2 c hc)
  · exact fun c hc => digit_numberChar ((isDigits_iff h).2 c hc)

theorem isExp_chars {s : List Char} (h : isExp s = true) : ∀ c ∈ s, numberChar c = true := by
  unfold isExp at h
  split at h
  · intro c hc
    rcases List.mem_cons.1 hc with rfl | hc
    · rfl
    · exact isExponent_chars h c hc
  · intro c hc
    rcases List.mem_cons.1 hc with rfl | hc
    · rfl
    · exact isExponent_chars h c hc
  · simp only [decide_eq_true_eq] at h
    subst h
    simp

theorem split_digits {P : Char → Prop} {s : List Char} (h1 : ∀ c ∈ s.takeWhile Char.isDigit, P c)
    (h2 : ∀ c ∈ s.dropWhile Char.isDigit, P c) : ∀ c ∈ s, P c := by
  intro c hc
  rw [← List.takeWhile_append_dropWhile (p := Char.isDigit) (l := s)] at hc
  rcases List.mem_append.1 hc with h | h
  · exact h1 c h
  · exact h2 c h

theorem isFraction_chars {s : List Char} (h : isFraction s = true) : ∀ c ∈ s, numberChar c = true := by
  unfold isFraction at h
  split at h
  · simp only [Bool.and_eq_true] at h
    intro c hc
    rcases List.mem_cons.1 hc with rfl | hc
    · rfl
    · exact split_digits (fun c hc => digit_numberChar ((isDigits_iff h.1).2 c hc)) (isExp_chars h.2) c hc
  · exact isExp_chars h

theorem isUnsigned_chars {s : List Char} (h : isUnsigned s = true) :
    (∀ c ∈ s, numberChar c = true) ∧ ∃ c r, s = c :: r ∧ c.isDigit = true := by
  unfold isUnsigned isWhole at h
  simp only [Bool.and_eq_true] at h
  obtain ⟨⟨h1, _⟩, h2⟩ := h
  obtain ⟨h3, h4⟩ := isDigits_iff h1
  refine ⟨split_digits (fun c hc => digit_numberChar (h4 c hc)) (isFraction_chars h2), ?_⟩
  cases s with
  | nil => exact absurd rfl h3
  | cons c r =>
    refine ⟨c, r, rfl, ?_⟩
    by_cases hc : c.isDigit = true
    · exact hc
    · rw [List.takeWhile_cons, if_neg hc] at h3
      exact absurd rfl h3

theorem isNumber_chars {s : List Char} (h : isNumber s = true) :
    (∀ c ∈ s, numberChar c = true) ∧ ∃ c r, s = c :: r ∧ (c = '-' ∨ c.isDigit = true) := by
  unfold isNumber at h
  split at h
  · refine ⟨fun c hc => ?_, _, _, rfl, .inl rfl⟩
    rcases List.mem_cons.1 hc with rfl | hc
    · rfl
    · exact (isUnsigned_chars h).1 c hc
  · obtain ⟨h1, c, r, h2, h3⟩ := isUnsigned_chars h
    exact ⟨h1, c, r, h2, .inr h3⟩

theorem toDigits_head (n : Nat) : 0 < n → (Nat.toDigits 10 n).head? ≠ some '0' := by
  induction n using Nat.strongRecOn with
  | ind n ih =>
    intro hn
    by_cases h : n < 10
    · rw [Nat.toDigits_of_lt_base h]
      have : ∀ m, m < 10 → 0 < m → [m.digitChar].head? ≠ some '0' := by decide
      exact this n h hn
    · have h' : 10 ≤ n := Nat.le_of_not_lt h
      rw [Nat.toDigits_of_base_le (by decide) h', List.head?_append_of_ne_nil _ Nat.toDigits_ne_nil]
      exact ih (n / 10) (by omega) (by omega)

theorem isUnsigned_digits (n : Nat) : isUnsigned (Nat.toDigits 10 n) = true := by
  have hd : ∀ c ∈ Nat.toDigits 10 n, c.isDigit = true :=
    fun c hc => Nat.isDigit_of_mem_toDigits (by decide) (by decide) hc
  obtain ⟨h1, h2⟩ := takeWhile_all (p := Char.isDigit) hd [] (by simp)
  rw [List.append_nil] at h1 h2
  unfold isUnsigned
  rw [h1, h2]
  have hn : Nat.toDigits 10 n ≠ [] := Nat.toDigits_ne_nil
  have hi : isDigits (Nat.toDigits 10 n) = true := by
    unfold isDigits
    rw [decide_eq_true_eq, List.all_eq_true]
    exact ⟨hn, hd⟩
  unfold isWhole
  rw [hi, show isFraction [] = true from rfl]
  by_cases h0 : n = 0
  · subst h0
    rw [Nat.toDigits_zero]
    rfl
  · have := toDigits_head n (Nat.pos_of_ne_zero h0)
    simp [this]

theorem isNumber_int (i : Int) : isNumber (toString i).toList = true := by
  cases i with
  | ofNat n =>
    show isNumber (Nat.repr n).toList = true
    have e : (Nat.repr n).toList = Nat.toDigits 10 n := by simp [Nat.repr]
    rw [e]
    obtain ⟨_, c, r, h2, h3⟩ := isUnsigned_chars (isUnsigned_digits n)
    have := isUnsigned_digits n
    rw [h2] at this ⊢
    unfold isNumber
    split
    · rename_i r' he
      rw [List.cons.injEq] at he
      rw [he.1] at h3
      exact absurd h3 (by decide)
    · exact this
  | negSucc n =>
    show isNumber ("-" ++ Nat.repr (n + 1)).toList = true
    have e : ("-" ++ Nat.repr (n + 1)).toList = '-' :: Nat.toDigits 10 (n + 1) := by
      simp [Nat.repr]
    rw [e]
    exact isUnsigned_digits (n + 1)

/-! ### Reading values -/

/-- What is written is read, whatever follows that cannot continue a number. -/
def ReadsBack (j : Json) : Prop :=
  (∀ t, render j ≠ ']' :: t) ∧ ∃ n, ∀ fuel, n ≤ fuel → ∀ rest : List Char,
    (∀ c, rest.head? = some c → numberChar c = false) → readValue fuel (render j ++ rest) = some (j, rest)

theorem readValue_number {n : Nat} {c : Char} {r : List Char} (hc : c = '-' ∨ c.isDigit = true) :
    readValue (n + 1) (c :: r) = if isNumber ((c :: r).takeWhile numberChar) then
      some (.num ((c :: r).takeWhile numberChar), (c :: r).dropWhile numberChar) else none := by
  have hne : ∀ d ∈ ['n', 't', 'f', '"', '[', '{'], c ≠ d := by
    rintro d hd rfl
    simp only [List.mem_cons, List.not_mem_nil, or_false] at hd
    rcases hd with rfl | rfl | rfl | rfl | rfl | rfl <;> revert hc <;> decide
  rw [readValue]
  all_goals
    intro r' h
    rw [List.cons.injEq] at h
    first
    | exact hne 'n' (by decide) h.1
    | exact hne 't' (by decide) h.1
    | exact hne 'f' (by decide) h.1
    | exact hne '"' (by decide) h.1
    | exact hne '[' (by decide) h.1
    | exact hne '{' (by decide) h.1

theorem num_reads {t : List Char} (h : isNumber t = true) : ReadsBack (.num t) := by
  obtain ⟨h1, c, r, h2, h3⟩ := isNumber_chars h
  refine ⟨?_, 1, ?_⟩
  · intro s hs
    rw [render, h2, List.cons.injEq] at hs
    rw [hs.1] at h3
    revert h3
    decide
  · intro fuel hf rest hr
    obtain ⟨m, rfl⟩ : ∃ m, fuel = m + 1 := ⟨fuel - 1, by omega⟩
    obtain ⟨h4, h5⟩ := takeWhile_all h1 rest hr
    rw [render]
    conv_lhs => rw [h2]
    rw [List.cons_append, readValue_number h3, ← List.cons_append, ← h2, h4, h5, if_pos h]

theorem str_reads (s : List Char) : ReadsBack (.str s) := by
  refine ⟨fun t ht => ?_, 1, fun fuel hf rest _ => ?_⟩
  · rw [render, jsonString, List.cons_append, List.cons.injEq] at ht
    exact absurd ht.1 (by decide)
  · obtain ⟨m, rfl⟩ : ∃ m, fuel = m + 1 := ⟨fuel - 1, by omega⟩
    rw [render, jsonString, List.cons_append, List.cons_append, List.append_assoc, readValue]
    rw [show (['"'] ++ rest : List Char) = '"' :: rest from rfl, read_chars]
    rfl

theorem bool_reads (b : Bool) : ReadsBack (.bool b) := by
  refine ⟨fun t ht => ?_, 1, fun fuel hf rest _ => ?_⟩
  · cases b <;> (rw [render] at ht; simp at ht)
  · obtain ⟨m, rfl⟩ : ∃ m, fuel = m + 1 := ⟨fuel - 1, by omega⟩
    cases b <;> rfl

theorem null_reads : ReadsBack .null := by
  refine ⟨fun t ht => ?_, 1, fun fuel hf rest _ => ?_⟩
  · rw [render] at ht; simp at ht
  · obtain ⟨m, rfl⟩ : ∃ m, fuel = m + 1 := ⟨fuel - 1, by omega⟩
    rfl

theorem items_read (js : List Json) (h : ∀ j ∈ js, ReadsBack j) (hne : js ≠ []) :
    (∀ t, commas (renders js) ≠ ']' :: t) ∧ ∃ n, ∀ fuel, n ≤ fuel → ∀ rest : List Char,
      readItems fuel (commas (renders js) ++ ']' :: rest) = some (js, rest) := by
  induction js with
  | nil => exact absurd rfl hne
  | cons j js ih =>
    obtain ⟨h1, n, h2⟩ := h j List.mem_cons_self
    cases js with
    | nil =>
      refine ⟨h1, n + 1, fun fuel hf rest => ?_⟩
      obtain ⟨m, rfl⟩ : ∃ m, fuel = m + 1 := ⟨fuel - 1, by omega⟩
      rw [readItems, show commas (renders [j]) = render j from rfl, h2 m (by omega) _ (by
        intro c hc
        simp only [List.head?_cons, Option.some.injEq] at hc
        subst hc
        rfl)]
      rfl
    | cons k ks =>
      obtain ⟨_, n', h4⟩ := ih (fun j hj => h j (List.mem_cons_of_mem _ hj)) (by simp)
      have e : commas (renders (j :: k :: ks)) = render j ++ ',' :: commas (renders (k :: ks)) := rfl
      refine ⟨?_, max n n' + 1, fun fuel hf rest => ?_⟩
      · intro t ht
        rw [e] at ht
        cases hj : render j with
        | nil =>
          rw [hj, List.nil_append, List.cons.injEq] at ht
          exact absurd ht.1 (by decide)
        | cons c r =>
          rw [hj, List.cons_append, List.cons.injEq] at ht
          exact h1 r (by rw [hj, ht.1])
      · obtain ⟨m, rfl⟩ : ∃ m, fuel = m + 1 := ⟨fuel - 1, by omega⟩
        rw [readItems, e, List.append_assoc, List.cons_append, h2 m (by omega) _ (by
          intro c hc
          simp only [List.head?_cons, Option.some.injEq] at hc
          subst hc
          rfl)]
        simp only [Option.bind_some]
        rw [h4 m (by omega)]
        rfl

theorem arr_reads (js : List Json) (h : ∀ j ∈ js, ReadsBack j) : ReadsBack (.arr js) := by
  refine ⟨fun t ht => ?_, ?_⟩
  · rw [render, List.cons_append, List.cons.injEq] at ht
    exact absurd ht.1 (by decide)
  · by_cases hne : js = []
    · subst hne
      refine ⟨1, fun fuel hf rest _ => ?_⟩
      obtain ⟨m, rfl⟩ : ∃ m, fuel = m + 1 := ⟨fuel - 1, by omega⟩
      rfl
    · obtain ⟨h1, n, h2⟩ := items_read js h hne
      refine ⟨n + 1, fun fuel hf rest _ => ?_⟩
      obtain ⟨m, rfl⟩ : ∃ m, fuel = m + 1 := ⟨fuel - 1, by omega⟩
      have hcl : ∀ r, commas (renders js) ++ ']' :: rest ≠ ']' :: r ∨ commas (renders js) = [] := by
        intro r
        cases hc : commas (renders js) with
        | nil => exact .inr rfl
        | cons c s =>
          refine .inl fun e => ?_
          rw [List.cons_append, List.cons.injEq] at e
          exact h1 s (by rw [hc, e.1])
      have hnil : commas (renders js) ≠ [] := by
        intro e
        have h3 := h2 n (Nat.le_refl _) []
        rw [e] at h3
        cases n with
        | zero => simp [readItems] at h3
        | succ n =>
          cases n with
          | zero => simp [readItems, readValue] at h3
          | succ n =>
            have : readValue (n + 1) (([] : List Char) ++ [']']) = none := by
              simp only [List.nil_append]
              rw [readValue]
              · rw [if_neg (by decide)]
              all_goals (intro r' h; simp at h)
            rw [readItems, this] at h3
            exact absurd h3 (by simp)
      rw [render, List.cons_append, List.cons_append, List.append_assoc, List.singleton_append, readValue]
      · rw [h2 m (by omega)]
        rfl
      · intro r e
        rcases hcl r with h | h
        · exact h e
        · exact hnil h

theorem members_read (es : List (String × Json)) (h : ∀ e ∈ es, ReadsBack e.2) (hne : es ≠ []) :
    ∃ n, ∀ fuel, n ≤ fuel → ∀ rest : List Char,
      readMembers fuel (commas (es.map fun e => jsonString e.1.toList ++ ':' :: render e.2) ++ '}' :: rest) =
        some (es, rest) := by
  induction es with
  | nil => exact absurd rfl hne
  | cons e es ih =>
    obtain ⟨k, j⟩ := e
    obtain ⟨_, n, h2⟩ := h (k, j) List.mem_cons_self
    have key : ∀ m c (rest : List Char), n ≤ m → numberChar c = false →
        readMembers (m + 1) ((jsonString k.toList ++ ':' :: render j) ++ c :: rest) =
        (match c :: rest with
          | ',' :: r => (readMembers m r).map fun q => ((k, j) :: q.1, q.2)
          | '}' :: r => some ([(k, j)], r)
          | _ => none) := by
      intro m c rest hm hc
      rw [jsonString, List.append_assoc, List.cons_append, List.cons_append, readMembers]
      rw [List.append_assoc, List.singleton_append, read_chars]
      simp only [Option.bind_some, List.cons_append, String.ofList_toList]
      rw [h2 m hm _ (by
        intro d hd
        simp only [List.head?_cons, Option.some.injEq] at hd
        subst hd
        exact hc)]
      rfl
    cases es with
    | nil =>
      refine ⟨n + 1, fun fuel hf rest => ?_⟩
      obtain ⟨m, rfl⟩ : ∃ m, fuel = m + 1 := ⟨fuel - 1, by omega⟩
      exact key m '}' rest (by omega) rfl
    | cons f fs =>
      obtain ⟨n', h4⟩ := ih (fun e he => h e (List.mem_cons_of_mem _ he)) (by simp)
      refine ⟨max n n' + 1, fun fuel hf rest => ?_⟩
      obtain ⟨m, rfl⟩ : ∃ m, fuel = m + 1 := ⟨fuel - 1, by omega⟩
      have e : commas (((k, j) :: f :: fs).map fun e => jsonString e.1.toList ++ ':' :: render e.2) =
        (jsonString k.toList ++ ':' :: render j) ++ ',' :: commas ((f :: fs).map fun e => jsonString e.1.toList ++ ':' :: render e.2) := rfl
      rw [e, List.append_assoc, List.cons_append, key m ',' _ (by omega) rfl]
      simp only
      rw [h4 m (by omega)]
      rfl

theorem obj_reads (fs : List (String × Json)) (hs : fs.Pairwise fun a b => a.1 < b.1)
    (h : ∀ e ∈ fs, ReadsBack e.2) : ReadsBack (.obj fs) := by
  have hsort : sortEntries (renderEntries fs) = renderEntries fs := by
    refine sortEntries_of_perm ?_ (.refl _)
    rw [renderEntries_eq, List.pairwise_map]
    exact hs
  have hr : render (.obj fs) = '{' :: commas (fs.map fun e => jsonString e.1.toList ++ ':' :: render e.2) ++ ['}'] := by
    rw [render, hsort, renderEntries_eq, List.map_map]
    rfl
  refine ⟨fun t ht => ?_, ?_⟩
  · rw [render, List.cons_append, List.cons.injEq] at ht
    exact absurd ht.1 (by decide)
  · by_cases hne : fs = []
    · subst hne
      refine ⟨1, fun fuel hf rest _ => ?_⟩
      obtain ⟨m, rfl⟩ : ∃ m, fuel = m + 1 := ⟨fuel - 1, by omega⟩
      rfl
    · obtain ⟨n, h2⟩ := members_read fs h hne
      refine ⟨n + 1, fun fuel hf rest _ => ?_⟩
      obtain ⟨m, rfl⟩ : ∃ m, fuel = m + 1 := ⟨fuel - 1, by omega⟩
      obtain ⟨e, es, rfl⟩ := List.exists_cons_of_ne_nil hne
      have hq : ∃ t, commas ((e :: es).map fun e => jsonString e.1.toList ++ ':' :: render e.2) = '"' :: t := by
        cases es with
        | nil => exact ⟨_, rfl⟩
        | cons f fs => exact ⟨_, rfl⟩
      obtain ⟨t, ht⟩ := hq
      rw [hr, List.cons_append, List.cons_append, List.append_assoc, List.singleton_append, readValue]
      · rw [h2 m (by omega)]
        rfl
      · intro r e
        rw [ht, List.cons_append, List.cons.injEq] at e
        exact absurd e.1 (by decide)

mutual
theorem stands_reads {v : Value} {j : Json} (hX : ∀ q, isNumber (X.json q).toList = true)
    (h : Stands X.json X.key v j) : ReadsBack j := by
  cases h with
  | null => exact null_reads
  | bool b => exact bool_reads b
  | int i => exact num_reads (isNumber_int i)
  | float q => exact num_reads (hX q)
  | str s => exact str_reads _
  | seq h => exact arr_reads _ (standsList_reads hX h)
  | map h hp hs =>
    exact obj_reads _ hs fun e he => standsEntries_reads hX h e (hp.symm.subset he)

theorem standsList_reads {vs : List Value} {js : List Json} (hX : ∀ q, isNumber (X.json q).toList = true)
    (h : StandsList X.json X.key vs js) : ∀ j ∈ js, ReadsBack j := by
  cases h with
  | nil => simp
  | cons h hs =>
    have h1 := stands_reads hX h
    have h2 := standsList_reads hX hs
    intro j hj
    rcases List.mem_cons.1 hj with rfl | hj
    · exact h1
    · exact h2 j hj

theorem standsEntries_reads {kvs : List (Value × Value)} {es : List (String × Json)}
    (hX : ∀ q, isNumber (X.json q).toList = true) (h : StandsEntries X.json X.key kvs es) : ∀ e ∈ es, ReadsBack e.2 := by
  cases h with
  | nil => simp
  | cons hk h hs =>
    have h1 := stands_reads hX h
    have h2 := standsEntries_reads hX hs
    intro j hj
    rcases List.mem_cons.1 hj with rfl | hj
    · exact h1
    · exact h2 j hj
end

end Drone
