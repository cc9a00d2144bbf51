/-
What is decoded from the settings the printer writes.
-/
import Mathlib.Tactic.Common
import Verif.Proof.RefillParts

namespace Drone
open Spec Yaml Pretty

variable {R : Resolver}

/-! ### Sorted maps -/

theorem keys_filterMap {α β : Type} {m : GoMap α} (hn : m.keys.Nodup) (f : String → α → Option β) :
    (m.keys.filterMap fun k => (m.get? k).bind (f k)) = m.filterMap fun kv => f kv.1 kv.2 := by
  induction m with
  | nil => rfl
  | cons p m ih =>
    obtain ⟨k, v⟩ := p
    simp only [GoMap.keys, List.map_cons, List.nodup_cons] at hn
    have e : (GoMap.keys m).filterMap (fun k' => (GoMap.get? ((k, v) :: m) k').bind (f k')) =
        (GoMap.keys m).filterMap (fun k' => (GoMap.get? m k').bind (f k')) := by
      apply List.filterMap_congr
      intro k' hk'
      rw [GoMap.get?_cons, if_neg]
      rintro rfl
      exact hn.1 hk'
    have e2 : GoMap.keys ((k, v) :: m) = k :: GoMap.keys m := rfl
    rw [e2, List.filterMap_cons, e, ih hn.2, List.filterMap_cons, GoMap.get?_cons, if_pos rfl, Option.bind_some]

theorem sorted_perm {α : Type} {m : GoMap α} (hn : m.keys.Nodup) : (sorted m).Perm m := by
  have h := (sortStrings_perm m.keys).filterMap (fun k => (m.get? k).bind fun v => some (k, v))
  rw [keys_filterMap hn (fun k v => some (k, v))] at h
  have e : sorted m = (sortStrings m.keys).filterMap fun k => (m.get? k).bind fun v => some (k, v) := by
    unfold sorted
    congr 1
    funext k
    cases m.get? k <;> rfl
  rw [e]
  refine h.trans ?_
  rw [List.filterMap_some_fun]
  exact .refl _

theorem sameMap_sorted {α : Type} {m : GoMap α} (hn : m.keys.Nodup) : SameMap m (sorted m) := ⟨(sorted_perm hn).symm, hn⟩

theorem keptMapS_perm {α β : Type} (g : α → Option β) {m : GoMap (Option α)} (hn : m.keys.Nodup) :
    (keptMapS g m).Perm (keepMap g m) := by
  have h := (sortStrings_perm m.keys).filterMap
    (fun k => (m.get? k).bind fun o => (o.bind g).map fun b => (k, some b))
  rw [keys_filterMap hn (fun k o => (o.bind g).map fun b => (k, some b))] at h
  have e : keptMapS g m = (sortStrings m.keys).filterMap
      fun k => (m.get? k).bind fun o => (o.bind g).map fun b => (k, some b) := by
    unfold keptMapS keptSorted
    rw [List.map_filterMap]
    congr 1
    funext k
    cases m.get? k with
    | none => rfl
    | some o =>
      simp only [Option.bind_some]
      cases o.bind g <;> rfl
  rw [e]
  exact h

theorem keepMap_keys {α β : Type} (g : α → Option β) (m : GoMap (Option α)) : (keepMap g m).keys.Sublist m.keys := by
  induction m with
  | nil => exact .slnil
  | cons p m ih =>
    obtain ⟨k, o⟩ := p
    unfold keepMap at ih ⊢
    rw [List.filterMap_cons]
    cases o.bind g with
    | none => exact ih.cons k
    | some b => simpa [GoMap.keys] using ih

/-! ### Values -/

/-- Entries with string keys. -/
def strKeys (m : GoMap Value) : List (Value × Value) := m.map fun kv => (.str kv.1, kv.2)

theorem sortV_map (kvs : List (Value × Value)) : sortV (.map kvs) = .map (strKeys (sorted (sortEs kvs))) := by
  rw [sortV, strKeys, sorted, List.map_filterMap]
  congr 2
  funext k
  cases (sortEs kvs).get? k <;> rfl

theorem sortEs_nodup (L : PrettyLib) {kvs : List (Value × Value)} (h : EntriesOk R L kvs)
    (hn : (kvs.map Prod.fst).Nodup) : (sortEs kvs).keys.Nodup := by
  have : kvs.map Prod.fst = (sortEs kvs).keys.map Value.str := by
    clear hn
    induction kvs with
    | nil => rfl
    | cons p kvs ih =>
      obtain ⟨a, v⟩ := p
      obtain ⟨⟨s, rfl, _⟩, _, h3⟩ := h
      simp only [List.map_cons, sortEs, GoMap.keys] at ih ⊢
      rw [ih h3]
  rw [this] at hn
  exact (List.nodup_map_iff fun a b h => by simpa using h).1 hn

mutual
theorem sortV_same (L : PrettyLib) (v : Value) (h : ValOk R L v) : SameValue v (sortV v) := by
  cases v with
  | null => exact .null
  | bool b => exact .bool b
  | int i => exact .int i
  | float q => exact .float q
  | str s => exact .str s
  | seq xs => exact .seq (sortVs_same L xs h)
  | map kvs =>
    rw [sortV_map]
    refine .map (ys := strKeys (sortEs kvs)) (sortEs_same L kvs h.1) ?_ h.2
    exact (sorted_perm (sortEs_nodup L h.1 h.2)).symm.map _
theorem sortVs_same (L : PrettyLib) (xs : List Value) (h : ValsOk R L xs) : SameValues xs (sortVs xs) := by
  cases xs with
  | nil => exact .nil
  | cons x xs => exact .cons (sortV_same L x h.1) (sortVs_same L xs h.2)
theorem sortEs_same (L : PrettyLib) (kvs : List (Value × Value)) (h : EntriesOk R L kvs) :
    SameEntries kvs (strKeys (sortEs kvs)) := by
  cases kvs with
  | nil => exact .nil
  | cons p kvs =>
    obtain ⟨a, v⟩ := p
    obtain ⟨⟨s, rfl, _⟩, h2, h3⟩ := h
    exact .cons (sortV_same L v h2) (sortEs_same L kvs h3)
end

theorem proper_strKeys {m : GoMap Value} (hn : m.keys.Nodup) (h : ∀ kv ∈ m, Proper kv.2) : ProperEntries (strKeys m) := by
  induction m with
  | nil => trivial
  | cons p m ih =>
    obtain ⟨k, v⟩ := p
    simp only [GoMap.keys, List.map_cons, List.nodup_cons] at hn
    refine ⟨⟨rfl, trivial, h _ List.mem_cons_self, ?_⟩, ih hn.2 fun kv hkv => h kv (List.mem_cons_of_mem _ hkv)⟩
    intro kv hkv
    obtain ⟨kv', h', rfl⟩ := List.mem_map.1 hkv
    have : k ≠ kv'.1 := by
      rintro rfl
      exact hn.1 (List.mem_map.2 ⟨kv', h', rfl⟩)
    simpa [sameKey] using this

mutual
theorem sortV_proper (L : PrettyLib) (v : Value) (h : ValOk R L v) : Proper (sortV v) := by
  cases v with
  | seq xs => exact sortVs_proper L xs h
  | map kvs =>
    rw [sortV_map]
    have hn := sortEs_nodup L h.1 h.2
    have hp := sorted_perm hn
    refine proper_strKeys ((hp.map _).nodup_iff.2 hn) fun kv hkv => sortEs_proper L kvs h.1 kv (hp.mem_iff.1 hkv)
  | _ => trivial
theorem sortVs_proper (L : PrettyLib) (xs : List Value) (h : ValsOk R L xs) : ProperList (sortVs xs) := by
  cases xs with
  | nil => trivial
  | cons x xs => exact ⟨sortV_proper L x h.1, sortVs_proper L xs h.2⟩
theorem sortEs_proper (L : PrettyLib) (kvs : List (Value × Value)) (h : EntriesOk R L kvs) :
    ∀ kv ∈ sortEs kvs, Proper kv.2 := by
  cases kvs with
  | nil => simp [sortEs]
  | cons p kvs =>
    obtain ⟨a, v⟩ := p
    obtain ⟨⟨s, rfl, _⟩, h2, h3⟩ := h
    intro kv hkv
    simp only [sortEs, List.mem_cons] at hkv
    rcases hkv with rfl | hkv
    · exact sortV_proper L v h2
    · exact sortEs_proper L kvs h3 kv hkv
end

theorem plain_strKeys {m : GoMap Value} (h : ∀ kv ∈ m, plainNumbers kv.2 = kv.2) : plainEntries (strKeys m) = strKeys m := by
  induction m with
  | nil => rfl
  | cons p m ih =>
    have ih := ih fun kv hkv => h kv (List.mem_cons_of_mem _ hkv)
    unfold strKeys at ih ⊢
    simp only [List.map_cons, plainEntries, plainNumbers, h p List.mem_cons_self, ih]

mutual
theorem sortV_plain (L : PrettyLib) (v : Value) (h : ValOk R L v) : plainNumbers (sortV v) = sortV v := by
  cases v with
  | seq xs => rw [sortV, plainNumbers, sortVs_plain L xs h]
  | map kvs =>
    rw [sortV_map, plainNumbers]
    have hp := sorted_perm (sortEs_nodup L h.1 h.2)
    rw [plain_strKeys fun kv hkv => sortEs_plain L kvs h.1 kv (hp.mem_iff.1 hkv)]
  | float q => show (if _ then _ else _) = _; rw [if_neg h.2.2]; rfl
  | _ => rfl
theorem sortVs_plain (L : PrettyLib) (xs : List Value) (h : ValsOk R L xs) : plainList (sortVs xs) = sortVs xs := by
  cases xs with
  | nil => rfl
  | cons x xs => rw [sortVs, plainList, sortV_plain L x h.1, sortVs_plain L xs h.2]
theorem sortEs_plain (L : PrettyLib) (kvs : List (Value × Value)) (h : EntriesOk R L kvs) :
    ∀ kv ∈ sortEs kvs, plainNumbers kv.2 = kv.2 := by
  cases kvs with
  | nil => simp [sortEs]
  | cons p kvs =>
    obtain ⟨a, v⟩ := p
    obtain ⟨⟨s, rfl, _⟩, h2, h3⟩ := h
    intro kv hkv
    simp only [sortEs, List.mem_cons] at hkv
    rcases hkv with rfl | hkv
    · exact sortV_plain L v h2
    · exact sortEs_plain L kvs h3 kv hkv
end

theorem sortEs_mem (L : PrettyLib) (kvs : List (Value × Value)) (h : EntriesOk R L kvs) (k : String) (x : Value)
    (hm : (k, x) ∈ sortEs kvs) : ∃ y, (.str k, y) ∈ kvs ∧ x = sortV y := by
  induction kvs with
  | nil => simp [sortEs] at hm
  | cons p kvs ih =>
    obtain ⟨a, v⟩ := p
    obtain ⟨⟨s, rfl, _⟩, _, h3⟩ := h
    simp only [sortEs, List.mem_cons, Prod.mk.injEq] at hm
    rcases hm with ⟨rfl, rfl⟩ | hm
    · exact ⟨v, List.mem_cons_self, rfl⟩
    · obtain ⟨y, hy, e⟩ := ih h3 hm
      exact ⟨y, List.mem_cons_of_mem _ hy, e⟩

theorem decFields_unknown {σ : Type} (F : String → Option (Field σ)) (es : List (Yaml.Node × Yaml.Node)) (s : σ)
    (h : ∀ e ∈ es, ∃ k, decString e.1 "" = { val := k } ∧ F k = none) : decFields F es s = { val := s } := by
  induction es with
  | nil => rfl
  | cons e es ih =>
    obtain ⟨n, v⟩ := e
    obtain ⟨k, h1, h2⟩ := h _ List.mem_cons_self
    simp only at h1
    simp only [decFields, h1, h2, if_true]
    exact ih fun e he => h e (List.mem_cons_of_mem _ he)

/-- A value that is not a reference to a secret is read as it is. -/
theorem decParameter_value (L : PrettyLib) {v : Value} (h : ValOk R L v) (h0 : v ≠ .null) (hs : ¬ LooksSecret v) :
    decPtr {} decParameter (vNode L v) none = { val := some { value := sortV v } } := by
  have ht := toValue_valueNode (primText L) (sortV v) (by rw [sortV_plain L v h]; exact sortV_proper L v h)
  rw [sortV_plain L v h] at ht
  have hl : (decParameterLong (vNode L v) "").val = "" := by
    cases v with
    | map kvs =>
      rw [vNode, sortV_map]
      show (decFields _ (entryNodes (primText L) (strKeys (sorted (sortEs kvs)))) "").val = ""
      refine decParameterLong_entries (primText L) _ ?_ ?_ _ (fun k hk => by simp [List.lookup, beq_eq_false_iff_ne.2 hk]) rfl
      · intro kv hkv hc
        obtain ⟨kv', _, rfl⟩ := List.mem_map.1 hkv
        exact absurd rfl (hc kv'.1)
      · intro w hw
        obtain ⟨kv, hkv, he⟩ := List.mem_map.1 hw
        have hkv := (sorted_perm (sortEs_nodup L h.1 h.2)).mem_iff.1 hkv
        obtain ⟨k, x⟩ := kv
        simp only [Prod.mk.injEq, Value.str.injEq] at he
        obtain ⟨rfl, rfl⟩ := he
        obtain ⟨y, hy, rfl⟩ := sortEs_mem L kvs h.1 _ _ hkv
        by_contra hc
        push Not at hc
        refine hs ⟨kvs, y, rfl, hy, ?_, ?_, ?_, ?_⟩
        · rintro rfl; exact hc.1 rfl
        · rintro rfl; exact hc.2.1 rfl
        · rintro xs rfl; exact hc.2.2.1 _ rfl
        · rintro m rfl; exact hc.2.2.2 _ rfl
    | null => exact absurd rfl h0
    | _ => rfl
  have hn : vNode L v ≠ .null := by
    cases v with
    | null => exact absurd rfl h0
    | _ => simp [vNode, sortV, valueNode, floatNode]
  have hu : unmarshalParameter (vNode L v) {} = ({ value := sortV v }, false) := by
    unfold unmarshalParameter
    rw [if_neg (by rw [hl]; simp)]
    simp [decAny, ht]
  have hd : decPtr {} decParameter (vNode L v) none = Res.mk (some (unmarshalParameter (vNode L v) {}).1)
      (!(unmarshalParameter (vNode L v) {}).2) (unmarshalParameter (vNode L v) {}).2 := by
    cases hv : vNode L v with
    | null => exact absurd hv hn
    | _ => rfl
  rw [hd, hu]
  rfl

theorem decParameter_secret {secret : String} (L : PrettyLib) (h3 : Readable R secret) (hse : secret ≠ "") :
    decPtr {} decParameter (.map [(strNode R "from_secret", strNode R secret)]) none = { val := some { secret := secret } } := by
  have h0 := strNode_dec (R := R) (wk L "from_secret").toReadable ""
  have hsd := strNode_dec h3 ""
  have h4 : decParameterLong (.map [(strNode R "from_secret", strNode R secret)]) "" = { val := secret } := by
    simp only [decParameterLong, decStruct, decFields, h0, if_true]
    simp [List.lookup, field, hsd]
  have h5 : unmarshalParameter (.map [(strNode R "from_secret", strNode R secret)]) {} = ({ secret := secret }, false) := by
    unfold unmarshalParameter
    rw [h4, if_pos ⟨rfl, hse⟩]
  show Res.mk (some (unmarshalParameter (.map [(strNode R "from_secret", strNode R secret)]) {}).1)
    (!(unmarshalParameter (.map [(strNode R "from_secret", strNode R secret)]) {}).2)
    (unmarshalParameter (.map [(strNode R "from_secret", strNode R secret)]) {}).2 = _
  rw [h5]
  rfl

/-! ### Settings -/

theorem after_tag (L : PrettyLib) {w w' : Writer} {d : Nat} {k : String} {n : Yaml.Node} (hk : ReadableKey R L k)
    (h : After R (writeTag L w k) w' n) : Ents R d w w' [(strNode R k, n)] := by
  refine ents_key L ((writeTag_same L w k).trans h.same) (by rw [h.index, writeTag_index_some])
    (by rw [h.index]; exact writeTag_index_ne L w k) fun hd _ => ?_
  rcases h.out d ((writeTag_same L w k).depth.trans hd) with ⟨t, ho, ha⟩ | ⟨ls, ts, ho, hpt, hu⟩
  · exact ⟨' ' :: t, [], _, [], by simpa [feed] using ho, .entry (strNode_text' L hk.toReadable) (key_form L hk) ha,
      .nil, by simpa using Entries.inline .nil⟩
  · refine ⟨[], ls, _, ts, ho, .key (strNode_text' L hk.toReadable) (key_form L hk), hpt, ?_⟩
    cases hu with
    | null => simpa using Entries.null (c := 2 * d) (k := strNode R k) .nil
    | block hd hb => simpa using Entries.block (c := 2 * d) (k := strNode R k) hd hb .nil
    | seq hi hx => simpa using Entries.seq (c := 2 * d) (k := strNode R k) hi hx .nil

theorem Ents.unzero {d : Nat} {w w' : Writer} {es : List (Yaml.Node × Yaml.Node)} (hz : w.zero = false)
    (h : Ents R d { w with zero := true } w' es) : Ents R d w { w' with zero := false } es :=
  ⟨⟨h.same.depth, hz.symm⟩, h.has, h.first, h.out⟩

theorem setting_ents (L : PrettyLib) {w : Writer} {d : Nat} {k : String} {v : Value} (hk : ReadableKey R L k)
    (h : ValOk R L v) (hs : v ≠ .seq []) (hz : w.zero = false) :
    Ents R d w { writeTagValue L { w with zero := true } k (.val v) with zero := false } [(strNode R k, vNode L v)] := by
  refine Ents.unzero hz (after_tag L hk ?_)
  unfold writeTagValue
  rw [if_neg (by simp)]
  generalize hw : writeTag L { w with zero := true } k = w1
  have h0 : w1.index ≠ some 0 := by rw [← hw]; exact writeTag_index_ne L _ k
  dsimp only
  by_cases hp : isPrimative (.val v) = true
  · rw [if_pos hp]
    have hin : inlineValue v = true := by
      unfold inlineValue
      rw [show isPrimValue v = true from hp]
      simp
    obtain ⟨e1, e2, t, e3, e4⟩ := writeVal_inline L h hin (w1.str " ")
    exact ⟨Same.trans (b := w1.str " ") ⟨rfl, rfl⟩ e1, e2, fun d hd => .inl ⟨t, (puts_str w1 " ").trans e3, e4⟩⟩
  · rw [if_neg hp]
    by_cases hsl : isSlice (.val v) = true
    · rw [if_pos hsl]
      cases v with
      | seq xs =>
        cases xs with
        | nil => exact absurd rfl hs
        | cons x xs =>
          exact under_seq (ns := valueNodes (primText L) (sortVs (x :: xs))) (by simp [sortVs, valueNodes])
            fun d => writeSeq_itms L (x :: xs) h d w1 h0
      | _ => simp [isSlice, isSliceValue] at hsl
    · rw [if_neg hsl]
      exact under_map (writeVal_at L v h _ h0)

/-- Settings that survive. -/
def SettingsOk (R : Resolver) (L : PrettyLib) (m : GoMap (Option Parameter)) : Prop :=
  m.keys.Nodup ∧ ∀ k p, m.get? k = some (some p) → ReadableKey R L k ∧ Readable R p.secret ∧
    (p.secret = "" → ValOk R L p.value ∧ p.value ≠ .null ∧ p.value ≠ .seq [] ∧ ¬ LooksSecret p.value)

/-- The parameter that is read. -/
def sortParam (p : Parameter) : Option Parameter :=
  if p.secret = "" then some { value := sortV p.value } else some { secret := p.secret }

theorem settings_fill (L : PrettyLib) {σ : Type} {F : String → Option (Field σ)} {d : Nat} {w : Writer} {s : σ}
    {m : GoMap (Option Parameter)} {get : σ → GoMap (Option Parameter)}
    {set : σ → GoMap (Option Parameter) → σ}
    (hF : F "settings" = some (field get set (decMap none (decPtr {} (custom {} unmarshalParameter)))))
    (hv : SettingsOk R L m) (hg : get s = []) (hs : set s [] = s) {w' : Writer}
    (h : when? (m.length > 0) (fun w => printSettings L w m) w = some w') :
    Fill R F d w w' s (set s (keptMapS sortParam m)) (m ≠ []) := by
  unfold when? at h
  by_cases hm : m = []
  · subst hm
    simp only [List.length_nil, gt_iff_lt, Nat.lt_irrefl, decide_false, Bool.false_eq_true, if_false, Option.some.injEq] at h
    subst h
    refine Fill.iff (p := False) ?_ (by simp)
    rw [show set s (keptMapS sortParam []) = s from hs]
    exact Fill.refl
  · rw [if_pos (by simpa [List.length_pos_iff] using hm)] at h
    refine Fill.iff (p := True) ?_ (by simp [hm])
    refine mapPtr_fill L (wk (R := R) L "settings") hF ?_ hv.1 hg h
    rintro w k ⟨value, secret⟩ hm
    obtain ⟨h1, h2, h3⟩ := hv.2 _ _ hm
    simp only at h2 h3 ⊢
    by_cases hse : secret = ""
    · subst hse
      obtain ⟨h4, h5, h6, h7⟩ := h3 rfl
      rw [if_pos rfl]
      have : sortParam ⟨value, ""⟩ = some { value := sortV value } := rfl
      rw [this]
      exact MapEnts.one h1.toReadable (decParameter_value L h4 h5 h7) fun hz => setting_ents L h1 h4 h6 hz
    · rw [if_neg hse]
      have : sortParam ⟨value, secret⟩ = some { secret := secret } := by simp [sortParam, hse]
      rw [this]
      exact MapEnts.one h1.toReadable (decParameter_secret L h2 hse) fun hz => fromSecret_node L h2 hse h1 hz

theorem keptMapS_settings (L : PrettyLib) {m : GoMap (Option Parameter)} (h : SettingsOk R L m) :
    SameSettings (keepMap keptParameter m) (keptMapS sortParam m) := by
  refine ⟨keepMap sortParam m, ?_, (keptMapS_perm sortParam h.1).symm, (keepMap_keys _ m).nodup h.1⟩
  have hx : ∀ kv ∈ m, m.get? kv.1 = some kv.2 := fun kv hkv => GoMap.get?_of_mem h.1 hkv
  have key : ∀ (l : GoMap (Option Parameter)), (∀ kv ∈ l, m.get? kv.1 = some kv.2) →
      List.Forall₂ (fun a b => a.1 = b.1 ∧ (a.2 = b.2 ∨
        ∃ p q, a.2 = some p ∧ b.2 = some q ∧ p.secret = q.secret ∧ SameValue p.value q.value))
        (keepMap keptParameter l) (keepMap sortParam l) := by
    intro l hl
    induction l with
    | nil => exact .nil
    | cons p l ih =>
      obtain ⟨k, o⟩ := p
      have ih := ih fun kv hkv => hl kv (List.mem_cons_of_mem _ hkv)
      have hk := hl _ List.mem_cons_self
      simp only at hk
      unfold keepMap at ih ⊢
      rw [List.filterMap_cons, List.filterMap_cons]
      cases o with
      | none => exact ih
      | some p =>
        obtain ⟨_, _, h3⟩ := h.2 _ _ hk
        simp only [Option.bind_some]
        unfold keptParameter sortParam at ih ⊢
        by_cases hse : p.secret = ""
        · simp only [hse, if_true, Option.map_some]
          refine .cons ⟨rfl, .inr ⟨_, _, rfl, rfl, hse, ?_⟩⟩ ih
          exact sortV_same L _ (h3 hse).1
        · simp only [hse, if_false, Option.map_some]
          exact .cons ⟨rfl, .inl rfl⟩ ih
  exact key m hx

end Drone
