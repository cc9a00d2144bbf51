/-
What is decoded from the entries the printer writes: struct fields, lists and maps.
-/
import Mathlib.Tactic.Common
import Verif.Proof.EmitVal

namespace Drone
open Spec Yaml Pretty

variable {R : Resolver}

/-! ### Decoding entries one after the other -/

theorem decFields_append {σ : Type} (F : String → Option (Field σ)) (es fs : List (Yaml.Node × Yaml.Node)) {s s' : σ}
    (h : decFields F es s = { val := s' }) : decFields F (es ++ fs) s = decFields F fs s' := by
  induction es generalizing s with
  | nil =>
    simp only [decFields, Res.mk.injEq, and_true] at h
    subst h; rfl
  | cons e es ih =>
    obtain ⟨k, v⟩ := e
    simp only [List.cons_append, decFields] at h ⊢
    by_cases hg : (decString k "").good = true
    · rw [if_pos hg] at h ⊢
      cases hF : F (decString k "").val with
      | none => rw [hF] at h; exact ih h
      | some f =>
        rw [hF] at h
        simp only [Res.mk.injEq, true_and, Bool.or_eq_false_iff] at h
        obtain ⟨h1, h2, h3⟩ := h
        have hd : decFields F es (f v s).1 = { val := s' } := by
          have hg := decFields_good F es (f v s).1
          cases hr : decFields F es (f v s).1
          rw [hr] at h1 h3 hg
          simp only at h1 h3 hg
          rw [h1, h3, hg]
        dsimp only
        rw [ih hd, h2, Bool.false_or]
        have hg := decFields_good F fs s'
        cases hr : decFields F fs s'
        rw [hr] at hg
        simp only at hg
        rw [hg]
    · rw [if_neg hg] at h
      simp at h

theorem decEntries_good {α : Type} (z : α) (dc : Dec α) (es : List (Yaml.Node × Yaml.Node)) (m : GoMap α) :
    (decEntries z dc es m).good = true := by
  cases es <;> rfl

theorem decEntries_append {α : Type} (z : α) (dc : Dec α) (es fs : List (Yaml.Node × Yaml.Node)) {m m' : GoMap α}
    (h : decEntries z dc es m = { val := m' }) : decEntries z dc (es ++ fs) m = decEntries z dc fs m' := by
  induction es generalizing m with
  | nil =>
    simp only [decEntries, Res.mk.injEq, and_true] at h
    subst h; rfl
  | cons e es ih =>
    obtain ⟨k, v⟩ := e
    simp only [List.cons_append, decEntries, Res.mk.injEq, true_and, Bool.or_eq_false_iff] at h ⊢
    obtain ⟨h1, h2, h3⟩ := h
    generalize (if (decString k "").good = true ∧ (dc v z).good = true then _ else m) = m1 at h1 h3 ⊢
    have hd : ∀ m1, (decEntries z dc es m1).val = m' → (decEntries z dc es m1).err = false →
        decEntries z dc es m1 = { val := m' } := by
      intro m1 h1 h3
      have hg := decEntries_good z dc es m1
      cases hr : decEntries z dc es m1
      rw [hr] at h1 h3 hg
      simp only at h1 h3 hg
      rw [h1, h3, hg]
    rw [ih (hd _ h1 h3)]
    have hg := decEntries_good z dc fs m'
    cases hr : decEntries z dc fs m'
    rw [hr] at hg
    simp only at hg
    simp [hg, h2]

theorem decElems_append {α : Type} (z : α) (dc : Dec α) (xs ys : List Yaml.Node) {as bs : List α}
    (h : decElems z dc xs = { val := as }) (h' : decElems z dc ys = { val := bs }) :
    decElems z dc (xs ++ ys) = { val := as ++ bs } := by
  induction xs generalizing as with
  | nil =>
    simp only [decElems, Res.mk.injEq, and_true] at h
    subst h; exact h'
  | cons x xs ih =>
    simp only [List.cons_append, decElems, Res.mk.injEq, true_and, Bool.or_eq_false_iff] at h ⊢
    obtain ⟨h1, h2, h3⟩ := h
    have hd : decElems z dc xs = { val := (decElems z dc xs).val } := by
      have hg := decElems_good z dc xs
      cases hr : decElems z dc xs
      rw [hr] at h3 hg
      simp only at h3 hg
      rw [h3, hg]
    rw [ih hd]
    refine ⟨?_, h2, rfl⟩
    subst h1
    split <;> simp

/-! ### Structs -/

/-- The entries have keys the struct knows. -/
def Known {σ : Type} (F : String → Option (Field σ)) (es : List (Yaml.Node × Yaml.Node)) : Prop :=
  ∀ e ∈ es, ∃ k, textOf e.1 = some k ∧ (F k).isSome

/-- The writer writes entries that take the struct from `s` to `s'`; `p` tells whether there are any. -/
def Fill {σ : Type} (R : Resolver) (F : String → Option (Field σ)) (d : Nat) (w w' : Writer) (s s' : σ) (p : Prop) :
    Prop :=
  w.zero = false → ∃ es, Ents R d w w' es ∧ decFields F es s = { val := s' } ∧ (es ≠ [] ↔ p) ∧ Known F es

section
variable {σ : Type} {F : String → Option (Field σ)} {d : Nat} {w w' w'' : Writer} {s s' s'' : σ} {p q : Prop}

theorem Fill.refl : Fill R F d w w s s False := fun _ => ⟨[], .refl d w, rfl, by simp, by simp [Known]⟩

theorem Fill.nl : Fill R F d w (w.str "\n") s s False := fun _ => ⟨[], .nl d w, rfl, by simp, by simp [Known]⟩

theorem Fill.trans (h : Fill R F d w w' s s' p) (h' : Fill R F d w' w'' s' s'' q) : Fill R F d w w'' s s'' (p ∨ q) := by
  intro hz
  obtain ⟨es, h1, h2, h3, h4⟩ := h hz
  obtain ⟨fs, e1, e2, e3, e4⟩ := h' (by rw [h1.same.zero, hz])
  refine ⟨es ++ fs, h1.trans e1, by rw [decFields_append F es fs h2, e2], ?_, ?_⟩
  · rw [← h3, ← e3]
    simp only [ne_eq, List.append_eq_nil_iff]
    tauto
  · intro e he
    rcases List.mem_append.1 he with he | he
    · exact h4 e he
    · exact e4 e he

theorem Fill.skip (h : Fill R F d w w' s s' False) (h' : Fill R F d w' w'' s' s'' q) : Fill R F d w w'' s s'' q := by
  have := h.trans h'
  simpa using this

theorem Fill.iff (h : Fill R F d w w' s s' p) (hp : p ↔ q) : Fill R F d w w' s s' q := by
  rwa [← propext hp]

/-- One entry. -/
theorem Fill.one {α : Type} {get : σ → α} {set : σ → α → σ} {dc : Dec α} {k : String} {v : Yaml.Node} {x : α}
    (hk : Readable R k) (hF : F k = some (field get set dc)) (hd : dc v (get s) = { val := x })
    (h : w.zero = false → Ents R d w w' [(strNode R k, v)]) : Fill R F d w w' s (set s x) True := by
  refine fun hz => ⟨_, h hz, ?_, by simp, ?_⟩
  · simp only [decFields, strNode_dec hk, hF, if_true, field, hd, Bool.or_false]
  · intro e he
    simp only [List.mem_singleton] at he
    subst he
    exact ⟨k, strNode_text hk, by simp [hF]⟩

end

/-! ### Tags with values -/

theorem writeTagValue_skip (L : PrettyLib) {w : Writer} (hz : w.zero = false) {k : String} {v : Arg}
    (hv : isZero v = true) : writeTagValue L w k v = w := by
  unfold writeTagValue
  rw [if_pos ⟨hv, hz⟩]

theorem writeTagValue_prim (L : PrettyLib) {w : Writer} {k : String} {v : Arg} (hp : isPrimative v = true)
    (hv : ¬ (isZero v = true ∧ w.zero = false)) :
    writeTagValue L w k v = writeValue L ((writeTag L w k).str " ") v := by
  unfold writeTagValue
  rw [if_neg hv, if_pos hp]

/-- A value on the line of its key. -/
theorem ents_prim (L : PrettyLib) {d : Nat} {w : Writer} {k t : String} {v : Arg} {n : Yaml.Node}
    (hk : ReadableKey R L k) (hp : isPrimative v = true) (hv : ¬ (isZero v = true ∧ w.zero = false))
    (hw : ∀ w, writeValue L w v = w.str t) (ha : Atom R t.toList n) :
    Ents R d w (writeTagValue L w k v) [(strNode R k, n)] := by
  rw [writeTagValue_prim L hp hv, hw]
  exact ents_inline L hk ha ⟨rfl, rfl⟩ rfl ((puts_str _ " ").trans (puts_str _ t))

section
variable {σ : Type} {F : String → Option (Field σ)} {d : Nat} {w : Writer} {s : σ} {k : String}

theorem str_fill (L : PrettyLib) {get : σ → String} {set : σ → String → σ} (hk : ReadableKey R L k)
    (hF : F k = some (field get set decString)) {v : String} (hv : Readable R v) (hs : v = "" → set s v = s) :
    Fill R F d w (tagStr L w k v) s (set s v) (v ≠ "") := by
  by_cases h : v = ""
  · intro hz
    rw [tagStr, writeTagValue_skip L hz (by simp [isZero, isZeroValue, h])]
    refine (Fill.iff (p := False) ?_ (by simp [h])) hz
    rw [hs h]
    exact Fill.refl
  · refine (Fill.one hk.toReadable hF (strNode_dec hv _) fun hz => ?_).iff (by simp [h])
    exact ents_prim L hk rfl (by simp [isZero, isZeroValue, h]) (fun _ => rfl) (str_atom L hv)

theorem bool_fill (L : PrettyLib) {get : σ → Bool} {set : σ → Bool → σ} (hk : ReadableKey R L k)
    (hF : F k = some (field get set decBool)) {v : Bool} (hs : v = false → set s v = s) :
    Fill R F d w (tagBool L w k v) s (set s v) (v ≠ false) := by
  by_cases h : v = false
  · intro hz
    rw [tagBool, writeTagValue_skip L hz (by simp [isZero, isZeroValue, h])]
    refine (Fill.iff (p := False) ?_ (by simp [h])) hz
    rw [hs h]
    exact Fill.refl
  · refine (Fill.one (v := .scalar (if v then "true" else "false") (.bool v)) hk.toReadable hF rfl fun hz => ?_).iff
      (by simp [h])
    exact ents_prim L hk rfl (by simp [isZero, isZeroValue, h]) (fun _ => rfl) (bool_atom v)

theorem int_fill (L : PrettyLib) {get : σ → Int} {set : σ → Int → σ} (hk : ReadableKey R L k)
    (hF : F k = some (field get set decInt)) {v : Int} (hv : -2 ^ 63 ≤ v ∧ v < 2 ^ 63) (hs : v = 0 → set s v = s) :
    Fill R F d w (tagInt L w k v) s (set s v) (v ≠ 0) := by
  by_cases h : v = 0
  · intro hz
    rw [tagInt, writeTagValue_skip L hz (by simp [isZero, isZeroValue, h])]
    refine (Fill.iff (p := False) ?_ (by simp [h])) hz
    rw [hs h]
    exact Fill.refl
  · refine (Fill.one (v := .scalar (toString v) (.int v)) hk.toReadable hF (if_pos hv) fun hz => ?_).iff (by simp [h])
    exact ents_prim L hk rfl (by simp [isZero, isZeroValue, h]) (fun _ => rfl) (int_atom hv.1 hv.2)

theorem float_fill (L : PrettyLib) {get : σ → Rat} {set : σ → Rat → σ} (hk : ReadableKey R L k)
    (hF : F k = some (field get set decFloat)) {v : Rat}
    (hv : v ≠ 0 → PlainScalar (L.fmtFloat v).toList ∧ decFloat (plainNode R (L.fmtFloat v)) 0 = { val := v })
    (hs : v = 0 → set s v = s) (hg : get s = 0) :
    Fill R F d w (writeTagValue L w k (.val (.float v))) s (set s v) (v ≠ 0) := by
  by_cases h : v = 0
  · intro hz
    rw [writeTagValue_skip L hz (by simp [isZero, isZeroValue, h])]
    refine (Fill.iff (p := False) ?_ (by simp [h])) hz
    rw [hs h]
    exact Fill.refl
  · obtain ⟨h1, h2⟩ := hv h
    refine (Fill.one (v := plainNode R (L.fmtFloat v)) hk.toReadable hF (by rw [hg]; exact h2) fun hz => ?_).iff (by simp [h])
    exact ents_prim L hk rfl (by simp [isZero, isZeroValue, h]) (fun _ => rfl) (plain_atom h1)

theorem size_fill (L : PrettyLib) (ram : String → Option Int) {get : σ → Int} {set : σ → Int → σ}
    (hk : ReadableKey R L k) (hF : F k = some (field get set (decBytes ram))) {v : Int}
    (hv : v ≠ 0 → Readable R (L.fmtSize v) ∧ decBytes ram (strNode R (L.fmtSize v)) 0 = { val := v })
    (hs : v = 0 → set s v = s) (hg : get s = 0) :
    Fill R F d w (writeTagValue L w k (.size v)) s (set s v) (v ≠ 0) := by
  by_cases h : v = 0
  · intro hz
    rw [writeTagValue_skip L hz (by simp [isZero, h])]
    refine (Fill.iff (p := False) ?_ (by simp [h])) hz
    rw [hs h]
    exact Fill.refl
  · obtain ⟨h1, h2⟩ := hv h
    refine (Fill.one (v := strNode R (L.fmtSize v)) hk.toReadable hF (by rw [hg]; exact h2) fun hz => ?_).iff (by simp [h])
    exact ents_prim L hk rfl (by simp [isZero, h]) (fun _ => rfl) (str_atom L h1)

theorem decElems_strs (l : List String) (h : ∀ x ∈ l, Readable R x) :
    decElems "" decString (l.map (strNode R)) = { val := l } := by
  induction l with
  | nil => rfl
  | cons x l ih =>
    simp only [List.map_cons, decElems, strNode_dec (h x (by simp)), ih fun x hx => h x (by simp [hx]), if_true,
      Bool.or_false]

theorem writeTagValue_strs (L : PrettyLib) {w : Writer} {k : String} {l : List String} (hl : l ≠ []) :
    writeTagValue L w k (.strs l) = writeSequenceStr L ((writeTag L w k).str "\n").indent l := by
  unfold writeTagValue
  rw [if_neg (by simp [isZero, hl])]
  rfl

theorem ents_strs (L : PrettyLib) (hk : ReadableKey R L k) {l : List String} (hl : l ≠ [])
    (h : ∀ x ∈ l, Readable R x) :
    Ents R d w (writeTagValue L w k (.strs l)) [(strNode R k, .seq (l.map (strNode R)))] := by
  rw [writeTagValue_strs L hl]
  have := ents_list L hk (writeSequenceStr_itms L d (writeTag L w k) hl h)
  rwa [if_neg (by simpa using hl)] at this

theorem strs_fill (L : PrettyLib) {get : σ → List String} {set : σ → List String → σ} (hk : ReadableKey R L k)
    (hF : F k = some (field get set decStrings)) {v : List String} (hv : ∀ x ∈ v, Readable R x)
    (hs : v = [] → set s v = s) :
    Fill R F d w (writeTagValue L w k (.strs v)) s (set s v) (v ≠ []) := by
  by_cases h : v = []
  · intro hz
    rw [writeTagValue_skip L hz (by simp [isZero, h])]
    refine (Fill.iff (p := False) ?_ (by simp [h])) hz
    rw [hs h]
    exact Fill.refl
  · exact (Fill.one (v := .seq (v.map (strNode R))) hk.toReadable hF (decElems_strs v hv)
      fun hz => ents_strs L hk h hv).iff (by simp [h])

/-! ### Maps of strings -/

/-- A map sorted by key. -/
def sorted {α : Type} (m : GoMap α) : GoMap α :=
  (sortStrings m.keys).filterMap fun k => (m.get? k).map fun v => (k, v)

/-- Every key and value of a map survives. -/
def StrMapOk (R : Resolver) (L : PrettyLib) (m : GoMap String) : Prop :=
  m.keys.Nodup ∧ ∀ k v, m.get? k = some v → ReadableKey R L k ∧ Readable R v

theorem set_append {α : Type} {m : GoMap α} {k : String} (v : α) (h : k ∉ m.keys) : m.set k v = m ++ [(k, v)] := by
  induction m with
  | nil => rfl
  | cons p m ih =>
    obtain ⟨k', v'⟩ := p
    simp only [GoMap.keys, List.map_cons, List.mem_cons, not_or] at h
    rw [GoMap.set, if_neg (fun e => h.1 e.symm), ih h.2]
    rfl

/-- Decoding entries with distinct keys. -/
theorem decEntries_list {α : Type} (z : α) (dc : Dec α) (l : List (String × Yaml.Node × α)) (m : GoMap α)
    (h : ∀ x ∈ l, Readable R x.1 ∧ dc x.2.1 z = { val := x.2.2 })
    (hn : (m.keys ++ l.map Prod.fst).Nodup) :
    decEntries z dc (l.map fun x => (strNode R x.1, x.2.1)) m = { val := m ++ l.map fun x => (x.1, x.2.2) } := by
  induction l generalizing m with
  | nil => simp [decEntries]
  | cons x l ih =>
    obtain ⟨k, n, a⟩ := x
    obtain ⟨h1, h2⟩ := h _ (List.mem_cons_self)
    simp only at h1 h2
    have hk : k ∉ m.keys := by
      intro hk
      have := (List.nodup_append.1 hn).2.2 k hk k (by simp)
      exact this rfl
    simp only [List.map_cons, decEntries, strNode_dec h1, h2, Bool.and_self, if_true, Bool.or_self, Bool.and_false,
      Bool.false_or, set_append a hk]
    rw [ih (m ++ [(k, a)]) (fun x hx => h x (by simp [hx])) (by simpa [GoMap.keys] using hn)]
    simp

theorem sorted_map {α β : Type} (m : GoMap α) (f : String → α → β) :
    (sortStrings m.keys).filterMap (fun k => (m.get? k).map fun v => f k v) = (sorted m).map fun kv => f kv.1 kv.2 := by
  rw [sorted, List.map_filterMap]
  congr 1
  funext k
  rw [Option.map_map]
  rfl

theorem filterMap_keys {α : Type} (m : GoMap α) (l : List String) (h : ∀ k ∈ l, k ∈ m.keys) :
    (l.filterMap fun k => (m.get? k).map fun v => (k, v)).map Prod.fst = l := by
  induction l with
  | nil => rfl
  | cons k l ih =>
    obtain ⟨v, hv⟩ := Option.isSome_iff_exists.1 (get?_isSome (h k (by simp)))
    simp only [List.filterMap_cons, hv, Option.map_some, List.map_cons, ih fun k hk => h k (by simp [hk])]

theorem sorted_keys {α : Type} (m : GoMap α) : (sorted m).keys = sortStrings m.keys :=
  filterMap_keys m _ fun _ hk => sortStrings_mem hk

theorem sorted_get? {α : Type} {m : GoMap α} {k : String} {v : α} (h : (k, v) ∈ sorted m) : m.get? k = some v := by
  obtain ⟨k', _, h2⟩ := List.mem_filterMap.1 h
  obtain ⟨v', h3, h4⟩ := Option.map_eq_some_iff.1 h2
  simp only [Prod.mk.injEq] at h4
  obtain ⟨rfl, rfl⟩ := h4
  exact h3

theorem sorted_nil {α : Type} {m : GoMap α} : sorted m = [] ↔ m = [] := by
  constructor
  · intro h
    have := congrArg List.length (sorted_keys m)
    rw [h] at this
    simp only [GoMap.keys, List.map_nil, List.length_nil, (sortStrings_perm _).length_eq, List.length_map] at this
    exact List.length_eq_zero_iff.1 this.symm
  · rintro rfl; rfl

theorem decStringMap_sorted (L : PrettyLib) {m : GoMap String} (h : StrMapOk R L m) :
    decStringMap (.map ((sorted m).map fun kv => (strNode R kv.1, strNode R kv.2))) [] = { val := sorted m } := by
  have := decEntries_list (R := R) "" decString ((sorted m).map fun kv => (kv.1, strNode R kv.2, kv.2)) [] ?_ ?_
  · rw [List.map_map, List.map_map] at this
    simp only [Function.comp_def, List.nil_append, List.map_id'] at this
    exact this
  · intro x hx
    obtain ⟨kv, hkv, rfl⟩ := List.mem_map.1 hx
    obtain ⟨h1, h2⟩ := h.2 _ _ (sorted_get? hkv)
    exact ⟨h1.toReadable, strNode_dec h2 _⟩
  · have : (sorted m).keys.Nodup := by
      rw [sorted_keys]
      exact (sortStrings_perm _).nodup_iff.2 h.1
    simpa [GoMap.keys, Function.comp_def] using this

theorem strMap_fill (L : PrettyLib) {get : σ → GoMap String} {set : σ → GoMap String → σ} (hk : ReadableKey R L k)
    (hF : F k = some (field get set decStringMap)) {v : GoMap String} (hv : StrMapOk R L v)
    (hs : v = [] → set s [] = s) (hg : get s = []) :
    Fill R F d w (writeTagValue L w k (.strMap v)) s (set s (sorted v)) (v ≠ []) := by
  by_cases h : v = []
  · intro hz
    rw [writeTagValue_skip L hz (by simp [isZero, h])]
    refine (Fill.iff (p := False) ?_ (by simp [h])) hz
    rw [h, show sorted ([] : GoMap String) = [] from rfl, hs h]
    exact Fill.refl
  · refine (Fill.one (v := .map ((sorted v).map fun kv => (strNode R kv.1, strNode R kv.2))) hk.toReadable hF
      (by rw [hg]; exact decStringMap_sorted L hv) fun hz => ?_).iff (by simp [h])
    have hget : ∀ k ∈ sortStrings v.keys, ∃ x, v.get? k = some x :=
      fun k hk => Option.isSome_iff_exists.1 (get?_isSome (sortStrings_mem hk))
    have h1 := writeMappingStr_ents (R := R) L (d + 1) (writeTag L w k).inc (writeTag_index_ne L w k) h
      (fun k hk => by obtain ⟨x, hx⟩ := hget k hk; exact (hv.2 k x hx).1)
      (fun k hk => by obtain ⟨x, hx⟩ := hget k hk; rw [hx]; exact (hv.2 k x hx).2)
    have h2 := ents_block L hk h1
    have e : (sortStrings v.keys).map (fun k => (strNode R k, strNode R ((v.get? k).getD ""))) =
        (sorted v).map fun kv => (strNode R kv.1, strNode R kv.2) := by
      rw [← sorted_map v fun k x => (strNode R k, strNode R x), ← List.filterMap_eq_map]
      apply List.filterMap_congr
      intro k hk
      obtain ⟨x, hx⟩ := hget k hk
      simp [hx]
    rw [e, if_neg (by rw [List.map_eq_nil_iff, sorted_nil]; exact h)] at h2
    unfold writeTagValue
    rw [if_neg (by simp [isZero, h])]
    exact h2

/-! ### Blocks and lists -/

/-- A block with the fields of a struct. -/
theorem block_fill (L : PrettyLib) {τ : Type} {G : String → Option (Field τ)} {get : σ → τ} {set : σ → τ → σ} {z t : τ}
    {w' : Writer} {p : Prop} (hk : ReadableKey R L k) (hF : F k = some (field get set (decStruct z G)))
    (h : Fill R G (d + 1) (writeTag L w k).inc w' z t p) (hg : get s = z) :
    Fill R F d w w'.dec s (set s t) True := by
  intro hz
  have hz' : (writeTag L w k).inc.zero = false := (writeTag_same L w k).zero.trans hz
  obtain ⟨es, h1, h2, h3, h4⟩ := h hz'
  refine Fill.one (get := get) (set := set) hk.toReadable hF ?_ (fun _ => ents_block L hk h1) hz
  by_cases he : es = []
  · subst he
    simp only [decFields, Res.mk.injEq, and_true] at h2
    rw [if_pos rfl, h2]; rfl
  · rw [if_neg he, hg]; exact h2

/-- The same for a pointer to a struct: an empty block is nil. -/
theorem block_ptr (L : PrettyLib) {τ : Type} {G : String → Option (Field τ)} {get : σ → Option τ}
    {set : σ → Option τ → σ} {z t : τ} {w' : Writer} {p : Prop} [Decidable p] (hk : ReadableKey R L k)
    (hF : F k = some (field get set (decPtr z (decStruct z G))))
    (h : Fill R G (d + 1) (writeTag L w k).inc w' z t p) (hg : get s = none) :
    Fill R F d w w'.dec s (set s (if p then some t else none)) True := by
  intro hz
  have hz' : (writeTag L w k).inc.zero = false := (writeTag_same L w k).zero.trans hz
  obtain ⟨es, h1, h2, h3, h4⟩ := h hz'
  refine Fill.one (get := get) (set := set) hk.toReadable hF ?_ (fun _ => ents_block L hk h1) hz
  by_cases he : es = []
  · rw [if_pos he, if_neg (fun hp => h3.2 hp he)]; rfl
  · rw [if_neg he, if_pos (h3.1 he), hg]
    show Res.mk (some (decFields G es z).val) (decFields G es z).good (decFields G es z).err = _
    rw [h2]

/-- Items of a list of pointers to structs. -/
def Elts {τ : Type} (R : Resolver) (d : Nat) (dc : Dec (Option τ)) (w w' : Writer) (as : List (Option τ)) : Prop :=
  ∃ xs, Itms R d w w' xs ∧ decElems none dc xs = { val := as }

theorem Elts.refl {τ : Type} {dc : Dec (Option τ)} : Elts R d dc w w [] := ⟨[], .refl d w, rfl⟩

theorem Elts.trans {τ : Type} {dc : Dec (Option τ)} {a b c : Writer} {as bs : List (Option τ)}
    (h : Elts R d dc a b as) (h' : Elts R d dc b c bs) : Elts R d dc a c (as ++ bs) := by
  obtain ⟨xs, h1, h2⟩ := h
  obtain ⟨ys, e1, e2⟩ := h'
  exact ⟨xs ++ ys, h1.trans e1, decElems_append none dc xs ys h2 e2⟩

theorem Elts.seq {τ : Type} {dc : Dec (Option τ)} {G : String → Option (Field τ)} {z t : τ} {p : Prop} [Decidable p]
    {f : Writer → Writer} {s' : Writer} (hf : f { w with zero := false, index := some 0 } = s'.dec)
    (hd : ∀ es, decFields G es z = { val := t } → es ≠ [] → dc (.map es) none = { val := some t })
    (h : Fill R G (d + 1) (Writer.inc { w with zero := false, index := some 0 }) s' z t p) :
    Elts R d dc w (w.seq f) (if p then [some t] else []) := by
  obtain ⟨es, h1, h2, h3, h4⟩ := h rfl
  refine ⟨_, itms_seq hf h1, ?_⟩
  by_cases he : es = []
  · rw [if_pos he, if_neg (fun hp => h3.2 hp he)]; rfl
  · rw [if_neg he, if_pos (h3.1 he)]
    simp [decElems, hd es h2 he]

theorem ptr_struct {τ : Type} {G : String → Option (Field τ)} {z t : τ} (es : List (Yaml.Node × Yaml.Node))
    (h : decFields G es z = { val := t }) : decPtr z (decStruct z G) (.map es) none = { val := some t } := by
  show Res.mk (some (decFields G es z).val) (decFields G es z).good (decFields G es z).err = _
  rw [h]

/-- A list of pointers under its key. -/
theorem list_fill (L : PrettyLib) {τ : Type} {dc : Dec (Option τ)} {get : σ → List (Option τ)}
    {set : σ → List (Option τ) → σ} {w' : Writer} {as : List (Option τ)} (hk : ReadableKey R L k)
    (hF : F k = some (field get set (decSlice none dc))) (h : Elts R d dc (writeTag L w k) w' as) :
    Fill R F d w w' s (set s as) True := by
  obtain ⟨xs, h1, h2⟩ := h
  refine Fill.one (get := get) (set := set) hk.toReadable hF ?_ (fun _ => ents_list L hk h1)
  by_cases hx : xs = []
  · subst hx
    simp only [decElems, Res.mk.injEq, and_true] at h2
    rw [if_pos rfl, ← h2]; rfl
  · rw [if_neg hx]; exact h2

end

end Drone
