/-
The decoder of the YAML library, as modelled, reads what `Spec.Form` says.
-/
import Verif.Spec.YamlForm
import Verif.Proof.JsonShape

namespace Drone
namespace Yaml
open Spec

/-- The decoder accepts what fits, and reads what the tree says. -/
structure Faithful {α : Type} (zero : α) (d : Dec α) (e : Form α) : Prop where
  ok : ∀ n s, (d n s).err = false ↔ e.fits n
  good : ∀ n s, (d n s).err = false → (d n s).good = true
  null : e.tells .null zero
  read : ∀ n, e.fits n → e.once n → e.tells n (d n zero).val

theorem reads_of {α : Type} {zero : α} {d : Dec α} {R : Node → α → Prop}
    (h1 : ∀ n s a, R n a → d n s = { val := a }) (h2 : ∀ n s, (∀ a, ¬ R n a) → (d n s).err = true)
    (h0 : R .null zero) : Faithful zero d ⟨fun n => ∃ a, R n a, fun _ => True, R⟩ := by
  have ok : ∀ n s, (d n s).err = false ↔ ∃ a, R n a := by
    intro n s
    constructor
    · intro h
      by_contra hn
      push Not at hn
      rw [h2 n s hn] at h
      cases h
    · rintro ⟨a, ha⟩
      rw [h1 n s a ha]
  refine ⟨ok, fun n s h => ?_, h0, fun n ⟨a, ha⟩ _ => ?_⟩
  · obtain ⟨a, ha⟩ := (ok n s).1 h
    rw [h1 n s a ha]
  · show R n _
    rw [h1 n zero a ha]
    exact ha

theorem reads_str : Faithful "" decString Form.str :=
  reads_of (R := fun n t => textOf n = some t) (fun n s a h => (C108_string n s).1 a h)
    (fun n s h => by
      rw [(C108_string n s).2 (by
        cases e : textOf n with
        | none => rfl
        | some t => exact absurd e (h t))]) rfl

theorem reads_bool : Faithful false decBool Form.bool :=
  reads_of (fun n s a h => (C108_bool n s).1 a h) (fun n s h => by rw [(C108_bool n s).2 h]) .null

theorem reads_int : Faithful 0 decInt Form.int :=
  reads_of (fun n s a h => (C108_int n s).1 a h) (fun n s h => by rw [(C108_int n s).2 h]) .null

theorem reads_float : Faithful 0 decFloat Form.float :=
  reads_of (fun n s a h => (C108_float n s).1 a h) (fun n s h => by rw [(C108_float n s).2 h]) .null

theorem reads_size (ram : String → Option Int) : Faithful 0 (decBytes ram) (Form.size ram) :=
  reads_of (fun n s a h => (C108_size ram n s).1 a h) (fun n s h => by rw [(C108_size ram n s).2 h])
    (.number .null)

/-! ### Any value -/

theorem textOf_isSome {n : Node} : (textOf n).isSome ↔ n = .null ∨ ∃ t r, n = .scalar t r := by
  cases n <;> simp [textOf]

/-- The value of a key -/
theorem key_value {n : Node} (h : (textOf n).isSome) : ∃ v, toValue n = some v ∧ hashable v = true ∧ Form.Means n v := by
  rcases textOf_isSome.1 h with rfl | ⟨t, r, rfl⟩
  · exact ⟨.null, by rw [toValue], rfl, .null⟩
  · cases r with
    | str => exact ⟨.str t, by rw [toValue], rfl, .str⟩
    | bool b => exact ⟨.bool b, by rw [toValue], rfl, .bool⟩
    | int i => exact ⟨.int i, by rw [toValue], rfl, .int⟩
    | float q => exact ⟨.float q, by rw [toValue], rfl, .float⟩

theorem key_none {n : Node} (h : ¬ (textOf n).isSome) (v : Value) (hv : toValue n = some v) : hashable v = false := by
  cases n with
  | null => simp [textOf] at h
  | scalar => simp [textOf] at h
  | seq xs =>
    rw [toValue] at hv
    obtain ⟨w, -, rfl⟩ := Option.map_eq_some_iff.1 hv
    rfl
  | map kvs =>
    rw [toValue] at hv
    obtain ⟨w, -, rfl⟩ := Option.map_eq_some_iff.1 hv
    rfl

mutual
theorem toValue_some (n : Node) : (∃ v, toValue n = some v) ↔ Form.Keyed n := by
  match n with
  | .null => exact ⟨fun _ => .null, fun _ => ⟨_, by rw [toValue]⟩⟩
  | .scalar t r =>
    obtain ⟨v, h, _⟩ := key_value (n := .scalar t r) rfl
    exact ⟨fun _ => .scalar, fun _ => ⟨v, h⟩⟩
  | .seq xs =>
    have := toValues_some xs
    rw [toValue]
    constructor
    · rintro ⟨v, hv⟩
      obtain ⟨w, hw, _⟩ := Option.map_eq_some_iff.1 hv
      exact .seq (this.1 ⟨w, hw⟩)
    · intro h
      cases h with
      | seq h =>
        obtain ⟨w, hw⟩ := this.2 h
        exact ⟨.seq w, by rw [hw]; rfl⟩
  | .map kvs =>
    have := toEntries_some kvs []
    rw [toValue]
    constructor
    · rintro ⟨v, hv⟩
      obtain ⟨w, hw, _⟩ := Option.map_eq_some_iff.1 hv
      have := this.1 ⟨w, hw⟩
      exact .map (fun kv hkv => (this kv hkv).1) (fun kv hkv => (this kv hkv).2)
    · intro h
      cases h with
      | map h1 h2 =>
        obtain ⟨w, hw⟩ := this.2 fun kv hkv => ⟨h1 kv hkv, h2 kv hkv⟩
        exact ⟨.map w, by rw [hw]; rfl⟩
theorem toValues_some (xs : List Node) : (∃ vs, toValues xs = some vs) ↔ ∀ x ∈ xs, Form.Keyed x := by
  match xs with
  | [] => exact ⟨fun _ => by simp, fun _ => ⟨[], by rw [toValues]⟩⟩
  | x :: xs =>
    have h1 := toValue_some x
    have h2 := toValues_some xs
    rw [List.forall_mem_cons, ← h1, ← h2, toValues]
    constructor
    · rintro ⟨vs, h⟩
      obtain ⟨v, hv, h⟩ := Option.bind_eq_some_iff.1 h
      obtain ⟨w, hw, _⟩ := Option.map_eq_some_iff.1 h
      exact ⟨⟨v, hv⟩, ⟨w, hw⟩⟩
    · rintro ⟨⟨v, hv⟩, ⟨w, hw⟩⟩
      exact ⟨v :: w, by rw [hv, hw]; rfl⟩
theorem toEntries_some (kvs : List (Node × Node)) (m : List (Value × Value)) :
    (∃ r, toEntries kvs m = some r) ↔ ∀ kv ∈ kvs, (textOf kv.1).isSome ∧ Form.Keyed kv.2 := by
  match kvs with
  | [] => exact ⟨fun _ => by simp, fun _ => ⟨m, by rw [toEntries]⟩⟩
  | (k, v) :: kvs =>
    have h1 := toValue_some v
    rw [List.forall_mem_cons, ← h1, toEntries]
    by_cases hk : (textOf k).isSome
    · obtain ⟨kv, e1, e2, _⟩ := key_value hk
      rw [e1, Option.bind_some, if_pos e2]
      cases e : toValue v with
      | none => simp
      | some w =>
        rw [Option.bind_some, toEntries_some kvs (setKey kv w m)]
        simp [hk]
    · constructor
      · rintro ⟨r, h⟩
        obtain ⟨kv, hkv, h⟩ := Option.bind_eq_some_iff.1 h
        rw [if_neg (by rw [key_none hk kv hkv]; simp)] at h
        cases h
      · rintro ⟨⟨h, _⟩, _⟩
        exact absurd h hk
end

theorem sameKey_eq {a b : Value} (h : sameKey a b = true) : a = b := by
  cases a <;> cases b <;> simp_all [sameKey]

theorem setKey_new (k v : Value) : ∀ m : List (Value × Value), (∀ p ∈ m, p.1 ≠ k) → setKey k v m = m ++ [(k, v)]
  | [], _ => rfl
  | (k', v') :: m, h => by
    rw [List.forall_mem_cons] at h
    have : sameKey k' k = false := by
      cases e : sameKey k' k with
      | false => rfl
      | true => exact absurd (sameKey_eq e) h.1
    rw [setKey, this, setKey_new k v m h.2]
    rfl

mutual
theorem toValue_means (n : Node) (hd : Form.Distinct n) (v : Value) (h : toValue n = some v) : Form.Means n v := by
  match n with
  | .null => rw [toValue] at h; cases h; exact .null
  | .scalar t r =>
    obtain ⟨w, h1, _, h2⟩ := key_value (n := .scalar t r) rfl
    rw [h1] at h
    cases h
    exact h2
  | .seq xs =>
    cases hd with
    | seq hd =>
      rw [toValue] at h
      obtain ⟨vs, h', rfl⟩ := Option.map_eq_some_iff.1 h
      exact .seq (toValues_means xs hd vs h')
  | .map kvs =>
    cases hd with
    | map hp hd =>
      rw [toValue] at h
      obtain ⟨r, h', rfl⟩ := Option.map_eq_some_iff.1 h
      obtain ⟨ks, vs, e, h1, h2⟩ := toEntries_means kvs hp hd [] r h' (by simp)
      rw [e, List.nil_append]
      exact .map h1 h2
theorem toValues_means (xs : List Node) (hd : ∀ x ∈ xs, Form.Distinct x) (vs : List Value) (h : toValues xs = some vs) :
    List.Forall₂ Form.Means xs vs := by
  match xs with
  | [] => rw [toValues] at h; cases h; exact .nil
  | x :: xs =>
    rw [toValues] at h
    obtain ⟨v, hv, h⟩ := Option.bind_eq_some_iff.1 h
    obtain ⟨w, hw, rfl⟩ := Option.map_eq_some_iff.1 h
    rw [List.forall_mem_cons] at hd
    exact .cons (toValue_means x hd.1 v hv) (toValues_means xs hd.2 w hw)
theorem toEntries_means (kvs : List (Node × Node))
    (hp : (kvs.map Prod.fst).Pairwise (fun a b => ∀ v, Form.Means a v → ¬ Form.Means b v))
    (hd : ∀ kv ∈ kvs, Form.Distinct kv.2) (m r : List (Value × Value)) (h : toEntries kvs m = some r)
    (hm : ∀ p ∈ m, ∀ kv ∈ kvs, ¬ Form.Means kv.1 p.1) :
    ∃ ks vs, r = m ++ List.zip ks vs ∧ List.Forall₂ Form.Means (kvs.map Prod.fst) ks ∧
      List.Forall₂ Form.Means (kvs.map Prod.snd) vs := by
  match kvs with
  | [] => rw [toEntries] at h; cases h; exact ⟨[], [], by simp, .nil, .nil⟩
  | (k, v) :: kvs =>
    rw [toEntries] at h
    obtain ⟨k', hk', h⟩ := Option.bind_eq_some_iff.1 h
    by_cases hh : hashable k' = true
    · rw [if_pos hh] at h
      obtain ⟨v', hv', h⟩ := Option.bind_eq_some_iff.1 h
      have hks : (textOf k).isSome := by
        by_contra hc
        rw [key_none hc k' hk'] at hh
        cases hh
      obtain ⟨w, e1, _, hkm⟩ := key_value hks
      rw [e1] at hk'
      cases hk'
      rw [List.forall_mem_cons] at hd
      rw [List.map_cons, List.pairwise_cons] at hp
      have hnew : setKey k' v' m = m ++ [(k', v')] := setKey_new k' v' m fun p hp hc =>
        hm p hp (k, v) List.mem_cons_self (hc ▸ hkm)
      rw [hnew] at h
      obtain ⟨ks, vs, e, h1, h2⟩ := toEntries_means kvs hp.2 hd.2 (m ++ [(k', v')]) r h (by
        intro p hpm kv hkv
        rcases List.mem_append.1 hpm with hpm | hpm
        · exact hm p hpm kv (List.mem_cons_of_mem _ hkv)
        · rw [List.mem_singleton] at hpm
          rw [hpm]
          exact hp.1 kv.1 (List.mem_map_of_mem hkv) k' hkm)
      exact ⟨k' :: ks, v' :: vs, by rw [e]; simp, .cons hkm h1, .cons (toValue_means v hd.1 v' hv') h2⟩
    · rw [if_neg hh] at h
      cases h
end

theorem decAny_err (n : Node) (s : Value) : (decAny n s).err = false ↔ Form.Keyed n := by
  rw [← toValue_some]
  unfold decAny
  cases toValue n <;> simp [mismatch]

theorem reads_any : Faithful Value.null decAny Form.any := by
  refine ⟨decAny_err, fun n s h => ?_, .null, fun n h1 h2 => ?_⟩
  · unfold decAny at h ⊢
    cases e : toValue n with
    | none => rw [e] at h; cases h
    | some v => rfl
  · obtain ⟨v, hv⟩ := (toValue_some n).2 h1
    unfold decAny
    rw [hv]
    exact toValue_means n h2 v hv

/-! ### Lists, maps, pointers -/

theorem elems_err {α : Type} {zero : α} {d : Dec α} {e : Form α} (h : Faithful zero d e) (xs : List Node) :
    (decElems zero d xs).err = false ↔ ∀ x ∈ xs, e.fits x := by
  induction xs with
  | nil => simp [decElems]
  | cons x xs ih => simp only [decElems, Bool.or_eq_false_iff, h.ok, ih, List.forall_mem_cons]

theorem elems_tell {α : Type} {zero : α} {d : Dec α} {e : Form α} (h : Faithful zero d e) (xs : List Node)
    (h1 : ∀ x ∈ xs, e.fits x) (h2 : ∀ x ∈ xs, e.once x) : List.Forall₂ e.tells xs (decElems zero d xs).val := by
  induction xs with
  | nil => exact .nil
  | cons x xs ih =>
    rw [List.forall_mem_cons] at h1 h2
    simp only [decElems, h.good x zero ((h.ok x zero).2 h1.1), if_true]
    exact .cons (h.read x h1.1 h2.1) (ih h1.2 h2.2)

theorem elems_good {α : Type} (zero : α) (d : Dec α) (xs : List Node) : (decElems zero d xs).good = true := by
  cases xs <;> rfl

theorem reads_list {α : Type} {zero : α} {d : Dec α} {e : Form α} (h : Faithful zero d e) :
    Faithful [] (decSlice zero d) (Form.list e) := by
  refine ⟨fun n s => ?_, fun n s hh => ?_, .inl ⟨rfl, rfl⟩, fun n h1 h2 => ?_⟩
  · cases n <;> simp [decSlice, Form.list, elems_err h, mismatch]
  · cases n with
    | null => rfl
    | seq xs => exact elems_good zero d xs
    | _ => cases hh
  · rcases h1 with rfl | ⟨xs, rfl, h1⟩
    · exact .inl ⟨rfl, rfl⟩
    · exact .inr ⟨xs, rfl, elems_tell h xs h1 (h2 xs rfl)⟩

theorem decString_some {k : Node} {t : String} (h : textOf k = some t) (s : String) : decString k s = { val := t } :=
  (C108_string k s).1 t h

theorem entries_err {α : Type} {zero : α} {d : Dec α} {e : Form α} (h : Faithful zero d e) (kvs : List (Node × Node))
    (m : GoMap α) : (decEntries zero d kvs m).err = false ↔ ∀ kv ∈ kvs, (textOf kv.1).isSome ∧ e.fits kv.2 := by
  induction kvs generalizing m with
  | nil => simp [decEntries]
  | cons x xs ih =>
    obtain ⟨k, v⟩ := x
    rw [List.forall_mem_cons]
    cases hk : textOf k with
    | none => simp [decEntries, (C108_string k "").2 hk]
    | some t => simp [decEntries, decString_some hk, ih, h.ok]

theorem entries_good {α : Type} (zero : α) (d : Dec α) (kvs : List (Node × Node)) (m : GoMap α) :
    (decEntries zero d kvs m).good = true := by
  cases kvs <;> rfl

theorem entries_tell {α : Type} {zero : α} {d : Dec α} {e : Form α} (h : Faithful zero d e) (kvs : List (Node × Node))
    (m : GoMap α) (hn : (kvs.map fun kv => textOf kv.1).Nodup) (hm : ∀ kv ∈ kvs, ∀ k ∈ m.keys, textOf kv.1 ≠ some k)
    (h1 : ∀ kv ∈ kvs, (textOf kv.1).isSome ∧ e.fits kv.2) (h2 : ∀ kv ∈ kvs, e.once kv.2) :
    ∃ r, (decEntries zero d kvs m).val = m ++ r ∧
      List.Forall₂ (fun kv w => textOf kv.1 = some w.1 ∧ e.tells kv.2 w.2) kvs r := by
  induction kvs generalizing m with
  | nil => exact ⟨[], by simp [decEntries], .nil⟩
  | cons kv kvs ih =>
    obtain ⟨k, v⟩ := kv
    simp only [List.map_cons, List.nodup_cons] at hn
    rw [List.forall_mem_cons] at h1 h2 hm
    obtain ⟨⟨hk, hv⟩, h1⟩ := h1
    obtain ⟨t, ht⟩ := Option.isSome_iff_exists.1 hk
    simp only at ht hv
    have hnew : m.set t (d v zero).val = m ++ [(t, (d v zero).val)] :=
      set_new m t _ fun hc => hm.1 t hc ht
    obtain ⟨r, e1, e2⟩ := ih (m ++ [(t, (d v zero).val)]) hn.2 (by
      intro kv hkv k' hk' hc
      simp only [GoMap.keys, List.map_append, List.map_cons, List.map_nil, List.mem_append, List.mem_singleton] at hk'
      rcases hk' with hk' | rfl
      · exact hm.2 kv hkv k' hk' hc
      · exact hn.1 (List.mem_map.2 ⟨kv, hkv, by rw [hc, ht]⟩)) h1 h2.2
    refine ⟨(t, (d v zero).val) :: r, ?_, .cons ⟨ht, h.read v hv h2.1⟩ e2⟩
    have hg := h.good v zero ((h.ok v zero).2 hv)
    simp only [decEntries, decString_some ht, hg, Bool.and_self, if_true]
    rw [hnew, e1]
    simp

theorem reads_map {α : Type} {zero : α} {d : Dec α} {e : Form α} (h : Faithful zero d e) :
    Faithful [] (decMap zero d) (Form.map e) := by
  refine ⟨fun n s => ?_, fun n s hh => ?_, .inl ⟨rfl, rfl⟩, fun n h1 h2 => ?_⟩
  · cases n <;> simp only [decMap, Form.map, entries_err h, mismatch] <;> simp
  · cases n with
    | null => rfl
    | map kvs => exact entries_good zero d kvs s
    | _ => cases hh
  · rcases h1 with rfl | ⟨kvs, rfl, h1⟩
    · exact .inl ⟨rfl, rfl⟩
    · obtain ⟨h3, h4⟩ := h2 kvs rfl
      obtain ⟨r, e1, e2⟩ := entries_tell h kvs [] h3 (by simp [GoMap.keys]) h1 h4
      refine .inr ⟨kvs, rfl, ?_⟩
      simp only [decMap]
      rw [e1]
      exact e2

theorem reads_ptr {α : Type} {zero : α} {d : Dec α} {e : Form α} (h : Faithful zero d e) (h0 : e.fits .null) :
    Faithful none (decPtr zero d) (Form.ptr e) := by
  refine ⟨fun n s => ?_, fun n s hh => ?_, .inl ⟨rfl, rfl⟩, fun n h1 h2 => ?_⟩
  · cases n with
    | null => simpa [decPtr, Form.ptr] using h0
    | _ => simp only [decPtr, Form.ptr, h.ok]
  · cases n with
    | null => rfl
    | _ => exact h.good _ _ hh
  · cases n with
    | null => exact .inl ⟨rfl, rfl⟩
    | _ => exact .inr ⟨by simp, _, rfl, h.read _ h1 h2⟩

/-! ### Records -/

section
variable {σ : Type}

/-- A key and its line of the table -/
structure LineTells (zero : σ) (tbl : List (String × Field σ)) (f : String × Field σ) (l : Line σ) : Prop where
  name : f.1 = l.name
  null : ∀ s, l.same s zero → l.tells .null s
  read : ∀ n s, l.same s zero → l.fits n → l.once n → l.tells n (f.2 n s).1
  congr : ∀ n s s', l.same s s' → l.tells n s' → l.tells n s
  refl : ∀ s, l.same s s
  trans : ∀ s s' s'', l.same s s' → l.same s' s'' → l.same s s''
  others : ∀ g ∈ tbl, g.1 ≠ l.name → ∀ n s, l.same (g.2 n s).1 s

/-- The decoder also accepts what fits. -/
structure LineReads (zero : σ) (tbl : List (String × Field σ)) (f : String × Field σ) (l : Line σ) : Prop
    extends LineTells zero tbl f l where
  ok : ∀ n s, (f.2 n s).2 = false ↔ l.fits n

theorem lookup_row {α : Type} {tbl : List (String × α)} (hn : (tbl.map Prod.fst).Nodup) {f : String × α} (hf : f ∈ tbl) :
    tbl.lookup f.1 = some f.2 := by
  induction tbl with
  | nil => simp at hf
  | cons g tbl ih =>
    rw [List.map_cons, List.nodup_cons] at hn
    rcases List.mem_cons.1 hf with rfl | hf'
    · obtain ⟨a, b⟩ := f
      simp [List.lookup]
    · have hne : f.1 ≠ g.1 := fun hc => hn.1 (List.mem_map.2 ⟨f, hf', hc⟩)
      obtain ⟨a, b⟩ := g
      rw [List.lookup_cons, beq_eq_false_iff_ne.2 hne]
      exact ih hn.2 hf'

theorem row_lookup {α : Type} {tbl : List (String × α)} {k : String} {a : α} (h : tbl.lookup k = some a) :
    (k, a) ∈ tbl := by
  induction tbl with
  | nil => simp at h
  | cons g tbl ih =>
    obtain ⟨k', b⟩ := g
    rw [List.lookup_cons] at h
    cases e : k == k' with
    | true =>
      rw [e] at h
      cases h
      rw [beq_iff_eq.1 e]
      exact List.mem_cons_self
    | false =>
      rw [e] at h
      exact List.mem_cons_of_mem _ (ih h)

theorem fields_err {zero : σ} {tbl : List (String × Field σ)} {ls : List (Line σ)} (hn : (tbl.map Prod.fst).Nodup)
    (h : List.Forall₂ (LineReads zero tbl) tbl ls) (kvs : List (Node × Node)) (s : σ) :
    (decFields (fun k => tbl.lookup k) kvs s).err = false ↔
      ∀ kv ∈ kvs, ∃ k, textOf kv.1 = some k ∧ ∀ l ∈ ls, l.name = k → l.fits kv.2 := by
  induction kvs generalizing s with
  | nil => simp [decFields]
  | cons kv kvs ih =>
    obtain ⟨k, v⟩ := kv
    rw [List.forall_mem_cons]
    cases hk : textOf k with
    | none => simp [decFields, (C108_string k "").2 hk]
    | some t =>
      simp only [decFields, decString_some hk, if_true]
      cases hl : tbl.lookup t with
      | none =>
        simp only [ih]
        refine ⟨fun h0 => ⟨⟨t, rfl, fun l hl' e => ?_⟩, h0⟩, fun h0 => h0.2⟩
        obtain ⟨f, hf, hr⟩ := Json.forall₂_right h hl'
        have := lookup_row hn hf
        rw [hr.name, e, hl] at this
        cases this
      | some f =>
        have hf := row_lookup hl
        obtain ⟨l, hl', hr⟩ := Json.forall₂_left h hf
        simp only [Bool.or_eq_false_iff, ih]
        refine and_congr_left fun _ => ?_
        rw [hr.ok v s]
        constructor
        · intro h0
          refine ⟨t, rfl, fun l' hl'' e => ?_⟩
          obtain ⟨f', hf', hr'⟩ := Json.forall₂_right h hl''
          have h1 := lookup_row hn hf'
          rw [hr'.name, e, hl] at h1
          have := (hr'.ok v s)
          rw [← Option.some.inj h1] at this
          exact this.1 ((hr.ok v s).2 h0)
        · rintro ⟨t', e, h0⟩
          cases e
          exact h0 l hl' hr.name.symm

theorem fields_good (fields : String → Option (Field σ)) (kvs : List (Node × Node)) (s : σ) :
    (decFields fields kvs s).good = true := by
  induction kvs generalizing s with
  | nil => rfl
  | cons kv kvs ih =>
    obtain ⟨k, v⟩ := kv
    rw [decFields]
    split
    · split
      · exact ih s
      · rfl
    · rfl

/-- Keys without entries keep what they are about. -/
theorem fields_same {zero : σ} {tbl : List (String × Field σ)} {f : String × Field σ} {l : Line σ}
    (hr : LineTells zero tbl f l) (kvs : List (Node × Node)) (s : σ)
    (h : ∀ kv ∈ kvs, textOf kv.1 ≠ some l.name) :
    l.same (decFields (fun k => tbl.lookup k) kvs s).val s := by
  induction kvs generalizing s with
  | nil => exact hr.refl s
  | cons kv kvs ih =>
    obtain ⟨k, v⟩ := kv
    rw [List.forall_mem_cons] at h
    rw [decFields]
    cases hk : textOf k with
    | none => simp only [(C108_string k "").2 hk]; exact ih s h.2
    | some t =>
      simp only [decString_some hk, if_true]
      cases hl : tbl.lookup t with
      | none => exact ih s h.2
      | some g =>
        refine hr.trans _ _ _ (ih _ h.2) (hr.others (t, g) (row_lookup hl) (fun hc => h.1 ?_) v s)
        simp only at hc ⊢
        rw [hk, hc]

theorem fields_tell {zero : σ} {tbl : List (String × Field σ)} (hn : (tbl.map Prod.fst).Nodup)
    {f : String × Field σ} (hf : f ∈ tbl) {l : Line σ} (hr : LineTells zero tbl f l)
    (kvs : List (Node × Node)) (s : σ) (hs : l.same s zero)
    (hp : kvs.Pairwise fun a b => ¬ (textOf a.1 = some l.name ∧ textOf b.1 = some l.name))
    (h1 : ∀ kv ∈ kvs, textOf kv.1 = some l.name → l.fits kv.2)
    (h2 : ∀ kv ∈ kvs, textOf kv.1 = some l.name → l.once kv.2) :
    ∃ u, Gives kvs l.name u ∧ l.tells u (decFields (fun k => tbl.lookup k) kvs s).val := by
  induction kvs generalizing s with
  | nil => exact ⟨.null, .inr ⟨rfl, by simp⟩, hr.null s hs⟩
  | cons kv kvs ih =>
    obtain ⟨k, v⟩ := kv
    rw [List.forall_mem_cons] at h1 h2
    rw [List.pairwise_cons] at hp
    by_cases hk : textOf k = some l.name
    · refine ⟨v, .inl ⟨k, List.mem_cons_self, hk⟩, ?_⟩
      have hlk := lookup_row hn hf
      rw [hr.name] at hlk
      simp only [decFields, decString_some hk, if_true, hlk]
      refine hr.congr _ _ _ (fields_same hr kvs _ fun kv hkv hc => hp.1 kv hkv ⟨hk, hc⟩) ?_
      exact hr.read v s hs (h1.1 hk) (h2.1 hk)
    · have lift : ∀ s', l.same s' zero →
          ∃ u, Gives ((k, v) :: kvs) l.name u ∧ l.tells u (decFields (fun k => tbl.lookup k) kvs s').val := by
        intro s' hs'
        obtain ⟨u, hu, ht⟩ := ih s' hs' hp.2 h1.2 h2.2
        refine ⟨u, ?_, ht⟩
        rcases hu with ⟨k', hm, hk'⟩ | ⟨rfl, hu⟩
        · exact .inl ⟨k', List.mem_cons_of_mem _ hm, hk'⟩
        · exact .inr ⟨rfl, List.forall_mem_cons.2 ⟨hk, hu⟩⟩
      cases ht : textOf k with
      | none => simp only [decFields, (C108_string k "").2 ht]; exact lift s hs
      | some t =>
        simp only [decFields, decString_some ht, if_true]
        cases hl : tbl.lookup t with
        | none => exact lift s hs
        | some g =>
          refine lift _ (hr.trans _ _ _ (hr.others (t, g) (row_lookup hl) (fun hc => hk ?_) v s) hs)
          simp only at hc
          rw [ht, hc]

theorem reads_obj {zero : σ} {tbl : List (String × Field σ)} {ls : List (Line σ)} (hn : (tbl.map Prod.fst).Nodup)
    (h : List.Forall₂ (LineReads zero tbl) tbl ls) :
    Faithful zero (decStruct zero fun k => tbl.lookup k) (Form.obj ls) := by
  have hnull : ∀ l ∈ ls, ∃ u, Gives [] l.name u ∧ l.tells u zero := fun l hl => by
    obtain ⟨f, _, hr⟩ := Json.forall₂_right h hl
    exact ⟨.null, .inr ⟨rfl, by simp⟩, hr.null zero (hr.refl zero)⟩
  refine ⟨fun n s => ?_, fun n s hh => ?_, ⟨[], .inr ⟨rfl, rfl⟩, hnull⟩, fun n h1 h2 => ?_⟩
  · cases n <;> simp only [decStruct, Form.obj, fields_err hn h, mismatch] <;> simp
  · cases n with
    | null => rfl
    | map kvs => exact fields_good _ kvs s
    | _ => cases hh
  · rcases h1 with rfl | ⟨kvs, rfl, h1⟩
    · exact ⟨[], .inr ⟨rfl, rfl⟩, hnull⟩
    · obtain ⟨h3, h4⟩ := h2 kvs rfl
      refine ⟨kvs, .inl rfl, fun l hl => ?_⟩
      obtain ⟨f, hf, hr⟩ := Json.forall₂_right h hl
      refine fields_tell hn hf hr.toLineTells kvs zero (hr.refl zero) (h3 l hl) (fun kv hkv e => ?_) fun kv hkv e => h4 kv hkv l hl e
      obtain ⟨k, e', h5⟩ := h1 kv hkv
      rw [e] at e'
      exact h5 l hl (Option.some.inj e')

theorem obj_fits_null {ls : List (Line σ)} : (Form.obj ls).fits .null := .inl rfl

/-- A plain field -/
theorem LineReads.field {zero : σ} {tbl : List (String × Field σ)} {α : Type} {n : String} {get : σ → α}
    {set : σ → α → σ} {d : Dec α} {e : Form α} (h1 : Faithful (get zero) d e) (h2 : ∀ s v, get (set s v) = v)
    (h3 : ∀ g ∈ tbl, g.1 ≠ n → ∀ n s, get (g.2 n s).1 = get s) :
    LineReads zero tbl (n, Yaml.field get set d) (line n get e) where
  name := rfl
  ok n s := h1.ok n _
  null s hs := by
    show e.tells .null (get s)
    rw [show get s = get zero from hs]
    exact h1.null
  read n s hs hf ho := by
    show e.tells n (get (set s (d n (get s)).val))
    rw [h2, show get s = get zero from hs]
    exact h1.read n hf ho
  congr n s s' hs ht := by
    show e.tells n (get s)
    rw [show get s = get s' from hs]
    exact ht
  refl _ := rfl
  trans _ _ _ h h' := Eq.trans h h'
  others := h3

/-- A nested record -/
theorem LineReads.group {zero : σ} {tbl inner : List (String × Field σ)} {ls : List (Line σ)} {n : String}
    {reset : σ → σ} (hn : (inner.map Prod.fst).Nodup) (h : List.Forall₂ (LineReads zero inner) inner ls)
    (hreset : ∀ s, ∀ l ∈ ls, l.same (reset s) zero)
    (h3 : ∀ l ∈ ls, ∀ g ∈ tbl, g.1 ≠ n → ∀ n s, l.same (g.2 n s).1 s) :
    LineReads zero tbl (n, nested reset fun k => inner.lookup k) (group n ls) where
  name := rfl
  ok m s := by
    show _ ↔ (Form.obj ls).fits m
    cases m <;> simp only [nested, Form.obj, fields_err hn h] <;> simp
  null s hs := ⟨[], .inr ⟨rfl, rfl⟩, fun l hl => by
    obtain ⟨f, _, hr⟩ := Json.forall₂_right h hl
    exact ⟨.null, .inr ⟨rfl, by simp⟩, hr.null s (hs l hl)⟩⟩
  read m s hs hf ho := by
    rcases hf with rfl | ⟨kvs, rfl, h1⟩
    · refine ⟨[], .inr ⟨rfl, rfl⟩, fun l hl => ?_⟩
      obtain ⟨f, _, hr⟩ := Json.forall₂_right h hl
      exact ⟨.null, .inr ⟨rfl, by simp⟩, hr.null _ (hreset s l hl)⟩
    · obtain ⟨h4, h5⟩ := ho kvs rfl
      refine ⟨kvs, .inl rfl, fun l hl => ?_⟩
      obtain ⟨f, hf, hr⟩ := Json.forall₂_right h hl
      refine fields_tell hn hf hr.toLineTells kvs s (hs l hl) (h4 l hl) (fun kv hkv e => ?_) fun kv hkv e => h5 kv hkv l hl e
      obtain ⟨k, e', h6⟩ := h1 kv hkv
      rw [e] at e'
      exact h6 l hl (Option.some.inj e')
  congr m s s' hs := by
    rintro ⟨kvs, hk, ht⟩
    refine ⟨kvs, hk, fun l hl => ?_⟩
    obtain ⟨u, hu, ht⟩ := ht l hl
    obtain ⟨f, _, hr⟩ := Json.forall₂_right h hl
    exact ⟨u, hu, hr.congr _ _ _ (hs l hl) ht⟩
  refl s l hl := by
    obtain ⟨f, _, hr⟩ := Json.forall₂_right h hl
    exact hr.refl s
  trans s s' s'' h1 h2 l hl := by
    obtain ⟨f, _, hr⟩ := Json.forall₂_right h hl
    exact hr.trans _ _ _ (h1 l hl) (h2 l hl)
  others g hg hne m s l hl := h3 l hl g hg hne m s

end

/-! ### Short forms -/

/-- A decoder that tries a text first -/
theorem reads_short {α : Type} {zero : α} {f : Node → α → α × Bool} {d : Dec α} {e : Form α} {of : String → α}
    (h : Faithful zero d e) (h1 : ∀ t r s, f (.scalar t r) s = (of t, false))
    (h2 : ∀ n s, (∀ t r, n ≠ .scalar t r) → n ≠ .null → f n s = ((d n zero).val, (d n zero).err)) (h0 : e.fits .null) :
    Faithful zero (custom zero f) (Form.short of e) := by
  refine ⟨fun n s => ?_, fun n s hh => ?_, .inr ⟨fun t r => by simp, h.null⟩, fun n hf ho => ?_⟩
  · cases n with
    | null => exact ⟨fun _ => .inr h0, fun _ => rfl⟩
    | scalar t r => simp [custom, h1, Form.short]
    | _ => simp [custom, h2, Form.short, h.ok]
  · cases n with
    | null => rfl
    | _ =>
      simp only [custom] at hh ⊢
      simp [hh]
  · cases n with
    | null => exact .inr ⟨fun t r => by simp, h.null⟩
    | scalar t r => exact .inl ⟨t, r, rfl, by simp [custom, h1]⟩
    | seq xs =>
      refine .inr ⟨fun t r => by simp, ?_⟩
      simp only [custom, h2 (.seq xs) zero (by simp) (by simp)]
      exact h.read _ (hf.resolve_left (by simp)) ho
    | map kvs =>
      refine .inr ⟨fun t r => by simp, ?_⟩
      simp only [custom, h2 (.map kvs) zero (by simp) (by simp)]
      exact h.read _ (hf.resolve_left (by simp)) ho

end Yaml
end Drone
