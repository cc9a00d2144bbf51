/-
The decoder of encoding/json, as modelled, reads what `Spec.Shape` says.
-/
import Verif.Spec.JsonShape
import Verif.Proof.ManifestJson

namespace Drone
namespace Json
open Spec

/-- The decoder accepts what fits, and reads what the text says. -/
structure Sound {α : Type} (zero : α) (d : Dec α) (e : Shape α) : Prop where
  ok : ∀ t s, (d t s).2 = false ↔ e.fits t
  null : e.tells .null zero
  read : ∀ t, e.fits t → e.once t → e.tells t (d t zero).1

theorem sound_str : Sound "" decStr Shape.str := by
  refine ⟨fun t s => ?_, .inl ⟨rfl, rfl⟩, fun t h _ => ?_⟩
  · cases t <;> simp [decStr, Shape.str]
  · rcases h with rfl | ⟨s, rfl⟩
    · exact .inl ⟨rfl, rfl⟩
    · exact .inr rfl

theorem sound_bool : Sound false decBool Shape.bool := by
  refine ⟨fun t s => ?_, .inl ⟨rfl, rfl⟩, fun t h _ => ?_⟩
  · cases t <;> simp [decBool, Shape.bool]
  · rcases h with rfl | ⟨s, rfl⟩
    · exact .inl ⟨rfl, rfl⟩
    · exact .inr rfl

theorem sound_int : Sound 0 decInt Shape.int := by
  refine ⟨fun t s => ?_, .inl ⟨rfl, rfl⟩, fun t h _ => ?_⟩
  · cases t with
    | int i =>
      by_cases hi : -2 ^ 63 ≤ i ∧ i < 2 ^ 63
      · rw [decInt, if_pos hi]
        exact ⟨fun _ => .inr ⟨i, rfl, hi⟩, fun _ => rfl⟩
      · rw [decInt, if_neg hi]
        refine ⟨fun h => (by cases h), ?_⟩
        rintro (h | ⟨j, h, hj⟩)
        · cases h
        · cases h; exact absurd hj hi
    | _ => simp [decInt, Shape.int]
  · rcases h with rfl | ⟨i, rfl, hi⟩
    · exact .inl ⟨rfl, rfl⟩
    · rw [decInt, if_pos hi]
      exact .inr rfl

theorem sound_float : Sound 0 decFloat Shape.float := by
  refine ⟨fun t s => ?_, .inl ⟨rfl, rfl⟩, fun t h _ => ?_⟩
  · cases t <;> simp [decFloat, Shape.float]
  · rcases h with rfl | ⟨i, rfl⟩ | ⟨q, rfl⟩
    · exact .inl ⟨rfl, rfl⟩
    · exact .inr (.inl ⟨i, rfl, rfl⟩)
    · exact .inr (.inr ⟨q, rfl, rfl⟩)

mutual
theorem any_says (t : Tree) (h : Shape.Plain t) : Shape.Says t (anyValue t) := by
  match t with
  | .null => exact .null
  | .bool b => exact .bool
  | .int i => exact .int
  | .float q => exact .float
  | .str s => exact .str
  | .arr xs =>
    cases h with
    | arr h => rw [anyValue]; exact .arr (any_list xs h)
  | .obj kvs =>
    cases h with
    | obj hn h =>
      obtain ⟨vs, e, hv⟩ := any_entries kvs h [] hn (by simp [GoMap.keys])
      rw [anyValue, e, List.nil_append, show (List.zip (kvs.map Prod.fst) vs).map (fun kv => (Value.str kv.1, kv.2)) =
        List.zip (kvs.map fun kv => Value.str kv.1) vs from ?_]
      · exact .obj hv
      · clear e hv
        induction kvs generalizing vs with
        | nil => rfl
        | cons kv kvs ih =>
          cases vs with
          | nil => rfl
          | cons v vs =>
            simp only [List.map_cons, List.zip_cons_cons, List.cons.injEq, true_and]
            exact ih (List.nodup_cons.1 hn).2 (fun x hx => h x (List.mem_cons_of_mem _ hx)) vs
theorem any_list (xs : List Tree) (h : ∀ x ∈ xs, Shape.Plain x) : List.Forall₂ Shape.Says xs (anyValues xs) := by
  match xs with
  | [] => exact .nil
  | x :: xs =>
    rw [anyValues]
    exact .cons (any_says x (h x List.mem_cons_self)) (any_list xs fun y hy => h y (List.mem_cons_of_mem _ hy))
theorem any_entries (kvs : List (String × Tree)) (h : ∀ kv ∈ kvs, Shape.Plain kv.2) (m : GoMap Value)
    (hn : (kvs.map Prod.fst).Nodup) (hm : ∀ k ∈ kvs.map Prod.fst, k ∉ m.keys) :
    ∃ vs, anyEntries kvs m = m ++ List.zip (kvs.map Prod.fst) vs ∧
      List.Forall₂ Shape.Says (kvs.map Prod.snd) vs := by
  match kvs with
  | [] => exact ⟨[], by simp [anyEntries], .nil⟩
  | (k, t) :: kvs =>
    simp only [List.map_cons, List.nodup_cons] at hn
    obtain ⟨vs, e, hv⟩ := any_entries kvs (fun x hx => h x (List.mem_cons_of_mem _ hx)) (m.set k (anyValue t)) hn.2 (by
      intro k' hk' hc
      rw [Yaml.set_new m k _ (hm k (by simp))] at hc
      simp only [GoMap.keys, List.map_append, List.map_cons, List.map_nil, List.mem_append, List.mem_singleton] at hc
      rcases hc with hc | rfl
      · exact hm k' (by simp only [List.map_cons]; exact List.mem_cons_of_mem _ hk') hc
      · exact hn.1 hk')
    refine ⟨anyValue t :: vs, ?_, .cons (any_says t (h (k, t) List.mem_cons_self)) hv⟩
    rw [anyEntries, e, Yaml.set_new m k _ (hm k (by simp))]
    simp
end

theorem sound_any : Sound Value.null decAny Shape.any :=
  ⟨fun _ _ => by simp [decAny, Shape.any], .null, fun t _ h => any_says t h⟩

theorem elems_ok {α : Type} {zero : α} {d : Dec α} {e : Shape α} (h : Sound zero d e) (xs : List Tree) :
    (decElems zero d xs).2 = false ↔ ∀ x ∈ xs, e.fits x := by
  induction xs with
  | nil => simp [decElems]
  | cons x xs ih => simp only [decElems, Bool.or_eq_false_iff, h.ok, ih, List.forall_mem_cons]

theorem elems_read {α : Type} {zero : α} {d : Dec α} {e : Shape α} (h : Sound zero d e) (xs : List Tree)
    (h1 : ∀ x ∈ xs, e.fits x) (h2 : ∀ x ∈ xs, e.once x) : List.Forall₂ e.tells xs (decElems zero d xs).1 := by
  induction xs with
  | nil => exact .nil
  | cons x xs ih =>
    rw [List.forall_mem_cons] at h1 h2
    exact .cons (h.read x h1.1 h2.1) (ih h1.2 h2.2)

theorem sound_list {α : Type} {zero : α} {d : Dec α} {e : Shape α} (h : Sound zero d e) :
    Sound [] (decSlice zero d) (Shape.list e) := by
  refine ⟨fun t s => ?_, .inl ⟨rfl, rfl⟩, fun t h1 h2 => ?_⟩
  · cases t <;> simp [decSlice, Shape.list, elems_ok h]
  · rcases h1 with rfl | ⟨xs, rfl, h1⟩
    · exact .inl ⟨rfl, rfl⟩
    · exact .inr ⟨xs, rfl, elems_read h xs h1 (h2 xs rfl)⟩

theorem entries_ok {α : Type} {zero : α} {d : Dec α} {e : Shape α} (h : Sound zero d e) (kvs : List (String × Tree))
    (m : GoMap α) : (decEntries zero d kvs m).2 = false ↔ ∀ kv ∈ kvs, e.fits kv.2 := by
  induction kvs generalizing m with
  | nil => simp [decEntries]
  | cons x xs ih => simp only [decEntries, Bool.or_eq_false_iff, h.ok, ih, List.forall_mem_cons]

theorem entries_read {α : Type} {zero : α} {d : Dec α} {e : Shape α} (h : Sound zero d e) (kvs : List (String × Tree))
    (m : GoMap α) (hn : (kvs.map Prod.fst).Nodup) (hm : ∀ k ∈ kvs.map Prod.fst, k ∉ m.keys)
    (h1 : ∀ x ∈ kvs, e.fits x.2) (h2 : ∀ x ∈ kvs, e.once x.2) :
    ∃ r, (decEntries zero d kvs m).1 = m ++ r ∧ List.Forall₂ (fun kv w => kv.1 = w.1 ∧ e.tells kv.2 w.2) kvs r := by
  induction kvs generalizing m with
  | nil => exact ⟨[], by simp [decEntries], .nil⟩
  | cons kv kvs ih =>
    obtain ⟨k, t⟩ := kv
    simp only [List.map_cons, List.nodup_cons] at hn
    rw [List.forall_mem_cons] at h1 h2
    obtain ⟨r, e1, e2⟩ := ih (m.set k (d t zero).1) hn.2 (by
      intro k' hk' hc
      rw [Yaml.set_new m k _ (hm k (by simp))] at hc
      simp only [GoMap.keys, List.map_append, List.map_cons, List.map_nil, List.mem_append, List.mem_singleton] at hc
      rcases hc with hc | rfl
      · exact hm k' (by simp only [List.map_cons]; exact List.mem_cons_of_mem _ hk') hc
      · exact hn.1 hk') h1.2 h2.2
    refine ⟨(k, (d t zero).1) :: r, ?_, .cons ⟨rfl, h.read t h1.1 h2.1⟩ e2⟩
    simp only [decEntries]
    rw [e1, Yaml.set_new m k _ (hm k (by simp))]
    simp

theorem sound_map {α : Type} {zero : α} {d : Dec α} {e : Shape α} (h : Sound zero d e) :
    Sound [] (decMap zero d) (Shape.map e) := by
  refine ⟨fun t s => ?_, .inl ⟨rfl, rfl⟩, fun t h1 h2 => ?_⟩
  · cases t <;> simp only [decMap, Shape.map, entries_ok h] <;> simp
  · rcases h1 with rfl | ⟨kvs, rfl, h1⟩
    · exact .inl ⟨rfl, rfl⟩
    · obtain ⟨h3, h4⟩ := h2 kvs rfl
      obtain ⟨r, e1, e2⟩ := entries_read h kvs [] h3 (by simp [GoMap.keys]) h1 h4
      refine .inr ⟨kvs, rfl, ?_⟩
      simp only [decMap]
      rw [e1]
      exact e2

theorem sound_ptr {α : Type} {zero : α} {d : Dec α} {e : Shape α} (h : Sound zero d e) (h0 : e.fits .null) :
    Sound none (decPtr zero d) (Shape.ptr e) := by
  refine ⟨fun t s => ?_, .inl ⟨rfl, rfl⟩, fun t h1 h2 => ?_⟩
  · cases t with
    | null => simpa [decPtr, Shape.ptr] using h0
    | _ => simp only [decPtr, Shape.ptr, h.ok]
  · cases t with
    | null => exact .inl ⟨rfl, rfl⟩
    | _ => exact .inr ⟨by simp, _, rfl, h.read _ h1 h2⟩

/-! ### Structs -/

theorem forall₂_left {α β : Type} {R : α → β → Prop} {l : List α} {m : List β} (h : List.Forall₂ R l m) {a : α}
    (ha : a ∈ l) : ∃ b ∈ m, R a b := by
  induction h with
  | nil => simp at ha
  | cons h _ ih =>
    rcases List.mem_cons.1 ha with rfl | ha
    · exact ⟨_, List.mem_cons_self, h⟩
    · obtain ⟨b, hb, h⟩ := ih ha
      exact ⟨b, List.mem_cons_of_mem _ hb, h⟩

theorem forall₂_right {α β : Type} {R : α → β → Prop} {l : List α} {m : List β} (h : List.Forall₂ R l m) {b : β}
    (hb : b ∈ m) : ∃ a ∈ l, R a b := by
  obtain ⟨a, ha, h⟩ := forall₂_left h.flip hb
  exact ⟨a, ha, h⟩

section
variable {fold : String → String → Bool} {σ : Type}

/-- The other fields leave the value of `get` alone. -/
def Others {α : Type} (get : σ → α) (n : String) : List (Field σ) → Prop
  | [] => True
  | f :: fs => (f.1 = n ∨ ∀ t s, get (f.2 t s).1 = get s) ∧ Others get n fs

theorem others_mem {α : Type} {get : σ → α} {n : String} {fs : List (Field σ)} (h : Others get n fs) (f : Field σ)
    (hf : f ∈ fs) (hn : f.1 ≠ n) (t : Tree) (s : σ) : get (f.2 t s).1 = get s := by
  induction fs with
  | nil => simp at hf
  | cons g fs ih =>
    rcases List.mem_cons.1 hf with rfl | hf
    · exact (h.1.resolve_left hn) t s
    · exact ih h.2 hf

/-- Plain ASCII names that differ in more than case. -/
def NamesOk (names : List String) : Prop :=
  (∀ n ∈ names, ∀ c ∈ n.toList, c.toNat < 128) ∧ (names.map fun n => n.toList.map Char.toLower).Nodup

instance (names : List String) : Decidable (NamesOk names) := by unfold NamesOk; infer_instance

theorem names_refl (hF : Folds fold) {names : List String} (h : NamesOk names) (n : String) (hn : n ∈ names) :
    fold n n = true := (hF.ascii n n (h.1 n hn) (h.1 n hn)).2 rfl

theorem names_unique (hF : Folds fold) {names : List String} (h : NamesOk names) {a b k : String} (ha : a ∈ names)
    (hb : b ∈ names) (h1 : fold a k = true) (h2 : fold b k = true) : a = b := by
  have := (hF.ascii a b (h.1 a ha) (h.1 b hb)).1 (hF.trans _ _ _ h1 (hF.symm _ _ h2))
  exact List.inj_on_of_nodup_map h.2 ha hb this

theorem nodup_names {names : List String} (h : NamesOk names) : names.Nodup := List.Nodup.of_map _ h.2

theorem findField_some (hF : Folds fold) {fs : List (Field σ)} (h : NamesOk (fs.map Prod.fst)) (k : String) (f : Field σ)
    (hf : f ∈ fs) (hk : fold f.1 k = true) : findField fold fs k = some f.2 := by
  have hu : ∀ g ∈ fs, fold g.1 k = true → g = f := fun g hg hgk =>
    List.inj_on_of_nodup_map (nodup_names h) hg hf
      (names_unique hF h (List.mem_map_of_mem hg) (List.mem_map_of_mem hf) hgk hk)
  unfold findField
  cases e : fs.find? (fun f => f.1 = k) with
  | some g =>
    have hg := List.mem_of_find?_eq_some e
    have hk' := List.find?_some e
    simp only [decide_eq_true_eq] at hk'
    have := hu g hg (by rw [← hk']; exact names_refl hF h g.1 (List.mem_map_of_mem hg))
    simp [this]
  | none =>
    cases e2 : fs.find? (fun f => fold f.1 k) with
    | some g =>
      have := hu g (List.mem_of_find?_eq_some e2) (by simpa using List.find?_some e2)
      simp [this]
    | none =>
      rw [List.find?_eq_none] at e2
      exact absurd hk (e2 f hf)

theorem findField_none (hF : Folds fold) {fs : List (Field σ)} (h : NamesOk (fs.map Prod.fst)) (k : String)
    (hk : ∀ f ∈ fs, ¬ fold f.1 k = true) : findField fold fs k = none := by
  unfold findField
  have e : fs.find? (fun f => f.1 = k) = none := by
    rw [List.find?_eq_none]
    intro f hf he
    simp only [decide_eq_true_eq] at he
    exact hk f hf (by rw [← he]; exact names_refl hF h f.1 (List.mem_map_of_mem hf))
  have e2 : fs.find? (fun f => fold f.1 k) = none := by
    rw [List.find?_eq_none]
    exact hk
  rw [e, e2]
  rfl

/-- A field and its line of the table -/
structure FieldSound (zero : σ) (fs : List (Field σ)) (f : Field σ) (p : Slot σ) : Prop where
  intro ::
  ex : ∃ (α : Type) (get : σ → α) (set : σ → α → σ) (d : Dec α) (e : Shape α),
    f = field p.name get set d ∧ p = slot p.name get e ∧ Sound (get zero) d e ∧ (∀ s v, get (set s v) = v) ∧
    Others get p.name fs

theorem FieldSound.mk' {zero : σ} {fs : List (Field σ)} {α : Type} {n : String} {get : σ → α} {set : σ → α → σ}
    {d : Dec α} {e : Shape α} (h1 : Sound (get zero) d e) (h2 : ∀ s v, get (set s v) = v) (h3 : Others get n fs) :
    FieldSound zero fs (field n get set d) (slot n get e) :=
  ⟨_, get, set, d, e, rfl, rfl, h1, h2, h3⟩

theorem decFields_get (hF : Folds fold) {fs : List (Field σ)} (hn : NamesOk (fs.map Prod.fst)) {α : Type} {n : String}
    {get : σ → α} {set : σ → α → σ} {d : Dec α} (hf : field n get set d ∈ fs) (hg : ∀ s v, get (set s v) = v)
    (ho : Others get n fs) (kvs : List (String × Tree)) (s : σ)
    (hp : kvs.Pairwise fun a b => ¬ (fold n a.1 = true ∧ fold n b.1 = true)) :
    (∃ k t, (k, t) ∈ kvs ∧ fold n k = true ∧ get (decFields fold fs kvs s).1 = (d t (get s)).1) ∨
    ((∀ kv ∈ kvs, ¬ fold n kv.1 = true) ∧ get (decFields fold fs kvs s).1 = get s) := by
  induction kvs generalizing s with
  | nil => exact .inr ⟨by simp, rfl⟩
  | cons kv kvs ih =>
    obtain ⟨k, t⟩ := kv
    rw [List.pairwise_cons] at hp
    by_cases hk : fold n k = true
    · have e := findField_some hF hn k _ hf hk
      have hr : ∀ kv ∈ kvs, ¬ fold n kv.1 = true := fun kv hkv hc => hp.1 kv hkv ⟨hk, hc⟩
      refine .inl ⟨k, t, List.mem_cons_self, hk, ?_⟩
      simp only [decFields, e]
      rcases ih (field n get set d |>.2 t s).1 hp.2 with ⟨k', t', hm, hk', _⟩ | ⟨_, h2⟩
      · exact absurd hk' (hr _ hm)
      · rw [h2]
        simp only [field, hg]
    · have key : ∀ s', get s' = get s → decFields fold fs ((k, t) :: kvs) s = decFields fold fs ((k, t) :: kvs) s →
          ((∃ k t, (k, t) ∈ kvs ∧ fold n k = true ∧ get (decFields fold fs kvs s').1 = (d t (get s)).1) ∨
          ((∀ kv ∈ kvs, ¬ fold n kv.1 = true) ∧ get (decFields fold fs kvs s').1 = get s)) := by
        intro s' hs' _
        have := ih s' hp.2
        rwa [hs'] at this
      have lift : ∀ x : α, ((∃ k t, (k, t) ∈ kvs ∧ fold n k = true ∧ x = (d t (get s)).1) ∨
          ((∀ kv ∈ kvs, ¬ fold n kv.1 = true) ∧ x = get s)) →
          ((∃ k' t', (k', t') ∈ (k, t) :: kvs ∧ fold n k' = true ∧ x = (d t' (get s)).1) ∨
          ((∀ kv ∈ (k, t) :: kvs, ¬ fold n kv.1 = true) ∧ x = get s)) := by
        rintro x (⟨k', t', h1, h2, h3⟩ | ⟨h1, h2⟩)
        · exact .inl ⟨k', t', List.mem_cons_of_mem _ h1, h2, h3⟩
        · exact .inr ⟨List.forall_mem_cons.2 ⟨hk, h1⟩, h2⟩
      by_cases hx : ∃ f ∈ fs, fold f.1 k = true
      · obtain ⟨f, hf', hfk⟩ := hx
        have e := findField_some hF hn k f hf' hfk
        have hne : f.1 ≠ n := fun hc => hk (hc ▸ hfk)
        simp only [decFields, e]
        exact lift _ (key _ (others_mem ho f hf' hne t s) rfl)
      · push Not at hx
        have e := findField_none hF hn k hx
        simp only [decFields, e]
        exact lift _ (key s rfl rfl)

theorem decFields_ok (hF : Folds fold) {zero : σ} {fs : List (Field σ)} {ps : List (Slot σ)}
    (hn : NamesOk (fs.map Prod.fst)) (h : List.Forall₂ (FieldSound zero fs) fs ps) (kvs : List (String × Tree)) (s : σ) :
    (decFields fold fs kvs s).2 = false ↔ ∀ kv ∈ kvs, ∀ p ∈ ps, fold p.name kv.1 = true → p.fits kv.2 := by
  have hl : ∀ f ∈ fs, ∃ p ∈ ps, p.name = f.1 ∧ ∀ t s, (f.2 t s).2 = false ↔ p.fits t := by
    intro f hf
    obtain ⟨p, hp, ⟨α, get, set, d, e, e1, e2, h1, _, _⟩⟩ := forall₂_left h hf
    refine ⟨p, hp, by rw [e1]; rfl, fun t s => ?_⟩
    rw [e1, e2]
    exact h1.ok t _
  have hr : ∀ p ∈ ps, ∃ f ∈ fs, p.name = f.1 ∧ ∀ t s, (f.2 t s).2 = false ↔ p.fits t := by
    intro p hp
    obtain ⟨f, hf, ⟨α, get, set, d, e, e1, e2, h1, _, _⟩⟩ := forall₂_right h hp
    refine ⟨f, hf, by rw [e1]; rfl, fun t s => ?_⟩
    rw [e1, e2]
    exact h1.ok t _
  induction kvs generalizing s with
  | nil => simp [decFields]
  | cons kv kvs ih =>
    obtain ⟨k, t⟩ := kv
    rw [List.forall_mem_cons]
    by_cases hx : ∃ f ∈ fs, fold f.1 k = true
    · obtain ⟨f, hf, hfk⟩ := hx
      have e := findField_some hF hn k f hf hfk
      simp only [decFields, e, Bool.or_eq_false_iff, ih]
      refine and_congr_left fun _ => ?_
      constructor
      · intro h0 p hp hpk
        obtain ⟨g, hg, e1, e2⟩ := hr p hp
        have : g.1 = f.1 := names_unique hF hn (List.mem_map_of_mem hg) (List.mem_map_of_mem hf) (e1 ▸ hpk) hfk
        have := List.inj_on_of_nodup_map (nodup_names hn) hg hf this
        subst this
        exact (e2 t s).1 h0
      · intro h0
        obtain ⟨p, hp, e1, e2⟩ := hl f hf
        exact (e2 t s).2 (h0 p hp (e1 ▸ hfk))
    · push Not at hx
      have e := findField_none hF hn k hx
      simp only [decFields, e, ih]
      refine ⟨fun h0 => ⟨fun p hp hpk => ?_, h0⟩, fun h0 => h0.2⟩
      obtain ⟨g, hg, e1, _⟩ := hr p hp
      exact absurd (e1 ▸ hpk) (hx g hg)

theorem sound_obj (hF : Folds fold) {zero : σ} {fs : List (Field σ)} {ps : List (Slot σ)}
    (hn : NamesOk (fs.map Prod.fst)) (h : List.Forall₂ (FieldSound zero fs) fs ps) :
    Sound zero (decStruct fold fs) (Shape.obj fold ps) := by
  refine ⟨fun t s => ?_, ⟨[], .inr ⟨rfl, rfl⟩, fun p hp => ?_⟩, fun t h1 h2 => ?_⟩
  · cases t <;> simp only [decStruct, Shape.obj, decFields_ok hF hn h] <;> simp
  · obtain ⟨f, hf, ⟨α, get, set, d, e, e1, e2, h1, _, _⟩⟩ := forall₂_right h hp
    refine ⟨.null, .inr ⟨rfl, by simp⟩, ?_⟩
    rw [e2]
    exact h1.null
  · rcases h1 with rfl | ⟨kvs, rfl, h1⟩
    · refine ⟨[], .inr ⟨rfl, rfl⟩, fun p hp => ?_⟩
      obtain ⟨f, hf, ⟨α, get, set, d, e, e1, e2, h1, _, _⟩⟩ := forall₂_right h hp
      refine ⟨.null, .inr ⟨rfl, by simp⟩, ?_⟩
      rw [e2]
      exact h1.null
    · obtain ⟨h3, h4⟩ := h2 kvs rfl
      refine ⟨kvs, .inl rfl, fun p hp => ?_⟩
      obtain ⟨f, hf, ⟨α, get, set, d, e, e1, e2, h5, h6, h7⟩⟩ := forall₂_right h hp
      subst e1
      have h8 := h3 p hp
      have h9 := fun kv hkv => h1 kv hkv p hp
      have h10 := fun kv hkv => h4 kv hkv p hp
      have hfit : p.fits = e.fits := by rw [e2]; rfl
      have honce : p.once = e.once := by rw [e2]; rfl
      have htells : p.tells = fun t s => e.tells t (get s) := by rw [e2]; rfl
      rcases decFields_get hF hn hf h6 h7 kvs zero h8 with ⟨k, t, hm, hk, e3⟩ | ⟨h11, e3⟩
      · refine ⟨t, .inl ⟨k, hm, hk⟩, ?_⟩
        rw [htells]
        simp only [decStruct]
        rw [e3]
        exact h5.read t (hfit ▸ h9 (k, t) hm hk) (honce ▸ h10 (k, t) hm hk)
      · refine ⟨.null, .inr ⟨rfl, h11⟩, ?_⟩
        rw [htells]
        simp only [decStruct]
        rw [e3]
        exact h5.null

theorem obj_null {ps : List (Slot σ)} : (Shape.obj fold ps).fits .null := .inl rfl

end

end Json
end Drone
