/-
The decoders of the converters read what the forms of Spec/ForeignForm.lean say: records with a
map for all other keys, keys that are only checked, and methods that try several forms.
-/
import Verif.Spec.ForeignForm
import Verif.Proof.YamlForm
import Verif.Props.YamlForm
import Verif.Props.DecodeConvert

namespace Drone
namespace Yaml
open Spec

section
variable {σ : Type}

/-- A key that is only checked -/
theorem LineReads.check {zero : σ} {tbl : List (String × Field σ)} {α : Type} {n : String} {z : α} {d : Dec α} {e : Form α}
    (h : Faithful z d e) : LineReads zero tbl (n, unread z d) (check n e) where
  name := rfl
  ok m _ := h.ok m z
  null _ _ := trivial
  read _ _ _ _ _ := trivial
  congr _ _ _ _ _ := trivial
  refl _ := trivial
  trans _ _ _ _ _ := trivial
  others _ _ _ _ _ := trivial

theorem LineClear.check {α : Type} {n : String} {e : Form α} : LineClear (check n e : Line σ) :=
  ⟨trivial, fun _ _ _ _ _ _ => trivial⟩

/-- The decoder of a record with a map for all other keys -/
def wideField (tbl : List (String × Field σ)) (rest : String → Field σ) (k : String) : Option (Field σ) :=
  some ((tbl.lookup k).getD (rest k))

theorem wide_known {tbl : List (String × Field σ)} {rest : String → Field σ} {k : String} {f : Field σ}
    (h : tbl.lookup k = some f) : wideField tbl rest k = some f := by rw [wideField, h]; rfl

theorem wide_other {tbl : List (String × Field σ)} {rest : String → Field σ} {k : String}
    (h : tbl.lookup k = none) : wideField tbl rest k = some (rest k) := by rw [wideField, h]; rfl

theorem lookup_absent {tbl : List (String × Field σ)} {ls : List (Line σ)} {zero : σ}
    (hn : (tbl.map Prod.fst).Nodup) (h : List.Forall₂ (LineReads zero tbl) tbl ls) (k : String) :
    tbl.lookup k = none ↔ ∀ l ∈ ls, l.name ≠ k := by
  constructor
  · intro hl l hm e
    obtain ⟨f, hf, hr⟩ := Json.forall₂_right h hm
    have := lookup_row hn hf
    rw [hr.name, e, hl] at this
    cases this
  · intro hl
    cases e : tbl.lookup k with
    | none => rfl
    | some f =>
      obtain ⟨l, hm, hr⟩ := Json.forall₂_left h (row_lookup e)
      exact absurd hr.name.symm (hl l hm)

/-- What `wide` needs of the other keys -/
structure RestReads {α : Type} (rest : String → Field σ) (get : σ → GoMap α) (z : α) (d : Dec α) : Prop where
  err : ∀ k n s, (rest k n s).2 = (d n z).err
  set : ∀ k n s, get (rest k n s).1 = (get s).set k (d n z).val

theorem wide_err {α : Type} {zero : σ} {tbl : List (String × Field σ)} {rest : String → Field σ} {ls : List (Line σ)}
    {get : σ → GoMap α} {z : α} {d : Dec α} {e : Form α}
    (hn : (tbl.map Prod.fst).Nodup) (h : List.Forall₂ (LineReads zero tbl) tbl ls) (he : Faithful z d e)
    (hr : RestReads rest get z d) (kvs : List (Node × Node)) (s : σ) :
    (decFields (wideField tbl rest) kvs s).err = false ↔ ∀ kv ∈ kvs, ∃ k, textOf kv.1 = some k ∧
      (∀ l ∈ ls, l.name = k → l.fits kv.2) ∧ ((∀ l ∈ ls, l.name ≠ k) → e.fits kv.2) := by
  induction kvs generalizing s with
  | nil => simp [decFields]
  | cons kv kvs ih =>
    obtain ⟨k, v⟩ := kv
    rw [List.forall_mem_cons]
    cases hk : textOf k with
    | none => simp [decFields, (C108_string k "").2 hk]
    | some t =>
      simp only [decFields, decString_some hk, if_true]
      cases hl : tbl.lookup t with
      | none =>
        have hno := (lookup_absent hn h t).1 hl
        simp only [wide_other hl, Bool.or_eq_false_iff, ih, hr.err, he.ok]
        refine and_congr_left fun _ => ?_
        constructor
        · exact fun h0 => ⟨t, rfl, fun l hl' e => absurd e (hno l hl'), fun _ => h0⟩
        · rintro ⟨t', e', _, h0⟩
          cases e'
          exact h0 hno
      | some f =>
        have hf := row_lookup hl
        obtain ⟨l, hl', hr'⟩ := Json.forall₂_left h hf
        simp only [wide_known hl, Bool.or_eq_false_iff, ih]
        refine and_congr_left fun _ => ?_
        rw [hr'.ok v s]
        constructor
        · intro h0
          refine ⟨t, rfl, fun l' hl'' e => ?_, fun hc => absurd hr'.name.symm (hc l hl')⟩
          obtain ⟨f', hf', hr''⟩ := Json.forall₂_right h hl''
          have h1 := lookup_row hn hf'
          rw [hr''.name, e, hl] at h1
          have := (hr''.ok v s)
          rw [← Option.some.inj h1] at this
          exact this.1 ((hr'.ok v s).2 h0)
        · rintro ⟨t', e', h0, _⟩
          cases e'
          exact h0 l hl' hr'.name.symm

theorem wide_same {zero : σ} {tbl : List (String × Field σ)} {rest : String → Field σ} {f : String × Field σ} {l : Line σ}
    (hr : LineTells zero tbl f l) (hrest : ∀ k n s, l.same (rest k n s).1 s) (kvs : List (Node × Node)) (s : σ)
    (h : ∀ kv ∈ kvs, textOf kv.1 ≠ some l.name) :
    l.same (decFields (wideField tbl rest) kvs s).val s := by
  induction kvs generalizing s with
  | nil => exact hr.refl s
  | cons kv kvs ih =>
    obtain ⟨k, v⟩ := kv
    rw [List.forall_mem_cons] at h
    rw [decFields]
    cases hk : textOf k with
    | none => simp only [(C108_string k "").2 hk]; exact ih s h.2
    | some t =>
      simp only [decString_some hk, if_true]
      cases hl : tbl.lookup t with
      | none =>
        simp only [wide_other hl]
        exact hr.trans _ _ _ (ih _ h.2) (hrest t v s)
      | some g =>
        simp only [wide_known hl]
        refine hr.trans _ _ _ (ih _ h.2) (hr.others (t, g) (row_lookup hl) (fun hc => h.1 ?_) v s)
        simp only at hc ⊢
        rw [hk, hc]

theorem wide_tell {zero : σ} {tbl : List (String × Field σ)} {rest : String → Field σ} (hn : (tbl.map Prod.fst).Nodup)
    {f : String × Field σ} (hf : f ∈ tbl) {l : Line σ} (hr : LineTells zero tbl f l)
    (hrest : ∀ k n s, l.same (rest k n s).1 s)
    (kvs : List (Node × Node)) (s : σ) (hs : l.same s zero)
    (hp : kvs.Pairwise fun a b => ¬ (textOf a.1 = some l.name ∧ textOf b.1 = some l.name))
    (h1 : ∀ kv ∈ kvs, textOf kv.1 = some l.name → l.fits kv.2)
    (h2 : ∀ kv ∈ kvs, textOf kv.1 = some l.name → l.once kv.2) :
    ∃ u, Gives kvs l.name u ∧ l.tells u (decFields (wideField tbl rest) kvs s).val := by
  induction kvs generalizing s with
  | nil => exact ⟨.null, .inr ⟨rfl, by simp⟩, hr.null s hs⟩
  | cons kv kvs ih =>
    obtain ⟨k, v⟩ := kv
    rw [List.forall_mem_cons] at h1 h2
    rw [List.pairwise_cons] at hp
    by_cases hk : textOf k = some l.name
    · refine ⟨v, .inl ⟨k, List.mem_cons_self, hk⟩, ?_⟩
      have hlk := lookup_row hn hf
      rw [hr.name] at hlk
      simp only [decFields, decString_some hk, if_true, wide_known hlk]
      refine hr.congr _ _ _ (wide_same hr hrest kvs _ fun kv hkv hc => hp.1 kv hkv ⟨hk, hc⟩) ?_
      exact hr.read v s hs (h1.1 hk) (h2.1 hk)
    · have lift : ∀ s', l.same s' zero →
          ∃ u, Gives ((k, v) :: kvs) l.name u ∧ l.tells u (decFields (wideField tbl rest) kvs s').val := by
        intro s' hs'
        obtain ⟨u, hu, ht⟩ := ih s' hs' hp.2 h1.2 h2.2
        refine ⟨u, ?_, ht⟩
        rcases hu with ⟨k', hm, hk'⟩ | ⟨rfl, hu⟩
        · exact .inl ⟨k', List.mem_cons_of_mem _ hm, hk'⟩
        · exact .inr ⟨rfl, List.forall_mem_cons.2 ⟨hk, hu⟩⟩
      cases ht : textOf k with
      | none => simp only [decFields, (C108_string k "").2 ht]; exact lift s hs
      | some t =>
        simp only [decFields, decString_some ht, if_true]
        cases hl : tbl.lookup t with
        | none =>
          simp only [wide_other hl]
          exact lift _ (hr.trans _ _ _ (hrest t v s) hs)
        | some g =>
          simp only [wide_known hl]
          refine lift _ (hr.trans _ _ _ (hr.others (t, g) (row_lookup hl) (fun hc => hk ?_) v s) hs)
          simp only at hc
          rw [ht, hc]

theorem mem_extras {ls : List (Line σ)} {kvs : List (Node × Node)} {kv : Node × Node} :
    kv ∈ extras ls kvs ↔ kv ∈ kvs ∧ ∀ l ∈ ls, textOf kv.1 ≠ some l.name := by
  simp [extras, List.mem_filter]

theorem wide_rest {α : Type} {zero : σ} {tbl : List (String × Field σ)} {rest : String → Field σ} {ls : List (Line σ)}
    {get : σ → GoMap α} {z : α} {d : Dec α} {e : Form α}
    (hn : (tbl.map Prod.fst).Nodup) (h : List.Forall₂ (LineReads zero tbl) tbl ls) (he : Faithful z d e)
    (hr : RestReads rest get z d) (hk : ∀ g ∈ tbl, ∀ n s, get (g.2 n s).1 = get s)
    (kvs : List (Node × Node)) (s : σ) (hnd : ((extras ls kvs).map fun kv => textOf kv.1).Nodup)
    (hm : ∀ kv ∈ extras ls kvs, ∀ k ∈ (get s).keys, textOf kv.1 ≠ some k)
    (h1 : ∀ kv ∈ kvs, ∃ k, textOf kv.1 = some k ∧ ((∀ l ∈ ls, l.name ≠ k) → e.fits kv.2))
    (h2 : ∀ kv ∈ extras ls kvs, e.once kv.2) :
    ∃ r, get (decFields (wideField tbl rest) kvs s).val = get s ++ r ∧
      List.Forall₂ (fun kv w => textOf kv.1 = some w.1 ∧ e.tells kv.2 w.2) (extras ls kvs) r := by
  induction kvs generalizing s with
  | nil => exact ⟨[], by simp [decFields], .nil⟩
  | cons kv kvs ih =>
    obtain ⟨k, v⟩ := kv
    rw [List.forall_mem_cons] at h1
    obtain ⟨⟨t, ht, hv⟩, h1⟩ := h1
    simp only at ht hv
    simp only [decFields, decString_some ht, if_true]
    cases hl : tbl.lookup t with
    | some g =>
      have hx : extras ls ((k, v) :: kvs) = extras ls kvs := by
        obtain ⟨l, hl', hr'⟩ := Json.forall₂_left h (row_lookup hl)
        rw [extras, List.filter_cons, if_neg]
        · rfl
        · simp only [List.all_eq_true, decide_eq_true_eq]
          exact fun hc => hc l hl' (by rw [ht, ← hr'.name])
      rw [hx] at hnd hm h2 ⊢
      simp only [wide_known hl]
      have hg := hk (t, g) (row_lookup hl) v s
      simp only at hg
      obtain ⟨r, e1, e2⟩ := ih (g v s).1 hnd (by rw [hg]; exact hm) h1 h2
      exact ⟨r, by rw [e1, hg], e2⟩
    | none =>
      have hno := (lookup_absent hn h t).1 hl
      have hx : extras ls ((k, v) :: kvs) = (k, v) :: extras ls kvs := by
        rw [extras, List.filter_cons, if_pos]
        · rfl
        · simp only [List.all_eq_true, decide_eq_true_eq]
          exact fun l hl' hc => hno l hl' (by rw [ht] at hc; exact (Option.some.inj hc).symm)
      rw [hx] at hnd hm h2 ⊢
      simp only [List.map_cons, List.nodup_cons] at hnd
      rw [List.forall_mem_cons] at hm h2
      simp only [wide_other hl]
      have hnew : get (rest t v s).1 = get s ++ [(t, (d v z).val)] := by
        rw [hr.set]
        exact set_new _ t _ fun hc => hm.1 t hc ht
      obtain ⟨r, e1, e2⟩ := ih (rest t v s).1 hnd.2 (by
        intro kv hkv k' hk' hc
        rw [hnew] at hk'
        simp only [GoMap.keys, List.map_append, List.map_cons, List.map_nil, List.mem_append, List.mem_singleton] at hk'
        rcases hk' with hk' | rfl
        · exact hm.2 kv hkv k' hk' hc
        · exact hnd.1 (List.mem_map.2 ⟨kv, hkv, by rw [hc, ht]⟩)) h1 h2.2
      refine ⟨(t, (d v z).val) :: r, ?_, .cons ⟨ht, he.read v (hv hno) h2.1⟩ e2⟩
      rw [e1, hnew]
      simp

theorem reads_wide {α : Type} {zero : σ} {tbl : List (String × Field σ)} {rest : String → Field σ} {ls : List (Line σ)}
    {get : σ → GoMap α} {z : α} {d : Dec α} {e : Form α}
    (hn : (tbl.map Prod.fst).Nodup) (h : List.Forall₂ (LineReads zero tbl) tbl ls) (he : Faithful z d e)
    (hr : RestReads rest get z d) (hk : ∀ g ∈ tbl, ∀ n s, get (g.2 n s).1 = get s) (h0 : get zero = [])
    (hs : ∀ l ∈ ls, ∀ k n s, l.same (rest k n s).1 s) :
    Faithful zero (decStruct zero (wideField tbl rest)) (Form.wide ls get e) := by
  have hnull : ∀ l ∈ ls, ∃ u, Gives [] l.name u ∧ l.tells u zero := fun l hl => by
    obtain ⟨f, _, hr⟩ := Json.forall₂_right h hl
    exact ⟨.null, .inr ⟨rfl, by simp⟩, hr.null zero (hr.refl zero)⟩
  have hn0 : (Form.wide ls get e).tells .null zero := ⟨[], .inr ⟨rfl, rfl⟩, hnull, by rw [h0]; exact .nil⟩
  refine ⟨fun n s => ?_, fun n s hh => ?_, hn0, fun n h1 h2 => ?_⟩
  · cases n <;> simp only [decStruct, Form.wide, wide_err hn h he hr, mismatch] <;> simp
  · cases n with
    | null => rfl
    | map kvs => exact fields_good _ kvs s
    | _ => cases hh
  · rcases h1 with rfl | ⟨kvs, rfl, h1⟩
    · exact hn0
    · obtain ⟨h3, h4⟩ := h2.1 kvs rfl
      obtain ⟨h5, h6⟩ := h2.2 kvs rfl
      refine ⟨kvs, .inl rfl, fun l hl => ?_, ?_⟩
      · obtain ⟨f, hf, hr⟩ := Json.forall₂_right h hl
        refine wide_tell hn hf hr.toLineTells (hs l hl) kvs zero (hr.refl zero) (h3 l hl) (fun kv hkv e => ?_) fun kv hkv e => h4 kv hkv l hl e
        obtain ⟨k, e', h5, _⟩ := h1 kv hkv
        rw [e] at e'
        exact h5 l hl (Option.some.inj e')
      · obtain ⟨r, e1, e2⟩ := wide_rest hn h he hr hk kvs zero h5 (by rw [h0]; simp [GoMap.keys])
          (fun kv hkv => by obtain ⟨k, a, _, b⟩ := h1 kv hkv; exact ⟨k, a, b⟩) h6
        rw [h0, List.nil_append] at e1
        show List.Forall₂ _ _ (get (decFields (wideField tbl rest) kvs zero).val)
        rw [e1]
        exact e2

theorem clear_wide {α : Type} {ls : List (Line σ)} {get : σ → GoMap α} {e : Form α} (hl : ∀ l ∈ ls, LineClear l)
    (h : Clear e) (he : ∀ s s' : σ, (∀ l ∈ ls, l.same s s') → get s = get s' → s = s') : Clear (Form.wide ls get e) := by
  refine ⟨⟨obj_once_null, fun kvs h => (by cases h)⟩, fun n s s' ho h1 h2 => ?_⟩
  obtain ⟨kvs, h3, h1, h4⟩ := h1
  obtain ⟨kvs', h3', h2, h4'⟩ := h2
  refine he s s' (obj_same hl n s s' ho.1 ⟨kvs, h3, h1⟩ ⟨kvs', h3', h2⟩) ?_
  obtain rfl : kvs = kvs' := by
    rcases h3 with rfl | ⟨rfl, rfl⟩ <;> rcases h3' with e | ⟨e, rfl⟩ <;> first | rfl | cases e; rfl | cases e
  have ho' : ∀ kv ∈ extras ls kvs, e.once kv.2 := by
    rcases h3 with rfl | ⟨rfl, rfl⟩
    · exact (ho.2 kvs rfl).2
    · simp [extras]
  exact Json.forall₂_one (fun x hx a b ha hb => Prod.ext (Option.some.inj (ha.1.symm.trans hb.1))
    (h.one x.2 _ _ (ho' x hx) ha.2 hb.2)) h4 h4'

end

/-- A decoder with a method -/
theorem reads_custom {α : Type} {zero : α} {f : Node → α → α × Bool} {e : Form α} (h0 : e.fits .null)
    (h1 : e.tells .null zero) (hok : ∀ n s, n ≠ .null → ((f n s).2 = false ↔ e.fits n))
    (hread : ∀ n, n ≠ .null → e.fits n → e.once n → e.tells n (f n zero).1) : Faithful zero (custom zero f) e := by
  refine ⟨fun n s => ?_, fun n s hh => ?_, h1, fun n hf ho => ?_⟩
  · cases n with
    | null => exact ⟨fun _ => h0, fun _ => rfl⟩
    | _ => exact hok _ _ (by simp)
  · cases n with
    | null => rfl
    | _ =>
      simp only [custom] at hh ⊢
      simp [hh]
  · cases n with
    | null => exact h1
    | _ => exact hread _ (by simp) hf ho

end Yaml
end Drone
