/- Lemmas about the map model. -/
import Verif.Model.Types
import Mathlib.Tactic.Common
import Mathlib.Data.List.Basic
import Mathlib.Data.List.Nodup

namespace Drone
namespace GoMap
variable {α : Type}

@[simp] theorem get?_nil (k : String) : get? ([] : GoMap α) k = none := rfl

theorem get?_cons (k k' : String) (v : α) (m : GoMap α) :
    get? ((k', v) :: m) k = if k = k' then some v else get? m k := by
  unfold get?
  rw [List.lookup_cons]
  by_cases h : k = k'
  · simp [h]
  · have : (k == k') = false := by simpa using h
    simp [this, h]

theorem get?_set (m : GoMap α) (k k' : String) (v : α) :
    get? (m.set k v) k' = if k' = k then some v else get? m k' := by
  induction m with
  | nil => simp [set, get?_cons]
  | cons p m ih =>
    obtain ⟨a, b⟩ := p
    unfold set
    by_cases h : a = k
    · rw [if_pos h, get?_cons, get?_cons]
      by_cases h2 : k' = k
      · simp [h2]
      · have : ¬ k' = a := fun e => h2 (e.trans h)
        simp [h2, this]
    · rw [if_neg h, get?_cons, get?_cons, ih]
      by_cases h2 : k' = a
      · have : ¬ k' = k := fun e => h (h2.symm.trans e)
        simp [h2, h]
      · simp [h2]

theorem get?_set_self (m : GoMap α) (k : String) (v : α) : get? (m.set k v) k = some v := by
  simp [get?_set]

theorem get?_eq_none {m : GoMap α} {k : String} : get? m k = none ↔ k ∉ m.map Prod.fst := by
  induction m with
  | nil => simp
  | cons p m ih =>
    obtain ⟨a, b⟩ := p
    rw [get?_cons]
    by_cases h : k = a
    · simp [h]
    · simp [h, ih]

theorem mem_of_get? {m : GoMap α} {k : String} {v : α} (h : get? m k = some v) : (k, v) ∈ m := by
  induction m with
  | nil => simp at h
  | cons p m ih =>
    obtain ⟨a, b⟩ := p
    rw [get?_cons] at h
    by_cases hk : k = a
    · simp [hk] at h; simp [hk, h]
    · simp [hk] at h; exact List.mem_cons_of_mem _ (ih h)

theorem get?_of_mem {m : GoMap α} {k : String} {v : α} (hn : (m.map Prod.fst).Nodup)
    (h : (k, v) ∈ m) : get? m k = some v := by
  induction m with
  | nil => simp at h
  | cons p m ih =>
    obtain ⟨a, b⟩ := p
    rw [get?_cons]
    simp only [List.map_cons, List.nodup_cons] at hn
    rcases List.mem_cons.mp h with e | e
    · simp only [Prod.mk.injEq] at e
      simp [e.1, e.2]
    · have : k ≠ a := by
        rintro rfl
        exact hn.1 (List.mem_map.mpr ⟨_, e, rfl⟩)
      simp [this, ih hn.2 e]

theorem set_keys_nodup {m : GoMap α} (k : String) (v : α) (h : (m.map Prod.fst).Nodup) :
    ((m.set k v).map Prod.fst).Nodup ∧ ∀ x, x ∈ (m.set k v).map Prod.fst ↔ x = k ∨ x ∈ m.map Prod.fst := by
  induction m with
  | nil => simp [set]
  | cons p m ih =>
    obtain ⟨a, b⟩ := p
    simp only [List.map_cons, List.nodup_cons] at h
    obtain ⟨i1, i2⟩ := ih h.2
    unfold set
    by_cases hk : a = k
    · rw [if_pos hk]
      subst hk
      refine ⟨by simpa using h, ?_⟩
      intro x; simp
    · rw [if_neg hk]
      refine ⟨?_, ?_⟩
      · simp only [List.map_cons, List.nodup_cons, i1, and_true]
        rw [i2]
        rintro (e | e)
        · exact hk e
        · exact h.1 e
      · intro x
        simp only [List.map_cons, List.mem_cons, i2]
        tauto

theorem set_ne_nil (m : GoMap α) (k : String) (v : α) : (m.set k v).length > 0 := by
  cases m with
  | nil => simp [set]
  | cons p m => obtain ⟨a, b⟩ := p; unfold set; split <;> simp

theorem keys_perm_get? {m m' : GoMap α} (h : m.Perm m') (hn : (m.map Prod.fst).Nodup) (k : String) :
    get? m k = get? m' k := by
  have hn' : (m'.map Prod.fst).Nodup := (h.map _).nodup_iff.mp hn
  cases e : get? m k with
  | none =>
    rw [get?_eq_none] at e
    symm
    rw [get?_eq_none]
    intro hm
    exact e ((h.map Prod.fst).mem_iff.mpr hm)
  | some v => exact (get?_of_mem hn' (h.mem_iff.mp (mem_of_get? e))).symm

end GoMap
end Drone
