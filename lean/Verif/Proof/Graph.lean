import Verif.Spec.Graph
namespace Drone
open Spec

theorem edge_before {roots : List String} {ns : List Node} (hn : (ns.map Prod.fst).Nodup)
    (hr : ∀ r ∈ roots, r ∉ ns.map Prod.fst) (hd : DepsEarlier roots ns) {a b : String}
    (h : Edge ns a b) (hb : b ∈ ns.map Prod.fst) :
    (ns.map Prod.fst).idxOf b < (ns.map Prod.fst).idxOf a := by
  obtain ⟨n, hm, rfl, hdep⟩ := h
  obtain ⟨pre, post, rfl⟩ := List.append_of_mem hm
  have hpre : b ∈ pre.map Prod.fst := by
    rcases hd pre n post rfl b hdep with h | h
    · exact absurd hb (hr b h)
    · exact h
  simp only [List.map_append, List.map_cons] at hn ⊢
  have hnp : n.1 ∉ pre.map Prod.fst := by
    intro hc
    exact (List.nodup_append.1 hn).2.2 n.1 hc n.1 (by simp) rfl
  rw [List.idxOf_append_of_mem hpre, List.idxOf_append_of_notMem hnp]
  have := List.idxOf_lt_length_iff.2 hpre
  omega

theorem acyclic_of_earlier {roots : List String} {ns : List Node} (hn : (ns.map Prod.fst).Nodup)
    (hr : ∀ r ∈ roots, r ∉ ns.map Prod.fst) (hd : DepsEarlier roots ns) : Acyclic ns := by
  have key : ∀ a b, Relation.TransGen (Edge ns) a b → b ∈ ns.map Prod.fst →
      (ns.map Prod.fst).idxOf b < (ns.map Prod.fst).idxOf a := by
    intro a b h
    induction h with
    | single h => exact edge_before hn hr hd h
    | tail _ h ih =>
      intro hc
      have hb := ih (by obtain ⟨n, hm, rfl, _⟩ := h; exact List.mem_map_of_mem hm)
      have := edge_before hn hr hd h hc
      omega
  intro a h
  have ha : a ∈ ns.map Prod.fst := by
    obtain ⟨c, ⟨n, hm, rfl, _⟩, _⟩ := Relation.TransGen.head'_iff.1 h
    exact List.mem_map_of_mem hm
  exact absurd (key a a h ha) (Nat.lt_irrefl _)

theorem depsEarlier_nil (roots : List String) : DepsEarlier roots [] := by
  intro pre n post h; simp at h

/-- Introduction rule over a list read from the left. -/
theorem depsEarlier_cons {roots : List String} {n : Node} {ns : List Node} :
    DepsEarlier roots (n :: ns) ↔ (∀ d ∈ n.2, d ∈ roots) ∧ DepsEarlier (n.1 :: roots) ns := by
  constructor
  · intro h
    refine ⟨fun d hd => by simpa using h [] n ns rfl d hd, ?_⟩
    rintro pre m post rfl d hd
    rcases h (n :: pre) m post rfl d hd with h | h
    · simp [h]
    · simp only [List.map_cons, List.mem_cons] at h
      rcases h with h | h
      · simp [h]
      · exact Or.inr h
  · rintro ⟨h1, h2⟩ pre m post he d hd
    cases pre with
    | nil =>
      simp only [List.nil_append, List.cons.injEq] at he
      exact Or.inl (h1 d (he.1 ▸ hd))
    | cons p ps =>
      simp only [List.cons_append, List.cons.injEq] at he
      rcases h2 ps m post he.2 d hd with h | h
      · rcases List.mem_cons.1 h with rfl | h
        · right; simp [he.1]
        · exact Or.inl h
      · right; simp [h]

end Drone
