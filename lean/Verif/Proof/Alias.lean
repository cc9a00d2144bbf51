/-
Expanding aliases: the check for aliases being followed refuses exactly the documents that stand
for no finite tree.
-/
import Verif.Spec.Alias

namespace Drone
namespace Yaml
open Drone.Spec

/-- Knowing more aliases. -/
def Knows (look look' : String → Option Node) : Prop := ∀ x n, look x = some n → look' x = some n

theorem expandEntries_pair (look : String → Option Node) {k v : ANode} {es : List (ANode × ANode)} (h : k ≠ .mark) :
    expandEntries look ((k, v) :: es) =
      (expand look k).bind fun k => (expand look v).bind fun v => (expandEntries look es).map fun b => (k, v) :: b := by
  cases k <;> first | exact absurd rfl h | rfl

theorem expandEntries_mark (look : String → Option Node) {v : ANode} {es : List (ANode × ANode)} :
    expandEntries look ((.mark, v) :: es) =
      (merged look v).bind fun a => (expandEntries look es).map fun b => a ++ b := rfl

mutual
theorem expand_mono {look look' : String → Option Node} (h : Knows look look') :
    ∀ (t : ANode) (n : Node), expand look t = some n → expand look' t = some n
  | .null, n, e => by simpa [expand] using e
  | .scalar _ _, n, e => by simpa [expand] using e
  | .mark, n, e => by simpa [expand] using e
  | .seq xs, n, e => by
    simp only [expand, Option.map_eq_some_iff] at e ⊢
    obtain ⟨ns, e1, e2⟩ := e
    exact ⟨ns, expandList_mono h xs ns e1, e2⟩
  | .map es, n, e => by
    simp only [expand, Option.map_eq_some_iff] at e ⊢
    obtain ⟨ns, e1, e2⟩ := e
    exact ⟨ns, expandEntries_mono h es ns e1, e2⟩
  | .ref x, n, e => h x n e
theorem expandList_mono {look look' : String → Option Node} (h : Knows look look') :
    ∀ (t : List ANode) (n : List Node), expandList look t = some n → expandList look' t = some n
  | [], n, e => by simpa [expandList] using e
  | x :: xs, n, e => by
    simp only [expandList, Option.bind_eq_some_iff, Option.map_eq_some_iff] at e ⊢
    obtain ⟨a, e1, b, e2, e3⟩ := e
    exact ⟨a, expand_mono h x a e1, b, expandList_mono h xs b e2, e3⟩
theorem expandEntries_mono {look look' : String → Option Node} (h : Knows look look') :
    ∀ (t : List (ANode × ANode)) (n : List (Node × Node)), expandEntries look t = some n → expandEntries look' t = some n
  | [], n, e => by simpa [expandEntries] using e
  | (k, v) :: es, n, e => by
    by_cases hk : k = .mark
    · subst hk
      simp only [expandEntries_mark, Option.bind_eq_some_iff, Option.map_eq_some_iff] at e ⊢
      obtain ⟨a, e1, b, e2, e3⟩ := e
      exact ⟨a, merged_mono h v a e1, b, expandEntries_mono h es b e2, e3⟩
    · simp only [expandEntries_pair look hk, expandEntries_pair look' hk, Option.bind_eq_some_iff,
        Option.map_eq_some_iff] at e ⊢
      obtain ⟨a, e1, b, e2, c, e3, e4⟩ := e
      exact ⟨a, expand_mono h k a e1, b, expand_mono h v b e2, c, expandEntries_mono h es c e3, e4⟩
theorem merged_mono {look look' : String → Option Node} (h : Knows look look') :
    ∀ (t : ANode) (n : List (Node × Node)), merged look t = some n → merged look' t = some n
  | .null, n, e => by simp [merged] at e
  | .scalar _ _, n, e => by simp [merged] at e
  | .mark, n, e => by simp [merged] at e
  | .seq xs, n, e => mergedList_mono h xs n e
  | .map es, n, e => expandEntries_mono h es n e
  | .ref x, n, e => by
    simp only [merged, Option.bind_eq_some_iff] at e ⊢
    obtain ⟨a, e1, e2⟩ := e
    exact ⟨a, h x a e1, e2⟩
theorem mergedList_mono {look look' : String → Option Node} (h : Knows look look') :
    ∀ (t : List ANode) (n : List (Node × Node)), mergedList look t = some n → mergedList look' t = some n
  | [], n, e => by simpa [mergedList] using e
  | .null :: _, n, e => by simp [mergedList] at e
  | .scalar _ _ :: _, n, e => by simp [mergedList] at e
  | .mark :: _, n, e => by simp [mergedList] at e
  | .seq _ :: _, n, e => by simp [mergedList] at e
  | .map es :: xs, n, e => by
    simp only [mergedList, Option.bind_eq_some_iff, Option.map_eq_some_iff] at e ⊢
    obtain ⟨b, e1, a, e2, e3⟩ := e
    exact ⟨b, mergedList_mono h xs b e1, a, expandEntries_mono h es a e2, e3⟩
  | .ref x :: xs, n, e => by
    simp only [mergedList, Option.bind_eq_some_iff, Option.map_eq_some_iff] at e ⊢
    obtain ⟨b, e1, a, ⟨c, e2, e3⟩, e4⟩ := e
    exact ⟨b, mergedList_mono h xs b e1, a, ⟨c, h x c e2, e3⟩, e4⟩
end

theorem asEntries_some {n : Node} {kvs : List (Node × Node)} : asEntries n = some kvs ↔ n = .map kvs := by
  cases n <;> simp [asEntries]

variable {anchors : List (String × ANode)}

/-- What is seen of aliases is what they stand for. -/
def Right (anchors : List (String × ANode)) (look : String → Option Node) : Prop :=
  ∀ x n, look x = some n → Denotes anchors (.ref x) n

mutual
theorem expand_right {look : String → Option Node} (h : Right anchors look) :
    ∀ (t : ANode) (n : Node), expand look t = some n → Denotes anchors t n
  | .null, n, e => by
    simp only [expand, Option.some.injEq] at e
    exact e ▸ .null
  | .scalar t r, n, e => by
    simp only [expand, Option.some.injEq] at e
    exact e ▸ .scalar t r
  | .mark, n, e => by
    simp only [expand, Option.some.injEq] at e
    exact e ▸ .mark
  | .seq xs, n, e => by
    simp only [expand, Option.map_eq_some_iff] at e
    obtain ⟨ns, e1, rfl⟩ := e
    exact .seq (expandList_right h xs ns e1)
  | .map es, n, e => by
    simp only [expand, Option.map_eq_some_iff] at e
    obtain ⟨ns, e1, rfl⟩ := e
    exact .map (expandEntries_right h es ns e1)
  | .ref x, n, e => h x n e
theorem expandList_right {look : String → Option Node} (h : Right anchors look) :
    ∀ (t : List ANode) (n : List Node), expandList look t = some n → DenotesList anchors t n
  | [], n, e => by
    simp only [expandList, Option.some.injEq] at e
    exact e ▸ .nil
  | x :: xs, n, e => by
    simp only [expandList, Option.bind_eq_some_iff, Option.map_eq_some_iff] at e
    obtain ⟨a, e1, b, e2, rfl⟩ := e
    exact .cons (expand_right h x a e1) (expandList_right h xs b e2)
theorem expandEntries_right {look : String → Option Node} (h : Right anchors look) :
    ∀ (t : List (ANode × ANode)) (n : List (Node × Node)), expandEntries look t = some n → DenotesEntries anchors t n
  | [], n, e => by
    simp only [expandEntries, Option.some.injEq] at e
    exact e ▸ .nil
  | (k, v) :: es, n, e => by
    by_cases hk : k = .mark
    · subst hk
      simp only [expandEntries_mark, Option.bind_eq_some_iff, Option.map_eq_some_iff] at e
      obtain ⟨a, e1, b, e2, rfl⟩ := e
      match v, e1 with
      | .map es', e1 => exact .merge (.map (expandEntries_right h es' a e1)) (expandEntries_right h es b e2)
      | .ref x, e1 =>
        simp only [merged, Option.bind_eq_some_iff, asEntries_some] at e1
        obtain ⟨n, e3, rfl⟩ := e1
        exact .merge (h x _ e3) (expandEntries_right h es b e2)
      | .seq xs, e1 =>
        obtain ⟨as, h1, h2⟩ := mergedList_right h xs a e1
        rw [h2]
        exact .mergeList h1 (expandEntries_right h es b e2)
    · simp only [expandEntries_pair look hk, Option.bind_eq_some_iff, Option.map_eq_some_iff] at e
      obtain ⟨a, e1, b, e2, c, e3, rfl⟩ := e
      exact .pair hk (expand_right h k a e1) (expand_right h v b e2) (expandEntries_right h es c e3)
theorem mergedList_right {look : String → Option Node} (h : Right anchors look) :
    ∀ (t : List ANode) (n : List (Node × Node)), mergedList look t = some n →
      ∃ as, DenotesMaps anchors t as ∧ n = as.reverse.flatten
  | [], n, e => by
    simp only [mergedList, Option.some.injEq] at e
    exact ⟨[], .nil, e ▸ rfl⟩
  | .null :: _, n, e => by simp [mergedList] at e
  | .scalar _ _ :: _, n, e => by simp [mergedList] at e
  | .mark :: _, n, e => by simp [mergedList] at e
  | .seq _ :: _, n, e => by simp [mergedList] at e
  | .map es :: xs, n, e => by
    simp only [mergedList, Option.bind_eq_some_iff, Option.map_eq_some_iff] at e
    obtain ⟨b, e1, a, e2, rfl⟩ := e
    obtain ⟨as, h1, rfl⟩ := mergedList_right h xs b e1
    exact ⟨a :: as, .cons (.map (expandEntries_right h es a e2)) h1, by simp⟩
  | .ref x :: xs, n, e => by
    simp only [mergedList, Option.bind_eq_some_iff, Option.map_eq_some_iff, asEntries_some] at e
    obtain ⟨b, e1, a, ⟨c, e2, rfl⟩, rfl⟩ := e
    obtain ⟨as, h1, rfl⟩ := mergedList_right h xs b e1
    exact ⟨a :: as, .cons (h x _ e2) h1, by simp⟩
end

/-- Aliases followed to a depth, without a check. -/
def unroll (anchors : List (String × ANode)) : Nat → String → Option Node
  | 0, _ => none
  | d + 1, x => (anchors.lookup x).bind fun a => expand (unroll anchors d) a

theorem unroll_step (d : Nat) : Knows (unroll anchors d) (unroll anchors (d + 1)) := by
  induction d with
  | zero => intro x n h; cases h
  | succ d ih =>
    intro x n h
    rw [unroll, Option.bind_eq_some_iff] at h ⊢
    obtain ⟨a, h1, h2⟩ := h
    exact ⟨a, h1, expand_mono ih a n h2⟩

theorem unroll_le {d e : Nat} (h : d ≤ e) : Knows (unroll anchors d) (unroll anchors e) := by
  induction h with
  | refl => exact fun _ _ h => h
  | step _ ih => exact fun x n h => unroll_step _ x n (ih x n h)

theorem merged_of_expand {look : String → Option Node} {v : ANode} {a : List (Node × Node)}
    (h : expand look v = some (.map a)) : merged look v = some a := by
  cases v with
  | null => simp [expand] at h
  | scalar => simp [expand] at h
  | mark => simp [expand] at h
  | seq xs => simp [expand] at h
  | map es => simpa [expand, merged] using h
  | ref x => simp only [expand] at h; simp [merged, h, asEntries]

theorem mergedList_cons {look : String → Option Node} {x : ANode} {xs : List ANode} {a b : List (Node × Node)}
    (h : expand look x = some (.map a)) (h' : mergedList look xs = some b) : mergedList look (x :: xs) = some (b ++ a) := by
  cases x with
  | null => simp [expand] at h
  | scalar => simp [expand] at h
  | mark => simp [expand] at h
  | seq xs => simp [expand] at h
  | map es =>
    simp only [expand, Option.map_eq_some_iff, Node.map.injEq, exists_eq_right] at h
    simp [mergedList, h, h']
  | ref x => simp only [expand] at h; simp [mergedList, h, h', asEntries]

mutual
theorem unrolled {t : ANode} {n : Node} : Denotes anchors t n → ∃ d, expand (unroll anchors d) t = some n
  | .null => ⟨0, rfl⟩
  | .scalar _ _ => ⟨0, rfl⟩
  | .mark => ⟨0, rfl⟩
  | .seq h => by
    obtain ⟨d, hd⟩ := unrolledList h
    exact ⟨d, by simp [expand, hd]⟩
  | .map h => by
    obtain ⟨d, hd⟩ := unrolledEntries h
    exact ⟨d, by simp [expand, hd]⟩
  | .ref h1 h2 => by
    obtain ⟨d, hd⟩ := unrolled h2
    exact ⟨d + 1, by simp [expand, unroll, h1, hd]⟩
theorem unrolledList {t : List ANode} {n : List Node} :
    DenotesList anchors t n → ∃ d, expandList (unroll anchors d) t = some n
  | .nil => ⟨0, rfl⟩
  | .cons h1 h2 => by
    obtain ⟨d, hd⟩ := unrolled h1
    obtain ⟨e, he⟩ := unrolledList h2
    exact ⟨max d e, by
      simp [expandList, expand_mono (unroll_le (Nat.le_max_left d e)) _ _ hd,
        expandList_mono (unroll_le (Nat.le_max_right d e)) _ _ he]⟩
theorem unrolledEntries {t : List (ANode × ANode)} {n : List (Node × Node)} :
    DenotesEntries anchors t n → ∃ d, expandEntries (unroll anchors d) t = some n
  | .nil => ⟨0, rfl⟩
  | .pair hk h1 h2 h3 => by
    obtain ⟨d, hd⟩ := unrolled h1
    obtain ⟨e, he⟩ := unrolled h2
    obtain ⟨f, hf⟩ := unrolledEntries h3
    refine ⟨max d (max e f), ?_⟩
    rw [expandEntries_pair _ hk, expand_mono (unroll_le (by omega)) _ _ hd, expand_mono (unroll_le (by omega)) _ _ he,
      expandEntries_mono (unroll_le (by omega)) _ _ hf]
    rfl
  | .merge h1 h2 => by
    obtain ⟨d, hd⟩ := unrolled h1
    obtain ⟨e, he⟩ := unrolledEntries h2
    refine ⟨max d e, ?_⟩
    rw [expandEntries_mark, merged_of_expand (expand_mono (unroll_le (by omega)) _ _ hd),
      expandEntries_mono (unroll_le (by omega)) _ _ he]
    rfl
  | .mergeList h1 h2 => by
    obtain ⟨d, hd⟩ := unrolledMaps h1
    obtain ⟨e, he⟩ := unrolledEntries h2
    refine ⟨max d e, ?_⟩
    rw [expandEntries_mark, merged, mergedList_mono (unroll_le (by omega)) _ _ hd,
      expandEntries_mono (unroll_le (by omega)) _ _ he]
    rfl
theorem unrolledMaps {t : List ANode} {as : List (List (Node × Node))} :
    DenotesMaps anchors t as → ∃ d, mergedList (unroll anchors d) t = some as.reverse.flatten
  | .nil => ⟨0, rfl⟩
  | .cons h1 h2 => by
    obtain ⟨d, hd⟩ := unrolled h1
    obtain ⟨e, he⟩ := unrolledMaps h2
    refine ⟨max d e, ?_⟩
    rw [mergedList_cons (expand_mono (unroll_le (by omega)) _ _ hd) (mergedList_mono (unroll_le (by omega)) _ _ he)]
    simp
end

theorem unroll_right (d : Nat) : Right anchors (unroll anchors d) := by
  induction d with
  | zero => intro x n h; cases h
  | succ d ih =>
    intro x n h
    rw [unroll, Option.bind_eq_some_iff] at h
    obtain ⟨a, h1, h2⟩ := h
    exact .ref h1 (expand_right ih a n h2)

theorem follow_right (k : Nat) : ∀ seen, Right anchors (follow anchors k seen) := by
  induction k with
  | zero => intro seen x n h; cases h
  | succ k ih =>
    intro seen x n h
    rw [follow] at h
    split at h
    · cases h
    · rw [Option.bind_eq_some_iff] at h
      obtain ⟨a, h1, h2⟩ := h
      exact .ref h1 (expand_right (ih _) a n h2)

/-- The names of anchors that are not being followed. -/
def left (anchors : List (String × ANode)) (seen : List String) : List (String × ANode) :=
  anchors.filter fun p => !seen.contains p.1

theorem lookup_mem {x : String} {a : ANode} : ∀ {l : List (String × ANode)}, l.lookup x = some a → (x, a) ∈ l
  | [], h => by cases h
  | (y, b) :: l, h => by
    rw [List.lookup_cons] at h
    split at h
    · rename_i e
      simp only [beq_iff_eq] at e
      cases h
      subst e
      exact List.mem_cons_self
    · exact List.mem_cons_of_mem _ (lookup_mem h)

theorem left_lt {seen : List String} {x : String} {a : ANode} (h : anchors.lookup x = some a) (hx : x ∉ seen) :
    (left anchors (x :: seen)).length < (left anchors seen).length := by
  have hm : (x, a) ∈ left anchors seen := by
    rw [left, List.mem_filter]
    exact ⟨lookup_mem h, by simpa using hx⟩
  have he : left anchors (x :: seen) = (left anchors seen).filter fun p => !(p.1 == x) := by
    rw [left, left, List.filter_filter]
    congr 1
    funext p
    by_cases e : p.1 = x <;> simp [e]
  rw [he]
  rcases Nat.lt_or_ge ((left anchors seen).filter fun p => !(p.1 == x)).length (left anchors seen).length with g | g
  · exact g
  · have := List.length_filter_eq_length_iff.mp (Nat.le_antisymm (List.length_filter_le ..) g) (x, a) hm
    simp at this

/-- The least depth at which an alias can be followed. -/
theorem least {x : String} {n : Node} {d : Nat} (h : unroll anchors d x = some n) :
    ∃ e, e < d ∧ unroll anchors e x = none ∧ unroll anchors (e + 1) x = some n := by
  induction d with
  | zero => cases h
  | succ d ih =>
    cases g : unroll anchors d x with
    | none => exact ⟨d, by omega, g, h⟩
    | some m =>
      have : m = n := by
        have := unroll_step d x m g
        rw [h] at this
        exact (Option.some.inj this).symm
      subst this
      obtain ⟨e, h1, h2, h3⟩ := ih g
      exact ⟨e, by omega, h2, h3⟩

/-- The check loses nothing: an alias being followed cannot be met again below, since it would be
finite at a smaller depth than the least. -/
theorem follow_complete (d : Nat) : ∀ (k : Nat) (seen : List String), (left anchors seen).length < k →
    (∀ y ∈ seen, unroll anchors d y = none) → Knows (unroll anchors d) (follow anchors k seen) := by
  induction d using Nat.strongRecOn with
  | _ d ih =>
    intro k seen hk hs x n h
    have hx : x ∉ seen := fun g => by rw [hs x g] at h; cases h
    obtain ⟨e, he, h1, h2⟩ := least h
    obtain ⟨k, rfl⟩ : ∃ k', k = k' + 1 := ⟨k - 1, by omega⟩
    rw [unroll, Option.bind_eq_some_iff] at h2
    obtain ⟨a, h3, h4⟩ := h2
    rw [follow, if_neg hx, h3]
    have hl := left_lt h3 hx
    refine expand_mono (ih e he k (x :: seen) (by omega) ?_) a n h4
    intro y hy
    rcases List.mem_cons.mp hy with rfl | hy
    · exact h1
    · cases g : unroll anchors e y with
      | none => rfl
      | some m =>
        have := unroll_le (Nat.le_of_lt he) y m g
        rw [hs y hy] at this
        cases this

end Yaml
end Drone
