/-
C125: anchors, aliases and merge keys.
-/
import Verif.Proof.Alias
import Verif.Props.Decode
import Mathlib.Logic.Relation

namespace Drone
open Yaml Spec

variable {anchors : List (String × ANode)}

/-! ### What a document stands for -/

/-- C125: the decoders see a tree exactly if the document stands for it: the check that refuses an
alias while it is being followed refuses nothing else, and it makes every decoding end. -/
theorem C125_expand (anchors : List (String × ANode)) (t : ANode) (n : Yaml.Node) :
    expandDoc anchors t = some n ↔ Denotes anchors t n := by
  constructor
  · exact expand_right (follow_right _ _) t n
  · intro h
    obtain ⟨d, hd⟩ := unrolled h
    refine expand_mono (follow_complete d _ _ ?_ (by simp)) t n hd
    exact Nat.lt_succ_of_le (List.length_filter_le ..)

/-- C125: a document stands for at most one tree. -/
theorem C125_unique {t : ANode} {n m : Yaml.Node} (h : Denotes anchors t n) (h' : Denotes anchors t m) : n = m := by
  rw [← C125_expand] at h h'
  exact Option.some.inj (h.symm.trans h')

mutual
/-- A tree as a document without aliases and merge keys. -/
def Spec.bare : Yaml.Node → ANode
  | .null => .null
  | .scalar t r => .scalar t r
  | .seq xs => .seq (Spec.bareList xs)
  | .map kvs => .map (Spec.bareEntries kvs)
def Spec.bareList : List Yaml.Node → List ANode
  | [] => []
  | x :: xs => Spec.bare x :: Spec.bareList xs
def Spec.bareEntries : List (Yaml.Node × Yaml.Node) → List (ANode × ANode)
  | [] => []
  | (k, v) :: kvs => (Spec.bare k, Spec.bare v) :: Spec.bareEntries kvs
end

theorem Spec.bare_ne (n : Yaml.Node) : Spec.bare n ≠ .mark := by
  cases n <;> simp [Spec.bare]

mutual
theorem denotes_plain : ∀ n : Yaml.Node, Denotes anchors (Spec.bare n) n
  | .null => .null
  | .scalar t r => .scalar t r
  | .seq xs => .seq (denotes_plainList xs)
  | .map kvs => .map (denotes_plainEntries kvs)
theorem denotes_plainList : ∀ xs : List Yaml.Node, DenotesList anchors (Spec.bareList xs) xs
  | [] => .nil
  | x :: xs => .cons (denotes_plain x) (denotes_plainList xs)
theorem denotes_plainEntries : ∀ kvs : List (Yaml.Node × Yaml.Node), DenotesEntries anchors (Spec.bareEntries kvs) kvs
  | [] => .nil
  | (k, v) :: kvs => .pair (Spec.bare_ne k) (denotes_plain k) (denotes_plain v) (denotes_plainEntries kvs)
end

/-- C125: a document without aliases and merge keys is decoded as it stands. -/
theorem C125_plain (anchors : List (String × ANode)) (n : Yaml.Node) : expandDoc anchors (Spec.bare n) = some n :=
  (C125_expand ..).mpr (denotes_plain n)

/-! ### Aliases that are unknown or go round -/

mutual
/-- The aliases a node contains. -/
def Spec.mentions : ANode → List String
  | .seq xs => Spec.mentionsList xs
  | .map es => Spec.mentionsEntries es
  | .ref x => [x]
  | _ => []
def Spec.mentionsList : List ANode → List String
  | [] => []
  | x :: xs => Spec.mentions x ++ Spec.mentionsList xs
def Spec.mentionsEntries : List (ANode × ANode) → List String
  | [] => []
  | (k, v) :: es => Spec.mentions k ++ Spec.mentions v ++ Spec.mentionsEntries es
end

/-- The anchor `x` contains an alias of `y`. -/
def Spec.Uses (anchors : List (String × ANode)) (x y : String) : Prop :=
  ∃ a, anchors.lookup x = some a ∧ y ∈ Spec.mentions a

mutual
theorem expand_needs {look : String → Option Yaml.Node} {y : String} (hy : look y = none) :
    ∀ t : ANode, y ∈ Spec.mentions t → expand look t = none
  | .null, h => by simp [Spec.mentions] at h
  | .scalar _ _, h => by simp [Spec.mentions] at h
  | .mark, h => by simp [Spec.mentions] at h
  | .seq xs, h => by
    simp only [Spec.mentions] at h
    simp [expand, expandList_needs hy xs h]
  | .map es, h => by
    simp only [Spec.mentions] at h
    simp [expand, expandEntries_needs hy es h]
  | .ref x, h => by
    simp only [Spec.mentions, List.mem_singleton] at h
    rw [expand, ← h, hy]
theorem expandList_needs {look : String → Option Yaml.Node} {y : String} (hy : look y = none) :
    ∀ t : List ANode, y ∈ Spec.mentionsList t → expandList look t = none
  | [], h => by simp [Spec.mentionsList] at h
  | x :: xs, h => by
    rw [Spec.mentionsList, List.mem_append] at h
    rcases h with h | h
    · simp [expandList, expand_needs hy x h]
    · simp [expandList, expandList_needs hy xs h]
theorem expandEntries_needs {look : String → Option Yaml.Node} {y : String} (hy : look y = none) :
    ∀ t : List (ANode × ANode), y ∈ Spec.mentionsEntries t → expandEntries look t = none
  | [], h => by simp [Spec.mentionsEntries] at h
  | (k, v) :: es, h => by
    rw [Spec.mentionsEntries, List.mem_append, List.mem_append] at h
    by_cases hk : k = .mark
    · subst hk
      rw [expandEntries_mark]
      rcases h with (h | h) | h
      · simp [Spec.mentions] at h
      · simp [merged_needs hy v h]
      · simp [expandEntries_needs hy es h]
    · rw [expandEntries_pair _ hk]
      rcases h with (h | h) | h
      · simp [expand_needs hy k h]
      · simp [expand_needs hy v h]
      · simp [expandEntries_needs hy es h]
theorem merged_needs {look : String → Option Yaml.Node} {y : String} (hy : look y = none) :
    ∀ t : ANode, y ∈ Spec.mentions t → merged look t = none
  | .null, h => by simp [Spec.mentions] at h
  | .scalar _ _, h => by simp [Spec.mentions] at h
  | .mark, h => by simp [Spec.mentions] at h
  | .seq xs, h => by
    simp only [Spec.mentions] at h
    simp [merged, mergedList_needs hy xs h]
  | .map es, h => by
    simp only [Spec.mentions] at h
    simp [merged, expandEntries_needs hy es h]
  | .ref x, h => by
    simp only [Spec.mentions, List.mem_singleton] at h
    rw [merged, ← h, hy]
    rfl
theorem mergedList_needs {look : String → Option Yaml.Node} {y : String} (hy : look y = none) :
    ∀ t : List ANode, y ∈ Spec.mentionsList t → mergedList look t = none
  | [], h => by simp [Spec.mentionsList] at h
  | .null :: _, _ => rfl
  | .scalar _ _ :: _, _ => rfl
  | .mark :: _, _ => rfl
  | .seq _ :: _, _ => rfl
  | .map es :: xs, h => by
    rw [Spec.mentionsList, List.mem_append, Spec.mentions] at h
    rcases h with h | h
    · simp [mergedList, expandEntries_needs hy es h]
    · simp [mergedList, mergedList_needs hy xs h]
  | .ref x :: xs, h => by
    rw [Spec.mentionsList, List.mem_append, Spec.mentions, List.mem_singleton] at h
    rcases h with h | h
    · subst h
      simp [mergedList, hy]
    · simp [mergedList, mergedList_needs hy xs h]
end

/-- An alias that is finite uses only aliases that are, at a smaller depth. -/
theorem unroll_uses {x y : String} (h : Uses anchors x y) {d : Nat} {n : Yaml.Node} (hd : unroll anchors d x = some n) :
    ∃ e m, e < d ∧ unroll anchors e y = some m := by
  obtain ⟨a, h1, h2⟩ := h
  cases d with
  | zero => cases hd
  | succ d =>
    rw [unroll, h1] at hd
    simp only [Option.bind_some] at hd
    cases hy : unroll anchors d y with
    | none => rw [expand_needs hy a h2] at hd; cases hd
    | some m => exact ⟨d, m, by omega, hy⟩

theorem unroll_reaches {x y : String} (h : Relation.TransGen (Uses anchors) x y) {d : Nat} {n : Yaml.Node}
    (hd : unroll anchors d x = some n) : ∃ e m, e < d ∧ unroll anchors e y = some m := by
  induction h with
  | single h => exact unroll_uses h hd
  | tail _ h ih =>
    obtain ⟨e, m, h1, h2⟩ := ih
    obtain ⟨e', m', h3, h4⟩ := unroll_uses h h2
    exact ⟨e', m', by omega, h4⟩

theorem unroll_acyclic {x : String} (h : Relation.TransGen (Uses anchors) x x) (d : Nat) : unroll anchors d x = none := by
  induction d using Nat.strongRecOn with
  | _ d ih =>
    cases hd : unroll anchors d x with
    | none => rfl
    | some n =>
      obtain ⟨e, m, h1, h2⟩ := unroll_reaches h hd
      rw [ih e h1] at h2
      cases h2

/-- C125: a document that uses, directly or through other anchors, an anchor that does not exist or
that contains itself is refused. -/
theorem C125_refused {t : ANode} {x y : String} (hx : x ∈ Spec.mentions t)
    (hxy : Relation.ReflTransGen (Uses anchors) x y)
    (hy : anchors.lookup y = none ∨ Relation.TransGen (Uses anchors) y y) : expandDoc anchors t = none := by
  cases h : expandDoc anchors t with
  | none => rfl
  | some n =>
    exfalso
    obtain ⟨d, hd⟩ := unrolled ((C125_expand ..).mp h)
    have hy' : ∀ e, unroll anchors e y = none := by
      intro e
      rcases hy with hy | hy
      · cases e with
        | zero => rfl
        | succ e => rw [unroll, hy]; rfl
      · exact unroll_acyclic hy e
    cases hu : unroll anchors d x with
    | none => rw [expand_needs hu t hx] at hd; cases hd
    | some m =>
      rcases Relation.reflTransGen_iff_eq_or_transGen.mp hxy with rfl | hr
      · rw [hy' d] at hu; cases hu
      · obtain ⟨e, m', _, h2⟩ := unroll_reaches hr hu
        rw [hy' e] at h2; cases h2

/-- `a: &a [*b]` and `b: &b {k: *a}` go round. -/
example : expandDoc [("a", .seq [.ref "b"]), ("b", .map [(.scalar "k" .str, .ref "a")])] (.ref "a") = none := by
  refine C125_refused (x := "a") (y := "a") (by simp [Spec.mentions]) .refl (.inr ?_)
  refine .tail (.single ⟨_, rfl, (?_ : "b" ∈ _)⟩) ⟨_, rfl, ?_⟩
  · simp [Spec.mentions, Spec.mentionsList]
  · simp [Spec.mentions, Spec.mentionsEntries]

/-! ### Copying -/

mutual
/-- The node with its aliases of `x` written out. -/
def Spec.written (x : String) (a : ANode) : ANode → ANode
  | .seq xs => .seq (Spec.writtenList x a xs)
  | .map es => .map (Spec.writtenEntries x a es)
  | .ref y => if y = x then a else .ref y
  | t => t
def Spec.writtenList (x : String) (a : ANode) : List ANode → List ANode
  | [] => []
  | t :: ts => Spec.written x a t :: Spec.writtenList x a ts
def Spec.writtenEntries (x : String) (a : ANode) : List (ANode × ANode) → List (ANode × ANode)
  | [] => []
  | (k, v) :: es => (Spec.written x a k, Spec.written x a v) :: Spec.writtenEntries x a es
end

theorem Spec.written_ne {x : String} {a : ANode} (ha : a ≠ .mark) {k : ANode} (hk : k ≠ .mark) :
    Spec.written x a k ≠ .mark := by
  cases k with
  | mark => exact absurd rfl hk
  | ref y => rw [Spec.written]; split; exacts [ha, by simp]
  | _ => simp [Spec.written]

section
variable {x : String} {a : ANode} (hx : anchors.lookup x = some a) (ha : a ≠ .mark)
include hx ha
mutual
theorem written_stands {t : ANode} {n : Yaml.Node} : Denotes anchors t n → Denotes anchors (Spec.written x a t) n
  | .null => .null
  | .scalar t r => .scalar t r
  | .mark => .mark
  | .seq h => .seq (writtenList_stands h)
  | .map h => .map (writtenEntries_stands h)
  | .ref (x := y) h1 h2 => by
    rw [Spec.written]
    split
    · rename_i e
      subst e
      rw [hx] at h1
      cases h1
      exact h2
    · exact .ref h1 h2
theorem writtenList_stands {t : List ANode} {n : List Yaml.Node} :
    DenotesList anchors t n → DenotesList anchors (Spec.writtenList x a t) n
  | .nil => .nil
  | .cons h1 h2 => .cons (written_stands h1) (writtenList_stands h2)
theorem writtenEntries_stands {t : List (ANode × ANode)} {n : List (Yaml.Node × Yaml.Node)} :
    DenotesEntries anchors t n → DenotesEntries anchors (Spec.writtenEntries x a t) n
  | .nil => .nil
  | .pair hk h1 h2 h3 => .pair (Spec.written_ne ha hk) (written_stands h1) (written_stands h2) (writtenEntries_stands h3)
  | .merge h1 h2 => .merge (written_stands h1) (writtenEntries_stands h2)
  | .mergeList h1 h2 => .mergeList (writtenMaps_stands h1) (writtenEntries_stands h2)
theorem writtenMaps_stands {t : List ANode} {n : List (List (Yaml.Node × Yaml.Node))} :
    DenotesMaps anchors t n → DenotesMaps anchors (Spec.writtenList x a t) n
  | .nil => .nil
  | .cons h1 h2 => .cons (written_stands h1) (writtenMaps_stands h2)
end
end

/-- C125: writing out what an alias stands for, at every place where it is used, changes nothing that
is read. -/
theorem C125_copy {x : String} {a t : ANode} (hx : anchors.lookup x = some a) (ha : a ≠ .mark) {n : Yaml.Node}
    (h : expandDoc anchors t = some n) : expandDoc anchors (Spec.written x a t) = some n :=
  (C125_expand ..).mpr (written_stands hx ha ((C125_expand ..).mp h))

/-- C125: the converse fails: a list of maps can be merged if it is written at the merge key, but not
through an alias of the list. -/
theorem C125_list_alias : ∃ a t n, expandDoc [("l", a)] (Spec.written "l" a t) = some n ∧ expandDoc [("l", a)] t = none :=
  ⟨.seq [.map [(.scalar "image" .str, .scalar "go" .str)]], .map [(.mark, .ref "l")],
    .map [(.scalar "image" .str, .scalar "go" .str)], by
      simp [expandDoc, Spec.written, Spec.writtenEntries, expand, expandEntries, merged, mergedList], by
      simp [expandDoc, expand, expandEntries, merged, follow, List.lookup, expandList, asEntries]⟩

end Drone
