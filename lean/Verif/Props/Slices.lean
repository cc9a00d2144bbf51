/-
C121: lists that share an array are not overwritten.  The rest of the model treats lists as values;
here the appends of the code are shown to have no other effect than that.
-/
import Verif.Model.Slices
import Verif.Props.Local
import Verif.Model.Convert

namespace Drone
namespace Slices
open Spec (Role sources)

/-- A slice lies within its array. -/
def Valid (h : Heap) (s : Slice) : Prop := s.len ≤ s.cap ∧ s.off + s.cap ≤ (cells h s.arr).length

/-- The cell `i` of array `a` is shown by the slice. -/
def Shows (s : Slice) (a i : Nat) : Prop := s.arr = a ∧ s.off ≤ i ∧ i < s.off + s.len

theorem contents_getElem? (h : Heap) (s : Slice) (i : Nat) :
    (contents h s)[i]? = if i < s.len then (cells h s.arr)[s.off + i]? else none := by
  unfold contents
  rw [List.getElem?_take]
  split
  · rw [List.getElem?_drop]
  · rfl

theorem contents_length {h : Heap} {s : Slice} (hv : Valid h s) : (contents h s).length = s.len := by
  unfold contents
  rw [List.length_take, List.length_drop]
  have := hv.1
  have := hv.2
  omega

theorem contents_congr {h h' : Heap} {s : Slice} (hs : ∀ i, Shows s s.arr i → (cells h' s.arr)[i]? = (cells h s.arr)[i]?) :
    contents h' s = contents h s := by
  apply List.ext_getElem?
  intro i
  rw [contents_getElem?, contents_getElem?]
  split
  · exact hs _ ⟨rfl, by omega, by omega⟩
  · rfl

theorem cells_set (h : Heap) (a b : Nat) (l : List String) :
    cells (h.set a l) b = if a = b ∧ b < h.length then l else cells h b := by
  unfold cells
  simp only [List.getD_eq_getElem?_getD, List.getElem?_set]
  by_cases h1 : a = b
  · subst h1
    by_cases h2 : a < h.length
    · simp [h2]
    · simp [h2]
  · simp [h1]

theorem cells_append_lt {h : Heap} {l : List String} {a : Nat} (ha : a < h.length) : cells (h ++ [l]) a = cells h a := by
  unfold cells
  simp only [List.getD_eq_getElem?_getD, List.getElem?_append_left ha]

theorem cells_append_last (h : Heap) (l : List String) : cells (h ++ [l]) h.length = l := by
  unfold cells
  simp

theorem cells_ge {h : Heap} {a : Nat} (ha : h.length ≤ a) : cells h a = [] := by
  unfold cells
  simp [List.getD_eq_getElem?_getD, List.getElem?_eq_none ha]

theorem overwrite_nil (l : List String) (i : Nat) : overwrite l i [] = l := by
  simp [overwrite]

theorem overwrite_getElem? {l : List String} {i : Nat} {xs : List String} (hi : i + xs.length ≤ l.length) (j : Nat) :
    (overwrite l i xs)[j]? = if i ≤ j ∧ j < i + xs.length then xs[j - i]? else l[j]? := by
  unfold overwrite
  rw [List.append_assoc, List.getElem?_append, List.length_take]
  have : min i l.length = i := by omega
  rw [this]
  by_cases h1 : j < i
  · rw [if_pos h1, List.getElem?_take, if_pos h1, if_neg (by omega)]
  · rw [if_neg h1, List.getElem?_append]
    by_cases h2 : j - i < xs.length
    · rw [if_pos h2, if_pos (by omega)]
    · rw [if_neg h2, if_neg (by omega), List.getElem?_drop]
      congr 1
      omega

theorem overwrite_length {l : List String} {i : Nat} {xs : List String} (hi : i + xs.length ≤ l.length) :
    (overwrite l i xs).length = l.length := by
  unfold overwrite
  simp
  omega

/-- In place, the cells behind the slice are written. -/
theorem append_in {grow : Nat → Nat} {h : Heap} {s : Slice} {xs : List String} (hc : s.len + xs.length ≤ s.cap) :
    append grow h s xs = (h.set s.arr (overwrite (cells h s.arr) (s.off + s.len) xs), { s with len := s.len + xs.length }) := by
  unfold append
  rw [if_pos hc]

/-- Otherwise a new array is made. -/
theorem append_out {grow : Nat → Nat} {h : Heap} {s : Slice} {xs : List String} (hc : ¬ s.len + xs.length ≤ s.cap) :
    append grow h s xs = (h ++ [contents h s ++ xs ++ List.replicate (grow (s.len + xs.length)) ""],
      { arr := h.length, len := s.len + xs.length, cap := s.len + xs.length + grow (s.len + xs.length) }) := by
  unfold append
  rw [if_neg hc]

theorem append_length (grow : Nat → Nat) (h : Heap) (s : Slice) (xs : List String) :
    h.length ≤ (append grow h s xs).1.length := by
  by_cases hc : s.len + xs.length ≤ s.cap
  · rw [append_in hc]; simp
  · rw [append_out hc]; simp

theorem valid_lt {h : Heap} {s : Slice} (hv : Valid h s) (hc : 0 < s.cap) : s.arr < h.length := by
  by_contra hn
  have := hv.2
  rw [cells_ge (by omega)] at this
  simp at this
  omega

/-- Arrays keep their size. -/
theorem append_size {grow : Nat → Nat} {h : Heap} {s : Slice} {xs : List String} (hv : Valid h s) {a : Nat}
    (ha : a < h.length) : (cells (append grow h s xs).1 a).length = (cells h a).length := by
  by_cases hc : s.len + xs.length ≤ s.cap
  · rw [append_in hc]
    simp only [cells_set]
    split
    · rename_i e
      rw [← e.1, overwrite_length]
      have := hv.2
      omega
    · rfl
  · rw [append_out hc]
    simp only [cells_append_lt ha]

theorem append_valid_old {grow : Nat → Nat} {h : Heap} {s t : Slice} {xs : List String} (hv : Valid h s) (ht : Valid h t) :
    Valid (append grow h s xs).1 t := by
  refine ⟨ht.1, ?_⟩
  by_cases ha : t.arr < h.length
  · rw [append_size hv ha]
    exact ht.2
  · have := ht.2
    rw [cells_ge (by omega)] at this
    simp at this
    omega

/-- The result of `append` shows what it should. -/
theorem append_contents {grow : Nat → Nat} {h : Heap} {s : Slice} {xs : List String} (hv : Valid h s) :
    contents (append grow h s xs).1 (append grow h s xs).2 = contents h s ++ xs := by
  by_cases hc : s.len + xs.length ≤ s.cap
  · rw [append_in hc]
    apply List.ext_getElem?
    intro i
    rw [contents_getElem?, List.getElem?_append, contents_length hv]
    simp only
    have h2 := hv.2
    by_cases hx : xs = []
    · subst hx
      simp only [overwrite_nil, List.length_nil, Nat.add_zero, List.getElem?_nil, contents_getElem?, cells_set]
      by_cases hi : i < s.len <;> simp [hi]
    · have hpos : 0 < xs.length := List.length_pos_iff.2 hx
      have hlt : s.arr < h.length := valid_lt hv (by omega)
      have e1 : cells (h.set s.arr (overwrite (cells h s.arr) (s.off + s.len) xs)) s.arr =
          overwrite (cells h s.arr) (s.off + s.len) xs := by
        rw [cells_set, if_pos ⟨rfl, hlt⟩]
      rw [e1, overwrite_getElem? (by omega)]
      by_cases hi : i < s.len
      · rw [if_pos (by omega), if_neg (by omega), if_pos hi, contents_getElem?, if_pos hi]
      · rw [if_neg hi]
        by_cases hj : i < s.len + xs.length
        · rw [if_pos hj, if_pos (by omega)]
          congr 1
          omega
        · rw [if_neg hj, List.getElem?_eq_none (by omega)]
  · rw [append_out hc]
    unfold contents
    simp only [cells_append_last, List.drop_zero]
    rw [List.take_append_of_le_length, List.take_of_length_le]
    · have := contents_length hv
      unfold contents at this
      rw [List.length_append, this]
      exact Nat.le_refl _
    · have := contents_length hv
      unfold contents at this
      rw [List.length_append, this]
      exact Nat.le_refl _

theorem append_valid_new {grow : Nat → Nat} {h : Heap} {s : Slice} {xs : List String} (hv : Valid h s) :
    Valid (append grow h s xs).1 (append grow h s xs).2 := by
  by_cases hc : s.len + xs.length ≤ s.cap
  · have := append_valid_old (grow := grow) (xs := xs) hv hv
    rw [append_in hc] at this ⊢
    exact ⟨hc, this.2⟩
  · rw [append_out hc]
    refine ⟨by simp only; omega, ?_⟩
    simp only [cells_append_last, List.length_append, contents_length hv, List.length_replicate]
    omega

/-! ### Commands of a GitLab file -/

/-- The first `n` arrays are the same. -/
def Kept (n : Nat) (h h' : Heap) : Prop := ∀ a, a < n → cells h' a = cells h a

/-- A slice that is full, or not in one of the first `n` arrays. -/
def Own (n : Nat) (s : Slice) : Prop := n ≤ s.arr ∨ s.len = s.cap

theorem contents_kept {h h' : Heap} {s : Slice} (hk : Kept h.length h h') (hv : Valid h s) :
    contents h' s = contents h s := by
  by_cases ha : s.arr < h.length
  · unfold contents
    rw [hk _ ha]
  · have h1 := hv.1
    have h2 := hv.2
    rw [cells_ge (by omega)] at h2
    simp at h2
    have : s.len = 0 := by omega
    unfold contents
    rw [this]
    simp

theorem valid_kept {h h' : Heap} {s : Slice} (hk : Kept h.length h h') (hv : Valid h s) : Valid h' s := by
  refine ⟨hv.1, ?_⟩
  by_cases ha : s.arr < h.length
  · rw [hk _ ha]
    exact hv.2
  · have h2 := hv.2
    rw [cells_ge (by omega)] at h2
    simp at h2
    omega

theorem append_own {grow : Nat → Nat} {n : Nat} {h : Heap} {s : Slice} {xs : List String} (hn : n ≤ h.length)
    (ho : Own n s) : Kept n h (append grow h s xs).1 ∧ Own n (append grow h s xs).2 := by
  by_cases hc : s.len + xs.length ≤ s.cap
  · rw [append_in hc]
    rcases ho with ho | ho
    · refine ⟨fun a ha => ?_, .inl ho⟩
      rw [cells_set, if_neg (by omega)]
    · have hx : xs = [] := List.eq_nil_of_length_eq_zero (by omega)
      subst hx
      refine ⟨fun a ha => ?_, .inr (by simpa using ho)⟩
      rw [overwrite_nil, cells_set]
      split
      · rename_i e
        rw [e.1]
      · rfl
  · rw [append_out hc]
    exact ⟨fun a ha => cells_append_lt (by omega), .inl hn⟩

/-- The list `s` is made from the heap `h0`, shows `l`, and cannot be written by others. -/
structure Making (h0 h : Heap) (s : Slice) (l : List String) : Prop where
  kept : Kept h0.length h0 h
  more : h0.length ≤ h.length
  valid : Valid h s
  own : Own h0.length s
  shows : contents h s = l

theorem Making.append {grow : Nat → Nat} {h0 h : Heap} {s : Slice} {l xs : List String} (hm : Making h0 h s l) :
    Making h0 (append grow h s xs).1 (append grow h s xs).2 (l ++ xs) := by
  have ho := append_own (grow := grow) (xs := xs) hm.more hm.own
  refine ⟨fun a ha => (ho.1 a ha).trans (hm.kept a ha), Nat.le_trans hm.more (append_length ..),
    append_valid_new hm.valid, ho.2, ?_⟩
  rw [append_contents hm.valid, hm.shows]

/-- All lists of a job lie within their arrays. -/
def Job.Ok (h : Heap) (j : Job) : Prop := Valid h j.before ∧ Valid h j.script ∧ Valid h j.after

/-- The commands a step should have. -/
def commandsOf (h : Heap) (before after : Slice) (j : Job) : List String :=
  contents h before ++ contents h j.before ++ contents h j.script ++ contents h j.after ++ contents h after

theorem jobCommands_making {grow : Nat → Nat} {before after : Slice} {h : Heap} {j : Job} (hb : Valid h before)
    (hfull : before.len = before.cap) (ha : Valid h after) (hj : j.Ok h) :
    Making h (jobCommands grow before after h j).1 (jobCommands grow before after h j).2 (commandsOf h before after j) := by
  have m0 : Making h h before (contents h before) :=
    ⟨fun _ _ => rfl, Nat.le_refl _, hb, .inr hfull, rfl⟩
  have m1 := m0.append (grow := grow) (xs := contents h j.before)
  have m2 := m1.append (grow := grow) (xs := contents (append grow h before (contents h j.before)).1 j.script)
  rw [contents_kept m1.kept hj.2.1] at m2
  unfold jobCommands commandsOf
  simp only [contents_kept m1.kept hj.2.1]
  have m3 := m2.append (grow := grow) (xs := contents h j.after)
  rw [contents_kept m2.kept hj.2.2]
  have m4 := m3.append (grow := grow) (xs := contents h after)
  rw [contents_kept m3.kept ha]
  exact m4

theorem jobLoop_spec {grow : Nat → Nat} {before after : Slice} (hfull : before.len = before.cap) :
    ∀ {js : List Job} {h : Heap}, Valid h before → Valid h after → (∀ j ∈ js, j.Ok h) →
    Kept h.length h (jobLoop grow before after h js).1 ∧ h.length ≤ (jobLoop grow before after h js).1.length ∧
    (jobLoop grow before after h js).2.map (contents (jobLoop grow before after h js).1) =
      js.map (commandsOf h before after) := by
  intro js
  induction js with
  | nil => intro h _ _ _; exact ⟨fun _ _ => rfl, Nat.le_refl _, rfl⟩
  | cons j js ih =>
    intro h hb ha hj
    have hm := jobCommands_making (grow := grow) hb hfull ha (hj j (by simp))
    have hk := hm.kept
    obtain ⟨k1, k2, k3⟩ := ih (valid_kept hk hb) (valid_kept hk ha) fun j' hj' =>
      let o := hj j' (by simp [hj'])
      ⟨valid_kept hk o.1, valid_kept hk o.2.1, valid_kept hk o.2.2⟩
    simp only [jobLoop]
    refine ⟨fun a hlt => (k1 a (Nat.lt_of_lt_of_le hlt hm.more)).trans (hk a hlt), Nat.le_trans hm.more k2, ?_⟩
    simp only [List.map_cons, List.cons.injEq]
    refine ⟨(contents_kept k1 hm.valid).trans hm.shows, ?_⟩
    rw [k3]
    apply List.map_congr_left
    intro j' hj'
    have o := hj j' (by simp [hj'])
    simp only [commandsOf, contents_kept hk hb, contents_kept hk ha, contents_kept hk o.1, contents_kept hk o.2.1,
      contents_kept hk o.2.2]

/-- C121: if the `before_script` of a GitLab file has no spare capacity, which is how lists are
decoded, every converted step has its own commands, however `append` grows arrays, and no list of
the file changes. -/
theorem C121_gitlab {grow : Nat → Nat} {before after : Slice} {h : Heap} {js : List Job}
    (hfull : before.len = before.cap) (hb : Valid h before) (ha : Valid h after) (hj : ∀ j ∈ js, j.Ok h) :
    (jobLoop grow before after h js).2.map (contents (jobLoop grow before after h js).1) =
      js.map (commandsOf h before after) ∧
    ∀ s, Valid h s → contents (jobLoop grow before after h js).1 s = contents h s := by
  obtain ⟨h1, _, h3⟩ := jobLoop_spec (grow := grow) hfull hb ha hj
  exact ⟨h3, fun s hs => contents_kept h1 hs⟩

/-- C121: the model of the converter, which has values for lists, says what the code with its shared
arrays does. -/
theorem C121_job {grow : Nat → Nat} {before after : Slice} {h : Heap} {js : List (String × Gitlab.Job × Job)}
    {c : Gitlab.Config} (hfull : before.len = before.cap) (hb : Valid h before) (ha : Valid h after)
    (hcb : contents h before = c.before) (hca : contents h after = c.after)
    (hj : ∀ x ∈ js, x.2.2.Ok h ∧ contents h x.2.2.before = x.2.1.before ∧ contents h x.2.2.script = x.2.1.script ∧
      contents h x.2.2.after = x.2.1.after) :
    (jobLoop grow before after h (js.map (·.2.2))).2.map (contents (jobLoop grow before after h (js.map (·.2.2))).1) =
      js.map (fun x => (Gitlab.jobStep c x.1 x.2.1).commands) := by
  rw [(C121_gitlab hfull hb ha (by
    intro j hjm
    obtain ⟨x, hx, rfl⟩ := List.mem_map.1 hjm
    exact (hj x hx).1)).1, List.map_map]
  apply List.map_congr_left
  intro x hx
  obtain ⟨_, h1, h2, h3⟩ := hj x hx
  simp only [Function.comp, commandsOf, Gitlab.jobStep, hcb, hca, h1, h2, h3]

/-- Two jobs of a file with one command before each. -/
def exHeap : Heap := [["setup", "", ""], ["go build"], ["go test"]]

/-- C121: the hypotheses can be met. -/
example :
    let before : Slice := { arr := 0, len := 1, cap := 1 }
    let js : List Job := [{ before := {}, script := { arr := 1, len := 1, cap := 1 }, after := {} },
      { before := {}, script := { arr := 2, len := 1, cap := 1 }, after := {} }]
    before.len = before.cap ∧ Valid exHeap before ∧ Valid exHeap {} ∧ (∀ j ∈ js, j.Ok exHeap) ∧
    (jobLoop (fun n => n) before {} exHeap js).2.map (contents (jobLoop (fun n => n) before {} exHeap js).1) =
      [["setup", "go build"], ["setup", "go test"]] := by
  refine ⟨rfl, by simp [Valid, cells, exHeap], by simp [Valid], ?_, by decide⟩
  simp [Job.Ok, Valid, cells, exHeap]

/-- C121: why the capacity matters.  If the array of `before_script` had room, the first step would
run the script of the second. -/
theorem C121_gitlab_shared :
    let before : Slice := { arr := 0, len := 1, cap := 3 }
    let js : List Job := [{ before := {}, script := { arr := 1, len := 1, cap := 1 }, after := {} },
      { before := {}, script := { arr := 2, len := 1, cap := 1 }, after := {} }]
    Valid exHeap before ∧
    (jobLoop (fun n => n) before {} exHeap js).2.map (contents (jobLoop (fun n => n) before {} exHeap js).1) =
      [["setup", "go test"], ["setup", "go test"]] :=
  ⟨by simp [Valid, cells, exHeap], by decide⟩

/-! ### Dependencies of compiled steps -/

/-- "clone" is added to the dependencies of this container. -/
def Adds (add : Bool) (x : Kind × Slice) : Prop :=
  add = true ∧ (x.1 = .service ∨ x.1 = .step ∧ x.2.len = 0)

instance (add : Bool) (x : Kind × Slice) : Decidable (Adds add x) := by unfold Adds; infer_instance

/-- The cell `i` of array `a` is the free cell right after a list to which "clone" is added. -/
def Writes (add : Bool) (l : List (Kind × Slice)) (a i : Nat) : Prop :=
  ∃ x ∈ l, Adds add x ∧ x.2.len < x.2.cap ∧ x.2.arr = a ∧ x.2.off + x.2.len = i

theorem addClone_eq (grow : Nat → Nat) (add : Bool) (h : Heap) (k : Kind) (s : Slice) :
    addClone grow add h k s = if Adds add (k, s) then append grow h s ["clone"] else (h, s) := by
  cases k <;> cases add <;> simp [addClone, Adds]

theorem addClone_cells {grow : Nat → Nat} {add : Bool} {h : Heap} {k : Kind} {s : Slice} (hv : Valid h s) {a : Nat}
    (ha : a < h.length) (i : Nat) :
    (Writes add [(k, s)] a i → (cells (addClone grow add h k s).1 a)[i]? = some "clone") ∧
    (¬ Writes add [(k, s)] a i → (cells (addClone grow add h k s).1 a)[i]? = (cells h a)[i]?) := by
  have hw : Writes add [(k, s)] a i ↔ Adds add (k, s) ∧ s.len < s.cap ∧ s.arr = a ∧ s.off + s.len = i := by
    simp [Writes]
  rw [hw, addClone_eq]
  by_cases hadd : Adds add (k, s)
  · rw [if_pos hadd]
    by_cases hc : s.len + ["clone"].length ≤ s.cap
    · rw [append_in hc]
      simp only [List.length_singleton] at hc
      have h2 := hv.2
      simp only [cells_set]
      by_cases he : s.arr = a
      · subst he
        rw [if_pos ⟨rfl, ha⟩, overwrite_getElem? (by simp; omega)]
        simp only [List.length_singleton]
        constructor
        · rintro ⟨_, _, _, e⟩
          rw [if_pos (by omega)]
          simp [e]
        · intro hn
          rw [if_neg]
          intro hi
          exact hn ⟨hadd, by omega, trivial, by omega⟩
      · rw [if_neg (by simp [he])]
        exact ⟨fun e => absurd e.2.2.1 he, fun _ => rfl⟩
    · rw [append_out hc]
      simp only [List.length_singleton] at hc
      simp only [cells_append_lt ha]
      exact ⟨fun e => by omega, fun _ => trivial⟩
  · rw [if_neg hadd]
    exact ⟨fun e => absurd e.1 hadd, fun _ => rfl⟩

theorem addClone_valid {grow : Nat → Nat} {add : Bool} {h : Heap} {k : Kind} {s : Slice} (hv : Valid h s) :
    h.length ≤ (addClone grow add h k s).1.length ∧ Valid (addClone grow add h k s).1 (addClone grow add h k s).2 ∧
    ∀ t, Valid h t → Valid (addClone grow add h k s).1 t := by
  rw [addClone_eq]
  split
  · exact ⟨append_length .., append_valid_new hv, fun t ht => append_valid_old hv ht⟩
  · exact ⟨Nat.le_refl _, hv, fun t ht => ht⟩

/-- All lists of the pipeline lie within their arrays. -/
def Ok (h : Heap) (l : List (Kind × Slice)) : Prop := ∀ x ∈ l, Valid h x.2

theorem depsLoop_valid {grow : Nat → Nat} {add : Bool} : ∀ {l : List (Kind × Slice)} {h : Heap}, Ok h l →
    h.length ≤ (depsLoop grow add h l).1.length ∧
    (∀ t, Valid h t → Valid (depsLoop grow add h l).1 t) ∧ ∀ t ∈ (depsLoop grow add h l).2, Valid (depsLoop grow add h l).1 t
  | [], h, _ => ⟨Nat.le_refl _, fun _ ht => ht, by simp [depsLoop]⟩
  | (k, s) :: l, h, hok => by
    obtain ⟨a1, a2, a3⟩ := addClone_valid (grow := grow) (add := add) (k := k) (hok (k, s) (by simp))
    obtain ⟨b1, b2, b3⟩ := depsLoop_valid (grow := grow) (add := add) (l := l) (h := (addClone grow add h k s).1)
      fun x hx => a3 _ (hok x (by simp [hx]))
    simp only [depsLoop]
    refine ⟨Nat.le_trans a1 b1, fun t ht => b2 t (a3 t ht), ?_⟩
    intro t ht
    rcases List.mem_cons.1 ht with rfl | ht
    · exact b2 _ a2
    · exact b3 t ht

/-- What compiling does to the arrays there were: it writes "clone" into the free cells. -/
theorem depsLoop_cells {grow : Nat → Nat} {add : Bool} : ∀ {l : List (Kind × Slice)} {h : Heap}, Ok h l →
    ∀ {a : Nat}, a < h.length → ∀ i,
    (Writes add l a i → (cells (depsLoop grow add h l).1 a)[i]? = some "clone") ∧
    (¬ Writes add l a i → (cells (depsLoop grow add h l).1 a)[i]? = (cells h a)[i]?)
  | [], h, _, a, _, i => ⟨fun ⟨x, hx, _⟩ => absurd hx (by simp), fun _ => rfl⟩
  | (k, s) :: l, h, hok, a, ha, i => by
    have hv : Valid h s := hok (k, s) (by simp)
    obtain ⟨a1, a2, a3⟩ := addClone_valid (grow := grow) (add := add) (k := k) hv
    have ih := depsLoop_cells (grow := grow) (add := add) (l := l) (h := (addClone grow add h k s).1)
      (fun x hx => a3 _ (hok x (by simp [hx]))) (Nat.lt_of_lt_of_le ha a1) i
    have h1 := addClone_cells (grow := grow) (add := add) (k := k) hv ha i
    have hw : Writes add ((k, s) :: l) a i ↔ Writes add [(k, s)] a i ∨ Writes add l a i := by
      simp [Writes]
    rw [hw]
    simp only [depsLoop]
    by_cases hl : Writes add l a i
    · exact ⟨fun _ => ih.1 hl, fun hn => absurd (.inr hl) hn⟩
    · rw [ih.2 hl]
      exact ⟨fun e => h1.1 (e.resolve_right hl), fun hn => h1.2 fun e => hn (.inl e)⟩

/-- A list shows no cell that compiling changes. -/
def Apart (add : Bool) (h : Heap) (l : List (Kind × Slice)) (t : Slice) : Prop :=
  ∀ i, Writes add l t.arr i → Shows t t.arr i → (cells h t.arr)[i]? = some "clone"

/-- C121: a list is the same after compiling exactly if it shows no cell right after a list to which
"clone" is added in place, or that cell already holds "clone". -/
theorem C121_unchanged_iff {grow : Nat → Nat} {add : Bool} {l : List (Kind × Slice)} {h : Heap} (hok : Ok h l) {t : Slice}
    (ht : Valid h t) : contents (depsLoop grow add h l).1 t = contents h t ↔ Apart add h l t := by
  have hlt : ∀ i, Shows t t.arr i → t.arr < h.length := fun i hi => by
    have := hi.2
    have := ht.1
    exact valid_lt ht (by omega)
  constructor
  · intro he i hw hs
    have e := congrArg (·[i - t.off]?) he
    simp only [contents_getElem?] at e
    obtain ⟨_, h1, h2⟩ := hs
    rw [if_pos (by omega), if_pos (by omega), Nat.add_sub_cancel' h1] at e
    rw [← e]
    exact (depsLoop_cells hok (hlt i ⟨rfl, h1, h2⟩) i).1 hw
  · intro ha
    apply contents_congr
    intro i hs
    have hc := depsLoop_cells (grow := grow) (add := add) hok (hlt i hs) i
    by_cases hw : Writes add l t.arr i
    · rw [hc.1 hw, ha i hw hs]
    · exact hc.2 hw

/-- The dependencies a container should have. -/
def depsOf (add : Bool) (h : Heap) (x : Kind × Slice) : List String :=
  contents h x.2 ++ if Adds add x then ["clone"] else []

/-- The free cell of the first container is not in a new array. -/
theorem writes_lt {add : Bool} {h : Heap} {l : List (Kind × Slice)} (hok : Ok h l) {a i : Nat} (hw : Writes add l a i) :
    a < h.length := by
  obtain ⟨x, hx, _, hc, rfl, _⟩ := hw
  exact valid_lt (hok x hx) (by omega)

theorem addClone_contents {grow : Nat → Nat} {add : Bool} {h : Heap} {k : Kind} {s : Slice} (hv : Valid h s) :
    contents (addClone grow add h k s).1 (addClone grow add h k s).2 = depsOf add h (k, s) := by
  rw [addClone_eq]
  unfold depsOf
  split
  · exact append_contents hv
  · simp

/-- The list of a compiled step is not changed by the steps after it. -/
theorem addClone_apart {grow : Nat → Nat} {add : Bool} {h : Heap} {k : Kind} {s : Slice} {l : List (Kind × Slice)}
    (hv : Valid h s) (hok : Ok h l) (ha : Apart add h ((k, s) :: l) s) :
    Apart add (addClone grow add h k s).1 l (addClone grow add h k s).2 := by
  intro i hw hs
  have hlt := writes_lt hok hw
  have hw' : ∀ {a}, Writes add l a i → Writes add ((k, s) :: l) a i := by
    rintro a ⟨x, hx, e⟩
    exact ⟨x, by simp [hx], e⟩
  have hc := addClone_cells (grow := grow) (add := add) (k := k) hv hlt i
  by_cases hself : Writes add [(k, s)] (addClone grow add h k s).2.arr i
  · exact hc.1 hself
  · rw [hc.2 hself]
    have key : (addClone grow add h k s).2.arr = s.arr ∧ Shows s s.arr i := by
      rw [addClone_eq] at hs hlt hself ⊢
      split at hs
      · rename_i hadd
        simp only [if_pos hadd] at hlt hself ⊢
        by_cases hcap : s.len + ["clone"].length ≤ s.cap
        · rw [append_in hcap] at hs hself ⊢
          simp only [List.length_singleton] at hcap
          simp only [Shows, List.length_singleton] at hs ⊢
          refine ⟨trivial, trivial, hs.2.1, ?_⟩
          by_contra hn
          exact hself ⟨(k, s), by simp, hadd, by simp only; omega, rfl, by simp only; omega⟩
        · rw [append_out hcap] at hlt
          simp at hlt
      · rename_i hadd
        simp only [if_neg hadd]
        exact ⟨trivial, hs⟩
    rw [key.1] at hw ⊢
    exact ha i (hw' hw) key.2

/-- C121: if no list of the pipeline shows a cell that compiling changes, every compiled step has
exactly the dependencies of its container, and "clone" where it is added. -/
theorem C121_depends {grow : Nat → Nat} {add : Bool} : ∀ {l : List (Kind × Slice)} {h : Heap}, Ok h l →
    (∀ x ∈ l, Apart add h l x.2) →
    (depsLoop grow add h l).2.map (contents (depsLoop grow add h l).1) = l.map (depsOf add h)
  | [], h, _, _ => rfl
  | (k, s) :: l, h, hok, hap => by
    have hv : Valid h s := hok (k, s) (by simp)
    obtain ⟨a1, a2, a3⟩ := addClone_valid (grow := grow) (add := add) (k := k) hv
    have hok0 : Ok h [(k, s)] := by simpa [Ok] using hv
    have hokl : Ok h l := fun x hx => hok x (by simp [hx])
    have hok' : Ok (addClone grow add h k s).1 l := fun x hx => a3 _ (hokl x hx)
    have hcell : ∀ {a}, a < h.length → ∀ i, Writes add l a i → (cells h a)[i]? = some "clone" →
        (cells (addClone grow add h k s).1 a)[i]? = some "clone" := by
      intro a ha i _ e
      have hc := addClone_cells (grow := grow) (add := add) (k := k) hv ha i
      by_cases hw : Writes add [(k, s)] a i
      · exact hc.1 hw
      · rw [hc.2 hw, e]
    have hsub : ∀ {t : Slice}, Apart add h ((k, s) :: l) t → Apart add h l t := by
      rintro t ht i ⟨x, hx, e⟩ hs
      exact ht i ⟨x, by simp [hx], e⟩ hs
    have hfirst : ∀ {t : Slice}, Apart add h ((k, s) :: l) t → Apart add h [(k, s)] t := by
      rintro t ht i ⟨x, hx, e⟩ hs
      exact ht i ⟨x, List.mem_cons.2 (.inl (List.mem_singleton.1 hx)), e⟩ hs
    have ih := C121_depends (grow := grow) (add := add) hok' fun x hx i hw hs =>
      hcell (writes_lt hokl hw) i hw (hsub (hap x (by simp [hx])) i hw hs)
    simp only [depsLoop, List.map_cons, List.cons.injEq]
    refine ⟨?_, ?_⟩
    · rw [(C121_unchanged_iff hok' a2).2 (addClone_apart hv hokl (hap (k, s) (by simp))), addClone_contents hv]
    · rw [ih]
      apply List.map_congr_left
      intro x hx
      have := (C121_unchanged_iff (grow := grow) hok0 (hokl x hx)).2 (hfirst (hap x (by simp [hx])))
      simp only [depsLoop] at this
      simp only [depsOf, this]

/-- Lists without spare capacity, as they are decoded from a file, are safe. -/
theorem C121_full {add : Bool} {h : Heap} {l : List (Kind × Slice)} (hfull : ∀ x ∈ l, x.2.len = x.2.cap) (t : Slice) :
    Apart add h l t := by
  rintro i ⟨x, hx, _, hc, _⟩ _
  have := hfull x hx
  omega

/-- Lists in arrays of their own are safe. -/
theorem C121_disjoint {add : Bool} {h : Heap} {l : List (Kind × Slice)}
    (hd : ∀ x ∈ l, ∀ y ∈ l, x.2.arr = y.2.arr → x.2 = y.2) : ∀ y ∈ l, Apart add h l y.2 := by
  rintro y hy i ⟨x, hx, _, _, ha, hi⟩ ⟨_, _, hs⟩
  have := hd x hx y hy ha
  rw [this] at hi
  omega

/-- C121: compiling a second time does not change the steps made the first time, nor the lists of
the pipeline again. -/
theorem C121_again {grow : Nat → Nat} {add : Bool} {h : Heap} {l : List (Kind × Slice)} (hok : Ok h l) {t : Slice}
    (ht : Valid h t ∨ t ∈ (depsLoop grow add h l).2) :
    contents (depsLoop grow add (depsLoop grow add h l).1 l).1 t = contents (depsLoop grow add h l).1 t := by
  obtain ⟨_, b2, b3⟩ := depsLoop_valid (grow := grow) (add := add) hok
  refine (C121_unchanged_iff (fun x hx => b2 _ (hok x hx)) (ht.elim (b2 t) (b3 t))).2 ?_
  intro i hw _
  exact (depsLoop_cells hok (writes_lt hok hw) i).1 hw

/-- The role of a container in the specification. -/
def kindOf : Role → Kind
  | .clone => .clone
  | .service => .service
  | .step => .step

/-- C121: the model of `Compile`, which has values for lists, says what the code with its shared
arrays does, and the lists of the pipeline stay as they are. -/
theorem C121_compile {E : Ext} {c : Compiler} (hc : c.Std) (ht : c.transform = none) {rnd : Nat → String} {p : Pipeline}
    {sp : Engine.Spec} (hsp : compile E c rnd p = some sp) {grow : Nat → Nat} {h : Heap} {l : List (Kind × Slice)}
    {add : Bool} (hadd : add = true ↔ ¬ Spec.Serial p ∧ p.clone.disable = false) (hok : Ok h l)
    (hl : List.Forall₂ (fun y x => x.1 = kindOf y.1 ∧ contents h x.2 = y.2.dependsOn) (sources p) l)
    (hap : ∀ x ∈ l, Apart add h l x.2) :
    (depsLoop grow add h l).2.map (contents (depsLoop grow add h l).1) = sp.steps.map (·.dependsOn) ∧
    ∀ x ∈ l, contents (depsLoop grow add h l).1 x.2 = contents h x.2 := by
  refine ⟨?_, fun x hx => (C121_unchanged_iff hok (hok x hx)).2 (hap x hx)⟩
  rw [C121_depends hok hap]
  obtain ⟨rename, hst⟩ := compile_steps hc ht hsp
  have hser : serialOf p = false ↔ ¬ Spec.Serial p := by
    rw [← serialOf_iff]
    simp
  generalize sources p = ys at hl hst
  generalize sp.steps = ss at hst
  clear hap
  induction hl generalizing ss with
  | nil => cases hst; rfl
  | @cons y x ys l h1 _ ih =>
    cases hst with
    | cons h2 hst =>
      simp only [List.map_cons, List.cons.injEq]
      refine ⟨?_, ih (fun x hx => hok x (by simp [hx])) _ hst⟩
      obtain ⟨k, raw, i, hraw, rfl⟩ := h2
      have hd := (rawStep_common (x := ctxOf E c rnd p) hc hraw).dependsOn
      simp only [setImage]
      rw [hd, depsOf, h1.2]
      have hlen : x.2.len = 0 ↔ y.2.dependsOn = [] := by
        rw [← h1.2, ← contents_length (hok x (by simp)), List.length_eq_zero_iff]
      have hiff : Adds add x ↔ (serialOf p = false ∧ p.clone.disable = false ∧
          (y.1 = .service ∨ (y.1 = .step ∧ y.2.dependsOn = []))) := by
        rw [Adds, hadd, hser, h1.1, hlen, and_assoc]
        cases y.1 <;> simp [kindOf]
      congr 1
      by_cases ha : Adds add x
      · rw [if_pos ha]
        exact (if_pos (hiff.1 ha)).symm
      · rw [if_neg ha]
        exact (if_neg fun e => ha (hiff.2 e)).symm

/-- Two steps; the second depends on the first. -/
def exParallel : Pipeline :=
  { steps := [some { name := "build", image := "golang" },
      some { name := "test", image := "golang", dependsOn := ["build"] }],
    services := [some { name := "cache", image := "redis", dependsOn := ["db"] }] }

/-- Its lists, as they are decoded. -/
def exLists : List (Kind × Slice) :=
  [(.clone, {}), (.service, { arr := 0, len := 1, cap := 1 }), (.step, {}), (.step, { arr := 1, len := 1, cap := 1 })]

/-- C121: the hypotheses can be met. -/
example : (true = true ↔ ¬ Spec.Serial exParallel ∧ exParallel.clone.disable = false) ∧
    Ok [["db"], ["build"]] exLists ∧
    List.Forall₂ (fun y x => x.1 = kindOf y.1 ∧ contents [["db"], ["build"]] x.2 = y.2.dependsOn) (sources exParallel) exLists ∧
    (∀ x ∈ exLists, Apart true [["db"], ["build"]] exLists x.2) ∧
    (depsLoop (fun n => n) true [["db"], ["build"]] exLists).2.map
      (contents (depsLoop (fun n => n) true [["db"], ["build"]] exLists).1) =
      [[], ["db", "clone"], ["clone"], ["build"]] := by
  refine ⟨by simp [Spec.Serial, exParallel], by simp [Ok, exLists, Valid, cells], ?_,
    fun x _ => C121_full (by simp [exLists]) x.2, by decide⟩
  exact .cons ⟨rfl, rfl⟩ (.cons ⟨rfl, rfl⟩ (.cons ⟨rfl, rfl⟩ (.cons ⟨rfl, rfl⟩ .nil)))

/-- C121: why lists must not overlap.  A program hands over the dependencies `deps[:1]` and `deps` of
two services, with `deps` being "db" and "mq".  Compiling changes the pipeline: the second service
no longer waits for "mq". -/
theorem C121_shared :
    let l : List (Kind × Slice) := [(.service, { arr := 0, len := 1, cap := 2 }), (.service, { arr := 0, len := 2, cap := 2 })]
    let r := depsLoop (fun n => n) true [["db", "mq"]] l
    Ok [["db", "mq"]] l ∧
    l.map (depsOf true [["db", "mq"]]) = [["db", "clone"], ["db", "mq", "clone"]] ∧
    r.2.map (contents r.1) = [["db", "clone"], ["db", "clone", "clone"]] ∧
    l.map (fun x => contents r.1 x.2) = [["db"], ["db", "clone"]] :=
  ⟨by simp [Ok, Valid, cells], by decide, by decide, by decide⟩

end Slices
end Drone
