/-
C42: the workspace path.
-/
import Verif.Model.Path
import Verif.Proof.Image
import Mathlib.Data.List.Basic
import Mathlib.Tactic.Common

namespace Drone

/-! ### Specification -/

/-- Following one segment of a path from a directory (innermost name first). -/
def Spec.follow (dir : List (List Char)) (seg : List Char) : List (List Char) :=
  if seg = [] ∨ seg = ".".toList then dir
  else if seg = "..".toList then dir.tail
  else seg :: dir

/-- The directory a path denotes, seen from the directory `cwd`. -/
def Spec.resolve (cwd : List (List Char)) (path : List Char) : List (List Char) :=
  (path.splitOn '/').foldl Spec.follow (if path.head? = some '/' then [] else cwd)

/-- A proper name: not empty, no dot or dot-dot, no slash. -/
def Spec.ProperName (n : List Char) : Prop := n ≠ [] ∧ n ≠ ".".toList ∧ n ≠ "..".toList ∧ '/' ∉ n

example : Spec.resolve ["home".toList] "a/../../b//./c".toList = ["c".toList, "b".toList] := by decide

/-! ### Cleaning -/
namespace Path

theorem segs_eq_splitOn (c : Char) (s : Str) : Img.segs c s = s.splitOn c := by
  induction s with
  | nil => rfl
  | cons x xs ih =>
    rw [List.splitOn_cons_eq_if_modifyHead]
    unfold Img.segs
    by_cases h : x = c
    · simp [h, ih]
    · have : (x == c) = false := by simpa using h
      rw [if_neg h, this, ih]
      cases hs : xs.splitOn c with
      | nil => exact absurd hs (List.splitOn_ne_nil _ _)
      | cons a as => simp

theorem joinSegs_eq (l : List Str) : joinSegs l = ['/'].intercalate l := by
  induction l with
  | nil => rfl
  | cons a l ih =>
    cases l with
    | nil => simp [joinSegs, List.intercalate]
    | cons b l =>
      rw [joinSegs, ih]
      · simp [List.intercalate, List.intersperse]
      · simp

/-- Invariant of the cleaning loop: proper names on top of dot-dots. -/
structure Good (rooted : Bool) (out : List Str) : Prop where
  split : ∃ k names, out = names ++ List.replicate k "..".toList ∧
    (∀ n ∈ names, Spec.ProperName n) ∧ (rooted = true → k = 0)

theorem push_good {rooted : Bool} {out : List Str} (h : Good rooted out) {seg : Str} (hs : '/' ∉ seg) :
    Good rooted (push rooted out seg) := by
  obtain ⟨k, names, rfl, hn, hk⟩ := h.split
  unfold push
  by_cases h1 : seg = [] ∨ seg = ['.']
  · rw [if_pos h1]; exact h
  rw [if_neg h1]
  by_cases h2 : seg = ['.', '.']
  · rw [if_pos h2]
    subst h2
    cases names with
    | nil =>
      cases k with
      | zero =>
        cases rooted with
        | true => exact ⟨0, [], rfl, by simp, by simp⟩
        | false => exact ⟨1, [], rfl, by simp, by simp⟩
      | succ k =>
        have hr : rooted = false := by
          cases rooted with
          | true => exact absurd (hk rfl) (by simp)
          | false => rfl
        exact ⟨k + 2, [], by simp [List.replicate_succ], by simp, by simp [hr]⟩
    | cons n names =>
      have := hn n (by simp)
      have hne : ¬ n = ['.', '.'] := this.2.2.1
      simp only [List.cons_append, if_neg hne]
      exact ⟨k, names, rfl, fun m hm => hn m (by simp [hm]), hk⟩
  · rw [if_neg h2]
    refine ⟨k, seg :: names, rfl, ?_, hk⟩
    intro n hm
    rcases List.mem_cons.mp hm with rfl | hm
    · exact ⟨fun e => h1 (.inl e), fun e => h1 (.inr e), h2, hs⟩
    · exact hn n hm

theorem foldl_good {rooted : Bool} : ∀ {segs : List Str} {out : List Str}, (∀ s ∈ segs, '/' ∉ s) →
    Good rooted out → Good rooted (segs.foldl (push rooted) out)
  | [], _, _, h => h
  | s :: ss, out, hs, h => by
    rw [List.foldl_cons]
    exact foldl_good (fun t ht => hs t (by simp [ht])) (push_good h (hs s (by simp)))

theorem not_mem_segs {c : Char} : ∀ {s : Str} {g : Str}, g ∈ Img.segs c s → c ∉ g
  | [], g, h => by simp [Img.segs] at h; simp [h]
  | x :: xs, g, h => by
    unfold Img.segs at h
    by_cases hx : x = c
    · rw [if_pos hx] at h
      rcases List.mem_cons.mp h with rfl | h
      · simp
      · exact not_mem_segs h
    · rw [if_neg hx] at h
      cases hs : Img.segs c xs with
      | nil => exact absurd hs (Img.segs_ne_nil c xs)
      | cons a as =>
        rw [hs] at h
        rcases List.mem_cons.mp h with rfl | h
        · have := not_mem_segs (s := xs) (g := a) (by rw [hs]; simp)
          simp only [List.mem_cons, not_or]
          exact ⟨fun e => hx e.symm, this⟩
        · exact not_mem_segs (s := xs) (by rw [hs]; simp [h])

/-- The shape of a cleaned path. -/
theorem clean_shape (s : Str) : ∃ k names, (∀ n ∈ names, Spec.ProperName n) ∧
    (s.head? = some '/' → clean s = '/' :: ['/'].intercalate names) ∧
    (s.head? ≠ some '/' → clean s =
      if k = 0 ∧ names = [] then ".".toList
      else ['/'].intercalate (List.replicate k "..".toList ++ names)) := by
  by_cases hs : s = []
  · subst hs
    exact ⟨0, [], by simp, by simp, by simp [clean]⟩
  obtain ⟨k, names, he, hn, hk⟩ := (foldl_good (rooted := decide (s.head? = some '/'))
    (segs := Img.segs '/' s) (out := []) (fun t ht => not_mem_segs ht) ⟨0, [], rfl, by simp, by simp⟩).split
  refine ⟨k, names.reverse, fun n hm => hn n (by simpa using hm), ?_, ?_⟩
  · intro hr
    unfold clean
    have hk0 := hk (by simpa using hr)
    subst hk0
    simp only [if_neg hs, hr, decide_true] at he ⊢
    simp [he, joinSegs_eq]
  · intro hr
    unfold clean
    simp only [hr, decide_false] at he
    simp only [if_neg hs, hr, decide_false, he]
    by_cases hz : k = 0 ∧ names.reverse = []
    · obtain ⟨rfl, h2⟩ := hz
      simp only [List.reverse_eq_nil_iff] at h2
      subst h2
      rfl
    · rw [if_neg hz]
      have : ¬ (names ++ List.replicate k "..".toList).reverse = [] := by
        intro h0
        simp at h0
        exact hz ⟨h0.1, by simp [h0.2]⟩
      simp only [Bool.false_eq_true, if_false]
      rw [if_neg this, joinSegs_eq]
      simp

/-! ### Meaning -/

/-- Following the stack of the cleaning loop gives the same directory. -/
theorem push_follow (rooted : Bool) (out : List Str) (seg : Str) (base : List Str)
    (hg : Good rooted out) (hb : rooted = true → base = []) :
    (push rooted out seg).reverse.foldl Spec.follow base =
      Spec.follow (out.reverse.foldl Spec.follow base) seg := by
  unfold push
  by_cases h1 : seg = [] ∨ seg = ['.']
  · rw [if_pos h1]
    have : Spec.follow (out.reverse.foldl Spec.follow base) seg = out.reverse.foldl Spec.follow base := by
      conv => lhs; unfold Spec.follow
      exact if_pos h1
    rw [this]
  rw [if_neg h1]
  by_cases h2 : seg = ['.', '.']
  · rw [if_pos h2]
    subst h2
    have hdd : ∀ d, Spec.follow d ['.', '.'] = d.tail := by intro d; rfl
    rw [hdd]
    cases out with
    | nil =>
      cases rooted with
      | true => simp [hb rfl]
      | false => simp [hdd]
    | cons top rest =>
      simp only
      by_cases ht : top = ['.', '.']
      · rw [if_pos ht]
        simp [hdd]
      · rw [if_neg ht]
        obtain ⟨k, names, he, hn, _⟩ := hg.split
        have hp : Spec.ProperName top := by
          cases names with
          | nil =>
            cases k with
            | zero => simp at he
            | succ k =>
              simp only [List.nil_append, List.replicate_succ, List.cons.injEq] at he
              exact absurd he.1 ht
          | cons n names =>
            simp only [List.cons_append, List.cons.injEq] at he
            rw [he.1]; exact hn n (by simp)
        rw [List.reverse_cons, List.foldl_append]
        show _ = (Spec.follow (rest.reverse.foldl Spec.follow base) top).tail
        unfold Spec.follow
        rw [if_neg (by rintro (h | h); exact hp.1 h; exact hp.2.1 h), if_neg hp.2.2.1]
        rfl
  · rw [if_neg h2, List.reverse_cons, List.foldl_append]
    rfl

theorem foldl_push_follow (rooted : Bool) (base : List Str) (hb : rooted = true → base = []) :
    ∀ (segs out : List Str), (∀ s ∈ segs, '/' ∉ s) → Good rooted out →
    (segs.foldl (push rooted) out).reverse.foldl Spec.follow base =
      segs.foldl Spec.follow (out.reverse.foldl Spec.follow base)
  | [], _, _, _ => rfl
  | s :: ss, out, hs, hg => by
    rw [List.foldl_cons, List.foldl_cons,
      foldl_push_follow rooted base hb ss _ (fun t ht => hs t (by simp [ht])) (push_good hg (hs s (by simp))),
      push_follow rooted out s base hg hb]

theorem segs_intercalate : ∀ {l : List Str}, l ≠ [] → (∀ s ∈ l, '/' ∉ s) →
    Img.segs '/' (['/'].intercalate l) = l
  | [], h, _ => absurd rfl h
  | [a], _, h => by
    have ha := h a (by simp)
    have : Img.segs '/' a = [a] := by
      rw [segs_eq_splitOn]; exact List.splitOn_eq_singleton ha
    simpa [List.intercalate] using this
  | a :: b :: l, _, h => by
    have : ['/'].intercalate (a :: b :: l) = a ++ '/' :: ['/'].intercalate (b :: l) := by
      simp [List.intercalate, List.intersperse]
    rw [this, Img.segs_append (h a (by simp)), segs_intercalate (by simp) (fun s hs => h s (by simp [hs]))]

/-- Cleaning does not change where a path leads. -/
theorem clean_resolve (s cwd) : Spec.resolve cwd (clean s) = Spec.resolve cwd s := by
  by_cases hs : s = []
  · subst hs; rfl
  have hsegs : ∀ t ∈ Img.segs '/' s, '/' ∉ t := fun t ht => not_mem_segs ht
  have hg0 : ∀ r, Good r [] := fun r => ⟨0, [], rfl, by simp, by simp⟩
  unfold Spec.resolve
  by_cases hr : s.head? = some '/'
  · have hm := foldl_push_follow true [] (fun _ => rfl) (Img.segs '/' s) [] hsegs (hg0 true)
    obtain ⟨k, names, he, hn, hk⟩ := (foldl_good (rooted := true) hsegs (hg0 true)).split
    have hk0 := hk rfl
    subst hk0
    simp only [List.replicate_zero, List.append_nil] at he
    have hc : clean s = '/' :: ['/'].intercalate names.reverse := by
      unfold clean
      simp only [if_neg hs, hr, decide_true, he, joinSegs_eq, if_true]
    rw [hc, if_pos hr, if_pos (by rfl), ← segs_eq_splitOn, ← segs_eq_splitOn]
    have : Img.segs '/' ('/' :: ['/'].intercalate names.reverse) = [] :: Img.segs '/' (['/'].intercalate names.reverse) := by
      rw [Img.segs, if_pos rfl]
    rw [this]
    rw [he] at hm
    by_cases hnil : names = []
    · subst hnil
      simp only [List.reverse_nil, List.foldl_nil] at hm
      rw [← hm]
      rfl
    · rw [segs_intercalate (by simpa using hnil) (fun x hx => (hn x (by simpa using hx)).2.2.2)]
      rw [List.foldl_cons]
      simpa [Spec.follow] using hm
  · have hm := foldl_push_follow false cwd (by simp) (Img.segs '/' s) [] hsegs (hg0 false)
    obtain ⟨k, names, he, hn, hk⟩ := (foldl_good (rooted := false) hsegs (hg0 false)).split
    rw [he] at hm
    have hc : clean s = if (names ++ List.replicate k "..".toList).reverse = [] then ['.'] else
        ['/'].intercalate (names ++ List.replicate k "..".toList).reverse := by
      unfold clean
      simp only [if_neg hs, hr, decide_false, he, joinSegs_eq, Bool.false_eq_true, if_false]
    rw [if_neg hr, ← segs_eq_splitOn, ← segs_eq_splitOn, hc]
    generalize hout : (names ++ List.replicate k "..".toList).reverse = out at *
    have hall : ∀ x ∈ out, '/' ∉ x ∧ x ≠ [] := by
      intro x hx
      rw [← hout] at hx
      simp only [List.mem_reverse, List.mem_append, List.mem_replicate] at hx
      rcases hx with hx | ⟨_, rfl⟩
      · exact ⟨(hn x hx).2.2.2, (hn x hx).1⟩
      · decide
    by_cases hnil : out = []
    · rw [if_pos hnil]
      subst hnil
      have hm' : cwd = List.foldl Spec.follow cwd (Img.segs '/' s) := hm
      rw [← hm']
      rfl
    · rw [if_neg hnil]
      have hhead : ¬ (['/'].intercalate out).head? = some '/' := by
        cases out with
        | nil => exact absurd rfl hnil
        | cons a l =>
          obtain ⟨h1, h2⟩ := hall a (by simp)
          cases a with
          | nil => exact absurd rfl h2
          | cons c a =>
            have : (['/'].intercalate ((c :: a) :: l)).head? = some c := by
              cases l <;> simp [List.intercalate, List.intersperse]
            rw [this]
            intro e
            simp only [Option.some.injEq] at e
            subst e
            exact h1 (by simp)
      rw [if_neg hhead, segs_intercalate hnil fun x hx => (hall x hx).1]
      simpa using hm

end Path

/-! ### C42 -/

/-- The base of the workspace; `/drone/src` if not given. -/
def Spec.workspaceBase (p : Pipeline) : List Char :=
  if p.workspace.base = "" then "/drone/src".toList else p.workspace.base.toList

theorem workspace_join (p : Pipeline) :
    Path.join (if p.workspace.base = "" then workspacePath else p.workspace.base).toList
      p.workspace.path.toList =
    Path.clean (Spec.workspaceBase p ++ '/' :: p.workspace.path.toList) := by
  have hne : ¬ (if p.workspace.base = "" then workspacePath else p.workspace.base).toList = [] := by
    split
    · decide
    · rename_i h
      simpa using h
  unfold Path.join
  rw [if_neg hne]
  unfold Spec.workspaceBase workspacePath
  split <;> rfl

theorem workspaceBase_head (p : Pipeline) :
    (Spec.workspaceBase p ++ '/' :: p.workspace.path.toList).head? = (Spec.workspaceBase p).head? := by
  cases h : Spec.workspaceBase p with
  | nil =>
    unfold Spec.workspaceBase at h
    split at h
    · exact absurd h (by decide)
    · rename_i h1
      exact absurd (by simpa using h) h1
  | cons a l => rfl

/-- C42: the full path consists of proper names, preceded by dot-dots only if it is
relative; it is absolute iff the base is; and it leads where the path, followed from the
base, leads. -/
theorem C42_workspace_path (p : Pipeline) (hos : p.platform.os ≠ "windows") :
    (∃ k names, (∀ n ∈ names, Spec.ProperName n) ∧
      ((Spec.workspaceBase p).head? = some '/' →
        (createWorkspace p).full.toList = '/' :: ['/'].intercalate names) ∧
      ((Spec.workspaceBase p).head? ≠ some '/' →
        (createWorkspace p).full.toList = if k = 0 ∧ names = [] then ".".toList
          else ['/'].intercalate (List.replicate k "..".toList ++ names))) ∧
    (∀ cwd, Spec.resolve cwd (createWorkspace p).full.toList =
      Spec.resolve cwd (Spec.workspaceBase p ++ "/".toList ++ p.workspace.path.toList)) ∧
    (createWorkspace p).path = p.workspace.path ∧
    (createWorkspace p).base.toList = Spec.workspaceBase p := by
  have hfull : (createWorkspace p).full.toList =
      Path.clean (Spec.workspaceBase p ++ '/' :: p.workspace.path.toList) := by
    unfold createWorkspace
    simp only [if_neg hos, String.toList_ofList]
    exact workspace_join p
  refine ⟨?_, ?_, ?_, ?_⟩
  · obtain ⟨k, names, h1, h2, h3⟩ := Path.clean_shape (Spec.workspaceBase p ++ '/' :: p.workspace.path.toList)
    rw [workspaceBase_head] at h2 h3
    exact ⟨k, names, h1, fun h => by rw [hfull]; exact h2 h, fun h => by rw [hfull]; exact h3 h⟩
  · intro cwd
    rw [hfull, Path.clean_resolve]
    simp
  · unfold createWorkspace; simp only [if_neg hos]
  · unfold createWorkspace Spec.workspaceBase workspacePath; simp only [if_neg hos]; split <;> rfl

/-- C42: on Windows the base and the full path are the same paths on drive `c:` with
backslashes, and no part of the workspace has a forward slash. -/
theorem C42_windows (p : Pipeline) (hos : p.platform.os = "windows") :
    (createWorkspace p).full.toList = "c:".toList ++
      (createWorkspace { p with platform := {} }).full.toList.map (fun c => if c = '/' then '\\' else c) ∧
    '/' ∉ (createWorkspace p).full.toList ∧ '/' ∉ (createWorkspace p).path.toList ∧
    '/' ∉ (createWorkspace p).base.toList ∧
    "c:".toList <+: (createWorkspace p).full.toList ∧ "c:".toList <+: (createWorkspace p).base.toList := by
  have hmap : ∀ l : List Char, '/' ∉ l.map (fun c => if c = '/' then '\\' else c) := by
    intro l hm
    obtain ⟨c, _, hc⟩ := List.mem_map.mp hm
    split at hc
    · exact absurd hc (by decide)
    · rename_i h; exact h hc
  have hdrive : ∀ s, (toWindowsDrive s).toList = "c:".toList ++ s.toList.map (fun c => if c = '/' then '\\' else c) := by
    intro s
    unfold toWindowsDrive toWindowsPath
    simp [String.toList_append]
  have hno : ∀ s, '/' ∉ (toWindowsDrive s).toList := by
    intro s
    rw [hdrive]
    simp only [List.mem_append, not_or]
    exact ⟨by decide, hmap _⟩
  unfold createWorkspace
  simp only [if_pos hos]
  refine ⟨?_, hno _, ?_, hno _, ?_, ?_⟩
  · rw [hdrive]; rfl
  · unfold toWindowsPath; rw [String.toList_ofList]; exact hmap _
  · rw [hdrive]; exact List.prefix_append _ _
  · rw [hdrive]; exact List.prefix_append _ _

example : createWorkspace { workspace := { base := "/go", path := "src/../x//./y" } } =
    ⟨"/go", "src/../x//./y", "/go/x/y"⟩ := by decide
example : createWorkspace { workspace := { base := "a", path := "../../b" } } =
    ⟨"a", "../../b", "../b"⟩ := by decide
example : createWorkspace { workspace := { path := "src" }, platform := { os := "windows" } } =
    ⟨"c:\\drone\\src", "src", "c:\\drone\\src\\src"⟩ := by decide

end Drone
