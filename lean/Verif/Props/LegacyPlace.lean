/-
C101: where the pipeline of a converted legacy file runs.
-/
import Verif.Props.Legacy
import Verif.Props.Path

namespace Drone
open Legacy

namespace Spec

/-- The base directory of a legacy file, `/drone` if it names none. -/
def legacyBase (c : Config) : List Char := if c.base = "" then "/drone".toList else c.base.toList

/-- The path of a legacy file below the base, that of the repository if the given one counts as unset. -/
def legacyPath (unset : List String) (c : Config) (repo : String) : List Char :=
  if c.path ∈ unset then repo.toList else c.path.toList

end Spec

theorem toPipeline_workspace {X : LegacyLib} {env : Env} {c : Config} {remote : String} {p : Drone.Pipeline}
    (h : toPipeline X env c remote = some p) :
    p.workspace = toWorkspace X env c remote ∧ p.platform = {} ∧ p.type = if env.kubernetes then "kubernetes" else "" := by
  unfold toPipeline at h
  obtain ⟨steps, h1, h⟩ := Option.bind_eq_some_iff.1 h
  obtain ⟨services, h2, h⟩ := Option.bind_eq_some_iff.1 h
  obtain ⟨volumes, h3, h⟩ := Option.map_eq_some_iff.1 h
  subst h
  exact ⟨rfl, rfl, rfl⟩

/-- C101: the path of a repository is that of its link, after `src` and the host, without a slash at the ends. -/
theorem C101_repository (X : LegacyLib) (link host : String) (a b p : List Char)
    (h : X.url link = some (host, String.ofList (a ++ p ++ b))) (hh : host ≠ "") (ha : a ∈ [[], ['/']]) (hb : b ∈ [[], ['/']])
    (h1 : p.head? ≠ some '/') (h2 : p.getLast? ≠ some '/') :
    toWorkspacePath X link = "src/" ++ host ++ "/" ++ String.ofList p := by
  unfold toWorkspacePath
  rw [h]
  simp only [hh, if_false, String.toList_ofList]
  congr 2
  simp only [List.mem_cons, List.not_mem_nil, or_false] at ha hb
  cases hp : p with
  | nil => rcases ha with rfl | rfl <;> rcases hb with rfl | rfl <;> decide
  | cons x xs =>
    subst hp
    have hx : x ≠ '/' := by simpa using h1
    have e : (if (a ++ x :: xs ++ b).head? = some '/' then (a ++ x :: xs ++ b).drop 1 else a ++ x :: xs ++ b) = x :: xs ++ b := by
      rcases ha with rfl | rfl
      · simp [hx]
      · simp
    rw [e]
    rcases hb with rfl | rfl
    · rw [List.append_nil, if_neg h2]
    · rw [if_pos (by rw [List.getLast?_append]; rfl), List.dropLast_concat]

/-- C101: without a host the path is `src`. -/
theorem C101_no_host (X : LegacyLib) (link : String) (h : X.url link = none ∨ ∃ path, X.url link = some ("", path)) :
    toWorkspacePath X link = "src" := by
  unfold toWorkspacePath
  rcases h with h | ⟨path, h⟩ <;> simp [h]

/-- C101: with a link to the repository the steps run in the path of the file below its base; the
base is `/drone` and the path that of the repository if not given; a path `.` counts as not given. -/
theorem C101_directory (X : LegacyLib) (env : Env) (c : Config) (remote : String) (p : Drone.Pipeline)
    (h : toPipeline X env c remote = some p) (hk : env.kubernetes = false) (hr : remote ≠ "") (cwd : List (List Char)) :
    Spec.resolve cwd (createWorkspace p).full.toList = Spec.resolve cwd (Spec.legacyBase c ++ "/".toList ++
      Spec.legacyPath ["", "."] c (toWorkspacePath X remote)) := by
  obtain ⟨hw, hp, _⟩ := toPipeline_workspace h
  obtain ⟨_, h2, _⟩ := C42_workspace_path p (by rw [hp]; decide)
  rw [h2]
  have e1 : p.workspace.base = if c.base = "" then "/drone" else c.base := by
    rw [hw]; simp [toWorkspace, hk, hr]
  have e2 : p.workspace.path = if c.path ∈ ["", "."] then toWorkspacePath X remote else c.path := by
    rw [hw]
    by_cases hd : c.path = "."
    · simp [toWorkspace, hk, hr, hd]
    · by_cases h0 : c.path = "" <;> simp [toWorkspace, hk, hr, hd, h0]
  have e3 : Spec.workspaceBase p = Spec.legacyBase c := by
    unfold Spec.workspaceBase Spec.legacyBase
    rw [e1]
    split_ifs <;> first | rfl | simp_all
  rw [e3, e2]
  unfold Spec.legacyPath
  split_ifs <;> rfl

/-- C101: without a link, below `/drone/src` if no base is given. -/
theorem C101_no_link (X : LegacyLib) (env : Env) (c : Config) (p : Drone.Pipeline)
    (h : toPipeline X env c "" = some p) (hk : env.kubernetes = false) (cwd : List (List Char)) :
    Spec.resolve cwd (createWorkspace p).full.toList = Spec.resolve cwd
      ((if c.base = "" then "/drone/src".toList else c.base.toList) ++ "/".toList ++ Spec.legacyPath ["."] c "") := by
  obtain ⟨hw, hp, _⟩ := toPipeline_workspace h
  obtain ⟨_, h2, _⟩ := C42_workspace_path p (by rw [hp]; decide)
  rw [h2]
  have e1 : p.workspace.base = c.base := by rw [hw]; simp [toWorkspace, hk]
  have e2 : p.workspace.path = if c.path ∈ ["."] then "" else c.path := by rw [hw]; simp [toWorkspace, hk]
  unfold Spec.workspaceBase Spec.legacyPath
  rw [e1, e2]
  split_ifs <;> rfl

theorem toWorkspace_kubernetes {X : LegacyLib} {env : Env} {c : Config} {remote : String} (hk : env.kubernetes = true) :
    (toWorkspace X env c remote).base = "" ∧ (toWorkspace X env c remote).path =
      String.ofList (Path.clean (Spec.legacyBase c ++ '/' :: Spec.legacyPath [""] c (toWorkspacePath X remote))) := by
  have hj : ∀ a b : String, a ≠ "" → joinPath a b = String.ofList (Path.clean (a.toList ++ '/' :: b.toList)) := by
    intro a b ha
    unfold joinPath Path.join
    rw [if_neg (by simpa using ha)]
  unfold toWorkspace Spec.legacyBase Spec.legacyPath
  by_cases hb : c.base = "" <;> by_cases hp : c.path = ""
  · simp [hk, hb, hp, hj]
  · simp [hk, hb, hp, hj]
  · simp [hk, hb, hp, hj]
  · simp [hk, hb, hp, hj]

/-- C101: converted for Kubernetes, the path alone says where, and that is the same place unless
the path is `.`. -/
theorem C101_kubernetes (X : LegacyLib) (env env' : Env) (c : Config) (remote : String) (p p' : Drone.Pipeline)
    (h : toPipeline X env c remote = some p) (hk : env.kubernetes = true)
    (h' : toPipeline X env' c remote = some p') (hk' : env'.kubernetes = false) (hr : remote ≠ "") (hd : c.path ≠ ".")
    (cwd : List (List Char)) :
    p.type = "kubernetes" ∧ p.workspace.base = "" ∧
      Spec.resolve cwd p.workspace.path.toList = Spec.resolve cwd (createWorkspace p').full.toList := by
  obtain ⟨hw, _, ht⟩ := toPipeline_workspace h
  obtain ⟨e1, e2⟩ := toWorkspace_kubernetes (X := X) (c := c) (remote := remote) hk
  refine ⟨by rw [ht, hk]; rfl, by rw [hw, e1], ?_⟩
  rw [C101_directory X env' c remote p' h' hk' hr, hw, e2, String.toList_ofList, Path.clean_resolve]
  congr 1
  unfold Spec.legacyPath
  simp [hd]

theorem follow_names : ∀ {names dir : List (List Char)}, (∀ n ∈ names, Spec.ProperName n) →
    names.foldl Spec.follow dir = names.reverse ++ dir
  | [], dir, _ => rfl
  | n :: names, dir, h => by
    obtain ⟨h1, h2, h3, _⟩ := h n List.mem_cons_self
    rw [List.foldl_cons, follow_names fun m hm => h m (List.mem_cons_of_mem _ hm)]
    unfold Spec.follow
    rw [if_neg (by rintro (h | h); exacts [h1 h, h2 h]), if_neg h3]
    simp

/-- C101: compiled by this library, such a pipeline does not run there but below `/drone/src`. -/
theorem C101_kubernetes_compiled (X : LegacyLib) (env : Env) (c : Config) (remote : String) (p : Drone.Pipeline)
    (h : toPipeline X env c remote = some p) (hk : env.kubernetes = true) (hb : c.base = "" ∨ c.base.toList.head? = some '/')
    (cwd : List (List Char)) :
    Spec.resolve cwd (createWorkspace p).full.toList =
      Spec.resolve cwd p.workspace.path.toList ++ ["src".toList, "drone".toList] := by
  obtain ⟨hw, hp, _⟩ := toPipeline_workspace h
  obtain ⟨e1, e2⟩ := toWorkspace_kubernetes (X := X) (c := c) (remote := remote) hk
  obtain ⟨_, h2, _⟩ := C42_workspace_path p (by rw [hp]; decide)
  rw [h2]
  have hhead : (Spec.legacyBase c ++ '/' :: Spec.legacyPath [""] c (toWorkspacePath X remote)).head? = some '/' := by
    unfold Spec.legacyBase
    rcases hb with hb | hb
    · rw [if_pos hb]; rfl
    · split_ifs
      · rfl
      · rw [List.head?_append, hb]; rfl
  obtain ⟨k, names, hn, hc, _⟩ := Path.clean_shape (Spec.legacyBase c ++ '/' :: Spec.legacyPath [""] c (toWorkspacePath X remote))
  have hc := hc hhead
  have e3 : p.workspace.path.toList = '/' :: ['/'].intercalate names := by rw [hw, e2, String.toList_ofList, hc]
  have e4 : Spec.workspaceBase p = "/drone/src".toList := by
    unfold Spec.workspaceBase
    rw [hw, e1, if_pos rfl]
  rw [e4, e3]
  have key : ∀ dir, (Img.segs '/' (['/'].intercalate names)).foldl Spec.follow dir = names.reverse ++ dir := by
    intro dir
    by_cases hnil : names = []
    · subst hnil; rfl
    · rw [Path.segs_intercalate hnil fun n hm => (hn n hm).2.2.2, follow_names hn]
  unfold Spec.resolve
  rw [if_pos (by rfl), if_pos (by rfl), ← Path.segs_eq_splitOn, ← Path.segs_eq_splitOn]
  have s1 : Img.segs '/' ('/' :: ['/'].intercalate names) = [] :: Img.segs '/' (['/'].intercalate names) := by
    rw [Img.segs, if_pos rfl]
  have s2 : Img.segs '/' ("/drone/src".toList ++ "/".toList ++ '/' :: ['/'].intercalate names) =
      [] :: "drone".toList :: "src".toList :: [] :: Img.segs '/' (['/'].intercalate names) := by
    have e : "/drone/src".toList ++ "/".toList ++ '/' :: ['/'].intercalate names =
        [] ++ '/' :: ("drone".toList ++ '/' :: ("src".toList ++ '/' :: ([] ++ '/' :: ['/'].intercalate names))) := by
      simp
    rw [e, Img.segs_append (by simp), Img.segs_append (by decide), Img.segs_append (by decide), Img.segs_append (by simp)]
  rw [s1, s2]
  simp only [List.foldl_cons]
  have f1 : ∀ d, Spec.follow d [] = d := fun d => by simp [Spec.follow]
  have f2 : Spec.follow (Spec.follow [] "drone".toList) "src".toList = ["src".toList, "drone".toList] := by decide
  simp only [f1, f2, key, List.append_nil]

/-- The links of the example. -/
def exLinks : LegacyLib :=
  { exLegacy with url := fun s => if s = "https://github.com/octocat/hello/" then some ("github.com", "/octocat/hello/") else none }

/-- The directories of a file without a workspace: with and without Kubernetes, and compiled for Kubernetes. -/
example : ∃ p p', toPipeline exLinks {} { pipeline := [{ name := "build" }] } "https://github.com/octocat/hello/" = some p ∧
    toPipeline exLinks { kubernetes := true } { pipeline := [{ name := "build" }] } "https://github.com/octocat/hello/" = some p' ∧
    (createWorkspace p).full = "/drone/src/github.com/octocat/hello" ∧
    p'.workspace.path = "/drone/src/github.com/octocat/hello" ∧
    (createWorkspace p').full = "/drone/src/drone/src/github.com/octocat/hello" :=
  ⟨_, _, rfl, rfl, by decide +kernel, by decide +kernel, by decide +kernel⟩

example : toWorkspacePath exLinks "https://github.com/octocat/hello/" = "src/github.com/octocat/hello" :=
  C101_repository exLinks _ "github.com" ['/'] ['/'] "octocat/hello".toList rfl (by decide) (by decide) (by decide) (by decide)
    (by decide)

/-- C101: a path `.` is the base in a conversion for Kubernetes and the path of the repository otherwise. -/
theorem C101_dot : ∃ p p', toPipeline exLinks {} { path := ".", pipeline := [{ name := "build" }] } "https://github.com/octocat/hello/" = some p ∧
    toPipeline exLinks { kubernetes := true } { path := ".", pipeline := [{ name := "build" }] } "https://github.com/octocat/hello/" = some p' ∧
    (createWorkspace p).full = "/drone/src/github.com/octocat/hello" ∧ p'.workspace.path = "/drone" :=
  ⟨_, _, rfl, rfl, by decide +kernel, by decide +kernel⟩

end Drone
