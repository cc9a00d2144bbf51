/-
C62: the trigger of a converted legacy file.
-/
import Verif.Props.Legacy
import Verif.Props.Cond

namespace Drone
open Legacy

namespace Spec

/-- A string without the special characters of patterns. -/
def Literal (s : String) : Prop :=
  ∀ c ∈ s.toList, c ≠ '*' ∧ c ≠ '?' ∧ c ≠ '[' ∧ c ≠ ']' ∧ c ≠ '{' ∧ c ≠ '}' ∧ c ≠ '\\'

/-- What is asked of the pattern matcher: `dir/**` matches everything below `dir`, and
`dir/pattern` matches nothing outside `dir`. -/
structure GlobLaws (g : Glob) : Prop where
  below : ∀ dir s, Literal dir → s ≠ "" → g (dir ++ "/**") (dir ++ "/" ++ s) = true
  inside : ∀ dir pat s, Literal dir → g (dir ++ "/" ++ pat) s = true → s = dir ∨ (dir ++ "/").toList <+: s.toList

/-- A trigger fires if every condition that a server can check on the data holds. -/
def Fires (g : Glob) (t : Conditions) (d : SkipData) : Prop :=
  ∀ p ∈ [(t.branch, d.branch), (t.cron, d.cron), (t.event, d.event), (t.inst, d.inst), (t.ref, d.ref),
      (t.repo, d.repo), (t.target, d.target), (t.action, d.action)],
    (∀ x ∈ p.1.excl, g x p.2 = false) ∧ (p.1.incl = [] ∨ ∃ x ∈ p.1.incl, g x p.2 = true)

/-- A legacy container listens to tag events. -/
def Tagged (c : Legacy.Container) : Prop := "tag" ∈ c.constraints.event.incl

end Spec

open Spec

theorem tag_mem_toPromote (l : List String) : "tag" ∈ toPromote l ↔ "tag" ∈ l := by
  unfold toPromote
  simp only [List.mem_map]
  constructor
  · rintro ⟨s, hs, h⟩
    split_ifs at h
    · simp at h
    · rwa [← h]
  · intro h; exact ⟨"tag", h, by decide⟩

theorem toContainer_tag {X : LegacyLib} {c : Legacy.Container} {d : Drone.Container} (h : toContainer X c = some d) :
    "tag" ∈ d.cond.event.incl ↔ Tagged c := by
  unfold toContainer at h
  obtain ⟨_, _, h⟩ := Option.bind_eq_some_iff.1 h
  obtain ⟨_, _, rfl⟩ := Option.map_eq_some_iff.1 h
  exact tag_mem_toPromote _

theorem toSteps_tag {X : LegacyLib} {env : Env} {c : Config} {steps : List Drone.Container}
    (h : toSteps X env c = some steps) :
    (∃ s ∈ steps, "tag" ∈ s.cond.event.incl) ↔ ∃ x ∈ c.clone ++ c.pipeline, Tagged x := by
  have key : ∀ {l : List Legacy.Container} {r : List Drone.Container}, mapAll (toContainer X) l = some r →
      ((∃ s ∈ r, "tag" ∈ s.cond.event.incl) ↔ ∃ x ∈ l, Tagged x) := by
    intro l r h
    have := mapAll_forall₂ h
    clear h
    induction this with
    | nil => simp
    | cons h _ ih => simp only [List.mem_cons, exists_eq_or_imp, ih, toContainer_tag h]
  unfold toSteps at h
  by_cases hc : c.clone = []
  · rw [if_neg (by simp [hc])] at h
    obtain ⟨tail, ht, rfl⟩ := Option.map_eq_some_iff.1 h
    rw [hc, List.nil_append, ← key ht]
    split_ifs
    · simp [cloneStep]
    · rfl
  · rw [if_pos (by simpa using hc)] at h
    exact key h

theorem rename_tag (steps : List Drone.Container) :
    (∃ s ∈ renameLoop [] 0 steps, "tag" ∈ s.cond.event.incl) ↔ ∃ s ∈ steps, "tag" ∈ s.cond.event.incl := by
  have := renameLoop_forall₂ [] 0 steps
  revert this
  generalize renameLoop [] 0 steps = r
  intro h
  induction h with
  | nil => simp
  | cons h _ ih =>
    simp only [List.mem_cons, exists_eq_or_imp, ih]
    rw [h]

/-- The trigger, and nothing but it, in a form independent of the code. -/
theorem trigger_eq {X : LegacyLib} {env : Env} {d : Bytes} {c : Config} {remote : String} {m : Manifest}
    (hm : c.hasMatrix = false) (h : toManifest X env d c remote = some (.ok m)) :
    ∃ p rest, m.resources = Resource.pipeline p :: rest ∧
      (c.branches.incl = [] ∨ c.branches.excl ≠ [] → p.trigger = { branch := c.branches }) ∧
      (c.branches.incl ≠ [] → c.branches.excl = [] → ∃ r : List String, p.trigger = { ref := { incl := r } } ∧
        ∀ x, x ∈ r ↔ x ∈ ["refs/pull/**", "refs/pull-requests/**", "refs/merge-requests/**"] ∨
          (∃ b ∈ c.branches.incl, x = "refs/heads/" ++ b) ∨
          (x = "refs/tags/**" ∧ ∃ y ∈ c.clone ++ c.pipeline, Tagged y)) := by
  obtain ⟨p, hp, hr⟩ := toManifest_plain hm h
  refine ⟨p, _, hr, ?_⟩
  unfold toPipeline at hp
  obtain ⟨steps, hs, hp⟩ := Option.bind_eq_some_iff.1 hp
  obtain ⟨_, _, hp⟩ := Option.bind_eq_some_iff.1 hp
  obtain ⟨_, _, rfl⟩ := Option.map_eq_some_iff.1 hp
  dsimp only
  unfold toTrigger
  constructor
  · intro h
    rw [if_neg]
    rintro ⟨h1, h2⟩
    rcases h with h | h
    · simp [h] at h1
    · exact h (by simpa using h2)
  · intro h1 h2
    rw [if_pos ⟨List.length_pos_iff.2 h1, by simpa using h2⟩]
    refine ⟨_, by rw [h2], fun x => ?_⟩
    rw [← toSteps_tag hs, ← rename_tag]
    simp only [List.mem_append, List.mem_map, sliceContains, List.any_eq_true, decide_eq_true_eq, or_assoc]
    refine or_congr Iff.rfl (or_congr ?_ ?_)
    · exact exists_congr fun b => and_congr_right fun _ => eq_comm
    · by_cases ht : ∃ s ∈ renameLoop [] 0 steps, "tag" ∈ s.cond.event.incl
      · rw [if_pos (by simpa using ht)]; simp [ht]
      · rw [if_neg (by simpa using ht)]; simp [ht]

theorem literal_refs : Literal "refs/pull" ∧ Literal "refs/pull-requests" ∧ Literal "refs/merge-requests" ∧
    Literal "refs/heads" ∧ Literal "refs/tags" := by
  refine ⟨?_, ?_, ?_, ?_, ?_⟩ <;> intro c hc <;> revert c <;> decide

/-- Patterns of one directory do not match refs of another one. -/
theorem Spec.GlobLaws.outside {g : Glob} (hg : GlobLaws g) {dir pat ref : String} (hl : Literal dir)
    (h1 : ref ≠ dir) (h2 : ¬ (dir ++ "/").toList <+: ref.toList) : g (dir ++ "/" ++ pat) ref = false := by
  cases h : g (dir ++ "/" ++ pat) ref with
  | false => rfl
  | true => exact ((hg.inside dir pat ref hl h).elim h1 h2).elim

theorem fires_ref {g : Glob} {r : List String} (hr : r ≠ []) (d : SkipData) :
    Fires g { ref := { incl := r } } d ↔ ∃ x ∈ r, g x d.ref = true := by
  unfold Fires
  simp [hr]

/-- C62, a push to a branch: the trigger fires iff some include pattern matches its ref. -/
theorem C62_push (g : Glob) (hg : GlobLaws g) (X : LegacyLib) (env : Env) (d : Bytes) (c : Config) (remote : String)
    (m : Manifest) (hm : c.hasMatrix = false) (h : toManifest X env d c remote = some (.ok m))
    (hi : c.branches.incl ≠ []) (he : c.branches.excl = []) (e : SkipData) (branch : String)
    (href : e.ref = "refs/heads/" ++ branch) :
    ∃ p rest, m.resources = Resource.pipeline p :: rest ∧
      (Fires g p.trigger e ↔ ∃ b ∈ c.branches.incl, g ("refs/heads/" ++ b) e.ref = true) := by
  obtain ⟨p, rest, hr, _, ht⟩ := trigger_eq hm h
  obtain ⟨r, hp, hx⟩ := ht hi he
  refine ⟨p, rest, hr, ?_⟩
  rw [hp, fires_ref (fun hn => by have := (hx "refs/pull/**").2 (.inl (by decide)); simp [hn] at this)]
  obtain ⟨l1, l2, l3, l4, l5⟩ := literal_refs
  have p1 : g "refs/pull/**" e.ref = false := hg.outside (pat := "**") l1
    (by rw [href]; intro h; have := congrArg String.toList h; simp at this) (by rw [href]; simp)
  have p2 : g "refs/pull-requests/**" e.ref = false := hg.outside (pat := "**") l2
    (by rw [href]; intro h; have := congrArg String.toList h; simp at this) (by rw [href]; simp)
  have p3 : g "refs/merge-requests/**" e.ref = false := hg.outside (pat := "**") l3
    (by rw [href]; intro h; have := congrArg String.toList h; simp at this) (by rw [href]; simp)
  have p5 : g "refs/tags/**" e.ref = false := hg.outside (pat := "**") l5
    (by rw [href]; intro h; have := congrArg String.toList h; simp at this) (by rw [href]; simp)
  constructor
  · rintro ⟨x, hxr, hgx⟩
    rcases (hx x).1 hxr with h | ⟨b, hb, rfl⟩ | ⟨rfl, _⟩
    · simp only [List.mem_cons, List.not_mem_nil, or_false] at h
      rcases h with rfl | rfl | rfl
      · rw [p1] at hgx; simp at hgx
      · rw [p2] at hgx; simp at hgx
      · rw [p3] at hgx; simp at hgx
    · exact ⟨b, hb, hgx⟩
    · rw [p5] at hgx; simp at hgx
  · rintro ⟨b, hb, hgb⟩
    exact ⟨_, (hx _).2 (.inr (.inl ⟨b, hb, rfl⟩)), hgb⟩

/-- C62, a pull request in any of the three forms: the trigger always fires. -/
theorem C62_pull (g : Glob) (hg : GlobLaws g) (X : LegacyLib) (env : Env) (d : Bytes) (c : Config) (remote : String)
    (m : Manifest) (hm : c.hasMatrix = false) (h : toManifest X env d c remote = some (.ok m))
    (hi : c.branches.incl ≠ []) (he : c.branches.excl = []) (e : SkipData) (dir s : String) (hs : s ≠ "")
    (hdir : dir ∈ ["refs/pull", "refs/pull-requests", "refs/merge-requests"]) (href : e.ref = dir ++ "/" ++ s) :
    ∃ p rest, m.resources = Resource.pipeline p :: rest ∧ Fires g p.trigger e := by
  obtain ⟨p, rest, hr, _, ht⟩ := trigger_eq hm h
  obtain ⟨r, hp, hx⟩ := ht hi he
  refine ⟨p, rest, hr, ?_⟩
  rw [hp, fires_ref (fun hn => by have := (hx "refs/pull/**").2 (.inl (by decide)); simp [hn] at this)]
  obtain ⟨l1, l2, l3, l4, l5⟩ := literal_refs
  simp only [List.mem_cons, List.not_mem_nil, or_false] at hdir
  rw [href]
  rcases hdir with rfl | rfl | rfl
  · exact ⟨"refs/pull/**", (hx _).2 (.inl (by decide)), hg.below _ s l1 hs⟩
  · exact ⟨"refs/pull-requests/**", (hx _).2 (.inl (by decide)), hg.below _ s l2 hs⟩
  · exact ⟨"refs/merge-requests/**", (hx _).2 (.inl (by decide)), hg.below _ s l3 hs⟩

/-- C62, a tag: the trigger fires iff some clone or pipeline step listens to tag events. -/
theorem C62_tag (g : Glob) (hg : GlobLaws g) (X : LegacyLib) (env : Env) (d : Bytes) (c : Config) (remote : String)
    (m : Manifest) (hm : c.hasMatrix = false) (h : toManifest X env d c remote = some (.ok m))
    (hi : c.branches.incl ≠ []) (he : c.branches.excl = []) (e : SkipData) (tag : String) (hs : tag ≠ "")
    (href : e.ref = "refs/tags/" ++ tag) :
    ∃ p rest, m.resources = Resource.pipeline p :: rest ∧
      (Fires g p.trigger e ↔ ∃ y ∈ c.clone ++ c.pipeline, "tag" ∈ y.constraints.event.incl) := by
  obtain ⟨p, rest, hr, _, ht⟩ := trigger_eq hm h
  obtain ⟨r, hp, hx⟩ := ht hi he
  refine ⟨p, rest, hr, ?_⟩
  rw [hp, fires_ref (fun hn => by have := (hx "refs/pull/**").2 (.inl (by decide)); simp [hn] at this)]
  obtain ⟨l1, l2, l3, l4, l5⟩ := literal_refs
  have p1 : g "refs/pull/**" e.ref = false := hg.outside (pat := "**") l1
    (by rw [href]; intro h; have := congrArg String.toList h; simp at this) (by rw [href]; simp)
  have p2 : g "refs/pull-requests/**" e.ref = false := hg.outside (pat := "**") l2
    (by rw [href]; intro h; have := congrArg String.toList h; simp at this) (by rw [href]; simp)
  have p3 : g "refs/merge-requests/**" e.ref = false := hg.outside (pat := "**") l3
    (by rw [href]; intro h; have := congrArg String.toList h; simp at this) (by rw [href]; simp)
  constructor
  · rintro ⟨x, hxr, hgx⟩
    rcases (hx x).1 hxr with h | ⟨b, hb, rfl⟩ | ⟨rfl, ht⟩
    · simp only [List.mem_cons, List.not_mem_nil, or_false] at h
      rcases h with rfl | rfl | rfl
      · rw [p1] at hgx; simp at hgx
      · rw [p2] at hgx; simp at hgx
      · rw [p3] at hgx; simp at hgx
    · rw [show "refs/heads/" ++ b = "refs/heads" ++ "/" ++ b from rfl,
        hg.outside (pat := b) l4 (by rw [href]; intro h; have := congrArg String.toList h; simp at this)
          (by rw [href]; simp)] at hgx
      simp at hgx
    · exact ht
  · intro ht
    exact ⟨_, (hx _).2 (.inr (.inr ⟨rfl, ht⟩)), by rw [href]; exact hg.below "refs/tags" tag l5 hs⟩

/-- C62: otherwise the trigger is the branch filter itself. -/
theorem C62_other (X : LegacyLib) (env : Env) (d : Bytes) (c : Config) (remote : String) (m : Manifest)
    (hm : c.hasMatrix = false) (h : toManifest X env d c remote = some (.ok m))
    (hb : c.branches.incl = [] ∨ c.branches.excl ≠ []) :
    ∃ p rest, m.resources = Resource.pipeline p :: rest ∧ p.trigger = { branch := c.branches } := by
  obtain ⟨p, rest, hr, ht, _⟩ := trigger_eq hm h
  exact ⟨p, rest, hr, ht hb⟩

/-! A matcher for the examples: `stem**` matches everything that continues the stem, any other
pattern only itself. -/

/-- The matcher. -/
def exGlob : Glob := fun p s =>
  match p.toList.reverse with
  | '*' :: '*' :: stem => decide (stem.reverse <+: s.toList ∧ stem.reverse ≠ s.toList)
  | _ => p = s

theorem exGlob_laws : GlobLaws exGlob where
  below := by
    intro dir s hl hs
    have hs' : s.toList ≠ [] := fun h => hs (String.toList_injective (by simpa using h))
    simp [exGlob, hs']
  inside := by
    intro dir pat s hl h
    right
    unfold exGlob at h
    split at h
    · rename_i stem hst
      simp only [decide_eq_true_eq] at h
      refine List.IsPrefix.trans ?_ h.1
      have e := congrArg List.reverse hst
      simp only [List.reverse_reverse, List.reverse_cons, List.append_assoc, String.toList_append] at e
      rw [String.toList_append]
      have hp : dir.toList ++ "/".toList <+: stem.reverse ++ (['*'] ++ ['*']) := ⟨pat.toList, by simpa using e⟩
      rcases List.prefix_or_prefix_of_prefix hp (List.prefix_append stem.reverse _) with h1 | ⟨t, ht⟩
      · exact h1
      · rw [← ht, List.prefix_append_right_inj] at hp
        have hlast := congrArg List.getLast? ht
        have : t = [] ∨ t = ['*'] ∨ t = ['*', '*'] := by
          obtain ⟨u, hu⟩ := hp
          match t, hu with
          | [], _ => simp
          | [a], hu => simp at hu; simp [hu.1]
          | [a, b], hu => simp at hu; simp [hu]
          | a :: b :: c :: t, hu => simp at hu
        rcases this with rfl | rfl | rfl
        · exact ⟨[], by simpa using ht.symm⟩
        · simp at hlast
        · simp at hlast
    · simp only [decide_eq_true_eq] at h
      rw [← h]
      exact ⟨pat.toList, by simp⟩

/-- A configuration of the examples: branches `master` and `release/**`, one step for tags. -/
def exBranches : Config where
  branches := { incl := ["master", "release/**"] }
  pipeline := [{ name := "build" }, { name := "publish", constraints := { event := { incl := ["tag"] } } }]

example : (toManifest exLegacy {} [] exBranches "").isSome ∧ exBranches.hasMatrix = false ∧
    exBranches.branches.incl ≠ [] ∧ exBranches.branches.excl = [] := by decide

/-- The trigger fires for a release branch, not for another one. -/
example : (∃ b ∈ exBranches.branches.incl, exGlob ("refs/heads/" ++ b) "refs/heads/release/1.0" = true) ∧
    ¬ ∃ b ∈ exBranches.branches.incl, exGlob ("refs/heads/" ++ b) "refs/heads/develop" = true := by
  decide

end Drone
