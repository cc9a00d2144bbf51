import Verif.Model.Cond
import Mathlib.Tactic.Common
/-
C18 - C20: conditions, skipping, run policy.
-/
namespace Drone

/-! ### C18 -/

/-- C18: exclusion wins, and inclusion is required only when there are include
patterns; for every pattern matcher. -/
theorem C18_match_iff (g : Glob) (c : Condition) (v : String) :
    c.matches g v = true ↔
      (∀ p ∈ c.excl, g p v = false) ∧ (c.incl = [] ∨ ∃ p ∈ c.incl, g p v = true) := by
  unfold Condition.matches Condition.excludes Condition.includes
  by_cases h1 : ∃ p ∈ c.excl, g p v = true
  · have : c.excl.any (fun p => g p v) = true := by simpa using h1
    simp only [this, if_true, Bool.false_eq_true, false_iff, not_and]
    obtain ⟨p, hp, hg⟩ := h1
    intro h
    rw [h p hp] at hg
    simp at hg
  · have h2 : c.excl.any (fun p => g p v) = false := by simpa using h1
    have h3 : ∀ p ∈ c.excl, g p v = false := by simpa using h1
    simp only [h2, Bool.false_eq_true, if_false]
    by_cases h4 : ∃ p ∈ c.incl, g p v = true
    · have : c.incl.any (fun p => g p v) = true := by simpa using h4
      simp only [this, if_true, true_iff]; exact ⟨h3, Or.inr h4⟩
    · have : c.incl.any (fun p => g p v) = false := by simpa using h4
      simp only [this, Bool.false_eq_true, if_false, List.length_eq_zero_iff, h4, or_false]
      by_cases h5 : c.incl = []
      · simp only [h5, if_true, and_true, true_iff]; exact h3
      · simp [h5]

/-- C18: `Includes` and `Excludes` on their own. -/
theorem C18_includes_excludes (g : Glob) (c : Condition) (v : String) :
    (c.includes g v = true ↔ ∃ p ∈ c.incl, g p v = true) ∧
    (c.excludes g v = true ↔ ∃ p ∈ c.excl, g p v = true) := by
  simp [Condition.includes, Condition.excludes]

example : Condition.matches (fun p v => p == v) { incl := ["a"], excl := ["b"] } "a" = true ∧
    Condition.matches (fun p v => p == v) { incl := ["a"], excl := ["a"] } "a" = false := by decide

/-! ### C19 -/

/-- C19: a step is skipped iff one of the eight conditions fails. -/
theorem C19_skip_iff (g : Glob) (d : SkipData) (c : Container) :
    skipFunc g d c = true ↔
      ∃ p ∈ [(c.cond.branch, d.branch), (c.cond.cron, d.cron), (c.cond.event, d.event),
             (c.cond.inst, d.inst), (c.cond.ref, d.ref), (c.cond.repo, d.repo),
             (c.cond.target, d.target), (c.cond.action, d.action)], p.1.matches g p.2 = false := by
  unfold skipFunc
  simp only [List.mem_cons, List.not_mem_nil, or_false, exists_eq_or_imp, exists_eq_left,
    Bool.not_eq_true']
  split_ifs <;> simp_all

/-- C19: without conditions a step is never skipped. -/
theorem C19_no_conditions (g : Glob) (d : SkipData) (c : Container) (h : c.cond = {}) :
    skipFunc g d c = false := by
  cases hs : skipFunc g d c with
  | false => rfl
  | true =>
    obtain ⟨p, hp, hm⟩ := (C19_skip_iff g d c).1 hs
    rw [h] at hp
    have : p.1.matches g p.2 = true := by
      rw [C18_match_iff]
      simp only [List.mem_cons, List.not_mem_nil, or_false] at hp
      rcases hp with rfl | rfl | rfl | rfl | rfl | rfl | rfl | rfl <;> simp
    rw [hm] at this; simp at this

/-- C19: path, status and matrix conditions, and everything outside `when`,
have no influence. -/
theorem C19_irrelevant (g : Glob) (d : SkipData) (c c' : Container)
    (st pa : Condition) (mx : GoMap String)
    (h : c'.cond = { c.cond with status := st, paths := pa, matrix := mx }) :
    skipFunc g d c' = skipFunc g d c := by
  unfold skipFunc
  rw [h]

example : skipFunc (fun p v => p == v) { branch := "dev" }
    { cond := { branch := { incl := ["master"] } } } = true := by decide

/-! ### C20 -/

/-- Runs after a failure. -/
def RunPolicy.runsOnFailure : RunPolicy → Bool
  | .onFailure | .always => true
  | _ => false

/-- Runs after success. -/
def RunPolicy.runsOnSuccess : RunPolicy → Bool
  | .onSuccess | .always => true
  | _ => false

/-- C20: the two bits of the run policy. -/
theorem C20_run_policy (g : Glob) (c : Container) :
    ((toRunPolicy g c).runsOnFailure = true ↔
      (∀ p ∈ c.cond.status.excl, g p "failure" = false) ∧
      ∃ p ∈ c.cond.status.incl, g p "failure" = true) ∧
    ((toRunPolicy g c).runsOnSuccess = true ↔
      (∀ p ∈ c.cond.status.excl, g p "success" = false) ∧
      (c.cond.status.incl = [] ∨ ∃ p ∈ c.cond.status.incl, g p "success" = true)) := by
  have h1 := C18_match_iff g c.cond.status "failure"
  have h2 := C18_match_iff g c.cond.status "success"
  have h3 : (c.cond.status.matches g "failure" = true ∧ c.cond.status.incl.length > 0) ↔
      (∀ p ∈ c.cond.status.excl, g p "failure" = false) ∧
      ∃ p ∈ c.cond.status.incl, g p "failure" = true := by
    rw [h1]
    constructor
    · rintro ⟨⟨h, h' | h'⟩, hl⟩
      · simp [h'] at hl
      · exact ⟨h, h'⟩
    · rintro ⟨h, p, hp, hg⟩
      exact ⟨⟨h, Or.inr ⟨p, hp, hg⟩⟩, List.length_pos_of_mem hp⟩
  rw [← h2, ← h3]
  unfold toRunPolicy
  cases ha : c.cond.status.matches g "failure" <;>
    cases hb : c.cond.status.matches g "success" <;>
    by_cases hc : c.cond.status.incl.length > 0 <;>
    simp [hc, RunPolicy.runsOnFailure, RunPolicy.runsOnSuccess]

/-- C20: with no status condition a step runs on success only. -/
theorem C20_default (g : Glob) (c : Container) (h : c.cond.status = {}) :
    toRunPolicy g c = .onSuccess := by
  unfold toRunPolicy
  rw [h]
  rfl

example : toRunPolicy (fun p v => p == v) { cond := { status := { incl := ["failure"] } } } = .onFailure ∧
    toRunPolicy (fun p v => p == v) { cond := { status := { excl := ["success"] } } } = .never := by
  decide

end Drone
