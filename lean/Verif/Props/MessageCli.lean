/- C124: what the lint command says. -/
import Verif.Props.Message
import Verif.Props.Cli

namespace Drone
open Spec

/-! ### The lint command -/

theorem lintLoop_error {trusted : Bool} {rs : List Resource} {s : String} :
    Cli.lintLoop trusted rs = some (.error s) ↔ ∃ pre r post, rs = pre ++ r :: post ∧
      (∀ x ∈ pre, lint x trusted = .ok ()) ∧ lint r trusted = .error (.err s) := by
  induction rs with
  | nil => simp [Cli.lintLoop]
  | cons r rs ih =>
    unfold Cli.lintLoop
    cases h : lint r trusted with
    | ok u =>
      simp only [ih]
      constructor
      · rintro ⟨pre, x, post, rfl, h1, h2⟩
        refine ⟨r :: pre, x, post, rfl, ?_, h2⟩
        intro y hy
        rcases List.mem_cons.1 hy with rfl | hy
        · exact h
        · exact h1 y hy
      · rintro ⟨pre, x, post, e, h1, h2⟩
        cases pre with
        | nil => cases e; rw [h] at h2; cases h2
        | cons y pre =>
          cases e
          exact ⟨pre, x, post, rfl, fun z hz => h1 z (by simp [hz]), h2⟩
    | error f =>
      have key : (∃ pre x post, r :: rs = pre ++ x :: post ∧ (∀ y ∈ pre, lint y trusted = .ok ()) ∧
          lint x trusted = .error (.err s)) ↔ f = .err s := by
        constructor
        · rintro ⟨pre, x, post, e, h1, h2⟩
          cases pre with
          | nil => cases e; rw [h] at h2; cases h2; rfl
          | cons y pre =>
            cases e
            have := h1 r (by simp)
            rw [h] at this
            cases this
        · rintro rfl
          exact ⟨[], r, rs, rfl, by simp, h⟩
      rw [key]
      cases f <;> simp

/-- C124.  The lint command speaks of the first resource of the file that has a defect, and says what is
wrong with it. -/
theorem C124_command (X : Cli.CliLib) (fl : Cli.Flags) (name : String) (w : Cli.World) (d : Bytes) (m : Manifest) (s : String)
    (hd : w.files.get? name = some d) (hm : parseReader X.sig.toYamlLib { data := d } = .ok m)
    (h : (Cli.runLint X fl name w).1 = some (.error s)) :
    ∃ pre r post, m.resources = pre ++ r :: post ∧ (∀ x ∈ pre, lint x fl.lintPriv = .ok ()) ∧
      lint r fl.lintPriv = .error (.err s) ∧ ResourceDefect fl.lintPriv r s := by
  have hl : Cli.lintLoop fl.lintPriv m.resources = some (.error s) := by
    unfold Cli.runLint Cli.withFile at h
    simp only [hd, hm, Cli.withResult] at h
    cases hl : Cli.lintLoop fl.lintPriv m.resources with
    | none => rw [hl] at h; simp [Cli.panics] at h
    | some o =>
      rw [hl] at h
      cases o with
      | error e => simpa [Cli.fail] using h
      | ok u => simp at h
  obtain ⟨pre, r, post, h1, h2, h3⟩ := lintLoop_error.1 hl
  exact ⟨pre, r, post, h1, h2, h3, C124_true r _ s h3⟩

/-! ### An example -/

/-- The file of the examples, with a cron job that has no branch. -/
example : Cli.lintLoop false [.pipeline exPipeline, .cron {}, .secret {}] =
    some (.error "yaml: invalid cron branch") := by decide

end Drone
