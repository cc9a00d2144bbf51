import Verif.Props.Exact
import Verif.Proof.Emit
import Verif.Props.ReadBack
/-
The condition on strings in C84, C94–C96, C100, C102, C103 and C111 is exact.
-/
namespace Drone
open Spec Yaml
open Pretty (PrettyLib encode isQuoted)

/-- C84: a string comes back from its printed form exactly if it is `Readable`: printed plain, it has no characters
that YAML does not accept as they are, does not begin with `&` or `!`, is not a lone `-` or `?`, and is not a name of null. -/
theorem C84_string_iff (R : Resolver) (L : PrettyLib) (s : String) :
    (∃ n, ScalarText R (encode L s).toList n ∧ textOf n = some s) ↔ Readable R s := by
  constructor
  · rintro ⟨n, h, ht⟩
    by_cases hq : isQuoted s.toList = true
    · have hw : ¬ WrittenPlain s.toList := fun hw => by
        rw [(C55_plain_iff _).2 hw] at hq
        cases hq
      refine ⟨fun h => absurd h hw, fun h => absurd h hw, ⟨?_, ?_⟩, fun h => absurd h hw⟩
      · rintro rfl
        revert hq
        decide
      · rintro rfl
        revert hq
        decide
    · have hq' : isQuoted s.toList = false := by simpa using hq
      have hp := (C55_plain_iff _).1 hq'
      rw [C55_plain L s hp] at h
      generalize e : s.toList = l at h
      cases h with
      | plain hs =>
        rw [← e] at hs ht
        obtain ⟨h1, h2, h3, h4, h5⟩ := (C68_plain_iff _ hq').1 hs
        refine ⟨fun _ => h1, fun _ => ⟨h2, h3⟩, ⟨?_, ?_⟩, fun _ hn => ?_⟩
        · rintro rfl; exact h4 rfl
        · rintro rfl; exact h5 rfl
        · rw [String.ofList_toList] at ht
          unfold plainNode at ht
          rw [hn] at ht
          cases ht
          exact hq (by decide)
      | quoted hs =>
        exfalso
        rw [e] at hq'
        have : ∀ t, isQuoted ('"' :: t) = true := by
          intro t
          unfold isQuoted
          simp only [List.length_cons, Nat.add_eq_zero_iff, one_ne_zero, and_false, if_false]
          split
          · rfl
          · rename_i h
            simp only [ne_eq, not_not] at h
            rw [h]
            rfl
        rw [this] at hq'
        cases hq'
  · intro h
    exact ⟨strNode R s, strNode_text' L h, strNode_text h⟩

/-- Strings with line breaks, quotes and colons come back, the names of null and `-` do not. -/
example : Readable exResolver "a: \"b\"\n # c" ∧ ¬ Readable exResolver "~" ∧ ¬ Readable exResolver "-" := by
  refine ⟨⟨fun h => absurd ((C55_plain_iff _).2 h) (by decide), fun h => absurd ((C55_plain_iff _).2 h) (by decide), by decide,
    fun h => absurd ((C55_plain_iff _).2 h) (by decide)⟩, fun h => h.notNull ((C55_plain_iff _).1 (by decide)) ((exResolver.null_iff _).2 (by decide)), fun h => h.lone.1 rfl⟩

end Drone
