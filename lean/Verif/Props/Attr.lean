/-
C86 - C89: failure, pull and resource settings, variables and settings, build and clone variables
of compiled steps, and the transform callback.
-/
import Mathlib.Tactic.IntervalCases
import Verif.Proof.Float64
import Verif.Props.Rename

namespace Drone
open Engine (Step)
open Spec (Role sources IsBuild)

namespace Spec

/-- Equal up to the case of letters; `t` has no upper case letter. -/
def SameFolded (s t : String) : Prop := List.Forall₂ (fun a b => a = b ∨ a = b.toUpper) s.toList t.toList

/-- The same for `strings.ToLower`, which also maps the dotted capital I of Turkish to i and the
Kelvin sign to k. -/
def SameLowered (s t : String) : Prop :=
  List.Forall₂ (fun a b => a = b ∨ a = b.toUpper ∨ (a.toNat = 0x130 ∧ b = 'i') ∨ (a.toNat = 0x212A ∧ b = 'k'))
    s.toList t.toList

instance (s t : String) : Decidable (SameFolded s t) := by unfold SameFolded; infer_instance
instance (s t : String) : Decidable (SameLowered s t) := by unfold SameLowered; infer_instance

/-- No upper case letter. -/
def NoUpper (b : Char) : Prop := ¬ ('A' ≤ b ∧ b ≤ 'Z')

end Spec

open Spec

/-! ### Case folding -/

theorem lower_of_upper {n : Nat} (h1 : 65 ≤ n) (h2 : n ≤ 90) :
    lowerAscii (Char.ofNat n) = Char.ofNat (n + 32) ∧ (Char.ofNat (n + 32)).toUpper = Char.ofNat n := by
  interval_cases n <;> decide

theorem upper_cases (b : Char) : b.toUpper = b ∨ ('a' ≤ b ∧ b ≤ 'z' ∧ ∃ n, 65 ≤ n ∧ n ≤ 90 ∧ b.toUpper = Char.ofNat n ∧
    b = Char.ofNat (n + 32)) := by
  by_cases hl : 'a' ≤ b ∧ b ≤ 'z'
  · have h3 : 97 ≤ b.toNat := hl.1
    have h4 : b.toNat ≤ 122 := hl.2
    obtain ⟨_, f2⟩ := lower_of_upper (n := b.toNat - 32) (by omega) (by omega)
    have e : b.toNat - 32 + 32 = b.toNat := by omega
    rw [e, Char.ofNat_toNat] at f2
    exact .inr ⟨hl.1, hl.2, b.toNat - 32, by omega, by omega, f2, by rw [e, Char.ofNat_toNat]⟩
  · left
    unfold Char.toUpper
    have : ¬ (b.val ≥ 97 ∧ b.val ≤ 122) := fun h => hl ⟨h.1, h.2⟩
    simp [this]

theorem upper_range {n : Nat} (h1 : 65 ≤ n) (h2 : n ≤ 90) : 'A' ≤ Char.ofNat n ∧ Char.ofNat n ≤ 'Z' := by
  interval_cases n <;> decide

theorem lowerAscii_iff {a b : Char} (hb : NoUpper b) : lowerAscii a = b ↔ a = b ∨ a = b.toUpper := by
  by_cases ha : 'A' ≤ a ∧ a ≤ 'Z'
  · have h1 : 65 ≤ a.toNat := ha.1
    have h2 : a.toNat ≤ 90 := ha.2
    obtain ⟨e1, e2⟩ := lower_of_upper h1 h2
    rw [Char.ofNat_toNat] at e1 e2
    constructor
    · rintro rfl; rw [e1]; exact .inr e2.symm
    · rintro (rfl | h)
      · exact absurd ha hb
      · rcases upper_cases b with hu | ⟨_, _, n, g1, g2, g3, g4⟩
        · rw [hu] at h; subst h; exact absurd ha hb
        · rw [h, g3, (lower_of_upper g1 g2).1, ← g4]
  · have : lowerAscii a = a := by unfold lowerAscii; rw [if_neg ha]
    rw [this]
    refine ⟨.inl, ?_⟩
    rintro (h | h)
    · exact h
    · rcases upper_cases b with hu | ⟨_, _, n, g1, g2, g3, _⟩
      · rw [h, hu]
      · rw [h, g3] at ha
        exact absurd (upper_range g1 g2) ha

theorem map_eq_forall {f : Char → Char} {r : Char → Char → Prop} : ∀ {t s : List Char},
    (∀ b ∈ t, ∀ a, f a = b ↔ r a b) → (s.map f = t ↔ List.Forall₂ r s t)
  | [], s, _ => by cases s <;> simp
  | b :: t, [], _ => by simp
  | b :: t, a :: s, h => by
    rw [List.map_cons, List.cons.injEq, List.forall₂_cons, h b (by simp) a,
      map_eq_forall fun b hb => h b (by simp [hb])]

theorem lowerGo_iff {a b : Char} (hb : NoUpper b) (h1 : b.toNat < 128) :
    lowerGo a = b ↔ a = b ∨ a = b.toUpper ∨ (a.toNat = 0x130 ∧ b = 'i') ∨ (a.toNat = 0x212A ∧ b = 'k') := by
  have hlow : ∀ {c : Char}, c.toNat < 128 → ∀ n, 128 ≤ n → c.toNat ≠ n := fun h n hn => by omega
  have hup : b.toUpper.toNat < 128 := by
    rcases upper_cases b with hu | ⟨_, _, n, g1, g2, g3, _⟩
    · rw [hu]; exact h1
    · rw [g3]
      have := (upper_range g1 g2).2
      have : (Char.ofNat n).toNat ≤ 90 := this
      omega
  unfold lowerGo
  by_cases c1 : a = Char.ofNat 0x130
  · subst c1
    rw [if_pos rfl]
    constructor
    · rintro rfl; exact .inr (.inr (.inl ⟨by decide, rfl⟩))
    · rintro (h | h | ⟨_, h⟩ | ⟨h, _⟩)
      · subst h; exact absurd h1 (by decide)
      · rw [← h] at hup; exact absurd hup (by decide)
      · exact h.symm
      · exact absurd h (by decide)
  · rw [if_neg c1]
    by_cases c2 : a = Char.ofNat 0x212A
    · subst c2
      rw [if_pos rfl]
      constructor
      · rintro rfl; exact .inr (.inr (.inr ⟨by decide, rfl⟩))
      · rintro (h | h | ⟨h, _⟩ | ⟨_, h⟩)
        · subst h; exact absurd h1 (by decide)
        · rw [← h] at hup; exact absurd hup (by decide)
        · exact absurd h (by decide)
        · exact h.symm
    · rw [if_neg c2, lowerAscii_iff hb]
      have n1 : a.toNat ≠ 0x130 := fun h => c1 (by rw [← h, Char.ofNat_toNat])
      have n2 : a.toNat ≠ 0x212A := fun h => c2 (by rw [← h, Char.ofNat_toNat])
      simp [n1, n2]

instance (b : Char) : Decidable (NoUpper b) := by unfold NoUpper; infer_instance

theorem folded_iff (s t : String) (ht : ∀ b ∈ t.toList, NoUpper b) : s.toList.map lowerAscii = t.toList ↔ SameFolded s t :=
  map_eq_forall fun b hb _ => lowerAscii_iff (ht b hb)

theorem lowered_iff (s t : String) (ht : ∀ b ∈ t.toList, NoUpper b ∧ b.toNat < 128) :
    s.toList.map lowerGo = t.toList ↔ SameLowered s t :=
  map_eq_forall fun b hb _ => lowerGo_iff (ht b hb).1 (ht b hb).2

/-! ### C86 -/

/-- C86.  A compiled container ignores failures exactly if its source says `failure: ignore`, in any
case of letters. -/
theorem C86_failure {E : Ext} {c : Compiler} (hc : c.Std) (ht : c.transform = none)
    {rnd : Nat → String} {p : Pipeline} {sp : Engine.Spec} (h : compile E c rnd p = some sp) :
    List.Forall₂ (fun y s => s.ignoreErr = true ↔ SameFolded y.2.failure "ignore") (sources p) sp.steps := by
  refine compile_forall hc ht h ?_
  intro rename y s _ hy
  obtain ⟨k, hk⟩ := hy.common hc
  rw [hk.ignoreErr]
  unfold toIgnoreErr
  rw [decide_eq_true_iff]
  exact folded_iff _ _ (by decide)

/-- C86.  The clone step and build steps pull if the image is not there; the others as their source
says, in any case of letters. -/
theorem C86_pull {E : Ext} {c : Compiler} (hc : c.Std) (ht : c.transform = none)
    {rnd : Nat → String} {p : Pipeline} {sp : Engine.Spec} (h : compile E c rnd p = some sp) :
    List.Forall₂ (fun y s =>
      if y.1 = .clone ∨ IsBuild y then s.docker.pullPolicy = .ifNotExists
      else (s.docker.pullPolicy = .always ↔ SameLowered y.2.pull "always") ∧
        (s.docker.pullPolicy = .ifNotExists ↔ SameLowered y.2.pull "if-not-exists") ∧
        (s.docker.pullPolicy = .never ↔ SameLowered y.2.pull "never")) (sources p) sp.steps := by
  refine compile_forall hc ht h ?_
  intro rename y s _ ⟨k, raw, i, hr, hs⟩
  have hpp : s.docker.pullPolicy = raw.docker.pullPolicy := by rw [hs]; rfl
  rw [hpp]
  by_cases hb : IsBuild y
  · rw [if_pos (.inr hb)]
    obtain ⟨role, src⟩ := y
    obtain ⟨h1, h2⟩ := hb
    obtain rfl : role = Role.step := h1
    cases hbb : src.build with
    | none => simp [hbb] at h2
    | some b => rw [(rawStep_build hc hbb hr).docker]
  · have hp := (rawStep_plain hc hb hr).pull
    by_cases hcl : y.1 = .clone
    · rw [if_pos (.inl hcl), hp, if_pos hcl]
    · rw [if_neg (by tauto), hp, if_neg hcl]
      unfold toPullPolicy
      simp only
      rw [← lowered_iff _ "always" (by decide), ← lowered_iff _ "if-not-exists" (by decide),
        ← lowered_iff _ "never" (by decide)]
      generalize y.2.pull.toList.map lowerGo = l
      by_cases h1 : l = "always".toList
      · subst h1; decide
      · by_cases h2 : l = "if-not-exists".toList
        · subst h2; decide
        · by_cases h3 : l = "never".toList
          · subst h3; decide
          · rw [if_neg h1, if_neg h2, if_neg h3]
            exact ⟨iff_of_false (by decide) h1, iff_of_false (by decide) h2, iff_of_false (by decide) h3⟩

namespace Spec

/-- Millicores for a number of cores: the product, rounded to a floating point number, without its
fraction.  Numbers that are not positive are taken as they are. -/
def Millis (cpu : Rat) (m : Int) : Prop :=
  if 0 < cpu then (m : Rat) ≤ F64.round (cpu * 1000) ∧ F64.round (cpu * 1000) < m + 1
  else cpu ≤ m ∧ (m : Rat) < cpu + 1

instance (cpu : Rat) (m : Int) : Decidable (Millis cpu m) := by unfold Millis; infer_instance

/-- Limits or requests. -/
def SameObject : Option ResourceObject → Option Engine.ResourceObject → Prop
  | none, none => True
  | some a, some b => Millis a.cpu b.cpu ∧ b.memory = a.memory
  | _, _ => False

end Spec

theorem tdiv_nonneg {q : Rat} (h : 0 ≤ q) : Int.tdiv q.num q.den = ⌊q⌋ := by
  rw [Int.tdiv_eq_ediv_of_nonneg (Rat.num_nonneg.2 h), ← Rat.floor_def']

theorem tdiv_nonpos {q : Rat} (h : q ≤ 0) : Int.tdiv q.num q.den = ⌈q⌉ := by
  rw [← neg_neg ⌈q⌉, ← Int.floor_neg, ← tdiv_nonneg (q := -q) (by linarith)]
  simp [Int.neg_tdiv]

theorem round_nonneg {q : Rat} (h : 0 < q) : 0 ≤ F64.round q := by
  have hp := F64.pow2_pos (F64.last q)
  unfold F64.round
  refine mul_nonneg ?_ hp.le
  have h1 := F64.nearest_le (q / F64.pow2 (F64.last q))
  have h2 : 0 < q / F64.pow2 (F64.last q) := div_pos h hp
  rw [abs_le] at h1
  have h3 : (-1 : Rat) < F64.nearest (q / F64.pow2 (F64.last q)) := by linarith
  have h4 : (-1 : Int) < F64.nearest (q / F64.pow2 (F64.last q)) := by exact_mod_cast h3
  have : (0 : Int) ≤ F64.nearest (q / F64.pow2 (F64.last q)) := by omega
  exact_mod_cast this

theorem toCPUMillis_spec (f : Rat) : Millis f (toCPUMillis f) := by
  unfold Millis toCPUMillis
  by_cases h : 0 < f
  · rw [if_pos h, if_pos h, tdiv_nonneg (round_nonneg (by linarith))]
    exact ⟨Int.floor_le _, Int.lt_floor_add_one _⟩
  · rw [if_neg h, if_neg h, tdiv_nonpos (by linarith)]
    exact ⟨Int.le_ceil _, Int.ceil_lt_add_one _⟩

theorem toResourceObject_same (o : Option ResourceObject) : SameObject o (toResourceObject o) := by
  cases o with
  | none => trivial
  | some r => exact ⟨toCPUMillis_spec _, rfl⟩

/-- C86.  Limits and requests of a container reach its compiled step: memory as it is, processors in
millicores. -/
theorem C86_resources_partial {E : Ext} {c : Compiler} (hc : c.Std) (ht : c.transform = none)
    {rnd : Nat → String} {p : Pipeline} {sp : Engine.Spec} (h : compile E c rnd p = some sp) :
    List.Forall₂ (fun y s =>
      match y.2.resources, s.resources with
      | none, none => True
      | some a, some b => SameObject a.limits b.limits ∧ SameObject a.requests b.requests
      | _, _ => False) (sources p) sp.steps := by
  refine compile_forall hc ht h ?_
  intro rename y s _ hy
  obtain ⟨k, hk⟩ := hy.common hc
  rw [hk.resources]
  unfold toResources
  cases y.2.resources with
  | none => trivial
  | some r => exact ⟨toResourceObject_same _, toResourceObject_same _⟩

/-- C86.  The millicores differ from the thousandfold by less than one millicore and the error of
floating point numbers. -/
theorem C86_cpu_error {cpu : Rat} {m : Int} (h : Millis cpu m) (hpos : F64.pow2 (-1022) ≤ cpu * 1000) :
    |(m : Rat) - cpu * 1000| < 1 + cpu * 1000 * F64.pow2 (-53) := by
  have h0 : 0 < cpu := by
    have := F64.pow2_pos (-1022)
    linarith
  unfold Millis at h
  rw [if_pos h0] at h
  have := F64.round_error hpos
  rw [abs_le] at this
  rw [abs_lt]
  constructor <;> linarith

/-- C86.  A number of cores that is a multiple of a millicore, given exactly, is kept. -/
theorem C86_cpu_exact {cpu : Rat} {m : Int} (h : Millis cpu m) {k : Int} (hk : cpu * 1000 = k) (h0 : 0 < k)
    (hlt : k < 2 ^ 53) : m = k := by
  have hk0 : (0 : Rat) < k := by exact_mod_cast h0
  have hpos : 0 < cpu := by linarith
  unfold Millis at h
  rw [if_pos hpos, hk, F64.round_exact hk0 (m := k) (e := 0) (by simp [F64.pow2]) hlt (by decide)] at h
  have h1 : m ≤ k := by exact_mod_cast h.1
  have h2 : k < m + 1 := by exact_mod_cast h.2
  omega

/-- C86.  A number of cores with two decimals is not kept: `cpu: 2.01` is 2009 millicores, because
2.01 is no floating point number and the fraction of the product is cut off. -/
theorem C86_cpu_loss : Millis (F64.round (201 / 100)) 2009 ∧ ¬ Millis (F64.round (201 / 100)) 2010 := by
  decide +kernel

/-! ### C87 -/

/-- What a scalar setting is as a variable. -/
inductive Spec.SettingText : Value → String → Prop where
  | str (s : String) : Spec.SettingText (.str s) s
  | yes : Spec.SettingText (.bool true) "true"
  | no : Spec.SettingText (.bool false) "false"
  | int (i : Int) : Spec.SettingText (.int i) (toString i)

theorem encodeValue_text (E : Ext) {v : Value} {t : String} (h : SettingText v t) : encodeValue E v = t := by
  cases h <;> rfl

theorem setAll_of_mem : ∀ {l : GoMap String} {m : GoMap String} {k v : String}, (k, v) ∈ l →
    (∀ v', (k, v') ∈ l → v' = v) → (setAll l m).get? k = some v := by
  intro l
  induction l with
  | nil => intro m k v h; simp at h
  | cons kv l ih =>
    intro m k v h hu
    by_cases hm : (k, v) ∈ l
    · exact ih hm fun v' hv' => hu v' (by simp [hv'])
    · have he : kv = (k, v) := by
        rcases List.mem_cons.1 h with h | h
        · exact h.symm
        · exact absurd h hm
      subst he
      show (setAll l (m.set k v)).get? k = some v
      cases hg : (setAll l (m.set k v)).get? k with
      | none =>
        exfalso
        have : ∀ (l : GoMap String) (m : GoMap String), m.get? k ≠ none → (setAll l m).get? k ≠ none := by
          intro l
          induction l with
          | nil => exact fun m h => h
          | cons kv l ih2 =>
            intro m h
            refine ih2 _ ?_
            rw [GoMap.get?_set]
            split
            · simp
            · exact h
        exact this l _ (by rw [GoMap.get?_set_self]; simp) hg
      | some w =>
        rcases setAll_get_mem hg with h1 | h1
        · rw [hu w (by simp [h1])]
        · rw [GoMap.get?_set_self] at h1
          exact h1.symm

theorem setAll_not_mem {l m : GoMap String} {k : String} (h : ∀ v, (k, v) ∉ l) : (setAll l m).get? k = m.get? k := by
  induction l generalizing m with
  | nil => rfl
  | cons kv l ih =>
    show (setAll l (m.set kv.1 kv.2)).get? k = _
    rw [ih fun v hv => h v (by simp [hv]), GoMap.get?_set, if_neg]
    rintro rfl
    exact h kv.2 (by simp)

/-- Variables that are neither those of the workspace nor those of a Windows script are the ones
collected from the source. -/
theorem plain_envs {E : Ext} {c : Compiler} (hc : c.Std) {rnd : Nat → String} {p : Pipeline} {uid : String}
    {y : Role × Container} {s : Step} (hb : ¬ IsBuild y) (hcl : y.1 ≠ .clone)
    (hr : rawStep (ctxOf E c rnd p) uid y = some s) {k : String} (hw : k ∉ workspaceVars)
    (hs : k ∉ ["CI_SCRIPT", "SHELL"] ∨ p.platform.os ≠ "windows" ∨ y.2.commands = []) :
    s.envs.get? k = (stepEnvs E y.2).1.get? k := by
  rw [(rawStep_plain hc hb hr).envs]
  show (withWorkspace ((if y.1 = .clone then withClone p else id)
        (withScript E p.platform.os y.2 (stepEnvs E y.2).1)) (createWorkspace p)).get? k = _
  rw [if_neg hcl]
  simp only [workspaceVars, List.mem_cons, List.not_mem_nil, or_false, not_or] at hw
  rw [withWorkspace_get]
  simp only [hw, if_false, id]
  unfold withScript
  split
  · rename_i hcond
    rcases hs with hs | hs | hs
    · simp only [List.mem_cons, List.not_mem_nil, or_false, not_or] at hs
      rw [GoMap.get?_set, if_neg hs.2, GoMap.get?_set, if_neg hs.1]
    · exact absurd hcond.2 hs
    · rw [hs] at hcond; exact absurd hcond.1 (by simp)
  · rfl

theorem source_clone {p : Pipeline} {y : Role × Container} (hm : y ∈ sources p) (h : y.1 = .clone) :
    y.2.environment = [] ∧ y.2.settings = [] := by
  rcases mem_sources.mp hm with ⟨_, rfl⟩ | ⟨e, _⟩ | ⟨e, _⟩
  · exact ⟨rfl, rfl⟩
  · rw [h] at e; simp at e
  · rw [h] at e; simp at e

/-- C87.  Every plain variable of a container is set in its compiled step to its value, unless the
compiler or a setting uses the same name. -/
theorem C87_environment {E : Ext} {c : Compiler} (hc : c.Std) (ht : c.transform = none)
    {rnd : Nat → String} {p : Pipeline} {sp : Engine.Spec} (h : compile E c rnd p = some sp) :
    List.Forall₂ (fun y s => ¬ IsBuild y → (y.2.environment.map Prod.fst).Nodup → ∀ k v,
      (k, some v) ∈ y.2.environment → v.secret = "" → k ∉ workspaceVars →
      (k ∉ ["CI_SCRIPT", "SHELL"] ∨ p.platform.os ≠ "windows" ∨ y.2.commands = []) →
      (∀ k' v', (k', some v') ∈ y.2.settings → v'.secret = "" → k ≠ "PLUGIN_" ++ E.upper k') →
      s.envs.get? k = some v.value) (sources p) sp.steps := by
  refine compile_forall hc ht h ?_
  intro rename y s hmem ⟨n, raw, i, hr, hs⟩ hb hn k v hm hsec hw hsc hset
  subst hs
  show raw.envs.get? k = _
  have hcl : y.1 ≠ .clone := by
    intro hcl
    rw [(source_clone hmem hcl).1] at hm
    simp at hm
  rw [plain_envs hc hb hcl hr hw hsc, stepEnvs_eq, setAll_not_mem]
  · refine setAll_of_mem (List.mem_filterMap.2 ⟨_, hm, by simp [hsec]⟩) ?_
    intro v' hv'
    obtain ⟨⟨k0, v0⟩, hm0, he⟩ := List.mem_filterMap.mp hv'
    rw [Option.bind_eq_some_iff] at he
    obtain ⟨w, hw', he⟩ := he
    split at he
    · simp only [Option.some.injEq, Prod.mk.injEq] at he
      obtain ⟨e1, e2⟩ := he
      simp only at hw' e1
      subst hw' e1 e2
      have a1 := GoMap.get?_of_mem hn hm
      have a2 := GoMap.get?_of_mem hn hm0
      rw [a1] at a2
      simp only [Option.some.injEq] at a2
      rw [a2]
    · simp at he
  · intro v' hv'
    obtain ⟨⟨k0, v0⟩, hm0, he⟩ := List.mem_filterMap.mp hv'
    rw [Option.bind_eq_some_iff] at he
    obtain ⟨w, hw', he⟩ := he
    split at he
    · rename_i hsec'
      simp only [Option.some.injEq, Prod.mk.injEq] at he
      simp only at hw'
      subst hw'
      exact hset k0 w hm0 hsec' he.1.symm
    · simp at he

/-- Every setting without secret is set as the variable of its name, with its text. -/
theorem settings_envs {E : Ext} {c : Compiler} (hc : c.Std) (ht : c.transform = none)
    {rnd : Nat → String} {p : Pipeline} {sp : Engine.Spec} (h : compile E c rnd p = some sp) :
    List.Forall₂ (fun y s => ¬ IsBuild y → (y.2.settings.map Prod.fst).Nodup → ∀ k v t,
      (k, some v) ∈ y.2.settings → v.secret = "" → encodeValue E v.value = t →
      (∀ k' v', (k', some v') ∈ y.2.settings → v'.secret = "" → E.upper k' = E.upper k → k' = k) →
      s.envs.get? ("PLUGIN_" ++ E.upper k) = some t) (sources p) sp.steps := by
  refine compile_forall hc ht h ?_
  intro rename y s hmem ⟨n, raw, i, hr, hs⟩ hb hn k v t hm hsec htext hset
  subst hs
  show raw.envs.get? _ = _
  have hcl : y.1 ≠ .clone := by
    intro hcl
    rw [(source_clone hmem hcl).2] at hm
    simp at hm
  have pre : ∀ k', (∀ x : List Char, "PLUGIN_".toList ++ x ≠ k'.toList) → "PLUGIN_" ++ E.upper k ≠ k' := by
    rintro k' h rfl
    exact h (E.upper k).toList (by rw [String.toList_append])
  have hw : "PLUGIN_" ++ E.upper k ∉ workspaceVars := by
    simp only [workspaceVars, List.mem_cons, List.not_mem_nil, or_false, not_or]
    refine ⟨?_, ?_, ?_, ?_, ?_, ?_⟩ <;> exact pre _ (fun x hx => absurd (congrArg List.head? hx) (by change ¬ (some 'P' = _); decide))
  have hsc : "PLUGIN_" ++ E.upper k ∉ ["CI_SCRIPT", "SHELL"] := by
    simp only [List.mem_cons, List.not_mem_nil, or_false, not_or]
    refine ⟨?_, ?_⟩ <;> exact pre _ (fun x hx => absurd (congrArg List.head? hx) (by change ¬ (some 'P' = _); decide))
  rw [plain_envs hc hb hcl hr hw (.inl hsc), stepEnvs_eq]
  refine setAll_of_mem (List.mem_filterMap.2 ⟨_, hm, by simp [hsec, htext]⟩) ?_
  intro v' hv'
  obtain ⟨⟨k0, v0⟩, hm0, he⟩ := List.mem_filterMap.mp hv'
  rw [Option.bind_eq_some_iff] at he
  obtain ⟨w, hw', he⟩ := he
  split at he
  · rename_i hsec'
    simp only [Option.some.injEq, Prod.mk.injEq] at he
    obtain ⟨e1, e2⟩ := he
    simp only at hw'
    subst hw'
    have e1' : E.upper k0 = E.upper k := by
      have := congrArg String.toList e1
      rw [String.toList_append, String.toList_append] at this
      exact String.toList_injective (List.append_cancel_left this)
    obtain rfl := hset k0 w hm0 hsec' e1'
    have a1 := GoMap.get?_of_mem hn hm
    have a2 := GoMap.get?_of_mem hn hm0
    rw [a1] at a2
    simp only [Option.some.injEq] at a2
    subst a2
    rw [← e2]
    exact htext
  · simp at he

/-- C87.  Every plain scalar setting of a container is set in its compiled step as the variable
`PLUGIN_` and the upper case name, with the text of the scalar, unless the compiler or another
setting uses the same name. -/
theorem C87_settings {E : Ext} {c : Compiler} (hc : c.Std) (ht : c.transform = none)
    {rnd : Nat → String} {p : Pipeline} {sp : Engine.Spec} (h : compile E c rnd p = some sp) :
    List.Forall₂ (fun y s => ¬ IsBuild y → (y.2.settings.map Prod.fst).Nodup → ∀ k v t,
      (k, some v) ∈ y.2.settings → v.secret = "" → SettingText v.value t →
      (∀ k' v', (k', some v') ∈ y.2.settings → v'.secret = "" → E.upper k' = E.upper k → k' = k) →
      s.envs.get? ("PLUGIN_" ++ E.upper k) = some t) (sources p) sp.steps := by
  refine (settings_envs hc ht h).imp fun y s hf hb hn k v t hm hsec htext hset => ?_
  exact hf hb hn k v t hm hsec (encodeValue_text E htext) hset

/-! ### C88 -/

/-- A variable that is set if its value is not empty. -/
def Spec.orUnset (v : String) : Option String := if v = "" then none else some v

/-- C88.  The variables of a build step are those of its build section. -/
theorem C88_build {E : Ext} {c : Compiler} (hc : c.Std) (ht : c.transform = none)
    {rnd : Nat → String} {p : Pipeline} {sp : Engine.Spec} (h : compile E c rnd p = some sp) :
    List.Forall₂ (fun y s => y.1 = .step → ∀ b, y.2.build = some b →
      s.envs.get? "DOCKER_BUILD_CONTEXT" = orUnset b.context ∧
      s.envs.get? "DOCKER_BUILD_DOCKERFILE" = orUnset b.dockerfile ∧
      s.envs.get? "DOCKER_BUILD_CACHE_FROM" = (if b.cacheFrom = [] then none else some (",".intercalate b.cacheFrom)) ∧
      s.envs.get? "DOCKER_BUILD_IMAGE" = (if b.image = "" then none else some (Img.expand E.dg b.image)) ∧
      (b.image = "" → s.envs.get? "DOCKER_BUILD_IMAGE_ALIAS" = none)) (sources p) sp.steps := by
  refine compile_forall hc ht h ?_
  intro rename y s hmem ⟨n, raw, i, hr, hs⟩ hrole b hbb
  obtain ⟨role, src⟩ := y
  obtain rfl : role = Role.step := hrole
  subst hs
  show raw.envs.get? _ = _ ∧ raw.envs.get? _ = _ ∧ raw.envs.get? _ = _ ∧ raw.envs.get? _ = _ ∧
    (_ → raw.envs.get? _ = _)
  rw [(rawStep_build hc hbb hr).envs]
  simp only [withWorkspace_get]
  have hnil : ∀ k, GoMap.get? ([] : GoMap String) k = none := fun _ => rfl
  unfold buildEnvs orUnset commaJoin
  obtain ⟨args, cache, context, dockerfile, image, labels⟩ := b
  simp only
  have hl : cache.length > 0 ↔ cache ≠ [] := by cases cache <;> simp
  by_cases h1 : cache = [] <;> by_cases h2 : context = "" <;> by_cases h3 : dockerfile = "" <;>
    by_cases h4 : image = "" <;> simp [h1, h2, h3, h4, hl, GoMap.get?_set, hnil, show (ctxOf E c rnd p).E = E from rfl]

/-- C88.  The clone step gets the depth, if it is positive, and the two variables that switch off
verification, if asked for; these variables are set in the clone step only on such request. -/
theorem C88_clone {E : Ext} {c : Compiler} (hc : c.Std) (ht : c.transform = none)
    {rnd : Nat → String} {p : Pipeline} {sp : Engine.Spec} (h : compile E c rnd p = some sp) :
    List.Forall₂ (fun y s => y.1 = .clone →
      s.envs.get? "PLUGIN_DEPTH" = (if 0 < p.clone.depth then some (toString p.clone.depth) else none) ∧
      s.envs.get? "GIT_SSL_NO_VERIFY" = (if p.clone.skipVerify = true then some "true" else none) ∧
      s.envs.get? "PLUGIN_SKIP_VERIFY" = (if p.clone.skipVerify = true then some "true" else none))
      (sources p) sp.steps := by
  refine compile_forall hc ht h ?_
  intro rename y s hmem ⟨n, raw, i, hr, hs⟩ hrole
  obtain ⟨role, src⟩ := y
  obtain rfl : role = Role.clone := hrole
  have hb : ¬ IsBuild (Role.clone, src) := by rintro ⟨h, _⟩; simp at h
  have he := source_clone hmem rfl
  have hcmd : src.commands = [] := by
    rcases mem_sources.mp hmem with ⟨_, e⟩ | ⟨e, _⟩ | ⟨e, _⟩
    · rw [Prod.mk.injEq] at e; rw [e.2]
    · simp at e
    · simp at e
  subst hs
  show raw.envs.get? _ = _ ∧ raw.envs.get? _ = _ ∧ raw.envs.get? _ = _
  rw [(rawStep_plain hc hb hr).envs]
  have hst : (stepEnvs E src).1 = [] := by
    rw [stepEnvs_eq, he.1, he.2]
    rfl
  show (withWorkspace ((if Role.clone = .clone then withClone p else id)
        (withScript E p.platform.os src (stepEnvs E src).1)) (createWorkspace p)).get? _ = _ ∧
    (withWorkspace ((if Role.clone = .clone then withClone p else id)
        (withScript E p.platform.os src (stepEnvs E src).1)) (createWorkspace p)).get? _ = _ ∧
    (withWorkspace ((if Role.clone = .clone then withClone p else id)
        (withScript E p.platform.os src (stepEnvs E src).1)) (createWorkspace p)).get? _ = _
  rw [if_pos rfl, hst]
  unfold withScript
  rw [if_neg (by rw [hcmd]; simp)]
  simp only [withWorkspace_get]
  have hnil : ∀ k, GoMap.get? ([] : GoMap String) k = none := fun _ => rfl
  unfold withClone setupCloneDepth
  by_cases h1 : p.clone.depth > 0 <;> by_cases h2 : p.clone.skipVerify = true <;>
    simp [h1, h2, GoMap.get?_set, hnil]

/-! ### C89 -/

section
variable (E : Ext) (c : Compiler) (t : Option (Engine.Spec → Engine.Spec)) (rnd : Nat → String) (p : Pipeline)
  (w : WorkspaceDirs) (serial : Bool)

theorem addServices_transform : ∀ (ss : List (Option Container)) (st : St),
    addServices E { c with transform := t } rnd p w serial ss st = addServices E c rnd p w serial ss st
  | [], _ => rfl
  | none :: _, _ => rfl
  | some s :: ss, st => by
    unfold addServices
    exact congrArg _ (funext fun st => addServices_transform ss st)

theorem addSteps_transform : ∀ (ss : List (Option Container)) (st : St) (rn : GoMap String),
    addSteps E { c with transform := t } rnd p w serial ss st rn = addSteps E c rnd p w serial ss st rn
  | [], _, _ => rfl
  | none :: _, _, _ => rfl
  | some s :: ss, st, rn => by
    unfold addSteps
    exact congrArg _ (funext fun x => addSteps_transform ss x.1 x.2)

theorem compileCore_transform : compileCore E { c with transform := t } rnd p = compileCore E c rnd p := by
  unfold compileCore
  simp only [addServices_transform, addSteps_transform]
  rfl
end

/-- C89.  The transform callback is applied last and to the whole specification. -/
theorem C89_transform (E : Ext) (c : Compiler) (rnd : Nat → String) (p : Pipeline) (f : Engine.Spec → Engine.Spec) :
    compile E { c with transform := some f } rnd p = (compile E { c with transform := none } rnd p).map f := by
  unfold compile
  rw [Option.map_map, compileCore_transform E c (some f), compileCore_transform E c none]
  rfl

/-! ### Examples -/

/-- A pipeline with all of these settings. -/
def attrPipeline : Pipeline where
  name := "default"
  clone := { depth := 50, skipVerify := true }
  steps := [
    some { name := "test", image := "golang", failure := "Ignore", pull := "Always",
           resources := some { limits := some { cpu := 3 / 2, memory := 1024 } },
           environment := [("GOOS", some { value := "linux" })],
           settings := [("force", some { value := .bool true }), ("count", some { value := .int 3 })] },
    some { name := "image", build := some { image := "acme/app", context := "src", cacheFrom := ["a", "b"] } }]

example : (compile exExt {} exRnd attrPipeline).map (fun sp => sp.steps.map fun s =>
      (s.ignoreErr, s.docker.pullPolicy, s.resources)) =
    some [(false, .ifNotExists, none), (true, .always, some { limits := some ⟨1500, 1024⟩ }),
      (false, .ifNotExists, none)] := by
  decide +kernel

example : (compile exExt {} exRnd attrPipeline).map (fun sp => sp.steps.map fun s =>
      [s.envs.get? "GOOS", s.envs.get? "PLUGIN_FORCE",
        s.envs.get? "PLUGIN_COUNT", s.envs.get? "PLUGIN_DEPTH", s.envs.get? "DOCKER_BUILD_CACHE_FROM"]) =
    some [[none, none, none, some "50", none], [some "linux", some "true", some "3", none, none],
      [none, none, none, none, some "a,b"]] := by
  decide +kernel

end Drone
