/-
C106: which files crash the converters.
-/
import Verif.Props.Exact
import Verif.Props.PrettyNil
import Verif.Props.LegacyRun
import Verif.Props.ServiceName
import Verif.Props.Matrix

namespace Drone
open Spec Legacy

/-! ### Specification -/

namespace Spec

/-- A list entry without content. -/
def NullEntry (x : Legacy.Container) : Prop := none ∈ x.volumes ∨ none ∈ x.secrets

/-- What crashes the conversion of a legacy file without a matrix. -/
def CrashesLegacy (c : Legacy.Config) : Prop := ∃ x ∈ c.clone ++ c.pipeline ++ c.services, NullEntry x

/-- What crashes the conversion of a GitLab file: an empty job, or an empty service if there is a
pipeline to put it in. -/
def CrashesGitlab (c : Gitlab.Config) : Prop :=
  (∃ e ∈ c.jobs, e.2 = none) ∨ none ∈ c.services ∧ (c.stages ≠ [] ∨ c.jobs ≠ [])

end Spec

/-! ### Legacy files -/

theorem mapAll_none {α β : Type} {f : α → Option β} {l : List α} : mapAll f l = none ↔ ∃ x ∈ l, f x = none := by
  induction l with
  | nil => simp [mapAll]
  | cons a l ih =>
    unfold mapAll
    cases h : f a with
    | none => simp [h]
    | some b => simp [h, ih]

theorem secretLoop_none {upper : String → String} (l : List (Option SecretRef)) : ∀ envs,
    secretLoop upper envs l = none ↔ none ∈ l := by
  induction l with
  | nil => intro envs; simp [secretLoop]
  | cons o l ih =>
    intro envs
    cases o with
    | none => simp [secretLoop]
    | some s => simp [secretLoop, ih]

theorem toContainer_none (X : LegacyLib) (x : Legacy.Container) : Legacy.toContainer X x = none ↔ NullEntry x := by
  unfold Legacy.toContainer NullEntry
  have h2 : toVolumeMounts x.volumes = none ↔ none ∈ x.volumes := by
    unfold toVolumeMounts
    rw [mapAll_none]
    simp
  cases h : toEnvironment X x with
  | none =>
    have : none ∈ x.secrets := (secretLoop_none _ _).1 h
    simp [this]
  | some env =>
    have : none ∉ x.secrets := fun hc => by
      unfold toEnvironment at h
      rw [(secretLoop_none x.secrets _).2 hc] at h
      cases h
    simp [this, h2]

theorem volumeLoop_none (l : List (Option Legacy.Volume)) : ∀ set to_, volumeLoop set to_ l = none ↔ none ∈ l := by
  induction l with
  | nil => intro set to_; simp [volumeLoop]
  | cons o l ih =>
    intro set to_
    cases o with
    | none => simp [volumeLoop]
    | some s =>
      simp only [volumeLoop]
      split_ifs <;> simp [ih]

theorem volumesLoop_none (l : List Legacy.Container) : ∀ set to_, volumesLoop set to_ l = none → ∃ x ∈ l, none ∈ x.volumes := by
  induction l with
  | nil => intro set to_ h; simp [volumesLoop] at h
  | cons x l ih =>
    intro set to_ h
    unfold volumesLoop at h
    cases hv : volumeLoop set to_ x.volumes with
    | none => exact ⟨x, by simp, (volumeLoop_none _ _ _).1 hv⟩
    | some r =>
      rw [hv, Option.bind_some] at h
      obtain ⟨y, hy, hn⟩ := ih _ _ h
      exact ⟨y, by simp [hy], hn⟩

theorem toPipeline_none (X : LegacyLib) (env : Env) (c : Config) (remote : String) :
    Legacy.toPipeline X env c remote = none ↔ CrashesLegacy c := by
  have hsteps : toSteps X env c = none ↔ ∃ x ∈ c.clone ++ c.pipeline, NullEntry x := by
    unfold toSteps
    by_cases h : c.clone.length ≠ 0
    · rw [if_pos h, mapAll_none]; simp only [toContainer_none]
    · have h0 : c.clone = [] := by simpa using h
      rw [if_neg h]
      rw [Option.map_eq_none_iff, mapAll_none, h0]
      simp only [toContainer_none, List.nil_append]
  unfold Legacy.toPipeline CrashesLegacy
  cases h1 : toSteps X env c with
  | none =>
    obtain ⟨x, hx, hn⟩ := hsteps.1 h1
    simp only [Option.bind_none, true_iff]
    exact ⟨x, List.mem_append_left _ hx, hn⟩
  | some steps =>
    have n1 : ¬ ∃ x ∈ c.clone ++ c.pipeline, NullEntry x := fun h => by rw [hsteps.2 h] at h1; cases h1
    cases h2 : mapAll (Legacy.toContainer X) c.services with
    | none =>
      obtain ⟨x, hx, hn⟩ := mapAll_none.1 h2
      simp only [Option.bind_some, Option.bind_none, true_iff]
      exact ⟨x, List.mem_append_right _ hx, (toContainer_none X x).1 hn⟩
    | some services =>
      have n2 : ¬ ∃ x ∈ c.services, NullEntry x := by
        rintro ⟨x, hx, hn⟩
        have : mapAll (Legacy.toContainer X) c.services = none := mapAll_none.2 ⟨x, hx, (toContainer_none X x).2 hn⟩
        rw [this] at h2
        cases h2
      have n3 : ¬ ∃ x ∈ c.clone ++ c.pipeline ++ c.services, NullEntry x := by
        rintro ⟨x, hx, hn⟩
        rcases List.mem_append.1 hx with hx | hx
        · exact n1 ⟨x, hx, hn⟩
        · exact n2 ⟨x, hx, hn⟩
      simp only [Option.bind_some, Option.map_eq_none_iff, n3, iff_false]
      intro h3
      obtain ⟨x, hx, hn⟩ := volumesLoop_none _ _ _ h3
      refine n3 ⟨x, ?_, .inl hn⟩
      rw [List.append_assoc]
      exact List.mem_append_right _ hx

theorem set_values {α : Type} {P : α → Prop} {m : GoMap α} {k : String} {v : α} (hm : ∀ kv ∈ m, P kv.2) (hv : P v) :
    ∀ kv ∈ m.set k v, P kv.2 := by
  induction m with
  | nil =>
    intro kv hkv
    simp only [GoMap.set, List.mem_singleton] at hkv
    exact hkv ▸ hv
  | cons e m ih =>
    intro kv hkv
    obtain ⟨a, b⟩ := e
    unfold GoMap.set at hkv
    split_ifs at hkv
    · rcases List.mem_cons.1 hkv with rfl | hkv
      · exact hv
      · exact hm kv (by simp [hkv])
    · rcases List.mem_cons.1 hkv with rfl | hkv
      · exact hm _ (by simp)
      · exact ih (fun x hx => hm x (by simp [hx])) kv hkv

theorem foldl_set_values {α β : Type} {P : β → Prop} (f : α → β) (hf : ∀ a, P (f a)) (m : GoMap α) : ∀ a : GoMap β,
    (∀ kv ∈ a, P kv.2) → ∀ kv ∈ m.foldl (fun m kv => m.set kv.1 (f kv.2)) a, P kv.2 := by
  induction m with
  | nil => exact fun _ h => h
  | cons e m ih => exact fun a h => ih _ (set_values h (hf _))

theorem secretLoop_values {upper : String → String} : ∀ {l : List (Option SecretRef)} {e r : GoMap (Option Variable)},
    secretLoop upper e l = some r → (∀ kv ∈ e, kv.2 ≠ none) → ∀ kv ∈ r, kv.2 ≠ none
  | [], e, r, h, hn => by
    simp only [secretLoop, Option.some.injEq] at h
    exact h ▸ hn
  | none :: l, e, r, h, _ => by simp [secretLoop] at h
  | some x :: l, e, r, h, hn => secretLoop_values (l := l) h
    (set_values (P := fun o : Option Variable => o ≠ none) hn (Option.some_ne_none _))

theorem toContainer_noNil {X : LegacyLib} {x : Legacy.Container} {d : Drone.Container}
    (h : Legacy.toContainer X x = some d) :
    NoNilContainer d ∧ d.settings.keys.Nodup ∧ d.environment.keys.Nodup := by
  unfold Legacy.toContainer at h
  obtain ⟨env, he, h⟩ := Option.bind_eq_some_iff.1 h
  obtain ⟨vols, hv, rfl⟩ := Option.map_eq_some_iff.1 h
  refine ⟨⟨?_, ?_, nofun, nofun, ?_⟩, ?_, ?_⟩
  · exact foldl_set_values (P := fun o : Option Parameter => o ≠ none) (fun v : Value => some ({ value := v } : Parameter))
      (fun _ => by simp) _ [] nofun
  · exact secretLoop_values he (foldl_set_values (P := fun o : Option Variable => o ≠ none)
      (fun v : String => some ({ value := v } : Variable)) (fun _ => by simp) _ [] nofun)
  · intro hn
    have := mapAll_forall₂ hv
    obtain ⟨v, _, hv⟩ := forall₂_right this hn
    rw [Option.map_eq_some_iff] at hv
    obtain ⟨_, _, hv⟩ := hv
    cases hv
  · exact foldl_set_nodup (fun v : Value => some ({ value := v } : Parameter)) x.vargs [] (by simp [GoMap.keys])
  · exact secretLoop_nodup he (foldl_set_nodup (fun v : String => some ({ value := v } : Variable)) _ _ (by simp [GoMap.keys]))

theorem renameLoop_entries : ∀ (cs : List Drone.Container) (names : List String) (i : Nat),
    ∀ d ∈ renameLoop names i cs, ∃ e ∈ cs, ∃ n, d = { e with name := n }
  | [], _, _, d, h => by cases h
  | c :: cs, names, i, d, h => by
    unfold renameLoop at h
    rcases List.mem_cons.1 h with rfl | h
    · exact ⟨c, by simp, _, rfl⟩
    · obtain ⟨e, he, n, rfl⟩ := renameLoop_entries cs _ _ d h
      exact ⟨e, by simp [he], n, rfl⟩

theorem toPipeline_noNil {X : LegacyLib} {env : Env} {c : Config} {remote : String} {p : Drone.Pipeline}
    (h : Legacy.toPipeline X env c remote = some p) : NoNilPipeline p ∧ GoMaps p := by
  have hall : ∀ {l : List Legacy.Container} {r : List Drone.Container}, mapAll (Legacy.toContainer X) l = some r →
      ∀ d ∈ r, NoNilContainer d ∧ d.settings.keys.Nodup ∧ d.environment.keys.Nodup := by
    intro l r hr d hd
    obtain ⟨x, _, hx⟩ := forall₂_right (mapAll_forall₂ hr) hd
    exact toContainer_noNil hx
  unfold Legacy.toPipeline at h
  obtain ⟨steps, h1, h⟩ := Option.bind_eq_some_iff.1 h
  obtain ⟨services, h2, h⟩ := Option.bind_eq_some_iff.1 h
  obtain ⟨volumes, h3, rfl⟩ := Option.map_eq_some_iff.1 h
  have hs : ∀ d ∈ steps, NoNilContainer d ∧ d.settings.keys.Nodup ∧ d.environment.keys.Nodup := by
    unfold toSteps at h1
    by_cases hc : c.clone.length ≠ 0
    · rw [if_pos hc] at h1; exact hall h1
    · rw [if_neg hc] at h1
      obtain ⟨r, hr, rfl⟩ := Option.map_eq_some_iff.1 h1
      intro d hd
      by_cases he : env.clone = true
      · rw [if_pos he] at hd
        rcases List.mem_cons.1 hd with rfl | hd
        · exact ⟨⟨nofun, nofun, nofun, nofun, nofun⟩, by simp [cloneStep, GoMap.keys], by simp [cloneStep, GoMap.keys]⟩
        · exact hall hr d hd
      · rw [if_neg he] at hd
        exact hall hr d hd
  have hr : ∀ d ∈ renameLoop [] 0 steps, NoNilContainer d ∧ d.settings.keys.Nodup ∧ d.environment.keys.Nodup := by
    intro d hd
    obtain ⟨e, he, n, rfl⟩ := renameLoop_entries _ _ _ d hd
    obtain ⟨⟨a1, a2, a3, a4, a5⟩, b1, b2⟩ := hs e he
    exact ⟨⟨a1, a2, a3, a4, a5⟩, b1, b2⟩
  have hm : ∀ {l : List Drone.Container} {d}, some d ∈ l.map some → d ∈ l := by
    intro l d hd
    simpa using hd
  refine ⟨⟨fun d hd => (hr d (hm hd)).1, fun d hd => (hall h2 d (hm hd)).1, by simp⟩, fun d hd => ?_⟩
  rcases hd with hd | hd
  · exact (hr d (hm hd)).2
  · exact (hall h2 d (hm hd)).2

/-- C106: a legacy file without a matrix crashes the converter exactly if some list of volumes or
secrets has an entry without content; otherwise it is converted or the error of the decoder is
returned. -/
theorem C106_legacy (X : LegacyLib) (env : Env) (d : Bytes) (remote : String) (c : Config)
    (hd : X.decode (if hasMergeKeys d then X.expand d else d) = .ok c) (hm : c.hasMatrix = false) :
    (Legacy.convert X env d remote = none ↔ CrashesLegacy c) ∧
    (¬ CrashesLegacy c → ∃ text, Legacy.convert X env d remote = some (.ok text)) := by
  have key : ¬ CrashesLegacy c → ∃ text, Legacy.convert X env d remote = some (.ok text) := by
    intro hn
    unfold Legacy.convert
    simp only [hd]
    unfold toManifest
    cases hp : Legacy.toPipeline X env c remote with
    | none => exact absurd ((toPipeline_none X env c remote).1 hp) hn
    | some p =>
      obtain ⟨h1, h2⟩ := toPipeline_noNil hp
      simp only [hm, Bool.false_eq_true, if_false, Option.bind_some, Outcome.andThen]
      cases hpr : Pretty.print X.pretty
          ⟨[p].map Resource.pipeline ++ (toSecrets c).map Resource.secret⟩ with
      | some t => exact ⟨t, by simp⟩
      | none =>
        have hmem : ∀ q, Resource.pipeline q ∈ [p].map Resource.pipeline ++ (toSecrets c).map Resource.secret → q = p := by
          intro q hq
          simpa using hq
        rw [C69_panic _ _ fun q hq => by rw [hmem q hq]; exact h2] at hpr
        obtain ⟨q, hq, hnn⟩ := hpr
        exact absurd (by rw [hmem q hq]; exact h1) hnn
  refine ⟨⟨fun h => ?_, fun h => ?_⟩, key⟩
  · by_contra hn
    obtain ⟨t, ht⟩ := key hn
    rw [h] at ht
    cases ht
  · unfold Legacy.convert
    simp only [hd]
    unfold toManifest
    rw [(toPipeline_none X env c remote).2 h]
    rfl

/-- C106: with a matrix the same entries crash the converter. -/
theorem C106_legacy_matrix (X : LegacyLib) (env : Env) (d : Bytes) (remote : String) (c : Config)
    (hd : X.decode (if hasMergeKeys d then X.expand d else d) = .ok c) (h : CrashesLegacy c) :
    Legacy.convert X env d remote = none := by
  unfold Legacy.convert
  simp only [hd]
  unfold toManifest
  rw [(toPipeline_none X env c remote).2 h]
  rfl

/-! ### A matrix -/

open Matrix in
theorem permLoop_empty (pre post : GoMap (List String)) (k : String) : ∀ n,
    permLoop n (pre ++ (k, []) :: post) = permLoop 0 post := by
  induction pre with
  | nil =>
    intro n
    show permLoop (if wrap64 (n * 0) = 0 then _ else _) post = _
    simp [wrap64]
  | cons e pre ih => exact fun n => ih _

open Matrix in
theorem axisLoop_empty {m : GoMap (List String)} {p : Nat} {k : String} {post : List String} (hk : m.get? k = some []) :
    ∀ (pre : List String) (i decr : Nat) (axis : GoMap String), i + pre.length ≤ 11 →
    axisLoop m p i decr axis (pre ++ k :: post) = none
  | [], i, decr, axis, _ => by
    simp [axisLoop, hk]
  | t :: pre, i, decr, axis, hi => by
    simp only [List.length_cons] at hi
    rw [List.cons_append]
    unfold axisLoop
    dsimp only
    split_ifs with h1 h2 h3
    · rfl
    · rfl
    · unfold limitTags at h3; omega
    · exact axisLoop_empty hk pre _ _ _ (by omega)

/-- C106: a variable without values.  If it is the last one that is visited there is no axis at all,
otherwise the program divides by zero (unless twelve variables come before). -/
theorem C106_axes (pre post : GoMap (List String)) (k : String)
    (hnd : (pre ++ (k, []) :: post).keys.Nodup) (hne : ∀ e ∈ post, e.2 ≠ []) (hlt : size post < 2 ^ 63) :
    (post = [] → Matrix.axes (pre ++ (k, []) :: post) = some []) ∧
    (post ≠ [] → pre.length ≤ 11 → Matrix.axes (pre ++ (k, []) :: post) = none) := by
  refine ⟨?_, fun hp hl => ?_⟩
  · rintro rfl
    unfold Matrix.axes
    rw [permLoop_empty]
    rfl
  · unfold Matrix.axes
    rw [permLoop_empty, Matrix.permLoop_zero post hp hne hlt, Int.toNat_natCast]
    obtain ⟨n, hn⟩ : ∃ n, size post = n + 1 := Nat.exists_eq_succ_of_ne_zero (Nat.pos_iff_ne_zero.1 (Matrix.size_pos hne))
    rw [hn]
    unfold Matrix.axesLoop
    have hk : (pre ++ (k, []) :: post).get? k = some [] := GoMap.get?_of_mem hnd (by simp)
    have : (pre ++ (k, []) :: post).keys = pre.keys ++ k :: post.keys := by simp [GoMap.keys]
    have hx : Matrix.axisLoop (pre ++ (k, []) :: post) 0 0 (n + 1) [] (pre.keys ++ k :: post.keys) = none :=
      axisLoop_empty hk pre.keys 0 _ [] (by simpa [GoMap.keys] using hl)
    rw [this]
    show Option.bind (Matrix.axisLoop (pre ++ (k, []) :: post) 0 0 (n + 1) [] (pre.keys ++ k :: post.keys)) _ = none
    rw [hx]
    rfl

/-- C106: a matrix of at most twelve variables (short of an overflow) crashes the converter exactly if
a variable has no values and the variable that is visited last has some. -/
theorem C106_axes_iff (m : GoMap (List String)) (hm : m ≠ []) (hnd : m.keys.Nodup) (hl : m.length ≤ 12)
    (hlt : size (m.filter fun e => e.2 ≠ []) < 2 ^ 63) :
    Matrix.axes m = none ↔ (∃ e ∈ m, e.2 = []) ∧ ∀ e, m.getLast? = some e → e.2 ≠ [] := by
  by_cases he : ∃ e ∈ m, e.2 = []
  · -- the last variable without values
    obtain ⟨pre, k, post, rfl, hpost⟩ : ∃ pre k post, m = pre ++ (k, []) :: post ∧ ∀ e ∈ post, e.2 ≠ [] := by
      clear hm hnd hl hlt
      induction m with
      | nil => obtain ⟨e, h, _⟩ := he; cases h
      | cons a m ih =>
        by_cases h : ∃ e ∈ m, e.2 = []
        · obtain ⟨pre, k, post, rfl, hp⟩ := ih h
          exact ⟨a :: pre, k, post, rfl, hp⟩
        · obtain ⟨e, h1, h2⟩ := he
          rcases List.mem_cons.1 h1 with rfl | h1
          · exact ⟨[], e.1, m, by rw [← h2]; rfl, fun x hx hn => h ⟨x, hx, hn⟩⟩
          · exact absurd ⟨e, h1, h2⟩ h
    have hsize : size post < 2 ^ 63 := by
      have hf : post.filter (fun e => e.2 ≠ []) = post := List.filter_eq_self.2 fun e h => by simpa using hpost e h
      have hmul : ∀ a b : GoMap (List String), size (a ++ b) = size a * size b := by
        intro a b
        induction a with
        | nil => simp [size]
        | cons e a ih =>
          obtain ⟨x, vs⟩ := e
          show vs.length * size (a ++ b) = vs.length * size a * size b
          rw [ih, Nat.mul_assoc]
      rw [List.filter_append, List.filter_cons_of_neg (by simp), hf, hmul] at hlt
      have hpos : 0 < size (pre.filter fun e => e.2 ≠ []) := Matrix.size_pos (fun e h => by simpa using (List.mem_filter.1 h).2)
      exact Nat.lt_of_le_of_lt (Nat.le_mul_of_pos_left _ hpos) hlt
    obtain ⟨h1, h2⟩ := C106_axes pre post k hnd hpost hsize
    by_cases hp : post = []
    · rw [h1 hp]
      subst hp
      simp
    · rw [h2 hp (by simp at hl; have := List.length_pos_iff.2 hp; omega)]
      simp only [true_iff]
      refine ⟨he, fun e h => hpost e ?_⟩
      rw [List.getLast?_append, List.getLast?_cons] at h
      obtain ⟨x, hx⟩ : ∃ x, post.getLast? = some x := by
        cases hq : post.getLast? with
        | none => exact absurd (List.getLast?_eq_none_iff.1 hq) hp
        | some x => exact ⟨x, rfl⟩
      rw [hx] at h
      simp only [Option.getD_some, Option.some_or, Option.some.injEq] at h
      subst h
      exact List.mem_of_getLast? hx
  · have hne : ∀ e ∈ m, e.2 ≠ [] := fun e h hn => he ⟨e, h, hn⟩
    have hf : m.filter (fun e => e.2 ≠ []) = m := List.filter_eq_self.2 fun e h => by simpa using hne e h
    rw [hf] at hlt
    rw [C59_cut m hm hnd hne hlt]
    simp [he]

/-- C106: with a matrix the conversion crashes if a list entry has no content, if the matrix cannot be
multiplied out, or if the pipeline read back for some axis has an entry without content; otherwise
not. -/
theorem C106_matrix (X : LegacyLib) (env : Env) (d : Bytes) (remote : String) (c : Config)
    (hd : X.decode (if hasMergeKeys d then X.expand d else d) = .ok c) (hm : c.hasMatrix = true)
    (hg : ∀ p axes ps, Legacy.toPipeline X env c remote = some p →
      parseMatrix X (if hasMergeKeys d then X.expand d else d) = some (.ok axes) →
      axisPipelines X p 0 axes = .ok ps → ∀ q ∈ ps, GoMaps q) :
    Legacy.convert X env d remote = none ↔
      CrashesLegacy c ∨ parseMatrix X (if hasMergeKeys d then X.expand d else d) = none ∨
      ∃ p axes ps, Legacy.toPipeline X env c remote = some p ∧
        parseMatrix X (if hasMergeKeys d then X.expand d else d) = some (.ok axes) ∧
        axisPipelines X p 0 axes = .ok ps ∧ ∃ q ∈ ps, ¬ NoNilPipeline q := by
  rw [← toPipeline_none X env c remote]
  unfold Legacy.convert
  simp only [hd]
  unfold toManifest
  cases hp : Legacy.toPipeline X env c remote with
  | none => simp [Outcome.andThen]
  | some p =>
    simp only [Option.bind_some, hm, if_true, reduceCtorEq, false_or, Option.some.injEq, exists_eq_left']
    cases ha : parseMatrix X (if hasMergeKeys d then X.expand d else d) with
    | none => simp [Outcome.andThen]
    | some r =>
      cases r with
      | error e => simp [Outcome.andThen]
      | ok axes =>
        simp only [Outcome.andThen, Option.bind_some, reduceCtorEq, false_or, Option.some.injEq, Except.ok.injEq, exists_eq_left']
        cases hq : axisPipelines X p 0 axes with
        | error e => simp [hq]
        | ok ps =>
          simp only [Option.bind_some, Option.map_eq_none_iff, hq, Except.ok.injEq, exists_eq_left']
          have hmem : ∀ q, Resource.pipeline q ∈ ps.map Resource.pipeline ++ (toSecrets c).map Resource.secret ↔ q ∈ ps := by
            intro q
            simp
          rw [C69_panic _ _ fun q h => hg p axes ps hp ha hq q ((hmem q).1 h)]
          simp only [hmem]
          constructor
          · exact fun h => ⟨p, axes, ps, rfl, rfl, hq, h⟩
          · rintro ⟨_, _, ps', rfl, rfl, hq', h⟩
            rw [hq] at hq'
            cases hq'
            exact h

/-- Two variables, one of them without values: the crash depends on the order in which the map is
visited. -/
example : Matrix.axes [("GO", []), ("OS", ["linux"])] = none ∧ Matrix.axes [("OS", ["linux"]), ("GO", [])] ≠ none := by
  constructor
  · rw [C106_axes_iff _ (by decide) (by decide) (by decide) (by decide)]
    simp
  · rw [Ne, C106_axes_iff _ (by decide) (by decide) (by decide) (by decide)]
    simp

/-! ### GitLab and Bitbucket files -/

theorem simple_noPanic (L : Pretty.PrettyLib) {ps : List Pipeline}
    (h : ∀ p ∈ ps, p.volumes = [] ∧ ∀ o ∈ p.steps ++ p.services, ∃ d, o = some d ∧ d.settings = [] ∧ d.environment = [] ∧
      d.devices = [] ∧ d.ports = [] ∧ d.volumes = []) :
    ∃ t, Pretty.print L ⟨ps.map .pipeline⟩ = some t := by
  cases hp : Pretty.print L ⟨ps.map .pipeline⟩ with
  | some t => exact ⟨t, rfl⟩
  | none =>
    have hmem : ∀ q, Resource.pipeline q ∈ ps.map Resource.pipeline → q ∈ ps := by
      intro q hq
      simpa using hq
    have hc : ∀ q ∈ ps, ∀ d, some d ∈ q.steps ∨ some d ∈ q.services → d.settings = [] ∧ d.environment = [] ∧
        d.devices = [] ∧ d.ports = [] ∧ d.volumes = [] := by
      intro q hq d hd
      obtain ⟨e, he, h2⟩ := (h q hq).2 (some d) (List.mem_append.2 hd)
      cases he
      exact h2
    rw [C69_panic] at hp
    · obtain ⟨q, hq, hn⟩ := hp
      have hq := hmem q hq
      exfalso
      apply hn
      have hcont : ∀ d : Container, d.settings = [] ∧ d.environment = [] ∧ d.devices = [] ∧ d.ports = [] ∧ d.volumes = [] →
          NoNilContainer d := by
        rintro d ⟨e1, e2, e3, e4, e5⟩
        exact ⟨by rw [e1]; nofun, by rw [e2]; nofun, by rw [e3]; nofun, by rw [e4]; nofun, by rw [e5]; nofun⟩
      exact ⟨fun d hd => hcont d (hc q hq d (.inl hd)), fun d hd => hcont d (hc q hq d (.inr hd)),
        by rw [(h q hq).1]; nofun⟩
    · intro q hq d hd
      obtain ⟨e1, e2, _⟩ := hc q (hmem q hq) d hd
      rw [e1, e2]
      exact ⟨.nil, .nil⟩

theorem gitlab_none (dg : Img.DigestLib) (it : Orders (Option Gitlab.Job)) (c : Gitlab.Config) :
    Gitlab.toPipelines dg it c = none ↔ CrashesGitlab c := by
  unfold CrashesGitlab
  by_cases hs : c.stages = []
  · by_cases hj : ∃ e ∈ c.jobs, e.2 = none
    · have : c.jobs.any (fun kv => kv.2.isNone) = true := by
        obtain ⟨e, he, hn⟩ := hj
        exact List.any_eq_true.2 ⟨e, he, by simp [hn]⟩
      unfold Gitlab.toPipelines Gitlab.withStages
      rw [if_pos (by simp [hs]), if_pos this]
      simp [hj]
    · have hn : ¬ c.jobs.any (fun kv => kv.2.isNone) = true := by
        intro h
        obtain ⟨e, he, h⟩ := List.any_eq_true.1 h
        exact hj ⟨e, he, by simpa using h⟩
      by_cases hjs : c.jobs = []
      · have ho : it.order 0 c.jobs = [] := by
          have := it.perm 0 c.jobs
          rw [hjs] at this
          rw [hjs]
          exact List.perm_nil.1 this
        have hr : ¬ ((∃ e ∈ c.jobs, e.2 = none) ∨ none ∈ c.services ∧ (c.stages ≠ [] ∨ c.jobs ≠ [])) := by
          rintro (h | ⟨-, h | h⟩)
          · exact hj h
          · exact h hs
          · exact h hjs
        unfold Gitlab.toPipelines Gitlab.withStages
        rw [if_pos (by simp [hs]), if_neg hn, Option.bind_some]
        simp only [ho, GoMap.keys, List.map_nil, Gitlab.stageLoop, reduceCtorEq, hr]
      · -- the same as with the jobs as stages
        let c' : Gitlab.Config := { c with
          stages := (it.order 0 c.jobs).keys
          jobs := c.jobs.map fun kv => (kv.1, kv.2.map fun j => { j with stage := kv.1 }) }
        have hne : c'.stages ≠ [] := by
          intro e
          have h0 : it.order 0 c.jobs = [] := List.map_eq_nil_iff.1 e
          have := it.perm 0 c.jobs
          rw [h0] at this
          exact hjs (List.nil_perm.1 this)
        have heq : Gitlab.toPipelines dg it c = Gitlab.toPipelines dg it c' := by
          unfold Gitlab.toPipelines
          rw [Gitlab.withStages_stages hne]
          unfold Gitlab.withStages
          rw [if_pos (by simp [hs]), if_neg hn]
        rw [heq, C63_panic dg it c' hne]
        have hj' : ¬ ∃ e ∈ c'.jobs, e.2 = none := by
          rintro ⟨e, he, h⟩
          obtain ⟨x, hx, rfl⟩ := List.mem_map.1 he
          exact hj ⟨x, hx, by simpa using h⟩
        simp only [hj', hj, false_or, hs, ne_eq, not_true_eq_false, hjs, not_false_eq_true, and_true, or_true]
        exact Iff.rfl
  · rw [C63_panic dg it c hs]
    simp [hs]

/-- C106: which GitLab files crash the converter. -/
theorem C106_gitlab (L : Pretty.PrettyLib) (dg : Img.DigestLib) (it : Orders (Option Gitlab.Job))
    (decode : Bytes → Except String Gitlab.Config) (d : Bytes) (c : Gitlab.Config) (hd : decode d = .ok c)
    (hk : c.jobs.keys.Nodup) :
    (Gitlab.convert L dg it decode d = none ↔ CrashesGitlab c) ∧
    (¬ CrashesGitlab c → ∃ text, Gitlab.convert L dg it decode d = some (.ok text)) := by
  have key : ¬ CrashesGitlab c → ∃ text, Gitlab.convert L dg it decode d = some (.ok text) := by
    intro hn
    unfold Gitlab.convert
    simp only [hd]
    cases hp : Gitlab.toPipelines dg it c with
    | none => exact absurd ((gitlab_none dg it c).1 hp) hn
    | some ps =>
      obtain ⟨t, ht⟩ := simple_noPanic L (ps := ps) (by
        intro p hm
        obtain ⟨l, services, deps, _, _, _, hs, hpe⟩ := gitlab_pipeline hp hk hm
        rw [hpe]
        refine ⟨rfl, fun o ho => ?_⟩
        rcases List.mem_append.1 ho with ho | ho
        · obtain ⟨x, _, rfl⟩ := List.mem_map.1 ho
          exact ⟨_, rfl, rfl, rfl, rfl, rfl, rfl⟩
        · obtain ⟨d, hd, rfl⟩ := List.mem_map.1 ho
          obtain ⟨i, _, hi⟩ := forall₂_right (mapAll_forall₂ hs) hd
          unfold Gitlab.toService at hi
          obtain ⟨i, rfl, rfl⟩ := Option.map_eq_some_iff.1 hi
          exact ⟨_, rfl, rfl, rfl, rfl, rfl, rfl⟩)
      exact ⟨t, by simp [ht]⟩
  refine ⟨⟨fun h => ?_, fun h => ?_⟩, key⟩
  · by_contra hn
    obtain ⟨t, ht⟩ := key hn
    rw [h] at ht
    cases ht
  · unfold Gitlab.convert
    simp only [hd]
    rw [(gitlab_none dg it c).2 h]
    rfl

/-- C106: which Bitbucket files crash the converter: those with an entry without a step in the chosen
pipeline, or with a service without content. -/
theorem C106_bitbucket (L : Pretty.PrettyLib) (g : Glob) (it : Orders (List (Option Bitbucket.Step)))
    (its : Orders (Option Bitbucket.Step)) (decode : Bytes → Except String Bitbucket.Config) (d : Bytes) (ref : String)
    (c : Bitbucket.Config) (hd : decode d = .ok c) :
    (Bitbucket.convert L g it its decode d ref = none ↔
      none ∈ c.pipeline g it ref ∨ ∃ k, (k, none) ∈ c.services) ∧
    (¬ (none ∈ c.pipeline g it ref ∨ ∃ k, (k, none) ∈ c.services) →
      ∃ text, Bitbucket.convert L g it its decode d ref = some (.ok text)) := by
  have key : ¬ (none ∈ c.pipeline g it ref ∨ ∃ k, (k, none) ∈ c.services) →
      ∃ text, Bitbucket.convert L g it its decode d ref = some (.ok text) := by
    intro hn
    unfold Bitbucket.convert
    simp only [hd]
    cases hp : Bitbucket.toPipeline g it its c ref with
    | none => exact absurd ((C83_panics_iff g it its c ref).1 hp) hn
    | some p =>
      obtain ⟨t, ht⟩ := simple_noPanic L (ps := [p]) (by
        intro q hq
        simp only [List.mem_singleton] at hq
        subst hq
        unfold Bitbucket.toPipeline at hp
        obtain ⟨steps, h1, hp⟩ := Option.bind_eq_some_iff.1 hp
        obtain ⟨services, h2, rfl⟩ := Option.map_eq_some_iff.1 hp
        refine ⟨rfl, fun o ho => ?_⟩
        rcases List.mem_append.1 ho with ho | ho
        · obtain ⟨d, hd, rfl⟩ := List.mem_map.1 ho
          have key : ∀ (l : List (Option Bitbucket.Step)) (i : Nat) (r : List Container), Bitbucket.stepLoop c.image i l = some r →
              ∀ d ∈ r, d.settings = [] ∧ d.environment = [] ∧ d.devices = [] ∧ d.ports = [] ∧ d.volumes = [] := by
            intro l
            induction l with
            | nil =>
              intro i r h d hd
              simp only [Bitbucket.stepLoop, Option.some.injEq] at h
              subst h
              cases hd
            | cons o l ih =>
              intro i r h d hd
              unfold Bitbucket.stepLoop at h
              obtain ⟨x, hx, h⟩ := Option.bind_eq_some_iff.1 h
              obtain ⟨r', hr', rfl⟩ := Option.map_eq_some_iff.1 h
              rcases List.mem_cons.1 hd with rfl | hd
              · unfold Bitbucket.toContainer at hx
                obtain ⟨s, _, rfl⟩ := Option.map_eq_some_iff.1 hx
                exact ⟨rfl, rfl, rfl, rfl, rfl⟩
              · exact ih _ _ hr' d hd
          exact ⟨d, rfl, key _ _ _ h1 d hd⟩
        · obtain ⟨d, hd, rfl⟩ := List.mem_map.1 ho
          obtain ⟨kv, _, hi⟩ := forall₂_right (mapAll_forall₂ h2) hd
          obtain ⟨x, hx, rfl⟩ := Option.map_eq_some_iff.1 hi
          unfold Bitbucket.toContainer at hx
          obtain ⟨s, _, rfl⟩ := Option.map_eq_some_iff.1 hx
          exact ⟨_, rfl, rfl, rfl, rfl, rfl, rfl⟩)
      refine ⟨t, ?_⟩
      have ht' : Pretty.print L ⟨[.pipeline p]⟩ = some t := ht
      simp [ht']
  refine ⟨⟨fun h => ?_, fun h => ?_⟩, key⟩
  · by_contra hn
    obtain ⟨t, ht⟩ := key hn
    rw [h] at ht
    cases ht
  · unfold Bitbucket.convert
    simp only [hd]
    rw [(C83_panics_iff g it its c ref).2 h]
    rfl

/-- C106: which files crash the converter of the library.  Files of other kinds never do: they are
returned unchanged. -/
theorem C106_convert (X : ConvertLib) (d : Bytes) (m : Metadata)
    (hk : ∀ c, X.decodeGitlab d = .ok c → c.jobs.keys.Nodup) :
    convert X d m = none ↔
      (m.filename = "bitbucket-pipelines.yml" ∧ ∃ c, X.decodeBitbucket d = .ok c ∧
        (none ∈ c.pipeline X.glob X.orderStages m.ref ∨ ∃ k, (k, none) ∈ c.services)) ∨
      (m.filename = ".gitlab-ci.yml" ∧ ∃ c, X.decodeGitlab d = .ok c ∧ CrashesGitlab c) ∨
      (m.filename ≠ "bitbucket-pipelines.yml" ∧ m.filename ≠ ".gitlab-ci.yml" ∧ Legacy.isLegacy d = true ∧
        Legacy.convert X.toLegacyLib X.env d m.url = none) := by
  unfold convert
  by_cases hb : m.filename = "bitbucket-pipelines.yml"
  · have hg : m.filename ≠ ".gitlab-ci.yml" := by rw [hb]; decide
    rw [if_pos hb]
    simp only [hb, true_and, ne_eq, not_true_eq_false, false_and, or_false, hg,
      show ("bitbucket-pipelines.yml" = ".gitlab-ci.yml") = False by simp]
    cases hd : X.decodeBitbucket d with
    | error e => simp [Bitbucket.convert, hd]
    | ok c =>
      rw [(C106_bitbucket X.pretty X.glob X.orderStages X.orderServices X.decodeBitbucket d m.ref c hd).1]
      simp
  · rw [if_neg hb]
    by_cases hg : m.filename = ".gitlab-ci.yml"
    · rw [if_pos hg]
      simp only [hb, false_and, hg, true_and, ne_eq, not_true_eq_false, and_false, or_false, false_or]
      cases hd : X.decodeGitlab d with
      | error e => simp [Gitlab.convert, hd]
      | ok c =>
        rw [(C106_gitlab X.pretty X.digest X.orderJobs X.decodeGitlab d c hd (hk c hd)).1]
        simp
    · rw [if_neg hg]
      by_cases hl : Legacy.isLegacy d = true
      · rw [if_pos hl]; simp [hb, hg, hl]
      · rw [if_neg hl]; simp [hb, hg, hl]

/-! ### What has to be written for that -/

open Yaml

theorem decElems_none {α : Type} (dec : Dec α) (zero : α) : ∀ xs : List Yaml.Node,
    none ∈ (decElems none (decPtr zero dec) xs).val ↔ Node.null ∈ xs
  | [] => by simp [decElems]
  | x :: xs => by
    have ih := decElems_none dec zero xs
    have key : (decElems none (decPtr zero dec) (x :: xs)).val =
        if (decPtr zero dec x none).good = true then (decPtr zero dec x none).val :: (decElems none (decPtr zero dec) xs).val
        else (decElems none (decPtr zero dec) xs).val := rfl
    have hx : (decPtr zero dec x none).val = none ↔ x = .null := by cases x <;> simp [decPtr]
    rw [key, List.mem_cons, ← ih]
    by_cases hg : (decPtr zero dec x none).good = true
    · rw [if_pos hg, List.mem_cons, eq_comm, hx, eq_comm]
    · rw [if_neg hg]
      have : x ≠ .null := by
        rintro rfl
        exact hg rfl
      simp [this.symm]

/-- C106: a list of volumes of a legacy file has an entry without content iff an entry is written as
null. -/
theorem C106_volumes (xs : List Yaml.Node) (c : Legacy.Container) :
    none ∈ ((legacyContainerField "volumes") (.seq xs) c).1.volumes ↔ Yaml.Node.null ∈ xs :=
  decElems_none _ _ xs

/-- C106: the same for secrets, but only in lists that are not read as lists of names. -/
theorem C106_secrets (xs : List Yaml.Node) (c : Legacy.Container) (hc : c.secrets = []) :
    none ∈ ((legacyContainerField "secrets") (.seq xs) c).1.secrets ↔
      Yaml.Node.null ∈ xs ∧ ∃ x ∈ xs, (decString x "").err = true := by
  show none ∈ (unmarshalSecrets (.seq xs) c.secrets).1 ↔ _
  have herr : ∀ xs : List Yaml.Node, (decElems "" decString xs).err = true ↔ ∃ x ∈ xs, (decString x "").err = true := by
    intro xs
    induction xs with
    | nil => simp [decElems]
    | cons x xs ih => simp only [decElems, Bool.or_eq_true, ih, List.exists_mem_cons_iff]
  rw [← herr, hc]
  unfold unmarshalSecrets
  have e : decStrings (.seq xs) [] = decElems "" decString xs := rfl
  simp only [e]
  by_cases h : (decElems "" decString xs).err = true
  · rw [if_neg (by simp [h])]
    simp only [h, and_true]
    exact decElems_none _ _ xs
  · rw [if_pos (by simpa using h)]
    simp [h]

/-- C106: a GitLab job crashes the converter iff nothing is written under its name. -/
theorem C106_job (k : String) (n : Yaml.Node) (c : Gitlab.Config)
    (hk : k ∉ ["image", "stages", "services", "variables", "before_script", "after_script"]) :
    GoMap.get? ((gitlabField k) n c).1.jobs k = some none ↔ n = .null := by
  simp only [List.mem_cons, List.not_mem_nil, or_false, not_or] at hk
  obtain ⟨h1, h2, h3, h4, h5, h6⟩ := hk
  unfold gitlabField
  simp only [List.lookup, beq_eq_false_iff_ne.2 h1, beq_eq_false_iff_ne.2 h2, beq_eq_false_iff_ne.2 h3,
    beq_eq_false_iff_ne.2 h4, beq_eq_false_iff_ne.2 h5, beq_eq_false_iff_ne.2 h6, Option.getD_none,
    GoMap.get?_set_self]
  cases n <;> simp [decPtr]

/-- A Bitbucket file whose steps run in parallel: an entry `parallel` instead of `step`. -/
def exParallel : Yaml.Node :=
  .map [(key "image", key "golang"),
    (key "pipelines", .map [(key "default", .seq [
      .map [(key "step", .map [(key "script", .seq [key "go build"])])],
      .map [(key "parallel", .seq [.map [(key "step", .map [(key "script", .seq [key "go test"])])]])]])])]

/-- C106: steps that run in parallel crash the converter for Bitbucket files, whatever the ref. -/
theorem C106_parallel (L : Pretty.PrettyLib) (g : Glob) (it : Orders (List (Option Bitbucket.Step)))
    (its : Orders (Option Bitbucket.Step)) (d : Bytes) (ref : String) :
    Bitbucket.convert L g it its (fun _ => unmarshalBitbucket exParallel) d ref = none := by
  have hd : unmarshalBitbucket exParallel = .ok
      { image := "golang", default_ := [some { script := ["go build"] }, none] } := rfl
  rw [(C106_bitbucket L g it its (fun _ => unmarshalBitbucket exParallel) d ref _ hd).1]
  left
  have h0 : ∀ n, it.order n [] = [] := fun n => List.perm_nil.1 (it.perm n [])
  unfold Bitbucket.Config.pipeline
  simp only [h0, List.find?_nil]
  simp

/-- A legacy file with a volume that was commented out. -/
def exCommented : Yaml.Node :=
  .map [(key "pipeline", .map [(key "build", .map [(key "image", key "golang"),
    (key "commands", .seq [key "go build"]), (key "volumes", .seq [.null])])])]

/-- C106: a list item that was left empty crashes the converter for legacy files. -/
theorem C106_empty_item (X : LegacyLib) (text : Scalar → String) (env : Env) (d : Bytes) (remote : String) :
    Legacy.convert { X with decode := fun _ => unmarshalLegacy text exCommented } env d remote = none :=
  C106_legacy_matrix _ env d remote
    { pipeline := [{ name := "build", image := "golang", commands := ["go build"], volumes := [none] }] } rfl
    ⟨_, List.mem_cons_self, .inl List.mem_cons_self⟩

/-- A GitLab file with a job that is only announced. -/
def exAnnounced : Yaml.Node :=
  .map [(key "build", .map [(key "script", key "go build")]), (key "deploy", .null)]

theorem C106_empty_job (L : Pretty.PrettyLib) (dg : Img.DigestLib) (it : Orders (Option Gitlab.Job)) (d : Bytes) :
    Gitlab.convert L dg it (fun _ => unmarshalGitlab exAnnounced) d = none :=
  (C106_gitlab L dg it _ d { jobs := [("build", some { script := ["go build"] }), ("deploy", none)] } rfl (by decide)).1.2
    (.inl ⟨("deploy", none), by simp, rfl⟩)

/-- Files that are converted. -/
example (X : LegacyLib) (env : Env) (d : Bytes) (remote : String) :
    ∃ text, Legacy.convert { X with decode := fun _ => .ok { pipeline := [{ name := "build", image := "golang", volumes := [some ⟨"/a", "/b"⟩], secrets := [some {}] }] } }
      env d remote = some (.ok text) :=
  (C106_legacy _ env d remote _ rfl rfl).2 (by
    rintro ⟨x, hx, h⟩
    simp only [List.nil_append, List.append_nil, List.mem_singleton] at hx
    subst hx
    simp [NullEntry] at h)

example (L : Pretty.PrettyLib) (dg : Img.DigestLib) (it : Orders (Option Gitlab.Job)) (d : Bytes) :
    ∃ text, Gitlab.convert L dg it (fun _ => .ok { stages := ["test"], jobs := [("unit", some { stage := "test" })] }) d =
      some (.ok text) :=
  (C106_gitlab L dg it _ d _ rfl (by decide)).2 (by simp [CrashesGitlab])

end Drone
