/-
C73: the conversion of a legacy file does not depend on the iteration order of maps.
-/
import Verif.Props.LegacySteps

namespace Drone
open Legacy Spec Pretty

namespace Spec

/-- A legacy container with its maps in another order. -/
def SameOld (c c' : Legacy.Container) : Prop :=
  ∃ (env : GoMap String) (vargs : GoMap Value) (matrix : GoMap String),
    SameMap c.environment env ∧ SameMap c.vargs vargs ∧ SameMap c.constraints.matrix matrix ∧
    c' = { c with environment := env, vargs := vargs, constraints := { c.constraints with matrix := matrix } }

/-- A legacy file with its maps in another order. -/
def SameConfig (c c' : Config) : Prop :=
  ∃ (clone pipeline services : List Legacy.Container) (secrets : GoMap SecretDecl),
    List.Forall₂ SameOld c.clone clone ∧ List.Forall₂ SameOld c.pipeline pipeline ∧
    List.Forall₂ SameOld c.services services ∧ SameMap c.secrets secrets ∧
    c' = { c with clone := clone, pipeline := pipeline, services := services, secrets := secrets }

end Spec

/-- Maps with the same lookups are permutations of each other. -/
theorem GoMap.perm_of_get? {α : Type} {m m' : GoMap α} (h : m.keys.Nodup) (h' : m'.keys.Nodup)
    (hg : ∀ k, m.get? k = m'.get? k) : m.Perm m' := by
  have n1 : m.Nodup := List.Nodup.of_map Prod.fst h
  have n2 : m'.Nodup := List.Nodup.of_map Prod.fst h'
  rw [List.perm_ext_iff_of_nodup n1 n2]
  rintro ⟨k, v⟩
  constructor
  · intro hm
    exact GoMap.mem_of_get? (by rw [← hg]; exact GoMap.get?_of_mem h hm)
  · intro hm
    exact GoMap.mem_of_get? (by rw [hg]; exact GoMap.get?_of_mem h' hm)

theorem SameMap.set {α : Type} {m m' : GoMap α} (h : SameMap m m') (k : String) (v : α) :
    SameMap (m.set k v) (m'.set k v) := by
  have h' : (m'.map Prod.fst).Nodup := (h.1.map Prod.fst).nodup_iff.1 h.2
  refine ⟨GoMap.perm_of_get? (GoMap.set_keys_nodup k v h.2).1 (GoMap.set_keys_nodup k v h').1 fun x => ?_,
    (GoMap.set_keys_nodup k v h.2).1⟩
  rw [GoMap.get?_set, GoMap.get?_set, sameMap_get? h]

theorem foldl_set_nodup {α β : Type} (f : α → β) (m : GoMap α) : ∀ a : GoMap β, a.keys.Nodup →
    (GoMap.keys (m.foldl (fun (m : GoMap β) kv => m.set kv.1 (f kv.2)) a)).Nodup := by
  induction m with
  | nil => intro a h; exact h
  | cons e m ih => intro a h; exact ih _ (GoMap.set_keys_nodup _ _ h).1

theorem SameMap.foldl {α β : Type} (f : α → β) {m m' : GoMap α} (h : SameMap m m') :
    SameMap (m.foldl (fun m kv => m.set kv.1 (f kv.2)) []) (m'.foldl (fun m kv => m.set kv.1 (f kv.2)) []) := by
  have h' : (m'.map Prod.fst).Nodup := (h.1.map Prod.fst).nodup_iff.1 h.2
  refine ⟨GoMap.perm_of_get? (foldl_set_nodup f m [] List.nodup_nil) (foldl_set_nodup f m' [] List.nodup_nil)
    fun k => ?_, foldl_set_nodup f m [] List.nodup_nil⟩
  rw [foldl_set_lookup f m h.2, foldl_set_lookup f m' h', sameMap_get? h]

theorem secretLoop_same {upper : String → String} : ∀ (l : List (Option SecretRef)) {e e' : GoMap (Option Variable)},
    SameMap e e' → Option.Rel SameMap (secretLoop upper e l) (secretLoop upper e' l)
  | [], _, _, h => .some h
  | none :: _, _, _, _ => .none
  | some _ :: l, _, _, h => secretLoop_same l (SameMap.set h _ _)

theorem SameMap.refl {α : Type} {m : GoMap α} (h : m.keys.Nodup) : SameMap m m := ⟨.refl _, h⟩

theorem SameMap.settings {m m' : GoMap (Option Parameter)} (h : SameMap m m') : SameSettings m m' :=
  ⟨m, List.forall₂_same.2 fun _ _ => ⟨rfl, .inl rfl⟩, h.1, h.2⟩

theorem toContainer_same (X : LegacyLib) {c c' : Legacy.Container} (h : SameOld c c') :
    Option.Rel SameContainer (toContainer X c) (toContainer X c') := by
  obtain ⟨env, vargs, matrix, h1, h2, h3, rfl⟩ := h
  unfold toContainer toEnvironment
  dsimp only
  have he := secretLoop_same (upper := X.upper) c.secrets (SameMap.foldl (fun v => some { value := v }) h1)
  revert he
  generalize secretLoop X.upper _ c.secrets = a
  generalize secretLoop X.upper _ c.secrets = b
  intro he
  cases he with
  | none => exact .none
  | some he =>
    cases toVolumeMounts c.volumes with
    | none => exact .none
    | some vols =>
      exact .some ⟨none, _, _, _, .none, he, SameMap.settings (SameMap.foldl (fun v : Value => some ({ value := v } : Parameter)) h2), h3, rfl⟩

theorem mapAll_same (X : LegacyLib) {l l' : List Legacy.Container} (h : List.Forall₂ SameOld l l') :
    Option.Rel (List.Forall₂ SameContainer) (mapAll (toContainer X) l) (mapAll (toContainer X) l') := by
  induction h with
  | nil => exact .some .nil
  | cons h _ ih =>
    unfold mapAll
    have := toContainer_same X h
    revert this ih
    generalize toContainer X _ = a
    generalize toContainer X _ = b
    generalize mapAll (toContainer X) _ = c
    generalize mapAll (toContainer X) _ = d
    intro h2 h1
    cases h1 with
    | none => exact .none
    | some h1 =>
      cases h2 with
      | none => exact .none
      | some h2 => exact .some (.cons h1 h2)

theorem SameContainer.refl {c : Drone.Container} (hb : c.build = none) (h1 : c.environment.keys.Nodup)
    (h2 : c.settings.keys.Nodup) (h3 : c.cond.matrix.keys.Nodup) : SameContainer c c :=
  ⟨none, _, _, _, by rw [hb]; exact .none, SameMap.refl h1, SameMap.settings (SameMap.refl h2), SameMap.refl h3,
    by rw [← hb]⟩

theorem toSteps_same (X : LegacyLib) (env : Env) {c c' : Config} (h : SameConfig c c') :
    Option.Rel (List.Forall₂ SameContainer) (toSteps X env c) (toSteps X env c') := by
  obtain ⟨clone, pipeline, services, secrets, h1, h2, h3, h4, rfl⟩ := h
  unfold toSteps
  dsimp only
  rw [← h1.length_eq]
  by_cases hc : c.clone.length ≠ 0
  · rw [if_pos hc, if_pos hc]
    exact mapAll_same X (List.rel_append h1 h2)
  · rw [if_neg hc, if_neg hc]
    have := mapAll_same X h2
    revert this
    generalize mapAll (toContainer X) _ = a
    generalize mapAll (toContainer X) _ = b
    intro h
    cases h with
    | none => exact .none
    | some h =>
      refine .some ?_
      dsimp only
      split_ifs
      · exact .cons (SameContainer.refl rfl List.nodup_nil List.nodup_nil List.nodup_nil) h
      · exact h

theorem toVolumes_same {c c' : Config} (h : SameConfig c c') : toVolumes c' = toVolumes c := by
  obtain ⟨clone, pipeline, services, secrets, h1, h2, h3, h4, rfl⟩ := h
  unfold toVolumes
  dsimp only
  have : List.Forall₂ SameOld (c.pipeline ++ c.services) (pipeline ++ services) := List.rel_append h2 h3
  revert this
  generalize c.pipeline ++ c.services = a
  generalize pipeline ++ services = b
  generalize ([] : List String) = s
  generalize ([] : List Drone.Volume) = v
  intro h
  induction h generalizing s v with
  | nil => rfl
  | cons h _ ih =>
    obtain ⟨_, _, _, _, _, _, rfl⟩ := h
    unfold volumesLoop
    dsimp only
    congr 1
    funext r
    exact ih _ _

theorem renameLoop_same {l l' : List Drone.Container} (h : List.Forall₂ SameContainer l l') :
    ∀ names i, List.Forall₂ SameContainer (renameLoop names i l) (renameLoop names i l') := by
  induction h with
  | nil => intro _ _; exact .nil
  | cons h _ ih =>
    intro names i
    obtain ⟨b, e, s, m, h1, h2, h3, h4, rfl⟩ := h
    unfold renameLoop
    exact .cons ⟨b, e, s, m, h1, h2, h3, h4, rfl⟩ (ih _ _)

theorem toTrigger_same {l l' : List Drone.Container} (h : List.Forall₂ SameContainer l l') (b : Condition) :
    toTrigger b l = toTrigger b l' := by
  have : (l.any fun s => sliceContains "tag" s.cond.event.incl) = l'.any fun s => sliceContains "tag" s.cond.event.incl := by
    induction h with
    | nil => rfl
    | cons h _ ih =>
      obtain ⟨_, _, _, _, _, _, _, _, rfl⟩ := h
      simp [ih]
  unfold toTrigger
  rw [this]

theorem forall₂_some {l l' : List Drone.Container} (h : List.Forall₂ SameContainer l l') :
    List.Forall₂ (Option.Rel SameContainer) (l.map some) (l'.map some) := by
  induction h with
  | nil => exact .nil
  | cons h _ ih => exact .cons (.some h) ih

theorem toPipeline_same (X : LegacyLib) (env : Env) {c c' : Config} (h : SameConfig c c') (remote : String) :
    Option.Rel SamePipeline (toPipeline X env c remote) (toPipeline X env c' remote) := by
  have hs := toSteps_same X env h
  have hv := toVolumes_same h
  have hsv : Option.Rel (List.Forall₂ SameContainer) (mapAll (toContainer X) c.services) (mapAll (toContainer X) c'.services) := by
    obtain ⟨clone, pipeline, services, secrets, h1, h2, h3, h4, rfl⟩ := h
    exact mapAll_same X h3
  have hw : toWorkspace X env c' remote = toWorkspace X env c remote ∧ c'.clone.length = c.clone.length ∧
      c'.branches = c.branches := by
    obtain ⟨clone, pipeline, services, secrets, h1, h2, h3, h4, rfl⟩ := h
    exact ⟨rfl, h1.length_eq.symm, rfl⟩
  unfold toPipeline
  rw [hv, hw.1, hw.2.1, hw.2.2]
  revert hs hsv
  generalize toSteps X env c = a
  generalize toSteps X env c' = b
  generalize mapAll (toContainer X) c.services = a'
  generalize mapAll (toContainer X) c'.services = b'
  intro hs hsv
  cases hs with
  | none => exact .none
  | some hs =>
    cases hsv with
    | none => exact .none
    | some hsv =>
      cases toVolumes c with
      | none => exact .none
      | some vols =>
        have hr := renameLoop_same hs [] 0
        simp only [Option.bind_some, Option.map_some]
        rw [← toTrigger_same hr]
        refine .some ⟨[], _, _, _, SameMap.refl List.nodup_nil, forall₂_some hr, forall₂_some hsv,
          SameMap.refl (m := (toTrigger c.branches _).matrix) ?_, rfl⟩
        unfold toTrigger
        split_ifs <;> exact List.nodup_nil

theorem toSecrets_same {c c' : Config} (h : SameConfig c c') : toSecrets c' = toSecrets c := by
  obtain ⟨clone, pipeline, services, secrets, h1, h2, h3, h4, rfl⟩ := h
  unfold toSecrets
  dsimp only
  rw [← sameMap_keys h4]
  exact List.map_congr_left fun k _ => by rw [← sameMap_get? h4]

/-- C73: whatever the iteration order of the maps of a legacy file without matrix, the
conversion prints the same text (or fails alike). -/
theorem C73_order (X : LegacyLib) (env : Env) (d : Bytes) (c c' : Config) (remote : String) (h : SameConfig c c')
    (hm : c.hasMatrix = false) :
    ((toManifest X env d c remote).andThen fun m => (Pretty.print X.pretty m).map .ok) =
      (toManifest X env d c' remote).andThen fun m => (Pretty.print X.pretty m).map .ok := by
  have hm' : c'.hasMatrix = false := by
    obtain ⟨_, _, _, _, _, _, _, _, rfl⟩ := h
    exact hm
  have hp := toPipeline_same X env h remote
  unfold toManifest
  rw [hm, hm', toSecrets_same h]
  revert hp
  generalize toPipeline X env c remote = a
  generalize toPipeline X env c' remote = b
  intro hp
  cases hp with
  | none => rfl
  | some hp =>
    simp only [Bool.false_eq_true, if_false, Outcome.andThen, Option.bind_some]
    rw [C53_order X.pretty _ _ ?_]
    exact .cons (.pipeline hp) (List.forall₂_same.2 fun r hr => by
      obtain ⟨s, _, rfl⟩ := List.mem_map.1 hr
      exact .secret s)

/-- Secrets, variables and settings in two orders. -/
example : SameConfig
    { pipeline := [{ name := "a", environment := [("A", "1"), ("B", "2")], vargs := [("x", .int 1), ("y", .null)] }],
      secrets := [("s", {}), ("t", { driver := "vault" })] }
    { pipeline := [{ name := "a", environment := [("B", "2"), ("A", "1")], vargs := [("y", .null), ("x", .int 1)] }],
      secrets := [("t", { driver := "vault" }), ("s", {})] } :=
  ⟨_, _, _, _, .nil, .cons ⟨[("B", "2"), ("A", "1")], [("y", .null), ("x", .int 1)], [], ⟨.swap _ _ _, by decide⟩,
    ⟨.swap _ _ _, by decide⟩, ⟨.nil, by decide⟩, rfl⟩ .nil, .nil, ⟨.swap _ _ _, by decide⟩, rfl⟩

/-- With a matrix the order matters: a value may contain a reference to another variable. -/
theorem C73_matrix_order : substitute exLegacy [("A", "${B}"), ("B", "x")] "${A}".toList = "x".toList ∧
    substitute exLegacy [("B", "x"), ("A", "${B}")] "${A}".toList = "${B}".toList := by decide

end Drone
