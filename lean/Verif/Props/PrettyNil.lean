/-
C69: when the printer panics.
-/
import Mathlib.Tactic.Common
import Verif.Props.PrettyOrder

namespace Drone
open Pretty

namespace Spec

/-- No nil entry in what is printed of a container. -/
structure NoNilContainer (c : Container) : Prop where
  settings : ∀ kv ∈ c.settings, kv.2 ≠ none
  environment : ∀ kv ∈ c.environment, kv.2 ≠ none
  devices : none ∉ c.devices
  ports : none ∉ c.ports
  volumes : none ∉ c.volumes

/-- No nil entry in what is printed of a pipeline.  Nil steps and services are allowed. -/
structure NoNilPipeline (p : Pipeline) : Prop where
  steps : ∀ c, some c ∈ p.steps → NoNilContainer c
  services : ∀ c, some c ∈ p.services → NoNilContainer c
  volumes : none ∉ p.volumes

/-- The keys of a Go map are distinct. -/
def GoMaps (p : Pipeline) : Prop :=
  ∀ c, some c ∈ p.steps ∨ some c ∈ p.services → c.settings.keys.Nodup ∧ c.environment.keys.Nodup

end Spec

namespace Pretty

theorem eachEntry_isSome {α : Type} (f : Writer → α → Writer) (l : List (Option α)) (w : Writer) :
    (eachEntry f l w).isSome ↔ none ∉ l := by
  induction l generalizing w with
  | nil => simp [eachEntry]
  | cons o l ih =>
    cases o with
    | none => simp [eachEntry]
    | some a => simp [eachEntry, ih]

theorem eachKey_isSome {α : Type} (m : GoMap (Option α)) (f : Writer → String → α → Writer) (ks : List String)
    (w : Writer) : (eachKey m f ks w).isSome ↔ ∀ k ∈ ks, ∃ v, m.get? k = some (some v) := by
  induction ks generalizing w with
  | nil => simp [eachKey]
  | cons k ks ih =>
    unfold eachKey
    cases hk : m.get? k with
    | none => simp [hk]
    | some o =>
      cases o with
      | none => simp [hk]
      | some v => simp [hk, ih]

theorem eachKey_sorted_isSome {α : Type} (m : GoMap (Option α)) (hm : m.keys.Nodup)
    (f : Writer → String → α → Writer) (w : Writer) :
    (eachKey m f (sortStrings m.keys) w).isSome ↔ ∀ kv ∈ m, kv.2 ≠ none := by
  rw [eachKey_isSome]
  constructor
  · intro h kv hkv hn
    have hk : kv.1 ∈ sortStrings m.keys :=
      (sortStrings_perm m.keys).mem_iff.2 (List.mem_map.2 ⟨kv, hkv, rfl⟩)
    obtain ⟨v, hv⟩ := h _ hk
    rw [GoMap.get?_of_mem hm (show (kv.1, kv.2) ∈ m from hkv), hn] at hv
    simp at hv
  · intro h k hk
    have hk := (sortStrings_perm m.keys).mem_iff.1 hk
    obtain ⟨kv, hkv, rfl⟩ := List.mem_map.1 hk
    cases ho : kv.2 with
    | none => exact absurd ho (h kv hkv)
    | some v => exact ⟨v, by rw [GoMap.get?_of_mem hm (show (kv.1, kv.2) ∈ m from hkv), ho]⟩

theorem bind_isSome {α β : Type} (o : Option α) (f : α → Option β) (P Q : Prop) (h1 : o.isSome ↔ P)
    (h2 : ∀ a, (f a).isSome ↔ Q) : (o.bind f).isSome ↔ P ∧ Q := by
  cases o with
  | none => simp at h1 ⊢; simp [h1]
  | some a => simp at h1 ⊢; simp [h1, h2]

theorem map_isSome {α β : Type} (o : Option α) (f : α → β) (P : Prop) (h1 : o.isSome ↔ P) :
    (o.map f).isSome ↔ P := by simpa using h1

theorem when?_isSome {α : Type} (l : List α) (c : Bool) (hc : c = false → l = []) (f : Writer → Option Writer)
    (w : Writer) (P : Prop) (h : (f w).isSome ↔ P) (hP : l = [] → P) : (when? c f w).isSome ↔ P := by
  unfold when?
  cases c with
  | true => simpa using h
  | false => simp [hP (hc rfl)]

theorem length_pos_false {α : Type} {l : List α} (h : decide (l.length > 0) = false) : l = [] := by
  simpa using h

theorem printContainer_isSome (L : PrettyLib) (w : Writer) (c : Container) (h1 : c.settings.keys.Nodup)
    (h2 : c.environment.keys.Nodup) : (printContainer L w c).isSome ↔ Spec.NoNilContainer c := by
  have key : (printContainer L w c).isSome ↔ (∀ kv ∈ c.settings, kv.2 ≠ none) ∧
      (∀ kv ∈ c.environment, kv.2 ≠ none) ∧ none ∉ c.devices ∧ none ∉ c.ports ∧ none ∉ c.volumes := by
    unfold printContainer
    dsimp only
    refine bind_isSome _ _ _ _ (when?_isSome c.settings _ length_pos_false _ _ _
      (map_isSome _ _ _ (eachKey_sorted_isSome _ h1 _ _)) (by rintro h; simp [h])) fun w => ?_
    refine bind_isSome _ _ _ _ (when?_isSome c.environment _ length_pos_false _ _ _
      (map_isSome _ _ _ (eachKey_sorted_isSome _ h2 _ _)) (by rintro h; simp [h])) fun w => ?_
    refine bind_isSome _ _ _ _ (when?_isSome c.devices _ length_pos_false _ _ _
      (eachEntry_isSome _ _ _) (by rintro h; simp [h])) fun w => ?_
    refine bind_isSome _ _ _ _ (when?_isSome c.ports _ length_pos_false _ _ _
      (eachEntry_isSome _ _ _) (by rintro h; simp [h])) fun w => ?_
    exact map_isSome _ _ _ (when?_isSome c.volumes _ length_pos_false _ _ _
      (eachEntry_isSome _ _ _) (by rintro h; simp [h]))
  rw [key]
  exact ⟨fun ⟨a, b, c, d, e⟩ => ⟨a, b, c, d, e⟩, fun ⟨a, b, c, d, e⟩ => ⟨a, b, c, d, e⟩⟩

theorem printContainers_isSome (L : PrettyLib) (cs : List (Option Container)) (w : Writer)
    (h : ∀ c, some c ∈ cs → c.settings.keys.Nodup ∧ c.environment.keys.Nodup) :
    (printContainers L cs w).isSome ↔ ∀ c, some c ∈ cs → Spec.NoNilContainer c := by
  induction cs generalizing w with
  | nil => simp [printContainers]
  | cons o cs ih =>
    have ih' := fun w => ih w fun c hc => h c (List.mem_cons_of_mem _ hc)
    cases o with
    | none => simp [printContainers, ih']
    | some c =>
      obtain ⟨h1, h2⟩ := h c (List.mem_cons_self ..)
      unfold printContainers
      rw [bind_isSome _ _ (Spec.NoNilContainer c) _ ?_ fun w => ih' w]
      · simp
      · unfold Writer.seq?
        exact map_isSome _ _ _ (map_isSome _ _ _ (printContainer_isSome L _ c h1 h2))

theorem printPipeline_isSome (L : PrettyLib) (w : Writer) (p : Pipeline) (h : Spec.GoMaps p) :
    (printPipeline L w p).isSome ↔ Spec.NoNilPipeline p := by
  have key : (printPipeline L w p).isSome ↔ (∀ c, some c ∈ p.steps → Spec.NoNilContainer c) ∧
      (∀ c, some c ∈ p.services → Spec.NoNilContainer c) ∧ none ∉ p.volumes := by
    unfold printPipeline
    dsimp only
    refine bind_isSome _ _ _ _ (when?_isSome p.steps _ length_pos_false _ _ _
      (printContainers_isSome L _ _ fun c hc => h c (.inl hc)) (by rintro h; simp [h])) fun w => ?_
    refine bind_isSome _ _ _ _ (when?_isSome p.services _ length_pos_false _ _ _
      (printContainers_isSome L _ _ fun c hc => h c (.inr hc)) (by rintro h; simp [h])) fun w => ?_
    exact map_isSome _ _ _ (when?_isSome p.volumes _ (fun h => by simpa using h) _ _ _
      (map_isSome _ _ _ (eachEntry_isSome _ _ _)) (by rintro h; simp [h]))
  rw [key]
  exact ⟨fun ⟨a, b, c⟩ => ⟨a, b, c⟩, fun ⟨a, b, c⟩ => ⟨a, b, c⟩⟩

end Pretty

/-- C69: printing panics exactly if a printed list or map of some pipeline has a nil entry. -/
theorem C69_panic (L : PrettyLib) (m : Manifest)
    (h : ∀ p, Resource.pipeline p ∈ m.resources → Spec.GoMaps p) :
    print L m = none ↔ ∃ p, Resource.pipeline p ∈ m.resources ∧ ¬ Spec.NoNilPipeline p := by
  have key : ∀ rs w, (∀ p, Resource.pipeline p ∈ rs → Spec.GoMaps p) →
      ((printLoop L rs w).isSome ↔ ∀ p, Resource.pipeline p ∈ rs → Spec.NoNilPipeline p) := by
    intro rs
    induction rs with
    | nil => intro w _; simp [printLoop]
    | cons r rs ih =>
      intro w h
      unfold printLoop
      rw [bind_isSome _ _ (∀ p, r = .pipeline p → Spec.NoNilPipeline p) _ ?_ fun w =>
        ih w fun p hp => h p (List.mem_cons_of_mem _ hp)]
      · simp only [List.mem_cons]
        constructor
        · rintro ⟨a, b⟩ p (hp | hp)
          · exact a p hp.symm
          · exact b p hp
        · exact fun k => ⟨fun p hp => k p (.inl hp.symm), fun p hp => k p (.inr hp)⟩
      · cases r with
        | pipeline p =>
          simp only [printResource]
          rw [printPipeline_isSome L w p (h p (List.mem_cons_self ..))]
          simp
        | _ => simp [printResource]
  have k := key m.resources {} h
  have e : (print L m).isSome ↔ _ := map_isSome _ _ _ k
  rw [← Option.not_isSome_iff_eq_none, e]
  simp

/-- A null step is skipped, a null port of a step panics. -/
example : (print exPretty ⟨[.pipeline { steps := [none, some { name := "a", ports := [some { port := 80 }] }] }]⟩).isSome ∧
    print exPretty ⟨[.pipeline { steps := [some { name := "a", ports := [none] }] }]⟩ = none := by
  constructor
  · decide +kernel
  · exact (C69_panic _ _ (by
      intro p hp c hc
      simp at hp; subst hp
      simp at hc; subst hc
      exact ⟨List.nodup_nil, List.nodup_nil⟩)).2
      ⟨_, List.mem_cons_self .., fun h => (h.steps _ (List.mem_cons_self ..)).ports (List.mem_cons_self ..)⟩

end Drone
