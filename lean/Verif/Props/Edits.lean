/-
C127: what small changes to a file do to its validity.
-/
import Verif.Props.Lint
import Mathlib.Data.List.Perm.Subperm
import Mathlib.Data.List.Nodup

namespace Drone
open Spec

/-! ### Specification -/

/-- The pipeline that consists of one step, without its dependencies and the clone step. -/
def Spec.alone (c : Container) : Pipeline := { clone := { disable := true }, steps := [some { c with dependsOn := [] }] }

/-- The names of the containers in a list. -/
def Spec.namesIn (cs : List (Option Container)) : List String := cs.filterMap fun o => o.map (·.name)

/-- A pipeline with other steps. -/
def Spec.withSteps (p : Pipeline) (steps : List (Option Container)) : Pipeline := { p with steps := steps }

/-- A pipeline with other services. -/
def Spec.withServices (p : Pipeline) (services : List (Option Container)) : Pipeline := { p with services := services }

/-! ### Lemmas -/

namespace Edits

theorem deps_congr {ns : List Node} : ∀ {r r' : List String}, (∀ x, x ∈ r ↔ x ∈ r') → (DepsEarlier r ns ↔ DepsEarlier r' ns) := by
  intro r r' h
  unfold DepsEarlier
  simp only [h]

theorem deps_append {B : List Node} : ∀ {A : List Node} {r : List String},
    DepsEarlier r (A ++ B) ↔ DepsEarlier r A ∧ DepsEarlier (r ++ A.map Prod.fst) B := by
  intro A
  induction A with
  | nil => intro r; simp [depsEarlier_nil]
  | cons a A ih =>
    intro r
    rw [List.cons_append, depsEarlier_cons, depsEarlier_cons, ih, and_assoc]
    refine and_congr_right fun _ => and_congr_right fun _ => deps_congr ?_
    intro x
    simp only [List.cons_append, List.mem_cons, List.mem_append, List.map_cons]
    tauto

theorem map_some_inj {l l' : List Container} (h : l.map some = l'.map some) : l = l' :=
  List.map_injective_iff.2 (fun _ _ h => Option.some.inj h) h

theorem namesIn_map (l : List Container) : namesIn (l.map some) = l.map (·.name) := by
  unfold namesIn
  rw [List.filterMap_map]
  simp [Function.comp_def]

theorem names_nodes (l : List Container) : (nodes l).map Prod.fst = l.map (·.name) := by
  simp [nodes, Function.comp_def]

theorem nodes_append (l l' : List Container) : nodes (l ++ l') = nodes l ++ nodes l' := by simp [nodes]

/-- The rules for a container do not mention what it depends on. -/
theorem containerOK_deps (trusted : Bool) (c : Container) (ds : List String) :
    ContainerOK trusted { c with dependsOn := ds } ↔ ContainerOK trusted c :=
  ⟨fun h => ⟨h.name, h.image, h.build, h.mounts, h.untrusted⟩, fun h => ⟨h.name, h.image, h.build, h.mounts, h.untrusted⟩⟩

theorem alone_ok (trusted : Bool) (c : Container) : lint (.pipeline (alone c)) trusted = .ok () ↔ ContainerOK trusted c := by
  rw [C12_lint_iff]
  constructor
  · rintro ⟨ss, sv, h⟩
    have e : ss = [{ c with dependsOn := [] }] := by
      have := h.steps_eq
      exact (map_some_inj (l := [_]) this).symm
    subst e
    exact (containerOK_deps trusted c []).1 (h.containers _ (by simp))
  · intro h
    refine ⟨[{ c with dependsOn := [] }], [], rfl, rfl, by simp [alone], ⟨by simp [alone], by simp [alone]⟩, ?_, ?_, ?_⟩
    · intro d hd
      simp only [List.append_nil, List.mem_singleton] at hd
      subst hd
      exact (containerOK_deps trusted c []).2 h
    · simp [cloneNames, alone]
    · show DepsEarlier _ [(c.name, [])]
      rw [depsEarlier_cons]
      exact ⟨by simp, depsEarlier_nil _⟩

/-- Splits a list of containers that are there. -/
theorem split_some {l : List Container} {a b : List (Option Container)} (h : a ++ b = l.map some) :
    ∃ a' b', l = a' ++ b' ∧ a = a'.map some ∧ b = b'.map some := by
  obtain ⟨a', b', e, e1, e2⟩ := List.map_eq_append_iff.1 h.symm
  exact ⟨a', b', e, e1.symm, e2.symm⟩

theorem split_cons {l : List Container} {c : Container} {b : List (Option Container)} (h : some c :: b = l.map some) :
    ∃ b', l = c :: b' ∧ b = b'.map some := by
  cases l with
  | nil => simp at h
  | cons x l =>
    simp only [List.map_cons, List.cons.injEq, Option.some.injEq] at h
    exact ⟨l, by rw [h.1], h.2⟩

end Edits

open Edits

/-! ### Adding -/

/-- C127.  Which step can be added at the end: one that is fine by itself, with a name of its own,
that depends on steps that are there. -/
theorem C127_add_step (p : Pipeline) (trusted : Bool) (c : Container) :
    lint (.pipeline (withSteps p (p.steps ++ [some c]))) trusted = .ok () ↔
      lint (.pipeline p) trusted = .ok () ∧ lint (.pipeline (alone c)) trusted = .ok () ∧
      c.name ∉ namesIn p.steps ∧ c.name ∉ namesIn p.services ∧ (c.name = "clone" → p.clone.disable = true) ∧
      ∀ d ∈ c.dependsOn, d ∈ namesIn p.steps ∨ (d = "clone" ∧ p.clone.disable = false) := by
  rw [alone_ok, C12_lint_iff, C12_lint_iff]
  have hcl : cloneNames (withSteps p (p.steps ++ [some c])) = cloneNames p := rfl
  have hmem : ∀ x, x ∈ cloneNames p ↔ x = "clone" ∧ p.clone.disable = false := by
    intro x; unfold cloneNames; cases p.clone.disable <;> simp
  have hperm : ∀ ss sv : List Container, (cloneNames p ++ ((ss ++ [c]) ++ sv).map (·.name)).Nodup ↔
      (c.name :: (cloneNames p ++ (ss ++ sv).map (·.name))).Nodup := by
    intro ss sv
    refine List.Perm.nodup_iff ?_
    simp only [List.map_append, List.map_cons, List.map_nil, List.append_assoc, List.cons_append, List.nil_append]
    refine (List.Perm.append_left _ List.perm_middle).trans ?_
    exact List.perm_middle
  have hdeps : ∀ ss : List Container, DepsEarlier (cloneNames p) (nodes (ss ++ [c])) ↔ DepsEarlier (cloneNames p) (nodes ss) ∧
      ∀ d ∈ c.dependsOn, d ∈ ss.map (·.name) ∨ (d = "clone" ∧ p.clone.disable = false) := by
    intro ss
    rw [nodes_append, deps_append, names_nodes]
    show _ ∧ DepsEarlier _ [(c.name, c.dependsOn)] ↔ _
    rw [depsEarlier_cons]
    simp only [List.mem_append, hmem, depsEarlier_nil, and_true]
    refine and_congr_right fun _ => ?_
    constructor
    · intro h d hd; exact (h d hd).symm
    · intro h d hd; exact (h d hd).symm
  constructor
  · rintro ⟨ss, sv, h⟩
    obtain ⟨ss, b, rfl, e1, e2⟩ := split_some h.steps_eq
    obtain ⟨b, rfl, e3⟩ := split_cons e2
    obtain rfl : b = [] := by simpa using e3
    have hv : p.services = sv.map some := h.services_eq
    have hn := (hperm ss sv).1 (hcl ▸ h.unique)
    have hd := (hdeps ss).1 (hcl ▸ h.deps)
    rw [List.nodup_cons] at hn
    simp only [List.mem_append, List.map_append, not_or, hmem] at hn
    obtain ⟨⟨h1, h2, h3⟩, h4⟩ := hn
    refine ⟨⟨ss, sv, e1, hv, h.volumes, h.platform, ?_, by simpa using h4, hd.1⟩, h.containers c (by simp), ?_, ?_, ?_, ?_⟩
    · intro x hx
      refine h.containers x ?_
      simp only [List.mem_append] at hx ⊢
      tauto
    · rw [e1, namesIn_map]; exact h2
    · rw [hv, namesIn_map]; exact h3
    · intro hc
      cases hx : p.clone.disable with
      | true => rfl
      | false => exact absurd ⟨hc, hx⟩ h1
    · rw [e1, namesIn_map]; exact hd.2
  · rintro ⟨⟨ss, sv, h⟩, hc, h1, h2, h3, h4⟩
    rw [h.steps_eq, namesIn_map] at h1 h4
    rw [h.services_eq, namesIn_map] at h2
    refine ⟨ss ++ [c], sv, ?_, h.services_eq, h.volumes, h.platform, ?_, ?_, ?_⟩
    · simp [withSteps, h.steps_eq]
    · intro x hx
      simp only [List.mem_append, List.mem_singleton] at hx
      rcases hx with (hx | rfl) | hx
      · exact h.containers x (by simp [hx])
      · exact hc
      · exact h.containers x (by simp [hx])
    · rw [hcl, hperm, List.nodup_cons]
      refine ⟨?_, h.unique⟩
      simp only [List.mem_append, List.map_append, not_or, hmem]
      exact ⟨fun hx => by rw [h3 hx.1] at hx; simp at hx, h1, h2⟩
    · rw [hcl, hdeps]
      exact ⟨h.deps, h4⟩

/-- C127.  Which service can be added: one that is fine by itself, with a name of its own.  What it
depends on does not matter. -/
theorem C127_add_service (p : Pipeline) (trusted : Bool) (c : Container) :
    lint (.pipeline (withServices p (p.services ++ [some c]))) trusted = .ok () ↔
      lint (.pipeline p) trusted = .ok () ∧ lint (.pipeline (alone c)) trusted = .ok () ∧
      c.name ∉ namesIn p.steps ∧ c.name ∉ namesIn p.services ∧ (c.name = "clone" → p.clone.disable = true) := by
  rw [alone_ok, C12_lint_iff, C12_lint_iff]
  have hcl : cloneNames (withServices p (p.services ++ [some c])) = cloneNames p := rfl
  have hmem : ∀ x, x ∈ cloneNames p ↔ x = "clone" ∧ p.clone.disable = false := by
    intro x; unfold cloneNames; cases p.clone.disable <;> simp
  have hperm : ∀ ss sv : List Container, (cloneNames p ++ (ss ++ (sv ++ [c])).map (·.name)).Nodup ↔
      (c.name :: (cloneNames p ++ (ss ++ sv).map (·.name))).Nodup := by
    intro ss sv
    refine List.Perm.nodup_iff ?_
    simp only [List.map_append, List.map_cons, List.map_nil, ← List.append_assoc]
    exact List.perm_append_comm
  constructor
  · rintro ⟨ss, sv, h⟩
    obtain ⟨sv, b, rfl, e1, e2⟩ := split_some h.services_eq
    obtain ⟨b, rfl, e3⟩ := split_cons e2
    obtain rfl : b = [] := by simpa using e3
    have hs : p.steps = ss.map some := h.steps_eq
    have hn := (hperm ss sv).1 (hcl ▸ h.unique)
    rw [List.nodup_cons] at hn
    simp only [List.mem_append, List.map_append, not_or, hmem] at hn
    obtain ⟨⟨h1, h2, h3⟩, h4⟩ := hn
    refine ⟨⟨ss, sv, hs, e1, h.volumes, h.platform, ?_, by simpa using h4, h.deps⟩, h.containers c (by simp), ?_, ?_, ?_⟩
    · intro x hx
      refine h.containers x ?_
      simp only [List.mem_append] at hx ⊢
      tauto
    · rw [hs, namesIn_map]; exact h2
    · rw [e1, namesIn_map]; exact h3
    · intro hc
      cases hx : p.clone.disable with
      | true => rfl
      | false => exact absurd ⟨hc, hx⟩ h1
  · rintro ⟨⟨ss, sv, h⟩, hc, h1, h2, h3⟩
    rw [h.steps_eq, namesIn_map] at h1
    rw [h.services_eq, namesIn_map] at h2
    refine ⟨ss, sv ++ [c], h.steps_eq, ?_, h.volumes, h.platform, ?_, ?_, h.deps⟩
    · simp [withServices, h.services_eq]
    · intro x hx
      simp only [List.mem_append, List.mem_singleton] at hx
      rcases hx with hx | hx | rfl
      · exact h.containers x (by simp [hx])
      · exact h.containers x (by simp [hx])
      · exact hc
    · rw [hcl, hperm, List.nodup_cons]
      refine ⟨?_, h.unique⟩
      simp only [List.mem_append, List.map_append, not_or, hmem]
      exact ⟨fun hx => by rw [h3 hx.1] at hx; simp at hx, h1, h2⟩

/-! ### Removing and moving -/

/-- C127.  A step of an accepted pipeline can be removed exactly if no step depends on it. -/
theorem C127_remove_step (p : Pipeline) (trusted : Bool) (a b : List (Option Container)) (c : Container)
    (h : lint (.pipeline (withSteps p (a ++ some c :: b))) trusted = .ok ()) :
    lint (.pipeline (withSteps p (a ++ b))) trusted = .ok () ↔
      ∀ d, some d ∈ a ++ b → c.name ∉ d.dependsOn := by
  obtain ⟨ss, sv, h⟩ := (C12_lint_iff _ _).1 h
  obtain ⟨a', b', rfl, rfl, e2⟩ := split_some h.steps_eq
  obtain ⟨b', rfl, rfl⟩ := split_cons e2
  have hcl : ∀ l, cloneNames (withSteps p l) = cloneNames p := fun _ => rfl
  have hv : p.services = sv.map some := h.services_eq
  have hd := h.deps
  have hu := h.unique
  rw [hcl] at hd hu
  have hu' : (c.name :: (cloneNames p ++ ((a' ++ b') ++ sv).map (·.name))).Nodup := by
    refine (List.Perm.nodup_iff ?_).1 hu
    simp only [List.map_append, List.map_cons, List.append_assoc, List.cons_append]
    refine (List.Perm.append_left _ List.perm_middle).trans ?_
    exact List.perm_middle
  obtain ⟨hnew, hu'⟩ := List.nodup_cons.1 hu'
  simp only [List.mem_append, List.map_append, not_or] at hnew
  rw [nodes_append, deps_append, names_nodes] at hd
  obtain ⟨hd1, hd2⟩ := hd
  have hd2 : DepsEarlier (cloneNames p ++ a'.map (·.name)) ((c.name, c.dependsOn) :: nodes b') := hd2
  rw [depsEarlier_cons] at hd2
  rw [C12_lint_iff]
  constructor
  · rintro ⟨ss, sv', h'⟩ d hd hc
    have e : ss = a' ++ b' := by
      have := h'.steps_eq
      rw [show (withSteps p (a'.map some ++ b'.map some)).steps = (a' ++ b').map some by simp [withSteps]] at this
      exact (map_some_inj this).symm
    subst e
    have hd' : d ∈ a' ++ b' := by simpa using hd
    obtain ⟨x, y, e⟩ := List.append_of_mem hd'
    have := h'.deps (nodes x) (d.name, d.dependsOn) (nodes y) (by rw [e]; simp [nodes]) _ hc
    rw [names_nodes] at this
    rcases this with h1 | h1
    · exact hnew.1 h1
    · have : c.name ∈ (a' ++ b').map (·.name) := by rw [e, List.map_append]; exact List.mem_append_left _ h1
      rw [List.map_append, List.mem_append] at this
      exact this.elim hnew.2.1.1 hnew.2.1.2
  · intro hfree
    refine ⟨a' ++ b', sv, by simp [withSteps], hv, h.volumes, h.platform, ?_, hu', ?_⟩
    · intro x hx
      refine h.containers x ?_
      simp only [List.mem_append, List.mem_cons] at hx ⊢
      tauto
    · rw [hcl, nodes_append, deps_append, names_nodes]
      refine ⟨hd1, ?_⟩
      intro pre n post e d hdn
      rcases hd2.2 pre n post e d hdn with h1 | h1
      · rcases List.mem_cons.1 h1 with rfl | h1
        · exfalso
          have hn : n ∈ nodes b' := by rw [e]; simp
          obtain ⟨x, hx, rfl⟩ := List.mem_map.1 hn
          exact hfree x (by simp [hx]) hdn
        · exact Or.inl h1
      · exact Or.inr h1

/-- C127.  Two neighbouring steps of an accepted pipeline can change places exactly if the second
does not depend on the first. -/
theorem C127_swap_steps (p : Pipeline) (trusted : Bool) (a b : List (Option Container)) (c d : Container)
    (h : lint (.pipeline (withSteps p (a ++ some c :: some d :: b))) trusted = .ok ()) :
    lint (.pipeline (withSteps p (a ++ some d :: some c :: b))) trusted = .ok () ↔ c.name ∉ d.dependsOn := by
  obtain ⟨ss, sv, h⟩ := (C12_lint_iff _ _).1 h
  obtain ⟨a', b', rfl, rfl, e2⟩ := split_some h.steps_eq
  obtain ⟨b', rfl, e3⟩ := split_cons e2
  obtain ⟨b', rfl, rfl⟩ := split_cons e3
  have hcl : ∀ l, cloneNames (withSteps p l) = cloneNames p := fun _ => rfl
  have hv : p.services = sv.map some := h.services_eq
  have hd := h.deps
  have hu := h.unique
  rw [hcl] at hd hu
  have hu' : (cloneNames p ++ ((a' ++ d :: c :: b') ++ sv).map (·.name)).Nodup := by
    refine (List.Perm.nodup_iff ?_).1 hu
    refine List.Perm.append_left _ (List.Perm.map _ (List.Perm.append_right _ (List.Perm.append_left _ (List.Perm.swap _ _ _))))
  have hnew : c.name ∉ cloneNames p ∧ c.name ∉ a'.map (·.name) := by
    have : (c.name :: (cloneNames p ++ ((a' ++ d :: b') ++ sv).map (·.name))).Nodup := by
      refine (List.Perm.nodup_iff ?_).1 hu
      simp only [List.map_append, List.map_cons, List.append_assoc, List.cons_append]
      refine (List.Perm.append_left _ List.perm_middle).trans ?_
      exact List.perm_middle
    have := (List.nodup_cons.1 this).1
    simp only [List.mem_append, List.map_append, not_or] at this
    exact ⟨this.1, this.2.1.1⟩
  rw [nodes_append, deps_append, names_nodes] at hd
  obtain ⟨hd1, hd2⟩ := hd
  have hd2 : DepsEarlier (cloneNames p ++ a'.map (·.name)) ((c.name, c.dependsOn) :: (d.name, d.dependsOn) :: nodes b') := hd2
  rw [depsEarlier_cons, depsEarlier_cons] at hd2
  have key : DepsEarlier (cloneNames p) (nodes (a' ++ d :: c :: b')) ↔ c.name ∉ d.dependsOn := by
    rw [nodes_append, deps_append, names_nodes]
    show _ ∧ DepsEarlier (cloneNames p ++ a'.map (·.name)) ((d.name, d.dependsOn) :: (c.name, c.dependsOn) :: nodes b') ↔ _
    rw [depsEarlier_cons, depsEarlier_cons]
    constructor
    · rintro ⟨_, h1, _⟩ hc
      rcases List.mem_append.1 (h1 _ hc) with h1 | h1
      · exact hnew.1 h1
      · exact hnew.2 h1
    · intro hc
      refine ⟨hd1, ?_, ?_, ?_⟩
      · intro x hx
        rcases List.mem_cons.1 (hd2.2.1 x hx) with rfl | h1
        · exact absurd hx hc
        · exact h1
      · intro x hx
        exact List.mem_cons_of_mem _ (hd2.1 x hx)
      · refine (deps_congr ?_).1 hd2.2.2
        intro x
        simp only [List.mem_cons]
        tauto
  rw [C12_lint_iff, ← key]
  constructor
  · rintro ⟨ss, sv', h'⟩
    have e : ss = a' ++ d :: c :: b' := by
      have := h'.steps_eq
      rw [show (withSteps p (a'.map some ++ some d :: some c :: b'.map some)).steps = (a' ++ d :: c :: b').map some by
        simp [withSteps]] at this
      exact (map_some_inj this).symm
    subst e
    exact h'.deps
  · intro hdeps
    refine ⟨a' ++ d :: c :: b', sv, by simp [withSteps], hv, h.volumes, h.platform, ?_, hu', hdeps⟩
    intro x hx
    refine h.containers x ?_
    simp only [List.mem_append, List.mem_cons] at hx ⊢
    tauto

/-- C127.  Services can be removed and put in any order. -/
theorem C127_services (p : Pipeline) (trusted : Bool) (sv sv' : List (Option Container)) (hs : sv'.Subperm sv)
    (h : lint (.pipeline (withServices p sv)) trusted = .ok ()) : lint (.pipeline (withServices p sv')) trusted = .ok () := by
  obtain ⟨ss, s1, h⟩ := (C12_lint_iff _ _).1 h
  have e : sv = s1.map some := h.services_eq
  subst e
  obtain ⟨s2, hs2, e⟩ : ∃ s2 : List Container, s2.Subperm s1 ∧ sv' = s2.map some := by
    obtain ⟨l, hl1, hl2⟩ := hs
    obtain ⟨l', hl', rfl⟩ := List.sublist_map_iff.1 hl2
    refine ⟨sv'.filterMap id, ⟨l', ?_, hl'⟩, ?_⟩
    · have := hl1.filterMap id
      simpa [List.filterMap_map] using this
    · have hall : ∀ o ∈ sv', o ≠ none := by
        intro o ho hn
        have := hl1.mem_iff.2 ho
        subst hn
        simp at this
      clear hl1
      induction sv' with
      | nil => rfl
      | cons o l ih =>
        cases o with
        | none => exact absurd rfl (hall none (by simp))
        | some c =>
          show some c :: l = some c :: (l.filterMap id).map some
          rw [← ih fun o ho => hall o (List.mem_cons_of_mem _ ho)]
  subst e
  refine (C12_lint_iff _ _).2 ⟨ss, s2, h.steps_eq, rfl, h.volumes, h.platform, ?_, ?_, h.deps⟩
  · intro x hx
    refine h.containers x ?_
    rcases List.mem_append.1 hx with hx | hx
    · exact List.mem_append_left _ hx
    · exact List.mem_append_right _ (hs2.subset hx)
  · have hu := h.unique
    have : List.Subperm (cloneNames p ++ (ss ++ s2).map (·.name)) (cloneNames p ++ (ss ++ s1).map (·.name)) := by
      obtain ⟨l, h1, h2⟩ := hs2
      exact ⟨cloneNames p ++ (ss ++ l).map (·.name), List.Perm.append_left _ ((List.Perm.append_left _ h1).map _),
        List.Sublist.append_left ((List.Sublist.append_left h2 _).map _) _⟩
    obtain ⟨l, h1, h2⟩ := this
    exact h1.nodup_iff.1 (hu.sublist h2)

/-! ### Names -/

/-- A container under another name. -/
def Spec.renameContainer (f : String → String) (c : Container) : Container :=
  { c with name := f c.name, dependsOn := c.dependsOn.map f }

/-- A pipeline with other names for its steps and services. -/
def Spec.renamePipeline (f : String → String) (p : Pipeline) : Pipeline :=
  { p with steps := p.steps.map (Option.map (renameContainer f)), services := p.services.map (Option.map (renameContainer f)) }

namespace Edits

theorem refuse_congr {c d : Prop} [Decidable c] [Decidable d] (h : c ↔ d) (m : String) : refuse c m = refuse d m := by
  unfold refuse
  by_cases hc : c
  · rw [if_pos hc, if_pos (h.1 hc)]
  · rw [if_neg hc, if_neg fun x => hc (h.2 x)]

theorem checkContainer_rename {f : String → String} (hf : Function.Injective f) (h0 : f "" = "") (trusted : Bool) (c : Container) :
    checkContainer trusted (renameContainer f c) = checkContainer trusted c := by
  have : f c.name = "" ↔ c.name = "" := ⟨fun h => hf (h.trans h0.symm), fun h => by rw [h, h0]⟩
  unfold checkContainer renameContainer
  dsimp only
  rw [refuse_congr this]

theorem checkDeps_rename {f : String → String} (hf : Function.Injective f) (name : String) (names : List String) :
    ∀ ds, checkDeps (f name) (names.map f) (ds.map f) = checkDeps name names ds := by
  intro ds
  induction ds with
  | nil => rfl
  | cons d ds ih =>
    simp only [List.map_cons, checkDeps, ih, List.mem_map_of_injective hf, hf.eq_iff]

theorem checkSteps_rename {f : String → String} (hf : Function.Injective f) (h0 : f "" = "") (trusted : Bool) :
    ∀ (cs : List (Option Container)) (names : List String),
      checkSteps trusted (names.map f) (cs.map (Option.map (renameContainer f))) = (checkSteps trusted names cs).map (List.map f) := by
  intro cs
  induction cs with
  | nil => intro names; rfl
  | cons o cs ih =>
    intro names
    cases o with
    | none => rfl
    | some c =>
      have e1 : (renameContainer f c).name ∈ names.map f ↔ c.name ∈ names := List.mem_map_of_injective hf
      have e2 := checkDeps_rename hf c.name (c.name :: names) c.dependsOn
      have e3 := ih (c.name :: names)
      simp only [List.map_cons] at e2 e3
      show (do
        refuse ((renameContainer f c).name ∈ names.map f) errDuplicateStepName
        checkContainer trusted (renameContainer f c)
        checkDeps (f c.name) (f c.name :: names.map f) (c.dependsOn.map f)
        checkSteps trusted (f c.name :: names.map f) (cs.map (Option.map (renameContainer f)))) = Except.map _ (do
        refuse (c.name ∈ names) errDuplicateStepName
        checkContainer trusted c
        checkDeps c.name (c.name :: names) c.dependsOn
        checkSteps trusted (c.name :: names) cs)
      rw [checkContainer_rename hf h0, e2, e3]
      simp only [refuse, e1]
      by_cases h1 : c.name ∈ names
      · simp only [h1, if_true]; rfl
      · simp only [h1, if_false]
        cases checkContainer trusted c with
        | error e => rfl
        | ok u =>
          cases checkDeps c.name (c.name :: names) c.dependsOn with
          | error e => rfl
          | ok u => rfl

theorem checkServices_rename {f : String → String} (hf : Function.Injective f) (h0 : f "" = "") (trusted : Bool) :
    ∀ (cs : List (Option Container)) (names : List String),
      checkServices trusted (names.map f) (cs.map (Option.map (renameContainer f))) = checkServices trusted names cs := by
  intro cs
  induction cs with
  | nil => intro names; rfl
  | cons o cs ih =>
    intro names
    cases o with
    | none => rfl
    | some c =>
      have e1 : (renameContainer f c).name ∈ names.map f ↔ c.name ∈ names := List.mem_map_of_injective hf
      have e3 := ih (c.name :: names)
      simp only [List.map_cons] at e3
      show (do
        refuse ((renameContainer f c).name ∈ names.map f) errDuplicateStepName
        checkContainer trusted (renameContainer f c)
        checkServices trusted (f c.name :: names.map f) (cs.map (Option.map (renameContainer f)))) = (do
        refuse (c.name ∈ names) errDuplicateStepName
        checkContainer trusted c
        checkServices trusted (c.name :: names) cs)
      rw [checkContainer_rename hf h0, e3]
      simp only [refuse, e1]

end Edits

/-- C127.  Other names make no difference, not even to what is reported: only `clone` and the empty
name mean something. -/
theorem C127_rename (f : String → String) (hf : Function.Injective f) (h0 : f "" = "") (hc : f "clone" = "clone")
    (p : Pipeline) (trusted : Bool) : lint (.pipeline (renamePipeline f p)) trusted = lint (.pipeline p) trusted := by
  show checkPipeline _ _ = checkPipeline _ _
  have e : (if p.clone.disable = false then ["clone"] else []) = (if p.clone.disable = false then ["clone"] else []).map f := by
    cases p.clone.disable <;> simp [hc]
  unfold checkPipeline
  have e1 : (renamePipeline f p).clone = p.clone := rfl
  have e2 : (renamePipeline f p).volumes = p.volumes := rfl
  have e3 : (renamePipeline f p).platform = p.platform := rfl
  have e4 : (renamePipeline f p).steps = p.steps.map (Option.map (renameContainer f)) := rfl
  have e5 : (renamePipeline f p).services = p.services.map (Option.map (renameContainer f)) := rfl
  rw [e1, e2, e3, e4, e5]
  congr 1
  funext _
  congr 1
  funext _
  show (do
    let names ← checkSteps trusted (if p.clone.disable = false then ["clone"] else []) _
    checkServices trusted names _) = (do
    let names ← checkSteps trusted (if p.clone.disable = false then ["clone"] else []) p.steps
    checkServices trusted names p.services)
  have e' := checkSteps_rename hf h0 trusted p.steps (if p.clone.disable = false then ["clone"] else [])
  rw [← e] at e'
  rw [e']
  generalize checkSteps trusted (if p.clone.disable = false then ["clone"] else []) p.steps = o
  cases o with
  | error x => rfl
  | ok names => exact checkServices_rename hf h0 trusted p.services names

/-! ### What is not looked at -/

/-- What the linter looks at in a container. -/
def Spec.lintedContainer (c : Container) : Container where
  build := c.build.map fun b => { image := b.image }
  dependsOn := c.dependsOn
  devices := c.devices
  dns := c.dns
  dnsSearch := c.dnsSearch
  extraHosts := c.extraHosts
  image := c.image
  network := c.network
  name := c.name
  ports := c.ports
  privileged := c.privileged
  volumes := c.volumes

/-- What the linter looks at in a pipeline. -/
def Spec.lintedPipeline (p : Pipeline) : Pipeline where
  clone := { disable := p.clone.disable }
  platform := p.platform
  steps := p.steps.map (Option.map lintedContainer)
  services := p.services.map (Option.map lintedContainer)
  volumes := p.volumes

namespace Edits

theorem checkContainer_linted (trusted : Bool) (c : Container) :
    checkContainer trusted (lintedContainer c) = checkContainer trusted c := by
  have h1 : (c.build.map fun b => ({ image := b.image } : Build)) = none ↔ c.build = none := by simp
  have h2 : (c.build.map fun b => ({ image := b.image } : Build)).map (fun b => b.image) = c.build.map (fun b => b.image) := by
    rw [Option.map_map]; rfl
  unfold checkContainer lintedContainer
  dsimp only
  rw [refuse_congr (and_congr_left' h1), h2]

theorem checkSteps_linted (trusted : Bool) : ∀ (cs : List (Option Container)) (names : List String),
    checkSteps trusted names (cs.map (Option.map lintedContainer)) = checkSteps trusted names cs := by
  intro cs
  induction cs with
  | nil => intro names; rfl
  | cons o cs ih =>
    intro names
    cases o with
    | none => rfl
    | some c =>
      show (do
        refuse (c.name ∈ names) errDuplicateStepName
        checkContainer trusted (lintedContainer c)
        checkDeps c.name (c.name :: names) c.dependsOn
        checkSteps trusted (c.name :: names) (cs.map (Option.map lintedContainer))) = _
      rw [checkContainer_linted, ih]
      rfl

theorem checkServices_linted (trusted : Bool) : ∀ (cs : List (Option Container)) (names : List String),
    checkServices trusted names (cs.map (Option.map lintedContainer)) = checkServices trusted names cs := by
  intro cs
  induction cs with
  | nil => intro names; rfl
  | cons o cs ih =>
    intro names
    cases o with
    | none => rfl
    | some c =>
      show (do
        refuse (c.name ∈ names) errDuplicateStepName
        checkContainer trusted (lintedContainer c)
        checkServices trusted (c.name :: names) (cs.map (Option.map lintedContainer))) = _
      rw [checkContainer_linted, ih]
      rfl

end Edits

/-- C127.  Commands, variables, settings, conditions, limits and so on make no difference, not even to
what is reported. -/
theorem C127_looks_at (p q : Pipeline) (h : lintedPipeline p = lintedPipeline q) (trusted : Bool) :
    lint (.pipeline p) trusted = lint (.pipeline q) trusted := by
  have key : ∀ p : Pipeline, lint (.pipeline (lintedPipeline p)) trusted = lint (.pipeline p) trusted := by
    intro p
    show checkPipeline _ _ = checkPipeline _ _
    unfold checkPipeline lintedPipeline
    dsimp only
    rw [checkSteps_linted]
    simp only [checkServices_linted]
  rw [← key p, ← key q, h]

/-- C127.  What trust is needed for, exactly. -/
theorem C127_trust_iff (p : Pipeline) :
    lint (.pipeline p) false = .ok () ↔ lint (.pipeline p) true = .ok () ∧
      (∀ c, some c ∈ p.steps ++ p.services → c.privileged = false ∧ c.devices = [] ∧ c.dns = [] ∧ c.dnsSearch = [] ∧
        c.extraHosts = [] ∧ c.network = "" ∧ ∀ o ∈ c.ports, ∃ q, o = some q ∧ q.host = 0) ∧
      ∀ v, some v ∈ p.volumes → v.hostPath = none ∧ ∀ d, v.emptyDir = some d → d.medium ≠ "memory" := by
  rw [C12_lint_iff, C12_lint_iff]
  constructor
  · rintro ⟨ss, sv, h⟩
    refine ⟨⟨ss, sv, h.steps_eq, h.services_eq, ?_, h.platform, ?_, h.unique, h.deps⟩, ?_, ?_⟩
    · intro v hv
      obtain ⟨w, rfl, hw⟩ := h.volumes v hv
      exact ⟨w, rfl, hw.name, by simp⟩
    · intro c hc
      have := h.containers c hc
      exact ⟨this.name, this.image, this.build, this.mounts, by simp⟩
    · intro c hc
      rw [h.steps_eq, h.services_eq, ← List.map_append] at hc
      obtain ⟨d, hd, e⟩ := List.mem_map.1 hc
      cases e
      exact (h.containers c hd).untrusted rfl
    · intro v hv
      obtain ⟨w, e, hw⟩ := h.volumes _ hv
      cases e
      exact hw.untrusted rfl
  · rintro ⟨⟨ss, sv, h⟩, hc, hv⟩
    refine ⟨ss, sv, h.steps_eq, h.services_eq, ?_, h.platform, ?_, h.unique, h.deps⟩
    · intro v hm
      obtain ⟨w, rfl, hw⟩ := h.volumes v hm
      exact ⟨w, rfl, hw.name, fun _ => hv w hm⟩
    · intro c hm
      have := h.containers c hm
      refine ⟨this.name, this.image, this.build, this.mounts, fun _ => hc c ?_⟩
      rw [h.steps_eq, h.services_eq, ← List.map_append]
      exact List.mem_map_of_mem hm

/-! ### Manifests -/

namespace Edits

theorem pipelines_append (rs rs' : List Resource) : pipelines ⟨rs ++ rs'⟩ = pipelines ⟨rs⟩ ++ pipelines ⟨rs'⟩ := by
  simp [pipelines, List.filterMap_append]

theorem pipelines_cons (p : Pipeline) (rs : List Resource) : pipelines ⟨.pipeline p :: rs⟩ = p :: pipelines ⟨rs⟩ := rfl

theorem pnodes_append (ps qs : List Pipeline) : pipelineNodes (ps ++ qs) = pipelineNodes ps ++ pipelineNodes qs := by
  simp [pipelineNodes]

theorem names_pnodes (ps : List Pipeline) : (pipelineNodes ps).map Prod.fst = ps.map (·.name) := by
  simp [pipelineNodes, Function.comp_def]

end Edits

/-- C127.  Only pipelines matter, and their order. -/
theorem C127_others (rs : List Resource) (trusted : Bool) :
    lintManifest ⟨(pipelines ⟨rs⟩).map .pipeline⟩ trusted = lintManifest ⟨rs⟩ trusted := by
  unfold lintManifest
  generalize ([] : List String) = names
  induction rs generalizing names with
  | nil => rfl
  | cons r rs ih =>
    cases r with
    | pipeline p =>
      rw [pipelines_cons]
      simp only [List.map_cons, checkPipelines, ih]
    | cron c => exact ih names
    | secret c => exact ih names
    | signature c => exact ih names
    | registry c => exact ih names

/-- C127.  Accepted manifests can be put one after the other exactly if they have no names in common. -/
theorem C127_concat (a b : List Resource) (trusted : Bool) (ha : lintManifest ⟨a⟩ trusted = .ok ())
    (hb : lintManifest ⟨b⟩ trusted = .ok ()) :
    lintManifest ⟨a ++ b⟩ trusted = .ok () ↔ ∀ p ∈ pipelines ⟨a⟩, ∀ q ∈ pipelines ⟨b⟩, p.name ≠ q.name := by
  rw [C15_manifest_iff] at ha hb ⊢
  obtain ⟨a1, a2, a3⟩ := ha
  obtain ⟨b1, b2, b3⟩ := hb
  rw [pipelines_append, List.map_append, List.nodup_append, pnodes_append, deps_append]
  constructor
  · rintro ⟨⟨_, _, h⟩, _⟩ p hp q hq
    exact h _ (List.mem_map_of_mem hp) _ (List.mem_map_of_mem hq)
  · intro h
    refine ⟨⟨a1, b1, ?_⟩, ⟨a2, ?_⟩, ?_⟩
    · intro x hx y hy
      obtain ⟨p, hp, rfl⟩ := List.mem_map.1 hx
      obtain ⟨q, hq, rfl⟩ := List.mem_map.1 hy
      exact h p hp q hq
    · intro pre n post e d hd
      rcases b2 pre n post e d hd with h1 | h1
      · cases h1
      · exact Or.inr h1
    · intro p hp
      rcases List.mem_append.1 hp with hp | hp
      · exact a3 p hp
      · exact b3 p hp

/-- C127.  What stands at the beginning of an accepted manifest is accepted by itself. -/
theorem C127_prefix (a b : List Resource) (trusted : Bool) (h : lintManifest ⟨a ++ b⟩ trusted = .ok ()) :
    lintManifest ⟨a⟩ trusted = .ok () := by
  rw [C15_manifest_iff] at h ⊢
  obtain ⟨h1, h2, h3⟩ := h
  rw [pipelines_append] at h1 h2 h3
  rw [List.map_append] at h1
  rw [pnodes_append, deps_append] at h2
  exact ⟨(List.nodup_append.1 h1).1, h2.1, fun p hp => h3 p (List.mem_append_left _ hp)⟩

/-- C127.  A pipeline of an accepted manifest can be removed exactly if none depends on it. -/
theorem C127_remove_pipeline (a b : List Resource) (p : Pipeline) (trusted : Bool)
    (h : lintManifest ⟨a ++ .pipeline p :: b⟩ trusted = .ok ()) :
    lintManifest ⟨a ++ b⟩ trusted = .ok () ↔ ∀ q, .pipeline q ∈ a ++ b → p.name ∉ q.dependsOn := by
  have hmem : ∀ q, Resource.pipeline q ∈ a ++ b ↔ q ∈ pipelines ⟨a⟩ ++ pipelines ⟨b⟩ := by
    intro q
    rw [← pipelines_append]
    simp only [pipelines, List.mem_filterMap]
    constructor
    · intro h; exact ⟨_, h, rfl⟩
    · rintro ⟨r, hr, e⟩
      cases r <;> simp at e
      subst e; exact hr
  simp only [hmem]
  rw [C15_manifest_iff] at h ⊢
  rw [pipelines_append, pipelines_cons] at h
  rw [pipelines_append]
  generalize pipelines ⟨a⟩ = A at *
  generalize pipelines ⟨b⟩ = B at *
  obtain ⟨h1, h2, h3⟩ := h
  have h1' : (p.name :: (A ++ B).map (·.name)).Nodup := by
    refine (List.Perm.nodup_iff ?_).1 h1
    rw [List.map_append, List.map_append, List.map_cons]
    exact List.perm_middle
  obtain ⟨hnew, hnd⟩ := List.nodup_cons.1 h1'
  rw [pnodes_append, deps_append, names_pnodes, List.nil_append] at h2
  obtain ⟨h2a, h2b⟩ := h2
  have h2b : DepsEarlier (A.map (·.name)) ((p.name, p.dependsOn) :: pipelineNodes B) := h2b
  rw [depsEarlier_cons] at h2b
  constructor
  · rintro ⟨_, h', _⟩ q hq hc
    obtain ⟨x, y, e⟩ := List.append_of_mem hq
    have := h' (pipelineNodes x) (q.name, q.dependsOn) (pipelineNodes y) (by rw [e]; simp [pipelineNodes]) _ hc
    rw [names_pnodes] at this
    rcases this with h1 | h1
    · cases h1
    · exact hnew (by rw [e, List.map_append]; exact List.mem_append_left _ h1)
  · intro hfree
    refine ⟨hnd, ?_, fun q hq => h3 q (by simp only [List.mem_append, List.mem_cons] at hq ⊢; tauto)⟩
    rw [pnodes_append, deps_append, names_pnodes, List.nil_append]
    refine ⟨h2a, ?_⟩
    intro pre n post e d hdn
    rcases h2b.2 pre n post e d hdn with h1 | h1
    · rcases List.mem_cons.1 h1 with rfl | h1
      · exfalso
        have hn : n ∈ pipelineNodes B := by rw [e]; simp
        obtain ⟨x, hx, rfl⟩ := List.mem_map.1 hn
        exact hfree x (by simp [hx]) hdn
      · exact Or.inl h1
    · exact Or.inr h1

/-- C127.  Neighbouring pipelines of an accepted manifest can change places exactly if the second does
not depend on the first. -/
theorem C127_swap_pipelines (a b : List Resource) (p q : Pipeline) (trusted : Bool)
    (h : lintManifest ⟨a ++ .pipeline p :: .pipeline q :: b⟩ trusted = .ok ()) :
    lintManifest ⟨a ++ .pipeline q :: .pipeline p :: b⟩ trusted = .ok () ↔ p.name ∉ q.dependsOn := by
  rw [C15_manifest_iff] at h ⊢
  rw [pipelines_append, pipelines_cons, pipelines_cons] at h ⊢
  generalize pipelines ⟨a⟩ = A at *
  generalize pipelines ⟨b⟩ = B at *
  obtain ⟨h1, h2, h3⟩ := h
  have hnew : p.name ∉ A.map (·.name) := by
    intro hc
    rw [List.map_append, List.map_cons] at h1
    exact (List.nodup_append.1 h1).2.2 _ hc _ List.mem_cons_self rfl
  rw [pnodes_append, deps_append, names_pnodes, List.nil_append] at h2 ⊢
  obtain ⟨h2a, h2b⟩ := h2
  have h2b : DepsEarlier (A.map (·.name)) ((p.name, p.dependsOn) :: (q.name, q.dependsOn) :: pipelineNodes B) := h2b
  rw [depsEarlier_cons, depsEarlier_cons] at h2b
  constructor
  · rintro ⟨_, ⟨_, h'⟩, _⟩ hc
    have h' : DepsEarlier (A.map (·.name)) ((q.name, q.dependsOn) :: (p.name, p.dependsOn) :: pipelineNodes B) := h'
    rw [depsEarlier_cons] at h'
    exact hnew (h'.1 _ hc)
  · intro hc
    refine ⟨?_, ⟨h2a, ?_⟩, fun x hx => h3 x (by simp only [List.mem_append, List.mem_cons] at hx ⊢; tauto)⟩
    · refine (List.Perm.nodup_iff ?_).1 h1
      exact List.Perm.map _ (List.Perm.append_left _ (List.Perm.swap _ _ _))
    · show DepsEarlier (A.map (·.name)) ((q.name, q.dependsOn) :: (p.name, p.dependsOn) :: pipelineNodes B)
      rw [depsEarlier_cons, depsEarlier_cons]
      refine ⟨?_, fun x hx => List.mem_cons_of_mem _ (h2b.1 x hx), ?_⟩
      · intro x hx
        rcases List.mem_cons.1 (h2b.2.1 x hx) with rfl | h1
        · exact absurd hx hc
        · exact h1
      · refine (deps_congr ?_).1 h2b.2.2
        intro x
        simp only [List.mem_cons]
        tauto

/-- A resource under another name, if it is a pipeline. -/
def Spec.renameResource (f : String → String) : Resource → Resource
  | .pipeline p => .pipeline { p with name := f p.name, dependsOn := p.dependsOn.map f }
  | r => r

/-- C127.  Other names for pipelines make no difference, not even to what is reported. -/
theorem C127_rename_pipelines (f : String → String) (hf : Function.Injective f) (rs : List Resource) (trusted : Bool) :
    lintManifest ⟨rs.map (renameResource f)⟩ trusted = lintManifest ⟨rs⟩ trusted := by
  have hdeps : ∀ (name : String) (names ds : List String),
      checkPipelineDeps (f name) (names.map f) (ds.map f) = checkPipelineDeps name names ds := by
    intro name names ds
    induction ds with
    | nil => rfl
    | cons d ds ih => simp only [List.map_cons, checkPipelineDeps, ih, List.mem_map_of_injective hf, hf.eq_iff]
  have key : ∀ (rs : List Resource) (names : List String),
      checkPipelines (names.map f) (rs.map (renameResource f)) = checkPipelines names rs := by
    intro rs
    induction rs with
    | nil => intro names; rfl
    | cons r rs ih =>
      intro names
      cases r with
      | pipeline p =>
        have e2 := hdeps p.name (p.name :: names) p.dependsOn
        have e3 := ih (p.name :: names)
        simp only [List.map_cons] at e2 e3
        simp only [List.map_cons, renameResource, checkPipelines]
        rw [e2, e3, refuse_congr (List.mem_map_of_injective hf)]
      | cron c => exact ih names
      | secret c => exact ih names
      | signature c => exact ih names
      | registry c => exact ih names
  exact key rs []

/-! ### Examples -/

/-- A step that can be added to the pipeline of the other examples, with what it depends on. -/
example : lint (.pipeline (withSteps exPipeline (exPipeline.steps ++ [some { name := "deploy", image := "alpine", dependsOn := ["test", "clone"] }])))
    false = .ok () :=
  (C127_add_step _ _ _).2 ⟨by decide, by decide, by decide, by decide, by decide, by decide⟩

/-- It cannot depend on a service. -/
example : lint (.pipeline (withSteps exPipeline (exPipeline.steps ++ [some { name := "deploy", image := "alpine", dependsOn := ["redis"] }])))
    false ≠ .ok () := by
  rw [Ne, C127_add_step]
  decide

/-- The first step cannot be removed, nor put behind the second; the second can be removed. -/
example : lint (.pipeline (withSteps exPipeline [some { name := "test", image := "golang", dependsOn := ["clone", "build"] }])) false ≠ .ok () ∧
    lint (.pipeline (withSteps exPipeline [some { name := "test", image := "golang", dependsOn := ["clone", "build"] },
      some { name := "build", image := "golang", commands := ["go build"] }])) false ≠ .ok () ∧
    lint (.pipeline (withSteps exPipeline [some { name := "build", image := "golang", commands := ["go build"] }])) false = .ok () := by
  refine ⟨fun h => ?_, fun h => ?_, ?_⟩
  · have := (C127_remove_step exPipeline false [] [some { name := "test", image := "golang", dependsOn := ["clone", "build"] }]
      { name := "build", image := "golang", commands := ["go build"] } (by decide)).1 h
    exact absurd (this _ (List.mem_singleton.2 rfl)) (by decide)
  · have := (C127_swap_steps exPipeline false [] [] { name := "build", image := "golang", commands := ["go build"] }
      { name := "test", image := "golang", dependsOn := ["clone", "build"] } (by decide)).1 h
    exact absurd this (by decide)
  · exact (C127_remove_step exPipeline false [some { name := "build", image := "golang", commands := ["go build"] }] []
      { name := "test", image := "golang", dependsOn := ["clone", "build"] } (by decide)).2 (by simp)

/-- Files with pipelines of the same name cannot be put together. -/
example : lintManifest ⟨[.pipeline { name := "a" }] ++ [.secret {}, .pipeline { name := "b" }]⟩ false = .ok () ∧
    lintManifest ⟨[.pipeline { name := "a" }] ++ [.secret {}, .pipeline { name := "a" }]⟩ false ≠ .ok () := by
  refine ⟨(C127_concat _ _ _ (by decide) (by decide)).2 ?_, fun h => ?_⟩
  · decide
  · exact (C127_concat _ _ _ (by decide) (by decide)).1 h { name := "a" } List.mem_cons_self { name := "a" } List.mem_cons_self rfl

end Drone
