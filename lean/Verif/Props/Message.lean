/- C124: what the linter says. -/
import Verif.Spec.Message

namespace Drone
open Spec

/-! ### Lemmas -/

theorem bind_error (a : Check) {β : Type} (f : Except Fail β) (e : Fail) :
    (a >>= fun _ => f) = .error e ↔ a = .error e ∨ (a = .ok () ∧ f = .error e) := by
  cases a with
  | error e' => simp [bind, Except.bind]
  | ok u => cases u; simp [bind, Except.bind]

theorem refuse_error {c : Prop} [Decidable c] (m : String) (e : Fail) : refuse c m = .error e ↔ c ∧ e = .err m := by
  unfold refuse
  by_cases h : c <;> simp [h, eq_comm]

theorem whenSome_error {α : Type} (v : Option α) (check : α → Check) (e : Fail) :
    whenSome v check = .error e ↔ ∃ a, v = some a ∧ check a = .error e := by
  cases v <;> simp [whenSome]

theorem checkPorts_error {trusted : Bool} {ps : List (Option Port)} {e : Fail} (h : checkPorts trusted ps = .error e) :
    trusted = false ∧ ((e = .panic ∧ none ∈ ps) ∨
      (e = .err "linter: untrusted repositories cannot map to a host port" ∧ ∃ p, some p ∈ ps ∧ p.host ≠ 0)) := by
  induction ps with
  | nil => simp [checkPorts] at h
  | cons p ps ih =>
    unfold checkPorts at h
    rcases (bind_error _ _ _).1 h with h | ⟨_, h⟩
    · cases trusted with
      | true => simp [checkPort] at h
      | false =>
        refine ⟨rfl, ?_⟩
        cases p with
        | none => left; simp only [checkPort] at h; cases h; simp
        | some q =>
          right
          simp only [checkPort, Bool.false_eq_true, if_false] at h
          split_ifs at h with hh
          cases h
          exact ⟨rfl, q, by simp, hh⟩
    · obtain ⟨h1, h2⟩ := ih h
      refine ⟨h1, ?_⟩
      rcases h2 with ⟨rfl, h2⟩ | ⟨rfl, q, h2, h3⟩
      · exact .inl ⟨rfl, by simp [h2]⟩
      · exact .inr ⟨rfl, q, by simp [h2], h3⟩

theorem checkMounts_error {ms : List (Option VolumeMount)} {e : Fail} (h : checkMounts ms = .error e) :
    (e = .panic ∧ none ∈ ms) ∨
      ∃ m, some m ∈ ms ∧ ReservedVolume m.name ∧ e = .err ("linter: invalid volume name: " ++ m.name) := by
  induction ms with
  | nil => simp [checkMounts] at h
  | cons m ms ih =>
    cases m with
    | none => left; simp only [checkMounts] at h; cases h; simp
    | some v =>
      unfold checkMounts at h
      split_ifs at h with hv
      · cases h
        exact .inr ⟨v, by simp, (mem_reserved _).1 hv, rfl⟩
      · rcases ih h with ⟨rfl, h2⟩ | ⟨q, h2, h3⟩
        · exact .inl ⟨rfl, by simp [h2]⟩
        · exact .inr ⟨q, by simp [h2], h3⟩

/-- A container is refused for what is wrong with it. -/
theorem checkContainer_error {trusted : Bool} {c : Container} {e : Fail} (h : checkContainer trusted c = .error e) :
    (e = .panic ∧ (none ∈ c.volumes ∨ (trusted = false ∧ none ∈ c.ports))) ∨
      ∃ m, e = .err m ∧ ContainerDefect trusted c m := by
  unfold checkContainer at h
  simp only [bind_error, refuse_error] at h
  rcases h with h | ⟨_, ⟨⟨h1, h2⟩, rfl⟩ | ⟨_, ⟨h, rfl⟩ | ⟨_, ⟨h, rfl⟩ | ⟨_, ⟨⟨h1, h2⟩, rfl⟩ | ⟨_, ⟨⟨h1, h2⟩, rfl⟩ |
    ⟨_, ⟨⟨h1, h2⟩, rfl⟩ | ⟨_, ⟨⟨h1, h2⟩, rfl⟩ | ⟨_, ⟨⟨h1, h2⟩, rfl⟩ | ⟨_, ⟨⟨h1, h2⟩, rfl⟩ | ⟨_, h⟩⟩⟩⟩⟩⟩⟩⟩⟩⟩
  · obtain ⟨ht, ⟨rfl, g⟩ | ⟨rfl, p, g, hp⟩⟩ := checkPorts_error h
    · exact .inl ⟨rfl, .inr ⟨ht, g⟩⟩
    · exact .inr ⟨_, rfl, .port p ht g hp⟩
  · exact .inr ⟨_, rfl, .image h1 h2⟩
  · obtain ⟨b, hb, hi⟩ := Option.map_eq_some_iff.1 h
    exact .inr ⟨_, rfl, .build b hb hi⟩
  · exact .inr ⟨_, rfl, .name h⟩
  · exact .inr ⟨_, rfl, .privileged h1 h2⟩
  · exact .inr ⟨_, rfl, .devices h1 (List.length_pos_iff.1 h2)⟩
  · exact .inr ⟨_, rfl, .dns h1 (List.length_pos_iff.1 h2)⟩
  · exact .inr ⟨_, rfl, .dnsSearch h1 (List.length_pos_iff.1 h2)⟩
  · exact .inr ⟨_, rfl, .extraHosts h1 (List.length_pos_iff.1 h2)⟩
  · exact .inr ⟨_, rfl, .network h1 h2⟩
  · rcases checkMounts_error h with ⟨rfl, g⟩ | ⟨m, h1, h2, rfl⟩
    · exact .inl ⟨rfl, .inl g⟩
    · exact .inr ⟨_, rfl, .mount m h1 h2⟩

theorem checkVolumes_error {trusted : Bool} {vs : List (Option Volume)} {e : Fail} (h : checkVolumes trusted vs = .error e) :
    (e = .panic ∧ none ∈ vs) ∨ ∃ v m, some v ∈ vs ∧ e = .err m ∧ VolumeDefect trusted v m := by
  induction vs with
  | nil => simp [checkVolumes] at h
  | cons v vs ih =>
    cases v with
    | none => left; simp only [checkVolumes] at h; cases h; simp
    | some w =>
      unfold checkVolumes at h
      simp only [bind_error, refuse_error, whenSome_error] at h
      rcases h with ⟨d, h1, h2⟩ | ⟨_, ⟨d, h1, h2⟩ | ⟨_, ⟨h1, rfl⟩ | ⟨_, h⟩⟩⟩
      · unfold checkEmptyDirVolume at h2
        split_ifs at h2 with hd
        cases h2
        exact .inr ⟨w, _, by simp, rfl, .memory d hd.1 h1 hd.2⟩
      · unfold checkHostPathVolume at h2
        split_ifs at h2 with hd
        cases h2
        exact .inr ⟨w, _, by simp, rfl, .host hd (by simp [h1])⟩
      · exact .inr ⟨w, _, by simp, rfl, .name ((mem_reserved _).1 h1)⟩
      · rcases ih h with ⟨rfl, h2⟩ | ⟨q, m, h2, h3⟩
        · exact .inl ⟨rfl, by simp [h2]⟩
        · exact .inr ⟨q, m, by simp [h2], h3⟩

theorem checkPlatform_error {p : Platform} {e : Fail} (h : checkPlatform p = .error e) :
    ∃ m, e = .err m ∧ PlatformDefect p m := by
  unfold checkPlatform lintOS lintArch at h
  split_ifs at h with h1 h2
  · cases h
    exact ⟨_, rfl, .os (by simp only [List.mem_cons] at h1 ⊢; tauto)⟩
  · cases h
    exact ⟨_, rfl, .arch (by simp only [List.mem_cons] at h2 ⊢; tauto)⟩

theorem checkDeps_error {name : String} {names ds : List String} {e : Fail} (h : checkDeps name names ds = .error e) :
    (e = .err "linter: invalid or unknown step dependency" ∧ ∃ d ∈ ds, d ∉ names) ∨
      (e = .err "linter: cyclical step dependency detected" ∧ name ∈ ds) := by
  induction ds with
  | nil => simp [checkDeps] at h
  | cons d ds ih =>
    unfold checkDeps at h
    split_ifs at h with h1 h2
    · cases h
      exact .inr ⟨rfl, by simp [h2]⟩
    rotate_left
    · cases h
      exact .inl ⟨rfl, d, by simp, h1⟩
    · rcases ih h with ⟨rfl, d, h3, h4⟩ | ⟨rfl, h3⟩
      · exact .inl ⟨rfl, d, by simp [h3], h4⟩
      · exact .inr ⟨rfl, by simp [h3]⟩

/-- What is wrong at one of the steps `cs`, where `names` are the names before them. -/
inductive StepDefect (trusted : Bool) (names : List String) (cs : List (Option Container)) : String → Prop
  | container (c : Container) (m : String) : some c ∈ cs → ContainerDefect trusted c m → StepDefect trusted names cs m
  | duplicate (pre : List (Option Container)) (c : Container) (post : List (Option Container)) :
      cs = pre ++ some c :: post → c.name ∈ names ++ namesOf pre →
      StepDefect trusted names cs "linter: duplicate step names"
  | missing (pre : List (Option Container)) (c : Container) (post : List (Option Container)) (d : String) :
      cs = pre ++ some c :: post → d ∈ c.dependsOn → d ≠ c.name → d ∉ names ++ namesOf pre →
      StepDefect trusted names cs "linter: invalid or unknown step dependency"
  | self (c : Container) : some c ∈ cs → c.name ∈ c.dependsOn →
      StepDefect trusted names cs "linter: cyclical step dependency detected"

theorem mem_shift {x n : String} {names : List String} {pre : List (Option Container)} {c : Container} (hn : c.name = n) :
    x ∈ (n :: names) ++ namesOf pre ↔ x ∈ names ++ namesOf (some c :: pre) := by
  subst hn
  simp only [namesOf, List.filterMap_cons, Option.map_some, List.mem_append, List.mem_cons]
  tauto

theorem StepDefect.shift {trusted : Bool} {names : List String} {c : Container} {cs : List (Option Container)} {m : String}
    (h : StepDefect trusted (c.name :: names) cs m) : StepDefect trusted names (some c :: cs) m := by
  cases h with
  | container c' m h1 h2 => exact .container c' m (by simp [h1]) h2
  | duplicate pre c' post h1 h2 =>
    exact .duplicate (some c :: pre) c' post (by simp [h1]) ((mem_shift rfl).1 h2)
  | missing pre c' post d h1 h2 h3 h4 =>
    exact .missing (some c :: pre) c' post d (by simp [h1]) h2 h3 (fun h => h4 ((mem_shift rfl).2 h))
  | self c' h1 h2 => exact .self c' (by simp [h1]) h2

theorem checkSteps_error {trusted : Bool} {names : List String} {cs : List (Option Container)} {e : Fail}
    (h : checkSteps trusted names cs = .error e) :
    (e = .panic ∧ (none ∈ cs ∨ ∃ c, some c ∈ cs ∧ (none ∈ c.volumes ∨ (trusted = false ∧ none ∈ c.ports)))) ∨
      ∃ m, e = .err m ∧ StepDefect trusted names cs m := by
  induction cs generalizing names with
  | nil => simp [checkSteps] at h
  | cons c cs ih =>
    cases c with
    | none => left; simp only [checkSteps] at h; cases h; simp
    | some c =>
      unfold checkSteps at h
      simp only [bind_error, refuse_error] at h
      rcases h with ⟨h1, rfl⟩ | ⟨h0, h | ⟨_, h | ⟨_, h⟩⟩⟩
      · exact .inr ⟨_, rfl, .duplicate [] c cs rfl (by simp [namesOf, h1])⟩
      · rcases checkContainer_error h with ⟨rfl, g⟩ | ⟨m, rfl, g⟩
        · exact .inl ⟨rfl, .inr ⟨c, by simp, g⟩⟩
        · exact .inr ⟨m, rfl, .container c m (by simp) g⟩
      · rcases checkDeps_error h with ⟨rfl, d, h1, h2⟩ | ⟨rfl, h1⟩
        · simp only [List.mem_cons, not_or] at h2
          exact .inr ⟨_, rfl, .missing [] c cs d rfl h1 h2.1 (by simp [namesOf, h2.2])⟩
        · exact .inr ⟨_, rfl, .self c (by simp) h1⟩
      · rcases ih h with ⟨rfl, g⟩ | ⟨m, rfl, g⟩
        · refine .inl ⟨rfl, ?_⟩
          rcases g with g | ⟨c', g, g'⟩
          · exact .inl (by simp [g])
          · exact .inr ⟨c', by simp [g], g'⟩
        · exact .inr ⟨m, rfl, g.shift⟩

/-- What is wrong at one of the services. -/
inductive ServiceDefect (trusted : Bool) (names : List String) (cs : List (Option Container)) : String → Prop
  | container (c : Container) (m : String) : some c ∈ cs → ContainerDefect trusted c m → ServiceDefect trusted names cs m
  | duplicate (pre : List (Option Container)) (c : Container) (post : List (Option Container)) :
      cs = pre ++ some c :: post → c.name ∈ names ++ namesOf pre →
      ServiceDefect trusted names cs "linter: duplicate step names"

theorem checkServices_error {trusted : Bool} {names : List String} {cs : List (Option Container)} {e : Fail}
    (h : checkServices trusted names cs = .error e) :
    (e = .panic ∧ (none ∈ cs ∨ ∃ c, some c ∈ cs ∧ (none ∈ c.volumes ∨ (trusted = false ∧ none ∈ c.ports)))) ∨
      ∃ m, e = .err m ∧ ServiceDefect trusted names cs m := by
  induction cs generalizing names with
  | nil => simp [checkServices] at h
  | cons c cs ih =>
    cases c with
    | none => left; simp only [checkServices] at h; cases h; simp
    | some c =>
      unfold checkServices at h
      simp only [bind_error, refuse_error] at h
      rcases h with ⟨h1, rfl⟩ | ⟨h0, h | ⟨_, h⟩⟩
      · exact .inr ⟨_, rfl, .duplicate [] c cs rfl (by simp [namesOf, h1])⟩
      · rcases checkContainer_error h with ⟨rfl, g⟩ | ⟨m, rfl, g⟩
        · exact .inl ⟨rfl, .inr ⟨c, by simp, g⟩⟩
        · exact .inr ⟨m, rfl, .container c m (by simp) g⟩
      · rcases ih h with ⟨rfl, g⟩ | ⟨m, rfl, g⟩
        · refine .inl ⟨rfl, ?_⟩
          rcases g with g | ⟨c', g, g'⟩
          · exact .inl (by simp [g])
          · exact .inr ⟨c', by simp [g], g'⟩
        · refine .inr ⟨m, rfl, ?_⟩
          cases g with
          | container c' m h1 h2 => exact .container c' m (by simp [h1]) h2
          | duplicate pre c' post h1 h2 =>
            exact .duplicate (some c :: pre) c' post (by simp [h1]) ((mem_shift rfl).1 h2)

theorem checkSteps_names {trusted : Bool} {names out : List String} {cs : List (Option Container)}
    (h : checkSteps trusted names cs = .ok out) : ∀ x, x ∈ out ↔ x ∈ names ++ namesOf cs := by
  induction cs generalizing names with
  | nil => simp only [checkSteps] at h; cases h; simp [namesOf]
  | cons c cs ih =>
    cases c with
    | none => simp [checkSteps] at h
    | some c =>
      unfold checkSteps at h
      simp only [bind_ok_unit] at h
      intro x
      rw [ih h.2.2.2 x, mem_shift rfl]

theorem checkPipeline_names (p : Pipeline) : (if p.clone.disable = false then ["clone"] else []) = cloneNames p := by
  unfold cloneNames; cases p.clone.disable <;> rfl

/-- How a pipeline is refused. -/
theorem checkPipeline_error {trusted : Bool} {p : Pipeline} {e : Fail} :
    checkPipeline trusted p = .error e ↔ checkVolumes trusted p.volumes = .error e ∨
      (checkVolumes trusted p.volumes = .ok () ∧ (checkPlatform p.platform = .error e ∨
        (checkPlatform p.platform = .ok () ∧ (checkSteps trusted (cloneNames p) p.steps = .error e ∨
          ∃ out, checkSteps trusted (cloneNames p) p.steps = .ok out ∧ checkServices trusted out p.services = .error e)))) := by
  unfold checkPipeline
  simp only [bind_error, checkPipeline_names]
  cases checkSteps trusted (cloneNames p) p.steps with
  | error e' => simp [bind, Except.bind]
  | ok out => simp [bind, Except.bind]

/-! ### C124 -/

theorem pipeline_error {trusted : Bool} {p : Pipeline} {e : Fail} (h : lint (.pipeline p) trusted = .error e) :
    (e = .panic ∧ LooksAtNull trusted p) ∨ ∃ m, e = .err m ∧ Defect trusted p m := by
  rcases checkPipeline_error.1 h with h | ⟨_, h | ⟨_, h | ⟨out, ho, h⟩⟩⟩
  · rcases checkVolumes_error h with ⟨rfl, g⟩ | ⟨v, m, h1, rfl, h2⟩
    · exact .inl ⟨rfl, .inl g⟩
    · exact .inr ⟨m, rfl, .volume v m h1 h2⟩
  · obtain ⟨m, rfl, g⟩ := checkPlatform_error h
    exact .inr ⟨m, rfl, .platform m g⟩
  · rcases checkSteps_error h with ⟨rfl, g⟩ | ⟨m, rfl, g⟩
    · refine .inl ⟨rfl, .inr ?_⟩
      rcases g with g | ⟨c, g, g'⟩
      · exact .inl (by simp [g])
      · exact .inr ⟨c, by simp [g], g'⟩
    · refine .inr ⟨m, rfl, ?_⟩
      cases g with
      | container c m h1 h2 => exact .container c m (by simp [h1]) h2
      | duplicate pre c post h1 h2 => exact .duplicate pre c (post ++ p.services) (by simp [h1]) h2
      | missing pre c post d h1 h2 h3 h4 => exact .missing pre c post d h1 h2 h3 h4
      | self c h1 h2 => exact .self c h1 h2
  · rcases checkServices_error h with ⟨rfl, g⟩ | ⟨m, rfl, g⟩
    · refine .inl ⟨rfl, .inr ?_⟩
      rcases g with g | ⟨c, g, g'⟩
      · exact .inl (by simp [g])
      · exact .inr ⟨c, by simp [g], g'⟩
    · refine .inr ⟨m, rfl, ?_⟩
      cases g with
      | container c m h1 h2 => exact .container c m (by simp [h1]) h2
      | duplicate pre c post h1 h2 =>
        refine .duplicate (p.steps ++ pre) c post (by simp [h1]) ?_
        simp only [List.mem_append] at h2
        rw [checkSteps_names ho] at h2
        simp only [namesOf, List.filterMap_append, List.mem_append] at h2 ⊢
        tauto

/-- C124.  What the linter says is true: a message is returned only for a resource that has the
defect the message names. -/
theorem C124_true (r : Resource) (trusted : Bool) (m : String) (h : lint r trusted = .error (.err m)) :
    ResourceDefect trusted r m := by
  cases r with
  | pipeline p =>
    rcases pipeline_error h with ⟨h, _⟩ | ⟨m', he, h⟩
    · cases h
    · cases he
      exact .pipeline p m h
  | cron c =>
    simp only [lint, Cron.validate] at h
    split_ifs at h with hc
    cases h
    exact .cron c hc
  | secret c =>
    simp only [lint, Secret.validate] at h
    split_ifs at h with hc
    cases h
    exact .secret c hc.1 hc.2.1 hc.2.2
  | signature c =>
    simp only [lint, Signature.validate] at h
    split_ifs at h with hc
    cases h
    exact .signature c hc
  | registry c =>
    simp only [lint, Registry.validate] at h
    split_ifs at h with hc
    cases h
    exact .registry c (List.length_eq_zero_iff.1 hc)

/-- C124.  It panics only on a null entry. -/
theorem C124_panic (r : Resource) (trusted : Bool) (h : lint r trusted = .error .panic) :
    ∃ p, r = .pipeline p ∧ LooksAtNull trusted p := by
  cases r with
  | pipeline p =>
    rcases pipeline_error h with ⟨_, h⟩ | ⟨m', he, _⟩
    · exact ⟨p, rfl, h⟩
    · cases he
  | cron c => exact absurd h (C17_no_panic _ _ (by simp))
  | secret c => exact absurd h (C17_no_panic _ _ (by simp))
  | signature c => exact absurd h (C17_no_panic _ _ (by simp))
  | registry c => exact absurd h (C17_no_panic _ _ (by simp))

/-! ### Nothing is overlooked -/

theorem Spec.ContainerOK.no_defect {trusted : Bool} {c : Container} (h : ContainerOK trusted c) (m : String) :
    ¬ ContainerDefect trusted c m := by
  intro hd
  cases hd with
  | image h1 h2 => exact h.image h1 h2
  | build b h1 h2 => exact h.build b h1 h2
  | name h1 => exact h.name h1
  | port p ht h1 h2 =>
    obtain ⟨q, e, hq⟩ := (h.untrusted ht).2.2.2.2.2.2 _ h1
    cases e
    exact h2 hq
  | privileged ht h1 => rw [(h.untrusted ht).1] at h1; cases h1
  | devices ht h1 => exact h1 (h.untrusted ht).2.1
  | dns ht h1 => exact h1 (h.untrusted ht).2.2.1
  | dnsSearch ht h1 => exact h1 (h.untrusted ht).2.2.2.1
  | extraHosts ht h1 => exact h1 (h.untrusted ht).2.2.2.2.1
  | network ht h1 => exact h1 (h.untrusted ht).2.2.2.2.2.1
  | mount v h1 h2 =>
    obtain ⟨q, e, hq⟩ := h.mounts _ h1
    cases e
    exact hq h2

theorem namesOf_some (cs : List Container) : namesOf (cs.map some) = cs.map (·.name) := by
  induction cs with
  | nil => rfl
  | cons c cs ih => simpa [namesOf] using ih

theorem split_some {cs : List Container} {pre post : List (Option Container)} {c : Container}
    (h : cs.map some = pre ++ some c :: post) :
    ∃ a b, cs = a ++ c :: b ∧ pre = a.map some ∧ post = b.map some := by
  obtain ⟨a, b', rfl, rfl, g⟩ := List.map_eq_append_iff.1 h
  obtain ⟨c', b, rfl, hc, rfl⟩ := List.map_eq_cons_iff.1 g
  cases hc
  exact ⟨a, b, rfl, rfl, rfl⟩

theorem Spec.PipelineOK.no_defect {trusted : Bool} {p : Pipeline} {ss sv : List Container} (h : PipelineOK trusted p ss sv)
    (m : String) : ¬ Defect trusted p m := by
  have hall : p.steps ++ p.services = (ss ++ sv).map some := by simp [h.steps_eq, h.services_eq]
  intro hd
  cases hd with
  | volume v m h1 h2 =>
    obtain ⟨w, e, hw⟩ := h.volumes _ h1
    cases e
    cases h2 with
    | memory d ht h3 h4 => exact (hw.untrusted ht).2 d h3 h4
    | host ht h3 => exact h3 (hw.untrusted ht).1
    | name h3 => exact hw.name h3
  | platform m h1 =>
    cases h1 with
    | os h2 => exact h2 h.platform.1
    | arch h2 => exact h2 h.platform.2
  | container c m h1 h2 =>
    rw [hall] at h1
    obtain ⟨c', hc, e⟩ := List.mem_map.1 h1
    cases e
    exact (h.containers c hc).no_defect m h2
  | duplicate pre c post h1 h2 =>
    rw [hall] at h1
    obtain ⟨a, b, e, rfl, rfl⟩ := split_some h1
    have hu := h.unique
    rw [e, List.map_append, ← List.append_assoc, List.map_cons] at hu
    rw [namesOf_some] at h2
    exact (List.nodup_append.1 hu).2.2 _ h2 _ (by simp) rfl
  | missing pre c post d h1 h2 h3 h4 =>
    rw [h.steps_eq] at h1
    obtain ⟨a, b, e, rfl, rfl⟩ := split_some h1
    have := h.deps (nodes a) (c.name, c.dependsOn) (nodes b) (by simp [nodes, e]) d h2
    rw [namesOf_some] at h4
    apply h4
    simpa [nodes, Function.comp_def] using this
  | self c h1 h2 =>
    rw [h.steps_eq] at h1
    obtain ⟨c', hc, e⟩ := List.mem_map.1 h1
    cases e
    obtain ⟨a, b, rfl⟩ := List.append_of_mem hc
    have hd := h.deps (nodes a) (c.name, c.dependsOn) (nodes b) (by simp [nodes]) _ h2
    have hu := h.unique
    rw [List.map_append, List.map_append, List.map_cons, List.append_assoc, ← List.append_assoc] at hu
    refine (List.nodup_append.1 hu).2.2 c.name ?_ c.name (by simp) rfl
    simpa [nodes, Function.comp_def] using hd

theorem Spec.PipelineOK.no_null {trusted : Bool} {p : Pipeline} {ss sv : List Container} (h : PipelineOK trusted p ss sv) :
    ¬ LooksAtNull trusted p := by
  have hall : p.steps ++ p.services = (ss ++ sv).map some := by simp [h.steps_eq, h.services_eq]
  rintro (h1 | h1 | ⟨c, h1, h2⟩)
  · obtain ⟨w, e, _⟩ := h.volumes _ h1
    cases e
  · rw [hall] at h1
    simp at h1
  · rw [hall] at h1
    obtain ⟨c', hc, e⟩ := List.mem_map.1 h1
    cases e
    have := h.containers c hc
    rcases h2 with h2 | ⟨ht, h2⟩
    · obtain ⟨w, e, _⟩ := this.mounts _ h2
      cases e
    · obtain ⟨w, e, _⟩ := (this.untrusted ht).2.2.2.2.2.2 _ h2
      cases e

/-- C124.  Nothing is overlooked: a resource is accepted exactly if it has no defect and no null
entry. -/
theorem C124_accepts_iff (r : Resource) (trusted : Bool) : lint r trusted = .ok () ↔
    (∀ m, ¬ ResourceDefect trusted r m) ∧ ∀ p, r = .pipeline p → ¬ LooksAtNull trusted p := by
  constructor
  · intro h
    constructor
    · intro m hd
      cases hd with
      | pipeline p m hd =>
        obtain ⟨ss, sv, hp⟩ := (C12_lint_iff p trusted).1 h
        exact hp.no_defect m hd
      | cron c hc => exact ((C17_other_resources trusted).1 c).1 h hc
      | secret s h1 h2 h3 =>
        rcases ((C17_other_resources trusted).2.1 s).1 h with g | g | g
        · exact g h1
        · exact g h2
        · exact g h3
      | registry x hx => exact ((C17_other_resources trusted).2.2.1 x).1 h hx
      | signature x hx => exact ((C17_other_resources trusted).2.2.2 x).1 h hx
    · rintro p rfl
      obtain ⟨ss, sv, hp⟩ := (C12_lint_iff p trusted).1 h
      exact hp.no_null
  · rintro ⟨h1, h2⟩
    cases h : lint r trusted with
    | ok u => rfl
    | error e =>
      cases e with
      | err m => exact absurd (C124_true r trusted m h) (h1 m)
      | panic =>
        obtain ⟨p, rfl, hp⟩ := C124_panic r trusted h
        exact absurd hp (h2 p rfl)

/-! ### The first one is named -/

theorem checkSteps_append {trusted : Bool} {names : List String} {pre post : List (Option Container)} :
    checkSteps trusted names (pre ++ post) =
      (checkSteps trusted names pre >>= fun out => checkSteps trusted out post) := by
  induction pre generalizing names with
  | nil => rfl
  | cons c pre ih =>
    cases c with
    | none => rfl
    | some c =>
      simp only [List.cons_append, checkSteps]
      rw [ih]
      generalize refuse (c.name ∈ names) errDuplicateStepName = a
      generalize checkContainer trusted c = b
      generalize checkDeps c.name (c.name :: names) c.dependsOn = d
      cases a <;> cases b <;> cases d <;> rfl

theorem checkServices_append {trusted : Bool} {names : List String} {pre post : List (Option Container)} {e : Fail}
    (h : checkServices trusted names pre = .error e) : checkServices trusted names (pre ++ post) = .error e := by
  induction pre generalizing names with
  | nil => simp [checkServices] at h
  | cons c pre ih =>
    cases c with
    | none => exact h
    | some c =>
      simp only [List.cons_append, checkServices, bind_error] at h ⊢
      rcases h with h | ⟨h0, h | ⟨h1, h⟩⟩
      · exact .inl h
      · exact .inr ⟨h0, .inl h⟩
      · exact .inr ⟨h0, .inr ⟨h1, ih h⟩⟩

/-- C124.  What comes later does not change what is said: a pipeline that begins like a refused one is
refused with the same message. -/
theorem C124_begins (p : Pipeline) (trusted : Bool) (pre post sv : List (Option Container)) (e : Fail)
    (h : lint (.pipeline { p with steps := pre, services := [] }) trusted = .error e) :
    lint (.pipeline { p with steps := pre ++ post, services := sv }) trusted = .error e := by
  rw [lint, checkPipeline_error] at h ⊢
  rcases h with h | ⟨h0, h | ⟨h1, h | ⟨out, _, h⟩⟩⟩
  · exact .inl h
  · exact .inr ⟨h0, .inl h⟩
  · refine .inr ⟨h0, .inr ⟨h1, .inl ?_⟩⟩
    show checkSteps trusted (cloneNames p) (pre ++ post) = _
    rw [checkSteps_append]
    have : checkSteps trusted (cloneNames p) pre = .error e := h
    rw [this]
    rfl
  · simp [checkServices] at h

/-- C124.  Likewise for the services. -/
theorem C124_begins_services (p : Pipeline) (trusted : Bool) (pre post : List (Option Container)) (e : Fail)
    (h : lint (.pipeline { p with services := pre }) trusted = .error e) :
    lint (.pipeline { p with services := pre ++ post }) trusted = .error e := by
  rw [lint, checkPipeline_error] at h ⊢
  rcases h with h | ⟨h0, h | ⟨h1, h | ⟨out, h2, h⟩⟩⟩
  · exact .inl h
  · exact .inr ⟨h0, .inl h⟩
  · exact .inr ⟨h0, .inr ⟨h1, .inl h⟩⟩
  · exact .inr ⟨h0, .inr ⟨h1, .inr ⟨out, h2, checkServices_append h⟩⟩⟩

/-- What is wrong with the step `c` that comes after the steps `pre`. -/
def Spec.AtStep (trusted : Bool) (p : Pipeline) (pre : List (Option Container)) (c : Container) (m : String) : Prop :=
  ContainerDefect trusted c m ∨
  (m = "linter: duplicate step names" ∧ c.name ∈ cloneNames p ++ namesOf pre) ∨
  (m = "linter: invalid or unknown step dependency" ∧ ∃ d ∈ c.dependsOn, d ≠ c.name ∧ d ∉ cloneNames p ++ namesOf pre) ∨
  (m = "linter: cyclical step dependency detected" ∧ c.name ∈ c.dependsOn)

/-- C124.  The first step with a defect is the one that is spoken of. -/
theorem C124_first_step (p : Pipeline) (trusted : Bool) (pre post : List (Option Container)) (c : Container) (m : String)
    (hs : p.steps = pre ++ some c :: post)
    (hpre : lint (.pipeline { p with steps := pre, services := [] }) trusted = .ok ())
    (h : lint (.pipeline { p with steps := pre ++ [some c], services := [] }) trusted = .error (.err m)) :
    AtStep trusted p pre c m ∧ lint (.pipeline p) trusted = .error (.err m) := by
  constructor
  · rw [lint, checkPipeline_error] at h
    rw [C12_lint_iff] at hpre
    obtain ⟨ss, sv, hp⟩ := hpre
    have hv := (checkVolumes_ok trusted p.volumes).2 hp.volumes
    have hpl := (checkPlatform_ok p.platform).2 hp.platform
    rcases h with h | ⟨h0, h | ⟨h1, h | ⟨out, _, h⟩⟩⟩
    · have h : checkVolumes trusted p.volumes = _ := h
      rw [hv] at h; cases h
    · have h : checkPlatform p.platform = _ := h
      rw [hpl] at h; cases h
    · have h : checkSteps trusted (cloneNames p) (pre ++ [some c]) = _ := h
      rw [checkSteps_append] at h
      have hnd : (cloneNames p).Nodup := by unfold cloneNames; split <;> simp
      have hpre : pre = ss.map some := hp.steps_eq
      have hu : (cloneNames p ++ (ss ++ sv).map (·.name)).Nodup := hp.unique
      have hok := (checkSteps_ok trusted pre (cloneNames p) _ hnd).2 ⟨ss, hpre, rfl, ?_, fun c hc => hp.containers c (by simp [hc]), hp.deps⟩
      · rw [hok] at h
        have h : checkSteps trusted _ [some c] = _ := h
        have hm : ∀ x, x ∈ (ss.map (·.name)).reverse ++ cloneNames p ↔ x ∈ cloneNames p ++ namesOf pre := by
          intro x
          rw [hpre, namesOf_some]
          simp only [List.mem_append, List.mem_reverse]
          tauto
        unfold checkSteps at h
        simp only [bind_error, refuse_error, hm] at h
        rcases h with ⟨h1, h2⟩ | ⟨_, h | ⟨_, h | ⟨_, h⟩⟩⟩
        · cases h2
          exact .inr (.inl ⟨rfl, h1⟩)
        · rcases checkContainer_error h with ⟨g, _⟩ | ⟨m', g, g'⟩
          · cases g
          · cases g
            exact .inl g'
        · rcases checkDeps_error h with ⟨g, d, g1, g2⟩ | ⟨g, g1⟩
          · cases g
            rw [List.mem_cons, not_or, hm] at g2
            exact .inr (.inr (.inl ⟨rfl, d, g1, g2⟩))
          · cases g
            exact .inr (.inr (.inr ⟨rfl, g1⟩))
        · simp [checkSteps] at h
      · have : ((ss.map (·.name)).reverse ++ cloneNames p).Perm (cloneNames p ++ ss.map (·.name)) :=
          (List.Perm.append_right _ (List.reverse_perm _)).trans List.perm_append_comm
        rw [this.nodup_iff]
        rw [List.map_append, ← List.append_assoc] at hu
        exact (List.nodup_append.1 hu).1
    · simp [checkServices] at h
  · have := C124_begins p trusted (pre ++ [some c]) post p.services _ h
    rw [show pre ++ [some c] ++ post = p.steps by rw [hs]; simp] at this
    exact this

/-! ### Trust -/

theorem container_trust {c : Container} {m : String} (h : checkContainer false c = .error (.err m))
    (hm : ¬ AboutTrust m) : checkContainer true c = .error (.err m) := by
  unfold checkContainer at h ⊢
  simp only [bind_error, refuse_error, refuse_ok] at h ⊢
  have hp : checkPorts true c.ports = .ok () := (checkPorts_ok true _).2 (by simp)
  have no : ∀ s, AboutTrust s → Fail.err m = Fail.err s → False := by
    intro s hs e
    cases e
    exact hm hs
  rcases h with h | ⟨_, h | ⟨h1, h | ⟨h2, h | ⟨h3, ⟨_, h⟩ | ⟨_, ⟨_, h⟩ | ⟨_, ⟨_, h⟩ | ⟨_, ⟨_, h⟩ | ⟨_, ⟨_, h⟩ | ⟨_, ⟨_, h⟩ | ⟨_, h⟩⟩⟩⟩⟩⟩⟩⟩⟩⟩
  · obtain ⟨_, ⟨h, _⟩ | ⟨h, _⟩⟩ := checkPorts_error h
    · cases h
    · exact (no _ (by unfold AboutTrust; decide) h).elim
  · exact .inr ⟨hp, .inl h⟩
  · exact .inr ⟨hp, .inr ⟨h1, .inl h⟩⟩
  · exact .inr ⟨hp, .inr ⟨h1, .inr ⟨h2, .inl h⟩⟩⟩
  iterate 6 exact (no _ (by unfold AboutTrust; decide) h).elim
  · simp [hp, h1, h2, h3, h]

theorem container_ok_trust {c : Container} (h : checkContainer false c = .ok ()) : checkContainer true c = .ok () := by
  rw [checkContainer_ok] at h ⊢
  exact ⟨h.name, h.image, h.build, h.mounts, by simp⟩

theorem volumes_trust {vs : List (Option Volume)} {m : String} (h : checkVolumes false vs = .error (.err m))
    (hm : ¬ AboutTrust m) : checkVolumes true vs = .error (.err m) := by
  induction vs with
  | nil => simp [checkVolumes] at h
  | cons v vs ih =>
    cases v with
    | none => exact h
    | some w =>
      unfold checkVolumes at h ⊢
      simp only [bind_error, refuse_error, refuse_ok, whenSome_error] at h ⊢
      have h1 : whenSome w.emptyDir (fun d => checkEmptyDirVolume true d) = .ok () := by
        cases w.emptyDir <;> simp [whenSome, checkEmptyDirVolume]
      have h2 : whenSome w.hostPath (fun _ => checkHostPathVolume true) = .ok () := by
        cases w.hostPath <;> simp [whenSome, checkHostPathVolume]
      rcases h with ⟨d, _, h⟩ | ⟨_, ⟨d, _, h⟩ | ⟨_, h | ⟨h3, h⟩⟩⟩
      · unfold checkEmptyDirVolume at h
        split_ifs at h
        cases h
        exact absurd (by unfold AboutTrust; decide) hm
      · unfold checkHostPathVolume at h
        cases h
        exact absurd (by unfold AboutTrust; decide) hm
      · exact .inr ⟨h1, .inr ⟨h2, .inl h⟩⟩
      · exact .inr ⟨h1, .inr ⟨h2, .inr ⟨h3, ih h⟩⟩⟩

theorem steps_trust {names : List String} {cs : List (Option Container)} {m : String}
    (h : checkSteps false names cs = .error (.err m)) (hm : ¬ AboutTrust m) :
    checkSteps true names cs = .error (.err m) := by
  induction cs generalizing names with
  | nil => simp [checkSteps] at h
  | cons c cs ih =>
    cases c with
    | none => exact h
    | some c =>
      unfold checkSteps at h ⊢
      simp only [bind_error] at h ⊢
      rcases h with h | ⟨h0, h | ⟨h1, h | ⟨h2, h⟩⟩⟩
      · exact .inl h
      · exact .inr ⟨h0, .inl (container_trust h hm)⟩
      · exact .inr ⟨h0, .inr ⟨container_ok_trust h1, .inl h⟩⟩
      · exact .inr ⟨h0, .inr ⟨container_ok_trust h1, .inr ⟨h2, ih h⟩⟩⟩

theorem steps_ok_trust {names out : List String} {cs : List (Option Container)}
    (h : checkSteps false names cs = .ok out) : checkSteps true names cs = .ok out := by
  induction cs generalizing names with
  | nil => exact h
  | cons c cs ih =>
    cases c with
    | none => exact h
    | some c =>
      unfold checkSteps at h ⊢
      simp only [bind_ok_unit] at h ⊢
      exact ⟨h.1, container_ok_trust h.2.1, h.2.2.1, ih h.2.2.2⟩

theorem services_trust {names : List String} {cs : List (Option Container)} {m : String}
    (h : checkServices false names cs = .error (.err m)) (hm : ¬ AboutTrust m) :
    checkServices true names cs = .error (.err m) := by
  induction cs generalizing names with
  | nil => simp [checkServices] at h
  | cons c cs ih =>
    cases c with
    | none => exact h
    | some c =>
      unfold checkServices at h ⊢
      simp only [bind_error] at h ⊢
      rcases h with h | ⟨h0, h | ⟨h1, h⟩⟩
      · exact .inl h
      · exact .inr ⟨h0, .inl (container_trust h hm)⟩
      · exact .inr ⟨h0, .inr ⟨container_ok_trust h1, ih h⟩⟩

/-- C124.  A message that does not speak of trust is the same with trust. -/
theorem C124_trust_same (r : Resource) (m : String) (h : lint r false = .error (.err m)) (hm : ¬ AboutTrust m) :
    lint r true = .error (.err m) := by
  cases r with
  | pipeline p =>
    rw [lint, checkPipeline_error] at h ⊢
    have hv : checkVolumes false p.volumes = .ok () → checkVolumes true p.volumes = .ok () := by
      rw [checkVolumes_ok, checkVolumes_ok]
      intro h v hv
      obtain ⟨w, hw, hok⟩ := h v hv
      exact ⟨w, hw, hok.name, by simp⟩
    rcases h with h | ⟨h0, h | ⟨h1, h | ⟨out, h2, h⟩⟩⟩
    · exact .inl (volumes_trust h hm)
    · exact .inr ⟨hv h0, .inl h⟩
    · exact .inr ⟨hv h0, .inr ⟨h1, .inl (steps_trust h hm)⟩⟩
    · exact .inr ⟨hv h0, .inr ⟨h1, .inr ⟨out, steps_ok_trust h2, services_trust h hm⟩⟩⟩
  | cron c => exact h
  | secret c => exact h
  | signature c => exact h
  | registry c => exact h

theorem Spec.AboutTrust.start {m : String} (h : AboutTrust m) : m.toList.take 11 = "linter: unt".toList := by
  obtain ⟨t, h⟩ := h
  rw [← h, List.take_append_of_le_length (by decide)]
  decide

theorem not_about {s t : String} (hl : 11 ≤ s.toList.length) (h : s.toList.take 11 ≠ "linter: unt".toList) :
    ¬ AboutTrust (s ++ t) := by
  intro hp
  have := AboutTrust.start hp
  rw [String.toList_append, List.take_append_of_le_length hl] at this
  exact h this

/-- C124.  A message that speaks of trust is not given to trusted repositories. -/
theorem C124_trust_gone (r : Resource) (m : String) (hm : AboutTrust m) : lint r true ≠ .error (.err m) := by
  intro h
  have lit : ∀ {s : String}, ¬ AboutTrust s → m ≠ s := fun h e => h (e ▸ hm)
  have hd := C124_true r true m h
  cases hd with
  | cron c _ => exact lit (by unfold AboutTrust; decide) rfl
  | secret c _ _ _ => exact lit (by unfold AboutTrust; decide) rfl
  | registry c _ => exact lit (by unfold AboutTrust; decide) rfl
  | signature c _ => exact lit (by unfold AboutTrust; decide) rfl
  | pipeline p _ hd =>
    cases hd with
    | volume v _ _ hd =>
      cases hd with
      | memory _ ht _ _ => cases ht
      | host ht _ => cases ht
      | name _ => exact not_about (by decide) (by decide) hm
    | platform _ hd =>
      cases hd with
      | os _ => exact not_about (by decide) (by decide) hm
      | arch _ => exact not_about (by decide) (by decide) hm
    | duplicate _ _ _ _ _ => exact lit (by unfold AboutTrust; decide) rfl
    | missing _ _ _ _ _ _ _ _ => exact lit (by unfold AboutTrust; decide) rfl
    | self _ _ _ => exact lit (by unfold AboutTrust; decide) rfl
    | container c _ _ hd =>
      cases hd with
      | image _ _ => exact lit (by unfold AboutTrust; decide) rfl
      | build _ _ _ => exact lit (by unfold AboutTrust; decide) rfl
      | name _ => exact lit (by unfold AboutTrust; decide) rfl
      | mount _ _ _ => exact not_about (by decide) (by decide) hm
      | port _ ht _ _ => cases ht
      | privileged ht _ => cases ht
      | devices ht _ => cases ht
      | dns ht _ => cases ht
      | dnsSearch ht _ => cases ht
      | extraHosts ht _ => cases ht
      | network ht _ => cases ht

/-- C124.  If trust makes a resource acceptable, then the message spoke of trust. -/
theorem C124_trust_message (r : Resource) (m : String) (h : lint r false = .error (.err m))
    (ht : lint r true = .ok ()) : AboutTrust m := by
  by_contra hm
  rw [C124_trust_same r m h hm] at ht
  cases ht

/-! ### Cycles -/

theorem literal_ne {s t u : String} (h : ¬ s.toList <+: u.toList) : u ≠ s ++ t := by
  rintro rfl
  apply h
  rw [String.toList_append]
  exact List.prefix_append _ _

/-- C124.  Only a step that lists itself is called a cycle. -/
theorem C124_cyclical (p : Pipeline) (trusted : Bool)
    (h : lint (.pipeline p) trusted = .error (.err "linter: cyclical step dependency detected")) :
    ∃ c, some c ∈ p.steps ∧ c.name ∈ c.dependsOn := by
  generalize hm : "linter: cyclical step dependency detected" = m at h
  have hd := C124_true _ trusted m h
  cases hd with
  | pipeline _ _ hd =>
    cases hd with
    | volume v _ _ hd =>
      cases hd with
      | memory _ _ _ _ => exact absurd hm (by decide)
      | host _ _ => exact absurd hm (by decide)
      | name _ => exact absurd hm (literal_ne (by decide))
    | platform _ hd =>
      cases hd with
      | os _ => exact absurd hm (literal_ne (by decide))
      | arch _ => exact absurd hm (literal_ne (by decide))
    | duplicate _ _ _ _ _ => exact absurd hm (by decide)
    | missing _ _ _ _ _ _ _ _ => exact absurd hm (by decide)
    | self c h1 h2 => exact ⟨c, h1, h2⟩
    | container c _ _ hd =>
      cases hd with
      | mount _ _ _ => exact absurd hm (literal_ne (by decide))
      | _ => exact absurd hm (by decide)

/-- C124.  A cycle of two steps is refused as an unknown dependency. -/
theorem C124_cycle_of_two (p : Pipeline) (trusted : Bool) (a b : Container) (ha : ContainerOK trusted a)
    (hv : ∀ v ∈ p.volumes, ∃ w, v = some w ∧ VolumeOK trusted w) (hp : PlatformOK p.platform)
    (hs : p.steps = [some a, some b]) (hab : a.dependsOn = [b.name]) (hne : a.name ≠ b.name)
    (hc : p.clone.disable = false → a.name ≠ "clone" ∧ b.name ≠ "clone") :
    lint (.pipeline p) trusted = .error (.err "linter: invalid or unknown step dependency") := by
  have hc : a.name ∉ cloneNames p ∧ b.name ∉ cloneNames p := by
    unfold cloneNames
    cases hd : p.clone.disable with
    | true => simp
    | false => simpa using hc hd
  rw [lint, checkPipeline_error]
  refine .inr ⟨(checkVolumes_ok _ _).2 hv, .inr ⟨(checkPlatform_ok _).2 hp, .inl ?_⟩⟩
  rw [hs]
  unfold checkSteps
  simp only [bind_error, refuse_error, refuse_ok]
  refine .inr ⟨hc.1, .inr ⟨(checkContainer_ok _ _).2 ha, .inl ?_⟩⟩
  rw [hab]
  unfold checkDeps
  rw [if_pos]
  · rfl
  · simp only [List.mem_cons, not_or]
    exact ⟨fun h => hne h.symm, hc.2⟩

/-! ### Whole files -/

theorem checkPipelineDeps_error {name : String} {names ds : List String} {e : Fail}
    (h : checkPipelineDeps name names ds = .error e) :
    (e = .err "linter: invalid or unknown pipeline dependency" ∧ ∃ d ∈ ds, d ∉ names) ∨
      (e = .err "linter: pipeline cannot have a dependency on itself" ∧ name ∈ ds) := by
  induction ds with
  | nil => simp [checkPipelineDeps] at h
  | cons d ds ih =>
    unfold checkPipelineDeps at h
    split_ifs at h with h1 h2
    · cases h
      exact .inr ⟨rfl, by simp [h2]⟩
    rotate_left
    · cases h
      exact .inl ⟨rfl, d, by simp, h1⟩
    · rcases ih h with ⟨rfl, d, h3, h4⟩ | ⟨rfl, h3⟩
      · exact .inl ⟨rfl, d, by simp [h3], h4⟩
      · exact .inr ⟨rfl, by simp [h3]⟩

theorem pipelines_cons (r : Resource) (rs : List Resource) :
    pipelines ⟨r :: rs⟩ = (match r with | .pipeline p => [p] | _ => []) ++ pipelines ⟨rs⟩ := by
  cases r <;> rfl

/-- What is wrong with the pipelines `ps` that come after pipelines called `names`. -/
inductive AfterDefect (names : List String) (ps : List Pipeline) : String → Prop
  | duplicate (pre : List Pipeline) (p : Pipeline) (post : List Pipeline) : ps = pre ++ p :: post →
      p.name ∈ names ++ pre.map (·.name) → AfterDefect names ps "linter: duplicate pipeline names"
  | missing (pre : List Pipeline) (p : Pipeline) (post : List Pipeline) (d : String) :
      ps = pre ++ p :: post → d ∈ p.dependsOn → d ≠ p.name → d ∉ names ++ pre.map (·.name) →
      AfterDefect names ps "linter: invalid or unknown pipeline dependency"
  | self (p : Pipeline) : p ∈ ps → p.name ∈ p.dependsOn →
      AfterDefect names ps "linter: pipeline cannot have a dependency on itself"
  | platform (p : Pipeline) (s : String) : p ∈ ps → DockerPipeline p → PlatformDefect p.platform s →
      AfterDefect names ps s

theorem checkPipelines_error {names : List String} {rs : List Resource} {e : Fail}
    (h : checkPipelines names rs = .error e) : ∃ m, e = .err m ∧ AfterDefect names (pipelines ⟨rs⟩) m := by
  induction rs generalizing names with
  | nil => simp [checkPipelines] at h
  | cons r rs ih =>
    cases r with
    | cron c => exact ih h
    | secret c => exact ih h
    | signature c => exact ih h
    | registry c => exact ih h
    | pipeline v =>
      rw [show pipelines ⟨.pipeline v :: rs⟩ = v :: pipelines ⟨rs⟩ from rfl]
      unfold checkPipelines at h
      simp only [bind_error, refuse_error, whenSome_error] at h
      rcases h with ⟨h1, rfl⟩ | ⟨_, h | ⟨_, ⟨q, h1, h⟩ | ⟨_, h⟩⟩⟩
      · exact ⟨_, rfl, .duplicate [] v _ rfl (by simpa using h1)⟩
      · rcases checkPipelineDeps_error h with ⟨rfl, d, h1, h2⟩ | ⟨rfl, h1⟩
        · rw [List.mem_cons, not_or] at h2
          exact ⟨_, rfl, .missing [] v _ d rfl h1 h2.1 (by simpa using h2.2)⟩
        · exact ⟨_, rfl, .self v (by simp) h1⟩
      · split_ifs at h1 with hk
        cases h1
        obtain ⟨m, rfl, g⟩ := checkPlatform_error h
        refine ⟨m, rfl, .platform v m (by simp) ?_ g⟩
        simpa [DockerPipeline] using hk
      · obtain ⟨m, rfl, g⟩ := ih h
        refine ⟨m, rfl, ?_⟩
        cases g with
        | duplicate pre p post h1 h2 =>
          exact .duplicate (v :: pre) p post (by simp [h1]) (by simp only [List.mem_append, List.mem_cons, List.map_cons] at h2 ⊢; tauto)
        | missing pre p post d h1 h2 h3 h4 =>
          exact .missing (v :: pre) p post d (by simp [h1]) h2 h3 (by simp only [List.mem_append, List.mem_cons, List.map_cons] at h4 ⊢; tauto)
        | self p h1 h2 => exact .self p (by simp [h1]) h2
        | platform p _ h1 h2 h3 => exact .platform p _ (by simp [h1]) h2 h3

/-- C124.  What is said about a whole file is true, and it is always said in words. -/
theorem C124_manifest_true (m : Manifest) (trusted : Bool) (e : Fail) (h : lintManifest m trusted = .error e) :
    ∃ s, e = .err s ∧ ManifestDefect m s := by
  obtain ⟨s, rfl, g⟩ := checkPipelines_error h
  refine ⟨s, rfl, ?_⟩
  cases g with
  | duplicate pre p post h1 h2 => exact .duplicate pre p post h1 (by simpa using h2)
  | missing pre p post d h1 h2 h3 h4 => exact .missing pre p post d h1 h2 h3 (by simpa using h4)
  | self p h1 h2 => exact .self p h1 h2
  | platform p s h1 h2 h3 => exact .platform p s h1 h2 h3

/-- C124.  Nothing in a whole file is overlooked. -/
theorem C124_manifest_iff (m : Manifest) (trusted : Bool) :
    lintManifest m trusted = .ok () ↔ ∀ s, ¬ ManifestDefect m s := by
  constructor
  · intro h s hd
    obtain ⟨h1, h2, h3⟩ := (C15_manifest_iff m trusted).1 h
    cases hd with
    | duplicate pre p post e hn =>
      rw [e, List.map_append] at h1
      exact (List.nodup_append.1 h1).2.2 _ hn _ (by simp) rfl
    | missing pre p post d e hd hne hn =>
      have := h2 (pipelineNodes pre) (p.name, p.dependsOn) (pipelineNodes post) (by simp [pipelineNodes, e]) d hd
      apply hn
      simpa [pipelineNodes, Function.comp_def] using this
    | self p hp hn =>
      obtain ⟨a, b, e⟩ := List.append_of_mem hp
      have := h2 (pipelineNodes a) (p.name, p.dependsOn) (pipelineNodes b) (by simp [pipelineNodes, e]) _ hn
      rw [e, List.map_append] at h1
      refine (List.nodup_append.1 h1).2.2 p.name ?_ p.name (by simp) rfl
      simpa [pipelineNodes, Function.comp_def] using this
    | platform p s hp hk hd =>
      cases hd with
      | os g => exact g (h3 p hp hk).1
      | arch g => exact g (h3 p hp hk).2
  · intro h
    cases hl : lintManifest m trusted with
    | ok u => rfl
    | error e =>
      obtain ⟨s, _, hs⟩ := C124_manifest_true m trusted e hl
      exact absurd hs (h s)

/-! ### Examples -/

/-- Two steps that wait for each other: called unknown, not cyclical. -/
def exCycle : Pipeline where
  steps := [some { name := "a", image := "alpine", dependsOn := ["b"] },
            some { name := "b", image := "alpine", dependsOn := ["a"] }]

example : lint (.pipeline exCycle) false = .error (.err "linter: invalid or unknown step dependency") := by decide

example : lint (.pipeline { steps := [some { name := "a", image := "alpine", dependsOn := ["a"] }] }) false =
    .error (.err "linter: cyclical step dependency detected") := by decide

/-- A step with two defects after a good one, and a worse one later. -/
def exTwo : Pipeline where
  steps := [some { name := "a", image := "alpine" }, some { name := "b", privileged := true }, none]

example : lint (.pipeline { exTwo with steps := [some { name := "a", image := "alpine" }], services := [] }) false = .ok () ∧
    lint (.pipeline { exTwo with
      steps := [some { name := "a", image := "alpine" }] ++ [some { name := "b", privileged := true }]
      services := [] }) false = .error (.err "linter: invalid or missing image") ∧
    lint (.pipeline exTwo) false = .error (.err "linter: invalid or missing image") ∧
    lint (.pipeline exTwo) true = .error (.err "linter: invalid or missing image") := by decide

example : lint (.pipeline { steps := [some { name := "b", image := "alpine", privileged := true }] }) false =
    .error (.err "linter: untrusted repositories cannot enable privileged mode") ∧
    AboutTrust "linter: untrusted repositories cannot enable privileged mode" ∧
    lint (.pipeline { steps := [some { name := "b", image := "alpine", privileged := true }] }) true = .ok () := by
  unfold AboutTrust
  decide

example : lint (.pipeline { steps := [none] }) true = .error .panic := by decide

example : lintManifest ⟨[.pipeline { name := "a" }, .cron {}, .pipeline { name := "a" }]⟩ false =
    .error (.err "linter: duplicate pipeline names") := by decide

end Drone
