/-
C105: compiled pipelines can be run to the end.
-/
import Verif.Spec.Schedule
import Verif.Props.Compile
import Mathlib.Order.WellFoundedSet

namespace Drone
open Spec

/-! ### Schedules -/

theorem schedule_nodup {ns : List Node} {r : List String} (h : Schedule ns r) : r.Nodup := by
  induction h with
  | start => exact .nil
  | next r n _ hr ih =>
    rw [List.nodup_append]
    exact ⟨ih, by simp, by rintro a ha b hb rfl; simp at hb; subst hb; exact hr.2.1 ha⟩

theorem schedule_names {ns : List Node} {r : List String} (h : Schedule ns r) : ∀ a ∈ r, a ∈ ns.map Prod.fst := by
  induction h with
  | start => nofun
  | next r n _ hr ih =>
    intro a ha
    rcases List.mem_append.1 ha with ha | ha
    · exact ih a ha
    · simp only [List.mem_singleton] at ha
      subst ha
      exact List.mem_map_of_mem hr.1

/-- Whatever runs, its dependencies have run before. -/
theorem schedule_before {ns : List Node} {r : List String} (h : Schedule ns r) :
    ∀ pre a post, r = pre ++ a :: post → ∃ n ∈ ns, n.1 = a ∧ ∀ d ∈ n.2, d ∈ pre := by
  induction h with
  | start => intro pre a post e; simp at e
  | next r n _ hr ih =>
    intro pre a post e
    rcases List.eq_nil_or_concat post with rfl | ⟨post', b, rfl⟩
    · obtain ⟨e1, e2⟩ := List.append_inj' e rfl
      simp only [List.cons.injEq, and_true] at e2
      exact ⟨n, hr.1, e2, by rw [← e1]; exact hr.2.2⟩
    · have e' : r ++ [n.1] = (pre ++ a :: post') ++ [b] := by simpa using e
      exact ih pre a post' (List.append_inj' e' rfl).1

theorem schedule_length {ns : List Node} {r : List String} (h : Schedule ns r) : r.length ≤ ns.length := by
  have : r.length ≤ (ns.map Prod.fst).length :=
    (List.Nodup.subperm (schedule_nodup h) (schedule_names h)).length_le
  simpa using this

theorem finished_perm {ns : List Node} (hn : (ns.map Prod.fst).Nodup) {r : List String} (h : Schedule ns r)
    (hf : Finished ns r) : r.Perm (ns.map Prod.fst) := by
  rw [List.perm_ext_iff_of_nodup (schedule_nodup h) hn]
  intro a
  refine ⟨schedule_names h a, fun ha => ?_⟩
  obtain ⟨n, hm, rfl⟩ := List.mem_map.1 ha
  exact hf n hm

/-- C105: if no run gets stuck, every run can be continued until every step has run, exactly once. -/
theorem C105_completes {ns : List Node} (hn : (ns.map Prod.fst).Nodup) (hs : NeverStuck ns) :
    ∀ r, Schedule ns r → ∃ t, Schedule ns (r ++ t) ∧ (r ++ t).Perm (ns.map Prod.fst) := by
  have key : ∀ k r, Schedule ns r → ns.length - r.length = k →
      ∃ t, Schedule ns (r ++ t) ∧ (r ++ t).Perm (ns.map Prod.fst) := by
    intro k
    induction k with
    | zero =>
      intro r hr hk
      rcases hs r hr with hf | ⟨n, hn'⟩
      · exact ⟨[], by simpa using hr, by simpa using finished_perm hn hr hf⟩
      · have := schedule_length (.next r n hr hn')
        simp at this
        omega
    | succ k ih =>
      intro r hr hk
      rcases hs r hr with hf | ⟨n, hn'⟩
      · exact ⟨[], by simpa using hr, by simpa using finished_perm hn hr hf⟩
      · obtain ⟨t, h1, h2⟩ := ih (r ++ [n.1]) (.next r n hr hn') (by simp; omega)
        exact ⟨n.1 :: t, by simpa using h1, by simpa using h2⟩
  exact fun r hr => key _ r hr rfl

/-- C105: exactly the closed graphs without cycles can be run, and one complete run shows it. -/
theorem C105_never_stuck_iff {ns : List Node} (hn : (ns.map Prod.fst).Nodup) :
    (NeverStuck ns ↔ Closed ns ∧ Acyclic ns) ∧ (NeverStuck ns ↔ ∃ r, Schedule ns r ∧ Finished ns r) := by
  have h1 : NeverStuck ns → ∃ r, Schedule ns r ∧ Finished ns r := by
    intro h
    obtain ⟨t, ht, hp⟩ := C105_completes hn h [] .start
    exact ⟨_, ht, fun n hm => hp.mem_iff.2 (List.mem_map_of_mem hm)⟩
  have h2 : (∃ r, Schedule ns r ∧ Finished ns r) → Closed ns ∧ Acyclic ns := by
    rintro ⟨r, hr, hf⟩
    have hb : ∀ a b, Edge ns a b → b ∈ r ∧ r.idxOf b < r.idxOf a := by
      rintro a b ⟨n, hm, rfl, hd⟩
      obtain ⟨pre, post, e⟩ := List.append_of_mem (hf n hm)
      obtain ⟨n', hm', he, hd'⟩ := schedule_before hr pre n.1 post e
      have : n' = n := List.inj_on_of_nodup_map hn hm' hm he
      subst this
      have hbp := hd' b hd
      have hnd := schedule_nodup hr
      rw [e] at hnd ⊢
      have hap : n'.1 ∉ pre := fun hc => (List.nodup_append.1 hnd).2.2 _ hc _ (by simp) rfl
      refine ⟨by simp [hbp], ?_⟩
      rw [List.idxOf_append_of_mem hbp, List.idxOf_append_of_notMem hap]
      have := List.idxOf_lt_length_iff.2 hbp
      omega
    refine ⟨fun n hm d hd => schedule_names hr d (hb _ _ ⟨n, hm, rfl, hd⟩).1, fun a ha => ?_⟩
    have key : ∀ a b, Relation.TransGen (Edge ns) a b → r.idxOf b < r.idxOf a := by
      intro a b h
      induction h with
      | single h => exact (hb _ _ h).2
      | tail _ h ih => exact (hb _ _ h).2.trans ih
    exact absurd (key a a ha) (Nat.lt_irrefl _)
  have h3 : Closed ns ∧ Acyclic ns → NeverStuck ns := by
    rintro ⟨hc, ha⟩ r hr
    by_contra hno
    push Not at hno
    obtain ⟨hnf, hnr⟩ := hno
    unfold Finished at hnf
    push Not at hnf
    obtain ⟨n0, hm0, hn0⟩ := hnf
    -- every unfinished node waits for another one
    let U := {a : String // a ∈ ns.map Prod.fst}
    let R : U → U → Prop := fun a b => Relation.TransGen (Edge ns) b.1 a.1
    haveI : Finite U := List.finite_toSet (ns.map Prod.fst)
    haveI : IsTrans U R := ⟨fun a b c hab hbc => Relation.TransGen.trans hbc hab⟩
    haveI : Std.Irrefl R := ⟨fun a h => ha a.1 h⟩
    have wf : WellFounded R := Finite.wellFounded_of_trans_of_irrefl R
    obtain ⟨m, hm, hmin⟩ := wf.has_min {a : U | a.1 ∉ r} ⟨⟨n0.1, List.mem_map_of_mem hm0⟩, hn0⟩
    obtain ⟨n, hnm, hne⟩ := List.mem_map.1 m.2
    have hnot : ∃ d ∈ n.2, d ∉ r := by
      by_contra hall
      push Not at hall
      exact hnr n ⟨hnm, by rw [hne]; exact hm, hall⟩
    obtain ⟨d, hd, hdr⟩ := hnot
    exact hmin ⟨d, hc n hnm d hd⟩ hdr (.single ⟨n, hnm, hne, hd⟩)
  exact ⟨⟨fun h => h2 (h1 h), h3⟩, ⟨h1, fun h => h3 (h2 h)⟩⟩

/-! ### Compiled pipelines -/

/-- A cycle in a graph of two parts, of which the second does not depend on the first, lies in one
of the parts. -/
theorem acyclic_parts {ns A B : List Node} (hns : ∀ n, n ∈ ns ↔ n ∈ A ∨ n ∈ B)
    (hd : ∀ n ∈ B, n.1 ∉ A.map Prod.fst) (hB : ∀ n ∈ B, ∀ d ∈ n.2, d ∉ A.map Prod.fst)
    {A' : List Node} (hA : ∀ a b, Edge A a b → b ∈ A.map Prod.fst → Edge A' a b)
    (h1 : Acyclic A') (h2 : Acyclic B) : Acyclic ns := by
  have edge : ∀ a b, Edge ns a b → Edge A a b ∨ Edge B a b ∧ a ∉ A.map Prod.fst ∧ b ∉ A.map Prod.fst := by
    rintro a b ⟨n, hm, rfl, hb⟩
    rcases (hns n).1 hm with hm | hm
    · exact .inl ⟨n, hm, rfl, hb⟩
    · exact .inr ⟨⟨n, hm, rfl, hb⟩, hd n hm, hB n hm b hb⟩
  have inA : ∀ a b, Edge A a b → a ∈ A.map Prod.fst := by
    rintro a b ⟨n, hm, rfl, _⟩
    exact List.mem_map_of_mem hm
  -- a path that ends in the first part lies in it
  have pathA : ∀ a b, Relation.TransGen (Edge ns) a b → b ∈ A.map Prod.fst →
      Relation.TransGen (Edge A') a b ∧ a ∈ A.map Prod.fst := by
    intro a b h hb
    induction h using Relation.TransGen.head_induction_on with
    | single h =>
      rcases edge _ _ h with h | ⟨_, _, h⟩
      · exact ⟨.single (hA _ _ h hb), inA _ _ h⟩
      · exact absurd hb h
    | head h _ ih =>
      rcases edge _ _ h with h | ⟨_, _, h⟩
      · exact ⟨.head (hA _ _ h ih.2) ih.1, inA _ _ h⟩
      · exact absurd ih.2 h
  -- a path that starts in the second part lies in it
  have pathB : ∀ a b, Relation.TransGen (Edge ns) a b → a ∉ A.map Prod.fst →
      Relation.TransGen (Edge B) a b ∧ b ∉ A.map Prod.fst := by
    intro a b h ha
    induction h with
    | single h =>
      rcases edge _ _ h with h | ⟨h, _, hb⟩
      · exact absurd (inA _ _ h) ha
      · exact ⟨.single h, hb⟩
    | tail _ h ih =>
      rcases edge _ _ h with h | ⟨h, _, hb⟩
      · exact absurd (inA _ _ h) ih.2
      · exact ⟨.tail ih.1 h, hb⟩
  intro a h
  by_cases ha : a ∈ A.map Prod.fst
  · exact h1 a (pathA a a h ha).1
  · exact h2 a (pathB a a h ha).1

/-- The graph of a compiled pipeline in terms of the pipeline. -/
theorem compiled_parts {E : Ext} {c : Compiler} (hc : c.Std) (ht : c.transform = none)
    {rnd : Nat → String} {p : Pipeline} {sp : Engine.Spec} (h : compile E c rnd p = some sp)
    {trusted : Bool} {ss sv : List Container} (hp : PipelineOK trusted p ss sv) :
    ∃ f g : Container → List String,
      (∀ x, f x = x.dependsOn ∨ f x = x.dependsOn ++ ["clone"] ∧ p.clone.disable = false) ∧
      (∀ x, g x = x.dependsOn ∨ g x = x.dependsOn ++ ["clone"] ∧ p.clone.disable = false) ∧
      compiledNodes sp = (cloneNames p).map (fun n => (n, [])) ++
        (sv.map (fun x => (x.name, f x)) ++ ss.map fun x => (x.name, g x)) := by
  let dep (y : Role × Container) : List String := y.2.dependsOn ++
    (if serialOf p = false ∧ p.clone.disable = false ∧
        (y.1 = .service ∨ (y.1 = .step ∧ y.2.dependsOn = [])) then ["clone"] else [])
  have hdep : ∀ y, dep y = y.2.dependsOn ∨ dep y = y.2.dependsOn ++ ["clone"] ∧ p.clone.disable = false := by
    intro y
    by_cases hy : serialOf p = false ∧ p.clone.disable = false ∧
        (y.1 = .service ∨ (y.1 = .step ∧ y.2.dependsOn = []))
    · exact .inr ⟨by simp only [dep]; rw [if_pos hy], hy.2.1⟩
    · exact .inl (by simp only [dep]; rw [if_neg hy, List.append_nil])
  refine ⟨fun x => dep (.service, x), fun x => dep (.step, x), fun x => hdep _, fun x => hdep _, ?_⟩
  have hf : List.Forall₂ (fun y s => (s.md.name, s.dependsOn) = (y.2.name, dep y)) (sources p) sp.steps := by
    refine compile_forall hc ht h ?_
    intro rename y s _ hy
    obtain ⟨k, hk⟩ := hy.common hc
    rw [hk.md, hk.dependsOn]
    rfl
  have hn : Spec.compiledNodes sp = (sources p).map fun y => (y.2.name, dep y) :=
    forall₂_map_eq (f := fun y : Role × Container => (y.2.name, dep y))
      (g := fun s : Engine.Step => (s.md.name, s.dependsOn)) hf
  have hsv' : p.services.filterMap id = sv := by rw [hp.services_eq]; simp
  have hss' : p.steps.filterMap id = ss := by rw [hp.steps_eq]; simp
  rw [hn]
  unfold sources Spec.cloneNames
  rw [hsv', hss']
  by_cases hd : p.clone.disable = true
  · simp [hd, Function.comp_def]
  · simp [hd, Function.comp_def, dep]

/-- C105: an accepted pipeline can be run to the end, in whatever order its steps become ready,
exactly if the services wait only for what exists and not for each other in a circle. -/
theorem C105_pipeline_iff {E : Ext} {c : Compiler} (hc : c.Std) (ht : c.transform = none)
    {rnd : Nat → String} {p : Pipeline} {sp : Engine.Spec} (h : compile E c rnd p = some sp)
    {trusted : Bool} {ss sv : List Container} (hp : PipelineOK trusted p ss sv) :
    NeverStuck (compiledNodes sp) ↔
      (∀ s ∈ sv, ∀ d ∈ s.dependsOn, d ∈ cloneNames p ++ (ss ++ sv).map (·.name)) ∧ Acyclic (nodes sv) := by
  obtain ⟨f, g, hf, hg, hsrc⟩ := compiled_parts hc ht h hp
  have hnames : (compiledNodes sp).map Prod.fst = cloneNames p ++ (sv.map (·.name) ++ ss.map (·.name)) := by
    rw [hsrc]; simp [Function.comp_def]
  have hnodup : (cloneNames p ++ (sv.map (·.name) ++ ss.map (·.name))).Nodup := by
    have := hp.unique
    rw [List.map_append] at this
    exact (List.Perm.nodup_iff (List.Perm.append_left _ List.perm_append_comm)).mp this
  rw [(C105_never_stuck_iff (by rw [hnames]; exact hnodup)).1]
  have hmem : ∀ d, d ∈ (compiledNodes sp).map Prod.fst ↔ d ∈ cloneNames p ++ (ss ++ sv).map (·.name) := by
    intro d
    rw [hnames]
    simp only [List.mem_append, List.map_append]
    tauto
  have hcl : p.clone.disable = false → "clone" ∈ cloneNames p := by
    intro hd; simp [cloneNames, hd]
  -- the names of services are neither `clone` nor those of steps
  have hdis : ∀ a ∈ sv.map (·.name), a ∉ cloneNames p ∧ a ∉ ss.map (·.name) := by
    intro a ha
    rw [List.nodup_append] at hnodup
    obtain ⟨_, h2, h3⟩ := hnodup
    rw [List.nodup_append] at h2
    exact ⟨fun hc => h3 a hc a (List.mem_append_left _ ha) rfl, fun hc => h2.2.2 a ha a hc rfl⟩
  have hstep : ∀ x ∈ ss, ∀ d ∈ g x, d ∈ cloneNames p ∨ d ∈ ss.map (·.name) := by
    intro x hx d hd
    have hdecl : ∀ d ∈ x.dependsOn, d ∈ cloneNames p ∨ d ∈ ss.map (·.name) := by
      intro d hd
      obtain ⟨pre, post, rfl⟩ := List.append_of_mem hx
      have := hp.deps (nodes pre) (x.name, x.dependsOn) (nodes post) (by simp [nodes]) d hd
      rcases this with h | h
      · exact .inl h
      · right
        have : d ∈ pre.map (·.name) := by simpa [nodes, Function.comp_def] using h
        rw [List.map_append]
        exact List.mem_append_left _ this
    rcases hg x with e | ⟨e, hdis⟩
    · exact hdecl d (e ▸ hd)
    · rw [e, List.mem_append, List.mem_singleton] at hd
      rcases hd with hd | rfl
      · exact hdecl d hd
      · exact .inl (hcl hdis)
  constructor
  · rintro ⟨hclosed, hac⟩
    constructor
    · intro s hs d hd
      rw [← hmem]
      refine hclosed (s.name, f s) ?_ d ?_
      · rw [hsrc]; simp only [List.mem_append, List.mem_map]; exact .inr (.inl ⟨s, hs, rfl⟩)
      · rcases hf s with e | ⟨e, _⟩ <;> simp [e, hd]
    · intro a ha
      refine hac a (Relation.TransGen.mono ?_ _ _ ha)
      rintro x y ⟨n, hn, rfl, hy⟩
      obtain ⟨s, hs, rfl⟩ := List.mem_map.1 hn
      refine ⟨(s.name, f s), ?_, rfl, ?_⟩
      · rw [hsrc]; simp only [List.mem_append, List.mem_map]; exact .inr (.inl ⟨s, hs, rfl⟩)
      · rcases hf s with e | ⟨e, _⟩
        · exact e ▸ hy
        · show y ∈ f s
          rw [e]; exact List.mem_append_left _ hy
  · rintro ⟨hdecl, hac⟩
    constructor
    · intro n hn d hd
      rw [hmem]
      rw [hsrc] at hn
      rcases List.mem_append.1 hn with hn | hn
      · obtain ⟨_, _, rfl⟩ := List.mem_map.1 hn
        cases hd
      rcases List.mem_append.1 hn with hn | hn
      · obtain ⟨s, hs, rfl⟩ := List.mem_map.1 hn
        rcases hf s with e | ⟨e, hdis⟩
        · exact hdecl s hs d (e ▸ hd)
        · have hd' : d ∈ s.dependsOn ++ ["clone"] := e ▸ hd
          rw [List.mem_append, List.mem_singleton] at hd'
          rcases hd' with hd' | rfl
          · exact hdecl s hs d hd'
          · exact List.mem_append_left _ (hcl hdis)
      · obtain ⟨s, hs, rfl⟩ := List.mem_map.1 hn
        rcases hstep s hs d hd with h | h
        · exact List.mem_append_left _ h
        · rw [List.map_append]
          exact List.mem_append_right _ (List.mem_append_left _ h)
    · refine acyclic_parts (A := sv.map fun x => (x.name, f x))
        (B := (cloneNames p).map (fun n => (n, [])) ++ ss.map fun x => (x.name, g x)) (A' := nodes sv) ?_ ?_ ?_ ?_ hac ?_
      · intro n
        rw [hsrc]
        simp only [List.mem_append]
        tauto
      · intro n hn ha
        have ha' : n.1 ∈ sv.map (·.name) := by simpa [Function.comp_def] using ha
        rcases List.mem_append.1 hn with hn | hn
        · obtain ⟨_, hm, rfl⟩ := List.mem_map.1 hn
          exact (hdis _ ha').1 hm
        · obtain ⟨s, hs, rfl⟩ := List.mem_map.1 hn
          exact (hdis _ ha').2 (List.mem_map_of_mem hs)
      · intro n hn d hd ha
        have ha' : d ∈ sv.map (·.name) := by simpa [Function.comp_def] using ha
        rcases List.mem_append.1 hn with hn | hn
        · obtain ⟨_, hm, rfl⟩ := List.mem_map.1 hn
          cases hd
        · obtain ⟨s, hs, rfl⟩ := List.mem_map.1 hn
          rcases hstep s hs d hd with h | h
          · exact (hdis _ ha').1 h
          · exact (hdis _ ha').2 h
      · rintro a b ⟨n, hn, rfl, hb⟩ hbn
        obtain ⟨s, hs, rfl⟩ := List.mem_map.1 hn
        refine ⟨(s.name, s.dependsOn), List.mem_map_of_mem (f := fun c : Container => (c.name, c.dependsOn)) hs, rfl, ?_⟩
        rcases hf s with e | ⟨e, hdd⟩
        · exact e ▸ hb
        · have hb' : b ∈ s.dependsOn ++ ["clone"] := e ▸ hb
          rw [List.mem_append, List.mem_singleton] at hb'
          rcases hb' with hb' | rfl
          · exact hb'
          · exact absurd (hcl hdd) (hdis _ (by simpa [Function.comp_def] using hbn)).1
      · -- the steps wait for earlier steps only
        have hnd2 : ((cloneNames p).map (fun n => ((n, []) : Node)) ++ ss.map fun x => (x.name, g x)).map Prod.fst =
            cloneNames p ++ ss.map (·.name) := by simp [Function.comp_def]
        refine acyclic_of_earlier (roots := []) ?_ nofun ?_
        · rw [hnd2]
          exact hnodup.sublist ((List.sublist_append_right _ _).append_left _)
        · apply depsEarlier_append
          · rintro pre n post he d hd
            have : n ∈ (Spec.cloneNames p).map (fun n => ((n, []) : Node)) := by rw [he]; simp
            obtain ⟨_, _, rfl⟩ := List.mem_map.mp this
            simp at hd
          · rintro pre n post he d hd
            obtain ⟨pre', rest, e1, e2, e3⟩ := List.map_eq_append_iff.mp he
            obtain ⟨c0, post', e4, e5, e6⟩ := List.map_eq_cons_iff.mp e3
            subst e5 e2
            have hdecl0 : ∀ d ∈ c0.dependsOn, d ∈ [] ++ List.map Prod.fst ((cloneNames p).map fun n => ((n, []) : Node)) ∨
                d ∈ List.map Prod.fst (pre'.map fun x => (x.name, g x)) := by
              intro d hd
              have h2 := hp.deps (Spec.nodes pre') (c0.name, c0.dependsOn) (Spec.nodes post')
                (by rw [e1, e4]; simp [Spec.nodes]) d hd
              rcases h2 with h2 | h2
              · left; simp [Function.comp_def, h2]
              · right; simpa [Spec.nodes, Function.comp_def] using h2
            rcases hg c0 with e | ⟨e, hdd⟩
            · exact hdecl0 d (e ▸ hd)
            · have hd' : d ∈ c0.dependsOn ++ ["clone"] := e ▸ hd
              rw [List.mem_append, List.mem_singleton] at hd'
              rcases hd' with hd' | rfl
              · exact hdecl0 d hd'
              · left; simp [Function.comp_def, hcl hdd]

/-- C105: a pipeline that the linter accepts and whose services declare no dependencies runs to the
end, each step exactly once, whatever order the steps are taken in. -/
theorem C105_runs {E : Ext} {c : Compiler} (hc : c.Std) (ht : c.transform = none)
    {rnd : Nat → String} {p : Pipeline} {sp : Engine.Spec} (h : compile E c rnd p = some sp)
    {trusted : Bool} (hl : lint (.pipeline p) trusted = .ok ())
    (hsv : ∀ s, some s ∈ p.services → s.dependsOn = []) (r : List String) (hr : Schedule (compiledNodes sp) r) :
    ∃ t, Schedule (compiledNodes sp) (r ++ t) ∧ (r ++ t).Perm (sp.steps.map (·.md.name)) := by
  obtain ⟨h1, h2, h3⟩ := C26_acyclic hc ht h hl hsv
  have hn : (compiledNodes sp).map Prod.fst = sp.steps.map (·.md.name) := by
    unfold compiledNodes
    rw [List.map_map]; rfl
  rw [← hn]
  refine C105_completes h1 ((C105_never_stuck_iff h1).1.2 ⟨fun n hm d hd => ?_, h3⟩) r hr
  obtain ⟨pre, post, e⟩ := List.append_of_mem hm
  rcases h2 pre n post e d hd with hx | hx
  · cases hx
  · rw [e, List.map_append]
    exact List.mem_append_left _ hx

/-- C105: with step dependencies and cloning, nothing runs before the clone step. -/
theorem C105_clone_first {E : Ext} {c : Compiler} (hc : c.Std) (ht : c.transform = none)
    {rnd : Nat → String} {p : Pipeline} {sp : Engine.Spec} (h : compile E c rnd p = some sp)
    (hs : ¬ Spec.Serial p) (hd : p.clone.disable = false) (r : List String)
    (hr : Schedule (compiledNodes sp) r) : r = [] ∨ ∃ t, r = "clone" :: t := by
  cases r with
  | nil => exact .inl rfl
  | cons a t =>
    right
    obtain ⟨n, hm, rfl, hdeps⟩ := schedule_before hr [] a t rfl
    obtain ⟨s, hsm, rfl⟩ := List.mem_map.1 hm
    have hdep := (C25_dependencies hc ht h).2 hs hd
    have hnm : List.Forall₂ (fun y s => s.md.name = y.2.name) (sources p) sp.steps := by
      refine compile_forall hc ht h ?_
      intro rename y s _ hy
      obtain ⟨k, hk⟩ := hy.common hc
      rw [hk.md]
    obtain ⟨i, hi, hget⟩ := List.getElem_of_mem hsm
    have hlen := hdep.length_eq
    have d1 := (List.forall₂_iff_get.mp hdep).2 i (by omega) hi
    have n1 := (List.forall₂_iff_get.mp hnm).2 i (by omega) hi
    simp only [List.get_eq_getElem, hget] at d1 n1
    have hnil : s.dependsOn = [] := List.eq_nil_iff_forall_not_mem.2 fun d hd => by simpa using hdeps d hd
    rcases mem_sources.mp (List.getElem_mem (l := sources p) (n := i) (by omega)) with ⟨_, e⟩ | ⟨e, _⟩ | ⟨e, _⟩
    · refine ⟨t, ?_⟩
      show s.md.name :: t = _
      rw [n1, e]
    · have := d1.2.1 e
      rw [hnil] at this
      simp at this
    · have := d1.2.2 e
      rw [hnil] at this
      split at this
      · simp at this
      · rename_i hne
        exact absurd this.symm hne

/-! ### Examples -/

/-- A run of the example: the service starts last. -/
example (sp : Engine.Spec) (h : compile exExt {} exRnd exCompiled = some sp) :
    Schedule (compiledNodes sp) ["clone", "image", "test", "redis"] := by
  have e : compiledNodes sp = [("clone", []), ("redis", ["clone"]), ("image", ["clone"]), ("test", ["image"])] := by
    have : (compile exExt {} exRnd exCompiled).map Spec.compiledNodes =
        some [("clone", []), ("redis", ["clone"]), ("image", ["clone"]), ("test", ["image"])] := by decide +kernel
    rw [h] at this
    exact Option.some.inj this
  rw [e]
  exact .next _ ("redis", ["clone"]) (.next _ ("test", ["image"]) (.next _ ("image", ["clone"])
    (.next _ ("clone", []) .start ⟨by simp, by simp, by simp⟩) ⟨by simp, by simp, by simp⟩)
    ⟨by simp, by simp, by simp⟩) ⟨by simp, by simp, by simp⟩

/-- C105: two services of an accepted pipeline that wait for each other never start, nor does
anything that waits for a service that does not exist. -/
theorem C105_stuck :
    let p : Pipeline := { kind := "pipeline", services := [some { name := "a", image := "a", dependsOn := ["b"] },
      some { name := "b", image := "b", dependsOn := ["a"] }, some { name := "c", image := "c", dependsOn := ["d"] }] }
    lint (.pipeline p) false = .ok () ∧ ∃ sp, compile exExt {} exRnd p = some sp ∧
      ∀ r, Schedule (compiledNodes sp) r → "a" ∉ r ∧ "b" ∉ r ∧ "c" ∉ r := by
  refine ⟨by decide, ?_⟩
  have h : (compile exExt {} exRnd { kind := "pipeline", services := [some { name := "a", image := "a", dependsOn := ["b"] },
      some { name := "b", image := "b", dependsOn := ["a"] }, some { name := "c", image := "c", dependsOn := ["d"] }] }).map
      Spec.compiledNodes = some [("clone", []), ("a", ["b"]), ("b", ["a"]), ("c", ["d"])] := by decide +kernel
  rw [Option.map_eq_some_iff] at h
  obtain ⟨sp, h1, h2⟩ := h
  refine ⟨sp, h1, fun r hr => ?_⟩
  rw [h2] at hr
  induction hr with
  | start => simp
  | next r n hs hn ih =>
    obtain ⟨hm, _, hd⟩ := hn
    have hdn : "d" ∉ r := fun hc => by
      have := schedule_names hs _ hc
      simp at this
    simp only [List.mem_cons, List.not_mem_nil, or_false] at hm
    rcases hm with rfl | rfl | rfl | rfl
    · simpa using ih
    · exact absurd (hd "b" (by simp)) ih.2.1
    · exact absurd (hd "a" (by simp)) ih.1
    · exact absurd (hd "d" (by simp)) hdn

end Drone
