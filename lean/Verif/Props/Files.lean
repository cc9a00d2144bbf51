/-
C36, C39 - C41: git credentials, panics, files and the workspace volume.
-/
import Verif.Props.Envs

namespace Drone
open Engine (Step File)
open Spec (Role sources IsBuild)

/-! ### All files of a compiled pipeline -/

/-- Does the container get a script file? -/
def Spec.HasScript (p : Pipeline) (y : Role × Container) : Prop :=
  y.2.commands ≠ [] ∧ p.platform.os ≠ "windows" ∧ ¬ IsBuild y

instance (p : Pipeline) (y : Role × Container) : Decidable (Spec.HasScript p y) := by
  unfold Spec.HasScript; infer_instance

/-- Name and contents of the files made for a container. -/
def Spec.filesOf (E : Ext) (c : Compiler) (p : Pipeline) (y : Role × Container) : List (String × Bytes) :=
  (if Spec.HasScript p y then [(y.2.name, utf8 (Script.posix E.isPrint y.2.commands))] else []) ++
  (if y.1 = .clone ∧ c.gitCredentials.getD [] ≠ [] then
    [(".git-credentials", c.gitCredentials.getD [])] else [])

theorem rawFiles_eq (x : Ctx) (uid : String) (y : Role × Container) :
    (rawFiles x uid y).map (fun f => (f.md.name, f.data)) = Spec.filesOf x.E x.c x.p y := by
  obtain ⟨role, src⟩ := y
  have hs : ∀ role, ¬ IsBuild (role, src) →
      (scriptFiles x.E x.p.platform.os x.ns uid src).map (fun f => (f.md.name, f.data)) =
      if Spec.HasScript x.p (role, src) then
        [(src.name, utf8 (Script.posix x.E.isPrint src.commands))] else [] := by
    intro role hb
    unfold scriptFiles Spec.HasScript
    by_cases h1 : src.commands = []
    · simp [h1]
    · have : src.commands.length > 0 := List.length_pos_iff.mpr h1
      by_cases h2 : x.p.platform.os = "windows" <;> simp [h1, h2, hb, this]
  unfold Spec.filesOf
  cases role with
  | clone =>
    have hb : ¬ IsBuild (Role.clone, src) := by simp [IsBuild]
    simp only [rawFiles, List.map_append, hs .clone hb]
    unfold credFiles
    by_cases h : x.c.gitCredentials.getD [] = [] <;> simp [h]
  | service =>
    have hb : ¬ IsBuild (Role.service, src) := by simp [IsBuild]
    simp [rawFiles, hs .service hb]
  | step =>
    simp only [rawFiles]
    by_cases hb : src.build.isSome = true
    · have : IsBuild (Role.step, src) := ⟨rfl, hb⟩
      simp [hb, Spec.HasScript, this]
    · have hb' : ¬ IsBuild (Role.step, src) := fun h => hb h.2
      rw [if_neg hb, hs .step hb']
      simp

theorem emit_files_eq {x : Ctx} {rnd : Nat → String} : ∀ {ys : List (Role × Container)} {n : Nat} {r},
    emit x rnd n ys = some r →
    r.2.1.map (fun f => (f.md.name, f.data)) = ys.flatMap (Spec.filesOf x.E x.c x.p)
  | [], n, r, h => by simp [emit] at h; subst h; simp
  | y :: ys, n, r, h => by
    simp only [emit, Option.bind_eq_some_iff, Option.map_eq_some_iff] at h
    obtain ⟨s, hs, q, hq, rfl⟩ := h
    simp only [List.map_append, List.flatMap_cons, rawFiles_eq, emit_files_eq hq]

/-- C40 (all files): the files of a compiled specification are, in order, the
credentials of the clone step and one script per container with commands that is not a
build step (none on Windows). -/
theorem C40_files {E : Ext} {c : Compiler} (hc : c.Std) (ht : c.transform = none)
    {rnd : Nat → String} {p : Pipeline} {sp : Engine.Spec} (h : compile E c rnd p = some sp) :
    sp.files.map (fun f => (f.md.name, f.data)) = (sources p).flatMap (Spec.filesOf E c p) := by
  obtain ⟨_, _, _, r, hr, rfl⟩ := compile_shape hc ht h
  exact emit_files_eq hr

/-- The file mounts of a compiled step. -/
theorem CompiledFrom.files {x : Ctx} (hc : x.c.Std) {rnd rename y s}
    (h : CompiledFrom x rnd rename y s) :
    s.files = (if Spec.HasScript x.p y then
        [{ name := y.2.name, path := "/usr/drone/bin/init", mode := 0o777 }] else []) ++
      (if y.1 = .clone ∧ x.c.gitCredentials.getD [] ≠ [] then
        [{ name := ".git-credentials", path := "/root/.git-credentials" }] else []) := by
  obtain ⟨k, raw, i, hr, rfl⟩ := h
  by_cases hb : IsBuild y
  · obtain ⟨role, src⟩ := y
    obtain ⟨h1, h2⟩ := hb
    obtain rfl : role = Role.step := h1
    cases hbb : src.build with
    | none => simp [hbb] at h2
    | some b =>
      have := (rawStep_build hc hbb hr).files
      have hno : ¬ Spec.HasScript x.p (Role.step, src) := fun hs => hs.2.2 ⟨rfl, h2⟩
      show raw.files = _
      rw [this, if_neg hno]
      simp
  · have := (rawStep_plain hc hb hr).files
    show raw.files = _
    rw [this]
    unfold scriptMounts Spec.HasScript
    congr 1
    · by_cases h1 : y.2.commands = []
      · simp [h1]
      · have : y.2.commands.length > 0 := List.length_pos_iff.mpr h1
        by_cases h2 : x.p.platform.os = "windows" <;> simp [h1, h2, hb, this]
    · simp

/-- C40: every file mounted by a compiled step exists under that name. -/
theorem C40_mounts_resolve {E : Ext} {c : Compiler} (hc : c.Std) (ht : c.transform = none)
    {rnd : Nat → String} {p : Pipeline} {sp : Engine.Spec} (h : compile E c rnd p = some sp) :
    ∀ s ∈ sp.steps, ∀ m ∈ s.files, ∃ f ∈ sp.files, f.md.name = m.name := by
  have hf := C40_files hc ht h
  have hall : List.Forall₂ (fun y s => y ∈ sources p ∧ ∀ m ∈ s.files,
      ∃ q ∈ Spec.filesOf E c p y, q.1 = m.name) (sources p) sp.steps := by
    refine compile_forall hc ht h ?_
    intro rename y s hy hs
    refine ⟨hy, fun m hm => ?_⟩
    rw [hs.files hc] at hm
    unfold Spec.filesOf
    rcases List.mem_append.mp hm with hm | hm
    · split at hm
      · rename_i h1
        have h1 : Spec.HasScript p y := h1
        simp only [List.mem_singleton] at hm
        subst hm
        exact ⟨_, List.mem_append.mpr (.inl (by rw [if_pos h1]; exact List.mem_singleton.mpr rfl)), rfl⟩
      · simp at hm
    · split at hm
      · rename_i h1
        have h1 : y.1 = .clone ∧ c.gitCredentials.getD [] ≠ [] := h1
        simp only [List.mem_singleton] at hm
        subst hm
        exact ⟨_, List.mem_append.mpr (.inr (by rw [if_pos h1]; exact List.mem_singleton.mpr rfl)), rfl⟩
      · simp at hm
  intro s hs m hm
  obtain ⟨y, hy, _, h2⟩ := forall₂_mem_right hall hs
  obtain ⟨q, hq, he⟩ := h2 m hm
  have : q ∈ sp.files.map (fun f => (f.md.name, f.data)) := by
    rw [hf]; exact List.mem_flatMap.mpr ⟨y, hy, hq⟩
  obtain ⟨f, hf1, rfl⟩ := List.mem_map.mp this
  exact ⟨f, hf1, he⟩

theorem filter_flatMap_single {α β : Type} (g : α → List β) (q : β → Bool) : ∀ {l : List α} {y : α},
    y ∈ l → (∀ z ∈ l, z ≠ y → (g z).filter q = []) → l.Nodup → (l.flatMap g).filter q = (g y).filter q
  | [], y, h, _, _ => by simp at h
  | a :: l, y, h, hz, hn => by
    rw [List.nodup_cons] at hn
    rw [List.flatMap_cons, List.filter_append]
    rcases List.mem_cons.mp h with rfl | h
    · have : (l.flatMap g).filter q = [] := by
        rw [List.filter_eq_nil_iff]
        intro b hb
        obtain ⟨z, hzl, hbz⟩ := List.mem_flatMap.mp hb
        have hne : z ≠ y := by rintro rfl; exact hn.1 hzl
        have := hz z (by simp [hzl]) hne
        rw [List.filter_eq_nil_iff] at this
        exact this b hbz
      rw [this, List.append_nil]
    · have hne : a ≠ y := by rintro rfl; exact hn.1 h
      rw [hz a (by simp) hne, List.nil_append]
      exact filter_flatMap_single g q h (fun z hzl => hz z (by simp [hzl])) hn.2

theorem sources_names {p : Pipeline} {trusted : Bool} (hl : lint (.pipeline p) trusted = .ok ()) :
    ((sources p).map (fun y => y.2.name)).Nodup := by
  obtain ⟨ss, sv, hp⟩ := (C12_lint_iff p trusted).1 hl
  have hu := hp.unique
  unfold sources
  rw [hp.steps_eq, hp.services_eq]
  have e : ∀ l : List Container, (l.map some).filterMap id = l := by
    intro l; induction l with
    | nil => rfl
    | cons a l ih => simp
  rw [e, e]
  have hperm : ((Spec.cloneNames p) ++ (ss ++ sv).map (·.name)).Perm
      (((if p.clone.disable then [] else
        [(Role.clone, ({ name := "clone", image := Spec.cloneImageOf p.platform } : Container))]) ++
        sv.map (fun c => (Role.service, c)) ++ ss.map (fun c => (Role.step, c))).map (fun y => y.2.name)) := by
    rw [List.map_append, List.map_append, List.map_append, List.map_map, List.map_map, List.append_assoc]
    have : (if p.clone.disable then [] else
        [(Role.clone, ({ name := "clone", image := Spec.cloneImageOf p.platform } : Container))]).map
        (fun y => y.2.name) = Spec.cloneNames p := by
      unfold Spec.cloneNames
      cases p.clone.disable <;> rfl
    rw [this]
    refine List.Perm.append_left _ ?_
    exact List.perm_append_comm
  exact hperm.nodup_iff.mp hu

/-- C40: in a linted pipeline a step with commands, not on Windows and not a build
step, executes `/usr/drone/bin/init`, the file it mounts there is its own script, and no
other file has that name, unless the step is named `.git-credentials`. -/
theorem C40_own_script {E : Ext} {c : Compiler} (hc : c.Std) (ht : c.transform = none)
    {rnd : Nat → String} {p : Pipeline} {sp : Engine.Spec} (h : compile E c rnd p = some sp)
    {trusted : Bool} (hl : lint (.pipeline p) trusted = .ok ()) :
    List.Forall₂ (fun y s =>
      y.2.commands ≠ [] → p.platform.os ≠ "windows" → ¬ IsBuild y → y.2.name ≠ ".git-credentials" →
      s.docker.command = ["/bin/sh"] ∧ s.docker.args = ["/usr/drone/bin/init"] ∧
      ∃ m ∈ s.files, m.path = "/usr/drone/bin/init" ∧ m.mode = 0o777 ∧ ∃ f,
        sp.files.filter (fun f => f.md.name = m.name) = [f] ∧
        f.data = utf8 (Script.posix E.isPrint y.2.commands))
      (sources p) sp.steps := by
  have hf := C40_files hc ht h
  have hnodup := sources_names hl
  refine compile_forall hc ht h ?_
  intro rename y s hy hs hcmd hos hb hname
  have hscr : Spec.HasScript p y := ⟨hcmd, hos, hb⟩
  have hfiles := hs.files hc
  rw [if_pos (show Spec.HasScript (ctxOf E c rnd p).p y from hscr)] at hfiles
  obtain ⟨k, raw, i, hr, rfl⟩ := hs
  have hpf := (rawStep_plain (x := ctxOf E c rnd p) hc hb hr).command
  have hlen : y.2.commands.length > 0 := List.length_pos_iff.mpr hcmd
  have hos' : ¬ (ctxOf E c rnd p).p.platform.os = "windows" := hos
  rw [commandOf, if_pos hlen, if_neg hos', Prod.mk.injEq] at hpf
  refine ⟨hpf.1, hpf.2, ⟨y.2.name, "/usr/drone/bin/init", 0o777⟩, ?_, rfl, rfl, ?_⟩
  · rw [hfiles]; simp
  · have hsingle : ((sources p).flatMap (Spec.filesOf E c p)).filter (fun q => q.1 = y.2.name) =
        (Spec.filesOf E c p y).filter (fun q => q.1 = y.2.name) := by
      refine filter_flatMap_single _ _ hy ?_ (List.Nodup.of_map _ hnodup)
      intro z hz hne
      have hzn : z.2.name ≠ y.2.name := fun e => hne (List.inj_on_of_nodup_map hnodup hz hy e)
      rw [List.filter_eq_nil_iff]
      intro q hq
      unfold Spec.filesOf at hq
      rcases List.mem_append.mp hq with hq | hq
      · split at hq
        · simp only [List.mem_singleton] at hq; subst hq; simpa using hzn
        · simp at hq
      · split at hq
        · simp only [List.mem_singleton] at hq; subst hq
          simpa using fun e => hname e.symm
        · simp at hq
    have hown : (Spec.filesOf E c p y).filter (fun q => q.1 = y.2.name) =
        [(y.2.name, utf8 (Script.posix E.isPrint y.2.commands))] := by
      unfold Spec.filesOf
      rw [if_pos hscr, List.filter_append]
      have : (if y.1 = .clone ∧ c.gitCredentials.getD [] ≠ [] then
          [(".git-credentials", c.gitCredentials.getD [])] else []).filter (fun q => q.1 = y.2.name) = [] := by
        rw [List.filter_eq_nil_iff]
        intro q hq
        split at hq
        · simp only [List.mem_singleton] at hq; subst hq
          simpa using fun e => hname e.symm
        · simp at hq
      rw [this]
      simp
    rw [hown, ← hf, List.filter_map] at hsingle
    have hlen1 := congrArg List.length hsingle
    simp only [List.length_map, List.length_singleton] at hlen1
    obtain ⟨f, hfe⟩ := List.length_eq_one_iff.mp hlen1
    rw [hfe] at hsingle
    simp only [List.map_cons, List.map_nil, List.cons.injEq, and_true, Prod.mk.injEq] at hsingle
    exact ⟨f, hfe, hsingle.2⟩

example : (compile exExt {} exRnd exCompiled).map (fun sp => (sp.files.map (·.md.name),
      sp.steps.map fun s => s.files.map fun m => (m.name, m.path))) =
    some (["test"], [[], [], [], [("test", "/usr/drone/bin/init")]]) := by decide +kernel

/-! ### C36 -/

/-- C36 (mounts): a compiled step has a file at `/root/.git-credentials` iff it is the
automatic clone step and the callback returned data. -/
theorem C36_mount {E : Ext} {c : Compiler} (hc : c.Std) (ht : c.transform = none)
    {rnd : Nat → String} {p : Pipeline} {sp : Engine.Spec} (h : compile E c rnd p = some sp) :
    List.Forall₂ (fun y s =>
      ((∃ m ∈ s.files, m.path = "/root/.git-credentials") ↔
        y.1 = .clone ∧ c.gitCredentials.getD [] ≠ []) ∧
      (∀ m ∈ s.files, m.path = "/root/.git-credentials" → m.name = ".git-credentials"))
      (sources p) sp.steps := by
  refine compile_forall hc ht h ?_
  intro rename y s hy hs
  have hfiles := hs.files hc
  have key : ∀ m ∈ s.files, m.path = "/root/.git-credentials" →
      (y.1 = .clone ∧ c.gitCredentials.getD [] ≠ []) ∧ m.name = ".git-credentials" := by
    intro m hm hp
    rw [hfiles] at hm
    rcases List.mem_append.mp hm with hm | hm
    · split at hm
      · simp only [List.mem_singleton] at hm
        subst hm
        exact absurd hp (by simp)
      · simp at hm
    · split at hm
      · rename_i h1
        simp only [List.mem_singleton] at hm
        subst hm
        exact ⟨h1, rfl⟩
      · simp at hm
  refine ⟨⟨fun ⟨m, hm, hp⟩ => (key m hm hp).1, fun h1 => ?_⟩, fun m hm hp => (key m hm hp).2⟩
  rw [if_pos (show y.1 = .clone ∧ (ctxOf E c rnd p).c.gitCredentials.getD [] ≠ [] from h1)] at hfiles
  exact ⟨{ name := ".git-credentials", path := "/root/.git-credentials" },
    by rw [hfiles]; exact List.mem_append.mpr (.inr (List.mem_singleton.mpr rfl)), rfl⟩

/-- C36 (partial: no container with commands may be called `.git-credentials`, see
`C36_name_clash`): the credentials file exists iff the callback returned data and cloning
is enabled, then exactly once and with exactly that data, and only the clone step mounts
it. -/
theorem C36_credentials_partial {E : Ext} {c : Compiler} (hc : c.Std) (ht : c.transform = none)
    {rnd : Nat → String} {p : Pipeline} {sp : Engine.Spec} (h : compile E c rnd p = some sp)
    (hn : ∀ y ∈ sources p, y.2.commands ≠ [] → y.2.name ≠ ".git-credentials") :
    (sp.files.filter (fun f => f.md.name = ".git-credentials")).map (·.data) =
      (if c.gitCredentials.getD [] ≠ [] ∧ p.clone.disable = false then [c.gitCredentials.getD []] else []) ∧
    List.Forall₂ (fun y s => ∀ m ∈ s.files, m.name = ".git-credentials" → y.1 = .clone)
      (sources p) sp.steps := by
  have hf := C40_files hc ht h
  constructor
  · have e1 : (sp.files.filter (fun f => f.md.name = ".git-credentials")).map (·.data) =
        ((sp.files.map (fun f => (f.md.name, f.data))).filter
          (fun q => q.1 = ".git-credentials")).map Prod.snd := by
      rw [List.filter_map, List.map_map]; rfl
    rw [e1, hf]
    have e2 : ∀ y ∈ sources p, (Spec.filesOf E c p y).filter (fun q => q.1 = ".git-credentials") =
        if y.1 = .clone ∧ c.gitCredentials.getD [] ≠ [] then
          [(".git-credentials", c.gitCredentials.getD [])] else [] := by
      intro y hy
      unfold Spec.filesOf
      rw [List.filter_append]
      have : (if Spec.HasScript p y then [(y.2.name, utf8 (Script.posix E.isPrint y.2.commands))] else []).filter
          (fun q => q.1 = ".git-credentials") = [] := by
        rw [List.filter_eq_nil_iff]
        intro q hq
        split at hq
        · rename_i h1
          simp only [List.mem_singleton] at hq; subst hq
          simpa using hn y hy h1.1
        · simp at hq
      rw [this, List.nil_append]
      split <;> simp
    have e3 : ((sources p).flatMap (Spec.filesOf E c p)).filter (fun q => q.1 = ".git-credentials") =
        (sources p).flatMap (fun y => if y.1 = .clone ∧ c.gitCredentials.getD [] ≠ [] then
          [(".git-credentials", c.gitCredentials.getD [])] else []) := by
      rw [List.filter_flatMap]
      generalize sources p = l at e2
      induction l with
      | nil => rfl
      | cons a l ih =>
        rw [List.flatMap_cons, List.flatMap_cons, e2 a (by simp), ih fun y hy => e2 y (by simp [hy])]
    rw [e3]
    have hno : ∀ (r : Role) (cs : List Container), r ≠ .clone →
        (cs.map (fun x => (r, x))).flatMap (fun y : Role × Container =>
          if y.1 = .clone ∧ c.gitCredentials.getD [] ≠ [] then
          [(".git-credentials", c.gitCredentials.getD [])] else []) = [] := by
      intro r cs hr
      rw [List.flatMap_eq_nil_iff]
      intro y hy
      obtain ⟨a, _, rfl⟩ := List.mem_map.mp hy
      simp [hr]
    unfold sources
    rw [List.flatMap_append, List.flatMap_append, hno .service _ (by decide), hno .step _ (by decide)]
    by_cases hd : p.clone.disable = true
    · simp [hd]
    · by_cases hcr : c.gitCredentials.getD [] = [] <;> simp [hd, hcr]
  · refine compile_forall hc ht h ?_
    intro rename y s hy hs m hm hname
    rw [hs.files hc] at hm
    rcases List.mem_append.mp hm with hm | hm
    · split at hm
      · rename_i h1
        have h1 : Spec.HasScript p y := h1
        simp only [List.mem_singleton] at hm
        subst hm
        exact absurd hname (hn y hy h1.1)
      · simp at hm
    · split at hm
      · rename_i h1; exact h1.1
      · simp at hm

example : (compile exExt { gitCredentials := some [1, 2] } exRnd exCompiled).map (fun sp =>
      (sp.files.map fun f => (f.md.name, f.data.length), sp.steps.map fun s => s.files.map (·.name))) =
    some ([(".git-credentials", 2), ("test", 312)], [[".git-credentials"], [], [], ["test"]]) := by
  decide +kernel

/-- Why the name is excluded: the linter accepts, untrusted, a step called
`.git-credentials`; its script then has the same name as the credentials file, the
credentials come first in the list of files, and the step mounts that name. -/
theorem C36_name_clash :
    let p : Pipeline := { kind := "pipeline", steps := [
      some { name := ".git-credentials", image := "alpine", commands := ["true"] }] }
    lint (.pipeline p) false = .ok () ∧
    ∃ sp, compile exExt { gitCredentials := some [104, 105] } exRnd p = some sp ∧
      (sp.files.find? fun f => f.md.name = ".git-credentials").map (·.data) = some [104, 105] ∧
      (sp.steps.map fun s => (s.md.name, s.files.map fun m => (m.name, m.path))) =
        [("clone", [(".git-credentials", "/root/.git-credentials")]),
         (".git-credentials", [(".git-credentials", "/usr/drone/bin/init")])] := by
  refine ⟨by decide, _, rfl, ?_, ?_⟩ <;> decide +kernel

/-! ### C39 -/

theorem toPorts_some {c : Container} (h : none ∉ c.ports) : ∃ ps, toPorts c = some ps := by
  unfold toPorts
  generalize c.ports = l at h
  induction l with
  | nil => exact ⟨[], rfl⟩
  | cons a l ih =>
    cases a with
    | none => simp at h
    | some q =>
      obtain ⟨ps, hps⟩ := ih (by simpa using h)
      exact ⟨⟨q.port, q.host, q.protocol⟩ :: ps, by simp [List.mapM_cons, toPort, hps]⟩

theorem stepMounts_some : ∀ {vs : List (Option VolumeMount)}, none ∉ vs → ∃ ms, stepMounts vs = some ms
  | [], _ => ⟨[], rfl⟩
  | none :: vs, h => by simp at h
  | some v :: vs, h => by
    obtain ⟨ms, hms⟩ := stepMounts_some (vs := vs) (by simpa using h)
    simp only [stepMounts, hms]
    split
    · exact ⟨ms, rfl⟩
    · exact ⟨_, rfl⟩

theorem rawStep_some (x : Ctx) (uid : String) (y : Role × Container)
    (h : IsBuild y ∨ (none ∉ y.2.ports ∧ none ∉ y.2.volumes)) : ∃ s, rawStep x uid y = some s := by
  obtain ⟨role, src⟩ := y
  have hbase : ¬ IsBuild (role, src) → ∃ d, stepBase x.E x.p.platform.os x.ns uid src = some d := by
    intro hb
    obtain ⟨h1, h2⟩ := h.resolve_left hb
    obtain ⟨ps, hps⟩ := toPorts_some h1
    obtain ⟨ms, hms⟩ := stepMounts_some h2
    exact ⟨_, by unfold stepBase; rw [hps]; simp only [hms, Option.bind_some, Option.map_some]; rfl⟩
  cases role with
  | clone =>
    obtain ⟨d, hd⟩ := hbase (by simp [IsBuild])
    exact ⟨_, by simp only [rawStep, hd, Option.map_some]; rfl⟩
  | service =>
    obtain ⟨d, hd⟩ := hbase (by simp [IsBuild])
    exact ⟨_, by simp only [rawStep, hd, Option.map_some]; rfl⟩
  | step =>
    cases hb : src.build with
    | some b => exact ⟨_, by simp only [rawStep, hb]; rfl⟩
    | none =>
      obtain ⟨d, hd⟩ := hbase (by simp [IsBuild, hb])
      exact ⟨_, by simp only [rawStep, hb, hd, Option.map_some]; rfl⟩

theorem emit_some (x : Ctx) (rnd : Nat → String) : ∀ (ys : List (Role × Container)) (n : Nat),
    (∀ y ∈ ys, IsBuild y ∨ (none ∉ y.2.ports ∧ none ∉ y.2.volumes)) → ∃ r, emit x rnd n ys = some r
  | [], n, _ => ⟨_, rfl⟩
  | y :: ys, n, h => by
    obtain ⟨s, hs⟩ := rawStep_some x (rnd n) y (h y (by simp))
    obtain ⟨r, hr⟩ := emit_some x rnd ys (n + 1 + (rawFiles x (rnd (n + 1)) y).length)
      (fun z hz => h z (by simp [hz]))
    exact ⟨_, by simp only [emit, hs, Option.bind_some, hr, Option.map_some]; rfl⟩

/-- C39 (exact condition): the compiler panics on nothing but null entries: it returns
a specification iff no volume, service or step is null and no container that is not a
build step has a null port or mount. -/
theorem C39_compile_iff {E : Ext} {c : Compiler} (hc : c.Std) (rnd : Nat → String) (p : Pipeline) :
    (∃ sp, compile E c rnd p = some sp) ↔
      none ∉ p.volumes ∧ none ∉ p.services ∧ none ∉ p.steps ∧
      ∀ y ∈ sources p, ¬ IsBuild y → none ∉ y.2.ports ∧ none ∉ y.2.volumes := by
  constructor
  · rintro ⟨sp, h⟩
    unfold compile at h
    rw [Option.map_eq_some_iff] at h
    obtain ⟨st, hst, _⟩ := h
    obtain ⟨h1, h2, h3⟩ := compileCore_no_nil hst
    refine ⟨h1, h2, h3, ?_⟩
    rw [compileCore_eq E c hc rnd p h1 h2 h3, Option.map_eq_some_iff] at hst
    obtain ⟨r, hr, _⟩ := hst
    intro y hy hb
    obtain ⟨s, _, k, hk⟩ := forall₂_mem_left (emit_forall hr) hy
    have hpf := rawStep_plain (x := ctxOf E c rnd p) hc hb hk
    constructor
    · intro hn
      have := hpf.ports
      have hno : toPorts y.2 = none := by
        unfold toPorts
        generalize y.2.ports = l at hn
        induction l with
        | nil => simp at hn
        | cons a l ih =>
          cases a with
          | none => rfl
          | some q =>
            have := ih (by simpa using hn)
            simp [List.mapM_cons, toPort, this]
      rw [hno] at this; simp at this
    · intro hn
      obtain ⟨ms, hms, _⟩ := hpf.volumes
      have hno : ∀ vs : List (Option VolumeMount), none ∈ vs → stepMounts vs = none := by
        intro vs
        induction vs with
        | nil => simp
        | cons a vs ih =>
          intro hn
          cases a with
          | none => rfl
          | some v =>
            have := ih (by simpa using hn)
            simp [stepMounts, this]
      rw [hno _ hn] at hms; simp at hms
  · rintro ⟨h1, h2, h3, h4⟩
    obtain ⟨r, hr⟩ := emit_some (ctxOf E c rnd p) rnd (sources p) (firstDraw c rnd p) (by
      intro y hy
      by_cases hb : IsBuild y
      · exact .inl hb
      · exact .inr (h4 y hy hb))
    unfold compile
    rw [compileCore_eq E c hc rnd p h1 h2 h3, hr]
    exact ⟨_, rfl⟩

theorem source_containerOK {p : Pipeline} {trusted : Bool} (hl : lint (.pipeline p) trusted = .ok ())
    {y : Role × Container} (hy : y ∈ sources p) (hr : y.1 ≠ .clone) : Spec.ContainerOK trusted y.2 := by
  obtain ⟨ss, sv, hp⟩ := (C12_lint_iff p trusted).1 hl
  apply hp.containers
  rcases mem_sources.mp hy with ⟨_, rfl⟩ | ⟨_, hm⟩ | ⟨_, hm⟩
  · exact absurd rfl hr
  · rw [hp.services_eq] at hm; simp at hm; simp [hm]
  · rw [hp.steps_eq] at hm; simp at hm; simp [hm]

theorem lint_no_nil {p : Pipeline} {trusted : Bool} (hl : lint (.pipeline p) trusted = .ok ()) :
    none ∉ p.volumes ∧ none ∉ p.services ∧ none ∉ p.steps := by
  obtain ⟨ss, sv, hp⟩ := (C12_lint_iff p trusted).1 hl
  refine ⟨fun hn => ?_, ?_, ?_⟩
  · obtain ⟨w, hw, _⟩ := hp.volumes _ hn; simp at hw
  · rw [hp.services_eq]; simp
  · rw [hp.steps_eq]; simp

/-- C39: a pipeline accepted as untrusted compiles without panicking. -/
theorem C39_untrusted {E : Ext} {c : Compiler} (hc : c.Std) (rnd : Nat → String) {p : Pipeline}
    (hl : lint (.pipeline p) false = .ok ()) : ∃ sp, compile E c rnd p = some sp := by
  rw [C39_compile_iff hc]
  obtain ⟨h1, h2, h3⟩ := lint_no_nil hl
  refine ⟨h1, h2, h3, fun y hy _ => ?_⟩
  by_cases hr : y.1 = .clone
  · rcases mem_sources.mp hy with ⟨_, rfl⟩ | ⟨h, _⟩ | ⟨h, _⟩
    · simp
    · rw [hr] at h; simp at h
    · rw [hr] at h; simp at h
  · have hok := source_containerOK hl hy hr
    constructor
    · intro hn
      obtain ⟨q, hq, _⟩ := (hok.untrusted rfl).2.2.2.2.2.2 _ hn
      simp at hq
    · intro hn
      obtain ⟨v, hv, _⟩ := hok.mounts _ hn
      simp at hv

/-- C39 (partial: null ports are excluded, see `C39_null_port`): a pipeline accepted as
trusted compiles without panicking. -/
theorem C39_trusted_partial {E : Ext} {c : Compiler} (hc : c.Std) (rnd : Nat → String) {p : Pipeline}
    (hl : lint (.pipeline p) true = .ok ())
    (hports : ∀ s, some s ∈ p.steps ∨ some s ∈ p.services → none ∉ s.ports) :
    ∃ sp, compile E c rnd p = some sp := by
  rw [C39_compile_iff hc]
  obtain ⟨h1, h2, h3⟩ := lint_no_nil hl
  refine ⟨h1, h2, h3, fun y hy _ => ?_⟩
  rcases mem_sources.mp hy with ⟨_, rfl⟩ | ⟨hr, hm⟩ | ⟨hr, hm⟩
  · simp
  all_goals
    have hok := source_containerOK hl hy (by rw [hr]; decide)
    refine ⟨hports y.2 (by simp [hm]), fun hn => ?_⟩
    obtain ⟨v, hv, _⟩ := hok.mounts _ hn
    simp at hv

/-- Why null ports are excluded: the linter reads ports only of untrusted pipelines, so
`ports: [ ~ ]` in a trusted one is accepted, and the compiler dereferences it. -/
theorem C39_null_port :
    let p : Pipeline := { kind := "pipeline", steps := [
      some { name := "a", image := "alpine", ports := [none] }] }
    lint (.pipeline p) true = .ok () ∧ compile exExt {} exRnd p = none := by
  constructor <;> decide +kernel

/-! ### C41 -/

/-- C41: with the default callbacks the first volume is the empty workspace volume, it is
the only volume of that name in a linted pipeline, and every step mounts it at the
workspace base. -/
theorem C41_workspace {E : Ext} {c : Compiler} (hw : c.workspace = .default) (hm : c.mount = .default)
    (ht : c.transform = none)
    {rnd : Nat → String} {p : Pipeline} {sp : Engine.Spec} (h : compile E c rnd p = some sp)
    {trusted : Bool} (hl : lint (.pipeline p) trusted = .ok ()) :
    (∃ v, sp.volumes.filter (fun v => v.md.name = "workspace") = [v] ∧
      v.emptyDir = some {} ∧ v.hostPath = none) ∧
    (∀ s ∈ sp.steps, s.volumes.filter (fun m => m.name = "workspace") =
      [⟨"workspace", (createWorkspace p).base⟩]) := by
  have hc : c.Std := ⟨fun f => by rw [hw]; simp, fun f => by rw [hm]; simp⟩
  obtain ⟨ss, sv, hp⟩ := (C12_lint_iff p trusted).1 hl
  constructor
  · obtain ⟨n, sock, hv, hs⟩ := compile_volumes hc ht h
    refine ⟨{ md := { uid := rnd 1, name := "workspace", namespc := rnd 0, labels := some [] }
              emptyDir := some {} }, ?_, rfl, rfl⟩
    rw [hv, List.filter_append, List.filter_append]
    have e1 : (rawVolumes rnd (rnd 0) n (p.volumes.filterMap id)).filter (fun v => v.md.name = "workspace") = [] := by
      rw [List.filter_eq_nil_iff]
      intro v hv
      obtain ⟨w, hw, h1, _⟩ := rawVolumes_mem hv
      simp only [List.mem_filterMap, id, exists_eq_right] at hw
      obtain ⟨w', e, hok⟩ := hp.volumes _ hw
      simp only [Option.some.injEq] at e
      subst e
      simp only [decide_eq_true_eq, h1]
      intro hh
      exact hok.name (.inl hh)
    have e2 : sock.filter (fun v => v.md.name = "workspace") = [] := by
      rcases hs with ⟨rfl, _⟩ | ⟨⟨k, rfl⟩, _⟩ <;> simp
    rw [e1, e2]
    unfold wsVolumes
    rw [hw]
    simp
  · have hall : List.Forall₂ (fun _ s => s.volumes.filter (fun m => m.name = "workspace") =
        [⟨"workspace", (createWorkspace p).base⟩]) (sources p) sp.steps := by
      refine compile_forall hc ht h ?_
      intro rename y s hy hs
      rw [hs.volumes hc, List.filter_append]
      have e1 : (wsMounts c (createWorkspace p)).filter (fun m => m.name = "workspace") =
          [⟨"workspace", (createWorkspace p).base⟩] := by
        unfold wsMounts; rw [hm]; simp
      show _ ++ (wsMounts c (createWorkspace p)).filter _ = _
      rw [e1]
      split
      · simp
      · have : ((y.2.volumes.filterMap id).filterMap fun v => if v.name = "_docker_socket" then none
            else some (⟨v.name, v.mountPath⟩ : Engine.VolumeMount)).filter (fun m => m.name = "workspace") = [] := by
          rw [List.filter_eq_nil_iff]
          intro m hm
          obtain ⟨v, hv, he⟩ := List.mem_filterMap.mp hm
          split at he
          · simp at he
          · simp only [Option.some.injEq] at he
            subst he
            simp only [List.mem_filterMap, id, exists_eq_right] at hv
            by_cases hr : y.1 = .clone
            · rcases mem_sources.mp hy with ⟨_, rfl⟩ | ⟨h, _⟩ | ⟨h, _⟩
              · simp at hv
              · rw [hr] at h; simp at h
              · rw [hr] at h; simp at h
            · obtain ⟨w, e, hres⟩ := (source_containerOK hl hy hr).mounts _ hv
              simp only [Option.some.injEq] at e
              subst e
              simp only [decide_eq_true_eq]
              intro hh
              exact hres (.inl hh)
        rw [this, List.nil_append]
    intro s hs
    obtain ⟨y, _, hy⟩ := forall₂_mem_right hall hs
    exact hy

/-- C41: with the host workspace the name `host` is the given directory and every step
mounts it at the full workspace path, and the empty workspace volume at the base when
the workspace has a path. -/
theorem C41_host_workspace {E : Ext} {c : Compiler} {dir : String} (hw : c.workspace = .host dir)
    (hm : c.mount = .host) (ht : c.transform = none)
    {rnd : Nat → String} {p : Pipeline} {sp : Engine.Spec} (h : compile E c rnd p = some sp) :
    (∃ v, sp.volumes.find? (fun v => v.md.name = "host") = some v ∧ v.hostPath = some dir) ∧
    (∃ v, sp.volumes.find? (fun v => v.md.name = "workspace") = some v ∧ v.emptyDir = some {}) ∧
    (∀ s ∈ sp.steps, ⟨"host", (createWorkspace p).full⟩ ∈ s.volumes ∧
      ((createWorkspace p).path ≠ "" → ⟨"workspace", (createWorkspace p).base⟩ ∈ s.volumes)) := by
  have hc : c.Std := ⟨fun f => by rw [hw]; simp, fun f => by rw [hm]; simp⟩
  obtain ⟨n, sock, hv, _⟩ := compile_volumes hc ht h
  have e1 : wsVolumes c rnd (rnd 0) =
      [{ md := { uid := rnd 1, name := "workspace", namespc := rnd 0, labels := some [] }
         emptyDir := some {} },
       { md := { uid := rnd 2, name := "host" }, hostPath := some dir }] := by
    unfold wsVolumes; rw [hw]
  rw [e1] at hv
  refine ⟨⟨_, by rw [hv]; simp; rfl, rfl⟩, ⟨_, by rw [hv]; simp; rfl, rfl⟩, ?_⟩
  have hall : List.Forall₂ (fun _ s => ⟨"host", (createWorkspace p).full⟩ ∈ s.volumes ∧
      ((createWorkspace p).path ≠ "" → ⟨"workspace", (createWorkspace p).base⟩ ∈ s.volumes))
      (sources p) sp.steps := by
    refine compile_forall hc ht h ?_
    intro rename y s hy hs
    have e2 : wsMounts (ctxOf E c rnd p).c (createWorkspace (ctxOf E c rnd p).p) =
        ⟨"host", (createWorkspace p).full⟩ ::
        (if (createWorkspace p).path ≠ "" then [⟨"workspace", (createWorkspace p).base⟩] else []) := by
      show wsMounts c (createWorkspace p) = _
      unfold wsMounts; rw [hm]
    rw [hs.volumes hc, e2]
    refine ⟨by simp, fun hpth => ?_⟩
    rw [if_pos hpth]
    simp
  intro s hs
  obtain ⟨y, _, hy⟩ := forall₂_mem_right hall hs
  exact hy

example : (compile exExt { workspace := .host "/home/me", mount := .host } exRnd exCompiled).map (fun sp =>
      (sp.volumes.map fun v => (v.md.name, v.hostPath), sp.steps.map fun s => s.volumes.map (·.name))) =
    some ([("workspace", none), ("host", some "/home/me"), ("cache", none),
      ("_docker_socket", some "/var/run/docker.sock")],
      [["host"], ["host"], ["_docker_socket", "host"], ["host"]]) := by decide +kernel

end Drone
