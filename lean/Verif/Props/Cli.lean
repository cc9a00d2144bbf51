/-
C65, C66, C74, C75, C76: the command line program (Model/Cli.lean).
-/
import Verif.Model.Cli
import Verif.Props.Transform
import Verif.Props.Signer
import Verif.Props.Lint
import Verif.Props.Foreign
import Verif.Props.Trigger

namespace Drone
open Cli Transform Engine

namespace Spec
/-- Only the content of one file changed. -/
structure Saved (name : String) (b : Bytes) (w w' : World) : Prop where
  content : w'.files.get? name = some b
  others : ∀ n, n ≠ name → w'.files.get? n = w.files.get? n
  stdout : w'.stdout = w.stdout
  stderr : w'.stderr = w.stderr

/-- No file changed; `b` was written to standard error. -/
def OnStderr (b : Bytes) (w w' : World) : Prop :=
  w'.files = w.files ∧ w'.stdout = w.stdout ∧ w'.stderr = w.stderr ++ b

/-- No file changed; `b` was written to standard output. -/
def OnStdout (b : Bytes) (w w' : World) : Prop :=
  w'.files = w.files ∧ w'.stdout = w.stdout ++ b ∧ w'.stderr = w.stderr
end Spec
open Spec

/-! ### C65 -/

theorem withFile_ok {name : String} {k : Bytes → Command} {w w' : World}
    (h : withFile name k w = (some (.ok ()), w')) :
    ∃ d, w.files.get? name = some d ∧ k d w = (some (.ok ()), w') := by
  unfold withFile at h
  cases e : w.files.get? name with
  | none => simp [e] at h
  | some d => exact ⟨d, rfl, by simpa [e] using h⟩

theorem withResult_ok {α : Type} {o : Outcome α} {k : α → Command} {w w' : World}
    (h : withResult o k w = (some (.ok ()), w')) :
    ∃ a, o = some (.ok a) ∧ k a w = (some (.ok ()), w') := by
  match o, h with
  | none, h => simp [withResult, panics] at h
  | some (.error e), h => simp [withResult, fail] at h
  | some (.ok a), h => exact ⟨a, rfl, h⟩

theorem writeFile_ok {X : CliLib} {name : String} {b : Bytes} {w w' : World}
    (h : writeFile X name b w = (some (.ok ()), w')) : Saved name b w w' := by
  unfold writeFile at h
  split at h
  · cases h
    exact ⟨by simp [GoMap.get?_set], fun n hn => by simp [GoMap.get?_set, hn], rfl, rfl⟩
  · simp at h

theorem toStderr_ok {b : Bytes} {w w' : World}
    (h : toStderr b w = (some (.ok ()), w')) : OnStderr b w w' := by
  cases h; exact ⟨rfl, rfl, rfl⟩

/-- A command that changes nothing unless it succeeds. -/
def Atomic (c : Command) : Prop := ∀ w, (c w).1 ≠ some (.ok ()) → (c w).2 = w

theorem Atomic.withFile {name : String} {k : Bytes → Command} (h : ∀ d, Atomic (k d)) :
    Atomic (withFile name k) := by
  intro w hw
  unfold Cli.withFile at hw ⊢
  cases e : w.files.get? name with
  | none => rfl
  | some d => rw [e] at hw; exact h d w hw

theorem Atomic.withResult {α : Type} {o : Outcome α} {k : α → Command} (h : ∀ a, Atomic (k a)) :
    Atomic (withResult o k) := by
  intro w hw
  match o, hw with
  | none, _ => rfl
  | some (.error e), _ => rfl
  | some (.ok a), hw => exact h a w hw

theorem Atomic.writeFile (X : CliLib) (name : String) (b : Bytes) : Atomic (writeFile X name b) := by
  intro w hw
  unfold Cli.writeFile at hw ⊢
  split
  · rename_i h; simp [h] at hw
  · rfl

theorem Atomic.of_ok {c : Command} (h : ∀ w, (c w).1 = some (.ok ())) : Atomic c :=
  fun w hw => absurd (h w) hw

theorem Atomic.ite {P : Prop} [Decidable P] {c d : Command} (hc : Atomic c) (hd : Atomic d) :
    Atomic (if P then c else d) := by split <;> assumption

/-- C65: a command that reports an error or panics has changed no file and printed nothing. -/
theorem C65_failure (X : CliLib) (fl : Flags) (cf : CompileFlags) (key name : String) (w : World) :
    ((runFormat X fl name w).1 ≠ some (.ok ()) → (runFormat X fl name w).2 = w) ∧
    ((runConvert X fl name w).1 ≠ some (.ok ()) → (runConvert X fl name w).2 = w) ∧
    ((runLint X fl name w).1 ≠ some (.ok ()) → (runLint X fl name w).2 = w) ∧
    ((runSign X fl key name w).1 ≠ some (.ok ()) → (runSign X fl key name w).2 = w) ∧
    ((runVerify X key name w).1 ≠ some (.ok ()) → (runVerify X key name w).2 = w) ∧
    ((runCompile X cf name w).1 ≠ some (.ok ()) → (runCompile X cf name w).2 = w) := by
  have hp : ∀ b, Atomic (println b) := fun b => .of_ok fun _ => rfl
  have he : ∀ b, Atomic (toStderr b) := fun b => .of_ok fun _ => rfl
  refine ⟨?_, ?_, ?_, ?_, ?_, ?_⟩
  · exact Atomic.withFile (fun d => .withResult fun m => .withResult fun b => .ite (.writeFile X name b) (he b)) w
  · exact Atomic.withFile (fun d => .withResult fun b => .ite (.writeFile X name b) (he b)) w
  · exact Atomic.withFile (fun d => .withResult fun m => .withResult fun b => .of_ok fun _ => rfl) w
  · exact Atomic.withFile (fun d => .ite (.withResult fun b => .writeFile X name b) (.withResult fun b => hp b)) w
  · exact Atomic.withFile (fun d => .withResult fun b => .ite (hp _) (fun _ _ => rfl)) w
  · exact Atomic.withFile (fun d => .withResult fun m => .withResult fun b => .of_ok fun _ => rfl) w

/-- C65, fmt: on success the printed manifest is in the file with the flag, and on standard
error without. -/
theorem C65_format (X : CliLib) (fl : Flags) (name : String) (w w' : World)
    (h : runFormat X fl name w = (some (.ok ()), w')) :
    ∃ d m b, w.files.get? name = some d ∧ parseReader X.sig.toYamlLib { data := d } = .ok m ∧
      Pretty.print X.conv.pretty m = some b ∧
      (fl.formatSave = true → Saved name b w w') ∧ (fl.formatSave = false → OnStderr b w w') := by
  obtain ⟨d, hd, h⟩ := withFile_ok h
  obtain ⟨m, hm, h⟩ := withResult_ok h
  obtain ⟨b, hb, h⟩ := withResult_ok h
  refine ⟨d, m, b, hd, by simpa using hm, ?_, fun hs => ?_, fun hs => ?_⟩
  · cases e : Pretty.print X.conv.pretty m with
    | none => rw [e] at hb; simp at hb
    | some b' => rw [e] at hb; simp at hb; rw [hb]
  · rw [hs] at h; exact writeFile_ok h
  · rw [hs] at h; exact toStderr_ok h

/-- C65, sign: on success the signed file is saved with the flag, and the digest printed
without. -/
theorem C65_sign (X : CliLib) (fl : Flags) (key name : String) (w w' : World)
    (h : runSign X fl key name w = (some (.ok ()), w')) :
    ∃ d, w.files.get? name = some d ∧
      (fl.signSave = true → ∃ b, signUpdate X.sig X.mac d (utf8 key) = .ok b ∧ Saved name b w w') ∧
      (fl.signSave = false → ∃ b, sign X.sig X.mac d (utf8 key) = .ok b ∧ OnStdout (b ++ [10]) w w') := by
  obtain ⟨d, hd, h⟩ := withFile_ok h
  refine ⟨d, hd, fun hs => ?_, fun hs => ?_⟩
  · rw [hs, if_pos rfl] at h
    obtain ⟨b, hb, h⟩ := withResult_ok h
    exact ⟨b, by simpa using hb, writeFile_ok h⟩
  · rw [hs, if_neg (by decide)] at h
    obtain ⟨b, hb, h⟩ := withResult_ok h
    refine ⟨b, by simpa using hb, ?_⟩
    cases h
    exact ⟨rfl, by simp [List.append_assoc], rfl⟩

/-- C65, convert: on success the result is on standard error. The source file stays as it is
(the full claim, that it is saved if `--save` was given, is refuted by `C65_convert_save_ignored`).
`fmt`'s flag is false when the program runs `convert`. -/
theorem C65_convert_partial (X : CliLib) (fl : Flags) (hf : fl.formatSave = false) (name : String) (w w' : World)
    (h : runConvert X fl name w = (some (.ok ()), w')) :
    ∃ d b, w.files.get? name = some d ∧
      Drone.convert X.conv d { filename := name, url := fl.convertAddr } = some (.ok b) ∧ OnStderr b w w' := by
  obtain ⟨d, hd, h⟩ := withFile_ok h
  obtain ⟨b, hb, h⟩ := withResult_ok h
  rw [hf] at h
  exact ⟨d, b, hd, hb, toStderr_ok h⟩

/-- C65: `convert --save` never changes a file. -/
theorem C65_convert_save_ignored (X : CliLib) (fl : Flags) (hf : fl.formatSave = false)
    (name : String) (w : World) :
    (runConvert X fl name w).2.files = w.files ∧
    runConvert X { fl with convertSave := true } name w = runConvert X { fl with convertSave := false } name w := by
  refine ⟨?_, rfl⟩
  by_cases h : (runConvert X fl name w).1 = some (.ok ())
  · obtain ⟨_, _, _, _, h'⟩ := C65_convert_partial X fl hf name w (runConvert X fl name w).2 (by rw [← h])
    exact h'.1
  · rw [(C65_failure X fl {} "" name w).2.1 h]

/-- C65: lint, verify and compile change no file. -/
theorem C65_readers (X : CliLib) (fl : Flags) (cf : CompileFlags) (key name : String) (w : World) :
    (runLint X fl name w).2 = w ∧ (runVerify X key name w).2.files = w.files ∧
    (runCompile X cf name w).2.files = w.files := by
  obtain ⟨_, _, hl, _, hv, hc⟩ := C65_failure X fl cf key name w
  refine ⟨?_, ?_, ?_⟩
  · by_cases h : (runLint X fl name w).1 = some (.ok ())
    · have : runLint X fl name w = (some (.ok ()), (runLint X fl name w).2) := by rw [← h]
      obtain ⟨d, _, h⟩ := withFile_ok this
      obtain ⟨m, _, h⟩ := withResult_ok h
      obtain ⟨_, _, h⟩ := withResult_ok h
      exact (congrArg Prod.snd h).symm
    · exact hl h
  · by_cases h : (runVerify X key name w).1 = some (.ok ())
    · have : runVerify X key name w = (some (.ok ()), (runVerify X key name w).2) := by rw [← h]
      obtain ⟨d, _, h⟩ := withFile_ok this
      obtain ⟨b, _, h⟩ := withResult_ok h
      cases b
      · simp [fail] at h
      · rw [← congrArg Prod.snd h]; rfl
    · rw [hv h]
  · by_cases h : (runCompile X cf name w).1 = some (.ok ())
    · have : runCompile X cf name w = (some (.ok ()), (runCompile X cf name w).2) := by rw [← h]
      obtain ⟨d, _, h⟩ := withFile_ok this
      obtain ⟨m, _, h⟩ := withResult_ok h
      obtain ⟨_, _, h⟩ := withResult_ok h
      rw [← congrArg Prod.snd h]
    · rw [hc h]

/-! ### C66 -/

namespace Spec
/-- `p` is the first pipeline of the list with the requested name (any if none is requested). -/
def Requested (name : String) (rs : List Resource) (p : Pipeline) : Prop :=
  (name = "" ∨ p.name = name) ∧
    ∃ pre post, rs = pre ++ .pipeline p :: post ∧
      ∀ q, .pipeline q ∈ pre → name ≠ "" ∧ q.name ≠ name
end Spec

theorem findPipeline_cons (name : String) (r : Resource) (rs : List Resource)
    (h : ∀ q, r = .pipeline q → name ≠ "" ∧ q.name ≠ name) :
    findPipeline name (r :: rs) = findPipeline name rs := by
  cases r with
  | pipeline q =>
    have := h q rfl
    simp only [findPipeline, if_neg (show ¬(name = "" ∨ name = q.name) by
      rintro (h | h)
      · exact this.1 h
      · exact this.2 h.symm)]
  | _ => rfl

/-- C66: the pipeline compiled is the first one requested. -/
theorem C66_requested (name : String) (rs : List Resource) (p : Pipeline) :
    findPipeline name rs = some p ↔ Requested name rs p := by
  constructor
  · intro h
    induction rs with
    | nil => simp [findPipeline] at h
    | cons r rs ih =>
      by_cases hr : ∀ q, r = .pipeline q → name ≠ "" ∧ q.name ≠ name
      · rw [findPipeline_cons _ _ _ hr] at h
        obtain ⟨h1, pre, post, rfl, h2⟩ := ih h
        refine ⟨h1, r :: pre, post, rfl, fun q hq => ?_⟩
        rcases List.mem_cons.mp hq with e | hq
        · exact hr q e.symm
        · exact h2 q hq
      · push Not at hr
        obtain ⟨q, rfl, hq⟩ := hr
        have hq' : name = "" ∨ name = q.name := by
          by_cases e : name = ""
          · exact .inl e
          · exact .inr (hq e).symm
        rw [findPipeline, if_pos hq'] at h
        cases h
        exact ⟨hq'.imp_right Eq.symm, [], rs, rfl, by simp⟩
  · rintro ⟨h1, pre, post, rfl, h2⟩
    induction pre with
    | nil => simp [findPipeline, if_pos (h1.imp_right Eq.symm)]
    | cons r pre ih =>
      rw [List.cons_append, findPipeline_cons _ _ _ fun q hq => h2 q (by simp [hq])]
      exact ih fun q hq => h2 q (List.mem_cons_of_mem _ hq)

theorem findPipeline_none (name : String) (rs : List Resource) :
    findPipeline name rs = none ↔ ∀ q, .pipeline q ∈ rs → name ≠ "" ∧ q.name ≠ name := by
  induction rs with
  | nil => simp [findPipeline]
  | cons r rs ih =>
    by_cases hr : ∀ q, r = .pipeline q → name ≠ "" ∧ q.name ≠ name
    · rw [findPipeline_cons _ _ _ hr, ih]
      constructor
      · intro h q hq
        rcases List.mem_cons.mp hq with e | hq
        · exact hr q e.symm
        · exact h q hq
      · exact fun h q hq => h q (List.mem_cons_of_mem _ hq)
    · refine ⟨fun h => ?_, fun h => absurd (fun q hq => h q (by simp [hq])) hr⟩
      push Not at hr
      obtain ⟨q, rfl, hq⟩ := hr
      rw [findPipeline, if_pos (by
        by_cases e : name = ""
        · exact .inl e
        · exact .inr (hq e).symm)] at h
      exact absurd h (by simp)

/-- C66: the command fails with this error iff no pipeline has the requested name. -/
theorem C66_missing (X : CliLib) (fl : CompileFlags) (m : Manifest) :
    (∃ e, compileManifest X fl m = some (.error e)) ↔
      ∀ q, .pipeline q ∈ m.resources → fl.name ≠ "" ∧ q.name ≠ fl.name := by
  rw [← findPipeline_none]
  unfold compileManifest
  cases findPipeline fl.name m.resources with
  | none => simp
  | some p => cases compileWith X fl (disableClone fl.clone p) <;> simp

/-! ### C74 -/

namespace Spec
/-- `tag` is the tag the reference names, if it names one. -/
def TagOf (ref : String) (tag : Option String) : Prop := ∀ t, tag = some t ↔ ref = "refs/tags/" ++ t

/-- The variables the compile command sets from its flags. -/
def flagVars (fl : CompileFlags) (tag : Option String) (k : String) : Option String :=
  if k = "DRONE_COMMIT_BRANCH" then some fl.branch
  else if k = "DRONE_COMMIT_SHA" then some fl.sha
  else if k = "DRONE_COMMIT_REF" then some fl.ref
  else if k = "DRONE_REMOTE_URL" then some fl.remote
  else if k = "DRONE_BUILD_EVENT" then some fl.event
  else if k = "DRONE_TAG" then tag
  else none

/-- All variables added, later ones first. -/
def addedVars (os : String → String) (fl : CompileFlags) (tag : Option String) (k : String) : Option String :=
  (proxyVars os k).or <|
  (if fl.username = "" ∨ fl.password = "" then none
   else netrcVars fl.machine fl.username fl.password k).or <|
  (flagVars fl tag k).or (fl.environ.get? k)

/-- What the command changes in a compiled step. `hosts` are the names of the volumes it
attached. -/
structure Dressed (os : String → String) (fl : CompileFlags) (tag : Option String) (hosts : List String)
    (s s' : Engine.Step) : Prop where
  rest : s' = { s with
    md := { s.md with labels := s'.md.labels }
    envs := s'.envs
    resources := s'.resources
    docker := { s.docker with networks := s'.docker.networks }
    volumes := s'.volumes }
  envs : ∀ k, s'.envs.get? k = (addedVars os fl tag k).or (s.envs.get? k)
  labels : ∃ old new, s.md.labels = some old ∧ s'.md.labels = some new ∧
    ∀ k, new.get? k = (fl.labels.get? k).or (old.get? k)
  networks : s'.docker.networks = s.docker.networks ++ fl.network
  noLimit : fl.memlimit = 0 → s'.resources = s.resources
  limit : fl.memlimit ≠ 0 → s'.resources.bind (·.limits) = some { cpu := 0, memory := fl.memlimit } ∧
    s'.resources.bind (·.requests) = s.resources.bind (·.requests)
  volumes : ∃ ms : List Engine.VolumeMount, s'.volumes = s.volumes ++ ms ∧
    ms.map (·.name) = hosts ∧ ms.map (·.path) = fl.volume.map Prod.snd
end Spec

/-- Every reference names a tag or none. -/
theorem exists_tag (ref : String) : ∃ tag, TagOf ref tag := by
  by_cases h : ∃ t, ref = "refs/tags/" ++ t
  · obtain ⟨t, ht⟩ := h
    refine ⟨some t, fun t' => ?_⟩
    rw [ht, Option.some.injEq]
    refine ⟨fun h => h ▸ rfl, fun h => ?_⟩
    have := congrArg String.toList h
    rw [String.toList_append, String.toList_append, List.append_cancel_left_eq] at this
    exact String.toList_inj.mp this
  · exact ⟨none, fun t => ⟨fun h => (nomatch h), fun ht => absurd ⟨t, ht⟩ h⟩⟩

theorem forall₂_trans {α β γ : Type} {R : α → β → Prop} {S : β → γ → Prop} {a : List α} {b : List β} {c : List γ}
    (h : List.Forall₂ R a b) (h' : List.Forall₂ S b c) : List.Forall₂ (fun x z => ∃ y, R x y ∧ S y z) a c := by
  induction h generalizing c with
  | nil => cases h'; exact .nil
  | cons h1 _ ih => cases h' with | cons h2 h3 => exact .cons ⟨_, h1, h2⟩ (ih h3)

theorem defaultEnvs_get? (fl : CompileFlags) {tag : Option String} (ht : TagOf fl.ref tag) (k : String) :
    (defaultEnvs fl).get? k = flagVars fl tag k := by
  unfold defaultEnvs flagVars
  by_cases hp : "refs/tags/".toList <+: fl.ref.toList
  · obtain ⟨t, h⟩ := hp
    have hr : fl.ref = "refs/tags/" ++ String.ofList t := by
      rw [← String.toList_inj, String.toList_append]
      rw [String.toList_ofList (l := t)]
      exact h.symm
    rw [(ht _).mpr hr, if_pos (show "refs/tags/".toList <+: fl.ref.toList from ⟨t, h⟩)]
    have e : Bitbucket.trimPrefix "refs/tags/" fl.ref = String.ofList t := by
      rw [hr]; exact (C64_trimPrefix _ _).1
    rw [e]
    simp only [GoMap.get?_set, GoMap.get?_nil]
    by_cases h6 : k = "DRONE_TAG"
    · subst h6; simp
    · simp only [h6, if_false]
      by_cases h5 : k = "DRONE_BUILD_EVENT"
      · subst h5; simp
      by_cases h4 : k = "DRONE_REMOTE_URL"
      · subst h4; simp
      by_cases h3 : k = "DRONE_COMMIT_REF"
      · subst h3; simp
      by_cases h2 : k = "DRONE_COMMIT_SHA"
      · subst h2; simp
      simp [h5, h4, h3, h2]
  · have hn : tag = none := by
      rw [Option.eq_none_iff_forall_not_mem]
      intro t h
      refine hp ?_
      rw [(ht t).mp h, String.toList_append]
      exact List.prefix_append _ _
    rw [hn, if_neg hp]
    simp only [GoMap.get?_set, GoMap.get?_nil, ite_self]
    by_cases h5 : k = "DRONE_BUILD_EVENT"
    · subst h5; simp
    by_cases h4 : k = "DRONE_REMOTE_URL"
    · subst h4; simp
    by_cases h3 : k = "DRONE_COMMIT_REF"
    · subst h3; simp
    by_cases h2 : k = "DRONE_COMMIT_SHA"
    · subst h2; simp
    simp [h5, h4, h3, h2]

theorem defaultEnvs_nodup (fl : CompileFlags) : ((defaultEnvs fl).map Prod.fst).Nodup := by
  have n : ∀ {m : GoMap String} (k v : String), (m.map Prod.fst).Nodup → ((m.set k v).map Prod.fst).Nodup :=
    fun k v h => (GoMap.set_keys_nodup k v h).1
  have h := n "DRONE_BUILD_EVENT" fl.event (n "DRONE_REMOTE_URL" fl.remote (n "DRONE_COMMIT_REF" fl.ref
    (n "DRONE_COMMIT_SHA" fl.sha (n (m := []) "DRONE_COMMIT_BRANCH" fl.branch List.nodup_nil))))
  unfold defaultEnvs
  dsimp only
  split
  · exact n _ _ h
  · exact h

/-- WithNetrc, with or without credentials. -/
theorem withNetrc_spec (machine username password : String) (st : St) :
    ∃ st', withNetrc machine username password st = some st' ∧
      StepsOnly (EnvAdded fun k => if username = "" ∨ password = "" then none
        else netrcVars machine username password k) st st' := by
  by_cases h : username = "" ∨ password = ""
  · refine ⟨st, C47_netrc_off _ _ _ _ h, rfl, rfl, List.forall₂_same.mpr fun s _ => ⟨rfl, fun k => ?_⟩⟩
    simp [h]
  · push Not at h
    obtain ⟨st', h1, h2⟩ := C47_netrc machine username password st h.1 h.2
    refine ⟨st', h1, ?_⟩
    simpa [h.1, h.2] using h2

/-- WithLimits for memory only. -/
theorem withLimits_spec (mem : Int) (st : St) :
    ∃ st', withLimits mem 0 st = some st' ∧
      StepsOnly (fun s s' => s' = { s with resources := s'.resources } ∧
        (mem = 0 → s'.resources = s.resources) ∧
        (mem ≠ 0 → s'.resources.bind (·.limits) = some { cpu := 0, memory := mem } ∧
          s'.resources.bind (·.requests) = s.resources.bind (·.requests))) st st' := by
  by_cases h : mem = 0
  · subst h
    exact ⟨st, rfl, rfl, rfl, List.forall₂_same.mpr fun s _ => ⟨rfl, fun _ => rfl, fun h => absurd rfl h⟩⟩
  · obtain ⟨st', h1, h2, h3, h4⟩ := C48_limits mem 0 st (.inl h)
    refine ⟨st', h1, h2, h3, h4.imp ?_⟩
    rintro s s' ⟨e, r, hr, hl, hq⟩
    exact ⟨e, fun h' => absurd h' h, fun _ => by simp [hr, hl, hq]⟩

/-- The fields no transform of the command touches. -/
def Kept (s s' : Engine.Step) : Prop :=
  s' = { s with
    md := { s.md with labels := s'.md.labels }
    envs := s'.envs
    resources := s'.resources
    docker := { s.docker with networks := s'.docker.networks }
    volumes := s'.volumes }

theorem Kept.trans {s s' s'' : Engine.Step} (h : Kept s s') (h' : Kept s' s'') : Kept s s'' := by
  unfold Kept at *
  rw [h'] 
  generalize s''.md.labels = a at *
  generalize s''.envs = b at *
  generalize s''.resources = c at *
  generalize s''.docker.networks = d at *
  generalize s''.volumes = e at *
  rw [h]

theorem dressed_of {os : String → String} {fl : CompileFlags} {tag : Option String} (ht : TagOf fl.ref tag)
    {hosts : List String} {x0 x2 x3 x4 x5 x6 x7 x8 x10 : Engine.Step}
    (r2 : EnvAdded fl.environ.get? x0 x2) (r3 : EnvAdded (defaultEnvs fl).get? x2 x3)
    (r4 : x4 = { x3 with md := x4.md } ∧ LabelsAdded fl.labels.get? x3.md x4.md)
    (r5 : x5 = { x4 with resources := x5.resources } ∧
        (fl.memlimit = 0 → x5.resources = x4.resources) ∧
        (fl.memlimit ≠ 0 → x5.resources.bind (·.limits) = some { cpu := 0, memory := fl.memlimit } ∧
          x5.resources.bind (·.requests) = x4.resources.bind (·.requests)))
    (r6 : EnvAdded (fun k => if fl.username = "" ∨ fl.password = "" then none
        else netrcVars fl.machine fl.username fl.password k) x5 x6)
    (r7 : x7 = { x6 with docker := { x6.docker with networks := x7.docker.networks } } ∧
        x7.docker.networks = x6.docker.networks ++ fl.network)
    (r8 : EnvAdded (proxyVars os) x7 x8)
    (r10 : ∃ ms : List Engine.VolumeMount, x10 = { x8 with volumes := x8.volumes ++ ms } ∧
      ms.map (·.name) = hosts ∧ ms.map (·.path) = fl.volume.map Prod.snd) :
    Dressed os fl tag hosts x0 x10 := by
  obtain ⟨q2, k2⟩ := r2
  obtain ⟨q3, k3⟩ := r3
  obtain ⟨q4, q4', old, new, o4, n4, k4⟩ := r4
  obtain ⟨q5, z5, nz5⟩ := r5
  obtain ⟨q6, k6⟩ := r6
  obtain ⟨q7, k7⟩ := r7
  obtain ⟨q8, k8⟩ := r8
  obtain ⟨ms, q10, rn, rp⟩ := r10
  have m2 : x2.md = x0.md := (congrArg Step.md q2 :)
  have m3 : x3.md = x2.md := (congrArg Step.md q3 :)
  have m5 : x5.md = x4.md := (congrArg Step.md q5 :)
  have m6 : x6.md = x5.md := (congrArg Step.md q6 :)
  have m7 : x7.md = x6.md := (congrArg Step.md q7 :)
  have m8 : x8.md = x7.md := (congrArg Step.md q8 :)
  have m10 : x10.md = x8.md := (congrArg Step.md q10 :)
  have v4 : x4.envs = x3.envs := (congrArg Step.envs q4 :)
  have v5 : x5.envs = x4.envs := (congrArg Step.envs q5 :)
  have v7 : x7.envs = x6.envs := (congrArg Step.envs q7 :)
  have v10 : x10.envs = x8.envs := (congrArg Step.envs q10 :)
  have d2 : x2.docker = x0.docker := (congrArg Step.docker q2 :)
  have d3 : x3.docker = x2.docker := (congrArg Step.docker q3 :)
  have d4 : x4.docker = x3.docker := (congrArg Step.docker q4 :)
  have d5 : x5.docker = x4.docker := (congrArg Step.docker q5 :)
  have d6 : x6.docker = x5.docker := (congrArg Step.docker q6 :)
  have d8 : x8.docker = x7.docker := (congrArg Step.docker q8 :)
  have d10 : x10.docker = x8.docker := (congrArg Step.docker q10 :)
  have w2 : x2.resources = x0.resources := (congrArg Step.resources q2 :)
  have w3 : x3.resources = x2.resources := (congrArg Step.resources q3 :)
  have w4 : x4.resources = x3.resources := (congrArg Step.resources q4 :)
  have w6 : x6.resources = x5.resources := (congrArg Step.resources q6 :)
  have w7 : x7.resources = x6.resources := (congrArg Step.resources q7 :)
  have w8 : x8.resources = x7.resources := (congrArg Step.resources q8 :)
  have w10 : x10.resources = x8.resources := (congrArg Step.resources q10 :)
  have u2 : x2.volumes = x0.volumes := (congrArg Step.volumes q2 :)
  have u3 : x3.volumes = x2.volumes := (congrArg Step.volumes q3 :)
  have u4 : x4.volumes = x3.volumes := (congrArg Step.volumes q4 :)
  have u5 : x5.volumes = x4.volumes := (congrArg Step.volumes q5 :)
  have u6 : x6.volumes = x5.volumes := (congrArg Step.volumes q6 :)
  have u7 : x7.volumes = x6.volumes := (congrArg Step.volumes q7 :)
  have u8 : x8.volumes = x7.volumes := (congrArg Step.volumes q8 :)
  have u10 : x10.volumes = x8.volumes ++ ms := (congrArg Step.volumes q10 :)
  refine ⟨?_, ?_, ?_, ?_, ?_, ?_, ?_⟩
  · have K2 : Kept x0 x2 := by unfold Kept; rw [m2, w2, d2, u2]; exact q2
    have K3 : Kept x2 x3 := by unfold Kept; rw [m3, w3, d3, u3]; exact q3
    have K4 : Kept x3 x4 := by
      unfold Kept; rw [v4, w4, d4, u4, ← q4']; exact q4
    have K5 : Kept x4 x5 := by unfold Kept; rw [m5, v5, d5, u5]; exact q5
    have K6 : Kept x5 x6 := by unfold Kept; rw [m6, w6, d6, u6]; exact q6
    have K7 : Kept x6 x7 := by unfold Kept; rw [m7, v7, w7, u7]; exact q7
    have K8 : Kept x7 x8 := by unfold Kept; rw [m8, w8, d8, u8]; exact q8
    have K10 : Kept x8 x10 := by unfold Kept; rw [m10, v10, w10, d10, u10]; exact q10
    exact K2.trans (K3.trans (K4.trans (K5.trans (K6.trans (K7.trans (K8.trans K10))))))
  · intro k
    rw [v10, k8, v7, k6, v5, v4, k3, k2, defaultEnvs_get? fl ht]
    unfold addedVars
    simp only [Option.or_assoc]
  · exact ⟨old, new, by rw [← o4, m3, m2], by rw [← n4, m10, m8, m7, m6, m5], k4⟩
  · rw [d10, d8, k7, d6, d5, d4, d3, d2]
  · intro hz
    rw [w10, w8, w7, w6, z5 hz, w4, w3, w2]
  · intro hz
    have := nz5 hz
    rw [w4, w3, w2] at this
    rw [w10, w8, w7, w6]
    exact this
  · exact ⟨ms, by rw [u10, u8, u7, u6, u5, u4, u3, u2], rn, rp⟩

/-- The ten transforms of the compile command together. -/
theorem transforms_spec (X : CliLib) (fl : CompileFlags) {tag : Option String} (ht : TagOf fl.ref tag)
    (he : (fl.environ.map Prod.fst).Nodup) (hl : (fl.labels.map Prod.fst).Nodup)
    (hlo : ∀ n m, (X.labelOrder n m).Perm m) (hpo : ∀ m, (X.proxyOrder m).Perm m)
    (st : St) (hst : Labelled st.spec) :
    ∃ st' hosts, combine (transforms X fl) st = some st' ∧
      List.Forall₂ (Dressed X.os fl tag hosts) st.spec.steps st'.spec.steps ∧
      st'.spec.auths = st.spec.auths ++ fl.auths ∧
      (∃ l : List Engine.Secret, st'.spec.secrets = st.spec.secrets ++ l ∧
        l.map (fun s => (s.md.name, s.data)) = fl.secrets) ∧
      (∃ vs vs', st'.spec.volumes = vs ++ vs' ∧
        List.Forall₂ (fun v v' => v' = { v with md := v'.md } ∧ LabelsAdded fl.labels.get? v.md v'.md)
          st.spec.volumes vs ∧
        vs'.map (·.md.name) = hosts ∧ vs'.map (·.hostPath) = fl.volume.map (fun kv => some kv.1)) ∧
      LabelsAdded fl.labels.get? st.spec.md st'.spec.md ∧
      st'.spec.platform = st.spec.platform ∧ st'.spec.files = st.spec.files := by
  obtain ⟨s1, h1, -, -, e1, a1⟩ := C48_auths fl.auths st
  obtain ⟨s2, h2, -, e2, f2⟩ := C47_environ fl.environ he s1
  obtain ⟨s3, h3, -, e3, f3⟩ := C47_environ (defaultEnvs fl) (defaultEnvs_nodup fl) s2
  have steps1 : s1.spec.steps = st.spec.steps := by rw [e1]
  have lab3 : Labelled s3.spec := by
    refine ⟨?_, ?_, ?_⟩
    · rw [e3, e2, e1]; exact hst.1
    · rw [e3, e2, e1]; exact hst.2.1
    · intro t ht'
      obtain ⟨t2, ht2, r3⟩ := forall₂_mem_right f3 ht'
      obtain ⟨t1, ht1, r2⟩ := forall₂_mem_right f2 ht2
      rw [r3.1, r2.1]
      exact hst.2.2 t1 (steps1 ▸ ht1)
  obtain ⟨s4, h4, -, e4, m4, v4, f4⟩ := C48_labels_partial fl.labels hl
    (fun n => X.labelOrder n fl.labels) (fun n => hlo n _) s3 lab3
  obtain ⟨s5, h5, -, e5, f5⟩ := withLimits_spec fl.memlimit s4
  obtain ⟨s6, h6, -, e6, f6⟩ := withNetrc_spec fl.machine fl.username fl.password s5
  obtain ⟨s7, h7, -, e7, f7⟩ := C48_networks fl.network s6
  obtain ⟨s8, h8, -, e8, f8⟩ := C47_proxy X.os X.proxyOrder hpo s7
  obtain ⟨s9, l, h9, e9, l9, -⟩ := C49_secrets X.rnd fl.secrets s8
  obtain ⟨s10, hosts, vs, h10, -, -, e10, v10, n10, p10, -, f10⟩ := C50_volumes X.rnd fl.volume s9
  have steps9 : s9.spec.steps = s8.spec.steps := by rw [e9]
  rw [steps1] at f2
  rw [steps9] at f10
  refine ⟨s10, hosts, ?_, ?_, ?_, ⟨l, ?_, l9⟩, ⟨s4.spec.volumes, vs, ?_, ?_, n10, p10⟩, ?_, ?_, ?_⟩
  · unfold transforms
    simp only [C51_cons, h1, h2, h3, h4, h5, h6, h7, h8, h9, h10, C51_nil]
  · refine (forall₂_trans f2 (forall₂_trans f3 (forall₂_trans f4 (forall₂_trans f5 (forall₂_trans f6
      (forall₂_trans f7 (forall₂_trans f8 f10))))))).imp ?_
    rintro x0 x10 ⟨x2, r2, x3, r3, x4, r4, x5, r5, x6, r6, x7, r7, x8, r8, ms, r10, rn, rp⟩
    exact dressed_of ht r2 r3 r4 r5 r6 r7 r8 ⟨ms, r10, rn, rp⟩
  · have h : s10.spec.auths = s1.spec.auths := by
      have q2 := congrArg Spec.auths e2
      have q3 := congrArg Spec.auths e3
      have q4 := congrArg Spec.auths e4
      have q5 := congrArg Spec.auths e5
      have q6 := congrArg Spec.auths e6
      have q7 := congrArg Spec.auths e7
      have q8 := congrArg Spec.auths e8
      have q9 := congrArg Spec.auths e9
      have q10 := congrArg Spec.auths e10
      rw [q10, q9, q8, q7, q6, q5, q4, q3, q2]
    rw [h, a1]
  · have q1 := congrArg Spec.secrets e1
    have q2 := congrArg Spec.secrets e2
    have q3 := congrArg Spec.secrets e3
    have q4 := congrArg Spec.secrets e4
    have q5 := congrArg Spec.secrets e5
    have q6 := congrArg Spec.secrets e6
    have q7 := congrArg Spec.secrets e7
    have q8 := congrArg Spec.secrets e8
    have q9 := congrArg Spec.secrets e9
    have q10 := congrArg Spec.secrets e10
    rw [q10, q9, q8, q7, q6, q5, q4, q3, q2, q1]
  · have q5 := congrArg Spec.volumes e5
    have q6 := congrArg Spec.volumes e6
    have q7 := congrArg Spec.volumes e7
    have q8 := congrArg Spec.volumes e8
    have q9 := congrArg Spec.volumes e9
    rw [v10, q9, q8, q7, q6, q5]
  · have q1 := congrArg Spec.volumes e1
    have q2 := congrArg Spec.volumes e2
    have q3 := congrArg Spec.volumes e3
    have : s3.spec.volumes = st.spec.volumes := by rw [q3, q2, q1]
    rw [← this]; exact v4
  · have q1 := congrArg Spec.md e1
    have q2 := congrArg Spec.md e2
    have q3 := congrArg Spec.md e3
    have q5 := congrArg Spec.md e5
    have q6 := congrArg Spec.md e6
    have q7 := congrArg Spec.md e7
    have q8 := congrArg Spec.md e8
    have q9 := congrArg Spec.md e9
    have q10 := congrArg Spec.md e10
    have : s3.spec.md = st.spec.md := by rw [q3, q2, q1]
    rw [← this, q10, q9, q8, q7, q6, q5]; exact m4
  · have q1 := congrArg Spec.platform e1
    have q2 := congrArg Spec.platform e2
    have q3 := congrArg Spec.platform e3
    have q4 := congrArg Spec.platform e4
    have q5 := congrArg Spec.platform e5
    have q6 := congrArg Spec.platform e6
    have q7 := congrArg Spec.platform e7
    have q8 := congrArg Spec.platform e8
    have q9 := congrArg Spec.platform e9
    have q10 := congrArg Spec.platform e10
    rw [q10, q9, q8, q7, q6, q5, q4, q3, q2, q1]
  · have q1 := congrArg Spec.files e1
    have q2 := congrArg Spec.files e2
    have q3 := congrArg Spec.files e3
    have q4 := congrArg Spec.files e4
    have q5 := congrArg Spec.files e5
    have q6 := congrArg Spec.files e6
    have q7 := congrArg Spec.files e7
    have q8 := congrArg Spec.files e8
    have q9 := congrArg Spec.files e9
    have q10 := congrArg Spec.files e10
    rw [q10, q9, q8, q7, q6, q5, q4, q3, q2, q1]

namespace Spec
/-- The pipeline as compiled: without its clone step unless `--clone` was given. -/
def cloned (clone : Bool) (p : Pipeline) : Pipeline :=
  { p with clone := { p.clone with disable := p.clone.disable || !clone } }
end Spec

theorem disableClone_eq (clone : Bool) (p : Pipeline) : disableClone clone p = cloned clone p := by
  unfold disableClone cloned
  cases clone <;> simp

theorem compilerFor_std (X : CliLib) (fl : CompileFlags) : (compilerFor X fl).Std :=
  ⟨fun _ h => (nomatch h), fun _ h => (nomatch h)⟩

theorem compile_core {E : Ext} {c : Compiler} (hc : c.transform = none) {rnd : Nat → String} {p : Pipeline} :
    compile E c rnd p = (compileCore E c rnd p).map (·.spec) := by
  unfold compile
  rw [hc]

namespace Spec
/-- The compiler the command sets up. -/
structure FlagCompiler (X : CliLib) (fl : CompileFlags) (c : Compiler) : Prop where
  creds : c.gitCredentials = some (fl.creds.flatMap fun u => utf8 u ++ [10])
  privileged : c.privileged = some (dindFunc X.ext.dg fl.dind)
  skip : c.skip = some (skipFunc X.ext.glob
    { branch := fl.branch, cron := fl.cron, event := fl.event, inst := fl.instance_, ref := fl.ref,
      repo := fl.repo, target := fl.deploy })
  workspace : c.workspace = .default
  mount : c.mount = .default
  transform : c.transform = none
end Spec

/-- C74: what the compile command prints is the compiled pipeline, where every step got the
variables, labels, networks, limits and volumes of the flags and nothing else changed; the
credentials and secrets of the flags are added. -/
theorem C74_flags_applied (X : CliLib) (fl : CompileFlags) (tag : Option String) (ht : TagOf fl.ref tag)
    (he : (fl.environ.map Prod.fst).Nodup) (hl : (fl.labels.map Prod.fst).Nodup)
    (hlo : ∀ n m, (X.labelOrder n m).Perm m) (hpo : ∀ m, (X.proxyOrder m).Perm m)
    (m : Manifest) (spec : Engine.Spec) (h : compileManifest X fl m = some (.ok spec)) :
    ∃ p c sp hosts, Requested fl.name m.resources p ∧ FlagCompiler X fl c ∧
      compile X.ext c X.rnd (cloned fl.clone p) = some sp ∧
      List.Forall₂ (Dressed X.os fl tag hosts) sp.steps spec.steps ∧
      spec.auths = fl.auths ∧
      spec.secrets.map (fun s => (s.md.name, s.data)) = fl.secrets ∧
      (∃ vs vs', spec.volumes = vs ++ vs' ∧
        List.Forall₂ (fun v v' => v' = { v with md := v'.md } ∧ LabelsAdded fl.labels.get? v.md v'.md)
          sp.volumes vs ∧
        vs'.map (·.md.name) = hosts ∧ vs'.map (·.hostPath) = fl.volume.map (fun kv => some kv.1)) ∧
      LabelsAdded fl.labels.get? sp.md spec.md ∧
      spec.platform = sp.platform ∧ spec.files = sp.files := by
  unfold compileManifest at h
  cases hf : findPipeline fl.name m.resources with
  | none => rw [hf] at h; simp at h
  | some p =>
    rw [hf] at h
    simp only [compileWith, Option.map_eq_some_iff, Except.ok.injEq, exists_eq_right] at h
    rw [disableClone_eq] at h
    obtain ⟨st, h1, h2⟩ := Option.bind_eq_some_iff.mp h
    obtain ⟨st', h3, rfl⟩ := Option.map_eq_some_iff.mp h2
    have hcomp : compile X.ext (compilerFor X fl) X.rnd (cloned fl.clone p) = some st.spec := by
      rw [compile_core rfl, h1]; rfl
    have hlab : Labelled st.spec :=
      (C48_compiled_labelled (compilerFor_std X fl) rfl hcomp).mpr fun d hd => (nomatch hd)
    obtain ⟨s', hosts, g1, g2, g3, ⟨l, g4, g4'⟩, g5, g6, g7, g8⟩ :=
      transforms_spec X fl ht he hl hlo hpo st hlab
    rw [h3] at g1
    cases g1
    obtain ⟨_, _, _, _, _, hsec, hauth⟩ := C22_metadata (compilerFor_std X fl) rfl hcomp
    refine ⟨p, compilerFor X fl, st.spec, hosts, (C66_requested _ _ _).mp hf, ⟨rfl, rfl, rfl, rfl, rfl, rfl⟩, hcomp,
      g2, ?_, ?_, g5, g6, g7, g8⟩
    · rw [g3, hauth]; rfl
    · rw [g4, hsec]; exact g4'

/-- C74: the command panics only where the compiler itself does. -/
theorem C74_panics_iff (X : CliLib) (fl : CompileFlags)
    (he : (fl.environ.map Prod.fst).Nodup) (hl : (fl.labels.map Prod.fst).Nodup)
    (hlo : ∀ n m, (X.labelOrder n m).Perm m) (hpo : ∀ m, (X.proxyOrder m).Perm m) (m : Manifest) :
    compileManifest X fl m = none ↔ ∃ p c, Requested fl.name m.resources p ∧ FlagCompiler X fl c ∧
      compile X.ext c X.rnd (cloned fl.clone p) = none := by
  obtain ⟨tag, ht⟩ := exists_tag fl.ref
  have huniq : ∀ c, FlagCompiler X fl c → c = compilerFor X fl := by
    rintro ⟨a, b, c, d, e, f⟩ ⟨h1, h2, h3, h4, h5, h6⟩
    simp only at h1 h2 h3 h4 h5 h6
    subst h1 h2 h3 h4 h5 h6
    rfl
  unfold compileManifest
  constructor
  · intro h
    cases hf : findPipeline fl.name m.resources with
    | none => rw [hf] at h; simp at h
    | some p =>
      rw [hf] at h
      refine ⟨p, compilerFor X fl, (C66_requested _ _ _).mp hf, ⟨rfl, rfl, rfl, rfl, rfl, rfl⟩, ?_⟩
      simp only [compileWith, Option.map_eq_none_iff] at h
      rw [disableClone_eq] at h
      rw [compile_core rfl]
      cases h1 : compileCore X.ext (compilerFor X fl) X.rnd (cloned fl.clone p) with
      | none => rfl
      | some st =>
        have hcomp : compile X.ext (compilerFor X fl) X.rnd (cloned fl.clone p) = some st.spec := by
          rw [compile_core rfl, h1]; rfl
        obtain ⟨s', _, g1, _⟩ := transforms_spec X fl ht he hl hlo hpo st
          ((C48_compiled_labelled (compilerFor_std X fl) rfl hcomp).mpr fun d hd => (nomatch hd))
        rw [h1] at h
        simp [g1] at h
  · rintro ⟨p, c, hr, hc, h⟩
    rw [huniq c hc] at h
    rw [(C66_requested _ _ _).mpr hr]
    simp only [compileWith, Option.map_eq_none_iff]
    rw [disableClone_eq]
    rw [compile_core rfl, Option.map_eq_none_iff] at h
    rw [h]
    rfl

/-- C66: the steps printed are the clone step, if `--clone` was given and the pipeline does not
disable it, the services and the steps. -/
theorem C66_clone (X : CliLib) (fl : CompileFlags)
    (he : (fl.environ.map Prod.fst).Nodup) (hl : (fl.labels.map Prod.fst).Nodup)
    (hlo : ∀ n m, (X.labelOrder n m).Perm m) (hpo : ∀ m, (X.proxyOrder m).Perm m)
    (m : Manifest) (spec : Engine.Spec) (h : compileManifest X fl m = some (.ok spec)) :
    ∃ p, Requested fl.name m.resources p ∧
      spec.steps.map (·.md.name) =
        (if fl.clone = true ∧ p.clone.disable = false then ["clone"] else []) ++
        (p.services.filterMap id).map (·.name) ++ (p.steps.filterMap id).map (·.name) := by
  obtain ⟨tag, ht⟩ := exists_tag fl.ref
  obtain ⟨p, c, sp, hosts, h1, h2, h3, h4, -⟩ := C74_flags_applied X fl tag ht he hl hlo hpo m spec h
  refine ⟨p, h1, ?_⟩
  have hstd : c.Std := ⟨fun f hf => by rw [h2.workspace] at hf; exact (nomatch hf),
    fun f hf => by rw [h2.mount] at hf; exact (nomatch hf)⟩
  have hn := (C22_steps_in_order hstd h2.transform h3).1
  have he : spec.steps.map (·.md.name) = sp.steps.map (·.md.name) := by
    refine forall₂_map_eq (f := fun s : Step => s.md.name) (g := fun s : Step => s.md.name) (h4.imp ?_)
    intro s s' hd
    rw [hd.rest]
  rw [he, hn]
  cases hcl : fl.clone <;> cases hd : p.clone.disable <;> simp [cloned, hcl, hd]

/-! ### C75 -/

/-- C75: after `sign --save` the command `verify` with the same key succeeds, and the file
differs only in its signature document. -/
theorem C75_sign_verify (X : CliLib) (hY : X.sig.ReadsSignature) (hmac : Mac32 X.mac)
    (fl : Flags) (hs : fl.signSave = true) (key name : String) (hk : 32 ≤ (utf8 key).length)
    (w : World) (d : Bytes) (rs : List RawResource) (hd : w.files.get? name = some d)
    (hp : parseRawBytes X.sig.toYamlLib d = .ok rs) (hcr : NoDoubleCR d) (hw : X.writable name = true) :
    ∃ w' w'' out, runSign X fl key name w = (some (.ok ()), w') ∧ Saved name out w w' ∧
      (∃ sg, sg.kind = "signature" ∧ parseRawBytes X.sig.toYamlLib out =
        .ok (rs.filter (fun r => r.kind ≠ "signature") ++ [sg])) ∧
      runVerify X key name w' = (some (.ok ()), w'') ∧ w''.files = w'.files := by
  obtain ⟨out, h1, h2⟩ := C05_signed_verifies X.sig hY X.mac hmac d (utf8 key) rs hp hk hcr
  have e : runSign X fl key name w = (some (.ok ()), { w with files := w.files.set name out }) := by
    simp [runSign, withFile, hd, hs, h1, withResult, writeFile, hw]
  have hsv : Saved name out w { w with files := w.files.set name out } :=
    ⟨by simp [GoMap.get?_set], fun n hn => by simp [GoMap.get?_set, hn], rfl, rfl⟩
  refine ⟨_, { w with
      files := w.files.set name out
      stdout := w.stdout ++ utf8 "success: yaml signature verified" ++ [10] }, out, e, hsv,
    C06_one_signature_last X.sig hY X.mac hmac d (utf8 key) out rs hp hcr h1, ?_, rfl⟩
  simp only [runVerify, withFile, hsv.content, h2, withResult, if_pos, println]

/-- C75: the verify command succeeds iff the signer accepts the file. -/
theorem C75_verify_iff (X : CliLib) (key name : String) (w : World) :
    (runVerify X key name w).1 = some (.ok ()) ↔
      ∃ d, w.files.get? name = some d ∧ verify X.sig X.mac d (utf8 key) = .ok true := by
  unfold runVerify withFile
  cases hd : w.files.get? name with
  | none => simp
  | some d =>
    simp only [Option.some.injEq, exists_eq_left']
    cases hv : verify X.sig X.mac d (utf8 key) with
    | error e => simp [withResult, fail]
    | ok b => cases b <;> simp [withResult, fail, println]

/-! ### C76 -/

theorem lintLoop_ok (t : Bool) (rs : List Resource) :
    lintLoop t rs = some (.ok ()) ↔ ∀ r ∈ rs, lint r t = .ok () := by
  induction rs with
  | nil => simp [lintLoop]
  | cons r rs ih =>
    unfold lintLoop
    rw [List.forall_mem_cons]
    match lint r t with
    | .error .panic => simp
    | .error (.err e) => simp
    | .ok () => simpa using ih

/-- C76: the lint command succeeds iff the file can be read and each resource passes. -/
theorem C76_lint_iff (X : CliLib) (fl : Flags) (name : String) (w : World) :
    (runLint X fl name w).1 = some (.ok ()) ↔
      ∃ d m, w.files.get? name = some d ∧ parseReader X.sig.toYamlLib { data := d } = .ok m ∧
        ∀ r ∈ m.resources, lint r fl.lintPriv = .ok () := by
  unfold runLint withFile
  cases hd : w.files.get? name with
  | none => simp
  | some d =>
    simp only [Option.some.injEq, exists_and_left, exists_eq_left']
    cases hp : parseReader X.sig.toYamlLib { data := d } with
    | error e => simp [withResult, fail]
    | ok m =>
      simp only [withResult, Except.ok.injEq, exists_eq_left']
      rw [← lintLoop_ok]
      match lintLoop fl.lintPriv m.resources with
      | none => simp [panics]
      | some (.error e) => simp [fail]
      | some (.ok ()) => simp

/-! ### Examples -/

namespace Example
/-- The pipeline every document is read as. -/
def cliPipeline : Pipeline where
  kind := "pipeline"
  name := "default"
  steps := [some { name := "test", image := "go", commands := ["make"], environment := [("A", some { value := "1" })] }]

/-- Libraries: every document is a signature or this pipeline. -/
def exCli : CliLib where
  conv := { exLegacy with
    env := {}
    digest := exDigest
    glob := exGlob
    decodeGitlab := fun _ => .error "not used"
    decodeBitbucket := fun _ => .error "not used"
    orderJobs := exOrders _
    orderStages := exOrders _
    orderServices := exOrders _ }
  sig := { exSig with resource := fun t _ => match t with
    | .signature => .ok (.signature { kind := "signature", hmac := "x" })
    | _ => .ok (.pipeline cliPipeline) }
  mac := exMac
  ext := exExt
  rnd := exRnd
  json := fun s => utf8 s.md.name
  os := fun k => if k = "http_proxy" then "proxy" else ""
  labelOrder := fun _ m => m
  proxyOrder := fun m => m
  writable := fun _ => true

/-- One file. -/
def exWorld : World := { files := [(".drone.yml", utf8 "a: 1\n---\nb: 2\n"), ("x", [])] }
def exKeyText : String := "0123456789abcdef0123456789abcdef"

theorem exCli_reads : exCli.sig.ReadsSignature := ⟨exSig_reads.kind, exSig_reads.hmac⟩
end Example
open Example

/-- C76: the command accepts a file with two pipelines of one name, which the linter for
manifests refuses. -/
theorem C76_manifest_not_checked : ∃ (X : CliLib) (w : World) (d : Bytes) (m : Manifest),
    w.files.get? ".drone.yml" = some d ∧ parseReader X.sig.toYamlLib { data := d } = .ok m ∧
    (runLint X {} ".drone.yml" w).1 = some (.ok ()) ∧ lintManifest m false ≠ .ok () :=
  ⟨exCli, exWorld, _, _, rfl, rfl, by decide +kernel, by decide +kernel⟩

example : (runSign exCli { signSave := true } exKeyText ".drone.yml" exWorld).1 = some (.ok ()) ∧
    32 ≤ (utf8 exKeyText).length ∧ exCli.writable ".drone.yml" = true :=
  ⟨by decide +kernel, by decide +kernel, rfl⟩

example : (runVerify exCli exKeyText ".drone.yml" exWorld).1 ≠ some (.ok ()) := by decide +kernel

example : (runFormat exCli { formatSave := true } ".drone.yml" exWorld).1 = some (.ok ()) := by decide +kernel

example : (runConvert exCli { convertSave := true } ".drone.yml" exWorld).1 = some (.ok ()) := by decide +kernel

/-- A tag build: the step sees the variables of the flags. -/
example : (match compileManifest exCli
      { name := "default", ref := "refs/tags/v1", environ := [("A", "2"), ("DRONE_TAG", "no")], username := "u", password := "p" }
      ⟨[.secret {}, .pipeline { name := "other" }, .pipeline cliPipeline]⟩ with
    | some (.ok s) => s.steps.map fun t => ["A", "DRONE_TAG", "CI_NETRC_USERNAME", "HTTP_PROXY"].map fun k => t.envs.get? k
    | _ => []) = [[some "2", some "v1", some "u", some "proxy"]] := by decide +kernel

example : TagOf "refs/tags/v1" (some "v1") := by
  intro t
  constructor
  · rintro ⟨⟩; rfl
  · intro h
    have := congrArg String.toList h
    rw [String.toList_append, show "refs/tags/v1".toList = "refs/tags/".toList ++ "v1".toList from rfl,
      List.append_cancel_left_eq] at this
    rw [String.toList_inj.mp this]

example : Requested "b" [.pipeline { name := "a" }, .secret {}, .pipeline { name := "b", kind := "x" }, .pipeline { name := "b" }]
    { name := "b", kind := "x" } :=
  ⟨.inr rfl, [.pipeline { name := "a" }, .secret {}], [.pipeline { name := "b" }], rfl, by
    intro q hq
    simp at hq
    subst hq
    decide⟩

end Drone
