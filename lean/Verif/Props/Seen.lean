/-
C133: the variables the commands of a step see, from the flags of the compile command and the file.
-/
import Verif.Props.Attr
import Verif.Props.Cli
import Verif.Props.Shell
import Verif.Props.Power

namespace Drone
open Spec Cli Example

namespace Spec

/-- The values of the variables of the workspace -/
def workspaceValue (base path full k : String) : Option String :=
  if k ∈ ["DRONE_WORKSPACE_BASE", "CI_WORKSPACE_BASE"] then some base
  else if k ∈ ["DRONE_WORKSPACE_PATH", "CI_WORKSPACE_PATH"] then some path
  else if k ∈ ["DRONE_WORKSPACE", "CI_WORKSPACE"] then some full
  else none

/-- The text a setting is passed on as; what numbers with a fraction, lists and maps are written as is
the matter of C93 and C123. -/
def settingText (E : Ext) : Value → String
  | .str s => s
  | .bool true => "true"
  | .bool false => "false"
  | .int i => toString i
  | .float q => E.fmtFloat q
  | .seq xs => E.encodeSlice xs
  | v => E.encodeMap v

/-- The plain setting that is passed on under a name -/
def settingVar (E : Ext) (c : Container) (k : String) : Option String :=
  c.settings.findSome? fun kv => kv.2.bind fun v =>
    if v.secret = "" ∧ "PLUGIN_" ++ E.upper kv.1 = k then some (settingText E v.value) else none

/-- The plain variable of a name -/
def plainVar (c : Container) (k : String) : Option String :=
  c.environment.findSome? fun kv => kv.2.bind fun v => if v.secret = "" ∧ kv.1 = k then some v.value else none

/-- No two plain settings are passed on under the same name, and no variable is given twice. -/
def Distinct (E : Ext) (c : Container) : Prop :=
  (c.environment.map Prod.fst).Nodup ∧
  ∀ k v k' v', (k, some v) ∈ c.settings → (k', some v') ∈ c.settings → v.secret = "" → v'.secret = "" →
    E.upper k = E.upper k' → v = v'

/-- The variables a container gets in its step: those of the workspace, then settings, then its own. -/
def ownVar (E : Ext) (p : Pipeline) (c : Container) (k : String) : Option String :=
  (workspaceValue (createWorkspace p).base (createWorkspace p).path (createWorkspace p).full k).or <|
    (settingVar E c k).or (plainVar c k)

/-- A shell that was started with the variables of the step, maybe among others -/
def StartedIn {ω : Type} (s : Engine.Step) (st : Shell.State ω) : Prop :=
  ∀ k v, s.envs.get? k = some v → st.vars k = some v

end Spec

theorem encodeValue_settingText (E : Ext) (v : Value) : encodeValue E v = settingText E v := by
  cases v <;> first | rfl | (rename_i b; cases b <;> rfl)

theorem forall₂_also {α β : Type} {r t : α → β → Prop} {l : List α} {m : List β} (h : List.Forall₂ r l m)
    (h' : List.Forall₂ t l m) : List.Forall₂ (fun a b => r a b ∧ t a b) l m := by
  induction h with
  | nil => exact .nil
  | cons h1 _ ih => cases h' with | cons h2 h3 => exact .cons ⟨h1, h2⟩ (ih h3)

theorem findSome?_filterMap {α β γ : Type} (f : α → Option β) (g : β → Option γ) (l : List α) :
    (l.filterMap f).findSome? g = l.findSome? fun a => (f a).bind g := by
  induction l with
  | nil => rfl
  | cons a l ih =>
    cases hf : f a with
    | none => rw [List.filterMap_cons_none hf, ih, List.findSome?_cons, hf]; rfl
    | some b => rw [List.filterMap_cons_some hf, List.findSome?_cons, List.findSome?_cons, hf, ih]; rfl

theorem setAll_find {l m : GoMap String} {k : String} (hu : ∀ v v', (k, v) ∈ l → (k, v') ∈ l → v = v') :
    (setAll l m).get? k = (l.findSome? fun kv => if kv.1 = k then some kv.2 else none).or (m.get? k) := by
  cases hf : l.findSome? fun kv => if kv.1 = k then some kv.2 else none with
  | none =>
    rw [List.findSome?_eq_none_iff] at hf
    rw [setAll_not_mem fun v hv => absurd (hf _ hv) (by simp), Option.none_or]
  | some v =>
    obtain ⟨⟨k0, v0⟩, hm, he⟩ := List.exists_of_findSome?_eq_some hf
    dsimp only at he
    split at he
    · rename_i e; subst e
      simp only [Option.some.injEq] at he; subst he
      rw [setAll_of_mem hm fun v' hv' => hu _ _ hv' hm]
      rfl
    · simp at he

theorem own_envs {E : Ext} {c : Container} (hd : Distinct E c) (k : String) :
    (stepEnvs E c).1.get? k = (settingVar E c k).or (plainVar c k) := by
  rw [stepEnvs_eq]
  dsimp only
  rw [setAll_find, setAll_find, show GoMap.get? ([] : GoMap String) k = none from rfl, Option.or_none]
  · congr 1
    · unfold settingVar Spec.plainSettings
      rw [findSome?_filterMap]
      congr 1
      funext kv
      cases kv.2 with
      | none => rfl
      | some v =>
        by_cases e : v.secret = ""
        · simp [e, encodeValue_settingText]
        · simp [e]
    · unfold plainVar Spec.plainEnv
      rw [findSome?_filterMap]
      congr 1
      funext kv
      cases kv.2 with
      | none => rfl
      | some v =>
        by_cases e : v.secret = ""
        · simp [e]
        · simp [e]
  · intro v v' hv hv'
    obtain ⟨⟨k0, v0⟩, hm, he⟩ := List.mem_filterMap.1 hv
    obtain ⟨⟨k1, v1⟩, hm1, he1⟩ := List.mem_filterMap.1 hv'
    obtain ⟨w, hw, he⟩ := Option.bind_eq_some_iff.1 he
    obtain ⟨w1, hw1, he1⟩ := Option.bind_eq_some_iff.1 he1
    dsimp only at hw hw1; subst hw hw1
    split at he
    · split at he1
      · simp only [Option.some.injEq, Prod.mk.injEq] at he he1
        obtain ⟨rfl, rfl⟩ := he
        obtain ⟨rfl, rfl⟩ := he1
        have a1 := GoMap.get?_of_mem hd.1 hm
        have a2 := GoMap.get?_of_mem hd.1 hm1
        rw [a1] at a2
        simp only [Option.some.injEq] at a2
        rw [a2]
      · simp at he1
    · simp at he
  · intro v v' hv hv'
    obtain ⟨⟨k0, v0⟩, hm, he⟩ := List.mem_filterMap.1 hv
    obtain ⟨⟨k1, v1⟩, hm1, he1⟩ := List.mem_filterMap.1 hv'
    obtain ⟨w, hw, he⟩ := Option.bind_eq_some_iff.1 he
    obtain ⟨w1, hw1, he1⟩ := Option.bind_eq_some_iff.1 he1
    dsimp only at hw hw1; subst hw hw1
    split at he
    · rename_i hs
      split at he1
      · rename_i hs1
        simp only [Option.some.injEq, Prod.mk.injEq] at he he1
        obtain ⟨e1, rfl⟩ := he
        obtain ⟨e2, rfl⟩ := he1
        have e : E.upper k0 = E.upper k1 := by
          have := congrArg String.toList (e1.trans e2.symm)
          rw [String.toList_append, String.toList_append] at this
          exact String.toList_injective (List.append_cancel_left this)
        rw [hd.2 k0 w k1 w1 hm hm1 hs hs1 e]
      · simp at he1
    · simp at he

/-- The variables of a compiled step -/
theorem compiled_envs {E : Ext} {c : Compiler} (hc : c.Std) (ht : c.transform = none)
    {rnd : Nat → String} {p : Pipeline} {sp : Engine.Spec} (h : compile E c rnd p = some sp) :
    List.Forall₂ (fun y s => ¬ IsBuild y → y.1 ≠ .clone → Distinct E y.2 → ∀ k,
      (k ∉ ["CI_SCRIPT", "SHELL"] ∨ p.platform.os ≠ "windows" ∨ y.2.commands = []) →
      s.envs.get? k = ownVar E p y.2 k) (sources p) sp.steps := by
  refine compile_forall hc ht h ?_
  intro rename y s hmem ⟨n, raw, i, hr, hs⟩ hb hcl hd k hk
  subst hs
  show raw.envs.get? k = _
  unfold ownVar workspaceValue
  by_cases hw : k ∈ workspaceVars
  · rw [(rawStep_plain hc hb hr).envs]
    show (withWorkspace _ (createWorkspace p)).get? k = _
    rw [withWorkspace_get]
    simp only [workspaceVars, List.mem_cons, List.not_mem_nil, or_false] at hw
    rcases hw with rfl | rfl | rfl | rfl | rfl | rfl <;> simp
  · rw [plain_envs hc hb hcl hr hw hk, own_envs hd]
    simp only [workspaceVars, List.mem_cons, List.not_mem_nil, or_false, not_or] at hw
    simp [hw]

/-- C133: the variables of a step the compile command prints are, in this order of precedence, those of
the proxy, the credentials, the build, `--env`, the workspace, the settings and the environment of the
container; there are no others. -/
theorem C133_variables (X : CliLib) (fl : CompileFlags) (tag : Option String) (ht : TagOf fl.ref tag)
    (he : (fl.environ.map Prod.fst).Nodup) (hl : (fl.labels.map Prod.fst).Nodup)
    (hlo : ∀ n m, (X.labelOrder n m).Perm m) (hpo : ∀ m, (X.proxyOrder m).Perm m)
    (m : Manifest) (spec : Engine.Spec) (h : compileManifest X fl m = some (.ok spec)) :
    ∃ p, Requested fl.name m.resources p ∧
      List.Forall₂ (fun y s => ¬ IsBuild y → y.1 ≠ .clone → Distinct X.ext y.2 → ∀ k,
        (k ∉ ["CI_SCRIPT", "SHELL"] ∨ p.platform.os ≠ "windows" ∨ y.2.commands = []) →
        s.envs.get? k = (addedVars X.os fl tag k).or (ownVar X.ext p y.2 k)) (sources (cloned fl.clone p)) spec.steps := by
  obtain ⟨p, c, sp, hosts, hr, hfc, hcomp, hdr, _⟩ := C74_flags_applied X fl tag ht he hl hlo hpo m spec h
  have hstd : c.Std := ⟨fun f hf => by simp [hfc.workspace] at hf, fun f hf => by simp [hfc.mount] at hf⟩
  refine ⟨p, hr, ?_⟩
  have := compiled_envs hstd hfc.transform hcomp
  refine (forall₂_trans this hdr).imp ?_
  rintro y s' ⟨s, h1, h2⟩ hb hcl hd k hk
  rw [h2.envs, h1 hb hcl hd k hk]
  rfl

theorem proxyVars_netrc (os : String → String) {k : String} (h : k ∈ ["CI_NETRC_MACHINE", "CI_NETRC_USERNAME", "CI_NETRC_PASSWORD"]) :
    proxyVars os k = none := by
  simp only [List.mem_cons, List.not_mem_nil, or_false] at h
  rcases h with rfl | rfl | rfl <;> simp [proxyVars]

/-- C133: what is printed for a step with commands runs them, one after the other, in a shell where each
variable has the value it has by that order, except that the credentials are gone; if there are
credentials for cloning, they stand in `.netrc` whatever the file says. -/
theorem C133_commands (X : CliLib) (fl : CompileFlags) (tag : Option String) (ht : TagOf fl.ref tag)
    (he : (fl.environ.map Prod.fst).Nodup) (hl : (fl.labels.map Prod.fst).Nodup)
    (hlo : ∀ n m, (X.labelOrder n m).Perm m) (hpo : ∀ m, (X.proxyOrder m).Perm m) (hpr : X.ext.isPrint '\n' = false)
    (m : Manifest) (spec : Engine.Spec) (h : compileManifest X fl m = some (.ok spec)) :
    ∃ p, Requested fl.name m.resources p ∧
      ∀ trusted, lint (.pipeline (cloned fl.clone p)) trusted = .ok () → p.platform.os ≠ "windows" →
      List.Forall₂ (fun y s => y.2.commands ≠ [] → ¬ IsBuild y → y.1 ≠ .clone → y.2.name ≠ ".git-credentials" → Distinct X.ext y.2 →
        (∀ c ∈ y.2.commands, '`' ∉ c.toList ∧ Shell.Simple c) →
        s.docker.command = ["/bin/sh"] ∧ ∃ path, s.docker.args = [path] ∧ ∃ fm ∈ s.files, fm.path = path ∧ ∃ f,
          spec.files.filter (fun f => f.md.name = fm.name) = [f] ∧ ∃ text, f.data = utf8 text ∧
          ∀ (ω : Type) (C : Shell.Commands ω) (st : Shell.State ω), StartedIn s st →
            ∃ st1, Shell.sh C text st = (Shell.perform C (shownText X.ext.isPrint) y.2.commands st1).1 ∧
              (∀ k v, k ∉ Shell.credentials → (addedVars X.os fl tag k).or (ownVar X.ext p y.2 k) = some v → st1.vars k = some v) ∧
              (∀ k ∈ Shell.credentials, st1.vars k = none) ∧
              (fl.username ≠ "" → fl.password ≠ "" → fl.machine ≠ "" →
                C.writable (st.get "HOME" ++ "/.netrc") st.world = true →
                st1.files (st.get "HOME" ++ "/.netrc") =
                  some ("machine " ++ fl.machine ++ "\nlogin " ++ fl.username ++ "\npassword " ++ fl.password ++ "\n")))
        (sources (cloned fl.clone p)) spec.steps := by
  obtain ⟨p, c, sp, hosts, hr, hfc, hcomp, hdr, _, _, _, _, _, hfiles⟩ := C74_flags_applied X fl tag ht he hl hlo hpo m spec h
  have hstd : c.Std := ⟨fun f hf => by simp [hfc.workspace] at hf, fun f hf => by simp [hfc.mount] at hf⟩
  refine ⟨p, hr, fun trusted hlint hos => ?_⟩
  have h1 := compiled_envs hstd hfc.transform hcomp
  have h2 := C118_step hstd hfc.transform hcomp hlint hpr
  have h12 := forall₂_also h1 h2
  refine (forall₂_trans h12 hdr).imp ?_
  rintro y s' ⟨s, ⟨g1, g2⟩, g3⟩ hcm hb hcl hnm hd hsimple
  obtain ⟨e1, path, e2, fm, hfm, e3, f, e4, text, e5, e6⟩ := g2 hcm hos hb hnm hsimple
  have hrest := g3.rest
  have k1 : s'.docker.command = s.docker.command := by rw [hrest]
  have k2 : s'.docker.args = s.docker.args := by rw [hrest]
  have k3 : s'.files = s.files := by rw [hrest]
  refine ⟨by rw [k1, e1], path, by rw [k2, e2], fm, by rw [k3]; exact hfm, e3, f, by rw [hfiles]; exact e4, text, e5, ?_⟩
  intro ω C st hst
  have hval : ∀ k v, (addedVars X.os fl tag k).or (ownVar X.ext p y.2 k) = some v → st.vars k = some v := by
    intro k v hv
    refine hst k v ?_
    rw [g3.envs, g1 hb hcl hd k (.inr (.inl hos))]
    exact hv
  refine ⟨Shell.prepared C st, e6 ω C st, ?_, ?_, ?_⟩
  · intro k v hk hv
    show (if k ∈ Shell.credentials then none else st.vars k) = _
    rw [if_neg hk]
    exact hval k v hv
  · intro k hk
    show (if k ∈ Shell.credentials then none else st.vars k) = _
    rw [if_pos hk]
  · intro hu hp hm hw
    have hadd : ∀ k v, k ∈ ["CI_NETRC_MACHINE", "CI_NETRC_USERNAME", "CI_NETRC_PASSWORD"] →
        netrcVars fl.machine fl.username fl.password k = some v → st.get k = v := by
      intro k v hk hv
      have : st.vars k = some v := by
        refine hval k v ?_
        unfold addedVars
        rw [proxyVars_netrc X.os hk, if_neg (by simp [hu, hp]), hv]
        rfl
      unfold Shell.State.get
      rw [this]
      rfl
    have a1 := hadd "CI_NETRC_MACHINE" fl.machine (by decide) rfl
    have a2 := hadd "CI_NETRC_USERNAME" fl.username (by decide) rfl
    have a3 := hadd "CI_NETRC_PASSWORD" fl.password (by decide) rfl
    unfold Shell.prepared
    simp only [a1]
    rw [if_pos ⟨hm, hw⟩, if_pos rfl]
    unfold Shell.netrc
    rw [a1, a2, a3]

/-- C133, Windows: the same, in PowerShell, which reads the script from a variable; it is the one made of the
commands of the step unless `--env` sets that variable. -/
theorem C133_windows (X : CliLib) (fl : CompileFlags) (tag : Option String) (ht : TagOf fl.ref tag)
    (he : (fl.environ.map Prod.fst).Nodup) (hl : (fl.labels.map Prod.fst).Nodup)
    (hlo : ∀ n m, (X.labelOrder n m).Perm m) (hpo : ∀ m, (X.proxyOrder m).Perm m) (hq : ∀ q, psQuote q → X.ext.isPrint q = true)
    (m : Manifest) (spec : Engine.Spec) (h : compileManifest X fl m = some (.ok spec)) :
    ∃ p, Requested fl.name m.resources p ∧ (p.platform.os = "windows" →
      List.Forall₂ (fun y s => y.2.commands ≠ [] → ¬ IsBuild y → y.1 ≠ .clone → Distinct X.ext y.2 →
        (∀ c ∈ y.2.commands, (Power.statements c).isSome ∧ Power.Paired c.toList) →
        s.docker.command = ["powershell", "-noprofile", "-noninteractive", "-command"] ∧
        s.docker.args = ["[System.Text.Encoding]::UTF8.GetString([System.Convert]::FromBase64String($Env:CI_SCRIPT)) | iex"] ∧
        ∃ v text, s.envs.get? "CI_SCRIPT" = some ((fl.environ.get? "CI_SCRIPT").getD v) ∧ decode64 v.toList = some (utf8 text) ∧
          ∀ (ω : Type) (C : Power.Commands ω) (st : Power.State ω), (∀ k v, s.envs.get? k = some v → st.env k = some v) →
            ∃ st1, Power.powershell C text st = some (Power.perform C (shownWin X.ext.isPrint) y.2.commands st1) ∧
              (∀ k v, k ∉ "SHELL" :: Power.hiddenVars → (addedVars X.os fl tag k).or (ownVar X.ext p y.2 k) = some v → st1.env k = some v) ∧
              (∀ k ∈ Power.hiddenVars, st1.env k = none) ∧
              (fl.username ≠ "" → fl.password ≠ "" → fl.machine ≠ "" →
                st1.files (C.join (st.get "USERPROFILE") "_netrc") =
                  some ("machine " ++ fl.machine ++ "\nlogin " ++ fl.username ++ "\npassword " ++ fl.password ++ "\n")))
        (sources (cloned fl.clone p)) spec.steps) := by
  obtain ⟨p, c, sp, hosts, hr, hfc, hcomp, hdr, _, _, _, _, _, hfiles⟩ := C74_flags_applied X fl tag ht he hl hlo hpo m spec h
  have hstd : c.Std := ⟨fun f hf => by simp [hfc.workspace] at hf, fun f hf => by simp [hfc.mount] at hf⟩
  refine ⟨p, hr, fun hos => ?_⟩
  have h1 := compiled_envs hstd hfc.transform hcomp
  have h2 := C119_step hstd hfc.transform hcomp hos hq
  have h12 := forall₂_also h1 h2
  refine (forall₂_trans h12 hdr).imp ?_
  rintro y s' ⟨s, ⟨g1, g2⟩, g3⟩ hcm hb hcl hd hsimple
  obtain ⟨e1, e2, v, text, e3, e4, e5⟩ := g2 hcm hb hsimple
  have hrest := g3.rest
  have k1 : s'.docker.command = s.docker.command := by rw [hrest]
  have k2 : s'.docker.args = s.docker.args := by rw [hrest]
  refine ⟨by rw [k1, e1], by rw [k2, e2], v, text, ?_, e4, ?_⟩
  · rw [g3.envs, e3]
    have : addedVars X.os fl tag "CI_SCRIPT" = fl.environ.get? "CI_SCRIPT" := by
      unfold addedVars
      have a1 : proxyVars X.os "CI_SCRIPT" = none := by simp [proxyVars]
      have a2 : netrcVars fl.machine fl.username fl.password "CI_SCRIPT" = none := by simp [netrcVars]
      have a3 : flagVars fl tag "CI_SCRIPT" = none := by simp [flagVars]
      rw [a1, a2, a3, ite_self]
      rfl
    rw [this]
    cases fl.environ.get? "CI_SCRIPT" <;> rfl
  intro ω C st hst
  have hval : ∀ k v, k ∉ ["CI_SCRIPT", "SHELL"] → (addedVars X.os fl tag k).or (ownVar X.ext p y.2 k) = some v → st.env k = some v := by
    intro k v hk hv
    refine hst k v ?_
    rw [g3.envs, g1 hb hcl hd k (.inl hk)]
    exact hv
  refine ⟨Power.prepared C st, e5 ω C st, ?_, ?_, ?_⟩
  · intro k v hk hv
    simp only [List.mem_cons, not_or] at hk
    show (if k ∈ Power.hiddenVars then none else st.env k) = _
    rw [if_neg hk.2]
    refine hval k v ?_ hv
    simp only [List.mem_cons, List.not_mem_nil, or_false, not_or]
    refine ⟨?_, hk.1⟩
    rintro rfl
    exact hk.2 (by decide)
  · intro k hk
    show (if k ∈ Power.hiddenVars then none else st.env k) = _
    rw [if_pos hk]
  · intro hu hp hm
    have hadd : ∀ k v, k ∈ ["CI_NETRC_MACHINE", "CI_NETRC_USERNAME", "CI_NETRC_PASSWORD"] →
        netrcVars fl.machine fl.username fl.password k = some v → st.get k = v := by
      intro k v hk hv
      have : st.env k = some v := by
        refine hval k v ?_ ?_
        · simp only [List.mem_cons, List.not_mem_nil, or_false] at hk
          rcases hk with rfl | rfl | rfl <;> decide
        unfold addedVars
        rw [proxyVars_netrc X.os hk, if_neg (by simp [hu, hp]), hv]
        rfl
      unfold Power.State.get
      rw [this]
      rfl
    have a1 := hadd "CI_NETRC_MACHINE" fl.machine (by decide) rfl
    have a2 := hadd "CI_NETRC_USERNAME" fl.username (by decide) rfl
    have a3 := hadd "CI_NETRC_PASSWORD" fl.password (by decide) rfl
    unfold Power.prepared
    simp only [a1]
    rw [if_neg hm, if_pos rfl]
    unfold Power.netrc
    rw [a1, a2, a3]

/-- A pipeline whose step sets variables of every sort -/
def seenPipeline : Pipeline where
  kind := "pipeline"
  name := "default"
  steps := [some { name := "test", image := "go", commands := ["make"]
                   environment := [("A", some { value := "1" }), ("DRONE_COMMIT_BRANCH", some { value := "mine" }),
                     ("CI_WORKSPACE", some { value := "/" }), ("B", some { value := "2" }), ("S", some { secret := "s" })]
                   settings := [("x", some { value := .bool true }), ("y", some { secret := "s" })] }]

/-- C133: the order of precedence at work: a variable of the file gives way to the build and to `--env`,
also where it has the name of a variable of the workspace, and `--env` gives way to the build; the
variables of the workspace give way to `--env`. -/
theorem C133_precedence : (match compileManifest exCli
      { branch := "main", environ := [("A", "9"), ("DRONE_COMMIT_BRANCH", "no"), ("DRONE_WORKSPACE", "/tmp")] } ⟨[.pipeline seenPipeline]⟩ with
    | some (.ok s) => s.steps.map fun t => ["A", "B", "DRONE_COMMIT_BRANCH", "CI_WORKSPACE", "DRONE_WORKSPACE", "S"].map fun k => t.envs.get? k
    | _ => []) = [[some "9", some "2", some "main", some "/drone/src", some "/tmp", none]] := by decide +kernel

/-- C133: on Windows `--env` can replace the script of every step. -/
theorem C133_script_replaced : (match compileManifest exCli { environ := [("CI_SCRIPT", "eA==")] }
      ⟨[.pipeline { seenPipeline with platform := { os := "windows" } }]⟩ with
    | some (.ok s) => s.steps.map fun t => (t.envs.get? "CI_SCRIPT", t.docker.command)
    | _ => []) = [(some "eA==", ["powershell", "-noprofile", "-noninteractive", "-command"])] := by
  decide +kernel

/-- It meets the conditions. -/
example : Distinct exExt { name := "test", image := "go", commands := ["make"]
                           environment := [("A", some { value := "1" }), ("S", some { secret := "s" })]
                           settings := [("x", some { value := .bool true }), ("y", some { secret := "s" })] } ∧
    lint (.pipeline (cloned false seenPipeline)) false = .ok () ∧ exExt.isPrint '\n' = false := by
  refine ⟨⟨by decide, ?_⟩, by rfl, by decide⟩
  intro k v k' v' h h' hs hs' _
  simp only [List.mem_cons, List.not_mem_nil, or_false, Prod.mk.injEq, Option.some.injEq] at h h'
  rcases h with ⟨rfl, rfl⟩ | ⟨rfl, rfl⟩
  · rcases h' with ⟨rfl, rfl⟩ | ⟨rfl, rfl⟩
    · rfl
    · simp at hs'
  · simp at hs

/-- A shell started for a step that has a variable -/
example : StartedIn { envs := [("A", "1")] } (exShell [("PATH", "/bin"), ("A", "1")]) := by
  intro k v h
  have : k = "A" ∧ v = "1" := by
    by_cases e : k = "A"
    · subst e
      exact ⟨rfl, by simpa [GoMap.get?] using h.symm⟩
    · simp [GoMap.get?] at h
      exact absurd h.1 e
  obtain ⟨rfl, rfl⟩ := this
  decide

end Drone
