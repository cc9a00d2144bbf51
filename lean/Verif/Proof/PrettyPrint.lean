/-
The invariants of /verif/lean/Verif/Proof/PrettyBlock.lean for the functions that print
containers, pipelines and the other resources.
-/
import Mathlib.Tactic.Common
import Verif.Proof.PrettyBlock

namespace Drone
namespace Pretty

variable {C : Lay} {G : Ctx}

/-- A tag that opens an indented block. -/
theorem adds_block {w t w' : Writer} (ht : AddsO C G w t) (h : Adds C Pos t.inc w')
    (hg : ∀ d i, G d i → 1 ≤ d + 1) : Adds C G w w'.dec :=
  ht.then (Adds.inc_dec h hg)

theorem tagStr_pos (L : PrettyLib) (w : Writer) (k s : String) : Adds C Pos w (tagStr L w k s) :=
  writeTagValue_pos L w k _
theorem tagBool_pos (L : PrettyLib) (w : Writer) (k : String) (b : Bool) :
    Adds C Pos w (tagBool L w k b) := writeTagValue_pos L w k _
theorem tagInt_pos (L : PrettyLib) (w : Writer) (k : String) (i : Int) :
    Adds C Pos w (tagInt L w k i) := writeTagValue_pos L w k _

theorem adds_ite {w a b : Writer} {c : Prop} [Decidable c] (ha : Adds C G w a) (hb : Adds C G w b) :
    Adds C G w (if c then a else b) := by split <;> assumption

theorem printCondition_pos (L : PrettyLib) (w : Writer) (k : String) (v : Condition) :
    Adds C Pos w (printCondition L w k v) := by
  unfold printCondition
  dsimp only
  refine (writeTag_pos L w k).adds.trans ?_
  generalize writeTag L w k = w
  have h1 : Adds C Pos w (if v.incl.length ≠ 0 ∧ v.excl.length = 0 then
      writeSequenceStr L (w.str "\n").indent v.incl else w) :=
    adds_ite (AddsV.newline (writeSequenceStr_v L _ _)) .refl
  refine h1.trans ?_
  generalize (if v.incl.length ≠ 0 ∧ v.excl.length = 0 then
      writeSequenceStr L (w.str "\n").indent v.incl else w) = w
  have h2 : Adds C Pos w (if v.incl.length ≠ 0 ∧ v.excl.length ≠ 0 then
      (writeTagValue L w.inc "include" (.strs v.incl)).dec else w) :=
    adds_ite (Adds.inc_dec (writeTagValue_pos L _ _ _) pos_inc) .refl
  refine h2.trans ?_
  generalize (if v.incl.length ≠ 0 ∧ v.excl.length ≠ 0 then
      (writeTagValue L w.inc "include" (.strs v.incl)).dec else w) = w
  exact adds_ite (Adds.inc_dec (writeTagValue_pos L _ _ _) pos_inc) .refl

theorem printConditionIf_pos (L : PrettyLib) (w : Writer) (k : String) (v : Condition) :
    Adds C Pos w (printConditionIf L w k v) := by
  unfold printConditionIf
  exact adds_ite .refl (printCondition_pos L w k v)

theorem printConditions_adds (L : PrettyLib) {w : Writer} {name : String} (v : Conditions)
    (ht : AddsO C G w (writeTag L w name)) (hg : ∀ d i, G d i → 1 ≤ d + 1) :
    Adds C G w (printConditions L w name v) := by
  unfold printConditions
  dsimp only
  refine adds_block ht ?_ hg
  refine Adds.trans ?_ (printConditionIf_pos L _ _ _)
  refine Adds.trans ?_ (printConditionIf_pos L _ _ _)
  refine Adds.trans ?_ (printConditionIf_pos L _ _ _)
  refine Adds.trans ?_ (printConditionIf_pos L _ _ _)
  refine Adds.trans ?_ (printConditionIf_pos L _ _ _)
  refine Adds.trans ?_ (printConditionIf_pos L _ _ _)
  refine Adds.trans ?_ (printConditionIf_pos L _ _ _)
  refine Adds.trans ?_ (printConditionIf_pos L _ _ _)
  refine Adds.trans ?_ (printConditionIf_pos L _ _ _)
  exact printConditionIf_pos L _ _ _

theorem printBuild_pos (L : PrettyLib) (w : Writer) (v : Build) : Adds C Pos w (printBuild L w v) := by
  unfold printBuild
  refine adds_ite (tagStr_pos L _ _ _) ?_
  refine adds_block (writeTag_pos L w "build") ?_ pos_inc
  refine Adds.trans ?_ (writeTagValue_pos L _ _ _)
  refine Adds.trans ?_ (tagStr_pos L _ _ _)
  refine Adds.trans ?_ (tagStr_pos L _ _ _)
  refine Adds.trans ?_ (writeTagValue_pos L _ _ _)
  refine Adds.trans ?_ (writeTagValue_pos L _ _ _)
  exact tagStr_pos L _ _ _

theorem eachEntry_adds {α : Type} {f : Writer → α → Writer} (hf : ∀ w a, Adds C G w (f w a))
    {l : List (Option α)} {w w' : Writer} (h : eachEntry f l w = some w') : Adds C G w w' := by
  induction l generalizing w with
  | nil =>
    simp only [eachEntry, Option.some.injEq] at h
    subst h; exact .refl
  | cons a as ih =>
    cases a with
    | none => simp [eachEntry] at h
    | some a => exact (hf w a).trans (ih h)

theorem eachKey_adds {α : Type} {m : GoMap (Option α)} {f : Writer → String → α → Writer}
    (hf : ∀ w k a, Adds C G w (f w k a)) {l : List String} {w w' : Writer}
    (h : eachKey m f l w = some w') : Adds C G w w' := by
  induction l generalizing w with
  | nil =>
    simp only [eachKey, Option.some.injEq] at h
    subst h; exact .refl
  | cons k ks ih =>
    unfold eachKey at h
    split at h
    · exact (hf _ _ _).trans (ih h)
    · simp at h

/-- The writers made for the items of a list in a container or pipeline. -/
theorem seq_adds {w : Writer} {f : Writer → Writer} (hg : ∀ d i, G d i → 1 ≤ d + 1)
    (h : ∀ s : Writer, Adds C Pos s.inc (f s.inc)) :
    Adds C G w (w.seq fun s => (f s.inc).dec) :=
  adds_seq hg fun s _ _ => Adds.inc_dec (h s) fun _ _ h => h

theorem printDeviceMounts_pos (L : PrettyLib) {w w' : Writer} {v : List (Option VolumeDevice)}
    (h : printDeviceMounts L w v = some w') : Adds C Pos w w' := by
  unfold printDeviceMounts at h
  refine (writeTag_pos L w _).then (eachEntry_adds (fun w a => ?_) h)
  exact seq_adds (f := fun s => tagStr L (tagStr L s "name" a.name) "path" a.devicePath) pos_inc
    fun s => (tagStr_pos L _ _ _).trans (tagStr_pos L _ _ _)

theorem printVolumeMounts_pos (L : PrettyLib) {w w' : Writer} {v : List (Option VolumeMount)}
    (h : printVolumeMounts L w v = some w') : Adds C Pos w w' := by
  unfold printVolumeMounts at h
  refine (writeTag_pos L w _).then (eachEntry_adds (fun w a => ?_) h)
  exact seq_adds (f := fun s => tagStr L (tagStr L s "name" a.name) "path" a.mountPath) pos_inc
    fun s => (tagStr_pos L _ _ _).trans (tagStr_pos L _ _ _)

theorem printFromSecret_pos (L : PrettyLib) (w : Writer) (k s : String) :
    Adds C Pos w (printFromSecret L w k s) := by
  unfold printFromSecret
  exact adds_block (writeTag_pos L w _) (tagStr_pos L _ _ _) pos_inc

theorem map_dec {o : Option Writer} {w' : Writer} (h : o.map Writer.dec = some w') :
    ∃ t, o = some t ∧ w' = t.dec := by
  cases o with
  | none => simp at h
  | some t => exact ⟨t, rfl, by simpa using h.symm⟩

theorem printEnviron_pos (L : PrettyLib) {w w' : Writer} {m : GoMap (Option Variable)}
    (h : printEnviron L w m = some w') : Adds C Pos w w' := by
  unfold printEnviron at h
  obtain ⟨t, ht, rfl⟩ := map_dec h
  refine adds_block (writeTag_pos L w _) (eachKey_adds (fun w k a => ?_) ht) pos_inc
  exact adds_ite (tagStr_pos L _ _ _) (printFromSecret_pos L _ _ _)

theorem printSettings_pos (L : PrettyLib) {w w' : Writer} {m : GoMap (Option Parameter)}
    (h : printSettings L w m = some w') : Adds C Pos w w' := by
  unfold printSettings at h
  obtain ⟨t, ht, rfl⟩ := map_dec h
  refine adds_block (writeTag_pos L w _) (eachKey_adds (fun w k a => ?_) ht) pos_inc
  refine adds_ite ?_ (printFromSecret_pos L _ _ _)
  have h1 := writeTagValue_pos (C := C) L { w with zero := true } k (.val a.value)
  exact ⟨h1.depth, h1.index, fun _ => rfl, h1.out⟩

theorem printPorts_pos (L : PrettyLib) {w w' : Writer} {v : List (Option Port)}
    (h : printPorts L w v = some w') : Adds C Pos w w' := by
  unfold printPorts at h
  refine (writeTag_pos L w _).then (eachEntry_adds (fun w a => ?_) h)
  refine adds_ite (AddsV.newline ?_) ?_
  · exact AddsV.pre (f := utf8 "-") flat_of_decide (AddsV.pre (f := utf8 " ") flat_of_decide
      (AddsV.of_bytes (toString_int_flat _)))
  · exact seq_adds (f := fun s => tagStr L (tagInt L (tagInt L s "port" a.port) "host" a.host) "protocol"
      a.protocol) pos_inc fun s => ((tagInt_pos L _ _ _).trans (tagInt_pos L _ _ _)).trans (tagStr_pos L _ _ _)

theorem printResourceObject_pos (L : PrettyLib) (w : Writer) (k : String) (v : Option ResourceObject) :
    Adds C Pos w (printResourceObject L w k v) := by
  cases v with
  | none => exact .refl
  | some r =>
    exact adds_block (writeTag_pos L w _) ((writeTagValue_pos L _ _ _).trans (writeTagValue_pos L _ _ _)) pos_inc

theorem printResources_pos (L : PrettyLib) (w : Writer) (v : Resources) :
    Adds C Pos w (printResources L w v) :=
  adds_block (writeTag_pos L w _)
    ((printResourceObject_pos L _ _ _).trans (printResourceObject_pos L _ _ _)) pos_inc

theorem when?_adds {c : Bool} {f : Writer → Option Writer} {w w' : Writer}
    (hf : ∀ w', f w = some w' → Adds C G w w') (h : when? c f w = some w') : Adds C G w w' := by
  unfold when? at h
  split at h
  · exact hf _ h
  · simp only [Option.some.injEq] at h
    subst h; exact .refl

theorem ifSome_adds {α : Type} {o : Option α} {f : Writer → α → Writer} {w : Writer}
    (hf : ∀ w a, Adds C G w (f w a)) : Adds C G w (ifSome o f w) := by
  cases o with
  | none => exact .refl
  | some a => exact hf w a

theorem printContainer_pos (L : PrettyLib) {w w' : Writer} {v : Container}
    (h : printContainer L w v = some w') : Adds C Pos w w' := by
  unfold printContainer at h
  dsimp only at h
  refine (tagStr_pos L w "name" v.name).trans ?_
  generalize tagStr L w "name" v.name = w at h ⊢
  refine (tagStr_pos L w "pull" v.pull).trans ?_
  generalize tagStr L w "pull" v.pull = w at h ⊢
  refine (tagStr_pos L w "image" v.image).trans ?_
  generalize tagStr L w "image" v.image = w at h ⊢
  refine (ifSome_adds (printBuild_pos L) (o := v.build)).trans ?_
  generalize ifSome v.build (printBuild L) w = w at h ⊢
  refine (ifSome_adds (fun w p => tagStr_pos L w "push" p.image) (o := v.push)).trans ?_
  generalize ifSome v.push (fun w p => tagStr L w "push" p.image) w = w at h ⊢
  refine (tagBool_pos L w "detach" v.detach).trans ?_
  generalize tagBool L w "detach" v.detach = w at h ⊢
  refine (tagStr_pos L w "user" v.user).trans ?_
  generalize tagStr L w "user" v.user = w at h ⊢
  refine (tagStr_pos L w "shell" v.shell).trans ?_
  generalize tagStr L w "shell" v.shell = w at h ⊢
  refine (writeTagValue_pos L w "entrypoint" (.strs v.entrypoint)).trans ?_
  generalize writeTagValue L w "entrypoint" (.strs v.entrypoint) = w at h ⊢
  refine (writeTagValue_pos L w "command" (.strs v.command)).trans ?_
  generalize writeTagValue L w "command" (.strs v.command) = w at h ⊢
  refine (writeTagValue_pos L w "commands" (.strs v.commands)).trans ?_
  generalize writeTagValue L w "commands" (.strs v.commands) = w at h ⊢
  refine (writeTagValue_pos L w "dns" (.strs v.dns)).trans ?_
  generalize writeTagValue L w "dns" (.strs v.dns) = w at h ⊢
  refine (writeTagValue_pos L w "dns_search" (.strs v.dnsSearch)).trans ?_
  generalize writeTagValue L w "dns_search" (.strs v.dnsSearch) = w at h ⊢
  refine (writeTagValue_pos L w "extra_hosts" (.strs v.extraHosts)).trans ?_
  generalize writeTagValue L w "extra_hosts" (.strs v.extraHosts) = w at h ⊢
  refine (tagStr_pos L w "network_mode" v.network).trans ?_
  generalize tagStr L w "network_mode" v.network = w at h ⊢
  obtain ⟨w1, e1, h⟩ := Option.bind_eq_some_iff.1 h
  refine (when?_adds (fun _ h => printSettings_pos L h) e1).trans ?_
  obtain ⟨w2, e2, h⟩ := Option.bind_eq_some_iff.1 h
  refine (when?_adds (fun _ h => printEnviron_pos L h) e2).trans ?_
  refine (tagStr_pos L w2 "failure" v.failure).trans ?_
  generalize tagStr L w2 "failure" v.failure = w at h ⊢
  refine (tagBool_pos L w "privileged" v.privileged).trans ?_
  generalize tagBool L w "privileged" v.privileged = w at h ⊢
  refine (tagStr_pos L w "working_dir" v.workingDir).trans ?_
  generalize tagStr L w "working_dir" v.workingDir = w at h ⊢
  obtain ⟨w1, e1, h⟩ := Option.bind_eq_some_iff.1 h
  refine (when?_adds (fun _ h => printDeviceMounts_pos L h) e1).trans ?_
  obtain ⟨w2, e2, h⟩ := Option.bind_eq_some_iff.1 h
  refine (when?_adds (fun _ h => printPorts_pos L h) e2).trans ?_
  refine (ifSome_adds (printResources_pos L) (o := v.resources)).trans ?_
  generalize ifSome v.resources (printResources L) w2 = w at h ⊢
  obtain ⟨w3, e3, rfl⟩ := Option.map_eq_some_iff.1 h
  refine (when?_adds (fun _ h => printVolumeMounts_pos L h) e3).trans ?_
  refine Adds.trans ?_ adds_nl
  refine Adds.trans ?_ (adds_ite (writeTagValue_pos L _ _ _) .refl)
  exact adds_ite .refl (printConditions_adds L v.cond (writeTag_pos L w3 "when") pos_inc)

theorem seq?_adds {w w' : Writer} {f : Writer → Option Writer} (hg : ∀ d i, G d i → 1 ≤ d + 1)
    (hf : ∀ s t : Writer, f s.inc = some t → Adds C Pos s.inc t)
    (h : (w.seq? fun s => (f s.inc).map Writer.dec) = some w') : Adds C G w w' := by
  unfold Writer.seq? at h
  obtain ⟨s, hs, rfl⟩ := Option.map_eq_some_iff.1 h
  obtain ⟨t, ht, rfl⟩ := map_dec hs
  have h1 := Adds.inc_dec (G := fun d _ => 1 ≤ d + 1) (hf _ _ ht) fun _ _ h => h
  refine ⟨h1.depth, rfl, id, fun g => ?_⟩
  obtain ⟨o, ho, hb⟩ := h1.out (hg _ _ g)
  exact ⟨o, ho, hb⟩

theorem printContainers_top (L : PrettyLib) {l : List (Option Container)} {w w' : Writer}
    (h : printContainers L l w = some w') : Adds C Top w w' := by
  induction l generalizing w with
  | nil =>
    simp only [printContainers, Option.some.injEq] at h
    subst h; exact .refl
  | cons c cs ih =>
    cases c with
    | none => exact ih h
    | some c =>
      obtain ⟨t, ht, h⟩ := Option.bind_eq_some_iff.1 h
      exact (seq?_adds (f := fun s => printContainer L s c) top_inc (fun s t ht => printContainer_pos L ht) ht).trans (ih h)

theorem printEmptyDir_pos (L : PrettyLib) (w : Writer) (v : VolumeEmptyDir) :
    Adds C Pos w (printEmptyDir L w v) := by
  unfold printEmptyDir
  refine adds_ite ?_ ?_
  · exact (((((writeTag_pos L w _).bytes (f := utf8 " ") flat_of_decide).bytes (f := utf8 "{")
      flat_of_decide).bytes (f := utf8 "}") flat_of_decide)).adds
  · exact adds_block (writeTag_pos L w _) ((tagStr_pos L _ _ _).trans (writeTagValue_pos L _ _ _)) pos_inc

theorem printVolume_top (L : PrettyLib) (w : Writer) (v : Volume) : Adds C Top w (printVolume L w v) := by
  unfold printVolume
  dsimp only
  refine adds_seq top_inc fun s _ _ => ?_
  refine Adds.inc_dec ?_ fun _ _ h => h
  refine Adds.trans ?_ (ifSome_adds fun w p => adds_block (writeTag_pos L w _) (tagStr_pos L _ _ _) pos_inc)
  refine Adds.trans ?_ (ifSome_adds (printEmptyDir_pos L))
  exact tagStr_pos L _ _ _

theorem printVolumes_top (L : PrettyLib) {w w' : Writer} {v : List (Option Volume)}
    (h : printVolumes L w v = some w') : Adds C Top w w' := by
  unfold printVolumes at h
  exact (writeTag_top L w (by decide)).then (eachEntry_adds (printVolume_top L) h)

theorem printClone_top (L : PrettyLib) (w : Writer) (v : Clone) : Adds C Top w (printClone L w v) :=
  adds_block (writeTag_top L w (by decide))
    ((tagInt_pos L _ _ _).trans ((tagBool_pos L _ _ _).trans ((tagBool_pos L _ _ _).trans adds_nl))) top_inc

theorem printConcurrency_top (L : PrettyLib) (w : Writer) (v : Concurrency) :
    Adds C Top w (printConcurrency L w v) :=
  adds_block (writeTag_top L w (by decide)) ((tagInt_pos L _ _ _).trans adds_nl) top_inc

theorem printPlatform_top (L : PrettyLib) (w : Writer) (v : Platform) :
    Adds C Top w (printPlatform L w v) :=
  adds_block (writeTag_top L w (by decide))
    ((tagStr_pos L _ _ _).trans ((tagStr_pos L _ _ _).trans ((tagStr_pos L _ _ _).trans
      ((tagStr_pos L _ _ _).trans adds_nl)))) top_inc

theorem printPlatformDefault_top (L : PrettyLib) (w : Writer) :
    Adds C Top w (printPlatformDefault L w) :=
  adds_block (writeTag_top L w (by decide))
    ((tagStr_pos L _ _ _).trans ((tagStr_pos L _ _ _).trans adds_nl)) top_inc

theorem printWorkspace_top (L : PrettyLib) (w : Writer) (v : Workspace) :
    Adds C Top w (printWorkspace L w v) :=
  adds_block (writeTag_top L w (by decide))
    ((tagStr_pos L _ _ _).trans ((tagStr_pos L _ _ _).trans adds_nl)) top_inc

/-- A resource: the separator and lines of which the last is empty. -/
structure AddsDoc (C : Lay) (w w' : Writer) : Prop where
  depth : w'.depth = w.depth
  index : w'.index.isSome = w.index.isSome
  zero : w.zero = false → w'.zero = false
  out : w.depth = 0 → w.index = none → ∃ o, w'.buf = w.buf ++ ([45, 45, 45] ++ o ++ [10]) ∧ Blk C o

theorem adds_doc {w w' : Writer} (h : Adds C Top (w.str "---") w') : AddsDoc C w (w'.str "\n") := by
  refine ⟨h.depth, h.index, h.zero, fun h1 h2 => ?_⟩
  obtain ⟨o, ho, hb⟩ := h.out ⟨h1, by simp [Writer.str, Writer.bytes, h2]⟩
  refine ⟨o, ?_, hb⟩
  show w'.buf ++ [10] = _
  rw [ho]
  simp [Writer.str, Writer.bytes, utf8, String.utf8EncodeChar]

/-- What every resource begins with. -/
def docHead (L : PrettyLib) (w : Writer) (version kind : String) : Writer :=
  tagStr L (tagStr L (w.str "---") "version" version) "kind" kind

theorem docHead_adds (L : PrettyLib) (w : Writer) (version kind : String) (hC : ¬ C.late) :
    Adds C Top (w.str "---") (docHead L w version kind) :=
  (tagStr_top L _ (k := "version") (by decide) version fun h => absurd h hC).trans
    (tagStr_top L _ (k := "kind") (by decide) kind fun h => absurd h hC)

/-- A pipeline behind its version and kind. -/
theorem printPipeline_tail (L : PrettyLib) {w w' : Writer} {v : Pipeline}
    (h : printPipeline L w v = some w') :
    ∃ t, Adds C Top (docHead L w v.version v.kind) t ∧ w' = t.str "\n" := by
  unfold printPipeline at h
  dsimp only at h
  obtain ⟨w1, e1, h⟩ := Option.bind_eq_some_iff.1 h
  obtain ⟨w2, e2, h⟩ := Option.bind_eq_some_iff.1 h
  obtain ⟨w3, e3, rfl⟩ := Option.map_eq_some_iff.1 h
  refine ⟨_, ?_, rfl⟩
  refine Adds.trans ?_ (Adds.trans (when?_adds (w := _) (fun w' h' => ?_) e1)
    (Adds.trans (when?_adds (fun w' h' => ?_) e2)
    (Adds.trans (when?_adds (fun w' h' => ?_) e3) ?_)))
  · refine Adds.trans ?_ (adds_ite .refl (printWorkspace_top L _ _))
    refine Adds.trans ?_ (adds_ite .refl (printConcurrency_top L _ _))
    refine Adds.trans ?_ (adds_ite .refl (printClone_top L _ _))
    refine Adds.trans ?_ (adds_ite (printPlatformDefault_top L _) (printPlatform_top L _ _))
    refine Adds.trans ?_ adds_nl
    exact Adds.trans (tagStr_top L _ (k := "type") (by decide) _) (tagStr_top L _ (k := "name") (by decide) _)
  · exact (writeTag_top L _ (by decide)).then (printContainers_top L h')
  · exact (writeTag_top L _ (by decide)).then (printContainers_top L h')
  · obtain ⟨t, ht, rfl⟩ := Option.map_eq_some_iff.1 h'
    exact (printVolumes_top L ht).trans adds_nl
  · have hl : ∀ (w : Writer) (k : String) (l : List String), k ∈ topKeys → (k ≠ "version" ∧ k ≠ "kind") →
        Adds C Top w (if l.length > 0 then
        (writeTagValue L w k (.strs l)).str "\n" else w) := by
      intro w k l hk hk'
      split
      · rename_i hl
        exact (writeTagValue_top L _ hk (.inr (.inl ⟨_, rfl, by omega⟩)) fun _ => hk').trans adds_nl
      · exact .refl
    refine Adds.trans ?_ (hl _ "depends_on" v.dependsOn (by decide) (by decide))
    refine Adds.trans ?_ (adds_ite .refl
      ((printConditions_adds L _ (writeTag_top L _ (by decide)) top_inc).trans adds_nl))
    refine Adds.trans ?_ (adds_ite ((writeTagValue_top L _ (by decide) (.inr (.inr ⟨_, rfl⟩))).trans adds_nl) .refl)
    exact hl _ "image_pull_secrets" v.pullSecrets (by decide) (by decide)

theorem doc_of_tail {L : PrettyLib} {w w' : Writer} {version kind : String} (hC : ¬ C.late)
    (h : ∃ t, Adds C Top (docHead L w version kind) t ∧ w' = t.str "\n") : AddsDoc C w w' := by
  obtain ⟨t, h, rfl⟩ := h
  exact adds_doc ((docHead_adds L w version kind hC).trans h)

theorem printPipeline_doc (L : PrettyLib) {w w' : Writer} {v : Pipeline}
    (h : printPipeline L w v = some w') (hC : ¬ C.late) : AddsDoc C w w' := doc_of_tail hC (printPipeline_tail L h)

theorem printCron_tail (L : PrettyLib) (w : Writer) (v : Cron) :
    ∃ t, Adds C Top (docHead L w v.version v.kind) t ∧ printCron L w v = t.str "\n" := by
  unfold printCron
  dsimp only
  refine ⟨_, ?_, rfl⟩
  refine Adds.trans ?_ adds_nl
  refine Adds.trans (tagStr_top L _ (k := "name") (by decide) v.name) ?_
  refine adds_block (writeTag_top L _ (k := "spec") (by decide)) ?_ top_inc
  refine Adds.trans ?_ (adds_ite (adds_block (writeTag_pos L _ _) (tagStr_pos L _ _ _) pos_inc) .refl)
  exact Adds.trans (tagStr_pos L _ _ _) (tagStr_pos L _ _ _)

theorem printCron_doc (L : PrettyLib) (w : Writer) (v : Cron) (hC : ¬ C.late) :
    AddsDoc C w (printCron L w v) := doc_of_tail hC (printCron_tail L w v)

theorem printSignature_tail (L : PrettyLib) (w : Writer) (v : Signature) :
    ∃ t, Adds C Top (docHead L w v.version v.kind) t ∧ printSignature L w v = t.str "\n" := by
  unfold printSignature
  dsimp only
  refine ⟨_, ?_, rfl⟩
  refine Adds.trans ?_ adds_nl
  exact tagStr_top L _ (k := "hmac") (by decide) _

theorem printSignature_doc (L : PrettyLib) (w : Writer) (v : Signature) (hC : ¬ C.late) :
    AddsDoc C w (printSignature L w v) := doc_of_tail hC (printSignature_tail L w v)

theorem chunkLoop_mem {size fuel : Nat} {s c : Bytes} (h : c ∈ chunkLoop size fuel s) :
    ∀ b ∈ c, b ∈ s := by
  induction fuel generalizing s with
  | zero => simp [chunkLoop] at h
  | succ n ih =>
    unfold chunkLoop at h
    split at h
    · simp at h
    · rcases List.mem_cons.1 h with rfl | h
      · exact fun b hb => List.mem_of_mem_take hb
      · exact fun b hb => List.mem_of_mem_drop (ih h b hb)

theorem chunk_mem {size : Nat} {s c : Bytes} (h : c ∈ chunk s size) : ∀ b ∈ c, b ∈ s := by
  unfold chunk at h
  split at h
  · simp only [List.mem_singleton] at h; subst h; exact fun _ h => h
  · exact chunkLoop_mem h

theorem printChunks_pos (w : Writer) (cs : List Bytes)
    (h : ∀ c ∈ cs, (10 : UInt8) ∉ c ∧ (C.cr → (13 : UInt8) ∉ c)) : Adds C Pos w (printChunks w cs) := by
  induction cs generalizing w with
  | nil => exact .refl
  | cons c cs ih =>
    unfold printChunks
    refine Adds.trans ?_ (ih _ fun c hc => h c (List.mem_cons_of_mem _ hc))
    obtain ⟨h1, h2⟩ := h c List.mem_cons_self
    have hp := padding_flat w.depth
    refine ⟨rfl, rfl, id, fun g => ⟨10 :: (Writer.padding w.depth ++ c), ?_, ?_⟩⟩
    · simp [Writer.str, Writer.bytes, Writer.indent, utf8, String.utf8EncodeChar]
    · obtain ⟨t, ht⟩ := padding_pos g
      refine Blk.line (by simp [hp.1, h1]) ?_ (fun hc => by simp [hp.2, h2 hc])
      rw [ht]; exact .inr (.inl ⟨_, rfl⟩)

theorem printData_top (L : PrettyLib) (w : Writer) (d : String) (hd : C.cr → '\r' ∉ d.toList) :
    Adds C Top w (printData L w d) := by
  unfold printData
  dsimp only
  refine adds_block (((writeTag_top L w (by decide)).bytes (f := utf8 " ") flat_of_decide).bytes
    (f := utf8 ">") flat_of_decide) (printChunks_pos _ _ fun c hc => ?_) top_inc
  constructor
  · intro hm
    have := chunk_mem hc _ hm
    simp [stripSpace] at this
  · intro hC hm
    have := chunk_mem hc _ hm
    exact utf8_no_cr (hd hC) (List.mem_filter.1 this).1

theorem printGet_top (L : PrettyLib) (w : Writer) (v : SecretGet) : Adds C Top w (printGet L w v) :=
  adds_block (writeTag_top L w (by decide))
    ((tagStr_pos L _ _ _).trans ((tagStr_pos L _ _ _).trans (tagStr_pos L _ _ _))) top_inc

theorem printSecret_tail (L : PrettyLib) (w : Writer) (v : Secret) (hd : C.cr → '\r' ∉ v.data.toList) :
    ∃ t, Adds C Top (docHead L w v.version v.kind) t ∧ printSecret L w v = t.str "\n" := by
  unfold printSecret
  dsimp only
  refine ⟨_, ?_, rfl⟩
  refine Adds.trans ?_ adds_nl
  refine Adds.trans ?_ (adds_ite (((tagStr_top L _ (k := "name") (by decide) _).trans adds_nl).trans
    (printGet_top L _ _)) .refl)
  refine Adds.trans ?_ (adds_ite ((tagStr_top L _ (k := "name") (by decide) _).trans (printData_top L _ _ hd)) .refl)
  exact tagStr_top L _ (k := "type") (by decide) _

theorem printSecret_doc (L : PrettyLib) (w : Writer) (v : Secret) (hd : C.cr → '\r' ∉ v.data.toList)
    (hC : ¬ C.late) : AddsDoc C w (printSecret L w v) := doc_of_tail hC (printSecret_tail L w v hd)

end Pretty
end Drone
