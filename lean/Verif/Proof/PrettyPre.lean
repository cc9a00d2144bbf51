/-
What the printer writes does not depend on what is in the buffer already.
-/
import Mathlib.Tactic.Common
import Verif.Model.Pretty

namespace Drone
namespace Pretty

/-- The same writer with `p` written before. -/
def Writer.pre (p : Bytes) (w : Writer) : Writer := { w with buf := p ++ w.buf }

variable {p : Bytes}

@[simp] theorem pre_depth (w : Writer) : (w.pre p).depth = w.depth := rfl
@[simp] theorem pre_zero (w : Writer) : (w.pre p).zero = w.zero := rfl
@[simp] theorem pre_index (w : Writer) : (w.pre p).index = w.index := rfl
@[simp] theorem pre_bytes (w : Writer) (b : Bytes) : (w.pre p).bytes b = (w.bytes b).pre p := by
  simp [Writer.pre, Writer.bytes]
@[simp] theorem pre_str (w : Writer) (s : String) : (w.pre p).str s = (w.str s).pre p := by
  simp [Writer.str]
@[simp] theorem pre_indent (w : Writer) : (w.pre p).indent = w.indent.pre p := by
  simp [Writer.indent]
@[simp] theorem pre_inc (w : Writer) : (w.pre p).inc = w.inc.pre p := rfl
@[simp] theorem pre_dec (w : Writer) : (w.pre p).dec = w.dec.pre p := rfl
@[simp] theorem pre_writeEncode (L : PrettyLib) (w : Writer) (s : String) :
    writeEncode L (w.pre p) s = (writeEncode L w s).pre p := by simp [writeEncode]

theorem pre_ite {c : Prop} [Decidable c] (a b : Writer) :
    (if c then a.pre p else b.pre p) = (if c then a else b).pre p := by split <;> rfl

/-- Does not depend on the buffer. -/
def Frees (p : Bytes) (f : Writer → Writer) : Prop := ∀ w, f (w.pre p) = (f w).pre p

/-- The same for a function that may panic. -/
def Frees? (p : Bytes) (f : Writer → Option Writer) : Prop := ∀ w, f (w.pre p) = (f w).map (·.pre p)

theorem pre_seq {f : Writer → Writer} (hf : Frees p f) (w : Writer) :
    (w.pre p).seq f = (w.seq f).pre p := by
  unfold Writer.seq
  have := hf { w with zero := false, index := some 0 }
  simp only [Writer.pre] at this ⊢
  rw [this]

theorem pre_seq? {f : Writer → Option Writer} (hf : Frees? p f) (w : Writer) :
    (w.pre p).seq? f = (w.seq? f).map (·.pre p) := by
  unfold Writer.seq?
  have := hf { w with zero := false, index := some 0 }
  simp only [Writer.pre] at this ⊢
  rw [this]
  cases f { w with zero := false, index := some 0 } <;> rfl

@[simp] theorem pre_seqStrLoop (L : PrettyLib) (b : Bool) (w : Writer) (l : List String) :
    seqStrLoop L b (w.pre p) l = (seqStrLoop L b w l).pre p := by
  induction l generalizing b w with
  | nil => rfl
  | cons v vs ih =>
    unfold seqStrLoop
    simp only [pre_str, pre_indent, pre_ite, pre_writeEncode, ih]

@[simp] theorem pre_writeSequenceStr (L : PrettyLib) (w : Writer) (l : List String) :
    writeSequenceStr L (w.pre p) l = (writeSequenceStr L w l).pre p := by
  unfold writeSequenceStr
  simp only [pre_str, pre_seqStrLoop, pre_ite]

@[simp] theorem pre_mapStrLoop (L : PrettyLib) (m : GoMap String) (b : Bool) (w : Writer) (l : List String) :
    mapStrLoop L m b (w.pre p) l = (mapStrLoop L m b w l).pre p := by
  induction l generalizing b w with
  | nil => rfl
  | cons v vs ih =>
    unfold mapStrLoop
    simp only [pre_str, pre_indent, pre_ite, pre_writeEncode, ih]

@[simp] theorem pre_writeMappingStr (L : PrettyLib) (w : Writer) (m : GoMap String) :
    writeMappingStr L (w.pre p) m = (writeMappingStr L w m).pre p := by
  unfold writeMappingStr
  simp only [pre_str, pre_mapStrLoop, pre_ite]

def FreeEntries (p : Bytes) (es : GoMap (Writer → Writer)) : Prop := ∀ k f, es.get? k = some f → Frees p f

theorem pre_mapLoop (L : PrettyLib) {es : GoMap (Writer → Writer)} (he : FreeEntries p es) (b : Bool)
    (w : Writer) (l : List String) : mapLoop L es b (w.pre p) l = (mapLoop L es b w l).pre p := by
  induction l generalizing b w with
  | nil => rfl
  | cons k ks ih =>
    unfold mapLoop
    cases hk : es.get? k with
    | none => simp only [pre_str, pre_indent, pre_ite, pre_writeEncode, ih]
    | some f =>
      have := he k f hk
      simp only [pre_str, pre_indent, pre_ite, pre_writeEncode, this _, ih]

theorem pre_mapEntry {v : Value} {f : Writer → Writer} (hf : Frees p f) : Frees p (mapEntry v f) := by
  intro w
  unfold mapEntry
  generalize (_ || _ || _ : Bool) = c
  cases c
  · simp only [pre_str, pre_indent, pre_inc, hf _, pre_dec, pre_ite]
  · simp only [if_true, pre_str, hf _]

mutual
theorem pre_writeVal (L : PrettyLib) (v : Value) : Frees p (writeVal L v) := by
  intro w
  cases v with
  | null => simp only [writeVal, pre_str]
  | bool b => simp only [writeVal, pre_str]
  | int i => simp only [writeVal, pre_str]
  | float q => simp only [writeVal, pre_str]
  | str s => simp only [writeVal, pre_writeEncode]
  | seq xs => simp only [writeVal, pre_str, pre_writeSeq L true xs w, pre_ite]
  | map kvs => simp only [writeVal, pre_str, pre_mapLoop L (pre_mapEntries L kvs), pre_ite]

theorem pre_writeSeq (L : PrettyLib) (b : Bool) (xs : List Value) : Frees p (writeSeq L b xs) := by
  intro w
  cases xs with
  | nil => simp only [writeSeq]
  | cons v vs =>
    simp only [writeSeq, pre_str, pre_indent, pre_ite, pre_inc, pre_writeVal L v _, pre_dec,
      pre_writeSeq L false vs _]

theorem pre_mapEntries (L : PrettyLib) (kvs : List (Value × Value)) : FreeEntries p (mapEntries L kvs) := by
  cases kvs with
  | nil => intro k f h; simp [mapEntries, GoMap.get?] at h
  | cons kv kvs =>
    obtain ⟨k, v⟩ := kv
    have ih := pre_mapEntries L kvs
    cases k with
    | str s =>
      simp only [mapEntries]
      intro k f h
      unfold GoMap.get? at h
      rw [List.lookup_cons] at h
      split at h
      · simp only [Option.some.injEq] at h
        subst h
        exact pre_mapEntry (pre_writeVal L v)
      · exact ih k f h
    | _ => simpa only [mapEntries] using ih
end

@[simp] theorem pre_writeValue (L : PrettyLib) (w : Writer) (v : Arg) :
    writeValue L (w.pre p) v = (writeValue L w v).pre p := by
  cases v with
  | val v => exact pre_writeVal L v w
  | strs l => exact pre_writeSequenceStr L w l
  | strMap m => exact pre_writeMappingStr L w m
  | size n => exact pre_writeEncode L w _

@[simp] theorem pre_writeTag (L : PrettyLib) (w : Writer) (k : String) :
    writeTag L (w.pre p) k = (writeTag L w k).pre p := by
  unfold writeTag
  simp only [pre_str, pre_index]
  cases h : (w.str "\n").index with
  | none => simp only [pre_indent, pre_writeEncode, pre_str]
  | some i =>
    simp only [pre_dec, pre_indent, pre_inc, pre_str, pre_ite, pre_writeEncode]
    rfl

@[simp] theorem pre_writeTagValue (L : PrettyLib) (w : Writer) (k : String) (v : Arg) :
    writeTagValue L (w.pre p) k v = (writeTagValue L w k v).pre p := by
  unfold writeTagValue
  simp only [pre_zero, pre_writeTag, pre_str, pre_writeValue, pre_indent, pre_inc, pre_dec, pre_ite]

@[simp] theorem pre_tagStr (L : PrettyLib) (w : Writer) (k v : String) :
    tagStr L (w.pre p) k v = (tagStr L w k v).pre p := pre_writeTagValue L w k _
@[simp] theorem pre_tagBool (L : PrettyLib) (w : Writer) (k : String) (v : Bool) :
    tagBool L (w.pre p) k v = (tagBool L w k v).pre p := pre_writeTagValue L w k _
@[simp] theorem pre_tagInt (L : PrettyLib) (w : Writer) (k : String) (v : Int) :
    tagInt L (w.pre p) k v = (tagInt L w k v).pre p := pre_writeTagValue L w k _

@[simp] theorem pre_printCondition (L : PrettyLib) (w : Writer) (k : String) (v : Condition) :
    printCondition L (w.pre p) k v = (printCondition L w k v).pre p := by
  unfold printCondition
  simp only [pre_writeTag, pre_str, pre_indent, pre_writeSequenceStr, pre_ite, pre_inc, pre_writeTagValue, pre_dec]

@[simp] theorem pre_printConditionIf (L : PrettyLib) (w : Writer) (k : String) (v : Condition) :
    printConditionIf L (w.pre p) k v = (printConditionIf L w k v).pre p := by
  unfold printConditionIf
  simp only [pre_printCondition, pre_ite]

@[simp] theorem pre_printConditions (L : PrettyLib) (w : Writer) (k : String) (v : Conditions) :
    printConditions L (w.pre p) k v = (printConditions L w k v).pre p := by
  unfold printConditions
  simp only [pre_writeTag, pre_inc, pre_printConditionIf, pre_dec]

@[simp] theorem pre_printBuild (L : PrettyLib) (w : Writer) (v : Build) :
    printBuild L (w.pre p) v = (printBuild L w v).pre p := by
  unfold printBuild
  simp only [pre_tagStr, pre_writeTag, pre_inc, pre_writeTagValue, pre_dec, pre_ite]

theorem pre_eachEntry {α : Type} {f : Writer → α → Writer} (hf : ∀ a, Frees p (f · a))
    (l : List (Option α)) (w : Writer) : eachEntry f l (w.pre p) = (eachEntry f l w).map (·.pre p) := by
  induction l generalizing w with
  | nil => rfl
  | cons a as ih =>
    cases a with
    | none => rfl
    | some a =>
      have : f (w.pre p) a = (f w a).pre p := hf a w
      simp only [eachEntry]
      rw [this, ih]

theorem pre_eachKey {α : Type} {m : GoMap (Option α)} {f : Writer → String → α → Writer}
    (hf : ∀ k a, Frees p (f · k a)) (l : List String) (w : Writer) :
    eachKey m f l (w.pre p) = (eachKey m f l w).map (·.pre p) := by
  induction l generalizing w with
  | nil => rfl
  | cons k ks ih =>
    unfold eachKey
    split
    · rename_i v _
      have : f (w.pre p) k v = (f w k v).pre p := hf k v w
      rw [this, ih]
    · rfl

theorem pre_seq_two {g : Writer → Writer} (hg : Frees p g) (w : Writer) :
    (w.pre p).seq (fun s => (g s.inc).dec) = (w.seq fun s => (g s.inc).dec).pre p :=
  pre_seq (fun s => by rw [pre_inc, hg s.inc, pre_dec]) w

@[simp] theorem pre_printDeviceMounts (L : PrettyLib) (w : Writer) (v : List (Option VolumeDevice)) :
    printDeviceMounts L (w.pre p) v = (printDeviceMounts L w v).map (·.pre p) := by
  unfold printDeviceMounts
  rw [pre_writeTag]
  exact pre_eachEntry (fun a w => pre_seq_two (g := fun s => tagStr L (tagStr L s "name" a.name) "path" a.devicePath)
    (fun s => by simp only [pre_tagStr]) w) v _

@[simp] theorem pre_printVolumeMounts (L : PrettyLib) (w : Writer) (v : List (Option VolumeMount)) :
    printVolumeMounts L (w.pre p) v = (printVolumeMounts L w v).map (·.pre p) := by
  unfold printVolumeMounts
  rw [pre_writeTag]
  exact pre_eachEntry (fun a w => pre_seq_two (g := fun s => tagStr L (tagStr L s "name" a.name) "path" a.mountPath)
    (fun s => by simp only [pre_tagStr]) w) v _

@[simp] theorem pre_printFromSecret (L : PrettyLib) (w : Writer) (k s : String) :
    printFromSecret L (w.pre p) k s = (printFromSecret L w k s).pre p := by
  unfold printFromSecret
  simp only [pre_writeTag, pre_inc, pre_tagStr, pre_dec]

theorem map_dec_pre (o : Option Writer) :
    (o.map (·.pre p)).map Writer.dec = (o.map Writer.dec).map (·.pre p) := by cases o <;> rfl

@[simp] theorem pre_printEnviron (L : PrettyLib) (w : Writer) (m : GoMap (Option Variable)) :
    printEnviron L (w.pre p) m = (printEnviron L w m).map (·.pre p) := by
  unfold printEnviron
  rw [pre_writeTag, pre_inc, pre_eachKey, map_dec_pre]
  intro k a w
  simp only [pre_tagStr, pre_printFromSecret, pre_ite]

@[simp] theorem pre_printSettings (L : PrettyLib) (w : Writer) (m : GoMap (Option Parameter)) :
    printSettings L (w.pre p) m = (printSettings L w m).map (·.pre p) := by
  unfold printSettings
  rw [pre_writeTag, pre_inc, pre_eachKey, map_dec_pre]
  intro k a w
  have : writeTagValue L { w.pre p with zero := true } k (.val a.value)
      = (writeTagValue L { w with zero := true } k (.val a.value)).pre p :=
    pre_writeTagValue L { w with zero := true } k _
  dsimp only
  rw [this, pre_printFromSecret]
  split <;> rfl

@[simp] theorem pre_printPorts (L : PrettyLib) (w : Writer) (v : List (Option Port)) :
    printPorts L (w.pre p) v = (printPorts L w v).map (·.pre p) := by
  unfold printPorts
  rw [pre_writeTag]
  refine pre_eachEntry (fun a w => ?_) v _
  have := pre_seq_two (p := p) (g := fun s => tagStr L (tagInt L (tagInt L s "port" a.port) "host" a.host)
    "protocol" a.protocol) (fun s => by simp only [pre_tagStr, pre_tagInt]) w
  simp only [pre_str, pre_indent, this, pre_ite]

theorem pre_ifSome {α : Type} {f : Writer → α → Writer} (hf : ∀ a, Frees p (f · a)) (o : Option α)
    (w : Writer) : ifSome o f (w.pre p) = (ifSome o f w).pre p := by
  cases o with
  | none => rfl
  | some a => exact hf a w

@[simp] theorem pre_printResourceObject (L : PrettyLib) (w : Writer) (k : String) (v : Option ResourceObject) :
    printResourceObject L (w.pre p) k v = (printResourceObject L w k v).pre p := by
  cases v with
  | none => rfl
  | some r => simp only [printResourceObject, pre_writeTag, pre_inc, pre_writeTagValue, pre_dec]

@[simp] theorem pre_printResources (L : PrettyLib) (w : Writer) (v : Resources) :
    printResources L (w.pre p) v = (printResources L w v).pre p := by
  simp only [printResources, pre_writeTag, pre_inc, pre_printResourceObject, pre_dec]

theorem pre_when? {c : Bool} {f : Writer → Option Writer} (hf : Frees? p f) : Frees? p (when? c f) := by
  intro w
  unfold when?
  split
  · exact hf w
  · rfl

theorem pre_bind {o : Option Writer} {f : Writer → Option Writer} (hf : Frees? p f) :
    (o.map (·.pre p)).bind f = (o.bind f).map (·.pre p) := by
  cases o with
  | none => rfl
  | some w => exact hf w

theorem pre_map {o : Option Writer} {f : Writer → Writer} (hf : Frees p f) :
    (o.map (·.pre p)).map f = (o.map f).map (·.pre p) := by
  cases o with
  | none => rfl
  | some w => exact congrArg some (hf w)

theorem pre_printContainer (L : PrettyLib) (v : Container) : Frees? p (fun w => printContainer L w v) := by
  intro w
  unfold printContainer
  dsimp only
  simp only [pre_tagStr, pre_tagBool, pre_writeTagValue,
    pre_ifSome (p := p) (fun (b : Build) w => pre_printBuild L w b),
    pre_ifSome (p := p) (f := fun w (b : Push) => tagStr L w "push" b.image)
      (fun (b : Push) w => pre_tagStr L w "push" b.image)]
  rw [pre_when? (fun w => pre_printSettings L w v.settings)]
  refine pre_bind fun w => ?_
  rw [pre_when? (fun w => pre_printEnviron L w v.environment)]
  refine pre_bind fun w => ?_
  simp only [pre_tagStr, pre_tagBool]
  rw [pre_when? (fun w => pre_printDeviceMounts L w v.devices)]
  refine pre_bind fun w => ?_
  rw [pre_when? (fun w => pre_printPorts L w v.ports)]
  refine pre_bind fun w => ?_
  rw [pre_ifSome (fun r w => pre_printResources L w r),
    pre_when? (fun w => pre_printVolumeMounts L w v.volumes)]
  refine pre_map fun w => ?_
  simp only [printDependsOn, pre_printConditions, pre_ite, pre_writeTagValue, pre_str]

theorem pre_printContainers (L : PrettyLib) (l : List (Option Container)) :
    Frees? p (printContainers L l) := by
  induction l with
  | nil => intro w; rfl
  | cons c cs ih =>
    intro w
    cases c with
    | none => exact ih w
    | some c =>
      unfold printContainers
      rw [pre_seq?, pre_bind ih]
      intro s
      have := pre_printContainer (p := p) L c s.inc
      dsimp only at this ⊢
      rw [pre_inc, this, map_dec_pre]

theorem pre_printVolume (L : PrettyLib) (v : Volume) : Frees p (fun w => printVolume L w v) := by
  intro w
  unfold printVolume
  refine pre_seq (fun s => ?_) w
  dsimp only
  rw [pre_inc, pre_tagStr, pre_ifSome, pre_ifSome, pre_dec]
  · intro h s
    simp only [printHostPath, pre_writeTag, pre_inc, pre_tagStr, pre_dec]
  · intro e s
    simp only [printEmptyDir, pre_writeTag, pre_inc, pre_tagStr, pre_dec, pre_str, pre_writeTagValue, pre_ite]

theorem pre_printVolumes (L : PrettyLib) (v : List (Option Volume)) :
    Frees? p (fun w => printVolumes L w v) := by
  intro w
  simp only [printVolumes, pre_writeTag]
  exact pre_eachEntry (pre_printVolume L) v _

theorem pre_printPipeline (L : PrettyLib) (v : Pipeline) : Frees? p (fun w => printPipeline L w v) := by
  intro w
  unfold printPipeline
  dsimp only
  simp only [pre_str, pre_tagStr, printPlatformDefault, printPlatform, pre_writeTag, pre_inc, pre_dec, pre_ite,
    printClone, printConcurrency, printWorkspace, pre_tagInt, pre_tagBool]
  rw [pre_when? (f := fun w => printContainers L v.steps (writeTag L w "steps"))
    (fun w => by dsimp only; rw [pre_writeTag]; exact pre_printContainers L _ _)]
  refine pre_bind fun w => ?_
  rw [pre_when? (f := fun w => printContainers L v.services (writeTag L w "services"))
    (fun w => by dsimp only; rw [pre_writeTag]; exact pre_printContainers L _ _)]
  refine pre_bind fun w => ?_
  rw [pre_when? (f := fun w => (printVolumes L w v.volumes).map (·.str "\n"))
    (fun w => by
      have := pre_printVolumes (p := p) L v.volumes w
      dsimp only at this ⊢
      rw [this]
      exact pre_map fun w => pre_str w _)]
  refine pre_map fun w => ?_
  simp only [printDependsOn, pre_printConditions, pre_ite, pre_writeTagValue, pre_str]

theorem pre_printChunks (w : Writer) (cs : List Bytes) :
    printChunks (w.pre p) cs = (printChunks w cs).pre p := by
  induction cs generalizing w with
  | nil => rfl
  | cons c cs ih => simp only [printChunks, pre_str, pre_indent, pre_bytes, ih]

theorem pre_printResource (L : PrettyLib) (r : Resource) : Frees? p (fun w => printResource L w r) := by
  intro w
  cases r with
  | pipeline v => exact pre_printPipeline L v w
  | registry v => rfl
  | cron v =>
    simp only [printResource, printCron, pre_str, pre_tagStr, pre_writeTag, pre_inc, pre_dec, pre_ite,
      Option.map_some]
  | signature v =>
    simp only [printResource, printSignature, pre_str, pre_tagStr, Option.map_some]
  | secret v =>
    simp only [printResource, printSecret, printData, printGet, pre_str, pre_tagStr, pre_writeTag, pre_inc,
      pre_dec, pre_ite, pre_printChunks, Option.map_some]

end Pretty
end Drone
