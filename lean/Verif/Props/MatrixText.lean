/-
C98: which texts and axes meet what `C98_axis` asks, in terms of the texts themselves.
-/
import Verif.Props.BlockText
import Verif.Props.MatrixTree

namespace Drone
open Legacy Spec Yaml Pretty

/-- What is asked of an axis and of the text of a pipeline. -/
structure Spec.FillableAxis (X : LegacyLib) (R : Resolver) (float : Rat → String) (emit : Yaml.Node → String)
    (axis : GoMap String) (p : Drone.Pipeline) : Prop where
  keys : axis.keys.Nodup
  /-- names are identifiers, values could stand alone and have no quotes, backslashes or dollar signs -/
  plain : PlainAxis axis
  /-- the emitter does its work: the text is read as the tree -/
  reads : Reads R (emit (encPipeline float p)) (encPipeline float p)
  /-- printable characters are not written by their codes -/
  codes : HexFree (fillString X axis (emit (encPipeline float p))).toList
  lines : TidyLines (fillString X axis (emit (encPipeline float p))).toList
  /-- texts with references do not become null, and those in settings do not become numbers or Booleans -/
  texts : ∀ s ∈ leaves (encPipeline float p), '$' ∈ s.toList →
    FillsTo R (InSettings (mapPipeline (fillString X axis) p)) (fillString X axis s)
  /-- there are no references in keys -/
  names : ∀ s ∈ Spec.names (encPipeline float p), '$' ∉ s.toList
  storable : StorablePipeline (mapPipeline (fillString X axis) p)

/-- C98.  Such an axis is one of those that `C98_axis` and `C98_manifest_partial` are about, for every
parser that reads block texts. -/
theorem C98_good (X : LegacyLib) {R : Resolver} (hR : DollarText R) {float : Rat → String} {emit : Yaml.Node → String}
    {tree : String → Except String Yaml.Node} (ht : ∀ text n, Reads R text n → tree text = .ok n) {axis : GoMap String}
    {p : Drone.Pipeline} (h : FillableAxis X R float emit axis p) : GoodAxis X float emit tree axis p := by
  refine ⟨h.keys, ?_, ?_, h.storable⟩
  · intro kv hkv he
    obtain ⟨c, t, e, _⟩ := (h.plain kv hkv).2.plain.first
    rw [he] at e
    exact absurd e (by simp)
  · obtain ⟨n, h1, h2⟩ := reads_filled h.plain hR h.reads h.codes h.lines ⟨h.texts, h.names⟩
    exact ⟨n, ht _ _ h1, h2⟩

/-- C98.  The conversion of a file with a matrix, for a library that writes texts that are read as
block texts. -/
theorem C98_text_partial (X : LegacyLib) (ram : String → Option Int) {R : Resolver} (hR : DollarText R)
    (float : Rat → String) (hf : ∀ q, float q ≠ "from_secret") (emit : Yaml.Node → String)
    (tree : String → Except String Yaml.Node) (ht : ∀ text n, Reads R text n → tree text = .ok n)
    (env : Env) (d : Bytes) (c : Config) (remote : String) (p : Drone.Pipeline) (axes : List (GoMap String))
    (hp : toPipeline X env c remote = some p) (hm : c.hasMatrix = true) (ha : parseMatrix X d = some (.ok axes))
    (steps services : List Drone.Container) (hs : p.steps = steps.map some) (hv : p.services = services.map some)
    (hg : ∀ i axis, axes[i]? = some axis → FillableAxis X R float emit axis (axisPipeline p steps services i axis)) :
    toManifest (treeLegacy X ram float emit tree) env d c remote =
      some (.ok ⟨(axes.mapIdx fun i axis =>
          storedPipeline (mapPipeline (fillString X axis) (axisPipeline p steps services i axis))).map Resource.pipeline ++
        (toSecrets c).map Resource.secret⟩) :=
  C98_manifest_partial X ram float hf emit tree env d c remote p axes hp hm ha steps services hs hv
    fun i axis hi => C98_good X hR ht (hg i axis hi)

/-! ### A case -/

theorem hexFree_of {t : List Char} (h : '\\' ∉ t) : HexFree t := fun _ _ _ _ _ _ _ _ _ hi => h (hi.subset List.mem_cons_self)

theorem fractionResolver_plain {s : String} (h : '/' ∉ s.toList) : fractionResolver.plain s = exResolver.plain s := by
  unfold fractionResolver
  simp only
  rw [dif_neg]
  rintro ⟨q, hq⟩
  rw [hq, fraction_toList] at h
  simp at h

theorem fractionResolver_dollar : DollarText fractionResolver := by
  intro s hs
  unfold fractionResolver
  simp only
  rw [dif_neg]
  · unfold exResolver
    simp only
    have ne : ∀ t : String, '$' ∉ t.toList → s ≠ t := by
      rintro t ht rfl
      exact ht hs
    rw [if_neg, if_neg (ne _ (by decide)), if_neg (ne _ (by decide)), if_neg]
    · intro hc
      exact absurd (List.all_eq_true.1 hc '$' hs) (by decide)
    · simp only [List.mem_cons, List.not_mem_nil, or_false, not_or]
      exact ⟨ne _ (by decide), ne _ (by decide), ne _ (by decide), ne _ (by decide), ne _ (by decide)⟩
  · rintro ⟨q, hq⟩
    have := fraction_chars q.num q.den '$' (by rw [← hq]; exact hs)
    exact absurd this.1 (by decide)

/-- The pipeline of the axis. -/
def exCgoAxis : Drone.Pipeline := axisPipeline exCgoPipeline [exCgoStep] [] 0 [("GO", "1.11")]

def exCgoTree : Yaml.Node := encPipeline ratText exCgoAxis

theorem fillString_blockText {X : LegacyLib} {env : GoMap String} (h : PlainAxis env) (print : Char → Bool) (n : Yaml.Node) :
    (fillString X env (blockText print n)).toList =
      ((nodeLines print 0 n).map fun l => substitute X env (lineText l)).flatMap (· ++ ['\n']) := by
  have e : (nodeLines print 0 n).flatMap (fun l => lineText l ++ ['\n']) =
      ((nodeLines print 0 n).map lineText).flatMap (· ++ ['\n']) := by rw [List.flatMap_map]
  rw [fillString, String.toList_ofList, blockText, String.toList_ofList, e, substitute_lines h, List.map_map]
  rfl

/-- The lines with the value filled in. -/
def exCgoLines : List (List Char) :=
  (nodeLines exPretty.isPrint 0 exCgoTree).map fun l => substitute (exMatrixLib {}) [("GO", "1.11")] (lineText l)

theorem exCgo_lines : ∀ l ∈ exCgoLines,
    '\\' ∉ l ∧ '\n' ∉ l ∧ ¬ ['-', '-', '-'] <+: l ∧ ¬ ['.', '.', '.'] <+: l ∧ ¬ [' ', '>'] <:+ l := by decide +kernel

theorem exCgo_leaves : ∀ s ∈ leaves exCgoTree, '$' ∈ s.toList → s = "golang:${GO}" := by decide +kernel

theorem exCgo_names : ∀ s ∈ Spec.names exCgoTree, '$' ∉ s.toList := by decide +kernel

mutual
/-- Whole numbers and keys, by computation. -/
def modestB (print : Char → Bool) : Yaml.Node → Bool
  | .null => true
  | .scalar _ (.int i) => decide (Fits64 i)
  | .scalar _ _ => true
  | .seq xs => modestListB print xs
  | .map kvs => modestEntriesB print kvs
def modestListB (print : Char → Bool) : List Yaml.Node → Bool
  | [] => true
  | x :: xs => modestB print x && modestListB print xs
def modestEntriesB (print : Char → Bool) : List (Yaml.Node × Yaml.Node) → Bool
  | [] => true
  | (.scalar t .str, v) :: kvs => decide ((inlineText print (.scalar t .str)).length ≤ 1024) && modestB print v && modestEntriesB print kvs
  | _ => false
end

mutual
theorem modestB_sound (print : Char → Bool) : ∀ n : Yaml.Node, modestB print n = true → AllScalars IntsFit n ∧ ShortKeys print n
  | .null, _ => ⟨.null, .null⟩
  | .scalar t r, h => by
    refine ⟨.scalar ?_, .scalar⟩
    cases r with
    | int i =>
      simp only [modestB, decide_eq_true_eq] at h
      exact h
    | _ => trivial
  | .seq xs, h => by
    have := modestListB_sound print xs (by simpa [modestB] using h)
    exact ⟨.seq fun x hx => (this x hx).1, .seq fun x hx => (this x hx).2⟩
  | .map kvs, h => by
    have := modestEntriesB_sound print kvs (by simpa [modestB] using h)
    exact ⟨.map (fun x hx => (this x hx).1) fun x hx => (this x hx).2.1,
      .map (fun x hx => (this x hx).2.2.1) fun x hx => (this x hx).2.2.2⟩
theorem modestListB_sound (print : Char → Bool) : ∀ xs : List Yaml.Node, modestListB print xs = true →
    ∀ x ∈ xs, AllScalars IntsFit x ∧ ShortKeys print x
  | [], _ => by simp
  | x :: xs, h => by
    simp only [modestListB, Bool.and_eq_true] at h
    exact List.forall_mem_cons.2 ⟨modestB_sound print x h.1, modestListB_sound print xs h.2⟩
theorem modestEntriesB_sound (print : Char → Bool) : ∀ xs : List (Yaml.Node × Yaml.Node), modestEntriesB print xs = true →
    ∀ x ∈ xs, AllScalars IntsFit x.1 ∧ AllScalars IntsFit x.2 ∧ ShortKey print x.1 ∧ ShortKeys print x.2
  | [], _ => by simp
  | (.scalar t .str, v) :: xs, h => by
    simp only [modestEntriesB, Bool.and_eq_true, decide_eq_true_eq] at h
    have := modestB_sound print v h.1.2
    exact List.forall_mem_cons.2 ⟨⟨.scalar trivial, this.1, ⟨h.1.1, by simp⟩, this.2⟩, modestEntriesB_sound print xs h.2⟩
  | (.scalar _ (.int _), _) :: _, h => by simp [modestEntriesB] at h
  | (.scalar _ (.bool _), _) :: _, h => by simp [modestEntriesB] at h
  | (.scalar _ (.float _), _) :: _, h => by simp [modestEntriesB] at h
  | (.null, _) :: _, h => by simp [modestEntriesB] at h
  | (.seq _, _) :: _, h => by simp [modestEntriesB] at h
  | (.map _, _) :: _, h => by simp [modestEntriesB] at h
end

/-- A manifest that is modest: `C97_library` is about it. -/
example : ∀ r ∈ exSound.resources, Modest exPretty.isPrint ratText r := by
  simp only [exSound, List.forall_mem_cons]
  refine ⟨?_, by simp⟩
  have h := modestB_sound exPretty.isPrint (encResource ratText (.pipeline { kind := "pipeline", name := "p", steps := [some
    { name := "a", image := "golang",
      environment := [("A", some { value := "1" }), ("B", some { secret := "token" })],
      settings := [("n", some { value := .int 2 })] }] })) (by decide +kernel)
  exact ⟨h.1, h.2, by unfold ShortText; decide +kernel⟩

theorem exCgo_writable : Writable fractionResolver exPretty.isPrint exCgoTree := by
  have h := modestB_sound exPretty.isPrint exCgoTree (by decide +kernel)
  exact writable_of (allScalars_and (fun _ _ h1 h2 => scalarOk_of ratText_texts h1 h2) (ok_pipeline exCgoAxis) h.1) h.2

theorem exAxis_plain : PlainAxis [("GO", "1.11")] := by
  intro kv hkv
  rw [List.mem_singleton] at hkv
  subst hkv
  refine ⟨by unfold AxisName; decide, ⟨⟨by unfold Unescaped; decide, ⟨'1', ".11".toList, by decide, by decide, by decide,
    fun h => absurd h (by decide)⟩, by decide, by decide, by decide⟩, by decide, by decide, by decide⟩⟩

/-- The axis of the file with the empty variable, written and read by a library. -/
theorem exCgo_fillable (c : Config) : FillableAxis (exMatrixLib c) fractionResolver ratText (blockText exPretty.isPrint)
    [("GO", "1.11")] exCgoAxis := by
  have hl := exCgo_lines
  have e : (fillString (exMatrixLib c) [("GO", "1.11")] (blockText exPretty.isPrint exCgoTree)).toList =
      exCgoLines.flatMap (· ++ ['\n']) := fillString_blockText exAxis_plain _ _
  refine ⟨by decide, exAxis_plain, blockText_reads _ _ exCgo_writable, ?_, ?_, ?_, exCgo_names, ?_⟩
  · show HexFree (fillString _ _ (blockText _ exCgoTree)).toList
    rw [e]
    refine hexFree_of ?_
    rw [List.mem_flatMap]
    rintro ⟨l, h1, h2⟩
    rcases List.mem_append.1 h2 with h2 | h2
    · exact (hl l h1).1 h2
    · exact absurd h2 (by decide)
  · exact ⟨exCgoLines, e, fun l h => (hl l h).2⟩
  · intro s hs hd
    rw [exCgo_leaves s hs hd, show fillString (exMatrixLib c) [("GO", "1.11")] "golang:${GO}" = "golang:1.11" from fill_image]
    have h : fractionResolver.plain "golang:1.11" = some .str := by
      rw [fractionResolver_plain (by decide)]
      rfl
    exact ⟨by rw [h]; simp, fun _ => h⟩
  · exact (exCgo_good c 0 _ rfl).storable

example : ∃ tree, GoodAxis (exMatrixLib {}) ratText (blockText exPretty.isPrint) tree [("GO", "1.11")] exCgoAxis := by
  obtain ⟨tree, ht⟩ := parser_exists fractionResolver
  exact ⟨fun s => tree (utf8 s), C98_good _ fractionResolver_dollar (fun s n h => ht s n h) (exCgo_fillable {})⟩

end Drone
