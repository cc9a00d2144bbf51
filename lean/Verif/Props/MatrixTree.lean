/-
C98: what the pipelines of a legacy file with a build matrix consist of.
-/
import Verif.Proof.FillText
import Verif.Proof.Fill
import Verif.Props.LegacySteps
import Verif.Props.Stored

namespace Drone
open Legacy Spec Yaml

theorem fillString_replaces (X : LegacyLib) (axis : GoMap String) (hv : ∀ kv ∈ axis, kv.2 ≠ "") :
    Replaces (fillString X axis) := by
  constructor
  · intro s hs
    rw [fillString, substitute_plain X axis _ hs, String.ofList_toList]
  · intro s
    constructor
    · intro h
      by_contra hs
      have h1 : s.toList ≠ [] := fun hc => hs (by rw [← String.ofList_toList (s := s), hc])
      refine substitute_ne X axis _ hv h1 ?_
      have := congrArg String.toList h
      rwa [fillString, String.toList_ofList] at this
    · rintro rfl
      rw [fillString, substitute_plain X axis _ (by decide)]
      rfl

/-- C98.  Replacing: references stand for the values of the axis, everything else stays. -/
theorem C98_references (X : LegacyLib) (axis : GoMap String) (ps : List Piece) (h : ∀ p ∈ ps, p.Tame)
    (hk : ∀ kv ∈ axis, '}' ∉ kv.1.toList) (hv : ∀ kv ∈ axis, '$' ∉ kv.2.toList ∧ '\n' ∉ kv.2.toList) :
    fillString X axis (String.ofList (ps.flatMap Piece.written)) = String.ofList (ps.flatMap (Piece.filled axis)) := by
  rw [fillString, String.toList_ofList, substitute_pieces X axis ps h hk hv]

/-- golang:${GO}-${OS} with a value for GO -/
example : fillString exLegacy [("GO", "1.11")] "golang:${GO}-${OS}" = "golang:1.11-${OS}" := by
  refine (C98_references exLegacy [("GO", "1.11")]
    [.text "golang:".toList, .ref "GO".toList, .text "-".toList, .ref "OS".toList] ?_ (by decide) (by decide)).trans ?_
  · simp only [List.forall_mem_cons, Piece.Tame]
    exact ⟨by decide, ⟨by decide, by decide⟩, by decide, ⟨by decide, by decide⟩, by simp⟩
  · decide

/-- The text that is inserted for a value: the value, or, if it has a line break, one line on which
it stands in double quotes. -/
def Spec.Inserted (value text : List Char) : Prop :=
  ('\n' ∉ value ∧ text = value) ∨
  ('\n' ∈ value ∧ '\n' ∉ text ∧ ∃ body, text = '"' :: body ∧ ∀ rest, DoubleQuoted (body ++ rest) value rest)

/-- What is inserted. -/
def insertedText (X : LegacyLib) (v : String) : String :=
  if '\n' ∈ v.toList then String.ofList (Script.quote X.pretty.isPrint v.toList) else v

theorem quote_no {isPrint : Char → Bool} {d : Char} (hd : d ∉ '"' :: '\\' :: "abfnrtvxuU".toList) (hx : ¬ Spec.isHex d)
    (s : List Char) (h : d ∉ s ∨ isPrint d = false) : d ∉ Script.quote isPrint s := by
  simp only [Script.quote, List.mem_cons, List.mem_append, List.mem_flatMap, not_or, List.not_mem_nil, not_false_eq_true,
    and_true]
  simp only [List.mem_cons, not_or] at hd
  refine ⟨hd.1, ?_, hd.1⟩
  rintro ⟨c, hc, hm⟩
  rcases quoteChar_cases isPrint c with ⟨e, h1⟩ | ⟨e, h1, _⟩ | ⟨x, t, e, _, he, ht⟩ <;> rw [e] at hm
  · simp only [List.mem_cons, List.not_mem_nil, or_false] at hm
    rcases hm with rfl | rfl
    · exact hd.2.1 rfl
    · rcases h1 with rfl | rfl
      · exact hd.1 rfl
      · exact hd.2.1 rfl
  · simp only [List.mem_singleton] at hm
    subst hm
    rcases h with h | h
    · exact h hc
    · rw [h] at h1; simp at h1
  · simp only [List.mem_cons] at hm
    rcases hm with rfl | rfl | hm
    · exact hd.2.1 rfl
    · exact hd.2.2 he
    · exact hx (ht _ hm)

theorem insertedText_spec (X : LegacyLib) (v : String) : Inserted v.toList (insertedText X v).toList := by
  unfold insertedText Inserted
  by_cases h : '\n' ∈ v.toList
  · rw [if_pos h, String.toList_ofList]
    refine .inr ⟨h, ?_, _, rfl, fun rest => flatMap_reads X.pretty v.toList rest⟩
    exact quote_no (by decide) (by unfold Spec.isHex; decide) _ (.inr X.pretty.print_nl)
  · rw [if_neg h]
    exact .inl ⟨h, rfl⟩

theorem insertedText_dollar (X : LegacyLib) (v : String) (h : '$' ∉ v.toList) : '$' ∉ (insertedText X v).toList := by
  unfold insertedText
  split
  · rw [String.toList_ofList]
    exact quote_no (by decide) (by unfold Spec.isHex; decide) _ (.inl h)
  · exact h

theorem substitute_inserted (X : LegacyLib) (env : GoMap String) (s : List Char) :
    substitute X env s = substitute X (env.map fun kv => (kv.1, insertedText X kv.2)) s := by
  induction env generalizing s with
  | nil => rfl
  | cons kv env ih =>
    have e : '\n' ∉ (insertedText X kv.2).toList := by
      rcases insertedText_spec X kv.2 with ⟨h1, h2⟩ | ⟨_, h, _⟩
      · rw [h2]; exact h1
      · exact h
    rw [List.map_cons, substitute_cons X _ _ _ _ e, ← ih]
    have e2 : (insertedText X kv.2).toList =
        if '\n' ∈ kv.2.toList then Script.quote X.pretty.isPrint kv.2.toList else kv.2.toList := by
      unfold insertedText
      split
      · exact String.toList_ofList
      · rfl
    rw [e2]
    rfl

/-- C98.  The same for values with line breaks: they are inserted in double quotes, on one line. -/
theorem C98_references_quoted (X : LegacyLib) (axis : GoMap String) (ps : List Piece) (h : ∀ p ∈ ps, p.Tame)
    (hk : ∀ kv ∈ axis, '}' ∉ kv.1.toList) (hv : ∀ kv ∈ axis, '$' ∉ kv.2.toList) :
    ∃ texts : String → String, (∀ v, Inserted v.toList (texts v).toList) ∧
      fillString X axis (String.ofList (ps.flatMap Piece.written)) =
        String.ofList (ps.flatMap (Piece.filled (axis.map fun kv => (kv.1, texts kv.2)))) := by
  refine ⟨insertedText X, insertedText_spec X, ?_⟩
  rw [fillString, String.toList_ofList, substitute_inserted, substitute_pieces X _ ps h]
  · intro kv hkv
    obtain ⟨kv, hm, rfl⟩ := List.mem_map.1 hkv
    exact hk kv hm
  · intro kv hkv
    obtain ⟨kv, hm, rfl⟩ := List.mem_map.1 hkv
    refine ⟨insertedText_dollar X _ (hv kv hm), ?_⟩
    rcases insertedText_spec X kv.2 with ⟨h1, h2⟩ | ⟨_, h, _⟩
    · rw [h2]; exact h1
    · exact h

/-- A value of two lines -/
example : fillString exLegacy [("CMD", "go build\ngo test")] "- ${CMD}" = "- \"go build\\ngo test\"" := by decide +kernel

/-- The pipeline of the axis with this number, before anything is replaced: the containers whose
matrix condition the axis meets, in the multiplicity that C70 states. -/
def Spec.axisPipeline (p : Drone.Pipeline) (steps services : List Drone.Container) (i : Nat) (axis : GoMap String) :
    Drone.Pipeline :=
  { p with
    name := "matrix-" ++ toString (i + 1)
    services := services.flatMap fun c => List.replicate (copies axis c) (some c)
    steps := steps.flatMap fun c => List.replicate (copies axis c) (some c) }

/-- The text written for a pipeline, with the references replaced, is read as the tree of the
pipeline with the references in its strings replaced.  Those in settings are still strings; others may
be read as numbers or Booleans. -/
def Spec.ReadsFilled (X : LegacyLib) (float : Rat → String) (emit : Yaml.Node → String)
    (tree : String → Except String Yaml.Node) (axis : GoMap String) (p : Drone.Pipeline) : Prop :=
  ∃ n, tree (fillString X axis (emit (encPipeline float p))) = .ok n ∧
    SameText (InSettings (mapPipeline (fillString X axis) p)) (mapNode (fillString X axis) (encPipeline float p)) n

/-- What an axis needs: different keys, no empty values, and a text that is read as it should be. -/
structure Spec.GoodAxis (X : LegacyLib) (float : Rat → String) (emit : Yaml.Node → String)
    (tree : String → Except String Yaml.Node) (axis : GoMap String) (p : Drone.Pipeline) : Prop where
  keys : axis.keys.Nodup
  values : ∀ kv ∈ axis, kv.2 ≠ ""
  reads : ReadsFilled X float emit tree axis p
  storable : StorablePipeline (mapPipeline (fillString X axis) p)

/-- The pipeline of an axis. -/
theorem C98_axis (X : LegacyLib) (ram : String → Option Int) (float : Rat → String) (hf : ∀ q, float q ≠ "from_secret")
    (emit : Yaml.Node → String) (tree : String → Except String Yaml.Node) (p : Drone.Pipeline)
    (steps services : List Drone.Container) (hs : p.steps = steps.map some) (hv : p.services = services.map some)
    (hn : p.node = []) (ht : p.trigger.matrix = []) (i : Nat) (axis : GoMap String)
    (ha : GoodAxis X float emit tree axis (axisPipeline p steps services i axis)) :
    toAxis (treeLegacy X ram float emit tree) p i axis =
      .ok (storedPipeline (mapPipeline (fillString X axis) (axisPipeline p steps services i axis))) := by
  have e : ({ p with
      name := "matrix-" ++ toString (i + 1), services := filterMatrix axis p.services,
      steps := filterMatrix axis p.steps } : Drone.Pipeline) = axisPipeline p steps services i axis := by
    unfold axisPipeline
    rw [hs, hv, C70_copies axis ha.keys, C70_copies axis ha.keys]
  unfold toAxis
  simp only [e]
  obtain ⟨n, hr, hsame⟩ := ha.reads
  have hd := rt_pipeline_into ram hf (mapPipeline (fillString X axis) (axisPipeline p steps services i axis))
    (axisPipeline p steps services i axis) ha.storable hn ht
  rw [map_pipeline (fillString_replaces X axis ha.values)] at hsame
  have hb := blind_pipeline ram float _ (fun s hs => hs) n hsame (axisPipeline p steps services i axis)
  show (tree (fillString X axis (emit _))).bind _ = _
  rw [hr]
  simp only [Except.bind, hb, hd]
  rfl

/-! ### The file -/

theorem axisPipelines_map (X : LegacyLib) (p : Drone.Pipeline) (g : Nat → GoMap String → Drone.Pipeline) (i : Nat)
    (as : List (GoMap String)) (h : ∀ j a, as[j]? = some a → toAxis X p (i + j) a = .ok (g (i + j) a)) :
    axisPipelines X p i as = .ok (as.mapIdx fun j a => g (i + j) a) := by
  induction as generalizing i with
  | nil => rfl
  | cons a as ih =>
    have h0 := h 0 a rfl
    rw [Nat.add_zero] at h0
    have ih := ih (i + 1) fun j b hb => by
      have := h (j + 1) b (by simpa using hb)
      rwa [show i + (j + 1) = i + 1 + j by omega] at this
    rw [axisPipelines, h0]
    simp only [Except.bind, ih, Except.map, List.mapIdx_cons, Nat.add_zero, Except.ok.injEq, List.cons.injEq, true_and]
    congr 1
    funext j b
    rw [show i + 1 + j = i + (j + 1) by omega]

/-- The pipeline without a matrix has no node selector and no matrix in its trigger, and no null steps. -/
theorem toPipeline_parts {X : LegacyLib} {env : Env} {c : Config} {remote : String} {p : Drone.Pipeline}
    (h : toPipeline X env c remote = some p) :
    (∃ steps : List Drone.Container, p.steps = steps.map some) ∧ (∃ services : List Drone.Container, p.services = services.map some) ∧ p.node = [] ∧
      p.trigger.matrix = [] := by
  simp only [toPipeline, Option.bind_eq_some_iff, Option.map_eq_some_iff] at h
  obtain ⟨s, _, v, _, w, _, rfl⟩ := h
  refine ⟨⟨_, rfl⟩, ⟨_, rfl⟩, rfl, ?_⟩
  simp only [toTrigger]
  split <;> rfl

/-- C98.  The conversion of a file with a matrix: the pipelines of the axes, with what `Encode` keeps
of them, and the secrets. -/
theorem C98_manifest_partial (X : LegacyLib) (ram : String → Option Int) (float : Rat → String)
    (hf : ∀ q, float q ≠ "from_secret") (emit : Yaml.Node → String) (tree : String → Except String Yaml.Node)
    (env : Env) (d : Bytes) (c : Config) (remote : String) (p : Drone.Pipeline) (axes : List (GoMap String))
    (hp : toPipeline X env c remote = some p) (hm : c.hasMatrix = true) (ha : parseMatrix X d = some (.ok axes))
    (steps services : List Drone.Container) (hs : p.steps = steps.map some) (hv : p.services = services.map some)
    (hg : ∀ i axis, axes[i]? = some axis → GoodAxis X float emit tree axis (axisPipeline p steps services i axis)) :
    toManifest (treeLegacy X ram float emit tree) env d c remote =
      some (.ok ⟨(axes.mapIdx fun i axis =>
          storedPipeline (mapPipeline (fillString X axis) (axisPipeline p steps services i axis))).map Resource.pipeline ++
        (toSecrets c).map Resource.secret⟩) := by
  obtain ⟨_, _, hn, ht⟩ := toPipeline_parts hp
  have hp' : toPipeline (treeLegacy X ram float emit tree) env c remote = some p := hp
  have ha' : parseMatrix (treeLegacy X ram float emit tree) d = some (.ok axes) := ha
  have hx := axisPipelines_map (treeLegacy X ram float emit tree) p
    (fun i axis => storedPipeline (mapPipeline (fillString X axis) (axisPipeline p steps services i axis))) 0 axes
    (fun j a hj => by
      rw [Nat.zero_add]
      exact C98_axis X ram float hf emit tree p steps services hs hv hn ht j a (hg j a hj))
  unfold toManifest
  rw [hp']
  simp only [Option.bind_some, hm, if_true, ha']
  simp only [Nat.zero_add] at hx
  simp only [Outcome.andThen, Option.bind_some, hx]

/-! ### Empty variables -/

theorem emptyEntry_map {X : LegacyLib} {axis : GoMap String} {c : Drone.Container} (h : EmptyEntry c) :
    EmptyEntry (mapContainer (fillString X axis) c) := by
  have e0 : fillString X axis "" = "" := by
    rw [fillString, substitute_plain X axis _ (by decide)]
    rfl
  rcases h with ⟨k, v, h1, h2, h3⟩ | ⟨k, v, h1, h2, h3⟩
  · refine .inl ⟨fillString X axis k, mapVariable (fillString X axis) v, ?_, ?_, ?_⟩
    · exact List.mem_map.2 ⟨_, h1, rfl⟩
    · rw [mapVariable, h2, e0]
    · rw [mapVariable, h3, e0]
  · refine .inr ⟨fillString X axis k, mapParameter (fillString X axis) v, ?_, ?_, ?_⟩
    · exact List.mem_map.2 ⟨_, h1, rfl⟩
    · rw [mapParameter, h2, e0]
    · rcases h3 with h3 | h3
      · left; rw [mapParameter, h3]; rfl
      · right; rw [mapParameter, h3]; simp [mapValue, e0]

/-- C98.  The conversion panics if a container that is kept in an axis has a variable or setting with
nothing in it. -/
theorem C98_panics (X : LegacyLib) (ram : String → Option Int) (float : Rat → String)
    (hf : ∀ q, float q ≠ "from_secret") (emit : Yaml.Node → String) (tree : String → Except String Yaml.Node)
    (env : Env) (d : Bytes) (c : Config) (remote : String) (p : Drone.Pipeline) (axes : List (GoMap String))
    (hd : X.decode (if hasMergeKeys d then X.expand d else d) = .ok c)
    (hp : toPipeline X env c remote = some p) (hm : c.hasMatrix = true)
    (ha : parseMatrix X (if hasMergeKeys d then X.expand d else d) = some (.ok axes))
    (steps services : List Drone.Container) (hs : p.steps = steps.map some) (hv : p.services = services.map some)
    (hg : ∀ i axis, axes[i]? = some axis → GoodAxis X float emit tree axis (axisPipeline p steps services i axis))
    (k : Drone.Container) (hk : k ∈ steps ∨ k ∈ services) (axis : GoMap String) (hx : axis ∈ axes)
    (hc : copies axis k ≠ 0) (hempty : EmptyEntry k) :
    Legacy.convert (treeLegacy X ram float emit tree) env d remote = none := by
  have hman := C98_manifest_partial X ram float hf emit tree env (if hasMergeKeys d then X.expand d else d) c remote p axes
    hp hm ha steps services hs hv hg
  have hd' : (treeLegacy X ram float emit tree).decode
      (if hasMergeKeys d then (treeLegacy X ram float emit tree).expand d else d) = .ok c := hd
  unfold Legacy.convert
  simp only [hd']
  have e : (treeLegacy X ram float emit tree).expand = X.expand := rfl
  rw [e, hman]
  simp only [Outcome.andThen, Option.bind_some, Option.map_eq_none_iff]
  have hmem : ∀ q, Resource.pipeline q ∈ (axes.mapIdx fun i axis =>
          storedPipeline (mapPipeline (fillString X axis) (axisPipeline p steps services i axis))).map Resource.pipeline ++
        (toSecrets c).map Resource.secret ↔ ∃ i axis, axes[i]? = some axis ∧
          q = storedPipeline (mapPipeline (fillString X axis) (axisPipeline p steps services i axis)) := by
    intro q
    simp only [List.mem_append, List.mem_map, Resource.pipeline.injEq, exists_eq_right, reduceCtorEq, and_false,
      exists_false, or_false, List.mem_mapIdx]
    constructor
    · rintro ⟨i, hi, rfl⟩
      exact ⟨i, axes[i], by simp [hi], rfl⟩
    · rintro ⟨i, a, hi, rfl⟩
      obtain ⟨h1, h2⟩ := List.getElem?_eq_some_iff.1 hi
      exact ⟨i, h1, by rw [h2]⟩
  rw [C69_panic]
  · obtain ⟨i, hi⟩ := List.mem_iff_getElem?.1 hx
    refine ⟨_, (hmem _).2 ⟨i, axis, hi, rfl⟩, fun hn => ?_⟩
    have hr : some (mapContainer (fillString X axis) k) ∈
        List.map (Option.map (mapContainer (fillString X axis))) (List.replicate (copies axis k) (some k)) := by
      rw [List.map_replicate]
      exact List.mem_replicate.2 ⟨hc, rfl⟩
    have key : ∀ l : List Drone.Container, k ∈ l → some (storedContainer (mapContainer (fillString X axis) k)) ∈
        ((l.flatMap fun c => List.replicate (copies axis c) (some c)).map (Option.map (mapContainer (fillString X axis)))).map
          (Option.map storedContainer) := by
      intro l hl
      rw [List.map_map]
      refine List.mem_map.2 ⟨some k, List.mem_flatMap.2 ⟨k, hl, List.mem_replicate.2 ⟨hc, rfl⟩⟩, rfl⟩
    have hcont : ¬ NoNilContainer (storedContainer (mapContainer (fillString X axis) k)) := by
      intro hcn
      rcases emptyEntry_map (X := X) (axis := axis) hempty with ⟨n, v, h1, h2⟩ | ⟨n, v, h1, h2⟩
      · refine hcn.environment _ (List.mem_map_of_mem h1) ?_
        exact (storedVariable_none v).2 h2
      · refine hcn.settings _ (List.mem_map_of_mem h1) ?_
        exact (storedParameter_none v).2 h2
    rcases hk with hk | hk
    · exact hcont (hn.steps _ (key steps hk))
    · exact hcont (hn.services _ (key services hk))
  · intro q hq
    obtain ⟨i, a, hi, rfl⟩ := (hmem q).1 hq
    apply goMaps_stored
    have h := (hg i a hi).storable
    intro c hc
    rcases hc with hc | hc
    · exact ⟨(h.steps c hc).settings, (h.steps c hc).environment⟩
    · exact ⟨(h.services c hc).settings, (h.services c hc).environment⟩

/-! ### A case -/

/-- A step with a reference in its image and an empty variable. -/
def exCgo : Config :=
  { pipeline := [{ name := "build", image := "golang:${GO}", environment := [("CGO_ENABLED", "")] }] }

def exCgoStep : Drone.Container :=
  { name := "build", image := "golang:${GO}", environment := [("CGO_ENABLED", some {})], pull := "if-not-exists" }

def exCgoPipeline : Drone.Pipeline := { kind := "pipeline", name := "default", steps := [some exCgoStep] }

theorem exCgo_pipeline (b : Bool) : toPipeline exLegacy {} { exCgo with hasMatrix := b } "" = some exCgoPipeline := by rfl

/-- The libraries, for a file with this content. -/
def exMatrixLib (c : Config) : LegacyLib :=
  { exLegacy with decode := fun _ => .ok c, matrixList := fun _ => .ok [[("GO", "1.11")]] }

/-- A parser that reads the pipeline of the axis, with the value filled in. -/
def exMatrixTree (_ : String) : Except String Yaml.Node :=
  .ok (encPipeline (fun _ => "2") { kind := "pipeline", name := "matrix-1", steps := [some { exCgoStep with image := "golang:1.11" }] })

theorem fill_image : fillString (exMatrixLib {}) [("GO", "1.11")] "golang:${GO}" = "golang:1.11" := by decide

theorem exCgo_mapped (c : Config) : mapPipeline (fillString (exMatrixLib c) [("GO", "1.11")])
      (axisPipeline exCgoPipeline [exCgoStep] [] 0 [("GO", "1.11")]) =
    { kind := "pipeline", name := "matrix-1", steps := [some { exCgoStep with image := "golang:1.11" }] } := by
  have h := (fillString_replaces (exMatrixLib c) [("GO", "1.11")] (by decide)).plain
  have hi : fillString (exMatrixLib c) [("GO", "1.11")] "golang:${GO}" = "golang:1.11" := fill_image
  have h0 := h "" (by decide)
  have e : axisPipeline exCgoPipeline [exCgoStep] [] 0 [("GO", "1.11")] =
      { kind := "pipeline", name := "matrix-1", steps := [some exCgoStep] } := by rfl
  rw [e]
  simp only [mapPipeline, mapContainer, exCgoStep, mapConditions, mapCondition, mapGoMap, mapVariable, List.map_cons,
    List.map_nil, Option.map_some, Option.map_none, hi, h0, h "pipeline" (by decide), h "matrix-1" (by decide),
    h "build" (by decide), h "CGO_ENABLED" (by decide), h "if-not-exists" (by decide)]

theorem exCgo_good (c : Config) : ∀ i axis, [[("GO", "1.11")]][i]? = some axis →
    GoodAxis (exMatrixLib c) (fun _ => "2") (fun _ => "") exMatrixTree axis
      (axisPipeline exCgoPipeline [exCgoStep] [] i axis) := by
  intro i axis hi
  obtain ⟨h1, h2⟩ := List.getElem?_eq_some_iff.1 hi
  have hi0 : i = 0 := by simpa using h1
  subst hi0
  simp only [List.getElem_cons_zero] at h2
  subst h2
  refine ⟨by decide, by decide, ?_, ?_⟩
  · refine ⟨_, rfl, ?_⟩
    rw [map_pipeline (fillString_replaces _ _ (by decide)), exCgo_mapped]
    exact Yaml.SameText.refl _ _
  · rw [exCgo_mapped]
    refine ⟨List.nodup_nil, by simp, ?_, List.nodup_nil, by decide, by decide, by simp⟩
    intro c hc
    have := Option.some.inj (List.mem_singleton.1 hc)
    subst this
    exact ⟨by simp [exCgoStep], by decide, by decide, by simp [exCgoStep], List.nodup_nil, by simp [exCgoStep], by simp [exCgoStep]⟩

/-- The file is converted without a matrix, and the conversion panics with one. -/
theorem C98_empty_variable (ram : String → Option Int) :
    Legacy.convert (treeLegacy (exMatrixLib exCgo) ram (fun _ => "2") (fun _ => "") exMatrixTree) {} [] "" ≠ none ∧
    Legacy.convert (treeLegacy (exMatrixLib { exCgo with hasMatrix := true }) ram (fun _ => "2") (fun _ => "") exMatrixTree)
      {} [] "" = none := by
  constructor
  · have e : toManifest (treeLegacy (exMatrixLib exCgo) ram (fun _ => "2") (fun _ => "") exMatrixTree) {} [] exCgo "" =
        some (.ok ⟨[.pipeline exCgoPipeline]⟩) := by rfl
    have hp : ∀ p, Resource.pipeline p ∈ [Resource.pipeline exCgoPipeline] → NoNilPipeline p ∧ GoMaps p := by
      intro p hp
      simp only [List.mem_singleton, Resource.pipeline.injEq] at hp
      subst hp
      refine ⟨⟨fun c h => ?_, by simp [exCgoPipeline], by simp [exCgoPipeline]⟩, fun c h => ?_⟩
      · have := Option.some.inj (List.mem_singleton.1 h)
        subst this
        exact ⟨by simp [exCgoStep], by simp [exCgoStep], by simp [exCgoStep], by simp [exCgoStep], by simp [exCgoStep]⟩
      · have := Option.some.inj (List.mem_singleton.1 (h.resolve_right (by simp [exCgoPipeline])))
        subst this
        exact ⟨by decide, by decide⟩
    intro h
    have h' : (toManifest (treeLegacy (exMatrixLib exCgo) ram (fun _ => "2") (fun _ => "") exMatrixTree) {} [] exCgo "").andThen
      (fun m => (Pretty.print exPretty m).map Except.ok) = none := h
    simp only [e, Outcome.andThen, Option.bind_some, Option.map_eq_none_iff] at h'
    obtain ⟨p, h1, h2⟩ := (C69_panic _ _ fun p h => (hp p h).2).1 h'
    exact h2 (hp p h1).1
  · refine C98_panics (exMatrixLib { exCgo with hasMatrix := true }) ram _ (by simp) _ _ {} [] { exCgo with hasMatrix := true } ""
      exCgoPipeline [[("GO", "1.11")]] rfl (exCgo_pipeline true) rfl rfl [exCgoStep] [] rfl rfl (exCgo_good _) exCgoStep
      (.inl List.mem_cons_self) _ List.mem_cons_self (by decide) (.inl ⟨"CGO_ENABLED", {}, ?_, rfl, rfl⟩)
    simp [exCgoStep]

/-! ### Values that are not read as strings -/

/-- A plugin step with a setting that is given by the axis. -/
def exPlugin (v : Value) : Drone.Pipeline :=
  { kind := "pipeline", name := "matrix-1", steps := [some { name := "deploy", settings := [("version", some { value := v })] }] }

/-- The library reads the text 1.10, which replaces the reference, as a number: the setting is the
number 1.1 and not the text of the axis. -/
theorem C98_number (X : LegacyLib) (ram : String → Option Int) (float : Rat → String) (emit : Yaml.Node → String)
    (tree : String → Except String Yaml.Node)
    (ht : tree (fillString X [("GO", "1.10")] (emit (encPipeline float (exPlugin (.str "${GO}"))))) =
      .ok (encPipeline (fun _ => "1.10") (exPlugin (.float (11 / 10))))) :
    toAxis (treeLegacy X ram float emit tree) (exPlugin (.str "${GO}")) 0 [("GO", "1.10")] =
        .ok (exPlugin (.float (11 / 10))) ∧
      fillString X [("GO", "1.10")] "${GO}" = "1.10" := by
  constructor
  · have hd := rt_pipeline_into (float := fun _ => "1.10") ram (by simp) (exPlugin (.float (11 / 10))) (exPlugin (.str "${GO}")) ?_ rfl rfl
    · show (tree (fillString X _ (emit (encPipeline float (exPlugin (.str "${GO}")))))).bind _ = _
      rw [ht]
      simp only [Except.bind]
      rw [show ({ exPlugin (.str "${GO}") with
        name := "matrix-" ++ toString (0 + 1), services := filterMatrix [("GO", "1.10")] (exPlugin (.str "${GO}")).services,
        steps := filterMatrix [("GO", "1.10")] (exPlugin (.str "${GO}")).steps } : Drone.Pipeline) =
          exPlugin (.str "${GO}") from rfl, hd]
      have e : storedPipeline (exPlugin (.float (11 / 10))) = exPlugin (.float (11 / 10)) := by
        have hn : plainNumbers (.float (11 / 10)) = .float (11 / 10) := by
          rw [plainNumbers, if_neg]
          rintro ⟨h, _⟩
          exact absurd h (by decide +kernel)
        simp [storedPipeline, exPlugin, storedContainer, storedParameter, hn]
      rw [e]
      rfl
    · refine ⟨List.nodup_nil, by simp [exPlugin], ?_, List.nodup_nil, (by decide : Fits64 0), (by decide : Fits64 0),
        by simp [exPlugin]⟩
      intro c hc
      have := Option.some.inj (List.mem_singleton.1 hc)
      subst this
      refine ⟨by simp, by simp [GoMap.keys], by simp [GoMap.keys], ?_, List.nodup_nil, by simp, by simp⟩
      intro k p hp _
      simp only [List.mem_singleton, Prod.mk.injEq, Option.some.injEq] at hp
      obtain ⟨rfl, rfl⟩ := hp
      refine ⟨?_, by rintro ⟨_, _, h, _⟩; simp at h⟩
      simp only [plainNumbers]
      split <;> trivial
  · refine (C98_references X [("GO", "1.10")] [.ref "GO".toList] ?_ (by decide) (by decide)).trans ?_
    · simp only [List.forall_mem_cons, Piece.Tame]
      exact ⟨⟨by decide, by decide⟩, by simp⟩
    · decide

end Drone
