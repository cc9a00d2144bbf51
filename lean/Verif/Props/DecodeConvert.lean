/-
C21 (string lists) and C79-C83: what the converters read from legacy, GitLab and Bitbucket files.
-/
import Verif.Model.DecodeConvert
import Verif.Props.Decode

namespace Drone
open Yaml Spec

/-! ### C21: string lists -/

/-- C21: a scalar where a list of strings is expected is the list with that scalar; lists are read
element by element. -/
theorem C21_string_list (t : String) (r : Scalar) (l : List (String × Scalar)) (old : List String) :
    decStringSlice (.scalar t r) old = { val := [t] } ∧
    decStringSlice (.seq [.scalar t r]) old = { val := [t] } ∧
    decStringSlice (.seq (scalars l)) old = { val := l.map Prod.fst } := by
  refine ⟨rfl, rfl, ?_⟩
  simp [decStringSlice, custom, unmarshalStringSlice, decString, mismatch, decStrings, decSlice, decElems_scalars]

/-! ### C79: string forms of legacy files -/

theorem cut_append {sep : Char} {a : List Char} (b : List Char) (h : sep ∉ a) :
    cut sep (a ++ sep :: b) = some (a, b) := by
  induction a with
  | nil => simp [cut]
  | cons c a ih =>
    have hc : c ≠ sep := fun hc => h (hc ▸ List.mem_cons_self)
    have := ih fun hm => h (List.mem_cons_of_mem _ hm)
    simp [cut, hc, this]

theorem cut_none {sep : Char} {a : List Char} (h : sep ∉ a) : cut sep a = none := by
  induction a with
  | nil => rfl
  | cons c a ih =>
    have hc : c ≠ sep := fun hc => h (hc ▸ List.mem_cons_self)
    have := ih fun hm => h (List.mem_cons_of_mem _ hm)
    simp [cut, hc, this]

/-- What decoding an element of legacy `volumes` gives. -/
abbrev decLegacyVolume : Dec Legacy.Volume := custom {} unmarshalLegacyVolume

/-- C79: `source:destination` and `source:destination:mode` name the source and the destination. -/
theorem C79_volume (a b m : String) (r : Scalar) (ha : ':' ∉ a.toList) (hb : ':' ∉ b.toList) :
    decLegacyVolume (.scalar (a ++ ":" ++ b) r) {} = { val := { source := a, destination := b } } ∧
    decLegacyVolume (.scalar (a ++ ":" ++ b ++ ":" ++ m) r) {} = { val := { source := a, destination := b } } := by
  have hs : ":".toList = [':'] := rfl
  constructor
  · have : cut ':' (a ++ ":" ++ b).toList = some (a.toList, b.toList) := by
      rw [String.toList_append, String.toList_append, hs, List.append_assoc]
      exact cut_append _ ha
    simp only [decLegacyVolume, custom, unmarshalLegacyVolume, decString, this, cut_none hb]
    simp
  · have h1 : cut ':' (a ++ ":" ++ b ++ ":" ++ m).toList = some (a.toList, b.toList ++ ':' :: m.toList) := by
      simp only [String.toList_append, hs, List.append_assoc]
      exact cut_append _ ha
    have h2 : cut ':' (b.toList ++ ':' :: m.toList) = some (b.toList, m.toList) := cut_append _ hb
    simp only [decLegacyVolume, custom, unmarshalLegacyVolume, decString, h1, h2]
    simp

example : decLegacyVolume (.scalar "/var/run/docker.sock:/var/run/docker.sock:ro" .str) {} =
    { val := { source := "/var/run/docker.sock", destination := "/var/run/docker.sock" } } :=
  (C79_volume "/var/run/docker.sock" "/var/run/docker.sock" "ro" .str (by decide) (by decide)).2

/-- C79: without a colon the volume loses its path, without an error; a drive letter is taken for
the source. -/
theorem C79_volume_limits (p : String) (r : Scalar) (h : ':' ∉ p.toList) :
    decLegacyVolume (.scalar p r) {} = { val := {} } ∧
    decLegacyVolume (.scalar "C:\\src:C:\\dst" .str) {} = { val := { source := "C", destination := "\\src" } } := by
  constructor
  · simp only [decLegacyVolume, custom, unmarshalLegacyVolume, decString, cut_none h]
    rfl
  · rfl

/-- What decoding legacy `environment` gives. -/
abbrev decSliceMap : Dec (GoMap String) := custom [] unmarshalSliceMap

theorem decEntries_strings (l : List (String × String × Scalar)) (m : GoMap String) :
    decEntries "" decString (l.map fun p => (key p.1, .scalar p.2.1 p.2.2)) m =
      { val := l.foldl (fun m p => m.set p.1 p.2.1) m } := by
  induction l generalizing m with
  | nil => rfl
  | cons p l ih =>
    simp only [List.map_cons, decEntries, key, decString, List.foldl_cons] at ih ⊢
    simp only [Bool.and_self, if_true]
    rw [ih]
    rfl

theorem sliceEntries_pairs (l : List (String × String)) (h : ∀ p ∈ l, '=' ∉ p.1.toList) (m : GoMap String) :
    sliceEntries m (l.map fun p => p.1 ++ "=" ++ p.2) = l.foldl (fun m p => m.set p.1 p.2) m := by
  induction l generalizing m with
  | nil => rfl
  | cons p l ih =>
    have hc : cut '=' (p.1 ++ "=" ++ p.2).toList = some (p.1.toList, p.2.toList) := by
      have hs : "=".toList = ['='] := rfl
      rw [String.toList_append, String.toList_append, hs, List.append_assoc]
      exact cut_append _ (h p List.mem_cons_self)
    simp only [List.map_cons, sliceEntries, hc, List.foldl_cons]
    rw [ih fun q hq => h q (List.mem_cons_of_mem _ hq)]
    simp

/-- C79: environment variables given as a list of `KEY=value` mean the same as the map. -/
theorem C79_environment (l : List (String × String)) (h : ∀ p ∈ l, '=' ∉ p.1.toList) (old : GoMap String) :
    decSliceMap (.seq (scalars (l.map fun p => (p.1 ++ "=" ++ p.2, .str)))) old =
      decSliceMap (.map (l.map fun p => (key p.1, .scalar p.2 .str))) old ∧
    decSliceMap (.map (l.map fun p => (key p.1, .scalar p.2 .str))) old =
      { val := l.foldl (fun m p => m.set p.1 p.2) [] } := by
  have h2 : decSliceMap (.map (l.map fun p => (key p.1, .scalar p.2 .str))) old =
      { val := l.foldl (fun m p => m.set p.1 p.2) [] } := by
    have := decEntries_strings (l.map fun p => (p.1, p.2, Scalar.str)) []
    simp only [List.map_map, List.foldl_map] at this
    have e : decStringMap (.map (l.map fun p => (key p.1, .scalar p.2 .str))) [] =
        { val := l.foldl (fun m p => m.set p.1 p.2) [] } := this
    simp only [decSliceMap, custom, unmarshalSliceMap]
    rw [e]
    rfl
  refine ⟨?_, h2⟩
  rw [h2]
  simp only [decSliceMap, custom, unmarshalSliceMap, decStringMap, decMap, mismatch, decStrings, decSlice, decElems_scalars]
  simp only [List.map_map, Bool.true_eq_false, if_false, if_true]
  have e : List.map (Prod.fst ∘ fun p : String × String => (p.1 ++ "=" ++ p.2, Scalar.str)) l = l.map fun p => p.1 ++ "=" ++ p.2 := rfl
  rw [e, sliceEntries_pairs l h]
  rfl

/-- The value may contain `=`; the last of two entries with the same key counts. -/
example : (decSliceMap (.seq (scalars [("A=1", .str), ("B=x=y", .str), ("A=2", .str), ("C", .str)])) []).val =
    [("A", "2"), ("B", "x=y")] := by
  decide +kernel

/-- C79: a legacy secret given by its name is used under that name. -/
theorem C79_secrets (l : List (String × Scalar)) :
    custom [] unmarshalSecrets (.seq (scalars l)) [] =
      { val := l.map fun p => some { source := p.1, target := p.1 } } ∧
    (l ≠ [] → custom [] unmarshalSecrets (.seq (l.map fun p => .map [(key "source", .scalar p.1 p.2), (key "target", .scalar p.1 p.2)])) [] =
      { val := l.map fun p => some { source := p.1, target := p.1 } }) := by
  constructor
  · simp [custom, unmarshalSecrets, decStrings, decSlice, decElems_scalars]
  · intro hl
    have h1 : (decElems "" decString (l.map fun p => .map [(key "source", .scalar p.1 p.2), (key "target", .scalar p.1 p.2)])).err = true := by
      cases l with
      | nil => exact absurd rfl hl
      | cons p l => simp [decElems, decString, mismatch]
    have h2 : ∀ l : List (String × Scalar), decElems none (decPtr {} decSecretRef) (l.map fun p => .map [(key "source", .scalar p.1 p.2), (key "target", .scalar p.1 p.2)]) =
        { val := l.map fun p => some { source := p.1, target := p.1 } } := by
      intro l
      induction l with
      | nil => rfl
      | cons p l ih =>
        rw [List.map_cons, decElems, ih]
        rfl
    simp [custom, unmarshalSecrets, decStrings, decSlice, h1, h2]

/-! ### C80: legacy constraints -/

/-- C80: in legacy files every form of a constraint is read alike, also `include` and `exclude` as
a scalar (which the current format ignores, C77). -/
theorem C80_constraint (t : String) (r : Scalar) (l : List (String × Scalar)) (old : Condition) :
    decConstraint (.scalar t r) old = { val := { incl := [t] } } ∧
    decConstraint (.seq (scalars l)) old = { val := { incl := l.map Prod.fst } } ∧
    decConstraint (single "include" (.scalar t r)) old = { val := { incl := [t] } } ∧
    decConstraint (single "include" (.seq (scalars l))) old = { val := { incl := l.map Prod.fst } } ∧
    decConstraint (single "exclude" (.scalar t r)) old = { val := { excl := [t] } } ∧
    decConstraint (single "exclude" (.seq (scalars l))) old = { val := { excl := l.map Prod.fst } } := by
  have hl := fun o => (C21_string_list t r l o).2.2
  refine ⟨rfl, ?_, rfl, ?_, rfl, ?_⟩
  · simp only [decConstraint, custom, unmarshalConstraint, hl, decInclExclSlices, decStruct, mismatch]
    rfl
  · have : decInclExclSlices (single "include" (.seq (scalars l))) {} = { val := { incl := l.map Prod.fst } } := by
      simp only [decInclExclSlices, single, key, decStruct, decFields, decString, List.lookup]
      simp [field, hl]
    simp only [decConstraint, single, custom, unmarshalConstraint] at this ⊢
    rw [this]
    simp [decStringSlice, custom, unmarshalStringSlice, decString, mismatch, decStrings, decSlice]
  · have : decInclExclSlices (single "exclude" (.seq (scalars l))) {} = { val := { excl := l.map Prod.fst } } := by
      simp only [decInclExclSlices, single, key, decStruct, decFields, decString, List.lookup]
      simp [field, hl]
    simp only [decConstraint, single, custom, unmarshalConstraint] at this ⊢
    rw [this]
    simp [decStringSlice, custom, unmarshalStringSlice, decString, mismatch, decStrings, decSlice]

theorem decElems_strings_err (xs : List Node) :
    (decElems "" decString xs).err = true ↔ ∃ x ∈ xs, textOf x = none := by
  induction xs with
  | nil => simp [decElems]
  | cons x xs ih => cases x <;> simp [decElems, decString, textOf, mismatch, ih]

theorem decStringSlice_flat (n : Node) (hn : FlatList n) : (decStringSlice n []).val = listed n := by
  cases n with
  | null => rfl
  | scalar t r => rfl
  | map kvs => rfl
  | seq xs =>
    have : (decElems "" decString xs).err = false := by
      rw [← Bool.not_eq_true, decElems_strings_err]
      rintro ⟨x, hx, h⟩
      exact hn xs rfl x hx h
    simp [decStringSlice, custom, unmarshalStringSlice, decString, mismatch, decStrings, decSlice, this,
      decElems_strings, listed]

theorem decStringSlice_nested (xs : List Node) (x : Node) (hx : x ∈ xs) (h : textOf x = none) (old : List String) :
    (decStringSlice (.seq xs) old).val = old := by
  have : (decElems "" decString xs).err = true := (decElems_strings_err xs).2 ⟨x, hx, h⟩
  simp [decStringSlice, custom, unmarshalStringSlice, decString, mismatch, decStrings, decSlice, this]

theorem decConstraint_map (kvs : List (Node × Node)) (old : Condition) :
    decConstraint (.map kvs) old = { val := {
      incl := fill decStringSlice [] (valuesOf kvs "include"), excl := fill decStringSlice [] (valuesOf kvs "exclude") } } := by
  have h1 : (decInclExclSlices (.map kvs) {}).val.incl = fill decStringSlice [] (valuesOf kvs "include") :=
    fills_val (f := fun k => List.lookup k _) (get := Condition.incl) (s := {})
      (fills_table ⟨field Condition.incl (fun s v => { s with incl := v }) decStringSlice, by simp [List.lookup],
        fun _ _ => rfl⟩ (by
          repeat refine List.forall_mem_cons.mpr ⟨by first | exact fun h => absurd rfl h | exact fun _ _ _ => rfl, ?_⟩
          exact List.forall_mem_nil _)) kvs
  have h2 : (decInclExclSlices (.map kvs) {}).val.excl = fill decStringSlice [] (valuesOf kvs "exclude") :=
    fills_val (f := fun k => List.lookup k _) (get := Condition.excl) (s := {})
      (fills_table ⟨field Condition.excl (fun s v => { s with excl := v }) decStringSlice, by simp [List.lookup],
        fun _ _ => rfl⟩ (by
          repeat refine List.forall_mem_cons.mpr ⟨by first | exact fun h => absurd rfl h | exact fun _ _ _ => rfl, ?_⟩
          exact List.forall_mem_nil _)) kvs
  simp only [decConstraint, custom, unmarshalConstraint, h1, h2]
  simp [decStringSlice, custom, unmarshalStringSlice, decString, mismatch, decStrings, decSlice]

/-- C80: every constraint is read as it is meant, also with both `include` and `exclude`, as long as
no list has a list or mapping inside. -/
theorem C80_meant (n : Node) (old : Condition) (h1 : OnceEach n) (hn : FlatList n)
    (hp : ∀ kvs, n = .map kvs → ∀ v ∈ valuesOf kvs "include" ++ valuesOf kvs "exclude", FlatList v) :
    decConstraint n old = { val := meant n } := by
  have hf : ∀ l : List Node, l.length ≤ 1 → (∀ v ∈ l, FlatList v) →
      fill decStringSlice [] l = l.flatMap listed := by
    intro l hl hv
    match l, hl with
    | [], _ => rfl
    | [v], _ => simpa [fill] using decStringSlice_flat v (hv v (by simp))
  cases n with
  | null => rfl
  | scalar t r => rfl
  | seq xs =>
    have := decStringSlice_flat (.seq xs) hn
    simp only [decConstraint, custom, unmarshalConstraint, this, decInclExclSlices, decStruct, mismatch]
    rfl
  | map kvs =>
    obtain ⟨hi, he⟩ := h1 kvs rfl
    rw [decConstraint_map, hf _ hi fun v hv => hp kvs rfl v (by simp [hv]), hf _ he fun v hv => hp kvs rfl v (by simp [hv])]
    rfl

example : ∃ n, OnceEach n ∧ FlatList n ∧
    (∀ kvs, n = .map kvs → ∀ v ∈ valuesOf kvs "include" ++ valuesOf kvs "exclude", FlatList v) ∧
    meant n = { incl := ["master", "v*"], excl := ["dev"] } := by
  refine ⟨.map [(key "exclude", .scalar "dev" .str), (key "include", .seq (scalars [("master", .str), ("v*", .str)]))],
    ?_, nofun, ?_, ?_⟩
  · rintro _ ⟨⟩
    simp [valuesOf, textOf, key]
  · rintro _ ⟨⟩ v hv
    have hv : v = .seq (scalars [("master", .str), ("v*", .str)]) ∨ v = .scalar "dev" .str := by
      simpa [valuesOf, textOf, key] using hv
    rcases hv with rfl | rfl
    · rintro _ ⟨⟩ x hx
      simp only [scalars, List.map, List.mem_cons, List.not_mem_nil, or_false] at hx
      rcases hx with rfl | rfl <;> simp [textOf]
    · nofun
  · simp [meant, valuesOf, textOf, key, listed, scalars]

/-- C80: a list with a list or mapping inside is lost as a whole; the constraint is then no
restriction. -/
theorem C80_nested (g : Glob) (xs : List Node) (x : Node) (hx : x ∈ xs) (h : textOf x = none) (v : String)
    (old : Condition) :
    decConstraint (.seq xs) old = { val := {} } ∧ decConstraint (single "include" (.seq xs)) old = { val := {} } ∧
    (decConstraint (.seq xs) old).val.matches g v = true := by
  have h0 : decConstraint (.seq xs) old = { val := {} } := by
    simp only [decConstraint, custom, unmarshalConstraint, decStringSlice_nested xs x hx h, decInclExclSlices,
      decStruct, mismatch]
    rfl
  refine ⟨h0, ?_, ?_⟩
  · rw [single, decConstraint_map]
    simp [valuesOf, textOf, key, fill, decStringSlice_nested xs x hx h]
  · rw [h0]
    simp [Condition.matches, Condition.excludes, Condition.includes]

/-! ### C81: GitLab -/

/-- C81: an image given by its name is the map with that name. -/
theorem C81_image_partial (t : String) (r : Scalar) :
    custom {} unmarshalGitlabImage (.scalar t r) {} = { val := { name := t } } ∧
    custom {} unmarshalGitlabImage (single "name" (.scalar t r)) {} = { val := { name := t } } := by
  constructor <;> rfl

theorem gitlabJob_allowFailure (kvs : List (Node × Node)) :
    (decGitlabJob (.map kvs) {}).val.allowFailure = fill decBool false (valuesOf kvs "allowfailure") := by
  refine fills_val (f := fun k => List.lookup k _) (get := Gitlab.Job.allowFailure) (s := {})
    (fills_table ⟨field Gitlab.Job.allowFailure (fun s v => { s with allowFailure := v }) decBool, ?_, ?_⟩ ?_) kvs
  · simp [List.lookup]
  · exact fun _ _ => rfl
  · repeat refine List.forall_mem_cons.mpr ⟨by first | exact fun h => absurd rfl h | exact fun _ _ _ => rfl, ?_⟩
    exact List.forall_mem_nil _

/-- C81: `allow_failure` has no effect: whatever a job says there, a failure of its step fails the
build (unless the job also has the key `allowfailure`, which GitLab does not know). -/
theorem C81_allow_failure_ignored (c : Gitlab.Config) (name : String) (kvs : List (Node × Node))
    (h : valuesOf kvs "allowfailure" = []) :
    (Gitlab.jobStep c name (decGitlabJob (.map kvs) {}).val).failure = "" := by
  simp [Gitlab.jobStep, gitlabJob_allowFailure, h, fill]

example : (Gitlab.jobStep {} "test" (decGitlabJob (.map [(key "script", .scalar "make" .str),
      (key "allow_failure", .scalar "true" (.bool true))]) {}).val).failure = "" ∧
    (Gitlab.jobStep {} "test" (decGitlabJob (.map [(key "script", .scalar "make" .str),
      (key "allowfailure", .scalar "true" (.bool true))]) {}).val).failure = "ignore" := by
  exact ⟨C81_allow_failure_ignored _ _ _ (by simp [valuesOf, textOf, key]), rfl⟩

/-! ### C82: the text of legacy scalars -/

theorem rewriteEntries_map (text : Scalar → String) (l : List (Node × Node)) :
    rewriteEntries text l = l.map fun kv => (rewrite text kv.1, rewrite text kv.2) := by
  induction l with
  | nil => rfl
  | cons p l ih => obtain ⟨k, v⟩ := p; simp [rewriteEntries, ih]

/-- The text a legacy scalar has in the converted file. -/
def Spec.legacyText (text : Scalar → String) (t : String) : Scalar → String
  | .str => t
  | r => text r

theorem rewrite_scalar (text : Scalar → String) (t : String) (r : Scalar) :
    rewrite text (.scalar t r) = .scalar (Spec.legacyText text t r) r := by
  cases r <;> rfl

/-- C82: strings in the environment of a legacy step keep their text; numbers and Booleans are
written anew. -/
theorem C82_environment_partial (text : Scalar → String) (l : List (String × String × Scalar)) :
    (decLegacyContainer (rewrite text (single "environment" (.map (l.map fun p => (key p.1, .scalar p.2.1 p.2.2))))) {}).val.environment =
      l.foldl (fun (m : GoMap String) p => m.set p.1 (Spec.legacyText text p.2.1 p.2.2)) [] := by
  have h1 : rewrite text (.map (l.map fun p => (key p.1, .scalar p.2.1 p.2.2))) =
      .map ((l.map fun p => (p.1, Spec.legacyText text p.2.1 p.2.2, p.2.2)).map fun p => (key p.1, .scalar p.2.1 p.2.2)) := by
    simp only [rewrite, rewriteEntries_map, List.map_map]
    congr 1
    apply List.map_congr_left
    intro p _
    simp only [Function.comp, rewrite_scalar, key, Spec.legacyText]
  have h2 : rewrite text (single "environment" (.map (l.map fun p => (key p.1, .scalar p.2.1 p.2.2)))) =
      .map [(key "environment", rewrite text (.map (l.map fun p => (key p.1, .scalar p.2.1 p.2.2))))] := by
    simp only [single, rewrite, rewriteEntries_map, key, List.map_cons, List.map_nil]
  rw [h2, h1]
  have h3 := decEntries_strings (l.map fun p => (p.1, Spec.legacyText text p.2.1 p.2.2, p.2.2)) []
  have h4 : legacyContainerField "environment" =
      field Legacy.Container.environment (fun s v => { s with environment := v }) (custom [] unmarshalSliceMap) := by
    simp [legacyContainerField, List.lookup]
  have h5 : ∀ n, (decLegacyContainer (.map [(key "environment", n)]) {}).val.environment =
      (custom [] unmarshalSliceMap n []).val := by
    intro n
    simp only [decLegacyContainer, decStruct, decFields, key, decString, if_true, h4]
    rfl
  rw [h5]
  simp only [custom, unmarshalSliceMap, decStringMap, decMap, h3, if_true, List.foldl_map]

/-- C82: so `1.10` becomes whatever the number is written as: two spellings of a number cannot be
told apart after the conversion. -/
theorem C82_spelling_lost (text : Scalar → String) (k t t' : String) (q : Rat) :
    (decLegacyContainer (rewrite text (single "environment" (single k (.scalar t (.float q))))) {}).val.environment =
      (decLegacyContainer (rewrite text (single "environment" (single k (.scalar t' (.float q))))) {}).val.environment ∧
    (decLegacyContainer (rewrite text (single "environment" (single k (.scalar t (.float q))))) {}).val.environment =
      [(k, text (.float q))] := by
  have h := fun t => C82_environment_partial text [(k, t, .float q)]
  simp only [List.map_cons, List.map_nil] at h
  exact ⟨(h t).trans (h t').symm, (h t).trans rfl⟩

/-- The current format keeps the text. -/
theorem C82_current_format (t : String) (r : Scalar) : (decVariable (.scalar t r) {}).val.value = t := rfl

/-! ### C83: Bitbucket -/

/-- C83: a list of `step` entries is the list of the steps. -/
theorem C83_stage_partial (l : List (Node × Bitbucket.Step)) (h : ∀ p ∈ l, decPtr {} decBitbucketStep p.1 none = { val := some p.2 }) :
    decStage (.seq (l.map fun p => single "step" p.1)) [] = { val := l.map fun p => some p.2 } := by
  have he : decElems none decStageEntry (l.map fun p => single "step" p.1) = { val := l.map fun p => some p.2 } := by
    induction l with
    | nil => rfl
    | cons p l ih =>
      have h1 := ih fun q hq => h q (List.mem_cons_of_mem _ hq)
      have h2 : decStageEntry (single "step" p.1) none = { val := some p.2 } := by
        have := h p List.mem_cons_self
        simp only [decStageEntry, single, decStruct, decFields, key, decString, List.lookup]
        simp [field, this]
      rw [List.map_cons, decElems, h1, h2]
      rfl
  simp [decStage, custom, unmarshalStage, decSlice, he]

theorem stageEntry_none (kvs : List (Node × Node)) (h : valuesOf kvs "step" = []) :
    (decStageEntry (.map kvs) none).val = none ∧ (decStageEntry (.map kvs) none).good = true := by
  refine ⟨?_, decFields_good _ _ _⟩
  have := fills_val (f := fun k => List.lookup k [("step", field id (fun _ v => v) (decPtr {} decBitbucketStep))])
    (get := id) (x := "step") (d := decPtr {} decBitbucketStep) (s := none)
    ⟨⟨_, by simp [List.lookup]; rfl, fun _ _ => rfl⟩, by
      intro k g hk hf
      have : (k == "step") = false := by simpa using hk
      simp [List.lookup, this] at hf⟩ kvs
  rw [h] at this
  exact this

/-- C83: an entry without `step` (such as `parallel`) makes the converter panic, if the stage it is
in is selected. -/
theorem C83_parallel_panics (g : Glob) (it : Orders (List (Option Bitbucket.Step))) (its : Orders (Option Bitbucket.Step))
    (c : Bitbucket.Config) (ref : String) (xs : List Node) (kvs : List (Node × Node)) (hm : .map kvs ∈ xs)
    (hk : valuesOf kvs "step" = []) (he : (decStage (.seq xs) []).err = false)
    (hs : c.pipeline g it ref = (decStage (.seq xs) []).val) :
    Bitbucket.toPipeline g it its c ref = none := by
  have herr : (decSlice none decStageEntry (.seq xs) []).err = false := by
    simp only [decStage, custom, unmarshalStage] at he
    cases h : (decSlice none decStageEntry (.seq xs) []).err with
    | false => rfl
    | true => rw [h] at he; simp at he
  have hval : (decStage (.seq xs) []).val = (decElems none decStageEntry xs).val := by
    simp only [decStage, custom, unmarshalStage, herr]
    simp [decSlice]
  have hnil : none ∈ (decElems none decStageEntry xs).val := by
    clear hs he herr hval
    induction xs with
    | nil => simp at hm
    | cons x xs ih =>
      obtain ⟨h1, h2⟩ := stageEntry_none kvs hk
      rcases List.mem_cons.mp hm with rfl | hm
      · simp [decElems, h1, h2]
      · simp only [decElems]
        split
        · exact List.mem_cons_of_mem _ (ih hm)
        · exact ih hm
  have hloop : ∀ (l : List (Option Bitbucket.Step)) image i, none ∈ l → Bitbucket.stepLoop image i l = none := by
    intro l
    induction l with
    | nil => intro _ _ h; simp at h
    | cons s l ih =>
      intro image i h
      cases s with
      | none => rfl
      | some s =>
        have : none ∈ l := by simpa using h
        simp [Bitbucket.stepLoop, ih image (i + 1) this]
  rw [Bitbucket.toPipeline, hs, hval, hloop _ _ _ hnil]
  rfl

example : ∃ c, unmarshalBitbucket (.map [(key "pipelines", .map [(key "default", .seq [single "parallel" (.seq [])])])]) = .ok c ∧
    Bitbucket.toPipeline (fun _ _ => false) ⟨fun _ m => m, fun _ _ => .refl _⟩ ⟨fun _ m => m, fun _ _ => .refl _⟩ c "" = none := by
  refine ⟨_, rfl, ?_⟩
  exact C83_parallel_panics _ _ _ _ _ [single "parallel" (.seq [])] [(key "parallel", .seq [])] (List.mem_singleton.mpr rfl)
    (by simp [valuesOf, textOf, key]) rfl rfl

end Drone
