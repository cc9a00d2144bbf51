/-
C125: what a merge key does to a step.
-/
import Verif.Props.Alias

namespace Drone
open Yaml Spec

variable {anchors : List (String × ANode)}

/-! ### One set of entries after another -/

/-- A step written in two parts, of which the second is decoded after the first: where the second
part has the key, it decides, elsewhere the first. -/
structure Spec.Overlaid (later : List (Yaml.Node × Yaml.Node)) (s first second : Container) : Prop where
  build : s.build = if valuesOf later "build" = [] then first.build else second.build
  command : s.command = if valuesOf later "command" = [] then first.command else second.command
  commands : s.commands = if valuesOf later "commands" = [] then first.commands else second.commands
  detach : s.detach = if valuesOf later "detach" = [] then first.detach else second.detach
  dependsOn : s.dependsOn = if valuesOf later "depends_on" = [] then first.dependsOn else second.dependsOn
  devices : s.devices = if valuesOf later "devices" = [] then first.devices else second.devices
  dns : s.dns = if valuesOf later "dns" = [] then first.dns else second.dns
  dnsSearch : s.dnsSearch = if valuesOf later "dns_search" = [] then first.dnsSearch else second.dnsSearch
  entrypoint : s.entrypoint = if valuesOf later "entrypoint" = [] then first.entrypoint else second.entrypoint
  extraHosts : s.extraHosts = if valuesOf later "extra_hosts" = [] then first.extraHosts else second.extraHosts
  failure : s.failure = if valuesOf later "failure" = [] then first.failure else second.failure
  image : s.image = if valuesOf later "image" = [] then first.image else second.image
  network : s.network = if valuesOf later "network_mode" = [] then first.network else second.network
  name : s.name = if valuesOf later "name" = [] then first.name else second.name
  ports : s.ports = if valuesOf later "ports" = [] then first.ports else second.ports
  privileged : s.privileged = if valuesOf later "privileged" = [] then first.privileged else second.privileged
  pull : s.pull = if valuesOf later "pull" = [] then first.pull else second.pull
  push : s.push = if valuesOf later "push" = [] then first.push else second.push
  shell : s.shell = if valuesOf later "shell" = [] then first.shell else second.shell
  user : s.user = if valuesOf later "user" = [] then first.user else second.user
  volumes : s.volumes = if valuesOf later "volumes" = [] then first.volumes else second.volumes
  workingDir : s.workingDir = if valuesOf later "working_dir" = [] then first.workingDir else second.workingDir

/-- The value left does not depend on what the value contained before. -/
def Forgets {α : Type} (d : Dec α) : Prop := ∀ n a b, (d n a).err = false → (d n a).val = (d n b).val

theorem forgets_string : Forgets decString := by
  intro n a b h; cases n <;> first | rfl | simp [decString, mismatch] at h
theorem forgets_bool : Forgets decBool := by
  intro n a b h
  cases n with
  | scalar t r => cases r <;> first | rfl | simp [decBool, mismatch] at h
  | _ => first | rfl | simp [decBool, mismatch] at h
theorem forgets_slice {α : Type} (z : α) (d : Dec α) : Forgets (decSlice z d) := by
  intro n a b h; cases n <;> first | rfl | simp [decSlice, mismatch] at h
theorem forgets_build : Forgets (decPtr {} decBuild) := by
  intro n a b h; cases n <;> rfl
theorem forgets_push : Forgets (decPtr {} decPush) := by
  intro n a b h; cases n <;> rfl

theorem valuesOf_parts (a b : List (Yaml.Node × Yaml.Node)) (k : String) : valuesOf (a ++ b) k = valuesOf a k ++ valuesOf b k := by
  simp [valuesOf]

theorem fill_parts {α : Type} (d : Dec α) (z : α) (u v : List Yaml.Node) : fill d z (u ++ v) = fill d (fill d z u) v := by
  simp [fill]

theorem fill_later {α : Type} {d : Dec α} (hf : Forgets d) (z : α) (u v : List Yaml.Node)
    (hs : Spec.Steady d) (hv : ∀ n ∈ v, (d n z).err = false) :
    fill d z (u ++ v) = if v = [] then fill d z u else fill d z v := by
  rw [fill_parts]
  cases v with
  | nil => rfl
  | cons n v =>
    rw [if_neg (by simp)]
    simp only [fill, List.foldl_cons]
    rw [hf n z (List.foldl (fun a v => (d v a).val) z u) (hv n List.mem_cons_self)]

theorem step_fits {ram : String → Option Int} {b : List (Yaml.Node × Yaml.Node)}
    (hb : (decContainer ram (.map b) {}).err = false) {k : String} {wrong : Yaml.Node → Bool}
    (hm : (k, wrong) ∈ Spec.stepWrong ram) : ∀ n ∈ valuesOf b k, wrong n = false := by
  intro n hn
  simp only [valuesOf, List.mem_map, List.mem_filter, decide_eq_true_eq] at hn
  obtain ⟨⟨k', n'⟩, ⟨h1, h2⟩, rfl⟩ := hn
  cases hw : wrong n' with
  | false => rfl
  | true =>
    have := (C78_container_refused ram b).mpr ⟨k', n', h1, .inr ⟨k, wrong, h2, hm, hw⟩⟩
    rw [hb] at this
    cases this

/-- C125: of two parts of a step the later decides, key by key. -/
theorem C125_overlaid (ram : String → Option Int) (a b : List (Yaml.Node × Yaml.Node))
    (hb : (decContainer ram (.map b) {}).err = false) :
    Spec.Overlaid b (decContainer ram (.map (a ++ b)) {}).val (decContainer ram (.map a) {}).val
      (decContainer ram (.map b) {}).val := by
  rw [C78_container, C78_container, C78_container]
  constructor
  · simp only [valuesOf_parts]
    exact fill_later forgets_build _ _ _ (by steady_auto) (step_fits hb (k := "build") (wrong := fun n => ((decPtr {} decBuild) n none).err) (by simp [Spec.stepWrong]))
  · simp only [valuesOf_parts]
    exact fill_later (forgets_slice _ _) _ _ _ (by steady_auto) (step_fits hb (k := "command") (wrong := fun n => (decStrings n []).err) (by simp [Spec.stepWrong]))
  · simp only [valuesOf_parts]
    exact fill_later (forgets_slice _ _) _ _ _ (by steady_auto) (step_fits hb (k := "commands") (wrong := fun n => (decStrings n []).err) (by simp [Spec.stepWrong]))
  · simp only [valuesOf_parts]
    exact fill_later forgets_bool _ _ _ (by steady_auto) (step_fits hb (k := "detach") (wrong := fun n => (decBool n false).err) (by simp [Spec.stepWrong]))
  · simp only [valuesOf_parts]
    exact fill_later (forgets_slice _ _) _ _ _ (by steady_auto) (step_fits hb (k := "depends_on") (wrong := fun n => (decStrings n []).err) (by simp [Spec.stepWrong]))
  · simp only [valuesOf_parts]
    exact fill_later (forgets_slice _ _) _ _ _ (by steady_auto) (step_fits hb (k := "devices") (wrong := fun n => ((decSlice none (decPtr {} decVolumeDevice)) n []).err) (by simp [Spec.stepWrong]))
  · simp only [valuesOf_parts]
    exact fill_later (forgets_slice _ _) _ _ _ (by steady_auto) (step_fits hb (k := "dns") (wrong := fun n => (decStrings n []).err) (by simp [Spec.stepWrong]))
  · simp only [valuesOf_parts]
    exact fill_later (forgets_slice _ _) _ _ _ (by steady_auto) (step_fits hb (k := "dns_search") (wrong := fun n => (decStrings n []).err) (by simp [Spec.stepWrong]))
  · simp only [valuesOf_parts]
    exact fill_later (forgets_slice _ _) _ _ _ (by steady_auto) (step_fits hb (k := "entrypoint") (wrong := fun n => (decStrings n []).err) (by simp [Spec.stepWrong]))
  · simp only [valuesOf_parts]
    exact fill_later (forgets_slice _ _) _ _ _ (by steady_auto) (step_fits hb (k := "extra_hosts") (wrong := fun n => (decStrings n []).err) (by simp [Spec.stepWrong]))
  · simp only [valuesOf_parts]
    exact fill_later forgets_string _ _ _ (by steady_auto) (step_fits hb (k := "failure") (wrong := fun n => (decString n "").err) (by simp [Spec.stepWrong]))
  · simp only [valuesOf_parts]
    exact fill_later forgets_string _ _ _ (by steady_auto) (step_fits hb (k := "image") (wrong := fun n => (decString n "").err) (by simp [Spec.stepWrong]))
  · simp only [valuesOf_parts]
    exact fill_later forgets_string _ _ _ (by steady_auto) (step_fits hb (k := "network_mode") (wrong := fun n => (decString n "").err) (by simp [Spec.stepWrong]))
  · simp only [valuesOf_parts]
    exact fill_later forgets_string _ _ _ (by steady_auto) (step_fits hb (k := "name") (wrong := fun n => (decString n "").err) (by simp [Spec.stepWrong]))
  · simp only [valuesOf_parts]
    exact fill_later (forgets_slice _ _) _ _ _ (by steady_auto) (step_fits hb (k := "ports") (wrong := fun n => ((decSlice none (decPtr {} decPort)) n []).err) (by simp [Spec.stepWrong]))
  · simp only [valuesOf_parts]
    exact fill_later forgets_bool _ _ _ (by steady_auto) (step_fits hb (k := "privileged") (wrong := fun n => (decBool n false).err) (by simp [Spec.stepWrong]))
  · simp only [valuesOf_parts]
    exact fill_later forgets_string _ _ _ (by steady_auto) (step_fits hb (k := "pull") (wrong := fun n => (decString n "").err) (by simp [Spec.stepWrong]))
  · simp only [valuesOf_parts]
    exact fill_later forgets_push _ _ _ (by steady_auto) (step_fits hb (k := "push") (wrong := fun n => ((decPtr {} decPush) n none).err) (by simp [Spec.stepWrong]))
  · simp only [valuesOf_parts]
    exact fill_later forgets_string _ _ _ (by steady_auto) (step_fits hb (k := "shell") (wrong := fun n => (decString n "").err) (by simp [Spec.stepWrong]))
  · simp only [valuesOf_parts]
    exact fill_later forgets_string _ _ _ (by steady_auto) (step_fits hb (k := "user") (wrong := fun n => (decString n "").err) (by simp [Spec.stepWrong]))
  · simp only [valuesOf_parts]
    exact fill_later (forgets_slice _ _) _ _ _ (by steady_auto) (step_fits hb (k := "volumes") (wrong := fun n => ((decSlice none (decPtr {} decVolumeMount)) n []).err) (by simp [Spec.stepWrong]))
  · simp only [valuesOf_parts]
    exact fill_later forgets_string _ _ _ (by steady_auto) (step_fits hb (k := "working_dir") (wrong := fun n => (decString n "").err) (by simp [Spec.stepWrong]))

/-! ### Maps and conditions are united -/

theorem decEntries_get {α : Type} (z : α) (d : Dec α) (kvs : List (Yaml.Node × Yaml.Node)) (m : GoMap α) (x : String) :
    (decEntries z d kvs m).val.get? x = ((decEntries z d kvs []).val.get? x).or (m.get? x) := by
  induction kvs generalizing m with
  | nil => simp [decEntries]
  | cons p kvs ih =>
    obtain ⟨k, v⟩ := p
    simp only [decEntries]
    split
    · rw [ih, ih (GoMap.set [] _ _), GoMap.get?_set, GoMap.get?_set]
      cases (decEntries z d kvs []).val.get? x with
      | some _ => rfl
      | none => simp only [Option.none_or]; split <;> simp
    · exact ih m

theorem fill_map_get {α : Type} (z : α) (d : Dec α) (vs : List Yaml.Node) (hn : .null ∉ vs) (m : GoMap α) (x : String) :
    (fill (decMap z d) m vs).get? x = ((fill (decMap z d) [] vs).get? x).or (m.get? x) := by
  induction vs generalizing m with
  | nil => simp [fill]
  | cons n vs ih =>
    have hn' : .null ∉ vs := fun h => hn (List.mem_cons_of_mem _ h)
    have e : ∀ o : GoMap α, fill (decMap z d) o (n :: vs) = fill (decMap z d) (decMap z d n o).val vs := fun o => rfl
    rw [e, e, ih hn', ih hn' (decMap z d n []).val]
    cases n with
    | null => simp at hn
    | map kvs =>
      simp only [decMap]
      rw [decEntries_get z d kvs m x, Option.or_assoc]
    | scalar t r => simp [decMap, mismatch]
    | seq xs => simp [decMap, mismatch]

/-- C125: the variables and settings of the two parts are united; a variable that both give is the
later one. -/
theorem C125_environment (ram : String → Option Int) (a b : List (Yaml.Node × Yaml.Node))
    (hb : .null ∉ valuesOf b "environment") (hs : .null ∉ valuesOf b "settings") (x : String) :
    (decContainer ram (.map (a ++ b)) {}).val.environment.get? x =
      ((decContainer ram (.map b) {}).val.environment.get? x).or
        ((decContainer ram (.map a) {}).val.environment.get? x) ∧
    (decContainer ram (.map (a ++ b)) {}).val.settings.get? x =
      ((decContainer ram (.map b) {}).val.settings.get? x).or
        ((decContainer ram (.map a) {}).val.settings.get? x) := by
  rw [C78_container, C78_container, C78_container]
  simp only [valuesOf_parts, fill_parts]
  exact ⟨fill_map_get _ _ _ hb _ _, fill_map_get _ _ _ hs _ _⟩

/-- C125: an empty `environment:` in the later part drops the variables of the first. -/
theorem C125_environment_reset (ram : String → Option Int) (a b : List (Yaml.Node × Yaml.Node)) (c : List Yaml.Node)
    (hb : valuesOf b "environment" = .null :: c) :
    (decContainer ram (.map (a ++ b)) {}).val.environment = (decContainer ram (.map b) {}).val.environment := by
  rw [C78_container, C78_container]
  simp only [valuesOf_parts, fill_parts, hb]
  rfl

theorem decFields_parts {σ : Type} (f : String → Option (Field σ)) (a b : List (Yaml.Node × Yaml.Node)) (s : σ) :
    (decFields f (a ++ b) s).val = (decFields f b (decFields f a s).val).val := by
  induction a generalizing s with
  | nil => rfl
  | cons p a ih =>
    obtain ⟨k, v⟩ := p
    simp only [List.cons_append, decFields]
    split
    · split
      · exact ih s
      · simp only [ih]
    · exact ih s

/-- C125: the conditions of the two parts are read as one section. -/
theorem C125_when (ram : String → Option Int) (a b wa wb : List (Yaml.Node × Yaml.Node))
    (ha : valuesOf a "when" = [.map wa]) (hb : valuesOf b "when" = [.map wb]) :
    (decContainer ram (.map (a ++ b)) {}).val.cond = (decConditions (.map (wa ++ wb)) {}).val := by
  rw [C78_container]
  simp only [valuesOf_parts, ha, hb, fill, List.cons_append, List.nil_append, List.foldl_cons, List.foldl_nil]
  simp only [decConditions, decStruct]
  exact (decFields_parts _ wa wb ({} : Conditions)).symm

/-! ### Merge keys -/

theorem denotes_append {p q : List (ANode × ANode)} {a b : List (Yaml.Node × Yaml.Node)}
    (hp : DenotesEntries anchors p a) (hq : DenotesEntries anchors q b) : DenotesEntries anchors (p ++ q) (a ++ b) := by
  induction p generalizing a with
  | nil => cases hp; exact hq
  | cons e p ih =>
    cases hp with
    | pair hk h1 h2 h3 => exact .pair hk h1 h2 (ih h3)
    | merge h1 h2 => rw [List.append_assoc]; exact .merge h1 (ih h2)
    | mergeList h1 h2 => rw [List.append_assoc]; exact .mergeList h1 (ih h2)

/-- C125: a map with a merge key at the beginning: what is merged is the first part, and the keys that
are written the second. -/
theorem C125_merge_first {m : ANode} {es : List (ANode × ANode)} {a b : List (Yaml.Node × Yaml.Node)}
    (hm : Denotes anchors m (.map a)) (he : DenotesEntries anchors es b) :
    expandDoc anchors (.map ((.mark, m) :: es)) = some (.map (a ++ b)) :=
  (C125_expand ..).mpr (.map (.merge hm he))

/-- C125: a map with a merge key at the end: what is merged is the second part. -/
theorem C125_merge_last {m : ANode} {es : List (ANode × ANode)} {a b : List (Yaml.Node × Yaml.Node)}
    (hm : Denotes anchors m (.map a)) (he : DenotesEntries anchors es b) :
    expandDoc anchors (.map (es ++ [(.mark, m)])) = some (.map (b ++ a)) := by
  refine (C125_expand ..).mpr (.map (denotes_append he ?_))
  have := DenotesEntries.merge hm (.nil (anchors := anchors))
  rwa [List.append_nil] at this

/-- C125: a list of maps at a merge key: the earlier maps decide. -/
theorem C125_merge_list {m m' : ANode} {es : List (ANode × ANode)} {a a' b : List (Yaml.Node × Yaml.Node)}
    (hm : Denotes anchors m (.map a)) (hm' : Denotes anchors m' (.map a')) (he : DenotesEntries anchors es b) :
    expandDoc anchors (.map ((.mark, .seq [m, m']) :: es)) = some (.map (a' ++ a ++ b)) := by
  refine (C125_expand ..).mpr (.map ?_)
  have := DenotesEntries.mergeList (.cons hm (.cons hm' .nil)) he
  simpa using this

/-- What the merge key of YAML is defined to do: a key that is written counts, wherever it is. -/
def Spec.WrittenKeysCount : Prop :=
  ∀ (anchors : List (String × ANode)) (p q : List (Yaml.Node × Yaml.Node)) (x : String) (n : Yaml.Node) (ram : String → Option Int),
    expandDoc anchors (.map (Spec.bareEntries p ++ (.mark, .ref x) :: Spec.bareEntries q)) = some n →
    (decContainer ram n {}).err = false →
    valuesOf (p ++ q) "privileged" ≠ [] →
      (decContainer ram n {}).val.privileged = (decContainer ram (.map (p ++ q)) {}).val.privileged

/-- The step `{privileged: false, <<: *base}` with `base: &base {privileged: true}` -/
def Spec.lateMerge : ANode :=
  .map (Spec.bareEntries [(.scalar "privileged" .str, .scalar "false" (.bool false))] ++ [(.mark, .ref "base")])

/-- C125: it does not: a merge key that comes after a key overrides it. -/
theorem C125_written_keys_do_not_count : ¬ Spec.WrittenKeysCount := by
  intro h
  have g := h [("base", Spec.bare (.map [(.scalar "privileged" .str, .scalar "true" (.bool true))]))]
    [(.scalar "privileged" .str, .scalar "false" (.bool false))] [] "base"
    (.map [(.scalar "privileged" .str, .scalar "false" (.bool false)), (.scalar "privileged" .str, .scalar "true" (.bool true))])
    (fun _ => none)
    (C125_merge_last (b := [_]) (.ref rfl (denotes_plain _)) (denotes_plainEntries _)) (by decide)
    (by simp [valuesOf, textOf])
  revert g
  decide

/-- C125: it does, if every merge key of a step comes before the keys that are written. -/
theorem C125_written_keys_count (ram : String → Option Int) {m : ANode} {es : List (ANode × ANode)}
    {a b : List (Yaml.Node × Yaml.Node)} (hm : Denotes anchors m (.map a)) (he : DenotesEntries anchors es b)
    (hb : (decContainer ram (.map b) {}).err = false) :
    ∃ n, expandDoc anchors (.map ((.mark, m) :: es)) = some n ∧
      Spec.Overlaid b (decContainer ram n {}).val (decContainer ram (.map a) {}).val (decContainer ram (.map b) {}).val :=
  ⟨_, C125_merge_first hm he, C125_overlaid ram a b hb⟩

theorem fills_Conditions_branch : Spec.Fills (fun k => conditionsFields.lookup k) "branch" Conditions.branch decCondition :=
  fills_table ⟨_, by simp [conditionsFields, List.lookup]; rfl, fun _ _ => rfl⟩ (by fills_others conditionsFields)

/-- C125: a branch given as a name keeps the exclusions of the merged section, so that a step whose
`when` reads `branch: master` may never run. -/
theorem C125_exclusions_stay (ram : String → Option Int) (a b wa wb : List (Yaml.Node × Yaml.Node))
    (ha : valuesOf a "when" = [.map wa]) (hb : valuesOf b "when" = [.map wb]) {c : Yaml.Node} {t : String} {r : Scalar}
    (hc : valuesOf wa "branch" = [c]) (ht : valuesOf wb "branch" = [.scalar t r]) :
    (decContainer ram (.map (a ++ b)) {}).val.cond.branch =
      { incl := [t], excl := (decConditions (.map wa) {}).val.branch.excl } := by
  rw [C125_when ram a b wa wb ha hb, decConditions, decStruct,
    fills_val fills_Conditions_branch (wa ++ wb) {}, valuesOf_parts, hc, ht, decStruct,
    fills_val fills_Conditions_branch wa {}, hc]
  rfl

/-- `base: &base {image: golang, commands: [go build], environment: {A: "1", B: "1"}, when: {branch: {exclude: [master]}}}` -/
def mergeBase : List (Yaml.Node × Yaml.Node) :=
  [(.scalar "image" .str, .scalar "golang" .str),
    (.scalar "commands" .str, .seq [.scalar "go build" .str]),
    (.scalar "environment" .str, .map [(.scalar "A" .str, .scalar "1" .str), (.scalar "B" .str, .scalar "1" .str)]),
    (.scalar "when" .str, .map [(.scalar "branch" .str, .map [(.scalar "exclude" .str, .seq [.scalar "master" .str])])])]

/-- `{<<: *base, commands: [go test], environment: {B: "2"}, when: {branch: master}}` -/
def mergeStep : List (Yaml.Node × Yaml.Node) :=
  [(.scalar "commands" .str, .seq [.scalar "go test" .str]),
    (.scalar "environment" .str, .map [(.scalar "B" .str, .scalar "2" .str)]),
    (.scalar "when" .str, .map [(.scalar "branch" .str, .scalar "master" .str)])]

/-- The step has the image of the base, its own commands, both variables, and a condition that includes
and excludes the same branch. -/
example : ∃ n, expandDoc [("base", Spec.bare (.map mergeBase))] (.map ((.mark, .ref "base") :: Spec.bareEntries mergeStep)) = some n ∧
    (decContainer (fun _ => none) n {}).err = false ∧
    (decContainer (fun _ => none) n {}).val =
      { image := "golang"
        commands := ["go test"]
        environment := [("A", some { value := "1" }), ("B", some { value := "2" })]
        cond := { branch := { incl := ["master"], excl := ["master"] } } } :=
  ⟨.map (mergeBase ++ mergeStep),
    C125_merge_first (.ref rfl (denotes_plain (.map mergeBase))) (denotes_plainEntries mergeStep), by decide +kernel,
    rfl⟩

example : (decContainer (fun _ => none) (.map mergeStep) {}).err = false ∧ .null ∉ valuesOf mergeStep "environment" ∧
    valuesOf mergeBase "when" = [.map [(.scalar "branch" .str, .map [(.scalar "exclude" .str, .seq [.scalar "master" .str])])]] := by
  refine ⟨by decide +kernel, ?_, ?_⟩ <;> simp [valuesOf, mergeStep, mergeBase, textOf]

/-- C125: a document is decoded to what its tree is, and refused exactly if it stands for no tree or
its tree is refused. -/
theorem C125_document (ram : String → Option Int) (t : ResType) (anchors : List (String × ANode)) (doc : ANode) (r : Resource) :
    unmarshalAliased ram t anchors doc = .ok r ↔
      ∃ n, Denotes anchors doc n ∧ unmarshalResource ram t n = .ok r := by
  simp only [unmarshalAliased, ← C125_expand]
  cases expandDoc anchors doc <;> simp

/-- C125: two documents that stand for the same tree are read the same, as any kind of resource. -/
theorem C125_same (ram : String → Option Int) (t : ResType) {anchors anchors' : List (String × ANode)} {doc doc' : ANode}
    {n : Yaml.Node} (h : Denotes anchors doc n) (h' : Denotes anchors' doc' n) :
    unmarshalAliased ram t anchors doc = unmarshalAliased ram t anchors' doc' := by
  simp only [unmarshalAliased, (C125_expand ..).mpr h, (C125_expand ..).mpr h']

end Drone
