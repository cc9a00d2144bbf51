/-
C132: which files the converter converts, in the two builds and from the command line.
-/
import Verif.Model.ConvertOss
import Verif.Props.Convert
import Verif.Props.Cli

namespace Drone
open Spec Example

namespace Spec

/-- The names of the files of other systems. -/
def foreignNames : List String := ["bitbucket-pipelines.yml", ".gitlab-ci.yml"]

/-- The file is one that is to be converted: it has the name of a file of another system, or a
line `pipeline:`. -/
def ToConvert (d : Bytes) (m : Metadata) : Prop := m.filename ∈ foreignNames ∨ PipelineLine d

/-- The text of some printed manifest. -/
def Printed (L : Pretty.PrettyLib) (d : Bytes) : Prop := ∃ m, Pretty.print L m = some d

end Spec

theorem gitlab_convert_printed {L : Pretty.PrettyLib} {dg : Img.DigestLib} {it : Orders (Option Gitlab.Job)}
    {decode : Bytes → Except String Gitlab.Config} {d out : Bytes}
    (h : Gitlab.convert L dg it decode d = some (.ok out)) : Printed L out := by
  unfold Gitlab.convert at h
  cases hd : decode d with
  | error e => rw [hd] at h; simp at h
  | ok c =>
    rw [hd] at h
    dsimp only at h
    obtain ⟨ps, _, h⟩ := Option.bind_eq_some_iff.1 h
    obtain ⟨t, ht, he⟩ := Option.map_eq_some_iff.1 h
    simp at he; subst he
    exact ⟨_, ht⟩

theorem bitbucket_convert_printed {L : Pretty.PrettyLib} {g : Glob} {it : Orders (List (Option Bitbucket.Step))}
    {its : Orders (Option Bitbucket.Step)} {decode : Bytes → Except String Bitbucket.Config} {d out : Bytes}
    {ref : String} (h : Bitbucket.convert L g it its decode d ref = some (.ok out)) : Printed L out := by
  unfold Bitbucket.convert at h
  cases hd : decode d with
  | error e => rw [hd] at h; simp at h
  | ok c =>
    rw [hd] at h
    dsimp only at h
    obtain ⟨p, _, h⟩ := Option.bind_eq_some_iff.1 h
    obtain ⟨t, ht, he⟩ := Option.map_eq_some_iff.1 h
    simp at he; subst he
    exact ⟨_, ht⟩

/-- C132: a file that is to be converted is refused, crashes the converter or becomes a printed
manifest; any other file is returned. -/
theorem C132_result (X : ConvertLib) (d : Bytes) (m : Metadata) :
    (ToConvert d m → ∀ out, convert X d m = some (.ok out) → Printed X.pretty out ∧ ¬ PipelineLine out) ∧
    (¬ ToConvert d m → convert X d m = some (.ok d)) := by
  constructor
  · intro ht out h
    have hp : Printed X.pretty out := by
      unfold convert at h
      split at h
      · exact bitbucket_convert_printed h
      · rename_i h1
        split at h
        · exact gitlab_convert_printed h
        · rename_i h2
          rcases ht with ht | ht
          · simp [foreignNames, h1, h2] at ht
          · rw [if_pos ((C57_match d).2 ht)] at h
            exact legacy_convert_printed h
    obtain ⟨mf, hmf⟩ := hp
    exact ⟨⟨mf, hmf⟩, C58_printed _ _ _ hmf⟩
  · intro ht
    simp only [ToConvert, foreignNames, List.mem_cons, List.not_mem_nil, or_false, not_or] at ht
    exact C57_unchanged X d m ht.1.1 ht.1.2 ht.2

/-- C132: converting again, under a name that stands for a Drone file and in any build, changes
nothing, whatever kind of file was converted. -/
theorem C132_again (X Y : ConvertLib) (d out : Bytes) (m n : Metadata) (hn : n.filename ∉ foreignNames)
    (h : convert X d m = some (.ok out)) : convert Y out n = some (.ok out) ∧ convertOss out n = some (.ok out) := by
  refine ⟨(C132_result Y out n).2 ?_, rfl⟩
  rintro (h' | h')
  · exact hn h'
  · by_cases ht : ToConvert d m
    · exact ((C132_result X d m).1 ht out h).2 h'
    · rw [(C132_result X d m).2 ht] at h
      cases h
      exact ht (.inr h')

/-- C132: under a name that stands for a Drone file the two builds agree exactly on the files
without a line `pipeline:`. -/
theorem C132_builds_iff (X : ConvertLib) (d : Bytes) (m : Metadata) (hm : m.filename ∉ foreignNames) :
    convert X d m = convertOss d m ↔ ¬ PipelineLine d := by
  constructor
  · intro h hp
    exact ((C132_result X d m).1 (.inr hp) d h).2 hp
  · intro hp
    exact (C132_result X d m).2 (by rintro (h | h); exacts [hm h, hp h])

/-- C132: under any name the two builds agree on a file only if it is not to be converted or is a
printed manifest already. -/
theorem C132_builds (X : ConvertLib) (d : Bytes) (m : Metadata) (h : convert X d m = convertOss d m) :
    ¬ ToConvert d m ∨ (Printed X.pretty d ∧ ¬ PipelineLine d) := by
  by_cases ht : ToConvert d m
  · exact .inr ((C132_result X d m).1 ht d h)
  · exact .inl ht

/-- C132: the metadata matter only where they should. Of the file name it only matters which of the
two names it is if any, the reference matters for Bitbucket files only, and the address for legacy
files only. -/
theorem C132_metadata (X : ConvertLib) (d : Bytes) (m n : Metadata)
    (hf : ∀ f ∈ foreignNames, m.filename = f ↔ n.filename = f)
    (hr : m.filename = "bitbucket-pipelines.yml" → m.ref = n.ref)
    (hu : m.filename ∉ foreignNames → PipelineLine d → m.url = n.url) :
    convert X d m = convert X d n := by
  have h1 := hf "bitbucket-pipelines.yml" (by decide)
  have h2 := hf ".gitlab-ci.yml" (by decide)
  unfold convert
  by_cases e1 : m.filename = "bitbucket-pipelines.yml"
  · rw [if_pos e1, if_pos (h1.1 e1), hr e1]
  · rw [if_neg e1, if_neg fun h => e1 (h1.2 h)]
    by_cases e2 : m.filename = ".gitlab-ci.yml"
    · rw [if_pos e2, if_pos (h2.1 e2)]
    · rw [if_neg e2, if_neg fun h => e2 (h2.2 h)]
      by_cases e3 : Legacy.isLegacy d = true
      · rw [if_pos e3, if_pos e3, hu (by simp [foreignNames, e1, e2]) ((C57_match d).1 e3)]
      · rw [if_neg e3, if_neg e3]

open Cli in
/-- C132: the command passes on the path it was given, so a file of another system is only
converted in its own directory: by any path with a slash a GitLab or Bitbucket file without a line
`pipeline:` is printed as it is, and the command reports success. -/
theorem C132_directory (X : CliLib) (fl : Flags) (hf : fl.formatSave = false) (name : String) (hs : '/' ∈ name.toList)
    (w : World) (d : Bytes) (hd : w.files.get? name = some d) (hp : ¬ PipelineLine d) :
    runConvert X fl name w = (some (.ok ()), { w with stderr := w.stderr ++ d }) := by
  have hn : name ∉ foreignNames := by
    intro h
    simp only [foreignNames, List.mem_cons, List.not_mem_nil, or_false] at h
    rcases h with rfl | rfl
    · exact absurd hs (by decide)
    · exact absurd hs (by decide)
  have hc := (C132_result X.conv d { filename := name, url := fl.convertAddr }).2
    (by rintro (h | h); exacts [hn h, hp h])
  unfold runConvert
  simp [withFile, hd, hc, withResult, hf, toStderr]

open Cli in
/-- C132: the command passes no reference, so of a Bitbucket file it converts the pipeline for the
empty reference: the default pipeline, unless a pattern matches the empty name. -/
theorem C132_no_ref (X : CliLib) (fl : Flags) (hf : fl.formatSave = false) (w w' : World)
    (h : runConvert X fl "bitbucket-pipelines.yml" w = (some (.ok ()), w')) :
    ∃ d c p b, w.files.get? "bitbucket-pipelines.yml" = some d ∧ X.conv.decodeBitbucket d = .ok c ∧
      Bitbucket.toPipeline X.conv.glob X.conv.orderStages X.conv.orderServices c "" = some p ∧
      Pretty.print X.conv.pretty ⟨[.pipeline p]⟩ = some b ∧ OnStderr b w w' ∧
      ((∀ kv ∈ c.tags ++ c.branches, X.conv.glob kv.1 "" = false) →
        (Bitbucket.stepLoop c.image 0 c.default_).map (fun l => l.map some) = some p.steps) := by
  obtain ⟨d, b, hd, hb, ho⟩ := C65_convert_partial X fl hf _ w w' h
  unfold convert at hb
  rw [if_pos rfl] at hb
  unfold Bitbucket.convert at hb
  cases hc : X.conv.decodeBitbucket d with
  | error e => rw [hc] at hb; simp at hb
  | ok c =>
    rw [hc] at hb
    dsimp only at hb
    obtain ⟨p, hp, hb⟩ := Option.bind_eq_some_iff.1 hb
    obtain ⟨t, ht, he⟩ := Option.map_eq_some_iff.1 hb
    simp at he; subst he
    refine ⟨d, c, p, t, hd, hc, hp, ht, ho, fun hg => ?_⟩
    have hsel : c.pipeline X.conv.glob X.conv.orderStages "" = c.default_ := by
      have h1 : Bitbucket.trimPrefix "refs/tags/" "" = "" := by decide
      have h2 : Bitbucket.trimPrefix "refs/heads/" "" = "" := by decide
      unfold Bitbucket.Config.pipeline
      rw [h1, h2]
      have e1 : (X.conv.orderStages.order 0 c.tags).find? (fun kv => X.conv.glob kv.1 "") = none := by
        rw [List.find?_eq_none]
        intro kv hkv
        simp [hg kv (List.mem_append_left _ ((X.conv.orderStages.perm 0 c.tags).mem_iff.1 hkv))]
      have e2 : (X.conv.orderStages.order 1 c.branches).find? (fun kv => X.conv.glob kv.1 "") = none := by
        rw [List.find?_eq_none]
        intro kv hkv
        simp [hg kv (List.mem_append_right _ ((X.conv.orderStages.perm 1 c.branches).mem_iff.1 hkv))]
      rw [e1]; dsimp only; rw [e2]
    unfold Bitbucket.toPipeline at hp
    rw [hsel] at hp
    obtain ⟨steps, hst, hp⟩ := Option.bind_eq_some_iff.1 hp
    obtain ⟨sv, _, rfl⟩ := Option.map_eq_some_iff.1 hp
    rw [hst]; rfl

open Cli in
/-- C132: in the build with the tag `oss` the command prints every file that exists as it is; it
never fails on its content. -/
theorem C132_oss (X : CliLib) (fl : Flags) (hf : fl.formatSave = false) (name : String) (w : World) (d : Bytes)
    (hd : w.files.get? name = some d) :
    runConvertOss X fl name w = (some (.ok ()), { w with stderr := w.stderr ++ d }) := by
  unfold runConvertOss
  simp [withFile, hd, convertOss, withResult, hf, toStderr]

open Cli in
/-- C132: and the command does the same in both builds on every file that is not to be converted. -/
theorem C132_command (X : CliLib) (fl : Flags) (name : String) (w : World)
    (h : ∀ d, w.files.get? name = some d → ¬ ToConvert d { filename := name, url := fl.convertAddr }) :
    runConvert X fl name w = runConvertOss X fl name w := by
  unfold runConvert runConvertOss withFile
  cases hd : w.files.get? name with
  | none => rfl
  | some d =>
    dsimp only
    rw [(C132_result X.conv d _).2 (h d hd)]
    rfl

/-- A GitLab file given by a path with a directory is not to be converted; a legacy file is, under
every name; so is a GitLab file under its own name. -/
example : ¬ ToConvert (utf8 "build:\n  script: make\n") { filename := "ci/.gitlab-ci.yml" } ∧
    ToConvert (utf8 "build:\n  script: make\n") { filename := ".gitlab-ci.yml" } ∧
    ToConvert (utf8 "pipeline:\n  build:\n    image: go\n") { filename := "ci/.drone.yml" } := by
  refine ⟨?_, .inl (by decide), .inr ?_⟩
  · rintro (h | h)
    · exact absurd h (by decide)
    · rw [← C57_match] at h
      exact absurd h (by decide)
  · rw [← C57_match]; decide

/-- The hypothesis of `C132_no_ref` on patterns holds for a file with a pipeline for a branch
`master`, and fails for the pattern `*`. -/
example : (∀ kv ∈ ([("master", [])] : GoMap (List (Option Bitbucket.Step))),
      (fun p s => p == "*" || p == s) kv.1 "" = false) ∧
    ¬ ∀ kv ∈ ([("*", [])] : GoMap (List (Option Bitbucket.Step))),
      (fun p s => p == "*" || p == s) kv.1 "" = false := by
  constructor
  · intro kv h
    simp only [List.mem_cons, List.not_mem_nil, or_false] at h
    subst h; decide
  · intro h
    exact absurd (h ("*", []) (by simp)) (by decide)

open Cli in
/-- The command at work: the same GitLab file by a path is printed as it is, and in the other build
under its own name as well. -/
example : runConvert exCli {} "ci/.gitlab-ci.yml" { files := [("ci/.gitlab-ci.yml", utf8 "a:\n  script: x\n")] } =
      (some (.ok ()), { files := [("ci/.gitlab-ci.yml", utf8 "a:\n  script: x\n")], stderr := utf8 "a:\n  script: x\n" }) ∧
    runConvertOss exCli {} ".gitlab-ci.yml" { files := [(".gitlab-ci.yml", utf8 "a:\n  script: x\n")] } =
      (some (.ok ()), { files := [(".gitlab-ci.yml", utf8 "a:\n  script: x\n")], stderr := utf8 "a:\n  script: x\n" }) := by
  constructor
  · exact C132_directory exCli {} rfl "ci/.gitlab-ci.yml" (by decide) _ _ (by rfl)
      (by rw [← C57_match]; decide)
  · exact C132_oss exCli {} rfl _ _ _ (by rfl)

end Drone
