/- C43 (image names) and C44 (privileged whitelisting). -/
import Verif.Model.Dind
import Verif.Proof.Image

namespace Drone
open Img

/-- The hash algorithms and the number of hexadecimal digits of their digests. -/
def shaAlgs : List (Str × Nat) :=
  [("sha256".toList, 64), ("sha384".toList, 96), ("sha512".toList, 128)]

/-- `digest.Parse` with sha256, sha384 and sha512 linked in. -/
def shaOk (s : Str) : Bool :=
  match splitFirst ':' s with
  | some (a, e) => shaAlgs.contains (a, e.length) && e.all isHexL
  | none => false

theorem shaOk_spec {s : Str} (h : shaOk s = true) : ∃ a e, s = a ++ ':' :: e ∧
    a ∈ shaAlgs.map Prod.fst ∧ ∀ c ∈ e, isHexL c = true := by
  unfold shaOk at h
  split at h
  · rename_i a e he
    obtain ⟨rfl, _⟩ := splitFirst_some.mp he
    simp only [Bool.and_eq_true, List.all_eq_true, List.contains_iff_mem] at h
    exact ⟨a, e, rfl, List.mem_map.mpr ⟨_, h.1, rfl⟩, h.2⟩
  · simp at h

theorem shaAlgs_chars : ∀ a ∈ shaAlgs.map Prod.fst, '/' ∉ a ∧ '@' ∉ a ∧ ∀ c ∈ a, c.toLower = c := by
  decide

/-- Digests as accepted with sha256, sha384 and sha512 linked in: the parameter of
the theorems below can be met. -/
def shaDigests : DigestLib where
  ok := shaOk
  noSlash s h hm := by
    obtain ⟨a, e, rfl, ha, he⟩ := shaOk_spec h
    rcases List.mem_append.mp hm with hm | hm
    · exact (shaAlgs_chars a ha).1 hm
    · rcases List.mem_cons.mp hm with hm | hm
      · revert hm; decide
      · exact absurd (he _ hm) (by decide)
  noAt s h hm := by
    obtain ⟨a, e, rfl, ha, he⟩ := shaOk_spec h
    rcases List.mem_append.mp hm with hm | hm
    · exact (shaAlgs_chars a ha).2.1 hm
    · rcases List.mem_cons.mp hm with hm | hm
      · revert hm; decide
      · exact absurd (he _ hm) (by decide)
  lowerAlg s h := by
    obtain ⟨a, e, rfl, ha, he⟩ := shaOk_spec h
    exact ⟨a, e, rfl, (shaAlgs_chars a ha).2.2⟩

/-! ### C43 -/

/-- C43: expanding is idempotent. -/
theorem C43_expand_idempotent (dg : DigestLib) (s : String) :
    expand dg (expand dg s) = expand dg s := expand_idem dg s

/-- C43: tag matching is equality of expansions, hence an equivalence relation. -/
theorem C43_matchTag_equivalence (dg : DigestLib) :
    Equivalence (fun a b => matchTag dg a b = true) := by
  constructor
  · intro a; simp [matchTag]
  · intro a b h; simp only [matchTag, decide_eq_true_eq] at h ⊢; exact h.symm
  · intro a b c h1 h2; simp only [matchTag, decide_eq_true_eq] at h1 h2 ⊢; exact h1.trans h2

/-- C43: matching one image by name is an equivalence relation. -/
theorem C43_match_equivalence (dg : DigestLib) :
    Equivalence (fun a b => matchName dg a [b] = true) := by
  constructor
  · intro a; simp [matchName]
  · intro a b h; simp [matchName] at h ⊢; exact h.symm
  · intro a b c h1 h2; simp [matchName] at h1 h2 ⊢; exact h1.trans h2

/-- C43: matching a list is matching one of its members. -/
theorem C43_match_list (dg : DigestLib) (a : String) (bs : List String) :
    matchName dg a bs = true ↔ ∃ b ∈ bs, matchName dg a [b] = true := by
  simp [matchName]

/-- C43: an image always matches its own expansion by tag and by name, and images
that match by tag match by name. -/
theorem C43_match_expand (dg : DigestLib) (a b : String) :
    matchTag dg a (expand dg a) = true ∧ matchName dg a [expand dg a] = true ∧
    (matchTag dg a b = true → matchName dg a [b] = true) := by
  refine ⟨?_, ?_, ?_⟩
  · simp [matchTag, expand_idem]
  · simp [matchName, trim_expand]
  · intro h
    simp only [matchTag, decide_eq_true_eq] at h
    simp [matchName, trim_eq_of_expand_eq h]

namespace Img

theorem splitTag_snoc {t : Str} (ht : '/' ∉ t) : ∀ {s : Str}, splitTag s = (s, none) →
    splitTag (s ++ ':' :: t) = (s, some t)
  | [], _ => by simp [splitTag, ht]
  | c :: cs, h => by
    unfold splitTag at h
    split at h
    · simp at h
    · rename_i hc
      simp only [Prod.mk.injEq, List.cons.injEq, true_and] at h
      show splitTag (c :: (cs ++ ':' :: t)) = _
      unfold splitTag
      have hc' : ¬ (c = ':' ∧ '/' ∉ cs ++ ':' :: t) := by
        rintro ⟨h1, h2⟩
        exact hc ⟨h1, fun hm => h2 (by simp [hm])⟩
      rw [if_neg hc', splitTag_snoc ht (s := cs) (by rw [← h.2]; exact Prod.ext h.1 rfl)]

theorem splitDomain0_snoc {s t : Str} (ht : '/' ∉ t) :
    splitDomain0 (s ++ ':' :: t) = ((splitDomain0 s).1, (splitDomain0 s).2 ++ ':' :: t) := by
  unfold splitDomain0
  cases h : splitFirst '/' s with
  | none =>
    have : splitFirst '/' (s ++ ':' :: t) = none := by
      rw [splitFirst_none] at h ⊢
      simp [h, ht]
    rw [this]
  | some p =>
    obtain ⟨a, b⟩ := p
    obtain ⟨rfl, ha⟩ := splitFirst_some.mp h
    have : splitFirst '/' ((a ++ '/' :: b) ++ ':' :: t) = some (a, b ++ ':' :: t) :=
      splitFirst_some.mpr ⟨by simp, ha⟩
    rw [this]
    simp only
    split <;> simp

theorem splitDockerDomain_snoc {s t : Str} (ht : '/' ∉ t) :
    splitDockerDomain (s ++ ':' :: t) =
      ((splitDockerDomain s).1, (splitDockerDomain s).2 ++ ':' :: t) := by
  unfold splitDockerDomain
  rw [splitDomain0_snoc ht]
  simp only
  have : ('/' ∉ (splitDomain0 s).2 ++ ':' :: t) ↔ '/' ∉ (splitDomain0 s).2 := by
    simp [ht]
  simp only [this]
  split <;> split <;> simp

/-- Adding a tag to a bare name only adds the tag to the parsed reference. -/
theorem parseNormalized_snoc {dg : DigestLib} {s t : Str} {r : Ref}
    (h : parseNormalized dg s = some r) (h1 : r.tag = none) (h2 : r.digest = none)
    (ht : isTag t = true) :
    parseNormalized dg (s ++ ':' :: t) = some { r with tag := some t } := by
  have hns := (isTag_no ht).2
  have hna := (isTag_no ht).1
  have hid : isIdent (s ++ ':' :: t) = false := by
    cases hh : isIdent (s ++ ':' :: t) with
    | false => rfl
    | true =>
      simp only [isIdent, Bool.and_eq_true, List.all_eq_true] at hh
      exact absurd (hh.2 ':' (by simp)) (by decide)
  unfold parseNormalized at h ⊢
  rw [hid, splitDockerDomain_snoc hns]
  simp only [Bool.false_eq_true, if_false] at h ⊢
  split at h
  · simp at h
  · split at h
    · simp at h
    · rename_i hlow
      obtain ⟨es, hn, hl, _, _⟩ := parse_some h
      have es' : (splitDockerDomain s).1 ++ '/' :: (splitDockerDomain s).2 = r.name := by
        rw [es, Ref.str, h1, h2]; simp [tagSuffix, digestSuffix]
      have hparse := h
      unfold parse at hparse
      simp only at hparse
      have hc : ':' ∉ (splitDockerDomain s).2 := by
        obtain ⟨hs1, _⟩ := splitDockerDomain_shape s
        rw [← es'] at hn
        exact (isPath_no (splitName_rest hs1 hn).2).2
      have hlow2 : remoteName ((splitDockerDomain s).2 ++ ':' :: t) =
          remoteName (splitDockerDomain s).2 := by
        unfold remoteName
        have e : splitFirst ':' ((splitDockerDomain s).2 ++ ':' :: t) =
          some ((splitDockerDomain s).2, t) := splitFirst_some.mpr ⟨rfl, hc⟩
        rw [e, splitFirst_none.mpr hc]
      rw [hlow2, if_neg hlow]
      have hat : '@' ∉ r.name := by
        obtain ⟨hs1, _⟩ := splitDockerDomain_shape s
        rw [← es'] at hn ⊢
        obtain ⟨ha, hp⟩ := splitName_rest hs1 hn
        simp [ha, (isPath_no hp).1]
      have e1 : splitDigest ((splitDockerDomain s).1 ++ '/' :: ((splitDockerDomain s).2 ++ ':' :: t)) =
          (r.name ++ ':' :: t, none) := by
        have := splitDigest_append (t := r.name ++ ':' :: t) (by simp [hat, hna]) none
        simp only [digestSuffix, List.append_nil] at this
        rw [← this, ← es']; simp
      have e2 : splitTag (r.name ++ ':' :: t) = (r.name, some t) := by
        obtain ⟨hs1, _⟩ := splitDockerDomain_shape s
        have := splitTag_append hc (some t) (by intro x hx; cases hx; exact hns) (splitDockerDomain s).1
        rw [← es']
        simpa [tagSuffix] using this
      unfold parse
      rw [e1]
      simp only
      rw [e2]
      simp only
      rw [hn]
      simp [ht, hl]
      rw [← h2]

end Img

/-- C43: name matching ignores tags.  If `n` is a valid image name without tag and
digest and `t` a valid tag, `n:t` has the same short name, so both match the same
names.  (`n:t` must not happen to be a digest such as `sha256:...`.) -/
theorem C43_trim_ignores_tag (dg : DigestLib) (n t : Str) (r : Ref)
    (hn : named dg n = some r) (h1 : r.tag = none) (h2 : r.digest = none)
    (ht : isTag t = true) (hd : dg.ok (n ++ ':' :: t) = false) :
    trimL dg (n ++ ':' :: t) = trimL dg n := by
  have hcanon := canon_of_named hn
  -- what `named` says about `n`
  have hp : parseNormalized dg n = some r := by
    unfold named parseAnyStr at hn
    split at hn
    · simp at hn
    · rename_i u hu
      split at hu
      · rename_i hid
        -- an identifier prints as a digest, which is not a canonical name
        exfalso
        simp only [Option.some.injEq] at hu
        subst hu
        unfold parseNamed at hn
        split at hn
        · simp at hn
        · rename_i r' _
          split at hn
          · rename_i e
            have hs : '/' ∈ "sha256:".toList ++ n := by
              simp only [Option.some.injEq] at hn
              subst hn
              obtain ⟨⟨_, _, x, y, ex, _⟩, _, _⟩ := hcanon
              rw [← e, Ref.str, ex]; simp
            rcases List.mem_append.mp hs with hs | hs
            · revert hs; decide
            · simp only [isIdent, Bool.and_eq_true, List.all_eq_true] at hid
              exact absurd (hid.2 _ hs) (by decide)
          · simp at hn
      · split at hu
        · rename_i hok
          exfalso
          simp only [Option.some.injEq] at hu
          subst hu
          unfold parseNamed at hn
          split at hn
          · simp at hn
          · rename_i r' _
            split at hn
            · rename_i e
              have hs : '/' ∈ n := by
                simp only [Option.some.injEq] at hn
                subst hn
                obtain ⟨⟨_, _, x, y, ex, _⟩, _, _⟩ := hcanon
                rw [← e, Ref.str, ex]; simp
              exact dg.noSlash _ hok hs
            · simp at hn
        · rw [Option.map_eq_some_iff] at hu
          obtain ⟨r', hr', rfl⟩ := hu
          have := named_of_canon (canon_of_parseNormalized hr')
          unfold named parseAnyStr at this
          obtain ⟨i1, i2⟩ := canon_ident_false (canon_of_parseNormalized hr')
          rw [i1, i2, parseNormalized_of_canon (canon_of_parseNormalized hr')] at this
          simp at this
          rw [this] at hn
          simp only [Option.some.injEq] at hn
          rw [← hn]; exact hr'
  have hp2 := parseNormalized_snoc hp h1 h2 ht
  have hc2 := canon_of_parseNormalized hp2
  have hnamed2 : named dg (n ++ ':' :: t) = some { r with tag := some t } := by
    unfold named parseAnyStr
    have hid : isIdent (n ++ ':' :: t) = false := by
      cases hh : isIdent (n ++ ':' :: t) with
      | false => rfl
      | true =>
        simp only [isIdent, Bool.and_eq_true, List.all_eq_true] at hh
        exact absurd (hh.2 ':' (by simp)) (by decide)
    rw [hid, hd, hp2]
    simp only [Bool.false_eq_true, if_false, Option.map_some]
    unfold parseNamed
    rw [parseNormalized_of_canon hc2]
    exact if_pos rfl
  unfold trimL
  rw [hnamed2, hn]
  rfl

/-- C43: a string that is no valid reference is returned unchanged by both
functions, and matches by tag only itself. -/
theorem C43_invalid_unchanged (dg : DigestLib) (s : String) (h : named dg s.toList = none) :
    trim dg s = s ∧ expand dg s = s := by
  unfold trim expand trimL expandL
  rw [h]
  simp

/-- Valid names: the functions agree with the table in image_test.go. -/
example : ["golang", "golang:1.0.0", "library/golang", "index.docker.io/library/golang:1.0.0",
      "gcr.io/library/golang:1.0.0", "1.2.3.4:8000/golang:1.0.0"].map
      (fun s => (trim shaDigests s, expand shaDigests s)) =
    [("golang", "docker.io/library/golang:latest"),
     ("golang", "docker.io/library/golang:1.0.0"),
     ("golang", "docker.io/library/golang:latest"),
     ("golang", "docker.io/library/golang:1.0.0"),
     ("gcr.io/library/golang", "gcr.io/library/golang:1.0.0"),
     ("1.2.3.4:8000/golang", "1.2.3.4:8000/golang:1.0.0")] := by decide +kernel

/-- Hypotheses of `C43_trim_ignores_tag` met: `plugins/docker` and tag `18`. -/
example : ∃ r, named shaDigests "plugins/docker".toList = some r ∧ r.tag = none ∧ r.digest = none ∧
    isTag "18".toList = true ∧
    shaDigests.ok ("plugins/docker".toList ++ ':' :: "18".toList) = false :=
  ⟨⟨"docker.io".toList, "plugins/docker".toList, none, none⟩, by decide +kernel⟩

/-- Hypothesis of `C43_invalid_unchanged` met: two names that are not references. -/
example : named shaDigests "foo/bar?baz:boo".toList = none ∧
    named shaDigests "Golang".toList = none := by decide +kernel

/-- Different tags do not match by tag but match by name. -/
example : matchTag shaDigests "golang:1.0" "golang:2.0" = false ∧
    matchName shaDigests "golang:1.0" ["node", "golang:2.0"] = true ∧
    matchName shaDigests "golang" ["gcr.io/golang"] = false := by decide +kernel

/-- Finding: short names are not injective on repositories.  The Docker Hub
repository `docker.io/gcr.io/golang` matches the different repository
`gcr.io/golang`, because its short name reads as a name on another host. -/
theorem C43_hub_host_confusion :
    matchName shaDigests "docker.io/gcr.io/golang" ["gcr.io/golang"] = true ∧
    matchTag shaDigests "docker.io/gcr.io/golang" "gcr.io/golang" = false := by decide +kernel

/-! ### C44 -/

/-- C44: the callback approves exactly the containers without commands, command
and entrypoint whose image has the short name of a whitelisted image. -/
theorem C44_dind (dg : DigestLib) (images : List String) (c : Container) :
    dindFunc dg images c = true ↔
      c.commands = [] ∧ c.command = [] ∧ c.entrypoint = [] ∧
      ∃ img ∈ images, trim dg img = trim dg c.image := by
  unfold dindFunc
  cases c.commands <;> cases c.command <;> cases c.entrypoint <;> simp [matchName]

/-- C44: tags play no role: re-tagging the plugin or the whitelist entry changes
nothing. -/
theorem C44_dind_tag (dg : DigestLib) (images : List String) (c : Container) :
    dindFunc dg images { c with image := expand dg c.image } = dindFunc dg images c ∧
    dindFunc dg (images.map (expand dg)) c = dindFunc dg images c := by
  constructor
  · rw [Bool.eq_iff_iff, C44_dind, C44_dind]
    simp [trim_expand]
  · rw [Bool.eq_iff_iff, C44_dind, C44_dind]
    simp [trim_expand]

example : dindFunc shaDigests ["plugins/docker", "plugins/ecr"] { image := "plugins/ecr:17" } = true ∧
    dindFunc shaDigests ["plugins/docker"] { image := "plugins/docker", commands := ["ls"] } = false ∧
    dindFunc shaDigests ["plugins/docker"] { image := "evil/docker" } = false := by decide +kernel

end Drone
