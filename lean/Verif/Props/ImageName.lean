/- C90: what expanding and trimming an image name give, for every name. -/
import Verif.Proof.ImageName
import Verif.Props.Image

namespace Drone
open Img Spec

/-! ### From a valid name to its expansion -/

theorem imageName_text (n : ImageName) :
    n.text = n.repo ++ (tagSuffix n.tag ++ digestSuffix n.digest) := by
  unfold ImageName.text
  cases n.tag <;> cases n.digest <;> simp [tagSuffix, digestSuffix]

theorem imageName_repo_some {n : ImageName} {h : Str} (hh : n.host = some h)
    (hne : n.comps ≠ []) : n.repo = h ++ '/' :: ['/'].intercalate n.comps := by
  unfold ImageName.repo
  rw [hh]
  exact inter_cons h hne

theorem imageName_repo_none {n : ImageName} (hh : n.host = none) :
    n.repo = ['/'].intercalate n.comps := by
  unfold ImageName.repo
  rw [hh]; rfl

section valid
variable {dg : DigestLib} {n : ImageName}

theorem Spec.ImageName.Valid.suffix_noSlash (h : n.Valid dg.ok) :
    '/' ∉ tagSuffix n.tag ++ digestSuffix n.digest := by
  intro hm
  rcases List.mem_append.mp hm with hm | hm
  · exact tagSuffix_noSlash (fun t ht => (isTag_iff t).mpr (h.tag t ht)) hm
  · exact digestSuffix_noSlash h.digest hm

theorem host_noSlash {h : Str} (hh : Address h ∨ Component h) : '/' ∉ h ∧ '@' ∉ h := by
  rcases hh with hh | hh
  · exact address_no hh
  · exact ⟨(component_no hh).1, (component_no hh).2.2⟩

/-- The path has a slash just if it has two components. -/
theorem inter_slash {l : List Str} (hne : l ≠ []) (h : ∀ c ∈ l, '/' ∉ c) :
    '/' ∈ ['/'].intercalate l ↔ l.length ≠ 1 := by
  cases l with
  | nil => exact absurd rfl hne
  | cons a as =>
    cases as with
    | nil => rw [inter_one]; simp [h a (by simp)]
    | cons b bs => rw [inter_cons a (by simp)]; simp

theorem address_dockerIO : Address dockerIO := by
  rw [← isDomain_iff]; decide

theorem address_indexIO : Address indexIO := by
  rw [← isDomain_iff]; decide

theorem hostLike_dockerIO : HostLike dockerIO := by
  rw [← isHost_iff]; decide

theorem component_library : Component library := by
  rw [← isComponent_iff]; decide

theorem fullHost_some {h : Str} (hh : n.host = some h) :
    n.fullHost = if h = indexIO then dockerIO else h := by
  unfold ImageName.fullHost
  rw [hh]; rfl

theorem fullHost_none (hh : n.host = none) : n.fullHost = dockerIO := by
  unfold ImageName.fullHost
  rw [hh]; rfl

theorem full_comps : n.full.comps =
    if n.fullHost = dockerIO ∧ n.comps.length = 1 then library :: n.comps else n.comps := rfl

theorem fullHost_ne_index : n.fullHost ≠ indexIO := by
  cases hh : n.host with
  | none => rw [fullHost_none hh]; decide
  | some h =>
    rw [fullHost_some hh]
    by_cases e : h = indexIO
    · rw [if_pos e]; decide
    · rw [if_neg e]; exact e

theorem Spec.ImageName.Valid.fullHost (h : n.Valid dg.ok) :
    HostLike n.fullHost ∧ (Address n.fullHost ∨ Component n.fullHost) := by
  cases hh : n.host with
  | none =>
    rw [fullHost_none hh]
    exact ⟨hostLike_dockerIO, .inl address_dockerIO⟩
  | some x =>
    rw [fullHost_some hh]
    by_cases e : x = indexIO
    · rw [if_pos e]
      exact ⟨hostLike_dockerIO, .inl address_dockerIO⟩
    · rw [if_neg e]
      exact h.host x hh

theorem Spec.ImageName.Valid.full_ne (h : n.Valid dg.ok) : n.full.comps ≠ [] := by
  rw [full_comps]
  split
  · simp
  · exact h.ne

theorem Spec.ImageName.Valid.full_comps (h : n.Valid dg.ok) : ∀ c ∈ n.full.comps, Component c := by
  rw [Drone.full_comps]
  split
  · intro c hc
    rcases List.mem_cons.mp hc with rfl | hc
    · exact component_library
    · exact h.comps c hc
  · exact h.comps

/-- The full name is a host, a slash and a path. -/
theorem Spec.ImageName.Valid.full_repo (h : n.Valid dg.ok) :
    n.full.repo = n.fullHost ++ '/' :: ['/'].intercalate n.full.comps :=
  imageName_repo_some rfl h.full_ne

/-- Where the code first cuts a valid name. -/
theorem Spec.ImageName.Valid.split0 (h : n.Valid dg.ok) :
    splitDomain0 n.text = ((n.host.getD dockerIO),
      ['/'].intercalate n.comps ++ (tagSuffix n.tag ++ digestSuffix n.digest)) := by
  have hz := h.suffix_noSlash
  have hcs : ∀ c ∈ n.comps, '/' ∉ c := fun c hc => (component_no (h.comps c hc)).1
  rw [imageName_text]
  unfold splitDomain0
  cases hh : n.host with
  | some x =>
    obtain ⟨h1, h2⟩ := h.host x hh
    rw [imageName_repo_some hh h.ne, List.append_assoc, List.cons_append,
      splitFirst_some.mpr ⟨rfl, (host_noSlash h2).1⟩]
    simp only
    rw [if_pos ((isHost_iff x).mpr h1)]
    rfl
  | none =>
    rw [imageName_repo_none hh]
    cases hc : n.comps with
    | nil => exact absurd hc h.ne
    | cons c cs =>
      cases cs with
      | nil =>
        have : splitFirst '/' (['/'].intercalate [c] ++
            (tagSuffix n.tag ++ digestSuffix n.digest)) = none := by
          rw [splitFirst_none, inter_one]
          intro hm
          rcases List.mem_append.mp hm with hm | hm
          · exact hcs c (by simp [hc]) hm
          · exact hz hm
        rw [this]; rfl
      | cons d ds =>
        have hnot : ¬ isHost c = true := by
          rw [isHost_iff]
          exact h.noHost hh (by simp [hc]) c (by simp [hc])
        rw [inter_cons c (by simp), List.append_assoc, List.cons_append,
          splitFirst_some.mpr ⟨rfl, hcs c (by simp [hc])⟩]
        simp only
        rw [if_neg hnot]
        rfl

/-- Where the code cuts a valid name. -/
theorem Spec.ImageName.Valid.split (h : n.Valid dg.ok) :
    splitDockerDomain n.text = (n.fullHost,
      ['/'].intercalate n.full.comps ++ (tagSuffix n.tag ++ digestSuffix n.digest)) := by
  have hz := h.suffix_noSlash
  have hcs : ∀ c ∈ n.comps, '/' ∉ c := fun c hc => (component_no (h.comps c hc)).1
  have hslash := inter_slash h.ne hcs
  have h0 := h.split0
  have hfull : (if n.host.getD dockerIO = indexIO then dockerIO else n.host.getD dockerIO)
      = n.fullHost := by
    cases hh : n.host with
    | none => rw [fullHost_none hh]; decide
    | some x => rw [fullHost_some hh]; rfl
  unfold splitDockerDomain
  rw [h0]
  simp only
  rw [hfull, Drone.full_comps]
  by_cases hd : n.fullHost = dockerIO ∧ n.comps.length = 1
  · have : ¬ '/' ∈ ['/'].intercalate n.comps := by rw [hslash]; simp [hd.2]
    rw [if_pos hd, if_pos ⟨hd.1, by simp [this]; simpa using hz⟩, inter_cons _ h.ne]
    simp
  · rw [if_neg hd, if_neg]
    rintro ⟨h1, h2⟩
    apply h2
    refine List.mem_append.mpr (.inl (hslash.mpr ?_))
    exact fun e => hd ⟨h1, e⟩

theorem Spec.ImageName.Valid.text_slash (h : n.Valid dg.ok) : '/' ∈ n.full.text := by
  rw [imageName_text, h.full_repo]; simp

/-- The full form is a valid name. -/
theorem Spec.ImageName.Valid.full (h : n.Valid dg.ok) : n.full.Valid dg.ok := by
  have hfh : n.full.fullHost = n.fullHost := by
    rw [fullHost_some (n := n.full) rfl, if_neg fullHost_ne_index]
  have hff : n.full.full = n.full := by
    show ImageName.mk _ _ _ _ = ImageName.mk _ _ _ _
    have hc : n.full.full.comps = n.full.comps := by
      rw [Drone.full_comps, hfh]
      by_cases hd : n.fullHost = dockerIO ∧ n.comps.length = 1
      · rw [if_neg]
        rw [Drone.full_comps, if_pos hd]
        simp [hd.2]
      · rw [if_neg]
        rw [Drone.full_comps, if_neg hd]
        exact hd
    congr 1
    exact congrArg some hfh
  refine ⟨h.full_ne, h.full_comps, h.tag, h.digest, ?_, ?_, ?_, ?_, ?_⟩
  · rintro x ⟨⟩
    exact h.fullHost
  · intro e; cases e
  · rw [hff]; exact h.len
  · rw [← isIdent_iff]
    intro hi
    simp only [isIdent, Bool.and_eq_true, List.all_eq_true] at hi
    have := hi.2 _ h.text_slash
    revert this; decide
  · cases hh : dg.ok n.full.text with
    | false => rfl
    | true => exact absurd h.text_slash (dg.noSlash _ hh)

/-- A valid name is understood as its full form. -/
theorem Spec.ImageName.Valid.named (h : n.Valid dg.ok) :
    ∃ r, Img.named dg n.text = some r ∧ r.name = n.full.repo ∧ r.tag = n.tag ∧
      r.digest = n.digest ∧ r.str = n.full.text ∧
      r.domain = (if isDomain n.fullHost then n.fullHost else []) := by
  have hp : isPath (['/'].intercalate n.full.comps) = true := isPath_inter h.full_ne h.full_comps
  have hns := host_noSlash h.fullHost.2
  have hsn : splitName n.full.repo = some
      (if isDomain n.fullHost then (n.fullHost, ['/'].intercalate n.full.comps)
        else ([], n.full.repo)) := by
    rw [h.full_repo]
    unfold splitName
    rw [splitFirst_some.mpr ⟨rfl, hns.1⟩]
    simp only [hp, Bool.and_true]
    by_cases hd : isDomain n.fullHost = true
    · rw [if_pos hd, if_pos hd]
    · rw [if_neg hd, if_neg hd, if_pos]
      unfold isPath at hp ⊢
      rw [segs_append hns.1, List.all_cons, hp, Bool.and_true]
      rcases h.fullHost.2 with h' | h'
      · exact absurd ((isDomain_iff _).mpr h') hd
      · exact (isComponent_iff _).mpr h'
  obtain ⟨d, q, hdq, hdom⟩ : ∃ d q, splitName n.full.repo = some (d, q) ∧
      d = (if isDomain n.fullHost then n.fullHost else []) := by
    by_cases hd : isDomain n.fullHost = true
    · rw [if_pos hd] at hsn ⊢
      exact ⟨_, _, hsn, rfl⟩
    · rw [if_neg hd] at hsn ⊢
      exact ⟨_, _, hsn, rfl⟩
  let r : Ref := ⟨d, q, n.tag, n.digest⟩
  have hname : r.name = n.full.repo := (splitName_name hdq).symm
  have hstr : r.str = n.full.text := by
    rw [Ref.str, hname, imageName_text, List.append_assoc]; rfl
  have hc : Canon dg r := by
    refine ⟨⟨?_, ?_, ?_⟩, fun t ht => (isTag_iff t).mpr (h.tag t ht), h.digest⟩
    · rw [hname]; exact hdq
    · rw [hname]; have := h.len; omega
    · refine ⟨n.fullHost, _, hname.trans h.full_repo, hns.1, (isHost_iff _).mpr h.fullHost.1,
        fullHost_ne_index, ?_, hns.2, hp⟩
      intro e
      rw [inter_slash h.full_ne (fun c hc => (component_no (h.full_comps c hc)).1),
        Drone.full_comps]
      by_cases h1 : n.comps.length = 1
      · rw [if_pos ⟨e, h1⟩]; simp [h1]
      · rw [if_neg (fun hh => h1 hh.2)]; exact h1
  have hpn := parseNormalized_of_canon hc
  have hid : isIdent n.text = false := by
    cases hh : isIdent n.text with
    | false => rfl
    | true => exact absurd ((isIdent_iff _).mp hh) h.notId
  have hidf : isIdent n.full.text = false := by
    cases hh : isIdent n.full.text with
    | false => rfl
    | true => exact absurd ((isIdent_iff _).mp hh) h.full.notId
  have hsame : splitDockerDomain n.full.text = splitDockerDomain n.text := by
    rw [h.split, h.full.split]
    have hfh : n.full.fullHost = n.fullHost := by
      rw [fullHost_some (n := n.full) rfl, if_neg fullHost_ne_index]
    have hc : n.full.full.comps = n.full.comps := by
      rw [Drone.full_comps, hfh]
      by_cases hd : n.fullHost = dockerIO ∧ n.comps.length = 1
      · rw [if_neg]
        rw [Drone.full_comps, if_pos hd]
        simp [hd.2]
      · rw [if_neg]
        rw [Drone.full_comps, if_neg hd]
        exact hd
    rw [hfh, hc]; rfl
  have hpt : parseNormalized dg n.text = some r := by
    rw [← hpn, hstr]
    unfold parseNormalized
    rw [hid, hidf, hsame]
  refine ⟨r, ?_, hname, rfl, rfl, hstr, hdom⟩
  unfold Img.named parseAnyStr
  rw [hid, h.notDigest, hpt]
  simp only [Bool.false_eq_true, if_false, Option.map_some]
  unfold parseNamed
  rw [hpn]
  exact if_pos rfl

end valid

/-! ### From what is understood to a valid name -/

theorem isPath_slash {s : Str} (h : isPath s = true) : ∀ c ∈ segs '/' s, '/' ∉ c :=
  fun c hc => (component_no (isPath_comps h c hc)).1

/-- Only valid names are understood. -/
theorem valid_of_named {dg : DigestLib} {s : Str} {r : Ref} (h : named dg s = some r) :
    ∃ n : ImageName, n.Valid dg.ok ∧ n.text = s := by
  have hcan := canon_of_named h
  have hslash : '/' ∈ r.str := by
    obtain ⟨⟨_, _, hd, rest, e, _⟩, _, _⟩ := hcan
    rw [Ref.str, e]; simp
  unfold named at h
  split at h
  · simp at h
  · rename_i t ht
    have hrt : r.str = t := by
      unfold parseNamed at h
      split at h
      · simp at h
      · split at h
        · simp only [Option.some.injEq] at h
          subst h; assumption
        · simp at h
    unfold parseAnyStr at ht
    by_cases hid : isIdent s = true
    · rw [if_pos hid] at ht
      simp only [Option.some.injEq] at ht
      rw [hrt, ← ht] at hslash
      rcases List.mem_append.mp hslash with hm | hm
      · exact absurd hm (by decide)
      · simp only [isIdent, Bool.and_eq_true, List.all_eq_true] at hid
        exact absurd (hid.2 _ hm) (by decide)
    · rw [if_neg hid] at ht
      by_cases hok : dg.ok s = true
      · rw [if_pos hok] at ht
        simp only [Option.some.injEq] at ht
        rw [hrt, ← ht] at hslash
        exact absurd hslash (dg.noSlash _ hok)
      · rw [if_neg hok, Option.map_eq_some_iff] at ht
        obtain ⟨q, hq, _⟩ := ht
        have hid' : isIdent s = false := by simpa using hid
        have hok' : dg.ok s = false := by simpa using hok
        unfold parseNormalized at hq
        rw [hid'] at hq
        simp only [Bool.false_eq_true, if_false] at hq
        split at hq
        · simp at hq
        · obtain ⟨es, hn, hl, htag, hdig⟩ := parse_some hq
          have hz : '/' ∉ tagSuffix q.tag ++ digestSuffix q.digest := by
            intro hm
            rcases List.mem_append.mp hm with hm | hm
            · exact tagSuffix_noSlash htag hm
            · exact digestSuffix_noSlash hdig hm
          have s1 := (splitDockerDomain_shape s).1
          obtain ⟨rest, e1, e2⟩ := split_prefix s1 hz (by rw [es, Ref.str, List.append_assoc])
          have hpath : isPath rest = true := by
            rw [e1] at hn
            exact (splitName_rest s1 hn).2
          have hhost : Address (splitDockerDomain s).1 ∨ Component (splitDockerDomain s).1 := by
            rw [e1] at hn
            unfold splitName at hn
            rw [splitFirst_some.mpr ⟨rfl, s1⟩] at hn
            simp only at hn
            split at hn
            · rename_i hc
              simp only [Bool.and_eq_true] at hc
              exact .inl ((isDomain_iff _).mp hc.1)
            · split at hn
              · rename_i hp
                unfold isPath at hp
                rw [segs_append s1, List.all_cons, Bool.and_eq_true] at hp
                exact .inr ((isComponent_iff _).mp hp.1)
              · simp at hn
          -- the remainder before the library namespace is added
          obtain ⟨rest0, hr0, hp0, hcase⟩ : ∃ rest0,
              (splitDomain0 s).2 = rest0 ++ (tagSuffix q.tag ++ digestSuffix q.digest) ∧
              isPath rest0 = true ∧
              rest = (if (splitDockerDomain s).1 = dockerIO ∧ (segs '/' rest0).length = 1
                then library ++ '/' :: rest0 else rest0) := by
            have e2' : (if (splitDockerDomain s).1 = dockerIO ∧ '/' ∉ (splitDomain0 s).2
                then library ++ '/' :: (splitDomain0 s).2 else (splitDomain0 s).2) =
                rest ++ (tagSuffix q.tag ++ digestSuffix q.digest) := e2
            by_cases hc : (splitDockerDomain s).1 = dockerIO ∧ '/' ∉ (splitDomain0 s).2
            · rw [if_pos hc] at e2'
              obtain ⟨rest0, a1, a2⟩ := split_prefix (by decide) hz e2'
              refine ⟨rest0, a2, ?_, ?_⟩
              · rw [a1] at hpath
                unfold isPath at hpath ⊢
                rw [segs_append (by decide), List.all_cons, Bool.and_eq_true] at hpath
                exact hpath.2
              · have : '/' ∉ rest0 := fun hm => hc.2 (by rw [a2]; simp [hm])
                rw [if_pos ⟨hc.1, by rw [segs_none this]; rfl⟩]
                exact a1
            · rw [if_neg hc] at e2'
              refine ⟨rest, e2', hpath, ?_⟩
              rw [if_neg]
              rintro ⟨h1, h2⟩
              apply hc
              refine ⟨h1, ?_⟩
              rw [e2']
              intro hm
              rcases List.mem_append.mp hm with hm | hm
              · rw [← inter_segs '/' rest, inter_slash (segs_ne_nil _ _)
                  (isPath_slash hpath)] at hm
                exact hm h2
              · exact hz hm
          have hcomps := isPath_comps hp0
          have htag' : ∀ t ∈ q.tag, TagText t := fun t ht => (isTag_iff t).mp (htag t ht)
          have hd1 : (splitDockerDomain s).1 =
              if (splitDomain0 s).1 = indexIO then dockerIO else (splitDomain0 s).1 := rfl
          -- the length of the full name
          have hlen : ∀ host, (ImageName.mk host (segs '/' rest0) q.tag q.digest).fullHost =
              (splitDockerDomain s).1 →
              (ImageName.mk host (segs '/' rest0) q.tag q.digest).full.repo.length ≤ 255 := by
            intro host hh
            have : (ImageName.mk host (segs '/' rest0) q.tag q.digest).full.repo = q.name := by
              rw [imageName_repo_some (h := (splitDockerDomain s).1) (congrArg some hh) (by
                rw [full_comps]; split
                · simp
                · exact segs_ne_nil _ _), e1, full_comps, hh, hcase]
              by_cases hc : (splitDockerDomain s).1 = dockerIO ∧ (segs '/' rest0).length = 1
              · rw [if_pos hc, if_pos hc, inter_cons _ (segs_ne_nil _ _), inter_segs]
              · rw [if_neg hc, if_neg hc, inter_segs]
            rw [this]; omega
          have hfin : ∀ host, (ImageName.mk host (segs '/' rest0) q.tag q.digest).text = s →
              (ImageName.mk host (segs '/' rest0) q.tag q.digest).fullHost =
                (splitDockerDomain s).1 →
              (∀ x ∈ host, HostLike x ∧ (Address x ∨ Component x)) →
              (host = none → 2 ≤ (segs '/' rest0).length →
                ∀ c ∈ (segs '/' rest0).head?, ¬ HostLike c) →
              ∃ n : ImageName, n.Valid dg.ok ∧ n.text = s := by
            intro host h1 h2 h3 h4
            refine ⟨⟨host, segs '/' rest0, q.tag, q.digest⟩,
              ⟨segs_ne_nil _ _, hcomps, htag', hdig, h3, h4, hlen host h2, ?_, ?_⟩, h1⟩
            · rw [h1, ← isIdent_iff]; exact hid
            · rw [h1]; exact hok'
          cases hsf : splitFirst '/' s with
          | none =>
            have h0 : splitDomain0 s = (dockerIO, s) := by
              unfold splitDomain0; rw [hsf]
            rw [h0] at hr0
            refine hfin none ?_ ?_ ?_ ?_
            · rw [imageName_text, imageName_repo_none rfl]
              show ['/'].intercalate (segs '/' rest0) ++ _ = s
              rw [inter_segs]; exact hr0.symm
            · rw [fullHost_none rfl, hd1, h0]; exact (if_neg (show ¬ dockerIO = indexIO by decide)).symm
            · simp
            · intro _ h2
              have : '/' ∉ rest0 := by
                intro hm
                exact splitFirst_none.mp hsf (by rw [show s = _ from hr0]; simp [hm])
              rw [segs_none this] at h2
              simp at h2
          | some p =>
            obtain ⟨x, y⟩ := p
            obtain ⟨hs, hx⟩ := splitFirst_some.mp hsf
            by_cases hh : isHost x = true
            · have h0 : splitDomain0 s = (x, y) := by
                unfold splitDomain0; rw [hsf]; simp only; rw [if_pos hh]
              rw [h0] at hr0 hd1
              refine hfin (some x) ?_ ?_ ?_ ?_
              · rw [imageName_text, imageName_repo_some rfl (segs_ne_nil _ _)]
                show x ++ '/' :: ['/'].intercalate (segs '/' rest0) ++ _ = s
                rw [inter_segs, hs, show y = _ from hr0]; simp
              · rw [fullHost_some rfl, hd1]
              · rintro _ ⟨⟩
                refine ⟨(isHost_iff x).mp hh, ?_⟩
                by_cases e : x = indexIO
                · rw [e]; exact .inl address_indexIO
                · rw [hd1, if_neg e] at hhost
                  exact hhost
              · intro e; cases e
            · have h0 : splitDomain0 s = (dockerIO, s) := by
                unfold splitDomain0; rw [hsf]; simp only; rw [if_neg hh]
              rw [h0] at hr0 hd1
              refine hfin none ?_ ?_ ?_ ?_
              · rw [imageName_text, imageName_repo_none rfl]
                show ['/'].intercalate (segs '/' rest0) ++ _ = s
                rw [inter_segs]; exact hr0.symm
              · rw [fullHost_none rfl, hd1]; exact (if_neg (show ¬ dockerIO = indexIO by decide)).symm
              · simp
              · intro _ h2 c hc
                obtain ⟨rest1, b1, _⟩ := split_prefix hx hz (hs.symm.trans hr0)
                rw [b1, segs_append hx] at hc
                simp only [List.head?_cons, Option.mem_def, Option.some.injEq] at hc
                rw [← hc, ← isHost_iff]
                exact hh

/-! ### C90 -/

/-- C90: the parts of a valid name are determined by its text. -/
theorem C90_unique {dg : DigestLib} {m n : ImageName} (hm : m.Valid dg.ok) (hn : n.Valid dg.ok)
    (h : m.text = n.text) : m = n := by
  obtain ⟨r, hr, _, ht, hd, _, _⟩ := hm.named
  obtain ⟨r', hr', _, ht', hd', _, _⟩ := hn.named
  rw [h, hr'] at hr
  simp only [Option.some.injEq] at hr
  subst hr
  have etag : m.tag = n.tag := ht.symm.trans ht'
  have edig : m.digest = n.digest := hd.symm.trans hd'
  have e0 : splitDomain0 m.text = splitDomain0 n.text := by rw [h]
  rw [hm.split0, hn.split0, etag, edig] at e0
  simp only [Prod.mk.injEq, List.append_cancel_right_eq] at e0
  have ecomps : m.comps = n.comps := by
    have h1 := segs_inter hm.ne (fun c hc => (component_no (hm.comps c hc)).1)
    have h2 := segs_inter hn.ne (fun c hc => (component_no (hn.comps c hc)).1)
    rw [← h1, ← h2, e0.2]
  have erepo : m.repo = n.repo := by
    have := h
    rw [imageName_text, imageName_text, etag, edig] at this
    simpa using this
  have ehost : m.host = n.host := by
    cases h1 : m.host with
    | none =>
      cases h2 : n.host with
      | none => rfl
      | some y =>
        rw [imageName_repo_none h1, imageName_repo_some h2 hn.ne, ecomps] at erepo
        have := congrArg List.length erepo
        simp at this
        omega
    | some x =>
      cases h2 : n.host with
      | none =>
        rw [imageName_repo_none h2, imageName_repo_some h1 hm.ne, ecomps] at erepo
        have := congrArg List.length erepo
        simp at this
        omega
      | some y =>
        have := e0.1
        rw [h1, h2] at this
        exact congrArg some this
  cases m; cases n
  simp_all

/-- C90: expanding a valid name gives its full form, with `latest` for a missing tag. -/
theorem C90_expand {dg : DigestLib} {n : ImageName} (h : n.Valid dg.ok) :
    expand dg (String.ofList n.text) = String.ofList n.tagged.text := by
  obtain ⟨r, hr, hname, ht, hd, hs, _⟩ := h.named
  unfold expand expandL
  rw [String.toList_ofList, hr]
  congr 1
  show r.tagNameOnly.str = _
  unfold Ref.tagNameOnly
  rw [ht, hd]
  by_cases hc : n.tag = none ∧ n.digest = none
  · rw [if_pos (by simp [hc])]
    show r.name ++ tagSuffix (some latest) ++ digestSuffix n.digest = _
    rw [hname, hc.2]
    unfold ImageName.tagged ImageName.text
    simp only [hc, and_self, if_true]
    show _ = n.full.repo ++ _ ++ (n.digest.elim _ _)
    rw [hc.2]; rfl
  · rw [if_neg (by
      intro hh
      rw [Bool.and_eq_true, Option.isNone_iff_eq_none, Option.isNone_iff_eq_none] at hh
      exact hc hh), hs]
    unfold ImageName.tagged
    rw [if_neg hc]
    rfl

/-- C90: trimming a valid name gives its short form. -/
theorem C90_trim {dg : DigestLib} {n : ImageName} (h : n.Valid dg.ok) :
    trim dg (String.ofList n.text) = String.ofList n.short := by
  obtain ⟨r, hr, hname, _, _, _, hdom⟩ := h.named
  unfold trim trimL
  rw [String.toList_ofList, hr]
  congr 1
  show r.familiar = _
  unfold Ref.familiar ImageName.short
  change _ = if n.fullHost = dockerIO then _ else _
  by_cases hd : n.fullHost = dockerIO
  · have hdom' : r.domain = dockerIO := by rw [hdom, hd]; decide
    have hpath : r.path = ['/'].intercalate n.full.comps := by
      have := hname
      rw [Ref.name, if_neg (by rw [hdom']; decide), h.full_repo, hdom', hd] at this
      exact (split_unique (by decide) (by decide) this).2
    rw [if_pos hdom', if_pos hd, hpath, segs_inter h.full_ne
      (fun c hc => (component_no (h.full_comps c hc)).1)]
    split
    · rename_i a b e
      rw [e]; rfl
    · rename_i hne
      split
      · rename_i a b e
        exact absurd e (hne a b)
      · rfl
  · rw [if_neg hd, if_neg, hname]
    rw [hdom]
    split
    · exact hd
    · decide

/-- C90: a string that is no valid name is left alone. -/
theorem C90_other {dg : DigestLib} {s : String}
    (h : ∀ n : ImageName, n.Valid dg.ok → n.text ≠ s.toList) :
    expand dg s = s ∧ trim dg s = s := by
  have hn : named dg s.toList = none := by
    cases hh : named dg s.toList with
    | none => rfl
    | some r =>
      obtain ⟨n, hv, ht⟩ := valid_of_named hh
      exact absurd ht (h n hv)
  unfold expand trim expandL trimL
  rw [hn]
  simp

/-- C90: a valid name matches the host it is stored at, whatever way it is written. -/
theorem C90_hostname {dg : DigestLib} {n : ImageName} (h : n.Valid dg.ok)
    (ha : Address n.fullHost) (host : String) :
    matchHostname dg (String.ofList n.text) host =
      decide (String.ofList n.fullHost =
        if host = "index.docker.io" then "docker.io" else host) := by
  obtain ⟨r, hr, _, _, _, _, hdom⟩ := h.named
  unfold matchHostname
  rw [String.toList_ofList, hr]
  simp only
  rw [hdom, if_pos ((isDomain_iff _).mpr ha)]

/-- C90: a host that is no registry address, such as one with an underscore, is kept in
the full form but never matched as a host. -/
theorem C90_hostname_lost {dg : DigestLib} {n : ImageName} (h : n.Valid dg.ok)
    (ha : ¬ Address n.fullHost) (host : String) (hne : host ≠ "") :
    matchHostname dg (String.ofList n.text) host = false := by
  obtain ⟨r, hr, _, _, _, _, hdom⟩ := h.named
  unfold matchHostname
  rw [String.toList_ofList, hr]
  simp only
  rw [hdom, if_neg (fun hh => ha ((isDomain_iff _).mp hh)), decide_eq_false_iff_not]
  intro e
  split at e
  · exact absurd e (by decide)
  · exact hne e.symm

/-- C90: a name that is not valid matches no host. -/
theorem C90_hostname_other {dg : DigestLib} {s : String}
    (h : ∀ n : ImageName, n.Valid dg.ok → n.text ≠ s.toList) (host : String) :
    matchHostname dg s host = false := by
  have hn : named dg s.toList = none := by
    cases hh : named dg s.toList with
    | none => rfl
    | some r =>
      obtain ⟨n, hv, ht⟩ := valid_of_named hh
      exact absurd ht (h n hv)
  unfold matchHostname
  rw [hn]

/-! ### Examples -/

/-- Decides validity with the digests of sha256, sha384 and sha512. -/
def checkName (n : ImageName) : Bool :=
  !n.comps.isEmpty && n.comps.all isComponent && n.tag.all isTag && n.digest.all shaOk &&
  n.host.all (fun h => isHost h && (isDomain h || isComponent h)) &&
  (n.host.isSome || n.comps.length < 2 || !(n.comps.head?.any isHost)) &&
  n.full.repo.length ≤ 255 && !isIdent n.text && !shaOk n.text

theorem valid_of_check {n : ImageName} (h : checkName n = true) : n.Valid shaDigests.ok := by
  unfold checkName at h
  simp only [Bool.and_eq_true, Bool.not_eq_true', decide_eq_true_eq, Bool.or_eq_true] at h
  obtain ⟨⟨⟨⟨⟨⟨⟨⟨h1, h2⟩, h3⟩, h4⟩, h5⟩, h6⟩, h7⟩, h8⟩, h9⟩ := h
  refine ⟨?_, ?_, ?_, ?_, ?_, ?_, h7, ?_, h9⟩
  · intro e; rw [e] at h1; simp at h1
  · exact fun c hc => (isComponent_iff c).mp (List.all_eq_true.mp h2 c hc)
  · intro t ht
    rw [ht] at h3
    exact (isTag_iff t).mp h3
  · intro t ht
    rw [ht] at h4
    exact h4
  · intro x hx
    rw [hx] at h5
    simp only [Option.all_some, Bool.and_eq_true, Bool.or_eq_true, isHost_iff, isDomain_iff,
      isComponent_iff] at h5
    exact h5
  · intro hn hl c hc hh
    rcases h6 with (h6 | h6) | h6
    · rw [hn] at h6; simp at h6
    · omega
    · rw [hc] at h6
      simp only [Option.any_some] at h6
      rw [(isHost_iff c).mpr hh] at h6
      cases h6
  · rw [← isIdent_iff, h8]; simp

def nm (host : Option String) (comps : List String) (tag digest : Option String) : ImageName :=
  ⟨host.map (·.toList), comps.map (·.toList), tag.map (·.toList), digest.map (·.toList)⟩

/-- One component, no tag: everything is filled in. -/
def nmGo : ImageName := nm none ["golang"] none none
/-- The other name of the Docker Hub, with a tag. -/
def nmIndex : ImageName := nm (some "index.docker.io") ["library", "my--image"] (some "1_2.3-x") none
/-- A registry with a port, a path of three components. -/
def nmGcr : ImageName := nm (some "gcr.io:443") ["a", "b__c", "d.e"] none
  (some "sha256:0123456789abcdef0123456789abcdef0123456789abcdef0123456789abcdef")
/-- A host with an underscore. -/
def nmUnder : ImageName := nm (some "my_host.local") ["x"] none none

example : [nmGo, nmIndex, nmGcr, nmUnder].all checkName = true := by decide +kernel

example : expand shaDigests "golang" = "docker.io/library/golang:latest" :=
  C90_expand (n := nmGo) (valid_of_check (by decide +kernel))
example : trim shaDigests "index.docker.io/library/my--image:1_2.3-x" = "my--image" :=
  C90_trim (n := nmIndex) (valid_of_check (by decide +kernel))
example : expand shaDigests
    "gcr.io:443/a/b__c/d.e@sha256:0123456789abcdef0123456789abcdef0123456789abcdef0123456789abcdef" =
    "gcr.io:443/a/b__c/d.e@sha256:0123456789abcdef0123456789abcdef0123456789abcdef0123456789abcdef" :=
  (C90_expand (n := nmGcr) (valid_of_check (by decide +kernel))).trans (by decide +kernel)
example : expand shaDigests "my_host.local/x" = "my_host.local/x:latest" :=
  C90_expand (n := nmUnder) (valid_of_check (by decide +kernel))
example : matchHostname shaDigests "my_host.local/x" "my_host.local" = false :=
  C90_hostname_lost (n := nmUnder) (valid_of_check (by decide +kernel))
    (fun h => by
      have := (isDomain_iff _).mpr h
      exact absurd this (by decide +kernel)) _ (by decide)

/-- Nothing else is understood. -/
theorem not_valid {dg : DigestLib} {s : Str} (h : named dg s = none) :
    ∀ n : ImageName, n.Valid dg.ok → n.text ≠ s := by
  intro n hn e
  obtain ⟨r, hr, _⟩ := hn.named
  rw [e, h] at hr
  cases hr

/-- An upper case letter in the path, and a tag that ends in a space. -/
example : expand shaDigests "docker.io/Golang" = "docker.io/Golang" :=
  (C90_other (not_valid (by decide +kernel))).1
example : trim shaDigests "golang:1.11 " = "golang:1.11 " :=
  (C90_other (not_valid (by decide +kernel))).2
example : matchHostname shaDigests "gcr.io/a b" "gcr.io" = false :=
  C90_hostname_other (not_valid (by decide +kernel)) _
example : matchHostname shaDigests "golang" "index.docker.io" = true :=
  (C90_hostname (n := nmGo) (valid_of_check (by decide +kernel)) address_dockerIO _).trans
    (by decide +kernel)
/-- A tag of 128 characters is allowed, one of 129 is not. -/
example : expand shaDigests (String.ofList ("a:".toList ++ List.replicate 128 'x')) =
    String.ofList ("docker.io/library/a:".toList ++ List.replicate 128 'x') :=
  C90_expand (n := ⟨none, ["a".toList], some (List.replicate 128 'x'), none⟩)
    (valid_of_check (by decide +kernel))
example : checkName ⟨none, ["a".toList], some (List.replicate 129 'x'), none⟩ = false := by
  decide +kernel

end Drone
