/-
C103: converted files are already formatted.
-/
import Verif.Props.LegacyRun
import Verif.Props.Settle
import Verif.Props.Resign

namespace Drone
open Spec Yaml Pretty

variable {R : Resolver}

namespace Spec

/-- No secret of the legacy container has an empty source, and its variables are not all empty. -/
structure TidyLegacy (x : Legacy.Container) : Prop where
  sources : ∀ s, some s ∈ x.secrets → s.source ≠ ""
  environment : x.environment ≠ [] → (∃ s, some s ∈ x.secrets) ∨ ∃ kv ∈ x.environment, kv.2 ≠ ""

/-- Nothing empty is listed in the container. -/
structure TightContainer (d : Container) : Prop where
  present : ¬ blankContainer d
  build : d.build ≠ some {}
  push : d.push ≠ some {}
  resources : d.resources.bind keptResources = d.resources
  /-- if there are variables, one of them is not empty -/
  environment : d.environment ≠ [] → ∃ (k : String) (v : Variable), (k, some v) ∈ d.environment ∧ (v.secret ≠ "" ∨ v.value ≠ "")
  devices : some {} ∉ d.devices
  volumes : some {} ∉ d.volumes

/-- Nothing empty is listed in the pipeline. -/
structure TightPipeline (p : Pipeline) : Prop where
  steps : ∀ d, some d ∈ p.steps → TightContainer d
  services : ∀ d, some d ∈ p.services → TightContainer d
  /-- not only nil entries -/
  someStep : p.steps ≠ [] → ∃ d, some d ∈ p.steps
  someService : p.services ≠ [] → ∃ d, some d ∈ p.services
  volumes : ∀ v, some v ∈ p.volumes → v ≠ {} ∧ v.hostPath ≠ some {}

/-- Nothing empty is listed in the manifest. -/
def Tight (m : Manifest) : Prop := ∀ p, Resource.pipeline p ∈ m.resources → TightPipeline p

end Spec

/-! ### Printing what is kept -/

theorem keepMap_total {α β : Type} {g : α → Option β} {m : GoMap (Option α)}
    (h : ∀ kv ∈ m, ∃ v b, kv.2 = some v ∧ g v = some b) : (keepMap g m).keys = m.keys ∧ (keepMap g m).length = m.length ∧
      ∀ k, (keepMap g m).get? k = (m.get? k).map (·.bind g) := by
  unfold keepMap
  induction m with
  | nil => exact ⟨rfl, rfl, fun k => rfl⟩
  | cons e m ih =>
    obtain ⟨a, o⟩ := e
    obtain ⟨v, b, hv, hb⟩ := h _ List.mem_cons_self
    simp only at hv
    subst hv
    obtain ⟨h1, h2, h3⟩ := ih fun kv hkv => h kv (List.mem_cons_of_mem _ hkv)
    rw [List.filterMap_cons]
    simp only [Option.bind_some, hb, Option.map_some]
    refine ⟨?_, by rw [List.length_cons, List.length_cons, h2], fun k => ?_⟩
    · show a :: GoMap.keys _ = a :: GoMap.keys _
      rw [h1]
    · rw [GoMap.get?_cons, GoMap.get?_cons]
      by_cases e : k = a
      · rw [if_pos e, if_pos e, Option.map_some, Option.bind_some, hb]
      · rw [if_neg e, if_neg e, h3]

theorem eachKey_keep {α : Type} {g : α → Option α} {m : GoMap (Option α)} {f : Writer → String → α → Writer}
    (h : ∀ kv ∈ m, ∃ v b, kv.2 = some v ∧ g v = some b ∧ ∀ w k, f w k v = f w k b) (l : List String) (w : Writer) :
    eachKey (keepMap g m) f l w = eachKey m f l w := by
  refine eachKey_congr (fun k => ?_) l w
  obtain ⟨_, _, h3⟩ := keepMap_total (g := g) (m := m) fun kv hkv => by
    obtain ⟨v, b, h1, h2, _⟩ := h kv hkv
    exact ⟨v, b, h1, h2⟩
  rw [h3]
  cases e : m.get? k with
  | none => exact .inl rfl
  | some o =>
    obtain ⟨v, b, h1, h2, h3⟩ := h _ (GoMap.mem_of_get? e)
    simp only at h1
    subst h1
    exact .inr ⟨b, v, by simp [h2], rfl, fun w => (h3 w k).symm⟩

theorem printConditions_kept (L : PrettyLib) (w : Writer) (k : String) (c : Conditions) :
    printConditions L w k (keptConditions c) = printConditions L w k c := rfl

theorem isConditionsEmpty_kept (c : Conditions) : isConditionsEmpty (keptConditions c) = isConditionsEmpty c := rfl

/-- The variables that are printed are those that are kept. -/
theorem printEnviron_kept (L : PrettyLib) {m : GoMap (Option Variable)} (hn : m.keys.Nodup) (h : ∀ kv ∈ m, kv.2 ≠ none)
    {w : Writer} (hz : w.zero = false) : printEnviron L w (keepMap keptVariable m) = printEnviron L w m := by
  have hget : ∀ k, (keepMap keptVariable m).get? k = (m.get? k).bind fun o => (o.bind keptVariable).map some := by
    intro k
    rw [← keptMapS_get? _ hn]
    exact GoMap.keys_perm_get? (keptMapS_perm _ hn).symm ((keepMap_keys _ m).nodup hn) k
  have hmem : ∀ k, k ∈ (keepMap keptVariable m).keys ↔ ∃ v, (keepMap keptVariable m).get? k = some v := by
    intro k
    rw [← Option.isSome_iff_exists, ← Option.ne_none_iff_isSome, ne_eq, GoMap.get?_eq_none, not_not]
    exact Iff.rfl
  have hkeys : sortStrings (keepMap keptVariable m).keys =
      (sortStrings m.keys).filter fun k => k ∈ (keepMap keptVariable m).keys := by
    have hn' : (keepMap keptVariable m).keys.Nodup := (keepMap_keys _ m).nodup hn
    refine List.Perm.eq_of_pairwise (fun _ _ _ _ h1 h2 => le_antisymm h1 h2) (sortStrings_sorted _)
      ((sortStrings_sorted _).filter _) ((sortStrings_perm _).trans ?_)
    refine (List.perm_ext_iff_of_nodup hn' (((sortStrings_perm _).nodup_iff.2 hn).filter _)).2 fun k => ?_
    rw [List.mem_filter, decide_eq_true_eq, (sortStrings_perm _).mem_iff]
    exact ⟨fun hk => ⟨(keepMap_keys _ m).subset hk, hk⟩, And.right⟩
  have key : ∀ (l : List String) (w : Writer), (∀ k ∈ l, k ∈ m.keys) → w.zero = false →
      eachKey (keepMap keptVariable m) (fun w k v =>
        if v.secret = "" then tagStr L w k v.value else printFromSecret L w k v.secret)
        (l.filter fun k => k ∈ (keepMap keptVariable m).keys) w =
      eachKey m (fun w k v =>
        if v.secret = "" then tagStr L w k v.value else printFromSecret L w k v.secret) l w := by
    intro l
    induction l with
    | nil => intro w _ _; rfl
    | cons k l ih =>
      intro w hl hz
      have hl' := fun x hx => hl x (List.mem_cons_of_mem _ hx)
      obtain ⟨o, ho⟩ := Option.isSome_iff_exists.1 (get?_isSome (hl k List.mem_cons_self))
      obtain ⟨v, rfl⟩ := Option.ne_none_iff_exists'.1 (h _ (GoMap.mem_of_get? ho))
      have hg := hget k
      rw [ho, Option.bind_some, Option.bind_some] at hg
      by_cases hs : v.secret = ""
      · by_cases hv : v.value = ""
        · have e : keptVariable v = none := by unfold keptVariable; rw [if_pos hs, if_pos hv]
          rw [e, Option.map_none] at hg
          rw [List.filter_cons_of_neg (by rw [decide_eq_true_eq, hmem, hg]; simp)]
          rw [ih w hl' hz]
          conv_rhs => unfold eachKey
          rw [ho]
          dsimp only
          rw [if_pos hs, tagStr, writeTagValue_skip L hz (by rw [hv]; rfl)]
        · have e : keptVariable v = some v := by unfold keptVariable; rw [if_pos hs, if_neg hv]
          rw [e, Option.map_some] at hg
          rw [List.filter_cons_of_pos (by rw [decide_eq_true_eq, hmem, hg]; simp)]
          unfold eachKey
          rw [ho, hg]
          dsimp only
          rw [if_pos hs]
          exact ih _ hl' ((writeTagValue_zero L _ _ _).trans hz)
      · have e : keptVariable v = some { secret := v.secret } := by unfold keptVariable; rw [if_neg hs]
        rw [e, Option.map_some] at hg
        rw [List.filter_cons_of_pos (by rw [decide_eq_true_eq, hmem, hg]; simp)]
        unfold eachKey
        rw [ho, hg]
        dsimp only
        rw [if_neg hs, if_neg hs]
        exact ih _ hl' ((printFromSecret_pos (C := ⟨True, False⟩) L w k v.secret).zero hz)
  unfold printEnviron
  rw [hkeys, key _ (writeTag L w "environment").inc (fun k hk => sortStrings_mem hk) ((writeTag_pos (C := ⟨True, False⟩) L w _).zero.trans hz)]

theorem ifSome_zero {α : Type} {o : Option α} {f : Writer → α → Writer} {w : Writer} (hz : w.zero = false)
    (hf : ∀ a, (f w a).zero = false) : (ifSome o f w).zero = false := by
  cases o with
  | none => exact hz
  | some a => exact hf a

theorem tight_container (L : PrettyLib) {d : Container} (h : TightContainer d) (hn : d.environment.keys.Nodup)
    (hc : NoNilContainer d) :
    ∃ d', keptContainer d = some d' ∧ ∀ w : Writer, w.zero = false → printContainer L w d' = printContainer L w d := by
  unfold keptContainer
  rw [if_neg h.present]
  refine ⟨_, rfl, fun w hz => ?_⟩
  have e1 : d.build.bind keptBuild = d.build := by
    cases e : d.build with
    | none => rfl
    | some b => exact if_neg fun hb => h.build (by rw [e, hb])
  have e2 : d.push.bind keptPush = d.push := by
    cases e : d.push with
    | none => rfl
    | some b => exact if_neg fun hb => h.push (by rw [e, hb])
  have e3 : keepList keptDevice d.devices = d.devices := keepList_fix fun o ho => by
    cases o with
    | none => exact absurd ho hc.devices
    | some v => exact ⟨v, rfl, if_neg fun e => h.devices (by rw [← e]; exact ho)⟩
  have e4 : keepList keptMount d.volumes = d.volumes := keepList_fix fun o ho => by
    cases o with
    | none => exact absurd ho hc.volumes
    | some v => exact ⟨v, rfl, if_neg fun e => h.volumes (by rw [← e]; exact ho)⟩
  have e5 : keepList some d.ports = d.ports := keepList_fix fun o ho => by
    cases o with
    | none => exact absurd ho hc.ports
    | some v => exact ⟨v, rfl, rfl⟩
  have hs : ∀ kv ∈ d.settings, ∃ v b : Parameter, kv.2 = some v ∧ keptParameter v = some b ∧ ∀ (w : Writer) (k : String),
      (if v.secret = "" then { writeTagValue L { w with zero := true } k (.val v.value) with zero := false }
        else printFromSecret L w k v.secret) =
      (if b.secret = "" then { writeTagValue L { w with zero := true } k (.val b.value) with zero := false }
        else printFromSecret L w k b.secret) := by
    intro kv hkv
    cases e : kv.2 with
    | none => exact absurd e (hc.settings kv hkv)
    | some v =>
      by_cases hs : v.secret = ""
      · exact ⟨v, v, rfl, by unfold keptParameter; rw [if_pos hs], fun _ _ => rfl⟩
      · refine ⟨v, { secret := v.secret }, rfl, by unfold keptParameter; rw [if_neg hs], fun _ _ => ?_⟩
        rw [if_neg hs, if_neg hs]
  have tot : ∀ {α : Type} {g : α → Option α} {m : GoMap (Option α)} {P : α → α → Prop},
      (∀ kv ∈ m, ∃ v b, kv.2 = some v ∧ g v = some b ∧ P v b) → ∀ kv ∈ m, ∃ v b, kv.2 = some v ∧ g v = some b := by
    intro α g m P h kv hkv
    obtain ⟨v, b, h1, h2, _⟩ := h kv hkv
    exact ⟨v, b, h1, h2⟩
  obtain ⟨k3, k4, _⟩ := keepMap_total (tot hs)
  have e7 : ∀ w, printSettings L w (keepMap keptParameter d.settings) = printSettings L w d.settings := by
    intro w
    unfold printSettings
    rw [k3, eachKey_keep hs]
  have k2 : decide ((keepMap keptVariable d.environment).length > 0) = decide (d.environment.length > 0) := by
    rw [decide_eq_decide, gt_iff_lt, gt_iff_lt, List.length_pos_iff, List.length_pos_iff]
    refine ⟨fun hk e => hk (by rw [e]; rfl), fun hd hk => ?_⟩
    obtain ⟨k, v, h1, h2⟩ := h.environment hd
    have := List.filterMap_eq_nil_iff.1 hk _ h1
    simp only [Option.bind_some, Option.map_eq_none_iff] at this
    unfold keptVariable at this
    split_ifs at this with a b
    exact h2.elim (· a) (· b)
  unfold printContainer
  dsimp only
  simp only [e1, e2, e3, e4, e5, h.resources, e7, k2, k4]
  refine Option.bind_congr fun w1 hw1 => ?_
  refine Option.bind_congr' ?_ fun _ _ => rfl
  unfold when?
  split_ifs
  · refine printEnviron_kept L hn hc.environment ?_
    have hz0 : (ifSome d.push (fun w p => tagStr L w "push" p.image) (ifSome d.build (printBuild L)
        (tagStr L (tagStr L (tagStr L w "name" d.name) "pull" d.pull) "image" d.image))).zero = false := by
      refine ifSome_zero (ifSome_zero ?_ fun b => (printBuild_pos (C := ⟨True, False⟩) L _ b).zero ?_) fun p =>
        (writeTagValue_zero L _ _ _).trans (ifSome_zero ?_ fun b => (printBuild_pos (C := ⟨True, False⟩) L _ b).zero ?_) <;>
      simp only [tagStr, writeTagValue_zero, hz]
    unfold when? at hw1
    split_ifs at hw1
    · refine (printSettings_pos (C := ⟨True, False⟩) L hw1).zero ?_
      simp only [tagStr, tagBool, writeTagValue_zero] at hz0 ⊢
      exact hz0
    · cases hw1
      simp only [tagStr, tagBool, writeTagValue_zero] at hz0 ⊢
      exact hz0
  · rfl

theorem printContainers_kept (L : PrettyLib) {l : List (Option Container)}
    (h : ∀ d, some d ∈ l → TightContainer d ∧ d.environment.keys.Nodup ∧ NoNilContainer d) (w : Writer) :
    printContainers L (keepList keptContainer l) w = printContainers L l w := by
  unfold keepList
  induction l generalizing w with
  | nil => rfl
  | cons o l ih =>
    have ih := ih fun o ho => h o (List.mem_cons_of_mem _ ho)
    cases o with
    | none => exact ih w
    | some d =>
      obtain ⟨hd, hn, hc⟩ := h d List.mem_cons_self
      obtain ⟨d', h1, h2⟩ := tight_container L hd hn hc
      rw [List.filterMap_cons, Option.bind_some, h1, List.map_cons]
      unfold printContainers
      refine congrArg₂ Option.bind ?_ (funext ih)
      unfold Writer.seq?
      dsimp only
      rw [h2 _ rfl]

theorem keepContainers_pos {l : List (Option Container)} (h : ∀ d, some d ∈ l → TightContainer d)
    (hs : l ≠ [] → ∃ d, some d ∈ l) : ((keepList keptContainer l).length > 0) = (l.length > 0) := by
  rw [gt_iff_lt, gt_iff_lt, List.length_pos_iff, List.length_pos_iff, eq_iff_iff]
  refine ⟨fun hk e => hk (by rw [e]; rfl), fun hl hk => ?_⟩
  obtain ⟨d, hd⟩ := hs hl
  unfold keepList at hk
  have := List.filterMap_eq_nil_iff.1 (List.map_eq_nil_iff.1 hk) _ hd
  rw [Option.bind_some, keptContainer, if_neg (h d hd).present] at this
  cases this

theorem printPipeline_kept (L : PrettyLib) {p : Pipeline} (h : TightPipeline p) (hm : GoMaps p) (hn : NoNilPipeline p)
    {w : Writer} (hz : w.zero = false) : printPipeline L w (keptPipeline p) = printPipeline L w p := by
  have e1 : keepList keptVolume p.volumes = p.volumes := keepList_fix fun o ho => by
    cases o with
    | none => exact absurd ho hn.volumes
    | some v =>
      obtain ⟨h1, h2⟩ := h.volumes v ho
      refine ⟨v, rfl, ?_⟩
      unfold keptVolume
      rw [if_neg h1]
      have : v.hostPath.bind keptHost = v.hostPath := by
        cases e : v.hostPath with
        | none => rfl
        | some x => exact if_neg fun hx => h2 (by rw [e, hx])
      rw [this]
  have e2 : ∀ w : Writer, w.zero = false → (if isPlatformEmpty (keptPlatform p.platform) then printPlatformDefault L w
      else printPlatform L w (keptPlatform p.platform)) =
      (if isPlatformEmpty p.platform then printPlatformDefault L w else printPlatform L w p.platform) := by
    intro w hz
    unfold keptPlatform
    by_cases hp : p.platform = {}
    · rw [if_pos hp, hp, if_neg (by decide), if_pos (by decide)]
      unfold printPlatform printPlatformDefault
      dsimp only
      have hz1 : (tagStr L (tagStr L (writeTag L w "platform").inc "os" "linux") "arch" "amd64").zero = false := by
        simp only [tagStr, writeTagValue_zero]
        exact (writeTag_pos (C := ⟨True, False⟩) L w _).zero.trans hz
      generalize tagStr L (tagStr L (writeTag L w "platform").inc "os" "linux") "arch" "amd64" = w1 at hz1 ⊢
      have skip : ∀ k, tagStr L w1 k "" = w1 := fun k => writeTagValue_skip L hz1 rfl
      rw [skip, skip]
    · rw [if_neg hp]
  have e3 := fun w => printContainers_kept L (l := p.steps)
    (fun d hd => ⟨h.steps d hd, (hm d (.inl hd)).2, hn.steps d hd⟩) w
  have e4 := fun w => printContainers_kept L (l := p.services)
    (fun d hd => ⟨h.services d hd, (hm d (.inr hd)).2, hn.services d hd⟩) w
  have e5 := keepContainers_pos h.steps h.someStep
  have e6 := keepContainers_pos h.services h.someService
  unfold printPipeline keptPipeline
  dsimp only
  rw [e2 _ (by simp only [tagStr, Writer.str, Writer.bytes, writeTagValue_zero, hz])]
  simp only [e1, e3, e4, e5, e6]
  rfl

theorem printSecret_kept (L : PrettyLib) {s : Secret} (h : DataOk s.data) (w : Writer) :
    printSecret L w (keptSecret s) = printSecret L w s := by
  have asc : ∀ {d : String}, DataOk d → ∀ c ∈ d.toList, c.toNat ≤ 0x7f := by
    intro d h c hc
    rcases h.ascii c hc with rfl | rfl | hc
    · decide
    · decide
    · omega
  have e1 : ∀ w, printData L w (keptData s.data) = printData L w s.data := by
    intro w
    unfold printData
    have : stripSpace (utf8 (keptData s.data)) = stripSpace (utf8 s.data) := by
      rw [utf8_eq, utf8_eq, stripSpace_ascii (asc (dataOk_kept h)), stripSpace_ascii (asc h)]
      exact congrArg utf8L (inked_kept s.data)
    rw [this]
  have e2 : (keptData s.data).length > 0 ↔ s.data.length > 0 := by
    have := keptData_eq_nil h
    rw [gt_iff_lt, gt_iff_lt, Nat.pos_iff_ne_zero, Nat.pos_iff_ne_zero, ne_eq, ne_eq, String.length_eq_zero_iff,
      String.length_eq_zero_iff, this]
  unfold printSecret keptSecret
  dsimp only
  simp only [e1, e2]
  by_cases hd : s.data = ""
  · by_cases hg : s.get = {}
    · have : isSecretGetEmpty s.get = true := by rw [hg]; rfl
      simp [hd, this]
    · simp only [hd, hg, and_false, if_false]
  · simp only [hd, false_and, if_false]

theorem print_kept (L : PrettyLib) {ram : String → Option Int} {m : Manifest} (h : Tight m)
    (hok : ∀ r ∈ m.resources, ResourceOk R L ram r) (hp : print L m ≠ none) : print L (keptManifest m) = print L m := by
  have hm : ∀ p, Resource.pipeline p ∈ m.resources → GoMaps p := by
    intro p hp c hc
    have hq : PipelineOk R L ram p := (hok _ hp).1
    rcases hc with hc | hc
    · exact ⟨(hq.steps c hc).settings.1, (hq.steps c hc).environment.1⟩
    · exact ⟨(hq.services c hc).settings.1, (hq.services c hc).environment.1⟩
  have hn : ∀ p, Resource.pipeline p ∈ m.resources → NoNilPipeline p := fun p hmem => by
    by_contra hn
    exact hp ((C69_panic L m hm).2 ⟨p, hmem, hn⟩)
  have key : ∀ (rs : List Resource) (w : Writer), (∀ r ∈ rs, r ∈ m.resources) → w.zero = false →
      printLoop L (rs.filterMap keptResource) w = printLoop L rs w := by
    intro rs
    induction rs with
    | nil => intro w _ _; rfl
    | cons r rs ih =>
      intro w hr hz
      have ih := fun w' (e : printResource L w r = some w') =>
        ih w' (fun x hx => hr x (List.mem_cons_of_mem _ hx)) ((C54_resource L w w' r e).2.1 hz)
      have hr := hr r List.mem_cons_self
      cases r with
      | registry x => exact ih w rfl
      | cron c => exact ih _ rfl
      | signature s => exact ih _ rfl
      | secret s =>
        show printLoop L _ (printSecret L w (keptSecret s)) = _
        rw [printSecret_kept L (show SecretOk R s from (hok _ hr).1).data, ih _ rfl]
        rfl
      | pipeline p =>
        show (printPipeline L w (keptPipeline p)).bind _ = _
        rw [printPipeline_kept L (h p hr) (hm p hr) (hn p hr) hz]
        exact Option.bind_congr fun w' hw' => ih w' hw'
  unfold print keptManifest
  rw [key _ _ (fun _ h => h) rfl]

/-! ### C103 -/

/-- C103: formatting leaves the text printed of a manifest as it is, if nothing empty is listed in the
manifest. -/
theorem C103_formatted_partial (L : PrettyLib) (ram : String → Option Int) (tree : Bytes → Except String Yaml.Node)
    (ht : Parses R tree) (m : Manifest) (text : Bytes) (h : print L m = some text) (hne : Spec.printable m ≠ [])
    (hlen : ShortLines text) (hok : ∀ r ∈ m.resources, ResourceOk R L ram r) (htight : Tight m) :
    format L (treeLib ram tree) text = some text := by
  obtain ⟨m', h1, h2⟩ := C85_second_partial R L ram tree ht m text h hne hlen hok
  unfold format
  rw [h1]
  dsimp only
  rw [h2, print_kept L htight hok (by rw [h]; exact Option.some_ne_none _), h]

/-! ### GitLab and Bitbucket -/

theorem Spec.SimplePipeline.tight {p : Pipeline} (h : SimplePipeline R p) : TightPipeline p := by
  have key : ∀ d, SimpleContainer R d → TightContainer d := by
    intro d hd
    refine ⟨fun hb => hd.present.elim (· hb.1) (· hb.2.2.1), ?_, ?_, ?_, ?_, ?_, ?_⟩ <;> rw [hd.eq] <;> simp
  have keys : ∀ l : List (Option Container), (∀ o ∈ l, ∃ d, o = some d ∧ SimpleContainer R d) →
      (∀ d, some d ∈ l → TightContainer d) ∧ (l ≠ [] → ∃ d, some d ∈ l) := by
    intro l hl
    refine ⟨fun d hd => ?_, fun hne => ?_⟩
    · obtain ⟨d', e, h'⟩ := hl _ hd
      cases e
      exact key d h'
    · obtain ⟨o, ho⟩ := List.exists_mem_of_ne_nil l hne
      obtain ⟨d, rfl, _⟩ := hl o ho
      exact ⟨d, ho⟩
  refine ⟨(keys _ h.steps).1, (keys _ h.services).1, (keys _ h.steps).2, (keys _ h.services).2, ?_⟩
  rw [h.eq]
  simp

theorem simple_formatted (L : PrettyLib) (ram : String → Option Int) {tree : Bytes → Except String Yaml.Node}
    (ht : Parses R tree) {ps : List Pipeline} {text : Bytes} (h : print L ⟨ps.map .pipeline⟩ = some text) (hne : ps ≠ [])
    (hlen : ShortLines text) (hps : ∀ p ∈ ps, SimplePipeline R p) : format L (treeLib ram tree) text = some text := by
  have e : Spec.printable ⟨ps.map .pipeline⟩ = ps.map .pipeline := by
    unfold Spec.printable
    rw [List.filter_eq_self]
    rintro r hr
    obtain ⟨p, _, rfl⟩ := List.mem_map.1 hr
    rfl
  refine C103_formatted_partial (R := R) L ram tree ht _ text h (by rw [e]; simpa using hne) hlen ?_ ?_
  · rintro r hr
    obtain ⟨p, hp, rfl⟩ := List.mem_map.1 hr
    refine ⟨(hps p hp).ok L ram, ?_⟩
    rw [(hps p hp).eq]
    simp
  · intro p hp
    obtain ⟨p', hp', e⟩ := List.mem_map.1 hp
    cases e
    exact (hps p hp').tight

/-- C103: what is converted from a GitLab file is formatted. -/
theorem C103_gitlab_partial (L : PrettyLib) (ram : String → Option Int) (tree : Bytes → Except String Yaml.Node)
    (ht : Parses R tree) (dg : Img.DigestLib) (it : Orders (Option Gitlab.Job))
    (decode : Bytes → Except String Gitlab.Config) (file text : Bytes) (c : Gitlab.Config) (hd : decode file = .ok c)
    (h : Gitlab.convert L dg it decode file = some (.ok text)) (hr : GitlabReadable R dg c)
    (hs : c.stages ≠ [] ∨ c.jobs ≠ []) (hlen : ShortLines text) : format L (treeLib ram tree) text = some text := by
  unfold Gitlab.convert at h
  rw [hd] at h
  dsimp only at h
  obtain ⟨ps, h1, h2⟩ := Option.bind_eq_some_iff.1 h
  obtain ⟨text', h2, e⟩ := Option.map_eq_some_iff.1 h2
  cases e
  refine simple_formatted L ram ht h2 ?_ hlen (Gitlab.toPipelines_simple hr h1)
  rintro rfl
  unfold Gitlab.toPipelines at h1
  obtain ⟨c', hc, h1⟩ := Option.bind_eq_some_iff.1 h1
  have hnil : c'.stages = [] := by
    cases hc' : c'.stages with
    | nil => rfl
    | cons a as =>
      rw [hc', Gitlab.stageLoop] at h1
      obtain ⟨_, _, h1⟩ := Option.bind_eq_some_iff.1 h1
      obtain ⟨_, _, h1⟩ := Option.bind_eq_some_iff.1 h1
      obtain ⟨_, _, h1⟩ := Option.map_eq_some_iff.1 h1
      cases h1
  unfold Gitlab.withStages at hc
  split_ifs at hc with i1 i2
  · cases hc
    have := List.map_eq_nil_iff.1 hnil
    have hp := it.perm 0 c.jobs
    rw [this] at hp
    exact hs.elim (· (List.length_eq_zero_iff.1 i1)) (· hp.nil_eq.symm)
  · cases hc
    exact i1 (by rw [hnil]; rfl)

/-- C103: what is converted from a Bitbucket file is formatted. -/
theorem C103_bitbucket_partial (L : PrettyLib) (ram : String → Option Int) (tree : Bytes → Except String Yaml.Node)
    (ht : Parses R tree) (g : Glob) (it : Orders (List (Option Bitbucket.Step))) (its : Orders (Option Bitbucket.Step))
    (decode : Bytes → Except String Bitbucket.Config) (file text : Bytes) (ref : String) (c : Bitbucket.Config)
    (hd : decode file = .ok c) (h : Bitbucket.convert L g it its decode file ref = some (.ok text))
    (hr : ∀ l, Takes g c ref l → BitbucketReadable R c l) (hlen : ShortLines text) :
    format L (treeLib ram tree) text = some text := by
  unfold Bitbucket.convert at h
  rw [hd] at h
  dsimp only at h
  obtain ⟨p, h1, h2⟩ := Option.bind_eq_some_iff.1 h
  obtain ⟨text', h2, e⟩ := Option.map_eq_some_iff.1 h2
  cases e
  have hp := Bitbucket.toPipeline_simple h1 (hr _ (C64_selection g it c ref))
  exact simple_formatted (ps := [p]) L ram ht h2 (by simp) hlen (by simpa using hp)

/-! ### Legacy files -/

theorem last_some {α : Type} : ∀ {l : List (Option α)}, (∃ a, some a ∈ l) →
    ∃ l1 a l2, l = l1 ++ some a :: l2 ∧ ∀ b, some b ∉ l2
  | [], h => by obtain ⟨a, h⟩ := h; cases h
  | o :: l, h => by
    by_cases hl : ∃ a, some a ∈ l
    · obtain ⟨l1, a, l2, rfl, h2⟩ := last_some hl
      exact ⟨o :: l1, a, l2, rfl, h2⟩
    · obtain ⟨a, h⟩ := h
      rcases List.mem_cons.1 h with rfl | h
      · exact ⟨[], a, l, rfl, fun b hb => hl ⟨b, hb⟩⟩
      · exact absurd ⟨a, h⟩ hl

theorem converted_tight {upper : String → String} {x : Legacy.Container} {d : Drone.Container} (h : Converted upper x d)
    (hx : TidyLegacy x) (hn : x.environment.keys.Nodup) (hl : Live d) : TightContainer d := by
  obtain ⟨r1, r2, r3, r4, r5, r6, r7, r⟩ := h.rest
  refine ⟨fun hb => hl.1 hb.2.1, by simp [r1], by simp [r6], by simp [r7], fun hne => ?_, by simp [r2], fun hv => ?_⟩
  · by_cases hs : ∃ s, some s ∈ x.secrets
    · obtain ⟨l1, s, l2, e, h2⟩ := last_some hs
      have := h.secret l1 s l2 e fun t ht => absurd ht (h2 t)
      exact ⟨_, _, GoMap.mem_of_get? this, .inl (hx.sources s (by rw [e]; simp))⟩
    · have hp := fun k => h.plain k fun s hm => absurd ⟨s, hm⟩ hs
      obtain ⟨⟨k, o⟩, hk⟩ := List.exists_mem_of_ne_nil _ hne
      have hx0 : x.environment ≠ [] := by
        intro e
        have := hp k
        rw [e] at this
        exact GoMap.get?_eq_none.1 this (List.mem_map_of_mem hk)
      obtain ⟨⟨k', v⟩, hm, hv⟩ := (hx.environment hx0).resolve_left hs
      have := hp k'
      rw [GoMap.get?_of_mem hn hm, Option.map_some] at this
      exact ⟨k', _, GoMap.mem_of_get? this, .inr hv⟩
  · obtain ⟨m, e, hm⟩ := hl.2 _ hv
    cases e
    exact hm rfl

/-- What a legacy file is converted to can be read again. -/
theorem legacy_ok {X : Legacy.LegacyLib} (ram : String → Option Int) {env : Legacy.Env} {file : Bytes} {remote : String}
    {c : Legacy.Config} {m : Manifest} (hm : c.hasMatrix = false)
    (hr : LegacyFile R X.pretty X.upper c (Legacy.toWorkspace X env c remote).base (Legacy.toWorkspace X env c remote).path)
    (hman : Legacy.toManifest X env file c remote = some (.ok m)) :
    Spec.printable m ≠ [] ∧ ∀ r ∈ m.resources, ResourceOk R X.pretty ram r := by
  obtain ⟨p, hp, hres⟩ := toManifest_plain hm hman
  obtain ⟨hok, hkind, _⟩ := toPipeline_ok ram hr hp
  constructor
  · unfold Spec.printable
    rw [hres]
    simp
  · rw [hres]
    intro r hmem
    rcases List.mem_cons.1 hmem with rfl | hmem
    · exact ⟨hok, by rw [hkind]; decide⟩
    · obtain ⟨s, hs, rfl⟩ := List.mem_map.1 hmem
      obtain ⟨⟨k, v⟩, he, rfl⟩ := List.mem_map.1 ((toSecrets_perm hr.secrets.1).mem_iff.1 hs)
      obtain ⟨s1, s2, s3, s4⟩ := hr.secrets.2 k v he
      exact ⟨toSecret_ok s1 s2 s3 s4, by rw [toSecret_place]⟩

/-- C103: what is converted from a legacy file without matrix is formatted, unless all variables of
some container are empty or a secret has no source. -/
theorem C103_legacy_partial (X : Legacy.LegacyLib) (ram : String → Option Int) (tree : Bytes → Except String Yaml.Node)
    (ht : Parses R tree) (env : Legacy.Env) (file text : Bytes) (remote : String) (c : Legacy.Config)
    (hd : X.decode (if Legacy.hasMergeKeys file then X.expand file else file) = .ok c) (hm : c.hasMatrix = false)
    (h : Legacy.convert X env file remote = some (.ok text))
    (hr : LegacyFile R X.pretty X.upper c (Legacy.toWorkspace X env c remote).base (Legacy.toWorkspace X env c remote).path)
    (hx : ∀ x ∈ c.clone ++ c.pipeline ++ c.services, TidyLegacy x) (hlen : ShortLines text) :
    format X.pretty (treeLib ram tree) text = some text := by
  unfold Legacy.convert at h
  dsimp only at h
  rw [hd] at h
  dsimp only at h
  generalize (if Legacy.hasMergeKeys file then X.expand file else file) = file' at h hd
  obtain ⟨m, hman, h⟩ := andThen_ok h
  obtain ⟨text', hprint, e⟩ := Option.map_eq_some_iff.1 h
  cases e
  obtain ⟨hne, hok⟩ := legacy_ok ram hm hr hman
  refine C103_formatted_partial (R := R) X.pretty ram tree ht m text hprint hne hlen hok fun p hmem => ?_
  have hmaps : ∀ x ∈ c.clone ++ c.pipeline ++ c.services, x.Maps := fun x hx =>
    ⟨(hr.containers x hx).environment.1, (hr.containers x hx).vargs.1⟩
  obtain ⟨p1, hp, hres⟩ := toManifest_plain hm hman
  obtain ⟨p2, _, pre, all, services, r1, a1, a2, a3, _, a5, a6, _⟩ := C71_containers X env file' c remote m hm hman hmaps
  have e1 : p2 = p1 := by rw [hres] at r1; cases r1; rfl
  have e2 : p = p1 := by
    rw [hres] at hmem
    rcases List.mem_cons.1 hmem with h | h
    · cases h; rfl
    · obtain ⟨s, _, e⟩ := List.mem_map.1 h
      cases e
  subst e1 e2
  obtain ⟨_, _, _, _, _, hlive, hvols⟩ := toPipeline_ok ram hr hp
  have live : ∀ d, some d ∈ p.steps ++ p.services → Live d := by
    intro d hd
    obtain ⟨d', e, hl⟩ := hlive _ hd
    cases e
    exact hl
  refine ⟨fun d hd => ?_, fun d hd => ?_, fun hne => ?_, fun hne => ?_, fun v hv => ?_⟩
  · have hl := live d (List.mem_append_left _ hd)
    rw [a1] at hd
    obtain ⟨d', hd', e⟩ := List.mem_map.1 hd
    cases e
    rcases List.mem_append.1 hd' with hd' | hd'
    · rcases a6 with ⟨rfl, _⟩ | ⟨rfl, _⟩
      · cases hd'
      · cases List.mem_singleton.1 hd'
        exact ⟨fun hb => hl.1 hb.2.1, nofun, nofun, rfl, fun h => absurd rfl h, nofun, nofun⟩
    · obtain ⟨x, hm, hc⟩ := forall₂_right a3 hd'
      have hm' := List.mem_append_left c.services hm
      exact converted_tight hc (hx x hm') (hmaps x hm').1 hl
  · have hl := live d (List.mem_append_right _ hd)
    rw [a2] at hd
    obtain ⟨d', hd', e⟩ := List.mem_map.1 hd
    cases e
    obtain ⟨x, hm, hc⟩ := forall₂_right a5 hd'
    have hm' := List.mem_append_right (c.clone ++ c.pipeline) hm
    exact converted_tight hc.1 (hx x hm') (hmaps x hm').1 hl
  · obtain ⟨o, ho⟩ := List.exists_mem_of_ne_nil _ hne
    obtain ⟨d, rfl, _⟩ := hlive _ (List.mem_append_left _ ho)
    exact ⟨d, ho⟩
  · obtain ⟨o, ho⟩ := List.exists_mem_of_ne_nil _ hne
    obtain ⟨d, rfl, _⟩ := hlive _ (List.mem_append_right _ ho)
    exact ⟨d, ho⟩
  · obtain ⟨s, hs, e⟩ := hvols _ hv
    cases e
    refine ⟨fun e => ?_, fun e => ?_⟩
    · exact hexName_ne hs (congrArg Volume.name e)
    · simp only [Option.some.injEq, VolumeHostPath.mk.injEq] at e
      exact hs e

/-! ### Examples -/

/-- A legacy file all of whose variables are empty. -/
def exBlankFile : Legacy.Config where
  pipeline := [{ name := "build", image := "golang", commands := ["go build"], environment := [("EMPTY", "")] }]

def exBlankLib : Legacy.LegacyLib := { exLegacy with decode := fun _ => .ok exBlankFile }

/-- What it is converted to. -/
def exBlankManifest : Manifest := ⟨[.pipeline {
  kind := "pipeline"
  name := "default"
  steps := [some {
    name := "build"
    pull := "if-not-exists"
    image := "golang"
    commands := ["go build"]
    environment := [("EMPTY", some {})] }] }]⟩

/-- The text it is converted to. -/
def exBlankText : Bytes := utf8
  "---\nkind: pipeline\nname: default\n\nplatform:\n  os: linux\n  arch: amd64\n\nsteps:\n- name: build\n  pull: if-not-exists\n  image: golang\n  commands:\n  - go build\n  environment:\n\n...\n"

/-- C103, the condition is needed: a file all of whose variables are empty is converted to text with an
`environment` without entries, which formatting removes. -/
theorem C103_blank_changes (ram : String → Option Int) : ∃ tree, Parses exResolver tree ∧
    Legacy.convert exBlankLib {} [] "" = some (.ok exBlankText) ∧
    format exPretty (treeLib ram tree) exBlankText = some (utf8
      "---\nkind: pipeline\nname: default\n\nplatform:\n  os: linux\n  arch: amd64\n\nsteps:\n- name: build\n  pull: if-not-exists\n  image: golang\n  commands:\n  - go build\n\n...\n") := by
  obtain ⟨tree, ht⟩ := parser_exists exResolver
  have hconv : Legacy.convert exBlankLib {} [] "" = some (.ok exBlankText) := by decide +kernel
  have pn : PlainName "build" := by unfold PlainName Unescaped; decide
  have nc : CondOk exResolver {} := ⟨nofun, nofun⟩
  have hr : LegacyFile exResolver exPretty exBlankLib.upper exBlankFile
      (Legacy.toWorkspace exBlankLib {} exBlankFile "").base (Legacy.toWorkspace exBlankLib {} exBlankFile "").path := by
    refine ⟨?_, ⟨rd "", rd ""⟩, ⟨nc, nofun⟩, ⟨by decide, nofun⟩⟩
    intro x hx
    simp only [exBlankFile, List.append_nil, List.nil_append, List.mem_singleton] at hx
    subst hx
    refine ⟨⟨rd "build", pn⟩, rd "golang", nofun, ?_, nofun, nofun, nofun, nofun, ⟨by decide, ?_⟩, nofun,
        ⟨by decide, nofun⟩, nofun, nc, nc, nc, nc, nc, nc, nc⟩
    · intro s hs
      rw [List.mem_singleton] at hs
      subst hs
      exact rd "go build"
    · intro k v hv
      simp only [List.mem_singleton, Prod.mk.injEq] at hv
      obtain ⟨rfl, rfl⟩ := hv
      exact ⟨wk _ "EMPTY", rd ""⟩
  obtain ⟨m, hm, hp, hk⟩ : ∃ m, Legacy.toManifest exBlankLib {} [] exBlankFile "" = some (.ok m) ∧
      print exPretty m = some exBlankText ∧ print exPretty (keptManifest m) = some (utf8
      "---\nkind: pipeline\nname: default\n\nplatform:\n  os: linux\n  arch: amd64\n\nsteps:\n- name: build\n  pull: if-not-exists\n  image: golang\n  commands:\n  - go build\n\n...\n") :=
    ⟨exBlankManifest, rfl, by decide +kernel, by decide +kernel⟩
  obtain ⟨hne, hok⟩ := legacy_ok (R := exResolver) ram (file := []) rfl hr hm
  obtain ⟨m', h1, h2⟩ := C85_second_partial exResolver exPretty ram tree ht m exBlankText hp hne
    ⟨rawLines _, rawLines_isLines _, by decide +kernel⟩ hok
  refine ⟨tree, ht, hconv, ?_⟩
  unfold format
  rw [h1]
  exact h2.trans hk

/-- The legacy file of C102, with an empty variable next to others, and the GitLab file of C63 are converted to
formatted text. -/
example (ram : String → Option Int) : ∃ tree, Parses exResolver tree ∧
    format exPretty (treeLib ram tree) exLegacyText = some exLegacyText ∧
    format exPretty (treeLib ram tree) exGitlabText = some exGitlabText := by
  obtain ⟨tree, ht⟩ := parser_exists exResolver
  refine ⟨tree, ht, ?_, ?_⟩
  · refine C103_legacy_partial exLegacyLib ram tree ht {} [] exLegacyText "" exLegacyFile rfl rfl (by decide +kernel)
      exLegacyFile_readable ?_ ⟨rawLines _, rawLines_isLines _, by decide +kernel⟩
    intro x hx
    simp only [exLegacyFile, List.cons_append, List.nil_append, List.mem_cons, List.not_mem_nil, or_false] at hx
    rcases hx with rfl | rfl | rfl
    · exact ⟨by simp, fun _ => .inl ⟨_, List.mem_singleton.2 rfl⟩⟩
    · exact ⟨nofun, fun h => absurd rfl h⟩
    · exact ⟨nofun, fun h => absurd rfl h⟩
  · exact C103_gitlab_partial exPretty ram tree ht exDigest (exOrders _) (fun _ => .ok exGitlab) [] exGitlabText exGitlab rfl (by decide +kernel)
      exGitlab_readable (by decide) ⟨rawLines _, rawLines_isLines _, by decide +kernel⟩

/-- A Bitbucket file with two steps and a service. -/
example (ram : String → Option Int) : ∃ tree text, Parses exResolver tree ∧
    Bitbucket.convert exPretty (fun p v => p == v) (exOrders _) (exOrders _) (fun _ => .ok {
      image := "node", depth := 5, default_ := [some { script := ["npm test"] }, some { name := "push", script := ["npm publish"] }],
      services := [("db", some { image := "postgres" })] }) [] "refs/heads/master" = some (.ok text) ∧
    format exPretty (treeLib ram tree) text = some text := by
  obtain ⟨tree, ht⟩ := parser_exists exResolver
  obtain ⟨text, h, hl⟩ : ∃ text, Bitbucket.convert exPretty (fun p v => p == v) (exOrders _) (exOrders _)
      (fun _ => .ok {
        image := "node", depth := 5, default_ := [some { script := ["npm test"] }, some { name := "push", script := ["npm publish"] }],
        services := [("db", some { image := "postgres" })] }) [] "refs/heads/master" = some (.ok text) ∧
      ∀ l ∈ rawLines text, l.length < 65536 :=
    ⟨utf8 "---\nkind: pipeline\nname: default\n\nplatform:\n  os: linux\n  arch: amd64\n\nclone:\n  depth: 5\n\nsteps:\n- name: step_0\n  image: node\n  commands:\n  - npm test\n\n- name: push\n  image: node\n  commands:\n  - npm publish\n\nservices:\n- name: db\n  image: postgres\n\n...\n",
      by decide +kernel, by decide +kernel⟩
  exact ⟨tree, text, ht, h, C103_bitbucket_partial exPretty ram tree ht _ (exOrders _) (exOrders _) _ [] text
    "refs/heads/master" _ rfl h (fun l hl => exBitbucket_readable l hl) ⟨rawLines _, rawLines_isLines _, hl⟩⟩

end Drone
