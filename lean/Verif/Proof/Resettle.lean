/-
What is read back survives again: the resources read from formatted text meet the conditions under
which they are read back.
-/
import Mathlib.Tactic.Common
import Verif.Props.ReadBack

namespace Drone
open Spec Yaml Pretty

variable {R : Resolver} {L : PrettyLib} {ram : String → Option Int}

/-! ### Maps -/

theorem sorted_nodup {α : Type} {m : GoMap α} (hn : m.keys.Nodup) : (sorted m).keys.Nodup :=
  (((sorted_perm hn).map Prod.fst).nodup_iff).2 hn

theorem sorted_get {α : Type} {m : GoMap α} (hn : m.keys.Nodup) {k : String} {v : α}
    (h : (sorted m).get? k = some v) : m.get? k = some v :=
  GoMap.get?_of_mem hn ((sorted_perm hn).mem_iff.1 (GoMap.mem_of_get? h))

theorem sorted_eq_nil {α : Type} {m : GoMap α} (hn : m.keys.Nodup) : sorted m = [] ↔ m = [] := by
  constructor
  · intro h
    have := sorted_perm hn
    rw [h] at this
    exact this.nil_eq.symm
  · rintro rfl; rfl

theorem strMapOk_sorted {m : GoMap String} (h : StrMapOk R L m) : StrMapOk R L (sorted m) :=
  ⟨sorted_nodup h.1, fun k v hk => h.2 k v (sorted_get h.1 hk)⟩

theorem keptMapS_nodup {α β : Type} (g : α → Option β) {m : GoMap (Option α)} (hn : m.keys.Nodup) :
    (keptMapS g m).keys.Nodup :=
  (((keptMapS_perm g hn).map Prod.fst).nodup_iff).2 ((keepMap_keys g m).nodup hn)

theorem keptMapS_mem {α β : Type} (g : α → Option β) {m : GoMap (Option α)} (hn : m.keys.Nodup) {k : String}
    {o : Option β} (h : (k, o) ∈ keptMapS g m) : ∃ a b, o = some b ∧ (k, some a) ∈ m ∧ g a = some b := by
  have h := (keptMapS_perm g hn).mem_iff.1 h
  unfold keepMap at h
  obtain ⟨⟨k', o'⟩, h1, h2⟩ := List.mem_filterMap.1 h
  obtain ⟨b, h3, h4⟩ := Option.map_eq_some_iff.1 h2
  obtain ⟨a, h5, h6⟩ := Option.bind_eq_some_iff.1 h3
  simp only at h5
  subst h5
  simp only [Prod.mk.injEq] at h4
  obtain ⟨rfl, rfl⟩ := h4
  exact ⟨a, b, rfl, h1, h6⟩

theorem keptMapS_get {α β : Type} (g : α → Option β) {m : GoMap (Option α)} (hn : m.keys.Nodup) {k : String}
    {b : β} (h : (keptMapS g m).get? k = some (some b)) : ∃ a, m.get? k = some (some a) ∧ g a = some b := by
  obtain ⟨a, b', e, h1, h2⟩ := keptMapS_mem g hn (GoMap.mem_of_get? h)
  cases e
  exact ⟨a, GoMap.get?_of_mem hn h1, h2⟩

/-! ### Values -/

theorem entriesOk_iff (kvs : List (Value × Value)) : EntriesOk R L kvs ↔ ∀ kv ∈ kvs,
    (∃ s, kv.1 = .str s ∧ ReadableKey R L s ∧ (WrittenPlain s.toList → R.plain s = some .str)) ∧ ValOk R L kv.2 := by
  induction kvs with
  | nil => simp [EntriesOk]
  | cons p kvs ih =>
    obtain ⟨k, v⟩ := p
    simp only [EntriesOk, ih, List.mem_cons, forall_eq_or_imp]
    exact and_assoc.symm

mutual
theorem sortV_ok (v : Value) (h : ValOk R L v) : ValOk R L (sortV v) := by
  cases v with
  | null => exact h
  | bool b => exact h
  | int i => exact h
  | float q => exact h
  | str s => exact h
  | seq xs => exact sortVs_ok xs h
  | map kvs =>
    rw [sortV_map]
    have hn := sortEs_nodup L h.1 h.2
    refine ⟨(entriesOk_iff _).2 fun kv hkv => ?_, ?_⟩
    · obtain ⟨kv', h1, rfl⟩ := List.mem_map.1 hkv
      obtain ⟨h2, h3⟩ := sortEs_ok kvs h.1 kv' ((sorted_perm hn).mem_iff.1 h1)
      exact ⟨⟨kv'.1, rfl, h2⟩, h3⟩
    · have : (strKeys (sorted (sortEs kvs))).map Prod.fst = (sorted (sortEs kvs)).keys.map Value.str := by
        simp [strKeys, GoMap.keys, Function.comp_def]
      rw [this]
      exact (List.nodup_map_iff fun a b h => by simpa using h).2 (sorted_nodup hn)
theorem sortVs_ok (xs : List Value) (h : ValsOk R L xs) : ValsOk R L (sortVs xs) := by
  cases xs with
  | nil => trivial
  | cons x xs => exact ⟨sortV_ok x h.1, sortVs_ok xs h.2⟩
theorem sortEs_ok (kvs : List (Value × Value)) (h : EntriesOk R L kvs) : ∀ kv ∈ sortEs kvs,
    (ReadableKey R L kv.1 ∧ (WrittenPlain kv.1.toList → R.plain kv.1 = some .str)) ∧ ValOk R L kv.2 := by
  cases kvs with
  | nil => simp [sortEs]
  | cons p kvs =>
    obtain ⟨a, v⟩ := p
    obtain ⟨⟨s, rfl, h1⟩, h2, h3⟩ := h
    intro kv hkv
    simp only [sortEs, List.mem_cons] at hkv
    rcases hkv with rfl | hkv
    · exact ⟨h1, sortV_ok v h2⟩
    · exact sortEs_ok kvs h3 kv hkv
end

theorem settingsOk_read {m : GoMap (Option Parameter)} (h : SettingsOk R L m) :
    SettingsOk R L (keptMapS sortParam m) := by
  refine ⟨keptMapS_nodup _ h.1, fun k p hk => ?_⟩
  obtain ⟨a, h1, h2⟩ := keptMapS_get _ h.1 hk
  obtain ⟨g1, g2, g3⟩ := h.2 _ _ h1
  unfold sortParam at h2
  split at h2
  · rename_i hs
    simp only [Option.some.injEq] at h2
    subst h2
    obtain ⟨v1, v2, v3, v4⟩ := g3 hs
    refine ⟨g1, by rw [hs] at g2; exact g2, fun _ => ⟨sortV_ok _ v1, ?_, ?_, ?_⟩⟩
    · dsimp only
      revert v2
      generalize a.value = v
      intro v2
      cases v <;> simp_all [sortV]
    · dsimp only
      revert v3
      generalize a.value = v
      intro v3
      cases v with
      | seq xs => cases xs <;> simp_all [sortV, sortVs]
      | _ => simp [sortV]
    · rintro ⟨kvs, w, e, hm, n1, n2, n3, n4⟩
      dsimp only at e
      cases hv : a.value with
      | map kvs' =>
        rw [hv] at e v1 v4
        rw [sortV_map] at e
        cases e
        obtain ⟨kv, e1, e2⟩ := List.mem_map.1 hm
        simp only [Prod.mk.injEq, Value.str.injEq] at e2
        obtain ⟨kk, vv⟩ := kv
        simp only at e2
        obtain ⟨rfl, rfl⟩ := e2
        obtain ⟨w, hw, rfl⟩ := sortEs_mem L kvs' v1.1 _ _ ((sorted_perm (sortEs_nodup L v1.1 v1.2)).mem_iff.1 e1)
        refine v4 ⟨kvs', w, rfl, hw, ?_, ?_, ?_, ?_⟩
        · rintro rfl; exact n1 rfl
        · rintro rfl; exact n2 rfl
        · rintro xs rfl; exact n3 _ rfl
        · rintro m rfl; exact n4 _ rfl
      | _ => rw [hv] at e; simp [sortV] at e
  · rename_i hs
    simp only [Option.some.injEq] at h2
    subst h2
    exact ⟨g1, g2, fun e => absurd e hs⟩

theorem envOk_read {m : GoMap (Option Variable)} (h : EnvOk R L m) : EnvOk R L (keptMapS keptVariable m) := by
  refine ⟨keptMapS_nodup _ h.1, fun k p hk => ?_⟩
  obtain ⟨a, h1, h2⟩ := keptMapS_get _ h.1 hk
  obtain ⟨g1, g2, g3⟩ := h.2 _ _ h1
  unfold keptVariable at h2
  split at h2
  · rename_i hs
    split at h2
    · simp at h2
    · simp only [Option.some.injEq] at h2
      subst h2
      exact ⟨g1, g2, g3⟩
  · rename_i hs
    simp only [Option.some.injEq] at h2
    subst h2
    exact ⟨g1, fun e => absurd e hs, g3⟩

/-! ### Containers -/

theorem mem_keepList' {α β : Type} {f : α → Option β} {l : List (Option α)} {b : β} :
    some b ∈ keepList f l ↔ ∃ a, some a ∈ l ∧ f a = some b := by
  unfold keepList
  simp only [List.mem_map, List.mem_filterMap, Option.bind_eq_some_iff, Option.some.injEq, exists_eq_right]
  constructor
  · rintro ⟨o', ho, a, rfl, hb⟩
    exact ⟨a, ho, hb⟩
  · rintro ⟨a, h1, h2⟩
    exact ⟨_, h1, a, rfl, h2⟩

theorem buildOk_sort {b : Build} (h : BuildOk R L b) : BuildOk R L (sortBuild b) :=
  ⟨strMapOk_sorted h.1, h.2.1, h.2.2.1, h.2.2.2.1, h.2.2.2.2.1, strMapOk_sorted h.2.2.2.2.2⟩

theorem condsOk_kept {c : Conditions} (h : CondsOk R c) : CondsOk R (keptConditions c) := h

theorem containerOk_read {c : Container} (h : ContainerOk R L ram c) : ContainerOk R L ram (readContainer c) where
  name := h.name
  pull := h.pull
  image := h.image
  build := by
    intro b hb
    obtain ⟨b', h1, rfl⟩ := Option.map_eq_some_iff.1 hb
    obtain ⟨b0, h2, h3⟩ := Option.bind_eq_some_iff.1 h1
    unfold keptBuild at h3
    split at h3
    · simp at h3
    · simp only [Option.some.injEq] at h3
      subst h3
      exact buildOk_sort (h.build _ h2)
  push := by
    intro b hb
    obtain ⟨b0, h2, h3⟩ := Option.bind_eq_some_iff.1 hb
    unfold keptPush at h3
    split at h3
    · simp at h3
    · simp only [Option.some.injEq] at h3
      subst h3
      exact h.push _ h2
  user := h.user
  shell := h.shell
  entrypoint := h.entrypoint
  command := h.command
  commands := h.commands
  dns := h.dns
  dnsSearch := h.dnsSearch
  extraHosts := h.extraHosts
  network := h.network
  settings := settingsOk_read h.settings
  environment := envOk_read h.environment
  failure := h.failure
  workingDir := h.workingDir
  devices := by
    intro v hv
    obtain ⟨a, h1, h2⟩ := mem_keepList'.1 hv
    unfold keptDevice at h2
    split at h2
    · simp at h2
    · simp only [Option.some.injEq] at h2
      subst h2
      exact h.devices _ h1
  ports := by
    intro v hv
    obtain ⟨a, h1, h2⟩ := mem_keepList'.1 hv
    simp only [Option.some.injEq] at h2
    subst h2
    exact h.ports _ h1
  resources := by
    intro r hr
    obtain ⟨r0, h1, h2⟩ := Option.bind_eq_some_iff.1 hr
    unfold keptResources at h2
    split at h2
    · simp at h2
    simp only [Option.some.injEq] at h2
    subst h2
    have key : ∀ {o : Option ResourceObject}, (∀ x, o = some x → ObjectOk R L ram x) →
        ∀ x, o.bind keptObject = some x → ObjectOk R L ram x := by
      intro o ho x hx
      obtain ⟨y, h1, h2⟩ := Option.bind_eq_some_iff.1 hx
      unfold keptObject at h2
      split at h2
      · simp at h2
      · simp only [Option.some.injEq] at h2
        subst h2
        exact ho _ h1
    obtain ⟨g1, g2⟩ := h.resources _ h1
    exact ⟨key g1, key g2⟩
  volumes := by
    intro v hv
    obtain ⟨a, h1, h2⟩ := mem_keepList'.1 hv
    unfold keptMount at h2
    split at h2
    · simp at h2
    · simp only [Option.some.injEq] at h2
      subst h2
      exact h.volumes _ h1
  cond := condsOk_kept h.cond
  dependsOn := h.dependsOn

theorem containersOk_read {l : List (Option Container)} (h : ∀ c, some c ∈ l → ContainerOk R L ram c) :
    ∀ c, some c ∈ keepList (fun c => if blankContainer c then none else some (readContainer c)) l →
      ContainerOk R L ram c := by
  intro c hc
  obtain ⟨a, h1, h2⟩ := mem_keepList'.1 hc
  split at h2
  · simp at h2
  · simp only [Option.some.injEq] at h2
    subst h2
    exact containerOk_read (h _ h1)

/-! ### Documents -/

theorem pipelineOk_read {p : Pipeline} (h : PipelineOk R L ram p) : PipelineOk R L ram (readPipeline p) where
  version := h.version
  kind := h.kind
  type := h.type
  name := h.name
  platform := by
    show Readable R (keptPlatform p.platform).os ∧ Readable R (keptPlatform p.platform).arch ∧
      Readable R (keptPlatform p.platform).variant ∧ Readable R (keptPlatform p.platform).version
    unfold keptPlatform
    split
    · exact ⟨rd _, rd _, rd _, rd _⟩
    · exact h.platform
  clone := h.clone
  concurrency := h.concurrency
  workspace := h.workspace
  steps := containersOk_read h.steps
  services := containersOk_read h.services
  volumes := by
    intro v hv
    obtain ⟨a, h1, h2⟩ := mem_keepList'.1 hv
    unfold keptVolume at h2
    split at h2
    · simp at h2
    simp only [Option.some.injEq] at h2
    subst h2
    obtain ⟨g1, g2, g3⟩ := h.volumes _ h1
    refine ⟨g1, g2, fun x hx => ?_⟩
    obtain ⟨y, e1, e2⟩ := Option.bind_eq_some_iff.1 hx
    unfold keptHost at e2
    split at e2
    · simp at e2
    · simp only [Option.some.injEq] at e2
      subst e2
      exact g3 _ e1
  pullSecrets := h.pullSecrets
  node := strMapOk_sorted h.node
  trigger := condsOk_kept h.trigger
  dependsOn := h.dependsOn

theorem pieces_flatten (n : Nat) (hn : 0 < n) : ∀ fuel (s : List Char), s.length ≤ fuel → (pieces n fuel s).flatten = s
  | 0, s, h => by
    have : s = [] := List.length_eq_zero_iff.1 (Nat.le_zero.1 h)
    subst this
    rfl
  | fuel + 1, s, h => by
    unfold pieces
    split
    · rename_i e; subst e; rfl
    · rename_i e
      have := List.length_pos_iff.2 e
      rw [List.flatten_cons, pieces_flatten n hn fuel _ (by rw [List.length_drop]; omega), List.take_append_drop]

theorem filter_intercalate {α : Type} (p : α → Bool) {sep : List α} (hs : sep.filter p = []) (l : List (List α)) :
    (sep.intercalate l).filter p = l.flatten.filter p := by
  induction l with
  | nil => rfl
  | cons a l ih =>
    cases l with
    | nil => simp [List.intercalate]
    | cons b l =>
      have : sep.intercalate (a :: b :: l) = a ++ sep ++ sep.intercalate (b :: l) := by
        simp [List.intercalate, List.append_assoc]
      rw [this, List.filter_append, List.filter_append, hs, ih]
      simp

theorem mem_intercalate {α : Type} {sep : List α} {l : List (List α)} {x : α} (h : x ∈ sep.intercalate l) :
    x ∈ sep ∨ x ∈ l.flatten := by
  induction l with
  | nil => simp [List.intercalate] at h
  | cons a l ih =>
    cases l with
    | nil => right; simpa [List.intercalate] using h
    | cons b l =>
      have : sep.intercalate (a :: b :: l) = a ++ sep ++ sep.intercalate (b :: l) := by
        simp [List.intercalate, List.append_assoc]
      rw [this, List.mem_append, List.mem_append] at h
      rcases h with (h | h) | h
      · right; simp [h]
      · exact .inl h
      · rcases ih h with h | h
        · exact .inl h
        · right
          rw [List.flatten_cons]
          exact List.mem_append_right _ h

/-- The characters of a secret that count. -/
def inked (d : String) : List Char := d.toList.filter fun c => c ≠ ' ' ∧ c ≠ '\n'

theorem inked_kept (d : String) : inked (keptData d) = inked d := by
  unfold keptData
  dsimp only
  rw [show (d.toList.filter fun c => decide (c ≠ ' ' ∧ c ≠ '\n')) = inked d from rfl]
  split
  · rename_i h; rw [h]; rfl
  · rename_i h
    unfold inked
    rw [String.toList_ofList, List.filter_append, filter_intercalate _ (by decide), pieces_flatten 60 (by decide) _ _ le_rfl]
    have : ['\n'].filter (fun c => decide (c ≠ ' ' ∧ c ≠ '\n')) = [] := by decide
    rw [this, List.append_nil, List.filter_filter]
    simp

theorem keptData_keptData (d : String) : keptData (keptData d) = keptData d := by
  have h := inked_kept d
  have e : ∀ d, keptData d = if inked d = [] then "" else
      String.ofList ([' '].intercalate (pieces 60 (inked d).length (inked d)) ++ ['\n']) := fun _ => rfl
  rw [e (keptData d), h, ← e]

theorem keptData_eq_nil {d : String} (h : DataOk d) : keptData d = "" ↔ d = "" := by
  constructor
  · intro e
    by_contra hd
    obtain ⟨c, h1, h2⟩ := h.text hd
    have : c ∈ inked d := List.mem_filter.2 ⟨h1, by simpa using h2⟩
    rw [← inked_kept, e] at this
    simp [inked] at this
  · rintro rfl; rfl

theorem dataOk_kept {d : String} (h : DataOk d) : DataOk (keptData d) := by
  constructor
  · intro c hc
    unfold keptData at hc
    dsimp only at hc
    split at hc
    · simp at hc
    · rw [String.toList_ofList, List.mem_append] at hc
      rcases hc with hc | hc
      · rcases mem_intercalate hc with hc | hc
        · left; simpa using hc
        · rw [pieces_flatten 60 (by decide) _ _ le_rfl] at hc
          exact h.ascii c (List.mem_filter.1 hc).1
      · right; left; simpa using hc
  · intro hne
    obtain ⟨c, h1, h2⟩ := h.text fun e => hne ((keptData_eq_nil h).2 e)
    have : c ∈ inked (keptData d) := by
      rw [inked_kept]
      exact List.mem_filter.2 ⟨h1, by simpa using h2⟩
    obtain ⟨h3, h4⟩ := List.mem_filter.1 this
    exact ⟨c, h3, by simpa using h4⟩

theorem resourceOk_read {r : Resource} (h : ResourceOk R L ram r) : ResourceOk R L ram (readResource r) := by
  cases r with
  | cron c => exact ⟨⟨h.1.version, h.1.kind, h.1.name, h.1.schedule, h.1.branch, h.1.target⟩, h.2⟩
  | secret s =>
    refine ⟨⟨h.1.version, h.1.kind, h.1.type, ?_, dataOk_kept h.1.data, h.1.path, h.1.getName, h.1.key⟩, h.2⟩
    show Readable R (if s.data = "" ∧ s.get = {} then "" else s.name)
    split
    · exact rd _
    · exact h.1.name
  | signature s => exact h
  | registry x => trivial
  | pipeline p => exact ⟨pipelineOk_read h.1, h.2⟩

end Drone
