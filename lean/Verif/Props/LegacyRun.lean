/-
C102: what a converted legacy file means.  The text the converter writes is parsed, the pipeline is
compiled, and every legacy container has become a container with the same commands, variables,
settings and mounts.
-/
import Verif.Props.ConvertRun
import Verif.Props.LegacySteps
import Verif.Props.Attr

namespace Drone
open Legacy Spec Yaml Pretty

variable {R : Resolver}

namespace Spec

/-- Characters of a string that are written as they are, whatever is appended. -/
def PlainName (s : String) : Prop :=
  (∀ c ∈ s.toList, Unescaped c) ∧ s.toList.head? ≠ some '&' ∧ s.toList.head? ≠ some '!'

/-- The strings of a legacy container survive. -/
structure LegacyReadable (R : Resolver) (L : PrettyLib) (upper : String → String) (x : Legacy.Container) : Prop where
  name : Readable R x.name ∧ PlainName x.name
  image : Readable R x.image
  command : ∀ s ∈ x.command, Readable R s
  commands : ∀ s ∈ x.commands, Readable R s
  entrypoint : ∀ s ∈ x.entrypoint, Readable R s
  dns : ∀ s ∈ x.dns, Readable R s
  dnsSearch : ∀ s ∈ x.dnsSearch, Readable R s
  extraHosts : ∀ s ∈ x.extraHosts, Readable R s
  environment : x.environment.keys.Nodup ∧ ∀ k v, (k, v) ∈ x.environment → ReadableKey R L k ∧ Readable R v
  secrets : ∀ s, some s ∈ x.secrets → ReadableKey R L (upper s.target) ∧ Readable R s.source
  vargs : x.vargs.keys.Nodup ∧ ∀ k v, (k, v) ∈ x.vargs →
    ReadableKey R L k ∧ ValOk R L v ∧ v ≠ .null ∧ v ≠ .seq [] ∧ ¬ LooksSecret v
  volumes : ∀ v, some v ∈ x.volumes → v.source ≠ "" ∧ Readable R v.source ∧ Readable R v.destination
  constraints : CondOk R x.constraints.ref ∧ CondOk R x.constraints.repo ∧ CondOk R x.constraints.inst ∧
    CondOk R x.constraints.environment ∧ CondOk R x.constraints.event ∧ CondOk R x.constraints.branch ∧
    CondOk R x.constraints.status

/-- The strings of a legacy file survive; `base` and `path` are those of the workspace it is
converted to. -/
structure LegacyFile (R : Resolver) (L : PrettyLib) (upper : String → String) (c : Config) (base path : String) : Prop where
  containers : ∀ x ∈ c.clone ++ c.pipeline ++ c.services, LegacyReadable R L upper x
  workspace : Readable R base ∧ Readable R path
  branches : CondOk R c.branches ∧ ∀ b ∈ c.branches.incl, Readable R ("refs/heads/" ++ b)
  secrets : c.secrets.keys.Nodup ∧ ∀ k v, (k, v) ∈ c.secrets → Readable R k ∧ Readable R v.path ∧ Readable R v.vault ∧
    ∀ o t, (o, t) ∈ v.driverOpts → Readable R t

/-- The container `d` of the parsed file stands for the legacy container `x`. -/
structure Arrived (upper : String → String) (x : Legacy.Container) (d : Drone.Container) : Prop where
  image : d.image = x.image
  command : d.command = x.command
  commands : d.commands = x.commands
  entrypoint : d.entrypoint = x.entrypoint
  detach : d.detach = x.detached
  dns : d.dns = x.dns
  dnsSearch : d.dnsSearch = x.dnsSearch
  extraHosts : d.extraHosts = x.extraHosts
  privileged : d.privileged = x.privileged
  pull : d.pull = "always" ∧ x.pull = true ∨ d.pull = "if-not-exists" ∧ x.pull = false
  /-- settings, up to the order of maps -/
  settings : ∀ k v, x.vargs.get? k = some v → ∃ w, d.settings.get? k = some (some { value := w, secret := "" }) ∧ SameValue v w
  noSetting : ∀ k, x.vargs.get? k = none → d.settings.get? k = none
  /-- a variable that no secret is stored in has the given value, unless that is empty -/
  plain : ∀ k, (∀ s, some s ∈ x.secrets → upper s.target ≠ k) → d.environment.get? k =
    match x.environment.get? k with
    | none => none
    | some v => if v = "" then none else some (some { value := v, secret := "" })
  /-- the last secret stored in a variable wins -/
  secret : ∀ l s r, x.secrets = l ++ some s :: r → (∀ t, some t ∈ r → upper t.target ≠ upper s.target) → s.source ≠ "" →
    d.environment.get? (upper s.target) = some (some { value := "", secret := s.source })
  branch : d.cond.branch = x.constraints.branch
  ref : d.cond.ref = x.constraints.ref
  repo : d.cond.repo = x.constraints.repo
  inst : d.cond.inst = x.constraints.inst
  target : d.cond.target = x.constraints.environment
  status : d.cond.status = x.constraints.status
  events : List.Forall₂ SameEvent x.constraints.event.incl d.cond.event.incl
  noEvents : List.Forall₂ SameEvent x.constraints.event.excl d.cond.event.excl
  /-- nothing else is set -/
  rest : d.build = none ∧ d.devices = [] ∧ d.failure = "" ∧ d.network = "" ∧ d.ports = [] ∧ d.push = none ∧
    d.resources = none ∧ d.shell = "" ∧ d.user = "" ∧ d.workingDir = "" ∧ d.dependsOn = [] ∧
    d.cond.action = {} ∧ d.cond.cron = {} ∧ d.cond.paths = {} ∧ d.cond.matrix = []

/-- Where a legacy file says that a secret is. -/
def secretPlace (v : SecretDecl) : String × String :=
  if v.driver = "vault" then ((v.driverOpts.get? "path").getD "", (v.driverOpts.get? "key").getD "")
  else (if v.path = "" then v.vault else v.path, "")

end Spec

/-! ### Strings -/

theorem readable_of_chars {s : String} (h : ∀ c ∈ s.toList, Unescaped c) (h1 : s.toList.head? ≠ some '&')
    (h2 : s.toList.head? ≠ some '!') (hl : s ∉ ["-", "?", "~", "null", "Null", "NULL"]) : Readable R s := by
  simp only [List.mem_cons, List.not_mem_nil, or_false, not_or] at hl
  refine ⟨fun _ => h, fun _ => ⟨h1, h2⟩, ⟨hl.1, hl.2.1⟩, fun hp hn => ?_⟩
  rw [R.null_iff] at hn
  simp only [List.mem_cons, List.not_mem_nil, or_false] at hn
  rcases hn with rfl | hn
  · exact hp.nonempty rfl
  · exact hn.elim hl.2.2.1 fun hn => hn.elim hl.2.2.2.1 fun hn => hn.elim hl.2.2.2.2.1 hl.2.2.2.2.2

theorem digit_unescaped {i : Nat} {c : Char} (hc : c ∈ (toString i).toList) : Unescaped c := by
  have : c.isDigit = true := by
    change c ∈ (Nat.repr i).toList at hc
    unfold Nat.repr at hc
    rw [String.toList_ofList] at hc
    exact Nat.isDigit_of_mem_toDigits (by decide) (by decide) hc
  simp only [Char.isDigit, Bool.and_eq_true, decide_eq_true_eq, ge_iff_le, UInt32.le_iff_toNat_le] at this
  have h0 : '0'.val.toNat = 48 := rfl
  have h9 : '9'.val.toNat = 57 := rfl
  have : c.val.toNat = c.toNat := rfl
  left
  omega

theorem readable_renamed {s : String} (h : PlainName s) (i : Nat) : Readable R (s ++ "_" ++ toString i) := by
  have hl : (s ++ "_" ++ toString i).toList = s.toList ++ '_' :: (toString i).toList := by
    rw [String.toList_append, String.toList_append]
    simp
  have hm : '_' ∈ (s ++ "_" ++ toString i).toList := by rw [hl]; simp
  have hne : ∀ t : String, '_' ∉ t.toList → s ++ "_" ++ toString i ≠ t := by
    rintro t ht rfl
    exact ht hm
  have hh : ∀ x : Char, x ≠ '_' → s.toList.head? ≠ some x → (s ++ "_" ++ toString i).toList.head? ≠ some x := by
    intro x hx h
    rw [hl]
    cases hs : s.toList with
    | nil => simpa using Ne.symm hx
    | cons a as => rw [hs] at h; simpa using h
  refine readable_of_chars ?_ (hh _ (by decide) h.2.1) (hh _ (by decide) h.2.2) ?_
  · intro c hc
    rw [hl, List.mem_append, List.mem_cons] at hc
    rcases hc with hc | rfl | hc
    · exact h.1 c hc
    · unfold Unescaped; decide
    · exact digit_unescaped hc
  · simp only [List.mem_cons, List.not_mem_nil, or_false, not_or]
    exact ⟨hne _ (by decide), hne _ (by decide), hne _ (by decide), hne _ (by decide), hne _ (by decide), hne _ (by decide)⟩

theorem hexName_isHex {s : String} {c : Char} (h : c ∈ (hexName s).toList) : Spec.isHex c := by
  unfold hexName at h
  rw [String.toList_ofList] at h
  obtain ⟨b, _, hb⟩ := List.mem_flatMap.1 h
  exact hexN_isHex _ _ _ hb

theorem readable_hexName (s : String) : Readable R (hexName s) := by
  have hx : ∀ (t : String), (∃ c ∈ t.toList, ¬ Spec.isHex c) → hexName s ≠ t := by
    rintro t ⟨c, hc, hn⟩ rfl
    exact hn (hexName_isHex hc)
  have hh : ∀ x : Char, ¬ Spec.isHex x → (hexName s).toList.head? ≠ some x := fun x hx h =>
    hx (hexName_isHex (List.mem_of_mem_head? (by rw [h]; rfl)))
  refine readable_of_chars ?_ (hh _ (by unfold Spec.isHex; decide)) (hh _ (by unfold Spec.isHex; decide)) ?_
  · intro c hc
    have h := hexName_isHex hc
    have all : ∀ c ∈ "0123456789abcdef".toList, Unescaped c := by unfold Unescaped; decide
    exact all c h
  · simp only [List.mem_cons, List.not_mem_nil, or_false, not_or]
    unfold Spec.isHex at hx
    exact ⟨hx _ (by decide), hx _ (by decide), hx _ (by decide), hx _ (by decide), hx _ (by decide), hx _ (by decide)⟩

/-! ### Maps -/

theorem keptMapS_get? {α β : Type} (g : α → Option β) {m : GoMap (Option α)} (hn : m.keys.Nodup) (k : String) :
    (keptMapS g m).get? k = (m.get? k).bind fun o => (o.bind g).map some := by
  rw [← GoMap.keys_perm_get? (keptMapS_perm g hn).symm ((keepMap_keys g m).nodup hn)]
  induction m with
  | nil => rfl
  | cons p m ih =>
    obtain ⟨a, o⟩ := p
    have hn' := List.nodup_cons.1 (show (a :: GoMap.keys m).Nodup from hn)
    have ih := ih hn'.2
    have hk : k = a → (keepMap g m).get? k = none := fun e =>
      GoMap.get?_eq_none.2 fun hm => hn'.1 (e ▸ (keepMap_keys g m).subset hm)
    unfold keepMap at ih hk ⊢
    rw [List.filterMap_cons, GoMap.get?_cons]
    cases ho : o.bind g with
    | none =>
      simp only [Option.map_none]
      by_cases e : k = a
      · rw [if_pos e, hk e, Option.bind_some, ho]
        rfl
      · rw [if_neg e, ih]
    | some b =>
      simp only [Option.map_some]
      rw [GoMap.get?_cons]
      by_cases e : k = a
      · rw [if_pos e, if_pos e, Option.bind_some, ho]
        rfl
      · rw [if_neg e, if_neg e, ih]

theorem foldl_set_nodup {α β : Type} (f : α → β) (m : GoMap α) : ∀ (a : GoMap β), a.keys.Nodup →
    (m.foldl (fun m kv => m.set kv.1 (f kv.2)) a).keys.Nodup := by
  induction m with
  | nil => exact fun _ h => h
  | cons e m ih => exact fun a h => ih _ (GoMap.set_keys_nodup _ _ h).1

theorem secretLoop_nodup {upper : String → String} : ∀ {l : List (Option SecretRef)} {e r : GoMap (Option Variable)},
    secretLoop upper e l = some r → e.keys.Nodup → r.keys.Nodup
  | [], e, r, h, hn => by
    simp only [secretLoop, Option.some.injEq] at h
    exact h ▸ hn
  | none :: l, e, r, h, _ => by simp [secretLoop] at h
  | some x :: l, e, r, h, hn => secretLoop_nodup (l := l) h (GoMap.set_keys_nodup _ _ hn).1

theorem secretLoop_source {upper : String → String} : ∀ {l : List (Option SecretRef)} {e r : GoMap (Option Variable)},
    secretLoop upper e l = some r → ∀ k v, r.get? k = some v →
      e.get? k = some v ∨ ∃ s, some s ∈ l ∧ k = upper s.target ∧ v = some { secret := s.source }
  | [], e, r, h, k, v, hv => by
    simp only [secretLoop, Option.some.injEq] at h
    exact .inl (h ▸ hv)
  | none :: l, e, r, h, _, _, _ => by simp [secretLoop] at h
  | some x :: l, e, r, h, k, v, hv => by
    rcases secretLoop_source (l := l) h k v hv with h1 | ⟨s, hs, h1⟩
    · rw [GoMap.get?_set] at h1
      split_ifs at h1 with hk
      · exact .inr ⟨x, List.mem_cons_self, hk, (Option.some.inj h1).symm⟩
      · exact .inl h1
    · exact .inr ⟨s, List.mem_cons_of_mem _ hs, h1⟩

/-! ### Containers -/

theorem promote_cond {c : Condition} (h : CondOk R c) : CondOk R { incl := toPromote c.incl, excl := toPromote c.excl } := by
  have key : ∀ l : List String, (∀ x ∈ l, Readable R x) → ∀ x ∈ toPromote l, Readable R x := by
    intro l hl x hx
    obtain ⟨y, hy, rfl⟩ := List.mem_map.1 hx
    split_ifs
    · exact rd "promote"
    · exact hl y hy
  exact ⟨key _ h.1, key _ h.2⟩

theorem toContainer_ok {X : LegacyLib} {L : PrettyLib} (ram : String → Option Int) {x : Legacy.Container} {d : Drone.Container}
    (hx : LegacyReadable R L X.upper x) (h : toContainer X x = some d) : ContainerOk R L ram d := by
  unfold toContainer at h
  obtain ⟨env, he, h⟩ := Option.bind_eq_some_iff.1 h
  obtain ⟨vols, hv, rfl⟩ := Option.map_eq_some_iff.1 h
  obtain ⟨c1, c2, c3, c4, c5, c6, c7⟩ := hx.constraints
  refine
    { name := hx.name.1, pull := ?_, image := hx.image, build := by simp, push := by simp, user := rd "", shell := rd ""
      entrypoint := hx.entrypoint, command := hx.command, commands := hx.commands, dns := hx.dns, dnsSearch := hx.dnsSearch
      extraHosts := hx.extraHosts, network := rd "", settings := ?_, environment := ?_, failure := rd "", workingDir := rd ""
      devices := by simp, ports := by simp, resources := by simp, volumes := ?_
      cond := ⟨⟨nofun, nofun⟩, c6, ⟨nofun, nofun⟩, promote_cond c5, c3, ⟨nofun, nofun⟩, c1, c2, c7, c4⟩
      dependsOn := by simp }
  · dsimp only
    unfold Legacy.toPullPolicy
    split_ifs
    · exact rd "always"
    · exact rd "if-not-exists"
  · refine ⟨foldl_set_nodup (fun v : Value => some ({ value := v } : Parameter)) x.vargs [] (by simp [GoMap.keys]), fun k p hp => ?_⟩
    dsimp only [toSettings] at hp
    rw [foldl_set_lookup (fun v : Value => some ({ value := v } : Parameter)) _ hx.vargs.1] at hp
    simp only [GoMap.get?, List.lookup, Option.or_none, Option.map_eq_some_iff] at hp
    obtain ⟨v, hv, e⟩ := hp
    cases e
    obtain ⟨a1, a2, a3, a4, a5⟩ := hx.vargs.2 k v (GoMap.mem_of_get? hv)
    exact ⟨a1, rd "", fun _ => ⟨a2, a3, a4, a5⟩⟩
  · refine ⟨secretLoop_nodup he (foldl_set_nodup (fun v : String => some ({ value := v } : Variable)) _ _ (by simp [GoMap.keys])), fun k v hv => ?_⟩
    rcases secretLoop_source he k _ hv with h1 | ⟨s, hs, rfl, h1⟩
    · rw [foldl_set_lookup (fun v : String => some ({ value := v } : Variable)) _ hx.environment.1] at h1
      simp only [GoMap.get?, List.lookup, Option.or_none, Option.map_eq_some_iff] at h1
      obtain ⟨t, ht, e⟩ := h1
      cases e
      obtain ⟨a1, a2⟩ := hx.environment.2 k t (GoMap.mem_of_get? ht)
      exact ⟨a1, fun _ => a2, rd ""⟩
    · cases h1
      obtain ⟨a1, a2⟩ := hx.secrets s hs
      exact ⟨a1, fun _ => rd "", a2⟩
  · intro v hm
    obtain ⟨o, ho, hov⟩ := forall₂_right (mapAll_forall₂ hv) hm
    obtain ⟨w, rfl, e⟩ := Option.map_eq_some_iff.1 hov
    cases e
    exact ⟨readable_hexName _, (hx.volumes w ho).2.2⟩

theorem converted_arrived {L : PrettyLib} {ram : String → Option Int} {upper : String → String} {x : Legacy.Container}
    {d : Drone.Container} (h : Converted upper x d) (hd : ContainerOk R L ram d) : Arrived upper x (readContainer d) := by
  obtain ⟨h1, h2, h3, h4, h5, h6, h7, h8, h9, h10, h11, h12, h13, h14, h15, h16, h17, h18, h19, h20, h21, r⟩ := h
  obtain ⟨r1, r2, r3, r4, r5, r6, r7, r8, r9, r10, r11, r12, r13, r14⟩ := r
  refine ⟨h1, h2, h3, h4, h5, h6, h7, h8, h9, h10, ?_, ?_, ?_, ?_, h14, h15, h16, h17, h18, h19, h20, h21, ?_⟩
  · intro k v hv
    have e := h11 k
    rw [hv, Option.map_some] at e
    show ∃ w, (keptMapS sortParam d.settings).get? k = _ ∧ _
    rw [keptMapS_get? _ hd.settings.1, e]
    refine ⟨sortV v, rfl, sortV_same (R := R) L v ?_⟩
    exact ((hd.settings.2 k _ e).2.2 rfl).1
  · intro k hk
    have e := h11 k
    rw [hk, Option.map_none] at e
    show (keptMapS sortParam d.settings).get? k = _
    rw [keptMapS_get? _ hd.settings.1, e]
    rfl
  · intro k hk
    have e := h12 k hk
    show (keptMapS keptVariable d.environment).get? k = _
    rw [keptMapS_get? _ hd.environment.1, e]
    cases x.environment.get? k with
    | none => rfl
    | some v =>
      simp only [Option.map_some, Option.bind_some, keptVariable, if_pos]
      split_ifs <;> rfl
  · intro l s t hl ht hne
    have e := h13 l s t hl ht
    show (keptMapS keptVariable d.environment).get? _ = _
    rw [keptMapS_get? _ hd.environment.1, e]
    simp only [Option.bind_some, keptVariable]
    rw [if_neg hne]
    rfl
  · refine ⟨?_, ?_, r3, r4, ?_, ?_, ?_, r8, r9, r10, r11, r12, r13, r14, rfl⟩
    · show (d.build.bind keptBuild).map sortBuild = none
      rw [r1]; rfl
    · show keepList keptDevice d.devices = []
      rw [r2]; rfl
    · show keepList some d.ports = []
      rw [r5]; rfl
    · show d.push.bind keptPush = none
      rw [r6]; rfl
    · show d.resources.bind keptResources = none
      rw [r7]; rfl

/-! ### Pipelines -/

/-- The container and its mounts are not blank. -/
def Live (d : Drone.Container) : Prop := d.pull ≠ "" ∧ ∀ o ∈ d.volumes, ∃ m, o = some m ∧ m.name ≠ ""

theorem renameLoop_ok {L : PrettyLib} {ram : String → Option Int} : ∀ (cs : List Drone.Container) (names : List String) (i : Nat),
    (∀ d ∈ cs, ContainerOk R L ram d ∧ PlainName d.name ∧ Live d) →
      ∀ d ∈ renameLoop names i cs, ContainerOk R L ram d ∧ Live d
  | [], _, _, _ => by simp [renameLoop]
  | c :: cs, names, i, h => by
    intro d hd
    unfold renameLoop at hd
    dsimp only at hd
    obtain ⟨h1, h2, h3⟩ := h c List.mem_cons_self
    rcases List.mem_cons.1 hd with rfl | hd
    · refine ⟨{ h1 with name := ?_ }, h3⟩
      dsimp only
      split_ifs
      · exact readable_renamed h2 i
      · exact h1.name
    · exact renameLoop_ok cs _ _ (fun d hd => h d (List.mem_cons_of_mem _ hd)) d hd

theorem hexName_ne {s : String} (h : s ≠ "") : hexName s ≠ "" := fun e => h (hexName_inj (e.trans (by decide)))

theorem toContainer_live {X : LegacyLib} {L : PrettyLib} {x : Legacy.Container} {d : Drone.Container}
    (hx : LegacyReadable R L X.upper x) (h : toContainer X x = some d) : Live d ∧ d.name = x.name := by
  have hv := toContainer_volumes h
  unfold toContainer at h
  obtain ⟨env, _, h⟩ := Option.bind_eq_some_iff.1 h
  obtain ⟨vols, _, rfl⟩ := Option.map_eq_some_iff.1 h
  refine ⟨⟨?_, fun o ho => ?_⟩, rfl⟩
  · dsimp only
    unfold Legacy.toPullPolicy
    split_ifs <;> decide
  · obtain ⟨v, hm, y, rfl, rfl⟩ := forall₂_right hv ho
    exact ⟨_, rfl, hexName_ne (hx.volumes y hm).1⟩

theorem toSteps_ok {X : LegacyLib} {env : Env} (ram : String → Option Int) {c : Config} {all : List Drone.Container}
    (hx : ∀ x ∈ c.clone ++ c.pipeline, LegacyReadable R X.pretty X.upper x) (h : toSteps X env c = some all) :
    ∀ d ∈ all, ContainerOk R X.pretty ram d ∧ PlainName d.name ∧ Live d := by
  have key : ∀ (l : List Legacy.Container) r, (∀ x ∈ l, x ∈ c.clone ++ c.pipeline) → mapAll (toContainer X) l = some r →
      ∀ d ∈ r, ContainerOk R X.pretty ram d ∧ PlainName d.name ∧ Live d := by
    intro l r hl hr d hd
    obtain ⟨x, h1, h2⟩ := forall₂_right (mapAll_forall₂ hr) hd
    have h3 := hx x (hl x h1)
    refine ⟨toContainer_ok ram h3 h2, ?_, (toContainer_live h3 h2).1⟩
    rw [(toContainer_live h3 h2).2]
    exact h3.name.2
  unfold toSteps at h
  by_cases hc : c.clone.length ≠ 0
  · rw [if_pos hc] at h
    exact key _ _ (fun _ h => h) h
  · rw [if_neg hc] at h
    obtain ⟨steps, hs, rfl⟩ := Option.map_eq_some_iff.1 h
    have := key _ _ (fun _ h => List.mem_append_right _ h) hs
    intro d hd
    split_ifs at hd with he
    · rcases List.mem_cons.1 hd with rfl | hd
      · refine ⟨?_, by unfold PlainName Unescaped; decide, by decide, by simp [cloneStep]⟩
        exact
          { name := rd "clone", pull := rd "if-not-exists", image := rd "plugins/git", build := by simp [cloneStep], push := by simp [cloneStep]
            user := rd "", shell := rd ""
            entrypoint := by simp [cloneStep], command := by simp [cloneStep], commands := by simp [cloneStep], dns := by simp [cloneStep]
            dnsSearch := by simp [cloneStep], extraHosts := by simp [cloneStep]
            network := rd ""
            settings := ⟨by simp [GoMap.keys, cloneStep], by simp [cloneStep]⟩
            environment := ⟨by simp [GoMap.keys, cloneStep], by simp [cloneStep]⟩
            failure := rd "", workingDir := rd "", devices := by simp [cloneStep], ports := by simp [cloneStep]
            resources := by simp [cloneStep], volumes := by simp [cloneStep]
            cond := by simp [CondsOk, CondOk, cloneStep]
            dependsOn := by simp [cloneStep] }
      · exact this d hd
    · exact this d hd

theorem toTrigger_ok {b : Condition} {steps : List Drone.Container} (h : CondOk R b)
    (h' : ∀ x ∈ b.incl, Readable R ("refs/heads/" ++ x)) : CondsOk R (toTrigger b steps) ∧ (toTrigger b steps).matrix = [] := by
  unfold toTrigger
  by_cases hb : b.incl.length > 0 ∧ b.excl.length = 0
  · rw [if_pos hb]
    refine ⟨⟨⟨nofun, nofun⟩, ⟨nofun, h.2⟩, ⟨nofun, nofun⟩, ⟨nofun, nofun⟩, ⟨nofun, nofun⟩, ⟨nofun, nofun⟩, ⟨?_, nofun⟩,
      ⟨nofun, nofun⟩, ⟨nofun, nofun⟩, ⟨nofun, nofun⟩⟩, rfl⟩
    intro x hx
    simp only [List.mem_append, List.mem_cons, List.not_mem_nil, or_false, List.mem_map] at hx
    rcases hx with ((rfl | rfl | rfl) | ⟨y, hy, rfl⟩) | hx
    · exact rd "refs/pull/**"
    · exact rd "refs/pull-requests/**"
    · exact rd "refs/merge-requests/**"
    · exact h' y hy
    · split_ifs at hx
      · rw [List.mem_singleton] at hx
        rw [hx]
        exact rd "refs/tags/**"
      · simp at hx
  · rw [if_neg hb]
    exact ⟨⟨⟨nofun, nofun⟩, h, ⟨nofun, nofun⟩, ⟨nofun, nofun⟩, ⟨nofun, nofun⟩, ⟨nofun, nofun⟩, ⟨nofun, nofun⟩,
      ⟨nofun, nofun⟩, ⟨nofun, nofun⟩, ⟨nofun, nofun⟩⟩, rfl⟩

theorem toPipeline_ok {X : LegacyLib} {env : Env} (ram : String → Option Int) {c : Config} {remote : String}
    {p : Drone.Pipeline} (hr : LegacyFile R X.pretty X.upper c (toWorkspace X env c remote).base (toWorkspace X env c remote).path)
    (h : toPipeline X env c remote = some p) : PipelineOk R X.pretty ram p ∧ p.kind = "pipeline" ∧ p.platform = {} ∧
      p.node = [] ∧ p.trigger.matrix = [] ∧ (∀ o ∈ p.steps ++ p.services, ∃ d, o = some d ∧ Live d) ∧
      ∀ o ∈ p.volumes, ∃ s, s ≠ "" ∧ o = some { name := hexName s, hostPath := some { path := s } } := by
  unfold toPipeline at h
  obtain ⟨steps, h1, h⟩ := Option.bind_eq_some_iff.1 h
  obtain ⟨services, h2, h⟩ := Option.bind_eq_some_iff.1 h
  obtain ⟨volumes, h3, h⟩ := Option.map_eq_some_iff.1 h
  subst h
  have hs := renameLoop_ok steps [] 0 (toSteps_ok ram (fun x hx => hr.containers x (List.mem_append_left _ hx)) h1)
  have hv : ∀ d ∈ services, ContainerOk R X.pretty ram d ∧ Live d := by
    intro d hd
    obtain ⟨x, hx, hxd⟩ := forall₂_right (mapAll_forall₂ h2) hd
    exact ⟨toContainer_ok ram (hr.containers x (List.mem_append_right _ hx)) hxd,
      (toContainer_live (hr.containers x (List.mem_append_right _ hx)) hxd).1⟩
  have hvol : ∀ o ∈ volumes, ∃ s, s ≠ "" ∧ Readable R s ∧ o = { name := hexName s, hostPath := some { path := s } } := by
    obtain ⟨set, i1, i2, i3, i4, i5⟩ := volumesLoop_inv (set := []) (vs := []) ⟨by simp, by simp, by simp⟩ h3
    intro v hv
    obtain ⟨s, rfl⟩ := i1.paths v hv
    rcases i5 _ hv with hn | ⟨x, hx, y, hy, e⟩
    · simp at hn
    · simp only [Option.some.injEq, VolumeHostPath.mk.injEq] at e
      subst e
      have hx' : x ∈ c.clone ++ c.pipeline ++ c.services := by
        simp only [List.mem_append] at hx ⊢
        tauto
      obtain ⟨a1, a2, _⟩ := (hr.containers x hx').volumes y hy
      exact ⟨_, a1, a2, rfl⟩
  obtain ⟨t1, t2⟩ := toTrigger_ok (steps := renameLoop [] 0 steps) hr.branches.1 hr.branches.2
  refine ⟨?_, rfl, rfl, rfl, t2, ?_, ?_⟩
  · refine
      { version := rd "", kind := rd "pipeline", type := ?_, name := rd "default", platform := ⟨rd "", rd "", rd "", rd ""⟩
        clone := by simp
        concurrency := by simp, workspace := hr.workspace
        steps := fun d hd => ?_, services := fun d hd => ?_, volumes := fun v hv => ?_, pullSecrets := ?_
        node := ⟨by simp [GoMap.keys], by simp⟩
        trigger := t1
        dependsOn := by simp }
    · dsimp only
      split_ifs
      · exact rd "kubernetes"
      · exact rd ""
    · obtain ⟨e, he, hed⟩ := List.mem_map.1 hd
      cases hed
      exact (hs _ he).1
    · obtain ⟨e, he, hed⟩ := List.mem_map.1 hd
      cases hed
      exact (hv _ he).1
    · obtain ⟨e, he, hed⟩ := List.mem_map.1 hv
      cases hed
      obtain ⟨s, _, s2, rfl⟩ := hvol _ he
      refine ⟨readable_hexName _, by simp, ?_⟩
      intro h hh
      cases hh
      exact s2
    · dsimp only
      intro x hx
      split_ifs at hx
      · rw [List.mem_singleton] at hx
        rw [hx]
        exact rd ".dockerconfigjson"
      · simp at hx
  · intro o ho
    rcases List.mem_append.1 ho with ho | ho <;> obtain ⟨d, hd, rfl⟩ := List.mem_map.1 ho
    · exact ⟨d, rfl, (hs d hd).2⟩
    · exact ⟨d, rfl, (hv d hd).2⟩
  · intro o ho
    obtain ⟨v, hv, rfl⟩ := List.mem_map.1 ho
    obtain ⟨s, s1, _, rfl⟩ := hvol v hv
    exact ⟨s, s1, rfl⟩

theorem keepList_map {α β : Type} {f : α → Option β} {g : α → β} {l : List α} (h : ∀ a ∈ l, f a = some (g a)) :
    keepList f (l.map some) = (l.map g).map some := by
  unfold keepList
  congr 1
  induction l with
  | nil => rfl
  | cons a l ih =>
    rw [List.map_cons, List.filterMap_cons, Option.bind_some, h a List.mem_cons_self, List.map_cons,
      ih fun a ha => h a (List.mem_cons_of_mem _ ha)]

theorem toSecret_place (k : String) (v : SecretDecl) : toSecret k v =
    { name := k, kind := "secret", get := { path := (secretPlace v).1, name := (secretPlace v).2 } } := by
  unfold toSecret secretPlace
  by_cases h1 : v.driver = "vault"
  · simp [h1]
  · by_cases h2 : v.path = ""
    · simp [h1, h2]
    · simp [h1, h2]

theorem toSecrets_perm {c : Config} (hn : c.secrets.keys.Nodup) :
    (toSecrets c).Perm (c.secrets.map fun e => toSecret e.1 e.2) := by
  unfold toSecrets
  refine ((sortStrings_perm _).map _).trans (.of_eq ?_)
  unfold GoMap.keys
  rw [List.map_map]
  refine List.map_congr_left fun e he => ?_
  show toSecret e.1 ((c.secrets.get? e.1).getD {}) = _
  rw [GoMap.get?_of_mem hn he, Option.getD_some]

/-- What is read of a pipeline that was converted. -/
theorem toPipeline_read {X : LegacyLib} {env : Env} {c : Config} {remote : String}
    {p : Drone.Pipeline} (hr : LegacyFile R X.pretty X.upper c (toWorkspace X env c remote).base (toWorkspace X env c remote).path)
    (h : toPipeline X env c remote = some p) {steps services : List Drone.Container} (hs : p.steps = steps.map some)
    (hv : p.services = services.map some) : readPipeline p =
      { p with platform := { os := "linux", arch := "amd64" }, steps := (steps.map readContainer).map some,
               services := (services.map readContainer).map some } := by
  obtain ⟨_, _, h1, h2, h3, h4, h5⟩ := toPipeline_ok (fun _ => none) hr h
  have keep : ∀ l : List Drone.Container, (∀ d ∈ l, some d ∈ p.steps ++ p.services) →
      keepList (fun c => if blankContainer c then none else some (readContainer c)) (l.map some) = (l.map readContainer).map some := by
    intro l hl
    refine keepList_map fun d hd => if_neg ?_
    obtain ⟨d', e, hp⟩ := h4 _ (hl d hd)
    cases e
    exact fun hb => hp.1 hb.2.1
  have k1 := keep steps fun d hd => by rw [hs]; exact List.mem_append_left _ (List.mem_map_of_mem hd)
  have k2 := keep services fun d hd => by rw [hv]; exact List.mem_append_right _ (List.mem_map_of_mem hd)
  have k3 : keepList keptVolume p.volumes = p.volumes := by
    generalize p.volumes = l at h5
    unfold keepList
    induction l with
    | nil => rfl
    | cons o l ih =>
      obtain ⟨s, s1, rfl⟩ := h5 o List.mem_cons_self
      have e : keptVolume { name := hexName s, hostPath := some { path := s } } =
          some { name := hexName s, hostPath := some { path := s } } := by
        unfold keptVolume
        rw [if_neg (by simp)]
        simp [keptHost, s1]
      rw [List.filterMap_cons, Option.bind_some, e, List.map_cons, ih fun o ho => h5 o (List.mem_cons_of_mem _ ho)]
  have k4 : keptConditions p.trigger = p.trigger := by
    unfold keptConditions
    rw [← h3]
  unfold readPipeline
  rw [k3, k4, hs, hv, k1, k2]
  obtain ⟨version, kind, type, name, clone, concurrency, dependsOn, node, platform, pullSecrets, sv, st,
    trigger, volumes, workspace⟩ := p
  subst h1 h2
  rfl

theorem Live.volumes {d : Drone.Container} (h : Live d) : (readContainer d).volumes = d.volumes := by
  show keepList keptMount d.volumes = d.volumes
  obtain ⟨_, h⟩ := h
  generalize d.volumes = l at h
  unfold keepList
  induction l with
  | nil => rfl
  | cons o l ih =>
    obtain ⟨m, rfl, hm⟩ := h o List.mem_cons_self
    have e : keptMount m = some m := by
      unfold keptMount
      rw [if_neg]
      rintro rfl
      exact hm rfl
    rw [List.filterMap_cons, Option.bind_some, e, List.map_cons, ih fun o ho => h o (List.mem_cons_of_mem _ ho)]

namespace Spec

/-- The secret `s` of the parsed file stands for the legacy declaration; without a place it loses
its name. -/
structure ArrivedSecret (e : String × SecretDecl) (s : Drone.Secret) : Prop where
  name : s.name = if secretPlace e.2 = ("", "") then "" else e.1
  kind : s.kind = "secret"
  path : s.get.path = (secretPlace e.2).1
  key : s.get.name = (secretPlace e.2).2
  rest : s.data = "" ∧ s.get.key = ""

/-- The variables of a compiled step: those of the legacy container that are not empty, not replaced by
a secret, and not used by the compiler or a setting. -/
def RunsWith (E : Ext) (upper : String → String) (sp : Engine.Spec) (name : String) (x : Legacy.Container) : Prop :=
  ∃ s ∈ sp.steps, s.md.labels = some [("io.drone.step.name", name)] ∧ s.docker.image = Img.expand E.dg x.image ∧
    (∀ k v, (k, v) ∈ x.environment → v ≠ "" → (∀ t, some t ∈ x.secrets → upper t.target ≠ k) → k ∉ workspaceVars →
      (∀ k' v', (k', v') ∈ x.vargs → k ≠ "PLUGIN_" ++ E.upper k') → s.envs.get? k = some v) ∧
    ∀ k v t, (k, v) ∈ x.vargs → SettingText v t → (∀ k' v', (k', v') ∈ x.vargs → E.upper k' = E.upper k → k' = k) →
      s.envs.get? ("PLUGIN_" ++ E.upper k) = some t

end Spec

theorem settingText_same {v w : Value} {t : String} (h : SettingText v t) (hs : SameValue v w) : w = v := by
  cases h <;> cases hs <;> rfl

theorem keptMapS_nodup {α β : Type} (g : α → Option β) {m : GoMap (Option α)} (hn : m.keys.Nodup) :
    (keptMapS g m).keys.Nodup :=
  ((keptMapS_perm g hn).map _).nodup_iff.2 ((keepMap_keys g m).nodup hn)

/-- A step of the compiled pipeline has the variables and settings of the legacy container. -/
theorem runs_with {E : Ext} {c : Compiler} (hc : c.Std) (ht : c.transform = none) {rnd : Nat → String} {p : Pipeline}
    {sp : Engine.Spec} (h : compile E c rnd p = some sp)
    (hos : p.platform.os ≠ "windows") (hb : builds p = []) {d : Drone.Container} (hd : some d ∈ p.steps)
    {upper : String → String} {x : Legacy.Container} (hx : x.Maps) (ha : Arrived upper x d)
    (he : d.environment.keys.Nodup) (hs : d.settings.keys.Nodup) : RunsWith E upper sp d.name x := by
  have hm : (Role.step, d) ∈ sources p := by
    unfold sources
    exact List.mem_append_right _ (List.mem_map.2 ⟨d, List.mem_filterMap.2 ⟨_, hd, rfl⟩, rfl⟩)
  have hnb : ¬ IsBuild (Role.step, d) := by
    rintro ⟨_, h⟩
    simp [ha.rest.1] at h
  have h1 := C87_environment hc ht h
  obtain ⟨s, hz⟩ := mem_zip_of_forall₂ h1 hm
  have h1 := forall₂_zip h1 hz hnb he
  have h2 := forall₂_zip (C22_attributes hc ht h) hz
  have h3 := (redirect_core hc ht h (by rw [hb]; simp) (.inl (by rw [hb]; simp)) _ hz hnb).2 (by rw [hb]; simp)
  have h4 := forall₂_zip (C87_settings hc ht h) hz hnb hs
  have hset : ∀ k v, (k, some v) ∈ d.settings → ∃ v', (k, v') ∈ x.vargs := by
    intro k v hv
    cases e : x.vargs.get? k with
    | none => cases (GoMap.get?_of_mem hs hv).symm.trans (ha.noSetting k e)
    | some v' => exact ⟨v', GoMap.mem_of_get? e⟩
  refine ⟨s, (List.of_mem_zip hz).2, h2.1, by rw [h3, ha.image], ?_, ?_⟩
  · intro k v hv hne hsec hw hpl
    have e := ha.plain k hsec
    rw [GoMap.get?_of_mem hx.1 hv] at e
    simp only [if_neg hne] at e
    refine h1 k _ (GoMap.mem_of_get? e) rfl hw (.inr (.inl hos)) ?_
    intro k' v' hm' _
    obtain ⟨v'', hv''⟩ := hset k' v' hm'
    exact hpl k' v'' hv''
  · intro k v t hv htext hu
    obtain ⟨w, e, hw⟩ := ha.settings k v (GoMap.get?_of_mem hx.2 hv)
    refine h4 k _ t (GoMap.mem_of_get? e) rfl ?_ ?_
    · rw [settingText_same htext hw]
      exact htext
    · intro k' v' hm' _ hk
      obtain ⟨v'', hv''⟩ := hset k' v' hm'
      exact hu k' v'' hv'' hk


theorem toSecret_ok {k : String} {v : SecretDecl} (hk : Readable R k) (h1 : Readable R v.path) (h2 : Readable R v.vault)
    (h3 : ∀ o t, (o, t) ∈ v.driverOpts → Readable R t) : SecretOk R (toSecret k v) := by
  have opt : ∀ o, Readable R ((v.driverOpts.get? o).getD "") := by
    intro o
    cases e : v.driverOpts.get? o with
    | none => exact rd ""
    | some t => exact h3 o t (GoMap.mem_of_get? e)
  rw [toSecret_place]
  refine ⟨rd "", rd "secret", rd "", hk, ⟨by simp, by simp⟩, ?_, ?_, rd ""⟩
  · show Readable R (secretPlace v).1
    unfold secretPlace
    split_ifs
    · exact opt _
    · exact h2
    · exact h1
  · show Readable R (secretPlace v).2
    unfold secretPlace
    split_ifs
    · exact opt _
    · exact rd ""
    · exact rd ""

theorem toSecret_arrived (k : String) (v : SecretDecl) : ArrivedSecret (k, v) (keptSecret (toSecret k v)) := by
  rw [toSecret_place]
  refine ⟨?_, rfl, rfl, rfl, by simp [keptSecret, keptData], rfl⟩
  show (if _ then "" else k) = _
  congr 1
  simp [Prod.ext_iff]

theorem forall₂_both {α β : Type} {r t : α → β → Prop} {l : List α} {m : List β} (h : List.Forall₂ r l m)
    (h' : List.Forall₂ t l m) : List.Forall₂ (fun a b => r a b ∧ t a b) l m := by
  induction h with
  | nil => exact .nil
  | cons a _ ih =>
    cases h' with
    | cons b c => exact .cons ⟨a, b⟩ (ih c)

theorem andThen_ok {α β : Type} {o : Outcome α} {f : α → Outcome β} {b : β} (h : o.andThen f = some (.ok b)) :
    ∃ a, o = some (.ok a) ∧ f a = some (.ok b) := by
  unfold Outcome.andThen at h
  obtain ⟨e, h1, h2⟩ := Option.bind_eq_some_iff.1 h
  cases e with
  | error e => cases h2
  | ok a => exact ⟨a, h1, h2⟩

/-- C102.  The text converted from a legacy file without a matrix is parsed as one pipeline and the declared
secrets.  Every container of the file is a container of the pipeline, its volumes resolve to the host directories,
and compiled it has the variables and settings of the file and runs its commands.  Missing: strings outside
`Readable`, lines of 64 KiB and more, and files with a matrix (C98). -/
theorem C102_legacy_partial (X : LegacyLib) (ram : String → Option Int) (tree : Bytes → Except String Yaml.Node)
    (ht : Parses R tree) (env : Env) (file text : Bytes) (remote : String) (c : Config)
    (hd : X.decode (if hasMergeKeys file then X.expand file else file) = .ok c) (hm : c.hasMatrix = false)
    (h : Legacy.convert X env file remote = some (.ok text))
    (hr : LegacyFile R X.pretty X.upper c (toWorkspace X env c remote).base (toWorkspace X env c remote).path)
    (hlen : ∃ ls, IsLines text ls ∧ ∀ l ∈ ls, l.length < 65536) :
    ∃ q secrets pre clones steps services,
      parseBytes (treeLib ram tree) text = .ok ⟨.pipeline q :: secrets.map .secret⟩ ∧
      q.name = "default" ∧ q.platform = { os := "linux", arch := "amd64" } ∧
      q.steps = (pre ++ (clones ++ steps)).map some ∧ q.services = services.map some ∧
      List.Forall₂ (Arrived X.upper) c.clone clones ∧
      List.Forall₂ (fun x d => Arrived X.upper x d ∧ MountsResolve q.volumes x d) c.pipeline steps ∧
      List.Forall₂ (fun x d => (Arrived X.upper x d ∧ d.name = x.name) ∧ MountsResolve q.volumes x d) c.services services ∧
      (∀ (i : Nat) (x : Legacy.Container) (d : Drone.Container), (c.clone ++ c.pipeline)[i]? = some x →
        (clones ++ steps)[i]? = some d → d.name = x.name ∨ d.name = x.name ++ "_" ++ toString (pre.length + i)) ∧
      (pre = [] ∧ ¬ (c.clone = [] ∧ env.clone = true) ∨
        pre = [{ name := "clone", image := "plugins/git", pull := "if-not-exists" }] ∧ c.clone = [] ∧ env.clone = true) ∧
      (q.clone.disable = true ↔ c.clone ≠ [] ∨ env.clone = true) ∧
      (∃ secrets', secrets'.Perm secrets ∧ List.Forall₂ ArrivedSecret c.secrets secrets') ∧
      (∃ p rest, toManifest X env (if hasMergeKeys file then X.expand file else file) c remote =
        some (.ok ⟨.pipeline p :: rest⟩) ∧ q.trigger = p.trigger ∧ q.workspace = p.workspace ∧ q.volumes = p.volumes) ∧
      ∀ (E : Ext) (K : Compiler) (rnd : Nat → String) (sp : Engine.Spec) (trusted : Bool), K.Std →
        K.transform = none → lint (.pipeline q) trusted = .ok () → compile E K rnd q = some sp →
        ∀ (i : Nat) (x : Legacy.Container) (d : Drone.Container), (c.clone ++ c.pipeline)[i]? = some x →
          (clones ++ steps)[i]? = some d → RunsWith E X.upper sp d.name x ∧
            (x.commands ≠ [] → d.name ≠ ".git-credentials" → RunsScript E sp d.name x.image x.commands) := by
  unfold Legacy.convert at h
  dsimp only at h
  rw [hd] at h
  dsimp only at h
  generalize (if hasMergeKeys file then X.expand file else file) = file' at h hd ⊢
  obtain ⟨m, hman, h⟩ := andThen_ok h
  obtain ⟨text', hprint, e⟩ := Option.map_eq_some_iff.1 h
  cases e
  have hmaps : ∀ x ∈ c.clone ++ c.pipeline ++ c.services, x.Maps := fun x hx =>
    ⟨(hr.containers x hx).environment.1, (hr.containers x hx).vargs.1⟩
  obtain ⟨p, hp, hres⟩ := toManifest_plain hm hman
  obtain ⟨p1, rest1, pre, all, services, r1, a1, a2, a3, a4, a5, a6, a7⟩ := C71_containers X env file' c remote m hm hman hmaps
  obtain ⟨p2, rest2, pre2, steps2, r2, b1, b2, ⟨services2, b3, b4⟩, _⟩ := C60_mounts_partial X env file' c remote m hm hman
  have e1 : p1 = p := by rw [hres] at r1; cases r1; rfl
  have e2 : p2 = p := by rw [hres] at r2; cases r2; rfl
  subst e1 e2
  obtain ⟨hok, hkind, hplat, hnode, htm, hlive, hvols⟩ := toPipeline_ok ram hr hp
  have hread := toPipeline_read hr hp a1 a2
  obtain ⟨clones, steps, rfl, c1, c2⟩ := forall₂_append_split a3
  have e3 : steps2 = steps := by
    have hl : (pre2 ++ steps2).map some = ((pre ++ clones) ++ steps).map some := by rw [← b1, a1, List.append_assoc]
    have hl := List.map_injective_iff.2 (Option.some_injective _) hl
    exact (List.append_inj' hl (by rw [← b2.length_eq, ← c2.length_eq])).2
  have e4 : services2 = services := List.map_injective_iff.2 (Option.some_injective _) (b3.symm.trans a2)
  subst e3 e4
  have hmem : ∀ d ∈ clones ++ steps2, ContainerOk R X.pretty ram d ∧ Live d := by
    intro d hd
    have h1 : some d ∈ p2.steps := by rw [a1]; exact List.mem_map_of_mem (List.mem_append_right _ hd)
    obtain ⟨d', e, hl⟩ := hlive _ (List.mem_append_left _ h1)
    cases e
    exact ⟨hok.steps d h1, hl⟩
  have hmemv : ∀ d ∈ services2, ContainerOk R X.pretty ram d ∧ Live d := by
    intro d hd
    have h1 : some d ∈ p2.services := by rw [a2]; exact List.mem_map_of_mem hd
    obtain ⟨d', e, hl⟩ := hlive _ (List.mem_append_right _ h1)
    cases e
    exact ⟨hok.services d h1, hl⟩
  have hmem2 := fun d hd => hmem d (List.mem_append_right _ hd)
  have hprintable : Spec.printable m = m.resources := by
    unfold Spec.printable
    rw [List.filter_eq_self, hres]
    intro r hr
    rcases List.mem_cons.1 hr with rfl | hr
    · rfl
    · obtain ⟨s, _, rfl⟩ := List.mem_map.1 hr
      rfl
  have hpars := readBack (R := R) X.pretty ram ht hprint (by rw [hprintable, hres]; simp) hlen (by
    rw [hres]
    intro r hm
    rcases List.mem_cons.1 hm with rfl | hm
    · exact ⟨hok, by rw [hkind]; decide⟩
    · obtain ⟨s, hs, rfl⟩ := List.mem_map.1 hm
      obtain ⟨⟨k, v⟩, he, rfl⟩ := List.mem_map.1 ((toSecrets_perm hr.secrets.1).mem_iff.1 hs)
      obtain ⟨s1, s2, s3, s4⟩ := hr.secrets.2 k v he
      exact ⟨toSecret_ok s1 s2 s3 s4, by rw [toSecret_place]⟩)
  have harr : ∀ {l r}, List.Forall₂ (Converted X.upper) l r → (∀ d ∈ r, ContainerOk R X.pretty ram d ∧ Live d) →
      List.Forall₂ (Arrived X.upper) l (r.map readContainer) := by
    intro l r hf hd
    induction hf with
    | nil => exact .nil
    | cons h1 _ ih =>
      exact .cons (converted_arrived h1 (hd _ List.mem_cons_self).1) (ih fun d hm => hd d (List.mem_cons_of_mem _ hm))
  have hmnt : ∀ {l r}, List.Forall₂ (MountsResolve p2.volumes) l r → (∀ d ∈ r, ContainerOk R X.pretty ram d ∧ Live d) →
      List.Forall₂ (MountsResolve p2.volumes) l (r.map readContainer) := by
    intro l r hf hd
    induction hf with
    | nil => exact .nil
    | cons h1 _ ih =>
      refine .cons ?_ (ih fun d hm => hd d (List.mem_cons_of_mem _ hm))
      unfold MountsResolve at h1 ⊢
      rwa [(hd _ List.mem_cons_self).2.volumes]
  have hpre : pre.map readContainer = pre := by
    rcases a6 with ⟨rfl, _⟩ | ⟨rfl, _⟩ <;> rfl
  refine ⟨readPipeline p2, (toSecrets c).map keptSecret, pre, clones.map readContainer, steps2.map readContainer,
    services2.map readContainer, ?_, ?_, ?_, ?_, ?_, ?_, ?_, ?_, ?_, a6, ?_, ?_, ?_, ?_⟩
  · rw [hpars, hprintable, hres, List.map_cons, List.map_map, List.map_map]
    rfl
  · obtain ⟨_, _, _, _, _, _, _, _, _, _, _, hn⟩ := toPipeline_inv hp
    exact hn
  · rw [hread]
  · rw [hread, ← List.map_append]
    dsimp only
    rw [List.map_append, hpre]
  · rw [hread]
  · exact harr c1 fun d hd => hmem d (List.mem_append_left _ hd)
  · rw [hread]
    exact forall₂_both (harr c2 hmem2) (hmnt b2 hmem2)
  · rw [hread]
    refine forall₂_both ?_ (hmnt b4 hmemv)
    refine forall₂_both (harr (a5.imp fun _ _ h => h.1) hmemv) ?_
    rw [List.forall₂_map_right_iff]
    exact a5.imp fun _ _ h => h.2
  · intro i x d hx hd
    rw [← List.map_append, List.getElem?_map] at hd
    obtain ⟨d', hd', rfl⟩ := Option.map_eq_some_iff.1 hd
    exact a4 i x d' hx hd'
  · exact a7
  · refine ⟨(c.secrets.map fun e => toSecret e.1 e.2).map keptSecret, ((toSecrets_perm hr.secrets.1).map _).symm, ?_⟩
    rw [List.map_map, List.forall₂_map_right_iff, List.forall₂_same]
    rintro ⟨k, v⟩ _
    exact toSecret_arrived k v
  · refine ⟨p2, (toSecrets c).map .secret, ?_, by rw [hread], by rw [hread], by rw [hread]⟩
    rw [hman, ← hres]
  · intro E K rnd sp trusted hK hT hl hcmp i x d hx hd
    rw [← List.map_append, List.getElem?_map] at hd
    obtain ⟨d', hd', rfl⟩ := Option.map_eq_some_iff.1 hd
    have hall := harr a3 hmem
    have hsteps : (readPipeline p2).steps = ((pre ++ (clones ++ steps2)).map readContainer).map some := by rw [hread]
    have hb : builds (readPipeline p2) = [] := by
      unfold builds
      rw [List.filterMap_eq_nil_iff, hsteps]
      intro d hd
      obtain ⟨o, ho, hod⟩ := List.mem_filterMap.1 hd
      obtain ⟨d1, hd1, rfl⟩ := List.mem_map.1 ho
      cases hod
      obtain ⟨d2, hd2, rfl⟩ := List.mem_map.1 hd1
      have hbd : (readContainer d2).build = none := by
        rcases List.mem_append.1 hd2 with hd2 | hd2
        · rcases a6 with ⟨rfl, _⟩ | ⟨rfl, _⟩
          · simp at hd2
          · rw [List.mem_singleton] at hd2
            subst hd2
            rfl
        · obtain ⟨y, _, hy⟩ := forall₂_right hall (List.mem_map_of_mem hd2)
          exact hy.rest.1
      rw [hbd]
    have hm' : d' ∈ clones ++ steps2 := List.mem_of_getElem? hd'
    have hin : some (readContainer d') ∈ (readPipeline p2).steps := by
      rw [hsteps]
      exact List.mem_map_of_mem (List.mem_map_of_mem (List.mem_append_right _ hm'))
    have hxm : x ∈ c.clone ++ c.pipeline := List.mem_of_getElem? hx
    have harr' : Arrived X.upper x (readContainer d') := by
      refine forall₂_zip hall (z := (x, readContainer d')) (List.mem_iff_getElem?.2 ⟨i, ?_⟩)
      rw [List.getElem?_zip_eq_some, List.getElem?_map, hd']
      exact ⟨hx, rfl⟩
    have hos : (readPipeline p2).platform.os ≠ "windows" := by rw [hread]; simp
    obtain ⟨hdok, _⟩ := hmem d' hm'
    refine ⟨runs_with hK hT hcmp hos hb hin (hmaps x (List.mem_append_left _ hxm)) harr'
      (keptMapS_nodup _ hdok.environment.1) (keptMapS_nodup _ hdok.settings.1), fun hcmd hname => ?_⟩
    have := runs_script hK hT hcmp hl hos hb hin (by rw [harr'.commands]; exact hcmd) hname harr'.rest.1
    rwa [harr'.commands, harr'.image] at this

/-! ### An example -/

/-- A file with a variable that is empty, a secret, a setting, volumes, two steps of the same name and
declared secrets. -/
def exLegacyFile : Config where
  branches := { incl := ["master"] }
  pipeline := [
    { name := "build", image := "golang", commands := ["go build", "go test"],
      environment := [("A", "1"), ("EMPTY", "")], secrets := [some { source := "token", target := "TOKEN" }],
      volumes := [some { source := "/var/cache", destination := "/cache" }] },
    { name := "build", image := "plugins/docker", pull := true, vargs := [("repo", .str "octocat")],
      constraints := { event := { incl := ["deployment"] } } }]
  services := [{ name := "redis", image := "redis" }]
  secrets := [("token", { driver := "vault", driverOpts := [("path", "secret/ci"), ("key", "token")] }),
    ("other", { path := "secret/other" })]

def exLegacyLib : LegacyLib := { exLegacy with decode := fun _ => .ok exLegacyFile }

def exLegacyText : Bytes :=
  match Legacy.convert exLegacyLib {} [] "" with
  | some (.ok t) => t
  | _ => []

theorem exLegacyFile_readable : LegacyFile exResolver exPretty exLegacyLib.upper exLegacyFile
    (toWorkspace exLegacyLib {} exLegacyFile "").base (toWorkspace exLegacyLib {} exLegacyFile "").path := by
  have pn : PlainName "build" ∧ PlainName "redis" := by unfold PlainName Unescaped; decide
  have none : CondOk exResolver {} := ⟨nofun, nofun⟩
  have one : ∀ s, Readable exResolver s → CondOk exResolver { incl := [s] } := fun s h => ⟨by simpa using h, nofun⟩
  refine ⟨?_, ⟨rd "", rd ""⟩, ⟨one _ (rd "master"), ?_⟩, ⟨by decide, ?_⟩⟩
  · intro x hx
    simp only [exLegacyFile, List.cons_append, List.nil_append, List.mem_cons, List.not_mem_nil, or_false] at hx
    rcases hx with rfl | rfl | rfl
    · refine ⟨⟨rd "build", pn.1⟩, rd "golang", nofun, ?_, nofun, nofun, nofun, nofun, ⟨by decide, ?_⟩, ?_,
        ⟨by decide, nofun⟩, ?_, none, none, none, none, none, none, none⟩
      · intro s hs
        simp only [List.mem_cons, List.not_mem_nil, or_false] at hs
        rcases hs with rfl | rfl
        · exact rd "go build"
        · exact rd "go test"
      · intro k v hv
        simp only [List.mem_cons, List.not_mem_nil, or_false, Prod.mk.injEq] at hv
        rcases hv with ⟨rfl, rfl⟩ | ⟨rfl, rfl⟩
        · exact ⟨wk _ "A", rd "1"⟩
        · exact ⟨wk _ "EMPTY", rd ""⟩
      · intro t ht
        simp only [List.mem_cons, List.not_mem_nil, or_false, Option.some.injEq] at ht
        subst ht
        exact ⟨wk _ "TOKEN", rd "token"⟩
      · intro v hv
        simp only [List.mem_cons, List.not_mem_nil, or_false, Option.some.injEq] at hv
        subst hv
        exact ⟨by decide, rd "/var/cache", rd "/cache"⟩
    · refine ⟨⟨rd "build", pn.1⟩, rd "plugins/docker", nofun, nofun, nofun, nofun, nofun, nofun, ⟨by decide, nofun⟩, nofun,
        ⟨by decide, ?_⟩, nofun, none, none, none, none, one _ (rd "deployment"), none, none⟩
      intro k v hv
      simp only [List.mem_cons, List.not_mem_nil, or_false, Prod.mk.injEq] at hv
      obtain ⟨rfl, rfl⟩ := hv
      exact ⟨wk _ "repo", ⟨rd "octocat", fun _ => rfl⟩, by simp, by simp, by simp [LooksSecret]⟩
    · exact ⟨⟨rd "redis", pn.2⟩, rd "redis", nofun, nofun, nofun, nofun, nofun, nofun, ⟨by decide, nofun⟩, nofun,
        ⟨by decide, nofun⟩, nofun, none, none, none, none, none, none, none⟩
  · intro b hb
    simp only [exLegacyFile, List.mem_cons, List.not_mem_nil, or_false] at hb
    subst hb
    exact rd "refs/heads/master"
  · intro k v hv
    simp only [exLegacyFile, List.mem_cons, List.not_mem_nil, or_false, Prod.mk.injEq] at hv
    rcases hv with ⟨rfl, rfl⟩ | ⟨rfl, rfl⟩
    · refine ⟨rd "token", rd "", rd "", ?_⟩
      intro o t ht
      simp only [List.mem_cons, List.not_mem_nil, or_false, Prod.mk.injEq] at ht
      rcases ht with ⟨rfl, rfl⟩ | ⟨rfl, rfl⟩
      · exact rd "secret/ci"
      · exact rd "token"
    · exact ⟨rd "other", rd "secret/other", rd "", nofun⟩

/-- The example meets the hypotheses.  The variable `EMPTY` of its first step is not set any more and `A` is. -/
theorem C102_empty_variable (ram : String → Option Int) : ∃ tree, Parses exResolver tree ∧
    Legacy.convert exLegacyLib {} [] "" = some (.ok exLegacyText) ∧
    (exLegacyFile.pipeline.head?.map fun x => x.environment.get? "EMPTY") = some (some "") ∧
    ∃ q rest d ds, parseBytes (treeLib ram tree) exLegacyText = .ok ⟨.pipeline q :: rest⟩ ∧ q.steps = some d :: ds ∧
      d.commands = ["go build", "go test"] ∧ d.environment.get? "EMPTY" = none ∧
      d.environment.get? "A" = some (some { value := "1", secret := "" }) ∧
      d.environment.get? "TOKEN" = some (some { value := "", secret := "token" }) := by
  obtain ⟨tree, ht⟩ := parser_exists exResolver
  have hconv : Legacy.convert exLegacyLib {} [] "" = some (.ok exLegacyText) := by decide +kernel
  have hlen : ∃ ls, IsLines exLegacyText ls ∧ ∀ l ∈ ls, l.length < 65536 :=
    ⟨rawLines _, rawLines_isLines _, by decide +kernel⟩
  obtain ⟨q, secrets, pre, clones, steps, services, h1, _, _, h4, _, h6, h7, _, _, h10, _⟩ :=
    C102_legacy_partial exLegacyLib ram tree ht {} [] exLegacyText "" exLegacyFile rfl rfl hconv exLegacyFile_readable hlen
  refine ⟨tree, ht, hconv, rfl, q, secrets.map .secret, ?_⟩
  cases h6
  have hpre : pre = [] := by
    rcases h10 with h | h
    · exact h.1
    · exact absurd h.2.2 (by decide)
  subst hpre
  cases h7 with
  | @cons x d _ ds a b =>
    refine ⟨d, ds.map some, h1, h4, a.1.commands, ?_, ?_, ?_⟩
    · exact a.1.plain "EMPTY" (by simp; decide)
    · exact a.1.plain "A" (by simp; decide)
    · exact a.1.secret [] { source := "token", target := "TOKEN" } [] rfl nofun (by decide)

end Drone
