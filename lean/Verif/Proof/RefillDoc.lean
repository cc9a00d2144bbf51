/-
What is decoded from the fields of the documents the printer writes.
-/
import Mathlib.Tactic.Common
import Verif.Proof.RefillStep

namespace Drone
open Spec Yaml Pretty

variable {R : Resolver}

/-! ### Lists of containers -/

theorem printContainers_elts (L : PrettyLib) (ram : String → Option Int) {d : Nat} (l : List (Option Container))
    (hl : ∀ c, some c ∈ l → ContainerOk R L ram c) (w w' : Writer) (h : printContainers L l w = some w') :
    Elts R d (decPtr {} (decContainer ram)) w w'
      (keepList (fun c => if blankContainer c then none else some (readContainer c)) l) := by
  induction l generalizing w with
  | nil =>
    simp only [printContainers, Option.some.injEq] at h
    subst h
    exact Elts.refl
  | cons o l ih =>
    have ih := ih fun c hc => hl c (List.mem_cons_of_mem _ hc)
    cases o with
    | none => exact ih w h
    | some c =>
      simp only [printContainers] at h
      obtain ⟨w1, h1, h2⟩ := Option.bind_eq_some_iff.1 h
      unfold Writer.seq? at h1
      obtain ⟨w2, h3, rfl⟩ := Option.map_eq_some_iff.1 h1
      obtain ⟨w3, h4, rfl⟩ := Option.map_eq_some_iff.1 h3
      have key := container_fill L ram (hl c List.mem_cons_self) (d := d + 1) h4
      have e1 : Elts R d (decPtr {} (decContainer ram)) w { w with buf := w3.dec.buf, depth := w3.dec.depth }
          (((if blankContainer c then none else some (readContainer c) : Option Container).map some).toList) := by
        refine struct_elts (w := w) (f := fun _ => w3.dec) rfl key (fun es he _ => ptr_struct es he) ?_ ?_
        · intro hb; rw [if_neg hb]
        · intro hb; rw [if_pos (not_not.1 hb)]
      have := e1.trans (ih _ h2)
      unfold keepList
      rw [List.filterMap_cons]
      simp only [Option.bind_some]
      by_cases hb : blankContainer c
      · simpa [hb, keepList] using this
      · simpa [hb, keepList] using this

section
variable {σ : Type} {F : String → Option (Field σ)} {d : Nat} {w : Writer} {s : σ} {k : String}

theorem containers_fill (L : PrettyLib) (ram : String → Option Int) {l : List (Option Container)}
    {get : σ → List (Option Container)} {set : σ → List (Option Container) → σ} (hk : ReadableKey R L k)
    (hF : F k = some (field get set (decSlice none (decPtr {} (decContainer ram)))))
    (hv : ∀ v, some v ∈ l → ContainerOk R L ram v) (hs : set s [] = s) {w' : Writer}
    (h : when? (l.length > 0) (fun w => printContainers L l (writeTag L w k)) w = some w') :
    Fill R F d w w' s (set s (keepList (fun c => if blankContainer c then none else some (readContainer c)) l)) (l ≠ []) := by
  unfold when? at h
  by_cases hm : l = []
  · subst hm
    simp only [List.length_nil, gt_iff_lt, Nat.lt_irrefl, decide_false, Bool.false_eq_true, if_false, Option.some.injEq] at h
    subst h
    refine Fill.iff (p := False) ?_ (by simp)
    rw [show set s (keepList _ []) = s from hs]
    exact Fill.refl
  · rw [if_pos (by simpa [List.length_pos_iff] using hm)] at h
    exact (list_fill L hk hF (printContainers_elts L ram l hv _ _ h)).iff (by simp [hm])

/-! ### Volumes -/

/-- A volume that survives. -/
def VolumeOk (R : Resolver) (L : PrettyLib) (ram : String → Option Int) (v : Volume) : Prop :=
  Readable R v.name ∧
  (∀ e, v.emptyDir = some e → Readable R e.medium ∧ (e.sizeLimit ≠ 0 → Readable R (L.fmtSize e.sizeLimit) ∧
    decBytes ram (strNode R (L.fmtSize e.sizeLimit)) 0 = { val := e.sizeLimit })) ∧
  ∀ h, v.hostPath = some h → Readable R h.path

theorem emptyDir_fill (L : PrettyLib) (ram : String → Option Int) {get : σ → Option VolumeEmptyDir}
    {set : σ → Option VolumeEmptyDir → σ}
    (hF : F "temp" = some (field get set (decPtr {} (decVolumeEmptyDir ram)))) {v : Option VolumeEmptyDir}
    (hv : ∀ e, v = some e → Readable R e.medium ∧ (e.sizeLimit ≠ 0 → Readable R (L.fmtSize e.sizeLimit) ∧
      decBytes ram (strNode R (L.fmtSize e.sizeLimit)) 0 = { val := e.sizeLimit })) (hg : get s = none)
    (hs : set s none = s) :
    Fill R F d w (ifSome v (printEmptyDir L) w) s (set s v) (v ≠ none) := by
  cases v with
  | none =>
    refine Fill.iff (p := False) ?_ (by simp)
    rw [hs]
    exact Fill.refl
  | some e =>
    obtain ⟨h1, h2⟩ := hv e rfl
    refine Fill.iff (p := True) ?_ (by simp)
    unfold ifSome printEmptyDir
    obtain ⟨medium, size⟩ := e
    dsimp only at h1 h2 ⊢
    by_cases he : isEmptyDirEmpty ⟨medium, size⟩ = true
    · rw [if_pos he]
      simp only [isEmptyDirEmpty, Bool.and_eq_true, decide_eq_true_eq, String.length_eq_zero_iff] at he
      obtain ⟨rfl, rfl⟩ := he
      refine Fill.one (get := get) (set := set) (wk (R := R) L "temp").toReadable hF (v := .map []) ?_ fun hz =>
        ents_inline L (wk (R := R) L "temp") .emptyMap ⟨rfl, rfl⟩ rfl ?_
      · rw [hg]; rfl
      · have := ((puts_str (writeTag L w "temp") " ").trans (puts_str _ "{")).trans (puts_str _ "}")
        exact this
    · rw [if_neg he]
      have key := (str_fill (d := d + 1) (s := ({} : VolumeEmptyDir))
          (F := fun k => List.lookup k
            [ ("medium", field VolumeEmptyDir.medium (fun s v => { s with medium := v }) decString),
              ("size_limit", field VolumeEmptyDir.sizeLimit (fun s v => { s with sizeLimit := v }) (decBytes ram)) ])
          (w := (writeTag L w "temp").inc) L (wk (R := R) L "medium") rfl h1 (fun h => by subst h; rfl)).trans
        (size_fill L ram (wk (R := R) L "size_limit") rfl h2 (fun h => by subst h; rfl) rfl)
      refine block_custom L (wk (R := R) L "temp") hF key ?_ fun es he _ => by rw [hg]; exact ptr_struct es he
      simp only [isEmptyDirEmpty, Bool.and_eq_true, decide_eq_true_eq, String.length_eq_zero_iff] at he
      tauto

theorem hostPath_fill (L : PrettyLib) {get : σ → Option VolumeHostPath}
    {set : σ → Option VolumeHostPath → σ}
    (hF : F "host" = some (field get set (decPtr {} decVolumeHostPath))) {v : Option VolumeHostPath}
    (hv : ∀ h, v = some h → Readable R h.path) (hg : get s = none) (hs : set s none = s) :
    Fill R F d w (ifSome v (printHostPath L) w) s (set s (v.bind keptHost)) (v ≠ none) := by
  cases v with
  | none =>
    refine Fill.iff (p := False) ?_ (by simp)
    rw [show set s ((none : Option VolumeHostPath).bind keptHost) = s from hs]
    exact Fill.refl
  | some h =>
    have h1 := hv h rfl
    refine Fill.iff (p := True) ?_ (by simp)
    obtain ⟨path⟩ := h
    dsimp only at h1
    have key := str_fill (d := d + 1) (s := ({} : VolumeHostPath))
        (F := fun k => List.lookup k [ ("path", field VolumeHostPath.path (fun s v => { s with path := v }) decString) ])
        (w := (writeTag L w "host").inc) L (wk (R := R) L "path") rfl h1 (fun h => by subst h; rfl)
    have := block_ptr (s := s) L (wk (R := R) L "host") hF key hg
    refine cast ?_ this
    congr 2
    simp only [Option.bind_some, keptHost, VolumeHostPath.mk.injEq]
    by_cases hc : path = "" <;> simp [hc]

theorem volumes_fill (L : PrettyLib) (ram : String → Option Int) {l : List (Option Volume)} {get : σ → List (Option Volume)}
    {set : σ → List (Option Volume) → σ}
    (hF : F "volumes" = some (field get set (decSlice none (decPtr {} (decVolume ram)))))
    (hv : ∀ v, some v ∈ l → VolumeOk R L ram v) (hs : set s [] = s) {w' : Writer}
    (h : when? (l.length ≠ 0) (fun w => (printVolumes L w l).map (·.str "\n")) w = some w') :
    Fill R F d w w' s (set s (keepList keptVolume l)) (l ≠ []) := by
  have h' : ∃ w1, when? (l.length > 0) (fun w => printVolumes L w l) w = some w1 ∧
      (w' = w1 ∨ w' = w1.str "\n") := by
    unfold when? at h ⊢
    by_cases hm : l = []
    · subst hm
      simp only [List.length_nil, ne_eq, not_true_eq_false, decide_false, Bool.false_eq_true, if_false,
        Option.some.injEq] at h
      exact ⟨w, by simp, .inl h.symm⟩
    · rw [if_pos (by simpa using hm)] at h
      obtain ⟨w1, h1, h2⟩ := Option.map_eq_some_iff.1 h
      exact ⟨w1, by rw [if_pos (by simpa [List.length_pos_iff] using hm)]; exact h1, .inr h2.symm⟩
  obtain ⟨w1, h1, h2⟩ := h'
  have key : Fill R F d w w1 s (set s (keepList keptVolume l)) (l ≠ []) := by
    refine entries_fill L (wk (R := R) L "volumes") hF ?_ hs h1
    rintro w ⟨name, e, hp⟩ ha
    obtain ⟨a1, a2, a3⟩ := hv _ ha
    dsimp only at a1 a2 a3
    have key := ((str_fill (d := d + 1) (s := ({} : Volume))
        (F := fun k => List.lookup k
          [ ("name", field Volume.name (fun s v => { s with name := v }) decString),
            ("temp", field Volume.emptyDir (fun s v => { s with emptyDir := v }) (decPtr {} (decVolumeEmptyDir ram))),
            ("host", field Volume.hostPath (fun s v => { s with hostPath := v }) (decPtr {} decVolumeHostPath)) ])
        (w := Writer.inc { w with zero := false, index := some 0 }) L (wk (R := R) L "name") rfl a1
        (fun h => by subst h; rfl)).trans
      (emptyDir_fill L ram rfl a2 rfl rfl)).trans
      (hostPath_fill L rfl a3 rfl rfl)
    refine struct_elts rfl key (fun es he _ => ptr_struct es he) ?_ ?_
    · intro h
      unfold keptVolume
      rw [if_neg]
      simp only [Volume.mk.injEq]
      tauto
    · intro h
      unfold keptVolume
      rw [if_pos]
      simp only [Volume.mk.injEq]
      tauto
  rcases h2 with rfl | rfl
  · exact key
  · exact (key.trans Fill.nl).iff (by simp)

/-! ### The parts of a pipeline -/

theorem ifFill {α : Type} {c : Bool} {f : Writer} {set : σ → α → σ} {v z : α} (h0 : c = true → v = z)
    (hs : set s z = s) (h : c = false → Fill R F d w f s (set s v) True) :
    Fill R F d w (if c = true then w else f) s (set s v) (c = false) := by
  cases c with
  | true =>
    rw [if_pos rfl, h0 rfl, hs]
    exact Fill.refl.iff (by simp)
  | false =>
    rw [if_neg (by simp)]
    exact (h rfl).iff (by simp)

theorem platform_fill (L : PrettyLib) {get : σ → Platform} {set : σ → Platform → σ}
    (hF : F "platform" = some (field get set decPlatform)) {v : Platform}
    (hv : Readable R v.os ∧ Readable R v.arch ∧ Readable R v.variant ∧ Readable R v.version) (hg : get s = {}) :
    Fill R F d w (if isPlatformEmpty v then printPlatformDefault L w else printPlatform L w v) s
      (set s (keptPlatform v)) True := by
  have e : isPlatformEmpty v = true ↔ v = {} := by
    cases v
    simp [isPlatformEmpty, and_assoc]
  by_cases h : v = {}
  · rw [if_pos (e.2 h), keptPlatform, if_pos h]
    have key := ((str_fill (d := d + 1) (s := ({} : Platform)) (v := "linux")
        (F := fun k => List.lookup k
          [ ("os", field Platform.os (fun s v => { s with os := v }) decString),
            ("arch", field Platform.arch (fun s v => { s with arch := v }) decString),
            ("variant", field Platform.variant (fun s v => { s with variant := v }) decString),
            ("version", field Platform.version (fun s v => { s with version := v }) decString) ])
        (w := (writeTag L w "platform").inc) L (wk (R := R) L "os") rfl (wk L "linux").toReadable (by decide)).trans
      (str_fill L (v := "amd64") (wk (R := R) L "arch") rfl (wk L "amd64").toReadable (by decide))).trans Fill.nl
    exact block_fill L (wk (R := R) L "platform") hF key hg
  · rw [if_neg (fun x => h (e.1 x)), keptPlatform, if_neg h]
    obtain ⟨os, arch, variant, version⟩ := v
    obtain ⟨h1, h2, h3, h4⟩ := hv
    dsimp only at *
    have key := ((((str_fill (d := d + 1) (s := ({} : Platform))
        (F := fun k => List.lookup k
          [ ("os", field Platform.os (fun s v => { s with os := v }) decString),
            ("arch", field Platform.arch (fun s v => { s with arch := v }) decString),
            ("variant", field Platform.variant (fun s v => { s with variant := v }) decString),
            ("version", field Platform.version (fun s v => { s with version := v }) decString) ])
        (w := (writeTag L w "platform").inc) L (wk (R := R) L "os") rfl h1 (fun h => by subst h; rfl)).trans
      (str_fill L (wk (R := R) L "arch") rfl h2 (fun h => by subst h; rfl))).trans
      (str_fill L (wk (R := R) L "variant") rfl h3 (fun h => by subst h; rfl))).trans
      (str_fill L (wk (R := R) L "version") rfl h4 (fun h => by subst h; rfl))).trans Fill.nl
    exact block_fill L (wk (R := R) L "platform") hF key hg

theorem clone_fill (L : PrettyLib) {get : σ → Clone} {set : σ → Clone → σ}
    (hF : F "clone" = some (field get set decClone)) {v : Clone} (hv : -2 ^ 63 ≤ v.depth ∧ v.depth < 2 ^ 63)
    (hg : get s = {}) (hs : set s {} = s) :
    Fill R F d w (if isCloneEmpty v then w else printClone L w v) s (set s v) (isCloneEmpty v = false) := by
  refine ifFill ?_ hs fun _ => ?_
  · intro h
    cases v
    simp only [isCloneEmpty, Bool.and_eq_true, decide_eq_true_eq] at h
    simp [h]
  · obtain ⟨disable, depth, skip⟩ := v
    dsimp only at hv
    have key := (((int_fill (d := d + 1) (s := ({} : Clone))
        (F := fun k => List.lookup k
          [ ("disable", field Clone.disable (fun s v => { s with disable := v }) decBool),
            ("depth", field Clone.depth (fun s v => { s with depth := v }) decInt),
            ("skip_verify", field Clone.skipVerify (fun s v => { s with skipVerify := v }) decBool) ])
        (w := (writeTag L w "clone").inc) L (wk (R := R) L "depth") rfl hv (fun h => by subst h; rfl)).trans
      (bool_fill L (v := disable) (wk (R := R) L "disable") rfl (fun h => by subst h; rfl))).trans
      (bool_fill L (v := skip) (wk (R := R) L "skip_verify") rfl (fun h => by subst h; rfl))).trans Fill.nl
    exact block_fill L (wk (R := R) L "clone") hF key hg

theorem concurrency_fill (L : PrettyLib) {get : σ → Concurrency} {set : σ → Concurrency → σ}
    (hF : F "concurrency" = some (field get set decConcurrency)) {v : Concurrency}
    (hv : -2 ^ 63 ≤ v.limit ∧ v.limit < 2 ^ 63) (hg : get s = {}) (hs : set s {} = s) :
    Fill R F d w (if isConcurrencyEmpty v then w else printConcurrency L w v) s (set s v)
      (isConcurrencyEmpty v = false) := by
  refine ifFill ?_ hs fun _ => ?_
  · intro h
    cases v
    simp only [isConcurrencyEmpty, decide_eq_true_eq] at h
    simp [h]
  · obtain ⟨limit⟩ := v
    dsimp only at hv
    have key := (int_fill (d := d + 1) (s := ({} : Concurrency))
        (F := fun k => List.lookup k [ ("limit", field Concurrency.limit (fun s v => { s with limit := v }) decInt) ])
        (w := (writeTag L w "concurrency").inc) L (wk (R := R) L "limit") rfl hv (fun h => by subst h; rfl)).trans Fill.nl
    exact block_fill L (wk (R := R) L "concurrency") hF key hg

theorem workspace_fill (L : PrettyLib) {get : σ → Workspace} {set : σ → Workspace → σ}
    (hF : F "workspace" = some (field get set decWorkspace)) {v : Workspace}
    (hv : Readable R v.base ∧ Readable R v.path) (hg : get s = {}) (hs : set s {} = s) :
    Fill R F d w (if isWorkspaceEmpty v then w else printWorkspace L w v) s (set s v)
      (isWorkspaceEmpty v = false) := by
  refine ifFill ?_ hs fun _ => ?_
  · intro h
    cases v
    simp only [isWorkspaceEmpty, Bool.and_eq_true, decide_eq_true_eq] at h
    simp [h]
  · obtain ⟨base, path⟩ := v
    dsimp only at hv
    have key := ((str_fill (d := d + 1) (s := ({} : Workspace))
        (F := fun k => List.lookup k
          [ ("base", field Workspace.base (fun s v => { s with base := v }) decString),
            ("path", field Workspace.path (fun s v => { s with path := v }) decString) ])
        (w := (writeTag L w "workspace").inc) L (wk (R := R) L "base") rfl hv.1 (fun h => by subst h; rfl)).trans
      (str_fill L (wk (R := R) L "path") rfl hv.2 (fun h => by subst h; rfl))).trans Fill.nl
    exact block_fill L (wk (R := R) L "workspace") hF key hg

theorem strsNl_fill (L : PrettyLib) {get : σ → List String} {set : σ → List String → σ} (hk : ReadableKey R L k)
    (hF : F k = some (field get set decStrings)) {v : List String} (hv : ∀ x ∈ v, Readable R x)
    (hs : v = [] → set s v = s) :
    Fill R F d w (if v.length > 0 then (writeTagValue L w k (.strs v)).str "\n" else w) s (set s v) (v ≠ []) := by
  by_cases h : v = []
  · rw [if_neg (by simp [h]), hs h]
    exact Fill.refl.iff (by simp [h])
  · rw [if_pos (by simpa [List.length_pos_iff] using h)]
    exact ((strs_fill L hk hF hv hs).trans Fill.nl).iff (by simp)

theorem strMapNl_fill (L : PrettyLib) {get : σ → GoMap String} {set : σ → GoMap String → σ} (hk : ReadableKey R L k)
    (hF : F k = some (field get set decStringMap)) {v : GoMap String} (hv : StrMapOk R L v)
    (hs : v = [] → set s [] = s) (hg : get s = []) :
    Fill R F d w (if v.length > 0 then (writeTagValue L w k (.strMap v)).str "\n" else w) s (set s (sorted v)) (v ≠ []) := by
  by_cases h : v = []
  · rw [if_neg (by simp [h]), h, show sorted ([] : GoMap String) = [] from rfl, hs h]
    exact Fill.refl.iff (by simp)
  · rw [if_pos (by simpa [List.length_pos_iff] using h)]
    exact ((strMap_fill L hk hF hv hs hg).trans Fill.nl).iff (by simp)

theorem condsNl_fill (L : PrettyLib) {get : σ → Conditions} {set : σ → Conditions → σ} (hk : ReadableKey R L k)
    (hF : F k = some (field get set decConditions)) {v : Conditions} (hv : CondsOk R v) (hg : get s = {})
    (hs : set s {} = s) :
    Fill R F d w (if isConditionsEmpty v then w else (printConditions L w k v).str "\n") s (set s (keptConditions v))
      (keptConditions v ≠ {}) := by
  have key := conds_fill (d := d) (w := w) L hk hF hv hg hs
  cases h : isConditionsEmpty v with
  | true => simpa [h] using key
  | false =>
    rw [h] at key
    exact (key.trans Fill.nl).iff (by simp)

end

/-- A pipeline every part of which survives. -/
structure PipelineOk (R : Resolver) (L : PrettyLib) (ram : String → Option Int) (p : Pipeline) : Prop where
  version : Readable R p.version
  kind : Readable R p.kind
  type : Readable R p.type
  name : Readable R p.name
  platform : Readable R p.platform.os ∧ Readable R p.platform.arch ∧ Readable R p.platform.variant ∧
    Readable R p.platform.version
  clone : -2 ^ 63 ≤ p.clone.depth ∧ p.clone.depth < 2 ^ 63
  concurrency : -2 ^ 63 ≤ p.concurrency.limit ∧ p.concurrency.limit < 2 ^ 63
  workspace : Readable R p.workspace.base ∧ Readable R p.workspace.path
  steps : ∀ c, some c ∈ p.steps → ContainerOk R L ram c
  services : ∀ c, some c ∈ p.services → ContainerOk R L ram c
  volumes : ∀ v, some v ∈ p.volumes → VolumeOk R L ram v
  pullSecrets : ∀ x ∈ p.pullSecrets, Readable R x
  node : StrMapOk R L p.node
  trigger : CondsOk R p.trigger
  dependsOn : ∀ x ∈ p.dependsOn, Readable R x

/-- The pipeline that is read. -/
def readPipeline (p : Pipeline) : Pipeline :=
  { p with
    platform := keptPlatform p.platform
    steps := keepList (fun c => if blankContainer c then none else some (readContainer c)) p.steps
    services := keepList (fun c => if blankContainer c then none else some (readContainer c)) p.services
    volumes := keepList keptVolume p.volumes
    node := sorted p.node
    trigger := keptConditions p.trigger }

theorem pipeline_fill (L : PrettyLib) (ram : String → Option Int) {p : Pipeline} (h : PipelineOk R L ram p) {d : Nat}
    {w w' : Writer} (hw : printPipeline L w p = some w') :
    Fill R (fun k => (pipelineFields ram).lookup k) d (w.str "---") w' {} (readPipeline p) True := by
  unfold printPipeline at hw
  dsimp only at hw
  obtain ⟨w1, g1, hw⟩ := Option.bind_eq_some_iff.1 hw
  obtain ⟨w2, g2, hw⟩ := Option.bind_eq_some_iff.1 hw
  obtain ⟨w3, g3, hw⟩ := Option.map_eq_some_iff.1 hw
  subst hw
  obtain ⟨version, kind, type, name, clone, concurrency, dependsOn, node, platform, pullSecrets, services, steps,
    trigger, volumes, workspace⟩ := p
  obtain ⟨a1, a2, a3, a4, a5, a6, a7, a8, a9, a10, a11, a12, a13, a14, a15⟩ := h
  dsimp only at *
  have k1 :=
    ((((((((str_fill (d := d) (F := fun k => (pipelineFields ram).lookup k) (w := w.str "---") (s := {}) L (wk (R := R) L "version") rfl a1 (fun h => by subst h; rfl)).trans
    (str_fill L (wk (R := R) L "kind") rfl a2 (fun h => by subst h; rfl))).trans
    (str_fill L (wk (R := R) L "type") rfl a3 (fun h => by subst h; rfl))).trans
    (str_fill L (wk (R := R) L "name") rfl a4 (fun h => by subst h; rfl))).trans Fill.nl).trans
    (platform_fill L rfl a5 rfl)).trans
    (clone_fill L rfl a6 rfl rfl)).trans
    (concurrency_fill L rfl a7 rfl rfl)).trans
    (workspace_fill L rfl a8 rfl rfl)
  have k2 := ((k1.trans (containers_fill L ram (wk (R := R) L "steps") rfl a9 rfl g1)).trans
    (containers_fill L ram (wk (R := R) L "services") rfl a10 rfl g2)).trans
    (volumes_fill L ram rfl a11 rfl g3)
  have k3 := ((((k2.trans (strsNl_fill L (wk (R := R) L "image_pull_secrets") rfl a12 (fun h => by subst h; rfl))).trans
    (strMapNl_fill L (wk (R := R) L "node") rfl a13 (fun h => by subst h; rfl) rfl)).trans
    (condsNl_fill L (wk (R := R) L "trigger") rfl a14 rfl rfl)).trans
    (strsNl_fill L (wk (R := R) L "depends_on") rfl a15 (fun h => by subst h; rfl))).trans Fill.nl
  exact Fill.iff k3 (by simp)

/-! ### Crons and signatures -/

/-- A cron resource that survives. -/
structure CronOk (R : Resolver) (c : Cron) : Prop where
  version : Readable R c.version
  kind : Readable R c.kind
  name : Readable R c.name
  schedule : Readable R c.schedule
  branch : Readable R c.branch
  target : Readable R c.deployTarget

/-- A block whose fields are those of the outer record. -/
theorem nested_fill (L : PrettyLib) {σ : Type} {F G : String → Option (Field σ)} {d : Nat} {w w' : Writer} {s t : σ}
    {k : String} {p : Prop} {reset : σ → σ} (hk : ReadableKey R L k) (hF : F k = some (nested reset G))
    (h : Fill R G (d + 1) (writeTag L w k).inc w' s t p) (hr : reset s = s) :
    Fill R F d w w'.dec s t True := by
  intro hz
  obtain ⟨es, h1, h2, h3, h4⟩ := h ((writeTag_same L w k).zero.trans hz)
  refine ⟨_, ents_block L hk h1, ?_, by simp, ?_⟩
  · simp only [decFields, strNode_dec hk.toReadable, if_true, hF]
    by_cases he : es = []
    · subst he
      simp only [decFields, Res.mk.injEq, and_true] at h2
      subst h2
      simp [nested, hr]
    · simp [he, nested, h2]
  · intro e he
    simp only [List.mem_singleton] at he
    subst he
    exact ⟨k, strNode_text hk.toReadable, by simp [hF]⟩

theorem cron_fill (L : PrettyLib) {c : Cron} (h : CronOk R c) {d : Nat} {w : Writer} :
    Fill R cronField d (w.str "---") (printCron L w c) {} (keptCron c) True := by
  obtain ⟨version, kind, type, name, schedule, branch, target⟩ := c
  obtain ⟨a1, a2, a3, a4, a5, a6⟩ := h
  dsimp only at *
  have k1 := ((str_fill (d := d) (F := cronField) (w := w.str "---") (s := {}) L (wk (R := R) L "version") rfl a1 (fun h => by subst h; rfl)).trans
    (str_fill L (wk (R := R) L "kind") rfl a2 (fun h => by subst h; rfl))).trans
    (str_fill L (wk (R := R) L "name") rfl a3 (fun h => by subst h; rfl))
  unfold printCron
  dsimp only
  generalize hw : tagStr L (tagStr L (tagStr L (w.str "---") "version" version) "kind" kind) "name" name = w1 at k1 ⊢
  have s1 := (str_fill (d := d + 1) (F := cronSpecField) (w := (writeTag L w1 "spec").inc) (s := { version, kind, name })
      L (wk (R := R) L "schedule") rfl a4 (fun h => by subst h; rfl)).trans
    (str_fill L (wk (R := R) L "branch") rfl a5 (fun h => by subst h; rfl))
  generalize hw2 : tagStr L (tagStr L (writeTag L w1 "spec").inc "schedule" schedule) "branch" branch = w2 at s1 ⊢
  have s2 : Fill R cronSpecField (d + 1) w2
      (if target ≠ "" then (tagStr L (writeTag L w2 "deployment").inc "target" target).dec else w2)
      { version, kind, name, schedule, branch } { version, kind, name, schedule, branch, deployTarget := target }
      (target ≠ "") := by
    by_cases ht : target = ""
    · subst ht
      rw [if_neg (by simp)]
      exact Fill.refl.iff (by simp)
    · rw [if_pos ht]
      have := str_fill (d := d + 1 + 1) (F := cronDeployField) (w := (writeTag L w2 "deployment").inc)
        (s := { version, kind, name, schedule, branch }) L (wk (R := R) L "target") rfl a6 (fun h => by subst h; rfl)
      exact (nested_fill L (wk (R := R) L "deployment") rfl this rfl).iff (by simp [ht])
  have s3 := s1.trans s2
  have k2 := nested_fill L (F := cronField) (wk (R := R) L "spec") rfl s3 rfl
  exact (((k1.trans k2).trans Fill.nl).trans Fill.nl).iff (by simp)

/-- A signature that survives. -/
structure SignatureOk (R : Resolver) (s : Signature) : Prop where
  version : Readable R s.version
  kind : Readable R s.kind
  hmac : Readable R s.hmac

theorem signature_fill (L : PrettyLib) {c : Signature} (h : SignatureOk R c) {d : Nat} {w : Writer} :
    Fill R signatureField d (w.str "---") (printSignature L w c) {} c (c ≠ {}) := by
  obtain ⟨version, kind, hmac⟩ := c
  obtain ⟨a1, a2, a3⟩ := h
  dsimp only at *
  have k1 := ((((str_fill (d := d) (F := signatureField) (w := w.str "---") (s := {}) L (wk (R := R) L "version") rfl a1 (fun h => by subst h; rfl)).trans
    (str_fill L (wk (R := R) L "kind") rfl a2 (fun h => by subst h; rfl))).trans
    (str_fill L (wk (R := R) L "hmac") rfl a3 (fun h => by subst h; rfl))).trans Fill.nl).trans Fill.nl
  refine k1.iff ?_
  simp only [ne_eq, Signature.mk.injEq]
  tauto

end Drone
