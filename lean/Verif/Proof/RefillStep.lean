/-
What is decoded from the containers and volumes the printer writes.
-/
import Mathlib.Tactic.Common
import Verif.Proof.RefillValue

namespace Drone
open Spec Yaml Pretty

variable {R : Resolver}

section
variable {σ : Type} {F : String → Option (Field σ)} {d : Nat} {w : Writer} {s : σ} {k : String}

/-! ### Lists of pointers -/

theorem eachEntry_elts {α τ : Type} {dc : Dec (Option τ)} {f : Writer → α → Writer} {g : α → Option τ}
    (l : List (Option α)) (hf : ∀ w a, some a ∈ l → Elts R d dc w (f w a) ((g a).map some).toList)
    (w w' : Writer) (h : eachEntry f l w = some w') : Elts R d dc w w' (keepList g l) := by
  induction l generalizing w with
  | nil =>
    simp only [eachEntry, Option.some.injEq] at h
    subst h
    exact Elts.refl
  | cons o l ih =>
    cases o with
    | none => simp [eachEntry] at h
    | some a =>
      have h1 := hf w a List.mem_cons_self
      have h2 := ih (fun w a ha => hf w a (List.mem_cons_of_mem _ ha)) _ h
      have := h1.trans h2
      unfold keepList
      rw [List.filterMap_cons]
      simp only [Option.bind_some]
      cases hg : g a <;> simpa [hg, keepList] using this

theorem entries_fill {α τ : Type} (L : PrettyLib) {dc : Dec (Option τ)} {l : List (Option α)}
    {f : Writer → α → Writer} {g : α → Option τ} {get : σ → List (Option τ)} {set : σ → List (Option τ) → σ}
    (hk : ReadableKey R L k) (hF : F k = some (field get set (decSlice none dc)))
    (hf : ∀ w a, some a ∈ l → Elts R d dc w (f w a) ((g a).map some).toList) (hs : set s [] = s) {w' : Writer}
    (h : when? (l.length > 0) (fun w => eachEntry f l (writeTag L w k)) w = some w') :
    Fill R F d w w' s (set s (keepList g l)) (l ≠ []) := by
  unfold when? at h
  by_cases hm : l = []
  · subst hm
    simp only [List.length_nil, gt_iff_lt, Nat.lt_irrefl, decide_false, Bool.false_eq_true, if_false, Option.some.injEq] at h
    subst h
    refine Fill.iff (p := False) ?_ (by simp)
    rw [show set s (keepList g []) = s from hs]
    exact Fill.refl
  · rw [if_pos (by simpa [List.length_pos_iff] using hm)] at h
    exact (list_fill L hk hF (eachEntry_elts l hf _ _ h)).iff (by simp [hm])

/-- An item with the fields of a struct. -/
theorem struct_elts {τ : Type} {G : String → Option (Field τ)} {dc : Dec (Option τ)} {z t : τ} {p : Prop} {o : Option τ}
    {f : Writer → Writer} {s' : Writer} (hf : f { w with zero := false, index := some 0 } = s'.dec)
    (h : Fill R G (d + 1) (Writer.inc { w with zero := false, index := some 0 }) s' z t p)
    (hd : ∀ es, decFields G es z = { val := t } → es ≠ [] → dc (.map es) none = { val := some t })
    (h1 : p → o = some t) (h2 : ¬ p → o = none) : Elts R d dc w (w.seq f) (o.map some).toList := by
  by_cases hp : p
  · have := Elts.seq (p := True) hf hd (h.iff (by simp [hp]))
    simpa [h1 hp] using this
  · have := Elts.seq (p := False) hf hd (h.iff (by simp [hp]))
    simpa [h2 hp] using this

def DeviceOk (R : Resolver) (v : VolumeDevice) : Prop := Readable R v.name ∧ Readable R v.devicePath
def MountOk (R : Resolver) (v : VolumeMount) : Prop := Readable R v.name ∧ Readable R v.mountPath

theorem devices_fill (L : PrettyLib) {l : List (Option VolumeDevice)} {get : σ → List (Option VolumeDevice)}
    {set : σ → List (Option VolumeDevice) → σ}
    (hF : F "devices" = some (field get set (decSlice none (decPtr {} decVolumeDevice))))
    (hv : ∀ v, some v ∈ l → DeviceOk R v) (hs : set s [] = s) {w' : Writer}
    (h : when? (l.length > 0) (fun w => printDeviceMounts L w l) w = some w') :
    Fill R F d w w' s (set s (keepList keptDevice l)) (l ≠ []) := by
  refine entries_fill L (wk (R := R) L "devices") hF ?_ hs h
  rintro w ⟨name, path⟩ ha
  obtain ⟨h1, h2⟩ := hv _ ha
  have key := (str_fill (d := d + 1) (s := ({} : VolumeDevice))
      (F := fun k => List.lookup k
        [ ("name", field VolumeDevice.name (fun s v => { s with name := v }) decString),
          ("path", field VolumeDevice.devicePath (fun s v => { s with devicePath := v }) decString) ])
      (w := Writer.inc { w with zero := false, index := some 0 }) L (wk (R := R) L "name") rfl h1
      (fun h => by simp only at h; subst h; rfl)).trans
    (str_fill L (wk (R := R) L "path") rfl h2 (fun h => by simp only at h; subst h; rfl))
  refine struct_elts rfl key (fun es he _ => ptr_struct es he) ?_ ?_
  · intro h
    unfold keptDevice
    rw [if_neg]
    simp only [VolumeDevice.mk.injEq]
    tauto
  · intro h
    unfold keptDevice
    rw [if_pos]
    simp only [VolumeDevice.mk.injEq]
    tauto

theorem mounts_fill (L : PrettyLib) {l : List (Option VolumeMount)} {get : σ → List (Option VolumeMount)}
    {set : σ → List (Option VolumeMount) → σ}
    (hF : F "volumes" = some (field get set (decSlice none (decPtr {} decVolumeMount))))
    (hv : ∀ v, some v ∈ l → MountOk R v) (hs : set s [] = s) {w' : Writer}
    (h : when? (l.length > 0) (fun w => printVolumeMounts L w l) w = some w') :
    Fill R F d w w' s (set s (keepList keptMount l)) (l ≠ []) := by
  refine entries_fill L (wk (R := R) L "volumes") hF ?_ hs h
  rintro w ⟨name, path⟩ ha
  obtain ⟨h1, h2⟩ := hv _ ha
  have key := (str_fill (d := d + 1) (s := ({} : VolumeMount))
      (F := fun k => List.lookup k
        [ ("name", field VolumeMount.name (fun s v => { s with name := v }) decString),
          ("path", field VolumeMount.mountPath (fun s v => { s with mountPath := v }) decString) ])
      (w := Writer.inc { w with zero := false, index := some 0 }) L (wk (R := R) L "name") rfl h1
      (fun h => by simp only at h; subst h; rfl)).trans
    (str_fill L (wk (R := R) L "path") rfl h2 (fun h => by simp only at h; subst h; rfl))
  refine struct_elts rfl key (fun es he _ => ptr_struct es he) ?_ ?_
  · intro h
    unfold keptMount
    rw [if_neg]
    simp only [VolumeMount.mk.injEq]
    tauto
  · intro h
    unfold keptMount
    rw [if_pos]
    simp only [VolumeMount.mk.injEq]
    tauto

/-- A port that survives. -/
def PortOk (R : Resolver) (p : Port) : Prop :=
  (-2 ^ 63 ≤ p.port ∧ p.port < 2 ^ 63) ∧ (-2 ^ 63 ≤ p.host ∧ p.host < 2 ^ 63) ∧ Readable R p.protocol

theorem ports_fill (L : PrettyLib) {l : List (Option Port)} {get : σ → List (Option Port)}
    {set : σ → List (Option Port) → σ}
    (hF : F "ports" = some (field get set (decSlice none (decPtr {} (custom {} unmarshalPort)))))
    (hv : ∀ v, some v ∈ l → PortOk R v) (hs : set s [] = s) {w' : Writer}
    (h : when? (l.length > 0) (fun w => printPorts L w l) w = some w') :
    Fill R F d w w' s (set s (keepList some l)) (l ≠ []) := by
  refine entries_fill L (wk (R := R) L "ports") hF ?_ hs h
  rintro w ⟨port, host, protocol⟩ ha
  obtain ⟨h1, h2, h3⟩ := hv _ ha
  dsimp only at h1 h2 h3 ⊢
  by_cases hp : shortPort ⟨port, host, protocol⟩ = true
  · rw [if_pos hp]
    simp only [shortPort, Bool.and_eq_true, decide_eq_true_eq, String.length_eq_zero_iff] at hp
    obtain ⟨rfl, rfl⟩ := hp
    refine ⟨_, itms_line (t := (toString port).toList) ⟨rfl, rfl⟩ rfl (int_atom h1.1 h1.2) fun hd => ?_, ?_⟩
    case refine_2 =>
      have h0 : decInt (.scalar (toString port) (.int port)) 0 = { val := port } := if_pos h1
      simp only [decElems, decPtr, custom, unmarshalPort, Option.getD_none, h0]
      rfl
    have := (((newline_puts hd).trans (puts_str _ "-")).trans (puts_str _ " ")).trans (puts_str _ (toString port))
    simpa using this
  · rw [if_neg hp]
    have key := ((int_fill (d := d + 1) (s := ({} : Port))
        (F := fun k => List.lookup k
          [ ("port", field Port.port (fun s v => { s with port := v }) decInt),
            ("host", field Port.host (fun s v => { s with host := v }) decInt),
            ("protocol", field Port.protocol (fun s v => { s with protocol := v }) decString) ])
        (w := Writer.inc { w with zero := false, index := some 0 }) L (wk (R := R) L "port") rfl h1
        (fun h => by subst h; rfl)).trans
      (int_fill L (wk (R := R) L "host") rfl h2 (fun h => by subst h; rfl))).trans
      (str_fill L (wk (R := R) L "protocol") rfl h3 (fun h => by subst h; rfl))
    refine struct_elts rfl key (fun es he _ => ?_) (fun _ => rfl) ?_
    · show Res.mk (some (unmarshalPort (.map es) {}).1) (!(unmarshalPort (.map es) {}).2) (unmarshalPort (.map es) {}).2 = _
      have : unmarshalPort (.map es) {} = ((decPortLong (.map es) {}).val, (decPortLong (.map es) {}).err) := rfl
      rw [this, show decPortLong (.map es) {} = _ from he]
      rfl
    · intro h
      exfalso
      apply hp
      simp only [shortPort, Bool.and_eq_true, decide_eq_true_eq, String.length_eq_zero_iff]
      tauto

/-! ### Resources -/

/-- Limits that survive: the numbers are read as they were. -/
def ObjectOk (R : Resolver) (L : PrettyLib) (ram : String → Option Int) (r : ResourceObject) : Prop :=
  (r.cpu ≠ 0 → PlainScalar (L.fmtFloat r.cpu).toList ∧ decFloat (plainNode R (L.fmtFloat r.cpu)) 0 = { val := r.cpu }) ∧
  (r.memory ≠ 0 → Readable R (L.fmtSize r.memory) ∧ decBytes ram (strNode R (L.fmtSize r.memory)) 0 = { val := r.memory })

theorem object_fill (L : PrettyLib) (ram : String → Option Int) {get : σ → Option ResourceObject}
    {set : σ → Option ResourceObject → σ} (hk : ReadableKey R L k)
    (hF : F k = some (field get set (decPtr {} (decResourceObject ram)))) {v : Option ResourceObject}
    (hv : ∀ r, v = some r → ObjectOk R L ram r) (hg : get s = none) (hs : set s none = s) :
    Fill R F d w (printResourceObject L w k v) s (set s (v.bind keptObject)) (v ≠ none) := by
  cases v with
  | none =>
    refine Fill.iff (p := False) ?_ (by simp)
    rw [show set s ((none : Option ResourceObject).bind keptObject) = s from hs]
    exact Fill.refl
  | some r =>
    obtain ⟨h1, h2⟩ := hv r rfl
    obtain ⟨cpu, memory⟩ := r
    dsimp only at h1 h2
    have key := (float_fill (d := d + 1) (s := ({} : ResourceObject))
        (F := fun k => List.lookup k
          [ ("cpu", field ResourceObject.cpu (fun s v => { s with cpu := v }) decFloat),
            ("memory", field ResourceObject.memory (fun s v => { s with memory := v }) (decBytes ram)) ])
        (w := (writeTag L w k).inc) L (wk (R := R) L "cpu") rfl h1 (fun h => by subst h; rfl) rfl).trans
      (size_fill L ram (wk (R := R) L "memory") rfl h2 (fun h => by subst h; rfl) rfl)
    refine Fill.iff (p := True) ?_ (by simp)
    have := block_ptr (s := s) L hk hF key hg
    refine cast ?_ this
    congr 2
    simp only [Option.bind_some, keptObject, ResourceObject.mk.injEq]
    by_cases hc : cpu = 0 <;> by_cases hm : memory = 0 <;> simp [hc, hm]

/-- Resources that survive. -/
def ResourcesOk (R : Resolver) (L : PrettyLib) (ram : String → Option Int) (r : Resources) : Prop :=
  (∀ o, r.limits = some o → ObjectOk R L ram o) ∧ ∀ o, r.requests = some o → ObjectOk R L ram o

theorem resources_fill (L : PrettyLib) (ram : String → Option Int) {get : σ → Option Resources}
    {set : σ → Option Resources → σ} 
    (hF : F "resources" = some (field get set (decPtr {} (decResources ram)))) {v : Option Resources}
    (hv : ∀ r, v = some r → ResourcesOk R L ram r) (hg : get s = none) (hs : set s none = s) :
    Fill R F d w (ifSome v (printResources L) w) s (set s (v.bind keptResources)) (v ≠ none) := by
  cases v with
  | none =>
    refine Fill.iff (p := False) ?_ (by simp)
    rw [show set s ((none : Option Resources).bind keptResources) = s from hs]
    exact Fill.refl
  | some r =>
    obtain ⟨h1, h2⟩ := hv r rfl
    obtain ⟨li, re⟩ := r
    dsimp only at h1 h2
    have key := (object_fill (d := d + 1) (s := ({} : Resources))
        (F := fun k => List.lookup k
          [ ("limits", field Resources.limits (fun s v => { s with limits := v }) (decPtr {} (decResourceObject ram))),
            ("requests", field Resources.requests (fun s v => { s with requests := v }) (decPtr {} (decResourceObject ram))) ])
        (w := (writeTag L w "resources").inc) L ram (wk (R := R) L "limits") rfl h1 rfl rfl).trans
      (object_fill L ram (wk (R := R) L "requests") rfl h2 rfl rfl)
    refine Fill.iff (p := True) ?_ (by simp)
    have := block_ptr (s := s) L (wk (R := R) L "resources") hF key hg
    refine cast ?_ this
    congr 2
    simp only [Option.bind_some, keptResources, Resources.mk.injEq]
    cases li <;> cases re <;> simp

end

/-! ### Containers -/

/-- A container every part of which survives. -/
structure ContainerOk (R : Resolver) (L : PrettyLib) (ram : String → Option Int) (c : Container) : Prop where
  name : Readable R c.name
  pull : Readable R c.pull
  image : Readable R c.image
  build : ∀ b, c.build = some b → BuildOk R L b
  push : ∀ p, c.push = some p → Readable R p.image
  user : Readable R c.user
  shell : Readable R c.shell
  entrypoint : ∀ x ∈ c.entrypoint, Readable R x
  command : ∀ x ∈ c.command, Readable R x
  commands : ∀ x ∈ c.commands, Readable R x
  dns : ∀ x ∈ c.dns, Readable R x
  dnsSearch : ∀ x ∈ c.dnsSearch, Readable R x
  extraHosts : ∀ x ∈ c.extraHosts, Readable R x
  network : Readable R c.network
  settings : SettingsOk R L c.settings
  environment : EnvOk R L c.environment
  failure : Readable R c.failure
  workingDir : Readable R c.workingDir
  devices : ∀ v, some v ∈ c.devices → DeviceOk R v
  ports : ∀ v, some v ∈ c.ports → PortOk R v
  resources : ∀ r, c.resources = some r → ResourcesOk R L ram r
  volumes : ∀ v, some v ∈ c.volumes → MountOk R v
  cond : CondsOk R c.cond
  dependsOn : ∀ x ∈ c.dependsOn, Readable R x

/-- The container that is read. -/
def readContainer (c : Container) : Container :=
  { c with
    build := (c.build.bind keptBuild).map sortBuild
    push := c.push.bind keptPush
    settings := keptMapS sortParam c.settings
    environment := keptMapS keptVariable c.environment
    devices := keepList keptDevice c.devices
    ports := keepList some c.ports
    resources := c.resources.bind keptResources
    volumes := keepList keptMount c.volumes
    cond := keptConditions c.cond }

theorem strsIf_fill {σ : Type} {F : String → Option (Field σ)} {d : Nat} {w : Writer} {s : σ} {k : String}
    (L : PrettyLib) {get : σ → List String} {set : σ → List String → σ} (hk : ReadableKey R L k)
    (hF : F k = some (field get set decStrings)) {v : List String} (hv : ∀ x ∈ v, Readable R x)
    (hs : v = [] → set s v = s) :
    Fill R F d w (if v.length > 0 then writeTagValue L w k (.strs v) else w) s (set s v) (v ≠ []) := by
  by_cases h : v = []
  · rw [if_neg (by simp [h]), hs h]
    exact Fill.refl.iff (by simp [h])
  · rw [if_pos (by simpa [List.length_pos_iff] using h)]
    exact strs_fill L hk hF hv hs

theorem container_fill (L : PrettyLib) (ram : String → Option Int) {c : Container} (h : ContainerOk R L ram c) {d : Nat}
    {w w' : Writer} (hw : printContainer L w c = some w') :
    Fill R (fun k => (containerFields ram).lookup k) d w w' {} (readContainer c) (¬ blankContainer c) := by
  unfold printContainer at hw
  dsimp only at hw
  obtain ⟨w1, g1, hw⟩ := Option.bind_eq_some_iff.1 hw
  obtain ⟨w2, g2, hw⟩ := Option.bind_eq_some_iff.1 hw
  obtain ⟨w3, g3, hw⟩ := Option.bind_eq_some_iff.1 hw
  obtain ⟨w4, g4, hw⟩ := Option.bind_eq_some_iff.1 hw
  obtain ⟨w5, g5, hw⟩ := Option.map_eq_some_iff.1 hw
  subst hw
  obtain ⟨build, command, commands, detach, dependsOn, devices, dns, dnsSearch, entrypoint, environment, extraHosts,
    failure, image, network, name, ports, privileged, pull, push, resources, settings, shell, user, volumes, cond,
    workingDir⟩ := c
  obtain ⟨a1, a2, a3, a4, a5, a6, a7, a8, a9, a10, a11, a12, a13, a14, a15, a16, a17, a18, a19, a20, a21, a22, a23, a24⟩ := h
  dsimp only at *
  have k1 :=
    (((((((((((((((str_fill (d := d) (F := fun k => (containerFields ram).lookup k) (w := w) (s := {}) L (wk (R := R) L "name") rfl a1 (fun h => by subst h; rfl)).trans
    (str_fill L (wk (R := R) L "pull") rfl a2 (fun h => by subst h; rfl))).trans
    (str_fill L (wk (R := R) L "image") rfl a3 (fun h => by subst h; rfl))).trans
    (build_fill L (wk (R := R) L "build") rfl a4 rfl rfl)).trans
    (push_fill L (wk (R := R) L "push") rfl a5 rfl)).trans
    (bool_fill L (v := detach) (wk (R := R) L "detach") rfl (fun h => by subst h; rfl))).trans
    (str_fill L (wk (R := R) L "user") rfl a6 (fun h => by subst h; rfl))).trans
    (str_fill L (wk (R := R) L "shell") rfl a7 (fun h => by subst h; rfl))).trans
    (strs_fill L (wk (R := R) L "entrypoint") rfl a8 (fun h => by subst h; rfl))).trans
    (strs_fill L (wk (R := R) L "command") rfl a9 (fun h => by subst h; rfl))).trans
    (strs_fill L (wk (R := R) L "commands") rfl a10 (fun h => by subst h; rfl))).trans
    (strs_fill L (wk (R := R) L "dns") rfl a11 (fun h => by subst h; rfl))).trans
    (strs_fill L (wk (R := R) L "dns_search") rfl a12 (fun h => by subst h; rfl))).trans
    (strs_fill L (wk (R := R) L "extra_hosts") rfl a13 (fun h => by subst h; rfl))).trans
    (str_fill L (wk (R := R) L "network_mode") rfl a14 (fun h => by subst h; rfl)))
  have k2 := (k1.trans (settings_fill L rfl a15 rfl rfl g1)).trans (env_fill L rfl a16 rfl rfl g2)
  have k3 := ((k2.trans
    (str_fill L (wk (R := R) L "failure") rfl a17 (fun h => by subst h; rfl))).trans
    (bool_fill L (v := privileged) (wk (R := R) L "privileged") rfl (fun h => by subst h; rfl))).trans
    (str_fill L (wk (R := R) L "working_dir") rfl a18 (fun h => by subst h; rfl))
  have k4 := ((k3.trans (devices_fill L rfl a19 rfl g3)).trans (ports_fill L rfl a20 rfl g4)).trans
    (resources_fill L ram rfl a21 rfl rfl)
  have k5 := (((k4.trans (mounts_fill L rfl a22 rfl g5)).trans
    (conds_fill L (wk (R := R) L "when") rfl a23 rfl rfl)).trans
    (strsIf_fill L (wk (R := R) L "depends_on") rfl a24 (fun h => by subst h; rfl))).trans Fill.nl
  refine Fill.iff k5 ?_
  simp only [blankContainer, not_and_or, or_assoc, or_false, ne_eq]

end Drone
