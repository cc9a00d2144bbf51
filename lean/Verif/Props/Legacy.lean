/-
C60, C61, C62, C70, C71, C72: the conversion of legacy files.
-/
import Mathlib.Tactic.Common
import Mathlib.Data.List.Forall2
import Mathlib.Data.List.Nodup
import Mathlib.Tactic.IntervalCases
import Verif.Props.Convert
import Verif.Props.Quote

namespace Drone
open Legacy

/-! ### Lists built by loops -/

theorem utf8_injective {a b : String} (h : utf8 a = utf8 b) : a = b := by
  apply String.toList_injective
  revert h
  unfold utf8
  generalize a.toList = x
  generalize b.toList = y
  induction x generalizing y with
  | nil =>
    intro h
    cases y with
    | nil => rfl
    | cons c y => simp [List.flatMap_cons] at h
  | cons c x ih =>
    intro h
    cases y with
    | nil => simp [List.flatMap_cons] at h
    | cons d y =>
      simp only [List.flatMap_cons] at h
      have h1 : ByteArray.utf8DecodeChar? ((String.utf8EncodeChar c ++ x.flatMap String.utf8EncodeChar).toByteArray) 0 = some c := by
        rw [List.toByteArray_append]; exact ByteArray.utf8DecodeChar?_utf8EncodeChar_append
      have h2 : ByteArray.utf8DecodeChar? ((String.utf8EncodeChar d ++ y.flatMap String.utf8EncodeChar).toByteArray) 0 = some d := by
        rw [List.toByteArray_append]; exact ByteArray.utf8DecodeChar?_utf8EncodeChar_append
      rw [h, h2] at h1
      simp at h1
      subst h1
      rw [ih y (List.append_cancel_left h)]

theorem forall₂_append_split {α β : Type} {R : α → β → Prop} {a b : List α} {l : List β}
    (h : List.Forall₂ R (a ++ b) l) : ∃ c d, l = c ++ d ∧ List.Forall₂ R a c ∧ List.Forall₂ R b d := by
  induction a generalizing l with
  | nil => exact ⟨[], l, rfl, .nil, h⟩
  | cons x a ih =>
    cases h with
    | cons h1 h2 =>
      obtain ⟨c, d, rfl, h3, h4⟩ := ih h2
      exact ⟨_ :: c, d, rfl, .cons h1 h3, h4⟩

theorem forall₂_right {α β : Type} {R : α → β → Prop} {a : List α} {l : List β}
    (h : List.Forall₂ R a l) {y : β} (hy : y ∈ l) : ∃ x ∈ a, R x y := by
  induction h with
  | nil => simp at hy
  | cons h _ ih =>
    rcases List.mem_cons.1 hy with rfl | hy
    · exact ⟨_, List.mem_cons_self .., h⟩
    · obtain ⟨x, hx, hr⟩ := ih hy
      exact ⟨x, List.mem_cons_of_mem _ hx, hr⟩

theorem mapAll_forall₂ {α β : Type} {f : α → Option β} {l : List α} {r : List β} (h : mapAll f l = some r) :
    List.Forall₂ (fun a b => f a = some b) l r := by
  induction l generalizing r with
  | nil => simp [mapAll] at h; subst h; exact .nil
  | cons a l ih =>
    unfold mapAll at h
    obtain ⟨b, hb, h⟩ := Option.bind_eq_some_iff.1 h
    obtain ⟨bs, hbs, rfl⟩ := Option.map_eq_some_iff.1 h
    exact .cons hb (ih hbs)

theorem mapAll_of_forall₂ {α β : Type} {f : α → Option β} {l : List α} {r : List β}
    (h : List.Forall₂ (fun a b => f a = some b) l r) : mapAll f l = some r := by
  induction h with
  | nil => rfl
  | cons h _ ih => simp [mapAll, h, ih]

/-- What the pipeline is made of. -/
theorem toPipeline_inv {X : LegacyLib} {env : Env} {c : Config} {remote : String} {p : Drone.Pipeline}
    (h : toPipeline X env c remote = some p) : ∃ steps services volumes,
      toSteps X env c = some steps ∧ mapAll (toContainer X) c.services = some services ∧
      toVolumes c = some volumes ∧ p.steps = (renameLoop [] 0 steps).map some ∧ p.services = services.map some ∧
      p.volumes = volumes.map some ∧ p.trigger = toTrigger c.branches (renameLoop [] 0 steps) ∧
      p.clone.disable = (decide (c.clone.length ≠ 0) || env.clone) ∧ p.name = "default" := by
  unfold toPipeline at h
  obtain ⟨steps, h1, h⟩ := Option.bind_eq_some_iff.1 h
  obtain ⟨services, h2, h⟩ := Option.bind_eq_some_iff.1 h
  obtain ⟨volumes, h3, h⟩ := Option.map_eq_some_iff.1 h
  subst h
  exact ⟨steps, services, volumes, h1, h2, h3, rfl, rfl, rfl, rfl, rfl, rfl⟩

/-- A file without a matrix converts to one pipeline and its secrets. -/
theorem toManifest_plain {X : LegacyLib} {env : Env} {d : Bytes} {c : Config} {remote : String} {m : Manifest}
    (hm : c.hasMatrix = false) (h : toManifest X env d c remote = some (.ok m)) :
    ∃ p, toPipeline X env c remote = some p ∧
      m.resources = Resource.pipeline p :: (toSecrets c).map Resource.secret := by
  unfold toManifest at h
  obtain ⟨p, hp, h⟩ := Option.bind_eq_some_iff.1 h
  refine ⟨p, hp, ?_⟩
  simp [hm, Outcome.andThen] at h
  rw [← h]

/-! ### C60 -/

theorem hexName_inj {a b : String} (h : hexName a = hexName b) : a = b := by
  have h1 := congrArg String.toList h
  simp only [hexName, String.toList_ofList] at h1
  have key : ∀ x y : Bytes, (x.flatMap fun b => Script.hexN 2 b.toNat) = (y.flatMap fun b => Script.hexN 2 b.toNat) → x = y := by
    intro x
    induction x with
    | nil =>
      intro y hy
      cases y with
      | nil => rfl
      | cons b y =>
        have := congrArg List.length hy
        simp [hexN_length] at this
        omega
    | cons a x ih =>
      intro y hy
      cases y with
      | nil =>
        have := congrArg List.length hy
        simp [hexN_length] at this
      | cons b y =>
        simp only [List.flatMap_cons] at hy
        obtain ⟨h1, h2⟩ := List.append_inj hy (by simp [hexN_length])
        have ha := hexN_hex 2 a.toNat a.toNat_lt
        have hb := hexN_hex 2 b.toNat b.toNat_lt
        rw [h1] at ha
        rw [UInt8.toNat_inj.1 (hex_fun ha hb), ih y h2]
  exact utf8_injective (key _ _ h1)

/-- The state of the volume loops: the names seen are those of the volumes, each derived
from its path, without repetition. -/
structure VolInv (set : List String) (vs : List Drone.Volume) : Prop where
  names : ∀ n, n ∈ set ↔ n ∈ vs.map (·.name)
  nodup : (vs.map (·.name)).Nodup
  paths : ∀ v ∈ vs, ∃ s, v = { name := hexName s, hostPath := some { path := s } }

theorem volumeLoop_inv {l : List (Option Legacy.Volume)} : ∀ {set : List String} {vs : List Drone.Volume}
    {r : List String × List Drone.Volume}, VolInv set vs → volumeLoop set vs l = some r →
    VolInv r.1 r.2 ∧ (∀ v ∈ vs, v ∈ r.2) ∧ (∀ v, some v ∈ l → hexName v.source ∈ r.1) ∧ none ∉ l ∧
    ∀ v ∈ r.2, v ∈ vs ∨ ∃ x, some x ∈ l ∧ v.hostPath = some { path := x.source } := by
  induction l with
  | nil =>
    intro set vs r hi h
    simp [volumeLoop] at h; subst h
    exact ⟨hi, fun _ h => h, by simp, by simp, fun v hv => .inl hv⟩
  | cons o l ih =>
    intro set vs r hi h
    cases o with
    | none => simp [volumeLoop] at h
    | some v =>
      unfold volumeLoop at h
      dsimp only at h
      by_cases hn : hexName v.source ∈ set
      · rw [if_pos hn] at h
        have hset : ∀ {l : List (Option Legacy.Volume)} {set : List String} {vs : List Drone.Volume}
            {r : List String × List Drone.Volume}, volumeLoop set vs l = some r → ∀ n ∈ set, n ∈ r.1 := by
          intro l
          induction l with
          | nil => intro set vs r h n hn; simp [volumeLoop] at h; subst h; exact hn
          | cons o l ih =>
            intro set vs r h n hn
            cases o with
            | none => simp [volumeLoop] at h
            | some v =>
              unfold volumeLoop at h
              dsimp only at h
              split at h
              · exact ih h n hn
              · exact ih h n (List.mem_cons_of_mem _ hn)
        obtain ⟨h1, h2, h3, h4, h5⟩ := ih hi h
        refine ⟨h1, h2, ?_, by simp [h4], ?_⟩
        · intro x hx
          rcases List.mem_cons.1 hx with hx | hx
          · simp at hx; subst hx; exact hset h _ hn
          · exact h3 x hx
        · intro x hx
          rcases h5 x hx with h | ⟨y, hy, e⟩
          · exact .inl h
          · exact .inr ⟨y, List.mem_cons_of_mem _ hy, e⟩
      · rw [if_neg hn] at h
        have hi' : VolInv (hexName v.source :: set)
            (vs ++ [{ name := hexName v.source, hostPath := some { path := v.source } }]) := by
          refine ⟨?_, ?_, ?_⟩
          · intro n
            simp only [List.mem_cons, List.map_append, List.mem_append, List.map_cons, List.map_nil,
              List.not_mem_nil, or_false, hi.names]
            exact or_comm
          · rw [List.map_append, List.nodup_append]
            refine ⟨hi.nodup, by simp, ?_⟩
            intro a ha b hb
            simp at hb
            rintro rfl
            exact hn ((hi.names _).2 (hb ▸ ha))
          · intro x hx
            rcases List.mem_append.1 hx with hx | hx
            · exact hi.paths x hx
            · simp at hx; exact ⟨v.source, hx⟩
        obtain ⟨h1, h2, h3, h4, h5⟩ := ih hi' h
        refine ⟨h1, fun x hx => h2 x (List.mem_append_left _ hx), ?_, by simp [h4], ?_⟩
        · intro x hx
          rcases List.mem_cons.1 hx with hx | hx
          · simp at hx; subst hx
            refine (h1.names _).2 (List.mem_map.2 ⟨_, h2 _ (List.mem_append_right _ (List.mem_cons_self ..)), rfl⟩)
          · exact h3 x hx
        · intro x hx
          rcases h5 x hx with h | ⟨y, hy, e⟩
          · rcases List.mem_append.1 h with h | h
            · exact .inl h
            · simp at h
              exact .inr ⟨v, List.mem_cons_self .., by rw [h]⟩
          · exact .inr ⟨y, List.mem_cons_of_mem _ hy, e⟩

theorem volumesLoop_inv {cs : List Legacy.Container} : ∀ {set : List String} {vs r : List Drone.Volume},
    VolInv set vs → volumesLoop set vs cs = some r →
    ∃ set', VolInv set' r ∧ (∀ n ∈ set, n ∈ set') ∧ (∀ v ∈ vs, v ∈ r) ∧
      (∀ c ∈ cs, ∀ v, some v ∈ c.volumes → hexName v.source ∈ set') ∧
      ∀ v ∈ r, v ∈ vs ∨ ∃ c ∈ cs, ∃ x, some x ∈ c.volumes ∧ v.hostPath = some { path := x.source } := by
  induction cs with
  | nil =>
    intro set vs r hi h
    simp [volumesLoop] at h; subst h
    exact ⟨set, hi, fun _ h => h, fun _ h => h, by simp, fun v hv => .inl hv⟩
  | cons c cs ih =>
    intro set vs r hi h
    unfold volumesLoop at h
    obtain ⟨q, hq, h⟩ := Option.bind_eq_some_iff.1 h
    obtain ⟨h1, h2, h3, _, h5⟩ := volumeLoop_inv hi hq
    obtain ⟨set', k1, k2, k3, k4, k5⟩ := ih h1 h
    refine ⟨set', k1, ?_, fun v hv => k3 v (h2 v hv), ?_, ?_⟩
    · intro n hn
      refine (k1.names n).2 ?_
      obtain ⟨v, hv, rfl⟩ := List.mem_map.1 ((hi.names n).1 hn)
      exact List.mem_map.2 ⟨v, k3 v (h2 v hv), rfl⟩
    · intro d hd v hv
      rcases List.mem_cons.1 hd with rfl | hd
      · exact k2 _ (h3 v hv)
      · exact k4 d hd v hv
    · intro v hv
      rcases k5 v hv with h | ⟨d, hd, x, hx, e⟩
      · rcases h5 v h with h | ⟨x, hx, e⟩
        · exact .inl h
        · exact .inr ⟨c, List.mem_cons_self .., x, hx, e⟩
      · exact .inr ⟨d, List.mem_cons_of_mem _ hd, x, hx, e⟩

theorem toContainer_volumes {X : LegacyLib} {c : Legacy.Container} {d : Drone.Container}
    (h : toContainer X c = some d) : List.Forall₂ (fun v m => ∃ x, v = some x ∧
      m = some { name := hexName x.source, mountPath := x.destination }) c.volumes d.volumes := by
  unfold toContainer at h
  obtain ⟨env, _, h⟩ := Option.bind_eq_some_iff.1 h
  obtain ⟨vols, hv, rfl⟩ := Option.map_eq_some_iff.1 h
  refine (mapAll_forall₂ hv).imp ?_
  intro a b hab
  obtain ⟨x, rfl, rfl⟩ := Option.map_eq_some_iff.1 hab
  exact ⟨x, rfl, rfl⟩

namespace Spec

/-- The volume `v` is the host directory `path`. -/
def HostVolume (path : String) (v : Drone.Volume) : Prop :=
  v.hostPath = some { path := path } ∧ v.emptyDir = none

/-- Every mount of a converted container names a declared volume that is the source
directory of the legacy volume, and is at its destination. -/
def MountsResolve (vols : List (Option Drone.Volume)) (c : Legacy.Container) (d : Drone.Container) : Prop :=
  List.Forall₂ (fun v m => ∃ x mt, v = some x ∧ m = some mt ∧ mt.mountPath = x.destination ∧
    ∃ w, some w ∈ vols ∧ w.name = mt.name ∧ HostVolume x.source w) c.volumes d.volumes

end Spec

theorem mounts_resolve {X : LegacyLib} {c : Config} {vols : List Drone.Volume} (hv : toVolumes c = some vols)
    {x : Legacy.Container} {d : Drone.Container} (hx : x ∈ c.pipeline ++ c.services) (hd : toContainer X x = some d) :
    Spec.MountsResolve (vols.map some) x d := by
  obtain ⟨set, h1, _, _, h4, _⟩ := volumesLoop_inv (set := []) (vs := []) ⟨by simp, by simp, by simp⟩ hv
  have h := toContainer_volumes hd
  unfold Spec.MountsResolve
  have hall : ∀ v, some v ∈ x.volumes → hexName v.source ∈ vols.map (·.name) :=
    fun v hv => (h1.names _).1 (h4 x hx v hv)
  generalize x.volumes = l at h hall
  generalize d.volumes = l' at h
  induction h with
  | nil => exact .nil
  | @cons o m l ms hab _ ih =>
    obtain ⟨v, rfl, rfl⟩ := hab
    refine .cons ?_ (ih fun v hv => hall v (List.mem_cons_of_mem _ hv))
    obtain ⟨w, hw, hn⟩ := List.mem_map.1 (hall v (List.mem_cons_self ..))
    obtain ⟨s, rfl⟩ := h1.paths w hw
    have : s = v.source := hexName_inj hn
    subst this
    exact ⟨v, _, rfl, rfl, rfl, _, List.mem_map.2 ⟨_, hw, rfl⟩, rfl, rfl, rfl⟩

theorem renameLoop_forall₂ (names : List String) (i : Nat) (cs : List Drone.Container) :
    List.Forall₂ (fun c d => d = { c with name := d.name }) cs (renameLoop names i cs) := by
  induction cs generalizing names i with
  | nil => exact .nil
  | cons c cs ih => exact .cons rfl (ih _ _)

theorem mounts_rename {vols : List (Option Drone.Volume)} {tail tail' : List Drone.Container}
    (h : List.Forall₂ (fun c d => d = { c with name := d.name }) tail tail') :
    ∀ {l : List Legacy.Container}, List.Forall₂ (Spec.MountsResolve vols) l tail →
      List.Forall₂ (Spec.MountsResolve vols) l tail' := by
  induction h with
  | nil => intro l hl; exact hl
  | cons h _ ih =>
    intro l hl
    cases hl with
    | cons a b =>
      refine .cons ?_ (ih b)
      rw [h]; exact a

/-- C60, volumes: names are unique and different host paths have different names. -/
theorem C60_volumes (X : LegacyLib) (env : Env) (d : Bytes) (c : Config) (remote : String) (m : Manifest)
    (hm : c.hasMatrix = false) (h : toManifest X env d c remote = some (.ok m)) :
    ∃ p rest, m.resources = Resource.pipeline p :: rest ∧
      (p.volumes.map fun v => v.map (·.name)).Nodup ∧ none ∉ p.volumes ∧
      (∀ v, some v ∈ p.volumes → ∃ path, Spec.HostVolume path v ∧
        ∃ x ∈ c.pipeline ++ c.services, ∃ y, some y ∈ x.volumes ∧ y.source = path) ∧
      ∀ v w path path', some v ∈ p.volumes → some w ∈ p.volumes → Spec.HostVolume path v →
        Spec.HostVolume path' w → path ≠ path' → v.name ≠ w.name := by
  obtain ⟨p, hp, hr⟩ := toManifest_plain hm h
  obtain ⟨steps, services, volumes, _, _, hv, _, _, e, _⟩ := toPipeline_inv hp
  obtain ⟨set, h1, _, _, _, h5⟩ := volumesLoop_inv (set := []) (vs := []) ⟨by simp, by simp, by simp⟩ hv
  refine ⟨p, _, hr, ?_, by simp [e], ?_, ?_⟩
  · rw [e, List.map_map]
    have := h1.nodup.map (f := some) (fun a b h => by simpa using h)
    rw [List.map_map] at this
    exact this
  · intro v hv
    rw [e] at hv
    obtain ⟨w, hw, hvw⟩ := List.mem_map.1 hv
    simp at hvw; subst hvw
    obtain ⟨s, rfl⟩ := h1.paths w hw
    refine ⟨s, ⟨rfl, rfl⟩, ?_⟩
    rcases h5 _ hw with h | ⟨x, hx, y, hy, e⟩
    · simp at h
    · refine ⟨x, hx, y, hy, ?_⟩
      simp at e; exact e.symm
  · intro v w path path' hv hw ⟨h1', _⟩ ⟨h2', _⟩ hne heq
    rw [e] at hv hw
    obtain ⟨v', hv', ev⟩ := List.mem_map.1 hv
    obtain ⟨w', hw', ew⟩ := List.mem_map.1 hw
    simp at ev ew; subst ev ew
    obtain ⟨s, rfl⟩ := h1.paths v' hv'
    obtain ⟨t, rfl⟩ := h1.paths w' hw'
    simp at h1' h2'
    exact hne (by rw [← h1', ← h2']; exact hexName_inj heq)

/-- C60, mounts of services and pipeline steps.  Missing: the mounts of `clone` containers,
whose volumes are not declared (`C60_clone_volume`). -/
theorem C60_mounts_partial (X : LegacyLib) (env : Env) (d : Bytes) (c : Config) (remote : String) (m : Manifest)
    (hm : c.hasMatrix = false) (h : toManifest X env d c remote = some (.ok m)) :
    ∃ p rest pre steps, m.resources = Resource.pipeline p :: rest ∧ p.steps = (pre ++ steps).map some ∧
      List.Forall₂ (Spec.MountsResolve p.volumes) c.pipeline steps ∧
      (∃ services, p.services = services.map some ∧
        List.Forall₂ (Spec.MountsResolve p.volumes) c.services services) ∧
      (c.clone = [] → ∀ s ∈ pre, s.volumes = []) := by
  obtain ⟨p, hp, hr⟩ := toManifest_plain hm h
  obtain ⟨steps, services, volumes, hs, hsv, hv, e1, e2, e3, _⟩ := toPipeline_inv hp
  have mono : ∀ {l : List Legacy.Container} {r : List Drone.Container},
      (∀ x ∈ l, x ∈ c.pipeline ++ c.services) → List.Forall₂ (fun a b => toContainer X a = some b) l r →
      List.Forall₂ (Spec.MountsResolve p.volumes) l r := by
    intro l r hl hr
    rw [e3]
    induction hr with
    | nil => exact .nil
    | cons h _ ih =>
      exact .cons (mounts_resolve hv (hl _ (List.mem_cons_self ..)) h)
        (ih fun x hx => hl x (List.mem_cons_of_mem _ hx))
  have split : ∃ pre tail, steps = pre ++ tail ∧ mapAll (toContainer X) c.pipeline = some tail ∧
      (c.clone = [] → ∀ s ∈ pre, s.volumes = []) := by
    unfold toSteps at hs
    by_cases hc : c.clone.length ≠ 0
    · rw [if_pos hc] at hs
      obtain ⟨a, b, rfl, ha, hb⟩ := forall₂_append_split (mapAll_forall₂ hs)
      exact ⟨a, b, rfl, mapAll_of_forall₂ hb, fun h => absurd (by simp [h]) hc⟩
    · rw [if_neg hc] at hs
      obtain ⟨tail, ht, rfl⟩ := Option.map_eq_some_iff.1 hs
      cases env.clone with
      | true => exact ⟨[cloneStep], tail, rfl, ht, fun _ s hs => by simp at hs; subst hs; rfl⟩
      | false => exact ⟨[], tail, rfl, ht, by simp⟩
  obtain ⟨pre, tail, rfl, ht, hpre⟩ := split
  obtain ⟨pre', tail', h3, h1, h2⟩ := forall₂_append_split (renameLoop_forall₂ [] 0 (pre ++ tail))
  refine ⟨p, _, pre', tail', hr, by rw [e1, h3], ?_, ⟨services, e2, mono (fun x hx => List.mem_append_right _ hx) (mapAll_forall₂ hsv)⟩, ?_⟩
  · exact mounts_rename h2 (mono (fun x hx => List.mem_append_left _ hx) (mapAll_forall₂ ht))
  · intro hc s hs
    obtain ⟨x, hx, hxs⟩ := forall₂_right h1 hs
    rw [hxs]; exact hpre hc x hx

/-- A library for examples: no YAML, no upper case, no URLs. -/
def exLegacy : LegacyLib where
  pretty := exPretty
  expand := id
  decode := fun _ => .error "no decoder"
  matrixList := fun _ => .ok []
  matrixMap := fun _ => .ok []
  upper := id
  url := fun _ => none
  marshal := fun _ => .ok ""
  unmarshal := fun _ p => .ok p

/-- The volume of a clone container is mounted and not declared. -/
theorem C60_clone_volume : ∃ (c : Config) (p : Drone.Pipeline),
    toPipeline exLegacy {} c "" = some p ∧ p.volumes = [] ∧
    p.steps.map (fun s => s.map (·.volumes)) = [some [some { name := "2f6b6579", mountPath := "/key" }]] :=
  ⟨{ clone := [{ name := "clone", volumes := [some { source := "/key", destination := "/key" }] }] }, _,
    rfl, by decide, by decide⟩

/-- Two services and a step that share a host directory. -/
example :
    let a : Legacy.Container := { name := "a", volumes := [some ⟨"/x", "/y"⟩, some ⟨"/k", "/k"⟩] }
    let b : Legacy.Container := { name := "b", volumes := [some ⟨"/x", "/z"⟩] }
    (toPipeline exLegacy {} { pipeline := [a], services := [b] } "").map (fun p => p.volumes.length) = some 2 := by
  decide

/-! ### C61 -/

theorem toString_nat_toList (n : Nat) : (toString n).toList = Nat.toDigits 10 n := by
  rw [Nat.toString_eq_ofList_toDigits, String.toList_ofList]

theorem toDigits_inj {i j : Nat} (h : Nat.toDigits 10 i = Nat.toDigits 10 j) : i = j := by
  have := congrArg (Nat.ofDigitChars 10 · 0) h
  simpa [Nat.ofDigitChars_ten_toDigits] using this

theorem suffix_inj {a b : String} {i j : Nat} (h : a ++ "_" ++ toString i = b ++ "_" ++ toString j) : i = j := by
  have h1 := congrArg (fun s : String => s.toList.reverse) h
  simp only [String.toList_append, toString_nat_toList, List.reverse_append] at h1
  have split : ∀ (x y p q : List Char), '_' ∉ x → '_' ∉ y → x ++ '_' :: p = y ++ '_' :: q → x = y := by
    intro x
    induction x with
    | nil =>
      intro y p q _ hy h
      cases y with
      | nil => rfl
      | cons c y => simp at h hy; exact absurd h.1 hy.1
    | cons c x ih =>
      intro y p q hx hy h
      cases y with
      | nil => simp at h hx; exact absurd h.1.symm hx.1
      | cons d y =>
        simp at h hx hy
        rw [h.1, ih y p q hx.2 hy.2 h.2]
  have h2 := split (Nat.toDigits 10 i).reverse (Nat.toDigits 10 j).reverse a.toList.reverse b.toList.reverse
    (by simp) (by simp)
    (by simpa using h1)
  exact toDigits_inj (List.reverse_injective h2)

namespace Spec

/-- No given name is what another step would be renamed to. -/
def NoClash (names : List String) : Prop :=
  ∀ (i : Nat) ni nj, names[i]? = some ni → nj ∈ names → nj ≠ ni ++ "_" ++ toString i

end Spec

theorem renameLoop_nodup : ∀ (cs : List Drone.Container) (seen : List String) (i : Nat) (orig : List String),
    (∀ k n, (cs.map (·.name))[k]? = some n → orig[i + k]? = some n) → Spec.NoClash orig →
    (∀ s ∈ seen, s ∈ orig ∨ ∃ k n, k < i ∧ s = n ++ "_" ++ toString k) →
    ((renameLoop seen i cs).map (·.name)).Nodup ∧ ∀ s ∈ (renameLoop seen i cs).map (·.name), s ∉ seen
  | [], seen, i, orig, _, _, _ => by simp [renameLoop]
  | c :: cs, seen, i, orig, ho, hn, hs => by
    have h0 : orig[i]? = some c.name := by simpa using ho 0 c.name (by simp)
    have hmem : c.name ∈ orig := List.mem_of_getElem? h0
    have hfresh : (if c.name ∈ seen then c.name ++ "_" ++ toString i else c.name) ∉ seen := by
      by_cases hc : c.name ∈ seen
      · rw [if_pos hc]
        intro hm
        rcases hs _ hm with h | ⟨k, n, hk, h⟩
        · exact hn i c.name _ h0 h rfl
        · have := suffix_inj h; omega
      · rw [if_neg hc]; exact hc
    have ih := renameLoop_nodup cs ((if c.name ∈ seen then c.name ++ "_" ++ toString i else c.name) :: seen) (i + 1) orig
      (fun k n h => by have := ho (k + 1) n (by simpa using h); rwa [show i + 1 + k = i + (k + 1) by omega])
      hn (by
        intro s h
        rcases List.mem_cons.1 h with rfl | h
        · by_cases hc : c.name ∈ seen
          · rw [if_pos hc]; exact .inr ⟨i, c.name, by omega, rfl⟩
          · rw [if_neg hc]; exact .inl hmem
        · rcases hs s h with h | ⟨k, n, hk, h⟩
          · exact .inl h
          · exact .inr ⟨k, n, by omega, h⟩)
    unfold renameLoop
    dsimp only
    rw [List.map_cons, List.nodup_cons]
    refine ⟨⟨fun h => ih.2 _ h (List.mem_cons_self ..), ih.1⟩, ?_⟩
    intro s h
    rcases List.mem_cons.1 h with rfl | h
    · exact hfresh
    · exact fun hm => ih.2 s h (List.mem_cons_of_mem _ hm)

/-- C61: the names of the converted steps are distinct.  Missing: names that clash with the
suffix another step gets (`C61_clash`). -/
theorem C61_names_partial (X : LegacyLib) (env : Env) (d : Bytes) (c : Config) (remote : String) (m : Manifest)
    (hm : c.hasMatrix = false) (h : toManifest X env d c remote = some (.ok m))
    (hclash : Spec.NoClash (if c.clone = [] ∧ env.clone then "clone" :: c.pipeline.map (·.name)
      else (c.clone ++ c.pipeline).map (·.name))) :
    ∃ p rest, m.resources = Resource.pipeline p :: rest ∧ (p.steps.map fun s => s.map (·.name)).Nodup := by
  obtain ⟨p, hp, hr⟩ := toManifest_plain hm h
  obtain ⟨steps, services, volumes, hs, _, _, e1, _⟩ := toPipeline_inv hp
  refine ⟨p, _, hr, ?_⟩
  have names : ∀ {l : List Legacy.Container} {r : List Drone.Container}, mapAll (toContainer X) l = some r →
      r.map (·.name) = l.map (·.name) := by
    intro l r h
    have := mapAll_forall₂ h
    clear h
    induction this with
    | nil => rfl
    | cons h _ ih =>
      unfold toContainer at h
      obtain ⟨_, _, h⟩ := Option.bind_eq_some_iff.1 h
      obtain ⟨_, _, rfl⟩ := Option.map_eq_some_iff.1 h
      simp [ih]
  have hn : steps.map (·.name) = (if c.clone = [] ∧ env.clone then "clone" :: c.pipeline.map (·.name)
      else (c.clone ++ c.pipeline).map (·.name)) := by
    unfold toSteps at hs
    by_cases hc : c.clone = []
    · rw [if_neg (by simp [hc])] at hs
      obtain ⟨tail, ht, rfl⟩ := Option.map_eq_some_iff.1 hs
      cases he : env.clone with
      | true => simp [hc, names ht, cloneStep]
      | false => simp [hc, names ht]
    · rw [if_pos (by simpa using hc)] at hs
      rw [if_neg (by simp [hc]), names hs]
  rw [← hn] at hclash
  have := (renameLoop_nodup steps [] 0 _ (by simp) hclash (by simp)).1
  rw [e1, List.map_map]
  have h2 := this.map (f := some) (fun a b h => by simpa using h)
  rw [List.map_map] at h2
  exact h2

/-- Steps `a_2`, `a` and `a` end up with the same name twice. -/
theorem C61_clash : (renameLoop [] 0 [{ name := "a_2" }, { name := "a" }, { name := "a" }]).map (·.name) =
    ["a_2", "a", "a_2"] := by decide

/-- A clone step and a pipeline step with the same name. -/
example : (renameLoop [] 0 [{ name := "git" }, { name := "build" }, { name := "git" }]).map (·.name) =
    ["git", "build", "git_2"] := by decide

example : Spec.NoClash ["git", "build", "git"] := by
  intro i ni nj hi hj
  have hi3 : i < 3 := by
    rcases Nat.lt_or_ge i 3 with h | h
    · exact h
    · rw [List.getElem?_eq_none (by simpa using h)] at hi; simp at hi
  interval_cases i <;> simp at hi <;> subst hi <;> revert nj <;> decide

end Drone
