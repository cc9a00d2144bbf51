/-
C28, C29, C31 - C33: mounts and volumes, host access, workspace variables,
identifiers, working directories.
-/
import Verif.Props.Compile

namespace Drone
open Engine (Step File)
open Spec (Role sources IsBuild)

/-! ### C28 -/

theorem stepMounts_eq : ∀ {vs : List (Option VolumeMount)} {ms}, stepMounts vs = some ms →
    ms = (vs.filterMap id).filterMap fun v =>
      if v.name = "_docker_socket" then none else some ⟨v.name, v.mountPath⟩
  | [], ms, h => by simp [stepMounts] at h; subst h; rfl
  | none :: vs, ms, h => by simp [stepMounts] at h
  | some v :: vs, ms, h => by
    simp only [stepMounts] at h
    by_cases hv : v.name = "_docker_socket"
    · rw [if_pos hv] at h
      rw [stepMounts_eq h]
      simp [hv]
    · rw [if_neg hv, Option.map_eq_some_iff] at h
      obtain ⟨ms', h', rfl⟩ := h
      rw [stepMounts_eq h']
      simp [hv]

theorem wsMounts_names {c : Compiler} {w : WorkspaceDirs} {m : Engine.VolumeMount}
    (h : m ∈ wsMounts c w) : m.name = "workspace" ∨ m.name = "host" := by
  unfold wsMounts at h
  cases hm : c.mount with
  | default => rw [hm] at h; simp at h; subst h; simp
  | host =>
    rw [hm] at h
    simp only [List.mem_cons] at h
    rcases h with rfl | h
    · simp
    · split at h
      · simp at h; subst h; simp
      · simp at h
  | custom f => rw [hm] at h; simp at h

/-- The mounts of a compiled step: the container's own, without the reserved socket
name, then the workspace; a build step has the socket instead of its own. -/
theorem CompiledFrom.volumes {x : Ctx} (hc : x.c.Std) {rnd rename y s}
    (h : CompiledFrom x rnd rename y s) :
    s.volumes = (if IsBuild y then [⟨"_docker_socket", "/var/run/docker.sock"⟩]
      else (y.2.volumes.filterMap id).filterMap fun v =>
        if v.name = "_docker_socket" then none else some ⟨v.name, v.mountPath⟩) ++
      wsMounts x.c (createWorkspace x.p) := by
  obtain ⟨k, raw, i, hr, rfl⟩ := h
  by_cases hb : IsBuild y
  · rw [if_pos hb]
    obtain ⟨role, src⟩ := y
    obtain ⟨h1, h2⟩ := hb
    obtain rfl : role = Role.step := h1
    cases hbb : src.build with
    | none => simp [hbb] at h2
    | some b => exact (rawStep_build hc hbb hr).volumes
  · rw [if_neg hb]
    obtain ⟨ms, h1, h2⟩ := (rawStep_plain hc hb hr).volumes
    rw [← stepMounts_eq h1]
    exact h2

/-- C28 (mounts): a compiled step mounts the socket volume iff it is a build step,
and then at `/var/run/docker.sock`; this needs no linter. -/
theorem C28_socket_mount {E : Ext} {c : Compiler} (hc : c.Std) (ht : c.transform = none)
    {rnd : Nat → String} {p : Pipeline} {sp : Engine.Spec} (h : compile E c rnd p = some sp) :
    List.Forall₂ (fun y s =>
      ((∃ m ∈ s.volumes, m.name = "_docker_socket") ↔ IsBuild y) ∧
      (∀ m ∈ s.volumes, m.name = "_docker_socket" → m.path = "/var/run/docker.sock"))
      (sources p) sp.steps := by
  refine compile_forall hc ht h ?_
  intro rename y s _ hy
  have hv := hy.volumes hc
  have hws : ∀ m ∈ wsMounts c (createWorkspace p), m.name ≠ "_docker_socket" := by
    intro m hm
    rcases wsMounts_names hm with e | e <;> rw [e] <;> decide
  have hown : ∀ m ∈ (y.2.volumes.filterMap id).filterMap (fun v =>
        if v.name = "_docker_socket" then none else some (⟨v.name, v.mountPath⟩ : Engine.VolumeMount)),
      m.name ≠ "_docker_socket" := by
    intro m hm
    obtain ⟨v, _, he⟩ := List.mem_filterMap.mp hm
    split at he
    · simp at he
    · rename_i hn
      simp only [Option.some.injEq] at he
      subst he
      exact hn
  by_cases hb : IsBuild y
  · rw [if_pos hb] at hv
    rw [hv]
    refine ⟨⟨fun _ => hb, fun _ => ⟨⟨"_docker_socket", "/var/run/docker.sock"⟩, by simp, rfl⟩⟩, ?_⟩
    intro m hm hn
    simp only [List.singleton_append, List.mem_cons] at hm
    rcases hm with rfl | hm
    · rfl
    · exact absurd hn (hws m hm)
  · rw [if_neg hb] at hv
    have hno : ∀ m ∈ s.volumes, m.name ≠ "_docker_socket" := by
      intro m hm
      rw [hv] at hm
      rcases List.mem_append.mp hm with hm | hm
      · exact hown m hm
      · exact hws m hm
    refine ⟨⟨fun ⟨m, hm, hn⟩ => absurd hn (hno m hm), fun h => absurd h hb⟩, ?_⟩
    intro m hm hn
    exact absurd hn (hno m hm)

/-- The volumes of a compiled specification. -/
theorem compile_volumes {E : Ext} {c : Compiler} (hc : c.Std) (ht : c.transform = none)
    {rnd : Nat → String} {p : Pipeline} {sp : Engine.Spec} (h : compile E c rnd p = some sp) :
    ∃ n, ∃ sock : List Engine.Volume, sp.volumes = wsVolumes c rnd (rnd 0) ++
      rawVolumes rnd (rnd 0) n (p.volumes.filterMap id) ++ sock ∧
      (sock = [] ∧ (¬ ∃ y ∈ sources p, IsBuild y) ∨
       (∃ k, sock = [{ md := { uid := rnd k, name := "_docker_socket", namespc := rnd 0, labels := some [] }
                       hostPath := some "/var/run/docker.sock" }]) ∧ ∃ y ∈ sources p, IsBuild y) := by
  obtain ⟨_, _, _, r, hr, rfl⟩ := compile_shape hc ht h
  refine ⟨_, _, rfl, ?_⟩
  have hl : r.1.length = (sources p).length := emit_length _ _ _ _ _ hr
  have := renameOf_pos hl
  unfold renameOf at this
  unfold socketVolumes
  by_cases hp : ((List.zip (sources p) r.1).foldl addRename []).length > 0
  · rw [if_pos hp]
    exact .inr ⟨⟨_, rfl⟩, this.mp hp⟩
  · rw [if_neg hp]
    exact .inl ⟨rfl, fun hh => hp (this.mpr hh)⟩

theorem rawVolumes_mem {rnd : Nat → String} {ns : String} : ∀ {vs : List Volume} {n : Nat} {v : Engine.Volume},
    v ∈ rawVolumes rnd ns n vs → ∃ w ∈ vs, v.md.name = w.name ∧ v.md.namespc = ns ∧
      v.emptyDir = w.emptyDir.map (fun e => ⟨e.medium, e.sizeLimit⟩) ∧
      v.hostPath = if w.emptyDir.isSome then none else w.hostPath.map (·.path)
  | [], n, v, h => by simp [rawVolumes] at h
  | w :: vs, n, v, h => by
    simp only [rawVolumes, List.mem_cons] at h
    rcases h with rfl | h
    · exact ⟨w, by simp, rfl, rfl, rfl, rfl⟩
    · obtain ⟨w', h1, h2⟩ := rawVolumes_mem h
      exact ⟨w', by simp [h1], h2⟩

theorem wsVolumes_mem {c : Compiler} {rnd : Nat → String} {ns : String} {v : Engine.Volume}
    (h : v ∈ wsVolumes c rnd ns) :
    (v.md.name = "workspace" ∧ v.md.namespc = ns ∧ v.emptyDir = some {} ∧ v.hostPath = none) ∨
    (∃ d, c.workspace = .host d ∧ v.md.name = "host" ∧ v.md.namespc = "" ∧ v.emptyDir = none ∧
      v.hostPath = some d) := by
  unfold wsVolumes at h
  cases hw : c.workspace with
  | default => rw [hw] at h; simp at h; subst h; exact .inl ⟨rfl, rfl, rfl, rfl⟩
  | host d =>
    rw [hw] at h
    simp only [List.mem_cons, List.not_mem_nil, or_false] at h
    rcases h with rfl | rfl
    · exact .inl ⟨rfl, rfl, rfl, rfl⟩
    · exact .inr ⟨d, rfl, rfl, rfl, rfl, rfl⟩
  | custom f => rw [hw] at h; simp at h

/-- C28 (volume): in a pipeline the linter accepts, as trusted or not, the socket volume
exists iff there is a build step, exists at most once and is the docker socket. -/
theorem C28_socket_volume {E : Ext} {c : Compiler} (hc : c.Std) (ht : c.transform = none)
    {rnd : Nat → String} {p : Pipeline} {sp : Engine.Spec} (h : compile E c rnd p = some sp)
    {trusted : Bool} (hl : lint (.pipeline p) trusted = .ok ()) :
    let sockets := (sp.volumes.filter (·.md.name = "_docker_socket")).map fun v => (v.hostPath, v.emptyDir)
    ((∃ s b, some s ∈ p.steps ∧ s.build = some b) ∧ sockets = [(some "/var/run/docker.sock", none)]) ∨
    ((¬ ∃ s b, some s ∈ p.steps ∧ s.build = some b) ∧ sockets = []) := by
  intro sockets
  obtain ⟨ss, sv, hp⟩ := (C12_lint_iff p trusted).1 hl
  obtain ⟨n, sock, hv, hs⟩ := compile_volumes hc ht h
  have e1 : (wsVolumes c rnd (rnd 0)).filter (·.md.name = "_docker_socket") = [] := by
    rw [List.filter_eq_nil_iff]
    intro v hv
    rcases wsVolumes_mem hv with ⟨h1, _⟩ | ⟨d, _, h1, _⟩ <;> rw [h1] <;> decide
  have e2 : (rawVolumes rnd (rnd 0) n (p.volumes.filterMap id)).filter (·.md.name = "_docker_socket") = [] := by
    rw [List.filter_eq_nil_iff]
    intro v hv
    obtain ⟨w, hw, h1, _⟩ := rawVolumes_mem hv
    simp only [List.mem_filterMap, id, exists_eq_right] at hw
    obtain ⟨w', e, hok⟩ := hp.volumes _ hw
    simp only [Option.some.injEq] at e
    subst e
    have := hok.name
    simp only [decide_eq_true_eq, h1]
    intro hh
    exact this (.inr (.inr hh))
  have hb : (∃ y ∈ sources p, IsBuild y) ↔ ∃ s b, some s ∈ p.steps ∧ s.build = some b := by
    constructor
    · rintro ⟨y, hy, h1, h2⟩
      obtain ⟨b, hb⟩ := Option.isSome_iff_exists.mp h2
      rcases mem_sources.mp hy with ⟨_, rfl⟩ | ⟨hr, _⟩ | ⟨hr, hm⟩
      · simp at h1
      · rw [h1] at hr; simp at hr
      · exact ⟨y.2, b, hm, hb⟩
    · rintro ⟨s, b, hm, hb⟩
      exact ⟨(.step, s), mem_sources.mpr (.inr (.inr ⟨rfl, hm⟩)), rfl, by simp [hb]⟩
  simp only [sockets]
  rw [hv, List.filter_append, List.filter_append, e1, e2]
  rcases hs with ⟨rfl, hno⟩ | ⟨⟨k, rfl⟩, hyes⟩
  · exact .inr ⟨fun hh => hno (hb.mpr hh), rfl⟩
  · exact .inl ⟨hb.mp hyes, rfl⟩

theorem renameImage_stable {E : Ext} {image : String} : ∀ {rn : GoMap String},
    (∀ kv ∈ rn, Img.matchTag E.dg image kv.1 = false) → renameImage E image rn = image
  | [], _ => rfl
  | (k, v) :: rest, h => by
    unfold renameImage
    rw [if_neg (by have := h (k, v) (by simp); simp at this; simp [this])]
    exact renameImage_stable fun kv hkv => h kv (by simp [hkv])

/-- The keys of the rename table are images of build steps. -/
theorem renameOf_keys {p : Pipeline} {raw : List Step} {kv : String × String} (h : kv ∈ renameOf p raw) :
    ∃ s b, some s ∈ p.steps ∧ s.build = some b ∧ kv.1 = b.image := by
  have key : ∀ (zs : List ((Role × Container) × Step)) (rn : GoMap String),
      kv ∈ zs.foldl addRename rn → kv ∈ rn ∨ ∃ z ∈ zs, z.1.1 = .step ∧ ∃ b, z.1.2.build = some b ∧ kv.1 = b.image := by
    intro zs
    induction zs with
    | nil => intro rn h; exact .inl h
    | cons z zs ih =>
      intro rn h
      rcases ih _ h with h | ⟨z', h1, h2⟩
      · have hset : ∀ (m : GoMap String) (k v : String), kv ∈ m.set k v → kv ∈ m ∨ kv = (k, v) := by
          intro m k v
          induction m with
          | nil => intro h; simp [GoMap.set] at h; exact .inr h
          | cons q m ih =>
            obtain ⟨a, b⟩ := q
            intro h
            unfold GoMap.set at h
            split at h
            · rcases List.mem_cons.mp h with h | h
              · exact .inr h
              · exact .inl (by simp [h])
            · rcases List.mem_cons.mp h with h | h
              · exact .inl (by simp [h])
              · rcases ih h with h | h
                · exact .inl (by simp [h])
                · exact .inr h
        unfold addRename at h
        split at h
        · rename_i b hr hb
          rcases hset _ _ _ h with h | h
          · exact .inl h
          · exact .inr ⟨z, by simp, hr, b, hb, by rw [h]⟩
        · exact .inl h
      · exact .inr ⟨z', by simp [h1], h2⟩
  rcases key _ _ h with h | ⟨z, hz, hr, b, hb, he⟩
  · simp at h
  · have hm := (List.of_mem_zip (a := z.1) (b := z.2) hz).1
    rcases mem_sources.mp hm with ⟨_, e⟩ | ⟨e, _⟩ | ⟨_, hm⟩
    · rw [e] at hr; simp at hr
    · rw [e] at hr; simp at hr
    · exact ⟨_, b, hm, hb, he⟩

/-- C28 (image), partial: the container that receives the socket runs `drone/docker`,
provided that no build section builds an image whose name and tag denote
`drone/docker:latest`.  Without that condition the clause is false
(`C28_socket_hijack`). -/
theorem C28_socket_image_partial {E : Ext} {c : Compiler} (hc : c.Std) (ht : c.transform = none)
    {rnd : Nat → String} {p : Pipeline} {sp : Engine.Spec} (h : compile E c rnd p = some sp)
    (hb : ∀ s b, some s ∈ p.steps → s.build = some b → Img.matchTag E.dg "drone/docker" b.image = false) :
    ∀ s ∈ sp.steps, (∃ m ∈ s.volumes, m.name = "_docker_socket") → s.docker.image = "drone/docker" := by
  have hmount := C28_socket_mount hc ht h
  obtain ⟨_, _, _, r, hr, hsp⟩ := compile_shape hc ht h
  have hst : List.Forall₂ (CompiledFrom (ctxOf E c rnd p) rnd (renameOf p r.1)) (sources p) sp.steps := by
    rw [hsp]
    exact renameSteps_forall (x := ctxOf E c rnd p) _ (emit_forall hr) 0
  intro s hs hm
  obtain ⟨i, hi, hget⟩ := List.getElem_of_mem hs
  have hlen := hst.length_eq
  have a1 := (List.forall₂_iff_get.mp hmount).2 i (by omega) hi
  have a2 := (List.forall₂_iff_get.mp hst).2 i (by omega) hi
  simp only [List.get_eq_getElem, hget] at a1 a2
  have hbld := a1.1.mp hm
  obtain ⟨k, raw, j, hraw, rfl⟩ := a2
  generalize hy : (sources p)[i]'(by omega) = y at hbld hraw
  obtain ⟨role, src⟩ := y
  obtain ⟨h1, h2⟩ := hbld
  obtain rfl : role = Role.step := h1
  cases hbb : src.build with
  | none => simp [hbb] at h2
  | some b =>
    have hd := (rawStep_build hc hbb hraw).docker
    show renameImage E raw.docker.image _ = _
    rw [hd]
    apply renameImage_stable
    intro kv hkv
    have hkv' : kv ∈ renameOf p r.1 := (E.iter_perm j _).mem_iff.mp hkv
    obtain ⟨s', b', m1, m2, m3⟩ := renameOf_keys hkv'
    rw [m3]
    exact hb s' b' m1 m2

/-- The image clause of C28 is false in general: an untrusted pipeline that builds
an image called `drone/docker` gets the image it built itself run with the docker
socket mounted, in every build step. -/
theorem C28_socket_hijack :
    let p : Pipeline := { kind := "pipeline", steps := [
      some { name := "evil", build := some { image := "drone/docker" } },
      some { name := "run", build := some { image := "x" } }] }
    lint (.pipeline p) false = .ok () ∧
    (compile exExt {} exRnd p).map (fun sp => sp.steps.map fun s =>
      (s.docker.image, s.volumes.any (·.name = "_docker_socket"))) =
    some [("docker.io/drone/git:latest", false), ("docker.io/drone/docker:u3", true),
          ("docker.io/drone/docker:u3", true)] := by
  decide +kernel

example : (compile exExt {} exRnd exCompiled).map (fun sp => sp.steps.map fun s =>
      (s.docker.image, s.volumes.any (·.name = "_docker_socket"))) =
    some [("docker.io/drone/git:latest", false), ("docker.io/library/redis:latest", false),
      ("drone/docker", true), ("docker.io/acme/app:u5", false)] := by decide +kernel

/-! ### C29 -/

/-- C29: what an untrusted pipeline can reach of the host: no host path but the docker
socket and the workspace the runner itself configured, no memory-backed volume, and no
host port, DNS, hosts or network setting on any container. -/
theorem C29_untrusted_isolated {E : Ext} {c : Compiler} (hc : c.Std) (ht : c.transform = none)
    {rnd : Nat → String} {p : Pipeline} {sp : Engine.Spec} (h : compile E c rnd p = some sp)
    (hl : lint (.pipeline p) false = .ok ()) :
    (∀ v ∈ sp.volumes, ∀ hp, v.hostPath = some hp →
      (v.md.name = "_docker_socket" ∧ hp = "/var/run/docker.sock") ∨
      (v.md.name = "host" ∧ c.workspace = .host hp)) ∧
    (∀ v ∈ sp.volumes, ∀ d, v.emptyDir = some d → d.medium ≠ "memory") ∧
    (∀ s ∈ sp.steps, s.docker.dns = [] ∧ s.docker.dnsSearch = [] ∧ s.docker.extraHosts = [] ∧
      s.docker.network = "" ∧ s.docker.networks = [] ∧ ∀ q ∈ s.docker.ports, q.host = 0) := by
  obtain ⟨ss, sv, hp⟩ := (C12_lint_iff p false).1 hl
  obtain ⟨n, sock, hv, hs⟩ := compile_volumes hc ht h
  have hraw : ∀ v ∈ rawVolumes rnd (rnd 0) n (p.volumes.filterMap id),
      v.hostPath = none ∧ ∀ d, v.emptyDir = some d → d.medium ≠ "memory" := by
    intro v hv
    obtain ⟨w, hw, _, _, h3, h4⟩ := rawVolumes_mem hv
    simp only [List.mem_filterMap, id, exists_eq_right] at hw
    obtain ⟨w', e, hok⟩ := hp.volumes _ hw
    simp only [Option.some.injEq] at e
    subst e
    obtain ⟨u1, u2⟩ := hok.untrusted rfl
    refine ⟨by rw [h4, u1]; simp, ?_⟩
    intro d hd
    rw [h3, Option.map_eq_some_iff] at hd
    obtain ⟨e, he, rfl⟩ := hd
    exact u2 e he
  refine ⟨?_, ?_, ?_⟩
  · intro v hm hp' hh
    rw [hv, List.mem_append, List.mem_append] at hm
    rcases hm with (hm | hm) | hm
    · rcases wsVolumes_mem hm with ⟨_, _, _, h4⟩ | ⟨d, h1, h2, _, _, h4⟩
      · rw [h4] at hh; simp at hh
      · rw [h4] at hh
        simp only [Option.some.injEq] at hh
        subst hh
        exact .inr ⟨h2, h1⟩
    · rw [(hraw v hm).1] at hh; simp at hh
    · rcases hs with ⟨rfl, _⟩ | ⟨⟨k, rfl⟩, _⟩
      · simp at hm
      · simp only [List.mem_singleton] at hm
        subst hm
        simp only [Option.some.injEq] at hh
        exact .inl ⟨rfl, hh.symm⟩
  · intro v hm d hd
    rw [hv, List.mem_append, List.mem_append] at hm
    rcases hm with (hm | hm) | hm
    · rcases wsVolumes_mem hm with ⟨_, _, h3, _⟩ | ⟨_, _, _, _, h3, _⟩
      · rw [h3] at hd; simp only [Option.some.injEq] at hd; subst hd; decide
      · rw [h3] at hd; simp at hd
    · exact (hraw v hm).2 d hd
    · rcases hs with ⟨rfl, _⟩ | ⟨⟨k, rfl⟩, _⟩
      · simp at hm
      · simp only [List.mem_singleton] at hm
        subst hm
        simp at hd
  · have hall : List.Forall₂ (fun _ s => s.docker.dns = [] ∧ s.docker.dnsSearch = [] ∧
        s.docker.extraHosts = [] ∧ s.docker.network = "" ∧ s.docker.networks = [] ∧
        ∀ q ∈ s.docker.ports, q.host = 0) (sources p) sp.steps := by
      refine compile_forall hc ht h ?_
      intro rename y s hmem ⟨k, raw, i, hr, hs⟩
      subst hs
      have hun : y.2.dns = [] ∧ y.2.dnsSearch = [] ∧ y.2.extraHosts = [] ∧ y.2.network = "" ∧
          ∀ p ∈ y.2.ports, ∃ q, p = some q ∧ q.host = 0 := by
        by_cases hcl : y.1 = .clone
        · rcases mem_sources.mp hmem with ⟨_, rfl⟩ | ⟨hr', _⟩ | ⟨hr', _⟩
          · simp
          · rw [hcl] at hr'; simp at hr'
          · rw [hcl] at hr'; simp at hr'
        · exact ((container_ok hp hmem hcl).untrusted rfl).2.2
      have hnet : raw.docker.networks = [] := (rawStep_common hc hr).networks
      by_cases hb : IsBuild y
      · obtain ⟨role, src⟩ := y
        obtain ⟨h1, h2⟩ := hb
        obtain rfl : role = Role.step := h1
        cases hbb : src.build with
        | none => simp [hbb] at h2
        | some b =>
          have hd := (rawStep_build hc hbb hr).docker
          show raw.docker.dns = [] ∧ raw.docker.dnsSearch = [] ∧
            raw.docker.extraHosts = [] ∧ raw.docker.network = "" ∧ raw.docker.networks = [] ∧
            ∀ q ∈ raw.docker.ports, q.host = 0
          rw [hd]
          exact ⟨hun.1, rfl, rfl, rfl, rfl, by simp⟩
      · have hpl := rawStep_plain hc hb hr
        refine ⟨hpl.dns.trans hun.1, hpl.dnsSearch.trans hun.2.1, hpl.extraHosts.trans hun.2.2.1,
          hpl.network.trans hun.2.2.2.1, hnet, ?_⟩
        have hports : ∀ (ps : List (Option Port)) (qs : List Engine.Port), ps.mapM toPort = some qs →
            (∀ p ∈ ps, ∃ q, p = some q ∧ q.host = 0) → ∀ q ∈ qs, q.host = 0 := by
          intro ps
          induction ps with
          | nil => intro qs h _; simp at h; subst h; simp
          | cons a ps ih =>
            intro qs h hz
            rw [List.mapM_cons] at h
            simp only [Option.bind_eq_bind, Option.bind_eq_some_iff, Option.pure_def, Option.some.injEq] at h
            obtain ⟨b, hb, bs, hbs, rfl⟩ := h
            intro q hq
            rcases List.mem_cons.mp hq with rfl | hq
            · obtain ⟨q0, rfl, h0⟩ := hz a (by simp)
              simp only [toPort, Option.some.injEq] at hb
              rw [← hb]
              exact h0
            · exact ih bs hbs (fun p hp => hz p (by simp [hp])) q hq
        exact hports _ _ hpl.ports hun.2.2.2.2
    intro s hs
    obtain ⟨_, _, hh⟩ := forall₂_mem_right hall hs
    exact hh

example : (compile exExt {} exRnd exCompiled).map (fun sp => sp.volumes.map fun v => (v.md.name, v.hostPath)) =
    some [("workspace", none), ("cache", none), ("_docker_socket", some "/var/run/docker.sock")] := by
  decide +kernel

/-! ### C31 -/

theorem withWorkspace_get (e : GoMap String) (w : WorkspaceDirs) (k : String) :
    (withWorkspace e w).get? k =
      if k = "CI_WORKSPACE" then some w.full
      else if k = "CI_WORKSPACE_PATH" then some w.path
      else if k = "CI_WORKSPACE_BASE" then some w.base
      else if k = "DRONE_WORKSPACE" then some w.full
      else if k = "DRONE_WORKSPACE_PATH" then some w.path
      else if k = "DRONE_WORKSPACE_BASE" then some w.base
      else e.get? k := by
  unfold withWorkspace setupWorkspaceEnv
  simp only [GoMap.get?_set]

/-- The variables of a compiled step. -/
theorem CompiledFrom.envs {x : Ctx} (hc : x.c.Std) {rnd rename y s}
    (h : CompiledFrom x rnd rename y s) : ∃ e, s.envs = withWorkspace e (createWorkspace x.p) := by
  obtain ⟨k, raw, i, hr, rfl⟩ := h
  by_cases hb : IsBuild y
  · obtain ⟨role, src⟩ := y
    obtain ⟨h1, h2⟩ := hb
    obtain rfl : role = Role.step := h1
    cases hbb : src.build with
    | none => simp [hbb] at h2
    | some b => exact ⟨_, (rawStep_build hc hbb hr).envs⟩
  · exact ⟨_, (rawStep_plain hc hb hr).envs⟩

/-- C31: the six workspace variables hold the computed workspace in every step. -/
theorem C31_workspace_variables {E : Ext} {c : Compiler} (hc : c.Std) (ht : c.transform = none)
    {rnd : Nat → String} {p : Pipeline} {sp : Engine.Spec} (h : compile E c rnd p = some sp) :
    ∀ s ∈ sp.steps,
      s.envs.get? "DRONE_WORKSPACE_BASE" = some (createWorkspace p).base ∧
      s.envs.get? "DRONE_WORKSPACE_PATH" = some (createWorkspace p).path ∧
      s.envs.get? "DRONE_WORKSPACE" = some (createWorkspace p).full ∧
      s.envs.get? "CI_WORKSPACE_BASE" = some (createWorkspace p).base ∧
      s.envs.get? "CI_WORKSPACE_PATH" = some (createWorkspace p).path ∧
      s.envs.get? "CI_WORKSPACE" = some (createWorkspace p).full := by
  have hall : List.Forall₂ (fun _ s => ∃ e, s.envs = withWorkspace e (createWorkspace p))
      (sources p) sp.steps := compile_forall hc ht h fun _ _ _ _ hy => hy.envs hc
  intro s hs
  obtain ⟨_, _, e, he⟩ := forall₂_mem_right hall hs
  rw [he]
  simp [withWorkspace_get]

example : (compile exExt {} exRnd { exCompiled with
      workspace := { base := "/go", path := "src" }
      steps := [some { name := "a", image := "b", environment := [("CI_WORKSPACE", some { value := "/etc" })],
                       settings := [("x", some { value := .str "1" })] }] }).map
    (fun sp => sp.steps.map (·.envs.get? "CI_WORKSPACE")) =
    some [some "/go/src", some "/go/src", some "/go/src"] := by decide +kernel

/-! ### C32 -/

/-- All identifiers of a specification. -/
def Spec.uids (sp : Engine.Spec) : List String :=
  sp.md.uid :: (sp.volumes.map (·.md.uid) ++ (sp.steps.map (·.md.uid) ++ sp.files.map (·.md.uid)))

theorem renameSteps_uids (E : Ext) (rn : GoMap String) : ∀ (ss : List Step) (i : Nat),
    (renameSteps E rn i ss).map (·.md.uid) = ss.map (·.md.uid)
  | [], _ => rfl
  | s :: ss, i => by
    have := renameSteps_uids E rn ss (i + 1)
    simp only [renameSteps, List.map_cons, this]

/-- C32: the identifiers of a compiled specification are exactly the first draws of the
random source, each used once. -/
theorem C32_uids {E : Ext} {c : Compiler} (hc : c.Std) (ht : c.transform = none)
    {rnd : Nat → String} {p : Pipeline} {sp : Engine.Spec} (h : compile E c rnd p = some sp) :
    (Spec.uids sp).Perm ((List.range (Spec.uids sp).length).map rnd) := by
  obtain ⟨_, _, _, r, hr, rfl⟩ := compile_shape hc ht h
  obtain ⟨h1, h2, h3⟩ := emit_uids (x := ctxOf E c rnd p) hc (sources_clone_commands p) hr
  have key : ∃ N, (Spec.uids (finish E c rnd p r).spec).Perm ((List.range N).map rnd) := by
    obtain ⟨rename, hrn⟩ : ∃ rn, (List.zip (sources p) r.1).foldl addRename [] = rn := ⟨_, rfl⟩
    unfold Spec.uids finish
    simp only [hrn, renameSteps_uids, List.map_append, socket_uids, rawVolumes_uids, wsVolumes_uids]
    generalize hsl : (socketVolumes rnd (rnd 0) r.2.2 rename).length = sl
    have hfd : firstDraw c rnd p = 1 + (wsVolumes c rnd (rnd 0)).length + (p.volumes.filterMap id).length := rfl
    rw [hfd] at h1 h2 h3
    generalize (wsVolumes c rnd (rnd 0)).length = a at *
    generalize (p.volumes.filterMap id).length = b at *
    refine ⟨1 + (a + (b + ((r.2.2 - (1 + a + b)) + sl))), ?_⟩
    rw [List.range_eq_range', ← List.range'_append_1, ← List.range'_append_1, ← List.range'_append_1,
      ← List.range'_append_1]
    simp only [List.range'_one, List.map_append, List.map_cons, List.map_nil, List.singleton_append,
      Nat.zero_add]
    have e0 : 1 + a + b + (r.2.2 - (1 + a + b)) = r.2.2 := by omega
    rw [e0]
    show (rnd 0 :: _).Perm (rnd 0 :: _)
    refine List.Perm.cons _ ?_
    rw [List.append_assoc, List.append_assoc]
    refine List.Perm.append_left _ (List.Perm.append_left _ ?_)
    exact (List.perm_append_comm).trans (h3.append_right _)
  obtain ⟨N, hN⟩ := key
  have hl := hN.length_eq
  rw [List.length_map, List.length_range] at hl
  rw [hl]
  exact hN

/-- C32: if the draws of one compilation do not repeat then all identifiers differ. -/
theorem C32_uids_distinct {E : Ext} {c : Compiler} (hc : c.Std) (ht : c.transform = none)
    {rnd : Nat → String} {p : Pipeline} {sp : Engine.Spec} (h : compile E c rnd p = some sp)
    (hr : ∀ i < (Spec.uids sp).length, ∀ j < (Spec.uids sp).length, rnd i = rnd j → i = j) :
    (Spec.uids sp).Nodup := by
  rw [(C32_uids hc ht h).nodup_iff]
  refine List.Nodup.map_on ?_ List.nodup_range
  intro i hi j hj
  exact hr i (List.mem_range.mp hi) j (List.mem_range.mp hj)

example : (compile exExt {} exRnd exCompiled).map (fun sp => Spec.uids sp) =
    some ["u0", "u1", "u2", "u8", "u3", "u4", "u5", "u6", "u7"] := by decide +kernel

theorem rawFiles_ns {x : Ctx} {uid : String} {y : Role × Container} {f : File} (h : f ∈ rawFiles x uid y) :
    f.md.namespc = x.ns := by
  have hs : ∀ src, f ∈ scriptFiles x.E x.p.platform.os x.ns uid src → f.md.namespc = x.ns := by
    intro src h
    unfold scriptFiles at h
    split at h
    · split at h
      · simp at h
      · simp only [List.mem_singleton] at h; subst h; rfl
    · simp at h
  obtain ⟨role, src⟩ := y
  cases role with
  | clone =>
    rcases List.mem_append.mp h with h | h
    · exact hs src h
    · unfold credFiles at h
      split at h
      · simp at h
      · simp only [List.mem_singleton] at h; subst h; rfl
  | service => exact hs src h
  | step =>
    simp only [rawFiles] at h
    split at h
    · simp at h
    · exact hs src h

/-- C32 (namespace), partial: every step, file and volume carries the namespace of the
pipeline, except the host workspace volume of `CreateHostWorkspace`, for which the
clause is false (`C32_host_volume_namespace`). -/
theorem C32_namespace_partial {E : Ext} {c : Compiler} (hc : c.Std) (ht : c.transform = none)
    {rnd : Nat → String} {p : Pipeline} {sp : Engine.Spec} (h : compile E c rnd p = some sp) :
    (∀ s ∈ sp.steps, s.md.namespc = sp.md.namespc) ∧ (∀ f ∈ sp.files, f.md.namespc = sp.md.namespc) ∧
    (∀ v ∈ sp.volumes, v.md.namespc = sp.md.namespc ∨
      ∃ d, c.workspace = .host d ∧ v.md.name = "host" ∧ v.hostPath = some d) := by
  have hns : sp.md.namespc = rnd 0 := (C22_metadata hc ht h).2.2.2.2.1
  rw [hns]
  refine ⟨?_, ?_, ?_⟩
  · have hall : List.Forall₂ (fun _ s => s.md.namespc = rnd 0) (sources p) sp.steps := by
      refine compile_forall hc ht h ?_
      intro rename y s _ hy
      obtain ⟨k, hk⟩ := hy.common hc
      rw [hk.md]
      rfl
    intro s hs
    obtain ⟨_, _, hh⟩ := forall₂_mem_right hall hs
    exact hh
  · obtain ⟨_, _, _, r, hr, rfl⟩ := compile_shape hc ht h
    intro f hf
    obtain ⟨y, _, k, hk⟩ := (emit_files hr).1 f hf
    exact rawFiles_ns hk
  · obtain ⟨n, sock, hv, hs⟩ := compile_volumes hc ht h
    intro v hm
    rw [hv, List.mem_append, List.mem_append] at hm
    rcases hm with (hm | hm) | hm
    · rcases wsVolumes_mem hm with ⟨_, h2, _⟩ | ⟨d, h1, h2, _, _, h4⟩
      · exact .inl h2
      · exact .inr ⟨d, h1, h2, h4⟩
    · obtain ⟨w, _, _, h2, _⟩ := rawVolumes_mem hm
      exact .inl h2
    · rcases hs with ⟨rfl, _⟩ | ⟨⟨k, rfl⟩, _⟩
      · simp at hm
      · simp only [List.mem_singleton] at hm
        subst hm
        exact .inl rfl

/-- The host workspace volume has no namespace. -/
theorem C32_host_volume_namespace :
    (compile exExt { workspace := .host "/src", mount := .host } exRnd exCompiled).map
      (fun sp => (sp.md.namespc, sp.volumes.map fun v => (v.md.name, v.md.namespc))) =
    some ("u0", [("workspace", "u0"), ("host", ""), ("cache", "u0"), ("_docker_socket", "u0")]) := by
  decide +kernel

/-! ### C33 -/

/-- C33, partial: the working directory of every compiled container.  The rule of the
property holds for every container with commands, for every step that is not
detached and not a build step, and for a detached step without commands.  It fails
for services that do not say `detach: true` themselves, and for detached build
steps: they lose their own working directory (`C33_service_workdir_lost`). -/
theorem C33_working_dir_partial {E : Ext} {c : Compiler} (hc : c.Std) (ht : c.transform = none)
    {rnd : Nat → String} {p : Pipeline} {sp : Engine.Spec} (h : compile E c rnd p = some sp) :
    List.Forall₂ (fun y s =>
      (¬ (s.detach = true ∧ y.2.commands = []) → s.workingDir = (createWorkspace p).full) ∧
      (s.detach = true ∧ y.2.commands = [] →
        s.workingDir = if y.2.detach = true ∧ ¬ IsBuild y then y.2.workingDir else ""))
      (sources p) sp.steps := by
  refine compile_forall hc ht h ?_
  intro rename y s hmem ⟨k, raw, i, hr, hs⟩
  subst hs
  have hd := (rawStep_common hc hr).detach
  show (¬ (raw.detach = true ∧ y.2.commands = []) → raw.workingDir = (createWorkspace p).full) ∧
      (raw.detach = true ∧ y.2.commands = [] →
        raw.workingDir = if y.2.detach = true ∧ ¬ IsBuild y then y.2.workingDir else "")
  by_cases hb : IsBuild y
  · obtain ⟨role, src⟩ := y
    have hb' := hb
    obtain ⟨h1, h2⟩ := hb
    obtain rfl : role = Role.step := h1
    cases hbb : src.build with
    | none => simp [hbb] at h2
    | some b =>
      have hw := (rawStep_build hc hbb hr).workingDir
      simp only [reduceCtorEq, decide_false, Bool.false_or] at hd
      rw [hw, hd]
      by_cases h3 : src.detach = true ∧ src.commands = []
      · simp [h3, hb']
      · simp [h3]; rfl
  · have hw := (rawStep_plain hc hb hr).workingDir
    rw [hw, hd]
    by_cases h1 : y.2.detach = true <;> by_cases h2 : y.2.commands = [] <;>
      by_cases h3 : y.2.workingDir = "" <;> by_cases h4 : y.1 = .service <;>
      simp [h1, h2, h3, h4, hb, ctxOf]

/-- A service without commands that asks for a working directory does not get it. -/
theorem C33_service_workdir_lost :
    (compile exExt {} exRnd { kind := "pipeline", services := [
        some { name := "a", image := "b", workingDir := "/data" },
        some { name := "b", image := "b", workingDir := "/data", detach := true }] }).map
      (fun sp => sp.steps.map fun s => (s.md.name, s.detach, s.workingDir)) =
    some [("clone", false, "/drone/src"), ("a", true, ""), ("b", true, "/data")] := by decide +kernel

end Drone
