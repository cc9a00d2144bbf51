/-
C99: a manifest written by `Manifest.MarshalJSON` is read by `Manifest.UnmarshalJSON`.
-/
import Verif.Proof.ManifestJson
import Verif.Props.Stored

namespace Drone
open Spec

namespace Json

/-! ### Values -/

mutual
theorem plain_iff (v : Value) : plain v = true ↔ ∀ kvs, ¬ In (.map kvs) v := by
  match v with
  | .null | .bool _ | .str _ | .int _ | .float _ =>
    simp only [plain, true_iff]
    intro kvs h
    cases h
  | .seq xs =>
    rw [plain, plains_iff xs]
    constructor
    · intro h kvs hc
      cases hc with
      | inside hv hi => exact h _ hv kvs hi
    · exact fun h x hx kvs hc => h kvs (.inside hx hc)
  | .map kvs =>
    simp only [plain, Bool.false_eq_true, false_iff, not_forall, not_not]
    exact ⟨kvs, .here⟩
theorem plains_iff (xs : List Value) : plains xs = true ↔ ∀ x ∈ xs, ∀ kvs, ¬ In (.map kvs) x := by
  match xs with
  | [] => simp [plains]
  | x :: xs => rw [plains, Bool.and_eq_true, plain_iff x, plains_iff xs, List.forall_mem_cons]
end

mutual
theorem floats_iff (v : Value) (h : ∀ q, In (.float q) v → Float64 q) : floats v = v ↔ ∀ i, ¬ In (.int i) v := by
  match v with
  | .null | .bool _ | .str _ | .map _ =>
    simp only [floats, true_iff]
    intro i h
    cases h
  | .float q =>
    simp only [floats, toFloat_exact (h q .here), true_iff]
    intro i h
    cases h
  | .int i =>
    simp only [floats, reduceCtorEq, false_iff, not_forall, not_not]
    exact ⟨i, .here⟩
  | .seq xs =>
    rw [floats, Value.seq.injEq, floatsList_iff xs fun x hx q hq => h q (.inside hx hq)]
    constructor
    · intro h i hc
      cases hc with
      | inside hv hi => exact h _ hv i hi
    · exact fun h x hx i hc => h i (.inside hx hc)
theorem floatsList_iff (xs : List Value) (h : ∀ x ∈ xs, ∀ q, In (.float q) x → Float64 q) :
    floatsList xs = xs ↔ ∀ x ∈ xs, ∀ i, ¬ In (.int i) x := by
  match xs with
  | [] => simp [floatsList]
  | x :: xs =>
    rw [floatsList, List.cons.injEq, floats_iff x (h x List.mem_cons_self),
      floatsList_iff xs (fun y hy => h y (List.mem_cons_of_mem _ hy)), List.forall_mem_cons]
end

theorem toFloat_float64 (q : Rat) : Float64 (toFloat q) := by
  unfold toFloat
  split
  · rename_i h
    obtain ⟨m, e, h1, h2, h3⟩ := F64.round_bits (q := -q) (by linarith)
    exact ⟨-m, e, by omega, h2, by rw [h3]; push_cast; ring⟩
  · split
    · exact ⟨0, 0, by decide, by decide, by simp⟩
    · rename_i h1 h2
      exact F64.round_bits (lt_of_le_of_ne (not_lt.1 h1) (Ne.symm h2))

mutual
theorem floats_floats (v : Value) : floats (floats v) = floats v := by
  match v with
  | .null | .bool _ | .str _ | .map _ => rfl
  | .float q => simp only [floats, toFloat_exact (toFloat_float64 q)]
  | .int i => simp only [floats, toFloat_exact (toFloat_float64 i)]
  | .seq xs => simp only [floats, floatsList_floats xs]
theorem floatsList_floats (xs : List Value) : floatsList (floatsList xs) = floatsList xs := by
  match xs with
  | [] => rfl
  | x :: xs => simp only [floatsList, floats_floats x, floatsList_floats xs]
end

/-! ### Resources -/

/-- No key is twice in a map, and numbers are doubles. -/
def _root_.Drone.Spec.JsonSound : Resource → Prop
  | .pipeline p => JsonPipeline p
  | .registry r => r.data.keys.Nodup
  | _ => True

theorem plainResource_iff (r : Resource) :
    plainResource r = true ↔ ∀ k p, Setting r k p → ∀ kvs, ¬ In (.map kvs) p.value := by
  cases r with
  | pipeline p =>
    simp only [plainResource, List.all_eq_true]
    constructor
    · rintro h k v ⟨p', c, e, hc, hv⟩
      cases e
      have h1 := List.all_eq_true.1 (h _ hc) _ hv
      exact (plain_iff _).1 h1
    · intro h o ho
      cases o with
      | none => rfl
      | some c =>
        refine List.all_eq_true.2 fun kv hkv => ?_
        obtain ⟨k, o⟩ := kv
        cases o with
        | none => rfl
        | some v => exact (plain_iff _).2 (h k v ⟨p, c, rfl, ho, hkv⟩)
  | _ =>
    simp only [plainResource, true_iff]
    rintro k v ⟨p', c, e, _⟩
    cases e

theorem hdr_error {fold : String → String → Bool} (hF : Folds fold) (l : List (String × Bool × Tree))
    (h : ∀ f ∈ l, (∃ s, f.2.2 = .str s) ∨ ((∀ c ∈ f.1.toList, c.toNat < 128) ∧
      f.1.toList.map Char.toLower ∉ ["version".toList, "kind".toList, "type".toList])) :
    (decHeader fold (encObj l) {}).2 = false := by
  have key : ∀ s : Header, (decHeader fold (encObj l) s).2 = false := by
    intro s
    unfold decHeader encObj decStruct
    simp only
    induction l generalizing s with
    | nil => rfl
    | cons f l ih =>
      have ih := ih fun g hg => h g (List.mem_cons_of_mem _ hg)
      obtain ⟨k, keep, t⟩ := f
      simp only [List.filterMap_cons]
      cases keep with
      | false => exact ih s
      | true =>
        simp only [if_true, decFields]
        rcases h (k, true, t) List.mem_cons_self with ⟨v, hv⟩ | ⟨ha, hn⟩
        · simp only at hv
          subst hv
          cases hd : findField fold _ k with
          | none => exact ih s
          | some d =>
            simp only [ih, Bool.or_false]
            have : ∃ g ∈ [ field "Version" Header.version (fun s v => { s with version := v }) decStr,
                field "kind" Header.kind (fun s v => { s with kind := v }) decStr,
                field "type" Header.type (fun s v => { s with type := v }) decStr ], d = g.2 := by
              unfold findField at hd
              split at hd
              · rename_i g hg
                simp only [Option.some.injEq] at hd
                exact ⟨g, List.mem_of_find?_eq_some hg, hd.symm⟩
              · simp only [Option.map_eq_some_iff] at hd
                obtain ⟨g, hg, rfl⟩ := hd
                exact ⟨g, List.mem_of_find?_eq_some hg, rfl⟩
            obtain ⟨g, hg, rfl⟩ := this
            simp only [List.mem_cons, List.not_mem_nil, or_false] at hg
            rcases hg with rfl | rfl | rfl <;> rfl
        · have hne : ∀ n : String, (∀ c ∈ n.toList, c.toNat < 128) →
              n.toList.map Char.toLower ∈ ["version".toList, "kind".toList, "type".toList] → fold n k = false ∧ n ≠ k := by
            intro n hna hnm
            constructor
            · rw [Bool.eq_false_iff]
              intro hc
              rw [(hF.ascii n k hna ha).1 hc] at hnm
              exact hn hnm
            · rintro rfl
              exact hn hnm
          have h1 := hne "Version" (by decide) (by decide)
          have h2 := hne "kind" (by decide) (by decide)
          have h3 := hne "type" (by decide) (by decide)
          have : findField fold [ field "Version" Header.version (fun s v => { s with version := v }) decStr,
              field "kind" Header.kind (fun s v => { s with kind := v }) decStr,
              field "type" Header.type (fun s v => { s with type := v }) decStr ] k = none := by
            simp [findField, field, h1.1, h1.2, h2.1, h2.2, h3.1, h3.2]
          rw [this]
          exact ih s
  exact key {}

local macro "hdr" h:term : tactic => `(tactic| (
  refine hdr_error $h _ ?_
  repeat refine List.forall_mem_cons.mpr ⟨by first | exact .inl ⟨_, rfl⟩ | exact .inr (by
    first
      | (simp only [encStruct, encStrs, encList, encMap]; decide)), ?_⟩
  exact List.forall_mem_nil _))

theorem encResource_header {fold : String → String → Bool} (hF : Folds fold) (r : Resource) :
    (decHeader fold (encResource r) {}).2 = false := by
  cases r with
  | cron c => unfold encResource encCron; hdr hF
  | secret c => unfold encResource encSecret; hdr hF
  | signature c => unfold encResource encSignature; hdr hF
  | registry c => unfold encResource encRegistry; hdr hF
  | pipeline c => unfold encResource encPipeline; hdr hF

theorem lib_kind {fold : String → String → Bool} (hF : Folds fold) {read : Bytes → Except String Tree} (r : Resource)
    (hs : JsonSound r) (hp : plainResource r = true) : (lib fold read).kind (encResource r) = .ok r.getKind := by
  have h := encResource_header hF r
  simp only [lib, fill, h, Bool.false_eq_true, if_false, Except.map, Except.ok.injEq]
  rw [header_kind hF]
  cases r with
  | cron c => exact (cron_kind hF (encCron c)).symm.trans (by rw [rt_cron]; rfl)
  | secret c => exact (secret_kind hF (encSecret c)).symm.trans (by rw [rt_secret]; rfl)
  | signature c => exact (signature_kind hF (encSignature c)).symm.trans (by rw [rt_signature]; rfl)
  | registry c => exact (registry_kind hF (encRegistry c)).symm.trans (by rw [rt_registry c hs]; rfl)
  | pipeline c => exact (pipeline_kind hF (encPipeline c)).symm.trans (by rw [rt_pipeline c hs hp]; rfl)

theorem lib_resource {fold : String → String → Bool} {read : Bytes → Except String Tree} (r : Resource)
    (hs : JsonSound r) (hp : plainResource r = true) :
    (lib fold read).resource r.resType (encResource r) = .ok (jsonResource r) := by
  cases r with
  | cron c => simp [lib, Resource.resType, fill, encResource, rt_cron, Except.map, jsonResource]
  | secret c => simp [lib, Resource.resType, fill, encResource, rt_secret, Except.map, jsonResource]
  | signature c => simp [lib, Resource.resType, fill, encResource, rt_signature, Except.map, jsonResource]
  | registry c => simp [lib, Resource.resType, fill, encResource, rt_registry c hs, Except.map, jsonResource]
  | pipeline c => simp [lib, Resource.resType, fill, encResource, rt_pipeline c hs hp, Except.map, jsonResource]

end Json

/-! ### Manifests -/

open Json in
/-- C99.  `MarshalJSON` fails exactly if there is a map in a setting. -/
theorem C99_refused (m : Manifest) :
    (∃ e, marshal m = .error e) ↔ ∃ r ∈ m.resources, ∃ k p, Setting r k p ∧ ∃ kvs, In (.map kvs) p.value := by
  unfold marshal
  split
  · rename_i h
    simp only [reduceCtorEq, exists_false, false_iff]
    rintro ⟨r, hr, k, p, hs, kvs, hi⟩
    exact (plainResource_iff r).1 (List.all_eq_true.1 h r hr) k p hs kvs hi
  · rename_i h
    simp only [Except.error.injEq, exists_eq', true_iff]
    by_contra hc
    push Not at hc
    exact h (List.all_eq_true.2 fun r hr => (plainResource_iff r).2 fun k p hs kvs hi => hc r hr k p hs kvs hi)

open Json in
/-- C99.  What `MarshalJSON` wrote is read back by `UnmarshalJSON`, behind what the receiver has; all
that changes is that the numbers of settings are doubles.  `read` is the parser of JSON, of which only
the text of this manifest matters. -/
theorem C99_json {fold : String → String → Bool} (hF : Folds fold) (read : Bytes → Except String Tree)
    (m old : Manifest) (t : Tree) (b : Bytes) (h : marshal m = .ok t) (hb : read b = .ok t)
    (hs : ∀ r ∈ m.resources, JsonSound r) (hk : ∀ r ∈ m.resources, KindType r.getKind r.resType) :
    unmarshalJSON (lib fold read) old b = (⟨old.resources ++ m.resources.map jsonResource⟩, none) := by
  unfold marshal at h
  split at h
  · rename_i hp
    simp only [Except.ok.injEq] at h
    subst h
    have hm : (lib fold read).messages b = .ok (m.resources.map encResource) := by simp only [lib, hb]
    refine (C04_json_kind _ _ _ _).2 ⟨_, _, hm, rfl, ?_⟩
    rw [List.forall₂_map_left_iff, List.forall₂_map_right_iff, List.forall₂_same]
    intro r hr
    have hpr := List.all_eq_true.1 hp r hr
    exact ⟨_, _, lib_kind hF r (hs r hr) hpr, hk r hr, lib_resource r (hs r hr) hpr⟩
  · simp at h

open Json in
theorem jsonContainer_iff (c : Container)
    (hf : ∀ k p, (k, some p) ∈ c.settings → ∀ q, In (.float q) p.value → Float64 q) :
    jsonContainer c = c ↔ ∀ k p, (k, some p) ∈ c.settings → ∀ i, ¬ In (.int i) p.value := by
  have e : jsonContainer c = c ↔
      c.settings.map (fun kv => (kv.1, kv.2.map fun p : Parameter => { p with value := floats p.value })) = c.settings := by
    constructor
    · exact fun h => congrArg Container.settings h
    · intro h
      unfold jsonContainer
      rw [h]
  rw [e, map_self_iff]
  constructor
  · intro h k p hp
    have := h (k, some p) hp
    simp only [Option.map_some, Prod.mk.injEq, Option.some.injEq, true_and] at this
    exact (floats_iff _ (hf k p hp)).1 (congrArg Parameter.value this)
  · intro h kv hkv
    obtain ⟨k, o⟩ := kv
    cases o with
    | none => rfl
    | some p => simp [(floats_iff _ (hf k p hkv)).2 (h k p hkv)]

open Json in
theorem jsonResource_iff (r : Resource) (hf : ∀ k p, Setting r k p → ∀ q, In (.float q) p.value → Float64 q) :
    jsonResource r = r ↔ ∀ k p, Setting r k p → ∀ i, ¬ In (.int i) p.value := by
  cases r with
  | pipeline p =>
    have key : ∀ l : List (Option Container), (∀ c, some c ∈ l → some c ∈ p.services ++ p.steps) →
        (l.map (Option.map jsonContainer) = l ↔
          ∀ c, some c ∈ l → ∀ k v, (k, some v) ∈ c.settings → ∀ i, ¬ In (.int i) v.value) := by
      intro l hl
      rw [map_self_iff]
      constructor
      · intro h c hc
        have := h _ hc
        simp only [Option.map_some, Option.some.injEq] at this
        exact (jsonContainer_iff c fun k v hv => hf k v ⟨p, c, rfl, hl c hc, hv⟩).1 this
      · intro h o ho
        cases o with
        | none => rfl
        | some c => simp [(jsonContainer_iff c fun k v hv => hf k v ⟨p, c, rfl, hl c ho, hv⟩).2 (h c ho)]
    have e : jsonResource (.pipeline p) = .pipeline p ↔ (p.services.map (Option.map jsonContainer) = p.services ∧
        p.steps.map (Option.map jsonContainer) = p.steps) := by
      simp only [jsonResource, Resource.pipeline.injEq]
      constructor
      · intro h
        exact ⟨congrArg Pipeline.services h, congrArg Pipeline.steps h⟩
      · rintro ⟨h1, h2⟩
        rw [h1, h2]
    rw [e, key _ fun c hc => List.mem_append_left _ hc, key _ fun c hc => List.mem_append_right _ hc]
    constructor
    · rintro ⟨h1, h2⟩ k v ⟨p', c, e, hc, hv⟩
      cases e
      exact (List.mem_append.1 hc).elim (fun hc => h1 c hc k v hv) fun hc => h2 c hc k v hv
    · exact fun h => ⟨fun c hc k v hv => h k v ⟨p, c, rfl, List.mem_append_left _ hc, hv⟩,
        fun c hc k v hv => h k v ⟨p, c, rfl, List.mem_append_right _ hc, hv⟩⟩
  | _ =>
    simp only [jsonResource, true_iff]
    rintro k v ⟨p', c, e, _⟩
    cases e

open Json in
/-- C99.  The manifest is read back as it was exactly if there is no integer in a setting. -/
theorem C99_same_iff {fold : String → String → Bool} (hF : Folds fold) (read : Bytes → Except String Tree)
    (m : Manifest) (t : Tree) (b : Bytes) (h : marshal m = .ok t) (hb : read b = .ok t)
    (hs : ∀ r ∈ m.resources, JsonSound r) (hk : ∀ r ∈ m.resources, KindType r.getKind r.resType)
    (hf : ∀ r ∈ m.resources, ∀ k p, Setting r k p → ∀ q, In (.float q) p.value → Float64 q) :
    unmarshalJSON (lib fold read) {} b = (m, none) ↔
      ∀ r ∈ m.resources, ∀ k p, Setting r k p → ∀ i, ¬ In (.int i) p.value := by
  rw [C99_json hF read m {} t b h hb hs hk]
  obtain ⟨rs⟩ := m
  simp only [Prod.mk.injEq, Manifest.mk.injEq, List.nil_append, and_true, map_self_iff]
  exact forall₂_congr fun r hr => jsonResource_iff r (hf r hr)

/-! ### Twice -/

namespace Json

mutual
theorem plain_floats (v : Value) : plain (floats v) = plain v := by
  match v with
  | .null | .bool _ | .str _ | .map _ | .float _ | .int _ => rfl
  | .seq xs => simp only [floats, plain, plains_floats xs]
theorem plains_floats (xs : List Value) : plains (floatsList xs) = plains xs := by
  match xs with
  | [] => rfl
  | x :: xs => simp only [floatsList, plains, plain_floats x, plains_floats xs]
end

theorem jsonContainer_twice (c : Container) : jsonContainer (jsonContainer c) = jsonContainer c := by
  simp only [jsonContainer, List.map_map, Container.mk.injEq, and_true, true_and]
  refine List.map_congr_left fun kv _ => ?_
  simp only [Function.comp, Option.map_map]
  congr 2
  funext p
  simp [floats_floats]

theorem jsonResource_twice (r : Resource) : jsonResource (jsonResource r) = jsonResource r := by
  cases r with
  | pipeline p =>
    simp only [jsonResource, List.map_map]
    have : Option.map jsonContainer ∘ Option.map jsonContainer = Option.map jsonContainer := by
      funext o
      cases o with
      | none => rfl
      | some c => simp [jsonContainer_twice]
    rw [this]
  | _ => rfl

theorem plainContainer_json (c : Container) : plainContainer (jsonContainer c) = plainContainer c := by
  simp only [plainContainer, jsonContainer, List.all_map]
  congr 1
  funext kv
  obtain ⟨k, o⟩ := kv
  cases o with
  | none => rfl
  | some p => simp [plain_floats]

theorem plainResource_json (r : Resource) : plainResource (jsonResource r) = plainResource r := by
  cases r with
  | pipeline p =>
    simp only [plainResource, jsonResource, ← List.map_append, List.all_map]
    congr 1
    funext o
    cases o with
    | none => rfl
    | some c => simp [plainContainer_json]
  | _ => rfl

theorem jsonContainer_keys (c : Container) : (jsonContainer c).settings.keys = c.settings.keys := by
  simp [GoMap.keys, jsonContainer, Function.comp_def]

theorem sound_container {c : Container} (h : JsonContainer c) : JsonContainer (jsonContainer c) :=
  ⟨h.build, h.environment, by rw [jsonContainer_keys]; exact h.settings, h.cond, h.ports, h.limits⟩

theorem sound_resource {r : Resource} (h : JsonSound r) : JsonSound (jsonResource r) := by
  cases r with
  | pipeline p =>
    have key : ∀ l : List (Option Container), (∀ c, some c ∈ l → JsonContainer c) →
        ∀ c, some c ∈ l.map (Option.map jsonContainer) → JsonContainer c := by
      intro l hl c hc
      obtain ⟨o, ho, he⟩ := List.mem_map.1 hc
      cases o with
      | none => simp at he
      | some c' =>
        simp only [Option.map_some, Option.some.injEq] at he
        subst he
        exact sound_container (hl c' ho)
    exact ⟨h.node, key _ h.services, key _ h.steps, h.trigger, h.depth, h.limit, h.sizes⟩
  | _ => exact h

theorem kind_json (r : Resource) : (jsonResource r).getKind = r.getKind ∧ (jsonResource r).resType = r.resType := by
  cases r <;> exact ⟨rfl, rfl⟩

end Json

open Json in
/-- C99.  What was read from JSON once is kept from then on: it can be written again, and is read back
as it is. -/
theorem C99_twice {fold : String → String → Bool} (hF : Folds fold) (read : Bytes → Except String Tree)
    (m : Manifest) (t : Tree) (b : Bytes) (h : marshal m = .ok t) (hb : read b = .ok t)
    (hs : ∀ r ∈ m.resources, JsonSound r) (hk : ∀ r ∈ m.resources, KindType r.getKind r.resType) :
    ∃ m' t', unmarshalJSON (lib fold read) {} b = (m', none) ∧ marshal m' = .ok t' ∧
      ∀ b', read b' = .ok t' → unmarshalJSON (lib fold read) {} b' = (m', none) := by
  have hp : m.resources.all plainResource = true := by
    unfold marshal at h
    split at h
    · assumption
    · simp at h
  have hm : marshal ⟨m.resources.map jsonResource⟩ = .ok (.arr ((m.resources.map jsonResource).map encResource)) := by
    unfold marshal
    have : (m.resources.map jsonResource).all plainResource = true := by
      rw [List.all_map]
      simpa [Function.comp_def, plainResource_json] using hp
    rw [if_pos this]
  refine ⟨⟨m.resources.map jsonResource⟩, _, ?_, hm, fun b' hb' => ?_⟩
  · rw [C99_json hF read m {} t b h hb hs hk]
    rfl
  · rw [C99_json hF read _ {} _ b' hm hb']
    · have : (m.resources.map jsonResource).map jsonResource = m.resources.map jsonResource := by
        rw [List.map_map]
        exact List.map_congr_left fun r _ => jsonResource_twice r
      rw [this]
      rfl
    · intro r hr
      obtain ⟨r', hr', rfl⟩ := List.mem_map.1 hr
      exact sound_resource (hs r' hr')
    · intro r hr
      obtain ⟨r', hr', rfl⟩ := List.mem_map.1 hr
      rw [(kind_json r').1, (kind_json r').2]
      exact hk r' hr'

/-! ### Any JSON -/

open Json in
/-- C99.  Whatever JSON is read, with keys in whatever case: every new resource has the type that its
`Kind` stands for. -/
theorem C99_kind {fold : String → String → Bool} (hF : Folds fold) (read : Bytes → Except String Tree)
    (old m : Manifest) (b : Bytes) (h : unmarshalJSON (lib fold read) old b = (m, none)) :
    ∃ rs, m.resources = old.resources ++ rs ∧ ∀ r ∈ rs, KindType r.getKind r.resType := by
  obtain ⟨msgs, rs, _, he, hf⟩ := (C04_json_kind _ _ _ _).1 h
  refine ⟨rs, he, fun r hr => ?_⟩
  obtain ⟨t, _, k, ty, h1, h2, h3⟩ := forall₂_mem_right hf hr
  have hk : k = (decHeader fold t {}).1.kind := by
    simp only [lib, Json.fill] at h1
    split at h1
    · simp [Except.map] at h1
    · simp only [Except.map, Except.ok.injEq] at h1
      exact h1.symm
  have hv : ∀ {α : Type} {zero a : α} {d : Json.Dec α}, Json.fill zero d t = .ok a → a = (d t zero).1 := by
    intro α zero a d ha
    simp only [Json.fill] at ha
    split at ha
    · simp at ha
    · simp only [Except.ok.injEq] at ha
      exact ha.symm
  rw [header_kind hF] at hk
  cases ty with
  | cron =>
    obtain ⟨a, h4, rfl⟩ := map_ok h3
    have : a.kind = k := by rw [hv h4, Json.cron_kind hF, hk]
    rw [← this] at h2
    exact h2
  | secret =>
    obtain ⟨a, h4, rfl⟩ := map_ok h3
    have : a.kind = k := by rw [hv h4, Json.secret_kind hF, hk]
    rw [← this] at h2
    exact h2
  | signature =>
    obtain ⟨a, h4, rfl⟩ := map_ok h3
    have : a.kind = k := by rw [hv h4, Json.signature_kind hF, hk]
    rw [← this] at h2
    exact h2
  | registry =>
    obtain ⟨a, h4, rfl⟩ := map_ok h3
    have : a.kind = k := by rw [hv h4, Json.registry_kind hF, hk]
    rw [← this] at h2
    exact h2
  | pipeline =>
    obtain ⟨a, h4, rfl⟩ := map_ok h3
    have : a.kind = k := by rw [hv h4, Json.pipeline_kind hF, hk]
    rw [← this] at h2
    exact h2

/-! ### Numbers -/

/-- C99.  Integers of up to 53 bits keep their value as doubles. -/
theorem C99_number (i : Int) (h : i.natAbs ≤ 2 ^ 53) : floats (.int i) = .float i := by
  rw [floats, Json.toFloat_exact (Json.float64_int h)]

/-- C99.  Others do not: the first one that is changed. -/
theorem C99_number_lost : floats (.int 9007199254740993) = .float 9007199254740992 := by
  rw [floats]
  exact congrArg Value.float (by decide +kernel)

/-- C99.  A step that was stored as JSON gets another variable for an integer setting exactly if the
text of the double is another one: `strconv.FormatFloat` writes 1000000 as `1e+06`. -/
theorem C99_variable_iff (E : Ext) (i : Int) (h : i.natAbs ≤ 2 ^ 53) :
    encodeValue E (floats (.int i)) = encodeValue E (.int i) ↔ E.fmtFloat i = toString i := by
  rw [C99_number i h]
  exact Iff.rfl

/-! ### Parsed files -/

namespace Json

mutual
theorem plain_keys (v : Value) (h : plain v = true) : NoFloatKeys v := by
  match v with
  | .null | .bool _ | .str _ | .float _ | .int _ => exact trivial
  | .seq xs => exact plains_keys xs (by rw [plain] at h; exact h)
  | .map _ => simp [plain] at h
theorem plains_keys (xs : List Value) (h : plains xs = true) : NoFloatKeysList xs := by
  match xs with
  | [] => exact trivial
  | x :: xs =>
    rw [plains, Bool.and_eq_true] at h
    exact ⟨plain_keys x h.1, plains_keys xs h.2⟩
end

theorem plain_settings {r : Resource} (h : plainResource r = true) : PlainSettings r := by
  cases r with
  | pipeline p =>
    intro c hc k v hv _
    have h1 := List.all_eq_true.1 h (some c) (by simpa using hc.symm)
    have h2 : plain v.value = true := List.all_eq_true.1 h1 _ hv
    refine ⟨plain_keys _ h2, ?_⟩
    rintro ⟨kvs, w, e, _⟩
    rw [e] at h2
    simp [plain] at h2
  | _ => trivial

/-- The numbers of processors are doubles. -/
def _root_.Drone.Spec.DoubleCpu (r : Resource) : Prop :=
  ∀ p c res o, r = .pipeline p → some c ∈ p.services ++ p.steps → c.resources = some res →
    res.limits = some o ∨ res.requests = some o → Float64 o.cpu

theorem storable_sound {r : Resource} (h : Storable r) (hc : DoubleCpu r) : JsonSound r := by
  cases r with
  | pipeline p =>
    have key : ∀ c, some c ∈ p.services ++ p.steps → StorableContainer c → JsonContainer c := fun c hm hs =>
      ⟨hs.build, hs.environment, hs.settings, hs.cond, hs.ports,
        fun res hr o ho => ⟨hc p c res o rfl hm hr ho, hs.memory res o hr ho⟩⟩
    exact ⟨h.node, fun c hm => key c (List.mem_append_left _ hm) (h.services c hm),
      fun c hm => key c (List.mem_append_right _ hm) (h.steps c hm), h.trigger,
      h.depth, h.limit, fun v hv e he => h.sizes v e hv he⟩
  | registry => exact h
  | _ => trivial

end Json

open Json in
/-- C99.  A parsed file without maps in its settings is written as JSON and read back. -/
theorem C99_parsed {fold : String → String → Bool} (hF : Folds fold) (read : Bytes → Except String Tree)
    (ram : String → Option Int) (hram : ∀ s i, ram s = some i → Fits64 i) (tree : Bytes → Except String Yaml.Node) (text : Bytes) (m : Manifest)
    (h : parseBytes (Yaml.treeLib ram tree) text = .ok m) (hc : ∀ r ∈ m.resources, DoubleCpu r)
    (hm : ∀ r ∈ m.resources, ∀ k p, Setting r k p → ∀ kvs, ¬ In (.map kvs) p.value) :
    ∃ t, marshal m = .ok t ∧ ∀ b, read b = .ok t →
      unmarshalJSON (lib fold read) {} b = (⟨m.resources.map jsonResource⟩, none) := by
  have hp : m.resources.all plainResource = true :=
    List.all_eq_true.2 fun r hr => (plainResource_iff r).2 (hm r hr)
  have ht : marshal m = .ok (.arr (m.resources.map encResource)) := by rw [marshal, if_pos hp]
  refine ⟨_, ht, fun b hb => ?_⟩
  rw [C99_json hF read m {} _ b ht hb]
  · rfl
  · exact fun r hr => storable_sound ((parsed_storable hram h r hr).2 (plain_settings (List.all_eq_true.1 hp r hr))) (hc r hr)
  · exact fun r hr => (kindType_iff _ _).2 (parsed_storable hram h r hr).1.1

/-! ### Cases -/

/-- Comparison up to case of ASCII letters -/
def exFold (a b : String) : Bool := a.toList.map Char.toLower == b.toList.map Char.toLower

theorem exFolds : Folds exFold :=
  ⟨fun a b h => by simp only [exFold, beq_iff_eq] at *; exact h.symm,
   fun a b c h1 h2 => by simp only [exFold, beq_iff_eq] at *; exact h1.trans h2,
   fun a b _ _ => by simp [exFold]⟩

/-- A pipeline with all kinds of settings and an empty variable -/
def exJsonStep : Container where
  name := "publish"
  image := "plugins/docker"
  environment := [("EMPTY", some {}), ("TOKEN", some { secret := "token" }), ("NIL", none)]
  settings := [("depth", some { value := .int 1000000 }), ("ratio", some { value := .float (1/2) }),
    ("tags", some { value := .seq [.str "a", .int 2, .bool true] }), ("none", some {})]
  resources := some { limits := some { cpu := 3/2, memory := 1024 } }
  cond := { branch := { incl := ["master"] } }

def exJsonManifest : Manifest := ⟨[.pipeline { kind := "pipeline", type := "docker", name := "build", steps := [some exJsonStep] },
  .secret { kind := "secret", name := "token", get := { path := "a" } }]⟩

theorem exJsonManifest_sound : ∀ r ∈ exJsonManifest.resources, JsonSound r := by
  unfold exJsonManifest
  refine List.forall_mem_cons.2 ⟨⟨List.nodup_nil, by simp, ?_, List.nodup_nil, by decide, by decide, by simp⟩,
    List.forall_mem_cons.2 ⟨trivial, by simp⟩⟩
  intro c hc
  simp only [List.mem_cons, List.not_mem_nil, or_false, Option.some.injEq] at hc
  subst hc
  refine ⟨by simp [exJsonStep], by decide, by decide, List.nodup_nil, by simp [exJsonStep], ?_⟩
  intro r hr o ho
  cases hr
  obtain rfl : _ = o := by
    rcases ho with ho | ho
    · exact Option.some.inj ho
    · cases ho
  exact ⟨⟨3, -1, by decide, by decide, by decide +kernel⟩, by decide⟩

theorem exJsonManifest_kinds : ∀ r ∈ exJsonManifest.resources, KindType r.getKind r.resType := by
  unfold exJsonManifest
  refine List.forall_mem_cons.2 ⟨.other (by decide), List.forall_mem_cons.2 ⟨.secret, by simp⟩⟩

/-- The empty variable and the empty setting stay, the integers become doubles. -/
example : (jsonContainer exJsonStep).environment = exJsonStep.environment ∧
    (jsonContainer exJsonStep).settings =
      [("depth", some { value := .float 1000000 }), ("ratio", some { value := .float (1/2) }),
       ("tags", some { value := .seq [.str "a", .float 2, .bool true] }), ("none", some {})] := by
  refine ⟨rfl, ?_⟩
  have h1 : Json.toFloat (1000000 : Int) = 1000000 := by decide +kernel
  have h2 : Json.toFloat (1/2) = 1/2 := by decide +kernel
  have h3 : Json.toFloat (2 : Int) = 2 := by decide +kernel
  show ([("depth", some { value := Value.float (Json.toFloat (1000000 : Int)) }),
    ("ratio", some { value := .float (Json.toFloat (1/2)) }),
    ("tags", some { value := .seq [.str "a", .float (Json.toFloat (2 : Int)), .bool true] }), ("none", some {})] : GoMap (Option Parameter)) = _
  rw [h1, h2, h3]

example : ∃ t, Json.marshal exJsonManifest = .ok t ∧ ∀ old read b, read b = .ok t →
    unmarshalJSON (Json.lib exFold read) old b = (⟨old.resources ++ exJsonManifest.resources.map jsonResource⟩, none) :=
  ⟨_, rfl, fun old read b hb => C99_json exFolds read exJsonManifest old _ b rfl hb exJsonManifest_sound exJsonManifest_kinds⟩

/-- A map as the value of a setting cannot be written. -/
example : ∃ e, Json.marshal ⟨[.pipeline { steps := [some { settings := [("cache", some { value := .seq [.map []] })] }] }]⟩
    = .error e :=
  (C99_refused _).2 ⟨_, List.mem_cons_self, "cache", { value := .seq [.map []] },
    ⟨_, _, rfl, List.mem_cons_self, List.mem_cons_self⟩, [], .inside List.mem_cons_self .here⟩

/-- Keys in capitals, and a kind nobody knows: a pipeline; a second key of this kind replaces the first. -/
example : unmarshalJSON (Json.lib exFold fun _ => .ok (.arr [.obj [("Kind", .str "secret"), ("KIND", .str "other"), ("NAME", .str "a")]])) {} []
    = (⟨[.pipeline { kind := "other", name := "a" }]⟩, none) := by rfl

end Drone
