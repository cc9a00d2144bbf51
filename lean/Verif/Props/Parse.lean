import Verif.Proof.ParseRaw
/-
C01 - C04: reading manifests (/repo/yaml/parse.go, /repo/yaml/manifest.go).
-/
namespace Drone
open Spec

/-- A YAML library for the examples: every document is a pipeline. -/
def exYaml : YamlLib where
  header _ := .ok { kind := "pipeline" }
  resource t _ := match t with
    | .cron => .ok (.cron { kind := "cron" })
    | .secret => .ok (.secret { kind := "secret" })
    | .signature => .ok (.signature { kind := "signature" })
    | .registry => .ok (.registry { kind := "registry" })
    | .pipeline => .ok (.pipeline { kind := "pipeline" })

/-! ### C01 -/

/-- C01: the documents returned by `ParseRaw` are exactly the documents of the
file in the sense of `Spec.Documents`; `Spec.IsLines`, `Spec.Visible` and
`Spec.Documents` determine them. -/
theorem C01_parseRaw_exact (Y : YamlLib) (data : Bytes) (rs : List RawResource)
    (h : parseRawBytes Y data = .ok rs) :
    ∃ ls vis, IsLines data ls ∧ Visible ls vis ∧ Documents vis (rs.map (·.data)) := by
  refine ⟨rawLines data, scanLines data, rawLines_isLines data, (visible_iff _ _).2 rfl, ?_⟩
  rw [decodeHeaders_data h]
  exact splitDocs_documents data

/-- C01, converse: whatever lines, visible lines and documents satisfy the
specification are the ones `ParseRaw` returns. -/
theorem C01_parseRaw_unique (Y : YamlLib) (data : Bytes) (rs : List RawResource)
    (ls vis docs : List Bytes) (h1 : IsLines data ls) (h2 : Visible ls vis)
    (h3 : Documents vis docs) (h : parseRawBytes Y data = .ok rs) :
    rs.map (·.data) = docs := by
  rw [decodeHeaders_data h]
  rw [visible_iff, ← rawLines_eq h1] at h2
  rw [documents_iff] at h3
  show (splitLoop {} (scanLines data)).docs = docs
  rw [← h3, ← h2]
  rfl

/-- C01: parsing fails only when the header of one of the documents does not
decode; a read error or an overlong line is never reported. -/
theorem C01_parseRaw_fails_iff (Y : YamlLib) (r : Reader) :
    (∃ e, parseRawReader Y r = .error e) ↔ ∃ d ∈ splitDocs r.data, ∃ e, Y.header d = .error e := by
  unfold parseRawReader
  generalize splitDocs r.data = ds
  induction ds with
  | nil => simp [decodeHeaders]
  | cons d ds ih =>
    unfold decodeHeaders
    cases hd : Y.header d with
    | error e => simp [hd]
    | ok h =>
      cases hr : decodeHeaders Y ds with
      | error e => simp [hd, ← ih, hr]
      | ok rs =>
        simp only [reduceCtorEq, exists_false, List.mem_cons, false_iff, not_exists, not_and]
        rintro d' (rfl | hm) e he
        · rw [hd] at he; simp at he
        · have : ∃ e, decodeHeaders Y ds = .error e := ih.2 ⟨d', hm, e, he⟩
          rw [hr] at this; simp at this

/-- Example: two documents, a carriage return, a terminator and ignored rest. -/
example : splitDocs [97, 13, 10, 45, 45, 45, 32, 120, 10, 98, 10, 46, 46, 46, 10, 99]
    = [[97, 10], [98, 10]] := by decide

example : ∃ rs, parseRawBytes exYaml [97, 10, 45, 45, 45, 10, 98] = .ok rs ∧ rs.length = 2 :=
  ⟨_, rfl, rfl⟩

/-! ### C02 -/

/-- C02: writing the documents back and parsing again gives the same
documents. -/
theorem C02_reemit (Y : YamlLib) (data : Bytes) (rs : List RawResource)
    (h : parseRawBytes Y data = .ok rs) (hcr : ∀ r ∈ rs, ¬ [13, 10] <:+: r.data) :
    parseRawBytes Y (rs.flatMap (fun r => [45, 45, 45, 10] ++ r.data)) = .ok rs := by
  have hd := decodeHeaders_data h
  have hcr' : ∀ d ∈ splitDocs data, ¬ [13, 10] <:+: d := by
    intro d hm
    rw [← hd] at hm
    obtain ⟨r, hr, rfl⟩ := List.mem_map.1 hm
    exact hcr r hr
  obtain ⟨bs, h1, h2⟩ := splitDocs_good' hcr'
  have h3 := splitDocs_emit bs h2
  rw [← h1] at h3
  have h4 : rs.flatMap (fun r => [45, 45, 45, 10] ++ r.data)
      = (splitDocs data).flatMap (fun d => [45, 45, 45, 10] ++ d) := by
    rw [← hd, List.flatMap_map]
  unfold parseRawBytes parseRawReader at *
  simp only [h4, h3] at *
  exact h

/-- The side condition of C02 is necessary: here the second reading removes a
carriage return that the first one kept. -/
theorem C02_condition_needed : ∃ data : Bytes,
    splitDocs ((splitDocs data).flatMap (fun d => [45, 45, 45, 10] ++ d)) ≠ splitDocs data :=
  ⟨[97, 13, 13, 10], by decide⟩

example : ∃ rs, parseRawBytes exYaml [97, 13, 10, 45, 45, 45, 10, 98] = .ok rs ∧
    rs.length = 2 ∧ ∀ r ∈ rs, ¬ [13, 10] <:+: r.data :=
  ⟨_, rfl, rfl, by decide⟩

/-! ### C04 (used by C03) -/

/-- The resource type belonging to a kind. -/
inductive KindType : String → ResType → Prop
  | cron : KindType "cron" .cron
  | secret : KindType "secret" .secret
  | signature : KindType "signature" .signature
  | registry : KindType "registry" .registry
  | other {k} : k ∉ ["cron", "secret", "signature", "registry"] → KindType k .pipeline

theorem kindType_iff (k : String) (t : ResType) : KindType k t ↔ typeOfKind k = t := by
  unfold typeOfKind
  constructor
  · intro h
    cases h with
    | other h => simp only [List.mem_cons, List.not_mem_nil, or_false, not_or] at h; simp [h]
    | _ => decide
  · rintro rfl
    split_ifs with h1 h2 h3 h4
    · subst h1; exact .cron
    · subst h2; exact .secret
    · subst h3; exact .signature
    · subst h4; exact .registry
    · exact .other (by simp [h1, h2, h3, h4])

theorem kindTypeJson_iff (k : String) (t : ResType) : KindType k t ↔ typeOfKindJson k = t :=
  kindType_iff k t

theorem jsonLoop_spec {Msg : Type} (J : JsonLib Msg) (msgs : List Msg) (acc out : List Resource) :
    jsonLoop J acc msgs = (out, none) ↔ ∃ rs, out = acc ++ rs ∧
      List.Forall₂ (fun m r => ∃ k t, J.kind m = .ok k ∧ KindType k t ∧ J.resource t m = .ok r) msgs rs := by
  induction msgs generalizing acc with
  | nil => simp [jsonLoop, eq_comm]
  | cons m ms ih =>
    unfold jsonLoop
    cases hk : J.kind m with
    | error e => simp [List.forall₂_cons_left_iff, hk]
    | ok k =>
      simp only
      cases hr : J.resource (typeOfKindJson k) m with
      | error e =>
        simp only [Prod.mk.injEq, reduceCtorEq, and_false, false_iff, not_exists, not_and]
        rintro rs - hf
        obtain ⟨r, rs', ⟨k', t, h1, h2, h3⟩, _⟩ := List.forall₂_cons_left_iff.1 hf
        rw [hk] at h1
        simp only [Except.ok.injEq] at h1
        subst h1
        rw [(kindTypeJson_iff _ _).1 h2, h3] at hr
        simp at hr
      | ok r =>
        simp only [ih]
        constructor
        · rintro ⟨rs, rfl, hf⟩
          exact ⟨r :: rs, by simp, .cons ⟨k, _, hk, (kindTypeJson_iff _ _).2 rfl, hr⟩ hf⟩
        · rintro ⟨rs, rfl, hf⟩
          obtain ⟨r', rs', ⟨k', t, h1, h2, h3⟩, h4, rfl⟩ := List.forall₂_cons_left_iff.1 hf
          rw [hk] at h1
          simp only [Except.ok.injEq] at h1
          subst h1
          rw [(kindTypeJson_iff _ _).1 h2, h3] at hr
          simp only [Except.ok.injEq] at hr
          subst hr
          exact ⟨rs', by simp, h4⟩

/-- C04 (YAML): every resource of a parsed manifest has the dynamic type that
belongs to the kind in its document's header. -/
theorem C04_yaml_kind (Y : YamlLib) (hY : Y.Typed) (data : Bytes) (m : Manifest)
    (h : parseBytes Y data = .ok m) :
    List.Forall₂ (fun d res => ∃ hd, Y.header d = .ok hd ∧ KindType hd.kind res.resType)
      (splitDocs data) m.resources := by
  unfold parseBytes parseReader at h
  split at h
  · simp at h
  · rename_i raws hr
    split at h
    · simp at h
    · rename_i rs hp
      simp only [Except.ok.injEq] at h
      subst h
      rw [parseRawReader, decodeHeaders_ok_iff] at hr
      rw [parseAll_ok_iff] at hp
      simp only at hr ⊢
      generalize splitDocs data = ds at hr
      induction hr generalizing rs with
      | nil => cases hp; exact .nil
      | cons hd _ ih =>
        cases hp with
        | cons hp1 hp2 =>
          refine .cons ⟨_, hd.2, ?_⟩ (ih _ hp2)
          rw [hY _ _ _ hp1.1, kindType_iff]

/-- C04 (JSON): a successful `UnmarshalJSON` keeps the resources that were
there, and appends one resource per message, in order, decoded as the type that
belongs to the message's kind. -/
theorem C04_json_kind {Msg : Type} (J : JsonLib Msg) (m m' : Manifest) (b : Bytes) :
    unmarshalJSON J m b = (m', none) ↔ ∃ msgs rs, J.messages b = .ok msgs ∧
      m'.resources = m.resources ++ rs ∧
      List.Forall₂ (fun msg r => ∃ k t, J.kind msg = .ok k ∧ KindType k t ∧
        J.resource t msg = .ok r) msgs rs := by
  unfold unmarshalJSON
  cases hm : J.messages b with
  | error e => simp
  | ok msgs =>
    simp only [Except.ok.injEq, Prod.mk.injEq]
    cases hl : jsonLoop J m.resources msgs with
    | mk rs e =>
      have := jsonLoop_spec J msgs m.resources m'.resources
      rw [hl] at this
      obtain ⟨r'⟩ := m'
      simp only [Prod.mk.injEq, Manifest.mk.injEq] at this ⊢
      rw [this]
      constructor
      · rintro ⟨rs, h1, h2⟩; exact ⟨msgs, rs, rfl, h1, h2⟩
      · rintro ⟨_, rs, rfl, h1, h2⟩; exact ⟨rs, h1, h2⟩

/-- C04: both readers choose the same type for every kind, and exactly one. -/
theorem C04_same_choice (k : String) : typeOfKind k = typeOfKindJson k ∧
    ∃! t, KindType k t := by
  refine ⟨rfl, typeOfKind k, (kindType_iff _ _).2 rfl, fun t h => ((kindType_iff _ _).1 h).symm⟩

example : exYaml.Typed := by
  intro t d r h
  cases t <;> (simp only [exYaml, Except.ok.injEq] at h; subst h; rfl)

/-! ### C03 -/

/-- C03: `Parse` succeeds with `m` if and only if the file splits into
documents whose headers all decode, and each document decodes, as the type of
its header's kind, to the resource at the same position, with a non-empty
kind. -/
theorem C03_parse_all_or_nothing (Y : YamlLib) (data : Bytes) (m : Manifest) :
    parseBytes Y data = .ok m ↔
      List.Forall₂ (fun d res => ∃ hd t, Y.header d = .ok hd ∧ KindType hd.kind t ∧
        Y.resource t d = .ok res ∧ res.getKind ≠ "") (splitDocs data) m.resources := by
  have key : ∀ (ds : List Bytes) (out : List Resource),
      (∃ raws, decodeHeaders Y ds = .ok raws ∧ parseAll Y raws = .ok out) ↔
      List.Forall₂ (fun d res => ∃ hd t, Y.header d = .ok hd ∧ KindType hd.kind t ∧
        Y.resource t d = .ok res ∧ res.getKind ≠ "") ds out := by
    intro ds out
    constructor
    · rintro ⟨raws, h1, h2⟩
      rw [decodeHeaders_ok_iff] at h1
      rw [parseAll_ok_iff] at h2
      induction h1 generalizing out with
      | nil => cases h2; exact .nil
      | cons hd _ ih =>
        cases h2 with
        | cons hp1 hp2 =>
          refine .cons ⟨_, _, hd.2, (kindType_iff _ _).2 rfl, ?_, hp1.2⟩ (ih _ hp2)
          rw [← hd.1]; exact hp1.1
    · intro h
      induction h with
      | nil => exact ⟨[], rfl, rfl⟩
      | cons hd _ ih =>
        obtain ⟨hh, t, h1, h2, h3, h4⟩ := hd
        obtain ⟨raws, ih1, ih2⟩ := ih
        rename_i d res ds out _
        refine ⟨{ version := hh.version, kind := hh.kind, type := hh.type, data := d } :: raws, ?_, ?_⟩
        · simp only [decodeHeaders, h1, ih1]
        · rw [kindType_iff] at h2
          simp only [parseAll, parseResource, h2, h3, h4, if_false, ih2]
  rw [← key]
  unfold parseBytes parseReader parseRawReader
  cases h1 : decodeHeaders Y (splitDocs data) with
  | error e => simp
  | ok raws =>
    simp only [Except.ok.injEq]
    cases h2 : parseAll Y raws with
    | error e =>
      simp only [reduceCtorEq, false_iff, not_exists, not_and]
      rintro r rfl; simp [h2]
    | ok out =>
      obtain ⟨rs⟩ := m
      simp only [Except.ok.injEq, Manifest.mk.injEq]
      constructor
      · rintro rfl; exact ⟨raws, rfl, h2⟩
      · rintro ⟨r, rfl, h⟩; rw [h2] at h; simpa using h

/-- C03: if any document does not decode or has no kind, the call fails. -/
theorem C03_one_bad_document (Y : YamlLib) (data d : Bytes) (hd : d ∈ splitDocs data)
    (hbad : (∃ e, Y.header d = .error e) ∨
      ∃ h t, Y.header d = .ok h ∧ KindType h.kind t ∧
        ((∃ e, Y.resource t d = .error e) ∨ ∃ r, Y.resource t d = .ok r ∧ r.getKind = "")) :
    ∃ e, parseBytes Y data = .error e := by
  cases hp : parseBytes Y data with
  | error e => exact ⟨e, rfl⟩
  | ok m =>
    rw [C03_parse_all_or_nothing] at hp
    exfalso
    generalize splitDocs data = ds at hd hp
    generalize m.resources = out at hp
    induction hp with
    | nil => simp at hd
    | cons h _ ih =>
      rcases List.mem_cons.1 hd with rfl | hd
      · obtain ⟨hh, t, h1, h2, h3, h4⟩ := h
        rcases hbad with ⟨e, he⟩ | ⟨h', t', h1', h2', h3'⟩
        · rw [h1] at he; simp at he
        · rw [h1] at h1'
          simp only [Except.ok.injEq] at h1'
          subst h1'
          rw [kindType_iff] at h2 h2'
          rw [h2] at h2'
          subst h2'
          rcases h3' with ⟨e, he⟩ | ⟨r, hr, hk⟩
          · rw [h3] at he; simp at he
          · rw [h3] at hr; simp only [Except.ok.injEq] at hr; subst hr; exact h4 hk
      · exact ih hd

example : ∃ m, parseBytes exYaml [97, 10, 45, 45, 45, 10, 98] = .ok m ∧ m.resources.length = 2 :=
  ⟨_, rfl, rfl⟩

end Drone
