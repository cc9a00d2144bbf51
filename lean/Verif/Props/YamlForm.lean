/-
C114: which YAML documents are read as a manifest, and what is read from them.
-/
import Verif.Proof.YamlForm
import Verif.Props.JsonShape
import Verif.Props.ForeignKeys

namespace Drone
open Spec

namespace Yaml

local macro "others" : tactic => `(tactic| (
  repeat refine List.forall_mem_cons.mpr ⟨by first | exact fun h => absurd rfl h | exact fun _ _ _ => rfl, ?_⟩
  exact List.forall_mem_nil _))
local macro "fld" t:term : tactic =>
  `(tactic| refine .cons (.field $t (fun _ _ => rfl) (by others)) ?_)

/-! ### Conditions -/

theorem elems_texts (xs : List Node) : (decElems "" decString xs).val = xs.filterMap textOf := by
  induction xs with
  | nil => rfl
  | cons x xs ih =>
    cases h : textOf x with
    | none => simp [decElems, (C108_string x "").2 h, ih, h]
    | some t => simp [decElems, decString_some h, ih, h]

theorem strings_texts (n : Node) (s : List String) (hs : s = []) : (decStrings n s).val = texts n := by
  cases n with
  | seq xs => exact elems_texts xs
  | null => rfl
  | _ => exact hs

/-- A list of patterns; anything else counts as no list. -/
def patternsForm : Form (List String) := ⟨fun _ => True, fun _ => True, fun n l => l = texts n⟩

theorem inclExcl_tells (kvs : List (Node × Node)) (h : ∀ name ∈ ["include", "exclude"],
    kvs.Pairwise fun a b => ¬ (textOf a.1 = some name ∧ textOf b.1 = some name)) :
    ∃ i e, Gives kvs "include" i ∧ Gives kvs "exclude" e ∧
      (decInclExcl (.map kvs) {}).val = { incl := texts i, excl := texts e } := by
  have mk : ∀ (tbl : List (String × Field Condition)) (name : String) (get : Condition → List String)
      (set : Condition → List String → Condition), (∀ s v, get (set s v) = v) → get {} = [] →
      (∀ g ∈ tbl, g.1 ≠ name → ∀ n s, get (g.2 n s).1 = get s) →
      LineTells {} tbl (name, field get set decStrings) (line name get patternsForm) :=
    fun tbl name get set h1 h0 h2 =>
    { name := rfl
      null := fun s hs => by
        show get s = texts .null
        rw [show get s = get {} from hs, h0]; rfl
      read := fun n s hs _ _ => by
        show get (set s _) = texts n
        rw [h1]
        exact strings_texts n _ (by rw [show get s = get {} from hs, h0])
      congr := fun n s s' hs ht => by
        show get s = texts n
        rw [show get s = get s' from hs]
        exact ht
      refl := fun _ => rfl
      trans := fun _ _ _ h h' => Eq.trans h h'
      others := h2 }
  have key := fun {f l} hf hr hp => fields_tell (zero := ({} : Condition))
    (tbl := [ ("include", field Condition.incl (fun s v => { s with incl := v }) decStrings),
      ("exclude", field Condition.excl (fun s v => { s with excl := v }) decStrings) ])
    (by simp only [List.map]; decide) (f := f) hf (l := l) hr kvs {} (hr.refl _) hp
  obtain ⟨i, hi, ti⟩ := key List.mem_cons_self (mk _ "include" Condition.incl (fun s v => { s with incl := v }) (fun _ _ => rfl) rfl (by others))
    (h "include" (by simp)) (fun _ _ _ => trivial) (fun _ _ _ => trivial)
  obtain ⟨e, he, te⟩ := key (List.mem_cons_of_mem _ List.mem_cons_self) (mk _ "exclude" Condition.excl (fun s v => { s with excl := v }) (fun _ _ => rfl) rfl (by others))
    (h "exclude" (by simp)) (fun _ _ _ => trivial) (fun _ _ _ => trivial)
  refine ⟨i, e, hi, he, ?_⟩
  have ti : (decInclExcl (.map kvs) {}).val.incl = texts i := ti
  have te : (decInclExcl (.map kvs) {}).val.excl = texts e := te
  rw [← ti, ← te]

theorem form_condition : Faithful {} decCondition conditionForm := by
  have hok : ∀ n s, (decCondition n s).err = false := by
    intro n s
    cases n with
    | null => rfl
    | _ =>
      simp only [decCondition, custom, unmarshalCondition]
      split <;> rfl
  refine ⟨fun n s => ⟨fun _ => trivial, fun _ => hok n s⟩, fun n s h => ?_, .inl ⟨rfl, rfl⟩, fun n _ ho => ?_⟩
  · cases n with
    | null => rfl
    | _ =>
      simp only [decCondition, custom] at h ⊢
      rw [h]
      rfl
  · cases n with
    | null => exact .inl ⟨rfl, rfl⟩
    | scalar t r => exact .inr (.inl ⟨t, r, rfl, rfl⟩)
    | seq xs =>
      refine .inr (.inr (.inl ⟨xs, rfl, ?_⟩))
      show ({ incl := [] ++ (decElems "" decString xs).val, excl := [] } : Condition) = _
      rw [elems_texts]
      rfl
    | map kvs =>
      obtain ⟨i, e, hi, he, ht⟩ := inclExcl_tells kvs (ho kvs rfl)
      refine .inr (.inr (.inr ⟨kvs, i, e, rfl, hi, he, ?_⟩))
      show ({ incl := (decInclExcl (.map kvs) {}).val.incl ++ [], excl := (decInclExcl (.map kvs) {}).val.excl } : Condition) = _
      rw [ht, List.append_nil]

/-! ### Settings -/

theorem fill_texts (old : String) : ∀ vs : List Node, (∀ v ∈ vs, (textOf v).isSome) →
    (vs = [] ∧ fill decString old vs = old) ∨
      ∃ v, vs.getLast? = some v ∧ textOf v = some (fill decString old vs) := by
  intro vs
  induction vs generalizing old with
  | nil => intro _; exact .inl ⟨rfl, rfl⟩
  | cons v vs ih =>
    intro h
    rw [List.forall_mem_cons] at h
    obtain ⟨t, ht⟩ := Option.isSome_iff_exists.1 h.1
    have e : fill decString old (v :: vs) = fill decString t vs := by
      simp only [fill, List.foldl_cons, decString_some ht]
    right
    rcases ih t h.2 with ⟨rfl, h1⟩ | ⟨w, h1, h2⟩
    · exact ⟨v, rfl, by rw [e, h1, ht]⟩
    · refine ⟨w, ?_, by rw [e, h2]⟩
      rw [List.getLast?_cons, h1]
      rfl

theorem mem_valuesOf {kvs : List (Node × Node)} {k : String} {v : Node} :
    v ∈ valuesOf kvs k ↔ ∃ kk, (kk, v) ∈ kvs ∧ textOf kk = some k := by
  simp only [valuesOf, List.mem_map, List.mem_filter, decide_eq_true_eq]
  constructor
  · rintro ⟨⟨a, b⟩, ⟨h1, h2⟩, rfl⟩
    exact ⟨a, h1, h2⟩
  · rintro ⟨a, h1, h2⟩
    exact ⟨(a, v), ⟨h1, h2⟩, rfl⟩

theorem secret_reads : Faithful "" decParameterLong (Form.obj [line "from_secret" id Form.str]) := by
  refine reads_obj (by simp only [List.map]; decide) ?_
  fld reads_str
  exact .nil

theorem names_secret (n : Node) (s : String) :
    NamesSecret n s ↔ (decParameterLong n "").err = false ∧ (decParameterLong n "").val = s ∧ s ≠ "" := by
  rw [secret_reads.ok]
  constructor
  · rintro ⟨kvs, rfl, h1, h2, h3, v, h4, h5⟩
    have hf : (decParameterLong (.map kvs) "").val = fill decString "" (valuesOf kvs "from_secret") :=
      fills_val (get := id) (f := fun k => List.lookup k [("from_secret", field id (fun _ v => v) decString)])
        (fills_table ⟨_, rfl, fun _ _ => rfl⟩ (by others)) kvs ""
    refine ⟨.inr ⟨kvs, rfl, fun kv hkv => ?_⟩, ?_, h3⟩
    · obtain ⟨t, ht⟩ := Option.isSome_iff_exists.1 (h1 kv hkv)
      refine ⟨t, ht, fun l hl e => ?_⟩
      rw [List.mem_singleton.1 hl] at e ⊢
      exact Option.isSome_iff_exists.1 (h2 kv.2 (mem_valuesOf.2 ⟨kv.1, hkv, by rw [ht, ← e]; rfl⟩))
    · rw [hf]
      rcases fill_texts "" _ h2 with ⟨h6, _⟩ | ⟨w, h6, h7⟩
      · rw [h6] at h4; cases h4
      · rw [h6] at h4
        cases h4
        rw [h7] at h5
        exact Option.some.inj h5
  · rintro ⟨h1, h2, h3⟩
    rcases h1 with rfl | ⟨kvs, rfl, h1⟩
    · exact absurd h2.symm h3
    · have hf : (decParameterLong (.map kvs) "").val = fill decString "" (valuesOf kvs "from_secret") :=
        fills_val (get := id) (f := fun k => List.lookup k [("from_secret", field id (fun _ v => v) decString)])
          (fills_table ⟨_, rfl, fun _ _ => rfl⟩ (by others)) kvs ""
      have h4 : ∀ v ∈ valuesOf kvs "from_secret", (textOf v).isSome := by
        intro v hv
        obtain ⟨kk, hm, hk⟩ := mem_valuesOf.1 hv
        obtain ⟨k, e1, h5⟩ := h1 _ hm
        rw [hk] at e1
        exact Option.isSome_iff_exists.2 (h5 _ List.mem_cons_self (Option.some.inj e1))
      refine ⟨kvs, rfl, fun kv hkv => ?_, h4, h3, ?_⟩
      · obtain ⟨k, e1, _⟩ := h1 kv hkv
        rw [e1]; rfl
      · rcases fill_texts "" _ h4 with ⟨_, h6⟩ | ⟨w, h6, h7⟩
        · rw [hf, h6] at h2
          exact absurd h2.symm h3
        · exact ⟨w, h6, by rw [h7, ← hf, h2]⟩

theorem form_parameter : Faithful {} (custom {} unmarshalParameter) parameterForm := by
  have hno : ∀ s, ¬ NamesSecret .null s := by
    rintro s ⟨kvs, h, _⟩
    cases h
  have hcase : ∀ n s, n ≠ .null → ((∃ t, NamesSecret n t ∧ custom {} unmarshalParameter n s = { val := { s with secret := t } }) ∨
      ((∀ t, ¬ NamesSecret n t) ∧ custom {} unmarshalParameter n s =
        { val := { s with value := (decAny n .null).val }, good := !(decAny n .null).err, err := (decAny n .null).err })) := by
    intro n s hn
    by_cases h : (decParameterLong n "").err = false ∧ (decParameterLong n "").val ≠ ""
    · refine .inl ⟨_, (names_secret n _).2 ⟨h.1, rfl, h.2⟩, ?_⟩
      cases n with
      | null => exact absurd rfl hn
      | _ => simp only [custom, unmarshalParameter]; rw [if_pos h]; rfl
    · refine .inr ⟨fun t ht => ?_, ?_⟩
      · obtain ⟨h1, h2, h3⟩ := (names_secret n t).1 ht
        exact h ⟨h1, h2 ▸ h3⟩
      · cases n with
        | null => exact absurd rfl hn
        | _ => simp only [custom, unmarshalParameter]; rw [if_neg h]
  refine ⟨fun n s => ?_, fun n s hh => ?_, .inr ⟨hno, .null, .null, rfl⟩, fun n h1 h2 => ?_⟩
  · by_cases hn : n = .null
    · subst hn
      exact ⟨fun _ => .inr .null, fun _ => rfl⟩
    · rcases hcase n s hn with ⟨t, h, e⟩ | ⟨h, e⟩
      · rw [e]; exact ⟨fun _ => .inl ⟨t, h⟩, fun _ => rfl⟩
      · rw [e]
        show (decAny n .null).err = false ↔ _
        rw [decAny_err]
        exact ⟨.inr, fun hc => hc.resolve_left fun ⟨t, ht⟩ => h t ht⟩
  · by_cases hn : n = .null
    · subst hn; rfl
    · rcases hcase n s hn with ⟨t, h, e⟩ | ⟨h, e⟩
      · rw [e]
      · rw [e] at hh ⊢
        simp only at hh ⊢
        rw [hh]; rfl
  · by_cases hn : n = .null
    · subst hn; exact .inr ⟨hno, .null, .null, rfl⟩
    · rcases hcase n {} hn with ⟨t, h, e⟩ | ⟨h, e⟩
      · rw [e]; exact .inl ⟨t, h, rfl⟩
      · rw [e]
        exact .inr ⟨h, _, reads_any.read n (h1.resolve_left fun ⟨t, ht⟩ => h t ht) (h2.resolve_left fun ⟨t, ht⟩ => h t ht), rfl⟩

/-! ### Ports -/

theorem form_portLong : Faithful {} decPortLong portLongForm := by
  refine reads_obj (by simp only [List.map]; decide) ?_
  iterate 2 (fld reads_int)
  fld reads_str
  exact .nil

theorem form_port : Faithful {} (custom {} unmarshalPort) portForm := by
  have hcase : ∀ n s, n ≠ .null → ((∃ i, IsInt n i ∧ custom {} unmarshalPort n s = { val := { port := i } }) ∨
      ((∀ i, ¬ IsInt n i) ∧ custom {} unmarshalPort n s =
        { val := (decPortLong n {}).val, good := !(decPortLong n {}).err, err := (decPortLong n {}).err })) := by
    intro n s hn
    by_cases h : ∃ i, IsInt n i
    · obtain ⟨i, h⟩ := h
      refine .inl ⟨i, h, ?_⟩
      have := (C108_int n 0).1 i h
      cases n with
      | null => exact absurd rfl hn
      | _ => simp only [custom, unmarshalPort, this]; rfl
    · push Not at h
      refine .inr ⟨h, ?_⟩
      have := (C108_int n 0).2 h
      cases n with
      | null => exact absurd rfl hn
      | _ => simp only [custom, unmarshalPort, this]; rfl
  refine ⟨fun n s => ?_, fun n s hh => ?_, .inl ⟨0, .null, rfl⟩, fun n h1 h2 => ?_⟩
  · by_cases hn : n = .null
    · subst hn
      exact ⟨fun _ => .inl ⟨0, .null⟩, fun _ => rfl⟩
    · rcases hcase n s hn with ⟨t, h, e⟩ | ⟨h, e⟩
      · rw [e]; exact ⟨fun _ => .inl ⟨t, h⟩, fun _ => rfl⟩
      · rw [e]
        show (decPortLong n {}).err = false ↔ _
        rw [form_portLong.ok]
        exact ⟨.inr, fun hc => hc.resolve_left fun ⟨t, ht⟩ => h t ht⟩
  · by_cases hn : n = .null
    · subst hn; rfl
    · rcases hcase n s hn with ⟨t, h, e⟩ | ⟨h, e⟩
      · rw [e]
      · rw [e] at hh ⊢
        simp only at hh ⊢
        rw [hh]; rfl
  · by_cases hn : n = .null
    · subst hn; exact .inl ⟨0, .null, rfl⟩
    · rcases hcase n {} hn with ⟨t, h, e⟩ | ⟨h, e⟩
      · rw [e]; exact .inl ⟨t, h, rfl⟩
      · rw [e]
        exact .inr ⟨h, form_portLong.read n (h1.resolve_left fun ⟨t, ht⟩ => h t ht) h2⟩

/-! ### The types -/

theorem form_conditions : Faithful {} decConditions conditionsForm := by
  refine reads_obj (by simp only [conditionsFields, List.map]; decide +kernel) ?_
  iterate 10 (fld form_condition)
  fld (reads_map reads_str)
  exact .nil

theorem form_variable : Faithful {} (custom {} unmarshalVariable) variableForm := by
  refine reads_short (d := decVariableLong) (reads_obj (by simp only [List.map]; decide) ?_) (fun _ _ _ => rfl)
    (fun n s h1 h2 => ?_) obj_fits_null
  · iterate 2 (fld reads_str)
    exact .nil
  · cases n with
    | null => exact absurd rfl h2
    | scalar t r => exact absurd rfl (h1 t r)
    | _ => rfl

theorem form_build : Faithful {} (custom {} unmarshalBuild) buildForm := by
  refine reads_short (d := decBuildLong) (reads_obj (by simp only [buildLongFields, List.map]; decide) ?_) (fun _ _ _ => rfl)
    (fun n s h1 h2 => ?_) obj_fits_null
  · fld (reads_map reads_str)
    fld (reads_list reads_str)
    iterate 3 (fld reads_str)
    fld (reads_map reads_str)
    exact .nil
  · cases n with
    | null => exact absurd rfl h2
    | scalar t r => exact absurd rfl (h1 t r)
    | _ => rfl

theorem form_push : Faithful {} (custom {} unmarshalPush) pushForm := by
  refine reads_short (d := decPushLong) (reads_obj (by simp only [List.map]; decide) ?_) (fun _ _ _ => rfl)
    (fun n s h1 h2 => ?_) obj_fits_null
  · fld reads_str
    exact .nil
  · cases n with
    | null => exact absurd rfl h2
    | scalar t r => exact absurd rfl (h1 t r)
    | _ => rfl

theorem form_resourceObject (ram : String → Option Int) : Faithful {} (decResourceObject ram) (resourceObjectForm ram) := by
  refine reads_obj (by simp only [List.map]; decide +kernel) ?_
  fld reads_float
  fld (reads_size ram)
  exact .nil

theorem form_resources (ram : String → Option Int) : Faithful {} (decResources ram) (resourcesForm ram) := by
  refine reads_obj (by simp only [List.map]; decide +kernel) ?_
  iterate 2 (fld (reads_ptr (form_resourceObject ram) obj_fits_null))
  exact .nil

theorem form_volumeDevice : Faithful {} decVolumeDevice volumeDeviceForm := by
  refine reads_obj (by simp only [List.map]; decide +kernel) ?_
  iterate 2 (fld reads_str)
  exact .nil

theorem form_volumeMount : Faithful {} decVolumeMount volumeMountForm := by
  refine reads_obj (by simp only [List.map]; decide +kernel) ?_
  iterate 2 (fld reads_str)
  exact .nil

theorem form_emptyDir (ram : String → Option Int) : Faithful {} (decVolumeEmptyDir ram) (volumeEmptyDirForm ram) := by
  refine reads_obj (by simp only [List.map]; decide +kernel) ?_
  fld reads_str
  fld (reads_size ram)
  exact .nil

theorem form_hostPath : Faithful {} decVolumeHostPath volumeHostPathForm := by
  refine reads_obj (by simp only [List.map]; decide +kernel) ?_
  fld reads_str
  exact .nil

theorem form_volume (ram : String → Option Int) : Faithful {} (decVolume ram) (volumeForm ram) := by
  refine reads_obj (by simp only [List.map]; decide +kernel) ?_
  fld reads_str
  fld (reads_ptr (form_emptyDir ram) obj_fits_null)
  fld (reads_ptr form_hostPath obj_fits_null)
  exact .nil

theorem form_container (ram : String → Option Int) : Faithful {} (decContainer ram) (containerForm ram) := by
  refine reads_obj (by simp only [containerFields, List.map]; decide +kernel) ?_
  fld (reads_ptr form_build (.inr obj_fits_null))
  iterate 2 (fld (reads_list reads_str))
  fld reads_bool
  fld (reads_list reads_str)
  fld (reads_list (reads_ptr form_volumeDevice obj_fits_null))
  iterate 3 (fld (reads_list reads_str))
  fld (reads_map (reads_ptr form_variable (.inr obj_fits_null)))
  fld (reads_list reads_str)
  iterate 4 (fld reads_str)
  fld (reads_list (reads_ptr form_port (.inl ⟨0, .null⟩)))
  fld reads_bool
  fld reads_str
  fld (reads_ptr form_push (.inr obj_fits_null))
  fld (reads_ptr (form_resources ram) obj_fits_null)
  fld (reads_map (reads_ptr form_parameter (.inr .null)))
  iterate 2 (fld reads_str)
  fld (reads_list (reads_ptr form_volumeMount obj_fits_null))
  fld form_conditions
  fld reads_str
  exact .nil

theorem form_clone : Faithful {} decClone cloneForm := by
  refine reads_obj (by simp only [List.map]; decide +kernel) ?_
  fld reads_bool
  fld reads_int
  fld reads_bool
  exact .nil

theorem form_concurrency : Faithful {} decConcurrency concurrencyForm := by
  refine reads_obj (by simp only [List.map]; decide +kernel) ?_
  fld reads_int
  exact .nil

theorem form_platform : Faithful {} decPlatform platformForm := by
  refine reads_obj (by simp only [List.map]; decide +kernel) ?_
  iterate 4 (fld reads_str)
  exact .nil

theorem form_workspace : Faithful {} decWorkspace workspaceForm := by
  refine reads_obj (by simp only [List.map]; decide +kernel) ?_
  iterate 2 (fld reads_str)
  exact .nil

theorem form_pipeline (ram : String → Option Int) : Faithful {} (decPipeline ram) (pipelineForm ram) := by
  refine reads_obj (by simp only [pipelineFields, List.map]; decide +kernel) ?_
  iterate 4 (fld reads_str)
  fld form_clone
  fld form_concurrency
  fld (reads_list reads_str)
  fld (reads_map reads_str)
  fld form_platform
  fld (reads_list reads_str)
  iterate 2 (fld (reads_list (reads_ptr (form_container ram) obj_fits_null)))
  fld form_conditions
  fld (reads_list (reads_ptr (form_volume ram) obj_fits_null))
  fld form_workspace
  exact .nil

theorem deploy_keeps {α : Type} (get : Cron → α) (h : ∀ s v, get { s with deployTarget := v } = get s) (n : Node) (s : Cron) :
    get (nested (fun s => { s with deployTarget := "" }) cronDeployField n s).1 = get s := by
  refine nested_keeps (fun k g hg n s => ?_) (fun s => h s _) n s
  have := row_lookup hg
  simp only [List.mem_singleton, Prod.mk.injEq] at this
  rw [this.2]
  exact h _ _

theorem spec_keeps {α : Type} (get : Cron → α) (h1 : ∀ s v, get { s with schedule := v } = get s)
    (h2 : ∀ s v, get { s with branch := v } = get s) (h3 : ∀ s v, get { s with deployTarget := v } = get s) (n : Node) (s : Cron) :
    get (nested (fun s => { s with schedule := "", branch := "", deployTarget := "" }) cronSpecField n s).1 = get s := by
  refine nested_keeps (fun k g hg n s => ?_) (fun s => ?_) n s
  · have := row_lookup hg
    simp only [List.mem_cons, List.not_mem_nil, or_false, Prod.mk.injEq] at this
    rcases this with ⟨_, rfl⟩ | ⟨_, rfl⟩ | ⟨_, rfl⟩
    · exact h1 _ _
    · exact h2 _ _
    · exact deploy_keeps get h3 n s
  · exact ((h3 { s with schedule := "", branch := "" } "").trans (h2 { s with schedule := "" } "")).trans (h1 s "")

local macro "fldc" t:term : tactic =>
  `(tactic| refine .cons (.field $t (fun _ _ => rfl) (by
    repeat refine List.forall_mem_cons.mpr ⟨by first | exact fun h => absurd rfl h | exact fun _ _ _ => rfl |
      exact fun _ n s => spec_keeps _ (fun _ _ => rfl) (fun _ _ => rfl) (fun _ _ => rfl) n s |
      exact fun _ n s => deploy_keeps _ (fun _ _ => rfl) n s, ?_⟩
    exact List.forall_mem_nil _)) ?_)

theorem form_cron : Faithful {} (decStruct {} cronField) cronForm := by
  refine reads_obj (by simp only [List.map]; decide +kernel) ?_
  iterate 4 (fldc reads_str)
  refine .cons (.group (by simp only [List.map]; decide +kernel) ?_ (fun s => ?_) ?_) .nil
  · iterate 2 (fldc reads_str)
    refine .cons (.group (by simp only [List.map]; decide +kernel) ?_ (fun s => ?_) ?_) .nil
    · fld reads_str
      exact .nil
    · simp [line]
    · simp [line, field]
  · simp [line, group]
  · simp [line, group, field]

theorem form_secretGet : Faithful {} decSecretGet secretGetForm := by
  refine reads_obj (by simp only [List.map]; decide +kernel) ?_
  iterate 3 (fld reads_str)
  exact .nil

theorem form_secret : Faithful {} (decStruct {} secretField) secretForm := by
  refine reads_obj (by simp only [List.map]; decide +kernel) ?_
  iterate 5 (fld reads_str)
  fld form_secretGet
  exact .nil

theorem form_registry : Faithful {} (decStruct {} registryField) registryForm := by
  refine reads_obj (by simp only [List.map]; decide +kernel) ?_
  iterate 3 (fld reads_str)
  fld (reads_map reads_str)
  exact .nil

theorem form_signature : Faithful {} (decStruct {} signatureField) signatureForm := by
  refine reads_obj (by simp only [List.map]; decide +kernel) ?_
  iterate 3 (fld reads_str)
  exact .nil

/-! ### The tree determines the value -/

/-- At most one value is described. -/
structure Clear {α : Type} (e : Form α) : Prop where
  null : e.once .null
  one : ∀ t v w, e.once t → e.tells t v → e.tells t w → v = w

/-- At most one thing is said about the record. -/
structure LineClear {σ : Type} (l : Line σ) : Prop where
  null : l.once .null
  one : ∀ t s s', l.once t → l.tells t s → l.tells t s' → l.same s s'

theorem clear_str : Clear Form.str :=
  ⟨trivial, fun t v w _ h1 h2 => Option.some.inj (Eq.trans (Eq.symm h1) h2)⟩

theorem clear_bool : Clear Form.bool :=
  ⟨trivial, fun t v w _ h1 h2 => by
    have := ((C108_bool t false).1 v h1).symm.trans ((C108_bool t false).1 w h2)
    exact congrArg Res.val this⟩

theorem clear_int : Clear Form.int :=
  ⟨trivial, fun t v w _ h1 h2 => by
    have := ((C108_int t 0).1 v h1).symm.trans ((C108_int t 0).1 w h2)
    exact congrArg Res.val this⟩

theorem clear_float : Clear Form.float :=
  ⟨trivial, fun t v w _ h1 h2 => by
    have := ((C108_float t 0).1 v h1).symm.trans ((C108_float t 0).1 w h2)
    exact congrArg Res.val this⟩

theorem clear_size (ram : String → Option Int) : Clear (Form.size ram) :=
  ⟨trivial, fun t v w _ h1 h2 => by
    have := ((C108_size ram t 0).1 v h1).symm.trans ((C108_size ram t 0).1 w h2)
    exact congrArg Res.val this⟩

theorem means_one (t : Node) : ∀ v w, Form.Means t v → Form.Means t w → v = w := by
  match t with
  | .null => intro v w h1 h2; cases h1; cases h2; rfl
  | .scalar _ _ => intro v w h1 h2; cases h1 <;> cases h2 <;> rfl
  | .seq xs =>
    intro v w h1 h2
    cases h1 with
    | seq h1 =>
      cases h2 with
      | seq h2 => rw [Json.forall₂_one (fun x _ => means_one x) h1 h2]
  | .map kvs =>
    intro v w h1 h2
    cases h1 with
    | map h1 h1' =>
      cases h2 with
      | map h2 h2' =>
        rw [Json.forall₂_one (fun x hx => by
          obtain ⟨kv, hkv, rfl⟩ := List.mem_map.1 hx
          exact means_one kv.1) h1 h2, Json.forall₂_one (fun x hx => by
          obtain ⟨kv, hkv, rfl⟩ := List.mem_map.1 hx
          exact means_one kv.2) h1' h2']
termination_by sizeOf t
decreasing_by
  · rename_i hx; have := List.sizeOf_lt_of_mem hx; simp; omega
  · have := List.sizeOf_lt_of_mem hkv
    obtain ⟨a, b⟩ := kv
    simp only [Prod.mk.sizeOf_spec, Node.map.sizeOf_spec] at *
    omega
  · have := List.sizeOf_lt_of_mem hkv
    obtain ⟨a, b⟩ := kv
    simp only [Prod.mk.sizeOf_spec, Node.map.sizeOf_spec] at *
    omega

theorem clear_any : Clear Form.any := ⟨.null, fun t v w _ => means_one t v w⟩

theorem clear_list {α : Type} {e : Form α} (h : Clear e) : Clear (Form.list e) := by
  refine ⟨fun xs h => (by cases h), fun t v w ho h1 h2 => ?_⟩
  rcases h1 with ⟨rfl, rfl⟩ | ⟨xs, rfl, h1⟩
  · rcases h2 with ⟨_, rfl⟩ | ⟨xs, h, _⟩
    · rfl
    · cases h
  · rcases h2 with ⟨h, _⟩ | ⟨ys, e, h2⟩
    · cases h
    · cases e
      exact Json.forall₂_one (fun x hx a b => h.one x a b (ho xs rfl x hx)) h1 h2

theorem clear_map {α : Type} {e : Form α} (h : Clear e) : Clear (Form.map e) := by
  refine ⟨fun xs h => (by cases h), fun t v w ho h1 h2 => ?_⟩
  rcases h1 with ⟨rfl, rfl⟩ | ⟨xs, rfl, h1⟩
  · rcases h2 with ⟨_, rfl⟩ | ⟨xs, h, _⟩
    · rfl
    · cases h
  · rcases h2 with ⟨h, _⟩ | ⟨ys, e, h2⟩
    · cases h
    · cases e
      exact Json.forall₂_one (fun x hx a b ha hb => Prod.ext (Option.some.inj (ha.1.symm.trans hb.1))
        (h.one x.2 _ _ ((ho xs rfl).2 x hx) ha.2 hb.2)) h1 h2

theorem clear_ptr {α : Type} {e : Form α} (h : Clear e) : Clear (Form.ptr e) := by
  refine ⟨h.null, fun t v w ho h1 h2 => ?_⟩
  rcases h1 with ⟨rfl, rfl⟩ | ⟨hn, x, rfl, h1⟩ <;> rcases h2 with ⟨e1, rfl⟩ | ⟨hn', y, rfl, h2⟩
  · rfl
  · exact absurd rfl hn'
  · exact absurd e1 hn
  · rw [h.one t x y ho h1 h2]

theorem clear_short {α : Type} {e : Form α} {of : String → α} (h : Clear e) : Clear (Form.short of e) := by
  refine ⟨h.null, fun t v w ho h1 h2 => ?_⟩
  rcases h1 with ⟨a, r, rfl, rfl⟩ | ⟨h3, h1⟩ <;> rcases h2 with ⟨a', r', e1, rfl⟩ | ⟨h4, h2⟩
  · cases e1; rfl
  · exact absurd rfl (h4 a r)
  · exact absurd e1 (h3 a' r')
  · exact h.one t v w ho h1 h2

theorem gives_one {kvs : List (Node × Node)} {name : String} {u u' : Node}
    (hp : kvs.Pairwise fun a b => ¬ (textOf a.1 = some name ∧ textOf b.1 = some name))
    (hu : Gives kvs name u) (hu' : Gives kvs name u') : u = u' := by
  rcases hu with ⟨k, hm, hk⟩ | ⟨rfl, hu⟩ <;> rcases hu' with ⟨k', hm', hk'⟩ | ⟨rfl, hu'⟩
  · by_contra hne
    have hsym : Std.Symm (fun a b : Node × Node => ¬ (textOf a.1 = some name ∧ textOf b.1 = some name)) :=
      ⟨fun _ _ h hc => h ⟨hc.2, hc.1⟩⟩
    exact hp.forall hm hm' (fun hc => hne (congrArg Prod.snd hc)) ⟨hk, hk'⟩
  · exact absurd hk (hu' _ hm)
  · exact absurd hk' (hu _ hm')
  · rfl

theorem obj_same {σ : Type} {ls : List (Line σ)} (hl : ∀ l ∈ ls, LineClear l) (t : Node) (s s' : σ)
    (ho : (Form.obj ls).once t) (h1 : (Form.obj ls).tells t s) (h2 : (Form.obj ls).tells t s') : ∀ l ∈ ls, l.same s s' := by
  obtain ⟨kvs, h3, h1⟩ := h1
  obtain ⟨kvs', h3', h2⟩ := h2
  obtain rfl : kvs = kvs' := by
    rcases h3 with rfl | ⟨rfl, rfl⟩ <;> rcases h3' with e | ⟨e, rfl⟩ <;> first | rfl | cases e; rfl | cases e
  have ho : (∀ l ∈ ls, kvs.Pairwise fun a b => ¬ (textOf a.1 = some l.name ∧ textOf b.1 = some l.name)) ∧
      ∀ kv ∈ kvs, ∀ l ∈ ls, textOf kv.1 = some l.name → l.once kv.2 := by
    rcases h3 with rfl | ⟨rfl, rfl⟩
    · exact ho kvs rfl
    · simp
  intro l hm
  obtain ⟨u, hu, t1⟩ := h1 l hm
  obtain ⟨u', hu', t2⟩ := h2 l hm
  obtain rfl := gives_one (ho.1 l hm) hu hu'
  refine (hl l hm).one u s s' ?_ t1 t2
  rcases hu with ⟨k, hk, e⟩ | ⟨rfl, _⟩
  · exact ho.2 _ hk l hm e
  · exact (hl l hm).null

theorem obj_once_null {σ : Type} {ls : List (Line σ)} : (Form.obj ls).once .null := fun kvs h => (by cases h)

theorem clear_obj {σ : Type} {ls : List (Line σ)} (hl : ∀ l ∈ ls, LineClear l)
    (he : ∀ s s' : σ, (∀ l ∈ ls, l.same s s') → s = s') : Clear (Form.obj ls) :=
  ⟨obj_once_null, fun t s s' ho h1 h2 => he s s' (obj_same hl t s s' ho h1 h2)⟩

theorem LineClear.line {σ α : Type} {n : String} {get : σ → α} {e : Form α} (h : Clear e) : LineClear (line n get e) :=
  ⟨h.null, fun t s s' => h.one t _ _⟩

theorem LineClear.group {σ : Type} {n : String} {ls : List (Line σ)} (h : ∀ l ∈ ls, LineClear l) : LineClear (group n ls) :=
  ⟨obj_once_null, fun t s s' => obj_same h t s s'⟩

theorem clear_condition : Clear conditionForm := by
  refine ⟨fun kvs h => (by cases h), fun n v w ho h1 h2 => ?_⟩
  cases n with
  | null =>
    rcases h1 with ⟨_, rfl⟩ | ⟨_, _, h, _⟩ | ⟨_, h, _⟩ | ⟨_, _, _, h, _⟩ <;>
      rcases h2 with ⟨_, rfl⟩ | ⟨_, _, h', _⟩ | ⟨_, h', _⟩ | ⟨_, _, _, h', _⟩ <;> first | rfl | cases h | cases h'
  | scalar t r =>
    rcases h1 with ⟨h, rfl⟩ | ⟨_, _, h, rfl⟩ | ⟨_, h, _⟩ | ⟨_, _, _, h, _⟩ <;>
      rcases h2 with ⟨h', rfl⟩ | ⟨_, _, h', rfl⟩ | ⟨_, h', _⟩ | ⟨_, _, _, h', _⟩ <;> cases h <;> cases h' <;> rfl
  | seq xs =>
    rcases h1 with ⟨h, rfl⟩ | ⟨_, _, h, rfl⟩ | ⟨_, h, rfl⟩ | ⟨_, _, _, h, _⟩ <;>
      rcases h2 with ⟨h', rfl⟩ | ⟨_, _, h', rfl⟩ | ⟨_, h', rfl⟩ | ⟨_, _, _, h', _⟩ <;> cases h <;> cases h' <;> rfl
  | map kvs =>
    rcases h1 with ⟨h, rfl⟩ | ⟨_, _, h, rfl⟩ | ⟨_, h, rfl⟩ | ⟨_, i, e, h, h3, h4, rfl⟩ <;>
      rcases h2 with ⟨h', rfl⟩ | ⟨_, _, h', rfl⟩ | ⟨_, h', rfl⟩ | ⟨_, i', e', h', h5, h6, rfl⟩ <;> cases h <;> cases h'
    rw [gives_one (ho kvs rfl "include" (by simp)) h3 h5, gives_one (ho kvs rfl "exclude" (by simp)) h4 h6]

theorem clear_parameter : Clear parameterForm := by
  refine ⟨.inr .null, fun n v w ho h1 h2 => ?_⟩
  rcases h1 with ⟨s, h, rfl⟩ | ⟨h, a, h3, rfl⟩ <;> rcases h2 with ⟨s', h', rfl⟩ | ⟨h', b, h4, rfl⟩
  · rw [← ((names_secret n s).1 h).2.1, ((names_secret n s').1 h').2.1]
  · exact absurd h (h' s)
  · exact absurd h' (h s')
  · rw [means_one n a b h3 h4]

local macro "lines" : tactic => `(tactic| (
  simp only [List.forall_mem_cons, List.not_mem_nil, false_implies, implies_true, and_true]
  repeat' apply And.intro))
local macro "agree" : tactic => `(tactic| (
  intro s s' h
  simp only [line, List.forall_mem_cons, List.not_mem_nil, false_implies, implies_true, and_true] at h
  cases s
  cases s'
  simp_all))

theorem clear_conditions : Clear conditionsForm := by
  refine clear_obj ?_ ?_
  · lines
    · exact .line clear_condition
    · exact .line clear_condition
    · exact .line clear_condition
    · exact .line clear_condition
    · exact .line clear_condition
    · exact .line clear_condition
    · exact .line clear_condition
    · exact .line clear_condition
    · exact .line clear_condition
    · exact .line clear_condition
    · exact .line (clear_map clear_str)
  · agree

theorem clear_variable : Clear variableForm := by
  refine clear_short (clear_obj ?_ ?_)
  · lines
    · exact .line clear_str
    · exact .line clear_str
  · agree

theorem clear_build : Clear buildForm := by
  refine clear_short (clear_obj ?_ ?_)
  · lines
    · exact .line (clear_map clear_str)
    · exact .line (clear_list clear_str)
    · exact .line clear_str
    · exact .line clear_str
    · exact .line clear_str
    · exact .line (clear_map clear_str)
  · agree

theorem clear_push : Clear pushForm := by
  refine clear_short (clear_obj ?_ ?_)
  · lines
    exact .line clear_str
  · agree

theorem clear_portLong : Clear portLongForm := by
  refine clear_obj ?_ ?_
  · lines
    · exact .line clear_int
    · exact .line clear_int
    · exact .line clear_str
  · agree

theorem clear_port : Clear portForm := by
  refine ⟨obj_once_null, fun n v w ho h1 h2 => ?_⟩
  rcases h1 with ⟨i, h, rfl⟩ | ⟨h, h3⟩ <;> rcases h2 with ⟨i', h', rfl⟩ | ⟨h', h4⟩
  · rw [clear_int.one n i i' trivial h h']
  · exact absurd h (h' i)
  · exact absurd h' (h i')
  · exact clear_portLong.one n v w ho h3 h4

theorem clear_resourceObject (ram : String → Option Int) : Clear (resourceObjectForm ram) := by
  refine clear_obj ?_ ?_
  · lines
    · exact .line clear_float
    · exact .line (clear_size ram)
  · agree

theorem clear_resources (ram : String → Option Int) : Clear (resourcesForm ram) := by
  refine clear_obj ?_ ?_
  · lines
    · exact .line (clear_ptr (clear_resourceObject ram))
    · exact .line (clear_ptr (clear_resourceObject ram))
  · agree

theorem clear_volumeDevice : Clear volumeDeviceForm := by
  refine clear_obj ?_ ?_
  · lines
    · exact .line clear_str
    · exact .line clear_str
  · agree

theorem clear_volumeMount : Clear volumeMountForm := by
  refine clear_obj ?_ ?_
  · lines
    · exact .line clear_str
    · exact .line clear_str
  · agree

theorem clear_emptyDir (ram : String → Option Int) : Clear (volumeEmptyDirForm ram) := by
  refine clear_obj ?_ ?_
  · lines
    · exact .line clear_str
    · exact .line (clear_size ram)
  · agree

theorem clear_hostPath : Clear volumeHostPathForm := by
  refine clear_obj ?_ ?_
  · lines
    exact .line clear_str
  · agree

theorem clear_volume (ram : String → Option Int) : Clear (volumeForm ram) := by
  refine clear_obj ?_ ?_
  · lines
    · exact .line clear_str
    · exact .line (clear_ptr (clear_emptyDir ram))
    · exact .line (clear_ptr clear_hostPath)
  · agree

theorem clear_container (ram : String → Option Int) : Clear (containerForm ram) := by
  refine clear_obj ?_ ?_
  · lines
    · exact .line (clear_ptr clear_build)
    · exact .line (clear_list clear_str)
    · exact .line (clear_list clear_str)
    · exact .line clear_bool
    · exact .line (clear_list clear_str)
    · exact .line (clear_list (clear_ptr clear_volumeDevice))
    · exact .line (clear_list clear_str)
    · exact .line (clear_list clear_str)
    · exact .line (clear_list clear_str)
    · exact .line (clear_map (clear_ptr clear_variable))
    · exact .line (clear_list clear_str)
    · exact .line clear_str
    · exact .line clear_str
    · exact .line clear_str
    · exact .line clear_str
    · exact .line (clear_list (clear_ptr clear_port))
    · exact .line clear_bool
    · exact .line clear_str
    · exact .line (clear_ptr clear_push)
    · exact .line (clear_ptr (clear_resources ram))
    · exact .line (clear_map (clear_ptr clear_parameter))
    · exact .line clear_str
    · exact .line clear_str
    · exact .line (clear_list (clear_ptr clear_volumeMount))
    · exact .line clear_conditions
    · exact .line clear_str
  · agree

theorem clear_clone : Clear cloneForm := by
  refine clear_obj ?_ ?_
  · lines
    · exact .line clear_bool
    · exact .line clear_int
    · exact .line clear_bool
  · agree

theorem clear_concurrency : Clear concurrencyForm := by
  refine clear_obj ?_ ?_
  · lines
    exact .line clear_int
  · agree

theorem clear_platform : Clear platformForm := by
  refine clear_obj ?_ ?_
  · lines
    · exact .line clear_str
    · exact .line clear_str
    · exact .line clear_str
    · exact .line clear_str
  · agree

theorem clear_workspace : Clear workspaceForm := by
  refine clear_obj ?_ ?_
  · lines
    · exact .line clear_str
    · exact .line clear_str
  · agree

theorem clear_pipeline (ram : String → Option Int) : Clear (pipelineForm ram) := by
  refine clear_obj ?_ ?_
  · lines
    · exact .line clear_str
    · exact .line clear_str
    · exact .line clear_str
    · exact .line clear_str
    · exact .line clear_clone
    · exact .line clear_concurrency
    · exact .line (clear_list clear_str)
    · exact .line (clear_map clear_str)
    · exact .line clear_platform
    · exact .line (clear_list clear_str)
    · exact .line (clear_list (clear_ptr (clear_container ram)))
    · exact .line (clear_list (clear_ptr (clear_container ram)))
    · exact .line clear_conditions
    · exact .line (clear_list (clear_ptr (clear_volume ram)))
    · exact .line clear_workspace
  · agree

theorem clear_cron : Clear cronForm := by
  refine clear_obj ?_ ?_
  · lines
    iterate 4 (exact .line clear_str)
    refine .group ?_
    lines
    · exact .line clear_str
    · exact .line clear_str
    · refine .group ?_
      lines
      exact .line clear_str
  · intro s s' h
    simp only [line, group, List.forall_mem_cons, List.not_mem_nil, false_implies, implies_true, and_true] at h
    cases s
    cases s'
    simp_all

theorem clear_secretGet : Clear secretGetForm := by
  refine clear_obj ?_ ?_
  · lines
    · exact .line clear_str
    · exact .line clear_str
    · exact .line clear_str
  · agree

theorem clear_secret : Clear secretForm := by
  refine clear_obj ?_ ?_
  · lines
    · exact .line clear_str
    · exact .line clear_str
    · exact .line clear_str
    · exact .line clear_str
    · exact .line clear_str
    · exact .line clear_secretGet
  · agree

theorem clear_registry : Clear registryForm := by
  refine clear_obj ?_ ?_
  · lines
    · exact .line clear_str
    · exact .line clear_str
    · exact .line clear_str
    · exact .line (clear_map clear_str)
  · agree

theorem clear_signature : Clear signatureForm := by
  refine clear_obj ?_ ?_
  · lines
    · exact .line clear_str
    · exact .line clear_str
    · exact .line clear_str
  · agree

/-! ### The kind and the resource -/

theorem form_header : Faithful {} (decStruct {} headerField) (Form.obj
    [line "version" Header.version Form.str, line "kind" Header.kind Form.str, line "type" Header.type Form.str]) := by
  refine reads_obj (by simp only [List.map]; decide +kernel) ?_
  iterate 3 (fld reads_str)
  exact .nil

theorem doc_fits {α : Type} {zero : α} {f : String → Option (Field α)} {e : Form α} (h : Faithful zero (decStruct zero f) e)
    (n : Node) : (∃ v, unmarshalDoc zero f n = .ok v) ↔ e.fits n := by
  rw [← h.ok n zero]
  unfold unmarshalDoc
  by_cases hd : (decStruct zero f n zero).err = true
  · simp [hd]
  · simp [hd]

theorem doc_val {α : Type} {zero v : α} {f : String → Option (Field α)} {n : Node} (h : unmarshalDoc zero f n = .ok v) :
    v = (decStruct zero f n zero).val := by
  unfold unmarshalDoc at h
  by_cases hd : (decStruct zero f n zero).err = true
  · simp [hd] at h
  · simp only [hd, Bool.false_eq_true, if_false, Except.ok.injEq] at h
    exact h.symm

theorem doc_read {α : Type} {zero v : α} {f : String → Option (Field α)} {e : Form α}
    (h : Faithful zero (decStruct zero f) e) (n : Node) (hv : unmarshalDoc zero f n = .ok v) (ho : e.once n) : e.tells n v := by
  rw [doc_val hv]
  exact h.read n ((doc_fits h n).1 ⟨v, hv⟩) ho

theorem header_fits (n : Node) : (∃ h, unmarshalDoc {} headerField n = .ok h) ↔ docHeader n := by
  rw [doc_fits form_header]
  simp only [Form.obj, docHeader, line, Form.str, List.forall_mem_cons, List.not_mem_nil, false_implies, implies_true,
    and_true, Option.isSome_iff_exists]
  refine or_congr_right (exists_congr fun kvs => and_congr_right fun _ => forall_congr' fun kv => forall_congr' fun _ =>
    exists_congr fun k => and_congr_right fun _ => ?_)
  constructor
  · rintro ⟨h1, h2, h3⟩ hk
    simp only [List.mem_cons, List.not_mem_nil, or_false] at hk
    rcases hk with rfl | rfl | rfl
    · exact h1 rfl
    · exact h2 rfl
    · exact h3 rfl
  · exact fun h => ⟨fun e => h (by simp [← e]), fun e => h (by simp [← e]), fun e => h (by simp [← e])⟩

/-- The kind of a tree with a header that fits -/
theorem kind_fill {kvs : List (Node × Node)} (h : docHeader (.map kvs)) :
    DocKind (.map kvs) (Spec.fill decString "" (valuesOf kvs "kind")) := by
  have ht : ∀ v ∈ valuesOf kvs "kind", (textOf v).isSome := by
    intro v hv
    obtain ⟨kk, hm, hk⟩ := mem_valuesOf.1 hv
    rcases h with h | ⟨kvs', h, h1⟩
    · cases h
    · cases h
      obtain ⟨k, e1, h2⟩ := h1 _ hm
      rw [hk] at e1
      cases e1
      exact h2 (by simp)
  rcases fill_texts "" _ ht with ⟨h1, h2⟩ | ⟨v, h1, h2⟩
  · rw [h2]; exact .missing h1
  · exact .last h1 h2

theorem docKind_one {n : Node} {k k' : String} (h : DocKind n k) (h' : DocKind n k') : k = k' := by
  cases h with
  | null => cases h'; rfl
  | missing h1 =>
    cases h' with
    | missing => rfl
    | last h2 => rw [h1] at h2; cases h2
  | last h1 h2 =>
    cases h' with
    | missing h3 => rw [h3] at h1; cases h1
    | last h3 h4 =>
      rw [h1] at h3
      cases h3
      rw [h2] at h4
      exact Option.some.inj h4

/-- Reading a struct with a field for the kind gives it. -/
theorem kind_read {σ : Type} {zero : σ} {f : String → Option (Field σ)} {get : σ → String}
    (hf : Fills f "kind" get decString) (h0 : get zero = "") (n : Node) (h : docHeader n) :
    DocKind n (get (decStruct zero f n zero).val) := by
  rcases h with rfl | ⟨kvs, rfl, h⟩
  · show DocKind .null (get zero)
    rw [h0]; exact .null
  · show DocKind _ (get (decFields f kvs zero).val)
    rw [fills_val hf, h0]
    exact kind_fill (.inr ⟨kvs, rfl, h⟩)

theorem header_kind (n : Node) (h : Header) (hh : unmarshalDoc {} headerField n = .ok h) : DocKind n h.kind := by
  rw [doc_val hh]
  exact kind_read (get := Header.kind) (fills_table ⟨_, rfl, fun _ _ => rfl⟩ (by others)) rfl n
    ((header_fits n).1 ⟨h, hh⟩)

theorem read_fits (ram : String → Option Int) (ty : ResType) (n : Node) :
    (∃ r, unmarshalResource ram ty n = .ok r) ↔ docFits ram ty n := by
  have key : ∀ {α β : Type} {x : Except String α} {f : α → β}, (∃ r, x.map f = .ok r) ↔ ∃ r, x = .ok r := by
    intro α β x f
    cases x <;> simp [Except.map]
  cases ty with
  | cron => exact key.trans (doc_fits form_cron n)
  | secret => exact key.trans (doc_fits form_secret n)
  | signature => exact key.trans (doc_fits form_signature n)
  | registry => exact key.trans (doc_fits form_registry n)
  | pipeline => exact key.trans (doc_fits (form_pipeline ram) n)

theorem read_tells (ram : String → Option Int) (ty : ResType) (n : Node) (r : Resource)
    (h : unmarshalResource ram ty n = .ok r) (ho : docOnce ram ty n) : docTells ram n r := by
  cases ty with
  | cron => obtain ⟨a, h1, rfl⟩ := map_ok h; exact doc_read form_cron n h1 ho
  | secret => obtain ⟨a, h1, rfl⟩ := map_ok h; exact doc_read form_secret n h1 ho
  | signature => obtain ⟨a, h1, rfl⟩ := map_ok h; exact doc_read form_signature n h1 ho
  | registry => obtain ⟨a, h1, rfl⟩ := map_ok h; exact doc_read form_registry n h1 ho
  | pipeline => obtain ⟨a, h1, rfl⟩ := map_ok h; exact doc_read (form_pipeline ram) n h1 ho

theorem read_type (ram : String → Option Int) (ty : ResType) (n : Node) (r : Resource)
    (h : unmarshalResource ram ty n = .ok r) : r.resType = ty := by
  cases ty <;> (obtain ⟨a, h1, rfl⟩ := map_ok h; rfl)

theorem read_kind (ram : String → Option Int) (ty : ResType) (n : Node) (r : Resource) (hh : docHeader n)
    (h : unmarshalResource ram ty n = .ok r) : DocKind n r.getKind := by
  cases ty with
  | cron =>
    obtain ⟨a, h1, rfl⟩ := map_ok h
    rw [doc_val h1]
    refine kind_read (get := Cron.kind) (fills_table ⟨_, rfl, fun _ _ => rfl⟩ ?_) rfl n hh
    repeat refine List.forall_mem_cons.mpr ⟨by first | exact fun h => absurd rfl h | exact fun _ _ _ => rfl |
      exact fun _ n s => spec_keeps _ (fun _ _ => rfl) (fun _ _ => rfl) (fun _ _ => rfl) n s, ?_⟩
    exact List.forall_mem_nil _
  | secret =>
    obtain ⟨a, h1, rfl⟩ := map_ok h
    rw [doc_val h1]
    exact kind_read (get := Secret.kind) (fills_table ⟨_, rfl, fun _ _ => rfl⟩ (by others)) rfl n hh
  | signature =>
    obtain ⟨a, h1, rfl⟩ := map_ok h
    rw [doc_val h1]
    exact kind_read (get := Signature.kind) (fills_table ⟨_, rfl, fun _ _ => rfl⟩ (by others)) rfl n hh
  | registry =>
    obtain ⟨a, h1, rfl⟩ := map_ok h
    rw [doc_val h1]
    exact kind_read (get := Registry.kind) (fills_table ⟨_, rfl, fun _ _ => rfl⟩ (by others)) rfl n hh
  | pipeline =>
    obtain ⟨a, h1, rfl⟩ := map_ok h
    rw [doc_val h1]
    exact kind_read (get := Pipeline.kind) (fills_table ⟨_, rfl, fun _ _ => rfl⟩ (by others)) rfl n hh

/-- A document is read as a resource. -/
theorem document_iff (ram : String → Option Int) (tree : Bytes → Except String Node) (d : Bytes) (r : Resource) :
    (∃ hd t, (treeLib ram tree).header d = .ok hd ∧ KindType hd.kind t ∧ (treeLib ram tree).resource t d = .ok r ∧
      r.getKind ≠ "") ↔
    ∃ n k ty, tree d = .ok n ∧ docHeader n ∧ DocKind n k ∧ k ≠ "" ∧ KindType k ty ∧ unmarshalResource ram ty n = .ok r := by
  simp only [treeLib]
  cases tree d with
  | error e => simp [Except.bind]
  | ok n =>
    simp only [Except.bind, Except.ok.injEq]
    constructor
    · rintro ⟨hd, t, h1, h2, h3, h4⟩
      have hh := (header_fits n).1 ⟨hd, h1⟩
      have hk := header_kind n hd h1
      have := docKind_one hk (read_kind ram t n r hh h3)
      exact ⟨n, hd.kind, t, rfl, hh, hk, this ▸ h4, h2, h3⟩
    · rintro ⟨n', k, ty, rfl, hh, hk, h4, h2, h3⟩
      obtain ⟨hd, h1⟩ := (header_fits n).2 hh
      have e1 := docKind_one hk (header_kind n hd h1)
      have e2 := docKind_one hk (read_kind ram ty n r hh h3)
      exact ⟨hd, ty, h1, e1 ▸ h2, h3, e2 ▸ h4⟩

end Yaml

open Yaml in
/-- C114.  A stream is read exactly if each of its documents is a map, no key of it is a list or map,
its last `kind` is a text that is not empty, and under every key that the resource for this kind has
there is what the table allows. -/
theorem C114_accepted_iff (ram : String → Option Int) (tree : Bytes → Except String Yaml.Node) (data : Bytes) :
    (∃ m, parseBytes (treeLib ram tree) data = .ok m) ↔
      ∀ d ∈ splitDocs data, ∃ n k ty, tree d = .ok n ∧ docHeader n ∧ DocKind n k ∧ k ≠ "" ∧ KindType k ty ∧
        docFits ram ty n := by
  simp only [C03_parse_all_or_nothing, document_iff]
  constructor
  · rintro ⟨m, h⟩ d hd
    obtain ⟨r, _, n, k, ty, h1, h2, h3, h4, h5, h6⟩ := Json.forall₂_left h hd
    exact ⟨n, k, ty, h1, h2, h3, h4, h5, (read_fits ram ty n).1 ⟨r, h6⟩⟩
  · intro h
    have key : ∀ ds : List Bytes, (∀ d ∈ ds, ∃ n k ty, tree d = .ok n ∧ docHeader n ∧ DocKind n k ∧ k ≠ "" ∧ KindType k ty ∧
        docFits ram ty n) → ∃ rs, List.Forall₂ (fun d r => ∃ n k ty, tree d = .ok n ∧ docHeader n ∧ DocKind n k ∧ k ≠ "" ∧
          KindType k ty ∧ unmarshalResource ram ty n = .ok r) ds rs := by
      intro ds
      induction ds with
      | nil => exact fun _ => ⟨[], .nil⟩
      | cons d ds ih =>
        intro h
        rw [List.forall_mem_cons] at h
        obtain ⟨rs, hr⟩ := ih h.2
        obtain ⟨n, k, ty, h1, h2, h3, h4, h5, h6⟩ := h.1
        obtain ⟨r, h7⟩ := (read_fits ram ty n).2 h6
        exact ⟨r :: rs, .cons ⟨n, k, ty, h1, h2, h3, h4, h5, h7⟩ hr⟩
    obtain ⟨rs, hr⟩ := key _ h
    exact ⟨⟨rs⟩, hr⟩

open Yaml in
/-- C114.  What is read is what the documents say, key by key, if no key is given twice in one map;
the resource is of the type that the kind stands for, one for each document and in their order. -/
theorem C114_read (ram : String → Option Int) (tree : Bytes → Except String Yaml.Node) (data : Bytes) (m : Manifest)
    (h : parseBytes (treeLib ram tree) data = .ok m)
    (ho : ∀ d ∈ splitDocs data, ∀ n k ty, tree d = .ok n → DocKind n k → KindType k ty → docOnce ram ty n) :
    List.Forall₂ (fun d r => ∃ n, tree d = .ok n ∧ docTells ram n r ∧ DocKind n r.getKind ∧ KindType r.getKind r.resType)
      (splitDocs data) m.resources := by
  simp only [C03_parse_all_or_nothing, document_iff] at h
  generalize splitDocs data = ds at h ho
  generalize m.resources = rs at h
  induction h with
  | nil => exact .nil
  | cons h1 _ ih =>
    rw [List.forall_mem_cons] at ho
    obtain ⟨n, k, ty, h2, h3, h4, h5, h6, h7⟩ := h1
    have hk := read_kind ram ty n _ h3 h7
    have e := docKind_one h4 hk
    exact .cons ⟨n, h2, read_tells ram ty n _ h7 (ho.1 n k ty h2 h4 h6), hk, by
      rw [read_type ram ty n _ h7, ← e]; exact h6⟩ (ih ho.2)

open Yaml in
/-- C114.  A tree in which no key is given twice in one map describes at most one resource of a type. -/
theorem C114_determined (ram : String → Option Int) (n : Yaml.Node) (r r' : Resource) (he : r.resType = r'.resType)
    (ho : docOnce ram r.resType n) (h : docTells ram n r) (h' : docTells ram n r') : r = r' := by
  cases r <;> cases r' <;> first | cases he | skip
  · rw [clear_cron.one n _ _ ho h h']
  · rw [clear_secret.one n _ _ ho h h']
  · rw [clear_signature.one n _ _ ho h h']
  · rw [clear_registry.one n _ _ ho h h']
  · rw [(clear_pipeline ram).one n _ _ ho h h']

/-! ### Cases -/

section
open Yaml

/-- A pipeline with short forms, an unknown key and nulls. -/
def exYamlDoc : Yaml.Node := .map [(key "kind", key "pipeline"), (key "color", .seq []), (key "name", .null),
  (key "clone", .map [(key "depth", .scalar "50" (.int 50))]),
  (key "trigger", .map [(key "branch", key "main"), (key "event", .map [(key "exclude", .seq [key "tag", .seq []])])]),
  (key "steps", .seq [.null, .map [(key "image", key "go"), (key "commands", .seq [key "go test", .null, .scalar "1" (.int 1)]),
    (key "ports", .seq [.scalar "80" (.int 80), .map [(key "port", .scalar "1" (.int 1))]]),
    (key "settings", .map [(key "n", .scalar "1" (.int 1)), (key "p", .map [(key "from_secret", key "s")])])]])]

theorem once_obj {σ : Type} {ls : List (Line σ)} {kvs : List (Yaml.Node × Yaml.Node)}
    (h1 : (kvs.map fun kv => textOf kv.1).Nodup)
    (h2 : ∀ kv ∈ kvs, ∀ l ∈ ls, textOf kv.1 = some l.name → l.once kv.2) : (Form.obj ls).once (.map kvs) := by
  intro kvs' h
  cases h
  refine ⟨fun l _ => ?_, h2⟩
  rw [List.Nodup, List.pairwise_map] at h1
  exact h1.imp fun hab ⟨h1, h2⟩ => hab (h1.trans h2.symm)

local macro "entries" : tactic => `(tactic| (
  refine once_obj (by decide +kernel) ?_
  repeat' refine List.forall_mem_cons.mpr ⟨?_, ?_⟩
  all_goals first
    | exact List.forall_mem_nil _
    | exact fun e => absurd e (by decide +kernel)
    | exact fun _ => trivial
    | skip))

theorem exYamlDoc_once : (pipelineForm fun _ => none).once exYamlDoc := by
  entries
  all_goals intro _
  · entries
  · entries
    · intro _ kvs h
      cases h
    · rintro _ kvs h
      cases h
      intro name hn
      simp
  · rintro xs h
    cases h
    refine List.forall_mem_cons.mpr ⟨obj_once_null, List.forall_mem_cons.mpr ⟨?_, List.forall_mem_nil _⟩⟩
    entries
    · rintro _ xs h
      cases h
      exact fun _ _ => trivial
    · rintro _ xs h
      cases h
      refine List.forall_mem_cons.mpr ⟨fun kvs h => (by cases h), List.forall_mem_cons.mpr ⟨?_, List.forall_mem_nil _⟩⟩
      show portLongForm.once _
      entries
    · rintro _ xs h
      cases h
      refine ⟨by decide +kernel, List.forall_mem_cons.mpr ⟨.inr .scalar, List.forall_mem_cons.mpr ⟨.inl ⟨"s", ?_⟩, List.forall_mem_nil _⟩⟩⟩
      exact ⟨_, rfl, by simp [key, textOf], by simp [valuesOf, key, textOf], by decide, key "s", rfl, rfl⟩

/-- The stream with this document is accepted, and this is read. -/
example : parseBytes (treeLib (fun _ => none) fun _ => .ok exYamlDoc) [97] =
    .ok ⟨[.pipeline
      { kind := "pipeline"
        clone := { depth := 50 }
        trigger := { branch := { incl := ["main"] }, event := { excl := ["tag"] } }
        steps := [none, some
          { image := "go"
            commands := ["go test", "", "1"]
            ports := [some { port := 80 }, some { port := 1 }]
            settings := [("n", some { value := .int 1 }), ("p", some { secret := "s" })] }] }]⟩ := rfl

/-- It meets the hypothesis of `C114_read`. -/
example : ∀ d ∈ splitDocs [97], ∀ n k ty, (fun _ : Bytes => (.ok exYamlDoc : Except String Yaml.Node)) d = .ok n →
    DocKind n k → KindType k ty → docOnce (fun _ => none) ty n := by
  intro d _ n k ty h1 h2 h3
  cases h1
  have hk : DocKind exYamlDoc "pipeline" := .last (v := key "pipeline") rfl rfl
  rw [docKind_one h2 hk] at h3
  have : ty = .pipeline := ((kindType_iff _ _).1 h3).symm.trans (by decide)
  rw [this]
  exact exYamlDoc_once

theorem not_parsed {Y : YamlLib} {b : Bytes} (h : (parseBytes Y b).toOption.isNone = true) : ¬ ∃ m, parseBytes Y b = .ok m :=
  fun ⟨m, e⟩ => by rw [e] at h; cases h

/-- A text as a number, a text as a list, a list as a map, a map as a text, a number as a Boolean, a list
as a key, no kind, an empty kind, and a type that is a list are refused. -/
example (n : Yaml.Node) (h : n ∈ [
      .map [(key "kind", key "pipeline"), (key "clone", .map [(key "depth", key "50")])],
      .map [(key "kind", key "pipeline"), (key "depends_on", key "a")],
      .map [(key "kind", key "pipeline"), (key "trigger", .seq [])],
      .map [(key "kind", key "pipeline"), (key "name", .map [])],
      .map [(key "kind", key "pipeline"), (key "clone", .map [(key "disable", .scalar "1" (.int 1))])],
      .map [(key "kind", key "pipeline"), (.seq [], .null)],
      .map [(key "name", key "a")], .map [(key "kind", .null)], .null, .seq [],
      .map [(key "kind", key "signature"), (key "type", .seq [])]]) :
    ¬ ∃ m, parseBytes (treeLib (fun _ => none) fun _ => .ok n) [97] = .ok m := by
  simp only [List.mem_cons, List.not_mem_nil, or_false] at h
  rcases h with rfl | rfl | rfl | rfl | rfl | rfl | rfl | rfl | rfl | rfl | rfl <;>
    (refine not_parsed ?_; decide +kernel)

end


end Drone
