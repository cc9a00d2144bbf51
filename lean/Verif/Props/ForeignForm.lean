/-
C115: which legacy, GitLab and Bitbucket files are read, and what is read from them.
-/
import Verif.Proof.ForeignForm
import Verif.Props.Crash

namespace Drone
open Spec

namespace Yaml

local macro "others" : tactic => `(tactic| (
  repeat refine List.forall_mem_cons.mpr ⟨by first | exact fun h => absurd rfl h | exact fun _ _ _ => rfl, ?_⟩
  exact List.forall_mem_nil _))
local macro "fld" t:term : tactic =>
  `(tactic| refine .cons (.field $t (fun _ _ => rfl) (by others)) ?_)
local macro "chk" t:term : tactic => `(tactic| refine .cons (.check $t) ?_)

/-! ### Small forms -/

theorem strings_ok (n : Node) (s : List String) : (decStrings n s).err = false ↔ (Form.list Form.str).fits n :=
  (reads_list reads_str).ok n s

theorem strings_tell (n : Node) (h : (Form.list Form.str).fits n) : (Form.list Form.str).tells n (decStrings n []).val := by
  refine (reads_list reads_str).read n h ?_
  intro xs _ x _
  trivial

theorem form_slice : Faithful [] decStringSlice sliceForm := by
  refine reads_custom (.inr (.inl rfl)) (.inr ⟨fun t r => by simp, .inl ⟨rfl, rfl⟩⟩) (fun n s hn => ?_) (fun n hn hf _ => ?_)
  · have h := strings_ok n []
    cases n with
    | null => exact absurd rfl hn
    | scalar t r => simp [unmarshalStringSlice, decString, sliceForm, Form.short]
    | _ =>
      rw [sliceForm]
      simp only [Form.short, ← h]
      simp only [unmarshalStringSlice, decString, mismatch]
      simp
      split <;> simp_all
  · cases n with
    | null => exact absurd rfl hn
    | scalar t r => exact .inl ⟨t, r, rfl, by simp [unmarshalStringSlice, decString]⟩
    | map kvs => rcases hf with ⟨_, _, h⟩ | h | ⟨_, h, _⟩ <;> cases h
    | seq xs =>
      have hf : (Form.list Form.str).fits (.seq xs) := hf.resolve_left (by simp)
      refine .inr ⟨by simp, ?_⟩
      have he := (strings_ok (.seq xs) []).2 hf
      have := strings_tell (.seq xs) hf
      simpa [unmarshalStringSlice, decString, mismatch, he] using this

theorem cut_eq {sep : Char} : ∀ {l a b : List Char}, cut sep l = some (a, b) → l = a ++ sep :: b ∧ sep ∉ a
  | [], _, _, h => by simp [cut] at h
  | c :: l, a, b, h => by
    rw [cut] at h
    by_cases hc : c = sep
    · rw [if_pos hc] at h
      cases h
      exact ⟨by rw [hc]; rfl, by simp⟩
    · rw [if_neg hc] at h
      obtain ⟨⟨a', b'⟩, e, h'⟩ := Option.map_eq_some_iff.1 h
      cases h'
      obtain ⟨e1, e2⟩ := cut_eq e
      refine ⟨by rw [e1]; rfl, ?_⟩
      simp only [List.mem_cons, not_or]
      exact ⟨fun hh => hc hh.symm, e2⟩

theorem cut_absent {sep : Char} {l : List Char} (h : cut sep l = none) : sep ∉ l := by
  intro hm
  induction l with
  | nil => simp at hm
  | cons c l ih =>
    rw [cut] at h
    by_cases hc : c = sep
    · rw [if_pos hc] at h; cases h
    · rw [if_neg hc, Option.map_eq_none_iff] at h
      rcases List.mem_cons.1 hm with e | hm
      · exact hc e.symm
      · exact ih h hm

theorem text_cut {s : String} {sep : Char} {a b : List Char} (h : s.toList = a ++ sep :: b) :
    s = String.ofList a ++ String.ofList [sep] ++ String.ofList b := by
  apply String.toList_inj.1
  simp [h]

theorem definitions_of (ts : List String) : ∃ m, Definitions ts m := by
  induction ts with
  | nil => exact ⟨[], .nil⟩
  | cons t ts ih =>
    obtain ⟨m, h⟩ := ih
    cases e : cut '=' t.toList with
    | none => exact ⟨m, .skip (cut_absent e) h⟩
    | some p =>
      obtain ⟨e1, e2⟩ := cut_eq (a := p.1) (b := p.2) e
      refine ⟨(String.ofList p.1, String.ofList p.2) :: m, ?_⟩
      rw [text_cut e1]
      exact .take (by simpa using e2) h

theorem definitions_entries {ts : List String} {d : GoMap String} (h : Definitions ts d) :
    ∀ m : GoMap String, (m ++ d).keys.Nodup → sliceEntries m ts = m ++ d := by
  induction h with
  | nil => intro m _; simp [sliceEntries]
  | skip h _ ih => intro m hm; rw [sliceEntries, cut_none h]; exact ih m hm
  | @take k v ts d h _ ih =>
    intro m hm
    have : cut '=' (k ++ "=" ++ v).toList = some (k.toList, v.toList) := by
      rw [String.toList_append, String.toList_append, List.append_assoc]
      exact cut_append _ h
    rw [sliceEntries, this]
    simp only [String.ofList_toList]
    have hk : k ∉ m.keys := by
      intro hc
      simp only [GoMap.keys, List.map_append, List.map_cons] at hm hc
      exact (List.nodup_append.1 hm).2.2 k hc k List.mem_cons_self rfl
    rw [set_new m k v hk, ih (m ++ [(k, v)]) (by simpa using hm)]
    simp

theorem form_sliceMap : Faithful [] (custom [] unmarshalSliceMap) sliceMapForm := by
  have hm := reads_map reads_str
  refine reads_custom (.inl (.inl rfl)) (.inl (.inl ⟨rfl, rfl⟩)) (fun n s hn => ?_) (fun n hn hf ho => ?_)
  · have h1 : (decStringMap n []).err = false ↔ _ := hm.ok n []
    have h2 := strings_ok n []
    simp only [sliceMapForm, ← h1, ← h2, unmarshalSliceMap]
    split
    · simp_all
    · split <;> simp_all
  · have h1 : (decStringMap n []).err = false ↔ _ := hm.ok n []
    have h2 := strings_ok n []
    by_cases hc : (decStringMap n []).err = false
    · have := hm.read n (h1.1 hc) ho.1
      simp only [unmarshalSliceMap, hc, if_true]
      exact .inl this
    · have hl := hf.resolve_left fun h => hc (h1.2 h)
      have ht := strings_tell n hl
      obtain ⟨d, hd⟩ := definitions_of (decStrings n []).val
      have hk := ho.2 _ d ht hd
      refine .inr ⟨_, ht, ?_⟩
      simp only [unmarshalSliceMap, hc, if_false, h2.2 hl, if_true]
      have he : (decStringMap n []).val = [] := by
        rcases hl with rfl | ⟨xs, rfl, _⟩
        · exact absurd rfl hn
        · rfl
      rw [he, definitions_entries hd [] (by simpa using hk)]
      exact hd

theorem form_legacyVolume : Faithful {} (custom {} unmarshalLegacyVolume) legacyVolumeForm := by
  refine reads_custom ⟨"", rfl⟩ ⟨"", rfl, .none (by simp)⟩ (fun n s hn => ?_) (fun n hn hf ho => ?_)
  · have h := reads_str.ok n ""
    show _ ↔ Form.str.fits n
    rw [← h, unmarshalLegacyVolume]
    by_cases hc : (decString n "").err = true
    · simp [hc]
    · simp only [hc, Bool.false_eq_true, if_false]
      split
      · simp_all
      · split <;> simp_all
  · obtain ⟨t, ht⟩ := hf
    refine ⟨t, ht, ?_⟩
    simp only [unmarshalLegacyVolume, decString_some ht, Bool.false_eq_true, if_false]
    split
    · rename_i e
      exact .none (cut_absent e)
    · rename_i a b e
      obtain ⟨e1, e2⟩ := cut_eq e
      split
      · rename_i e'
        rw [text_cut e1]
        exact .short (by simpa using e2) (by simpa using cut_absent e')
      · rename_i b' c e'
        obtain ⟨e3, e4⟩ := cut_eq e'
        have : String.ofList b = String.ofList b' ++ ":" ++ String.ofList c :=
          text_cut (s := String.ofList b) (by simpa using e3)
        rw [text_cut e1, this]
        have := NamesVolume.long (a := String.ofList a) (b := String.ofList b') (c := String.ofList c)
          (by simpa using e2) (by simpa using e4)
        simpa [String.append_assoc] using this

theorem form_secretRef : Faithful {} decSecretRef secretRefForm := by
  refine reads_obj (by simp only [List.map]; decide +kernel) ?_
  iterate 2 (fld reads_str)
  exact .nil

theorem form_secrets : Faithful [] (custom [] unmarshalSecrets) secretsForm := by
  have hr := reads_list (reads_ptr form_secretRef obj_fits_null)
  refine reads_custom (.inl (.inl rfl)) (.inl ⟨[], .inl ⟨rfl, rfl⟩, rfl⟩) (fun n s hn => ?_) (fun n hn hf ho => ?_)
  · have h2 := strings_ok n []
    have h1 := hr.ok n s
    simp only [secretsForm, ← h1, ← h2, unmarshalSecrets]
    split <;> simp_all
  · have h2 := strings_ok n []
    by_cases hc : (decStrings n []).err = false
    · simp only [unmarshalSecrets, hc, if_true, List.nil_append]
      exact .inl ⟨_, strings_tell n (h2.1 hc), rfl⟩
    · have hl := hf.resolve_left fun h => hc (h2.2 h)
      simp only [unmarshalSecrets, hc, if_false]
      exact .inr ⟨fun h => hc (h2.2 h), hr.read n hl ho⟩

/-! ### Constraints -/

theorem slice_val (n : Node) (s : List String) (hs : s = []) : (decStringSlice n s).val = slice n := by
  cases n with
  | null => rfl
  | scalar t r => simp [decStringSlice, custom, unmarshalStringSlice, decString, slice]
  | map kvs => simp [decStringSlice, custom, unmarshalStringSlice, decString, mismatch, decStrings, decSlice, slice, hs]
  | seq xs =>
    have h := strings_ok (.seq xs) []
    simp only [decStringSlice, custom, unmarshalStringSlice, decString, mismatch, slice]
    by_cases hc : (decStrings (.seq xs) []).err = false
    · have ht := strings_tell _ (h.1 hc)
      rcases ht with ⟨e, _⟩ | ⟨ys, e, ht⟩
      · cases e
      · cases e
        have : xs.mapM textOf = some (decStrings (.seq xs) []).val := by
          generalize (decStrings (.seq xs) []).val = ts at ht
          clear hc h
          induction ht with
          | nil => rfl
          | cons h1 _ ih =>
            have h1 : textOf _ = some _ := h1
            simp [List.mapM_cons, h1, ih]
        simp [hc, this]
    · have : xs.mapM textOf = none := by
        by_contra hn
        obtain ⟨ts, e⟩ := Option.ne_none_iff_exists'.1 hn
        refine hc (h.2 (.inr ⟨xs, rfl, ?_⟩))
        clear hc h hn
        induction xs generalizing ts with
        | nil => simp
        | cons x xs ih =>
          rw [List.mapM_cons] at e
          simp only [Option.bind_eq_bind, Option.bind_eq_some_iff, Option.pure_def] at e
          obtain ⟨t, h1, ts', h2, _⟩ := e
          exact List.forall_mem_cons.2 ⟨⟨t, h1⟩, ih ts' h2⟩
      simp [hc, this, hs]

/-- A text or a list of texts; anything else counts as nothing. -/
def looseForm : Form (List String) := ⟨fun _ => True, fun _ => True, fun n l => l = slice n⟩

theorem inclExclSlices_tells (kvs : List (Node × Node)) (h : ∀ name ∈ ["include", "exclude"],
    kvs.Pairwise fun a b => ¬ (textOf a.1 = some name ∧ textOf b.1 = some name)) :
    ∃ i e, Gives kvs "include" i ∧ Gives kvs "exclude" e ∧
      (decInclExclSlices (.map kvs) {}).val = { incl := slice i, excl := slice e } := by
  have mk : ∀ (tbl : List (String × Field Condition)) (name : String) (get : Condition → List String)
      (set : Condition → List String → Condition), (∀ s v, get (set s v) = v) → get {} = [] →
      (∀ g ∈ tbl, g.1 ≠ name → ∀ n s, get (g.2 n s).1 = get s) →
      LineTells {} tbl (name, field get set decStringSlice) (line name get looseForm) :=
    fun tbl name get set h1 h0 h2 =>
    { name := rfl
      null := fun s hs => by
        show get s = slice .null
        rw [show get s = get {} from hs, h0]; rfl
      read := fun n s hs _ _ => by
        show get (set s _) = slice n
        rw [h1]
        exact slice_val n _ (by rw [show get s = get {} from hs, h0])
      congr := fun n s s' hs ht => by
        show get s = slice n
        rw [show get s = get s' from hs]
        exact ht
      refl := fun _ => rfl
      trans := fun _ _ _ h h' => Eq.trans h h'
      others := h2 }
  have key := fun {f l} hf hr hp => fields_tell (zero := ({} : Condition))
    (tbl := [ ("include", field Condition.incl (fun s v => { s with incl := v }) decStringSlice),
      ("exclude", field Condition.excl (fun s v => { s with excl := v }) decStringSlice) ])
    (by simp only [List.map]; decide) (f := f) hf (l := l) hr kvs {} (hr.refl _) hp
  obtain ⟨i, hi, ti⟩ := key List.mem_cons_self (mk _ "include" Condition.incl (fun s v => { s with incl := v }) (fun _ _ => rfl) rfl (by others))
    (h "include" (by simp)) (fun _ _ _ => trivial) (fun _ _ _ => trivial)
  obtain ⟨e, he, te⟩ := key (List.mem_cons_of_mem _ List.mem_cons_self) (mk _ "exclude" Condition.excl (fun s v => { s with excl := v }) (fun _ _ => rfl) rfl (by others))
    (h "exclude" (by simp)) (fun _ _ _ => trivial) (fun _ _ _ => trivial)
  refine ⟨i, e, hi, he, ?_⟩
  have ti : (decInclExclSlices (.map kvs) {}).val.incl = slice i := ti
  have te : (decInclExclSlices (.map kvs) {}).val.excl = slice e := te
  rw [← ti, ← te]

theorem form_constraint : Faithful {} decConstraint constraintForm := by
  refine reads_custom trivial (.inl ⟨by simp, rfl⟩) (fun n s hn => ⟨fun _ => trivial, fun _ => rfl⟩) (fun n hn _ ho => ?_)
  have hs := slice_val n [] rfl
  cases n with
  | null => exact absurd rfl hn
  | map kvs =>
    obtain ⟨i, e, hi, he, ht⟩ := inclExclSlices_tells kvs (ho kvs rfl)
    refine .inr ⟨kvs, i, e, rfl, hi, he, ?_⟩
    simp only [unmarshalConstraint, ht, hs, slice, List.append_nil]
  | _ =>
    refine .inl ⟨by simp, ?_⟩
    simp only [unmarshalConstraint, hs, decInclExclSlices, decStruct, mismatch, List.nil_append]

theorem form_constraints : Faithful {} decConstraints constraintsForm := by
  refine reads_obj (by simp only [List.map]; decide +kernel) ?_
  iterate 7 (fld form_constraint)
  fld (reads_map reads_str)
  exact .nil

/-! ### Legacy files -/

theorem form_legacyContainer : Faithful {} decLegacyContainer legacyContainerForm := by
  refine reads_wide (tbl := [ ("command", field Legacy.Container.command (fun s v => { s with command := v }) decStringSlice),
    ("commands", field Legacy.Container.commands (fun s v => { s with commands := v }) decStringSlice),
    ("detach", field Legacy.Container.detached (fun s v => { s with detached := v }) decBool),
    ("devices", unread [] decStrings),
    ("allow_failure", unread false decBool),
    ("tmpfs", unread [] decStrings),
    ("dns", field Legacy.Container.dns (fun s v => { s with dns := v }) decStringSlice),
    ("dns_search", field Legacy.Container.dnsSearch (fun s v => { s with dnsSearch := v }) decStringSlice),
    ("entrypoint", field Legacy.Container.entrypoint (fun s v => { s with entrypoint := v }) decStringSlice),
    ("environment", field Legacy.Container.environment (fun s v => { s with environment := v }) (custom [] unmarshalSliceMap)),
    ("extra_hosts", field Legacy.Container.extraHosts (fun s v => { s with extraHosts := v }) decStrings),
    ("image", field Legacy.Container.image (fun s v => { s with image := v }) decString),
    ("name", field Legacy.Container.name (fun s v => { s with name := v }) decString),
    ("privileged", field Legacy.Container.privileged (fun s v => { s with privileged := v }) decBool),
    ("pull", field Legacy.Container.pull (fun s v => { s with pull := v }) decBool),
    ("shell", unread "" decString),
    ("volumes", field Legacy.Container.volumes (fun s v => { s with volumes := v }) (decSlice none (decPtr {} (custom {} unmarshalLegacyVolume)))),
    ("secrets", field Legacy.Container.secrets (fun s v => { s with secrets := v }) (custom [] unmarshalSecrets)),
    ("when", field Legacy.Container.constraints (fun s v => { s with constraints := v }) decConstraints) ])
    (rest := fun k n s => let r := decAny n .null; ({ s with vargs := s.vargs.set k r.val }, r.err))
    (z := .null) (d := decAny) (by simp only [List.map]; decide +kernel) ?_ reads_any ⟨fun _ _ _ => rfl, fun _ _ _ => rfl⟩ ?_ rfl ?_
  · iterate 2 (fld form_slice)
    fld reads_bool
    chk (reads_list reads_str)
    chk reads_bool
    chk (reads_list reads_str)
    iterate 3 (fld form_slice)
    fld form_sliceMap
    fld (reads_list reads_str)
    iterate 2 (fld reads_str)
    iterate 2 (fld reads_bool)
    chk reads_str
    fld (reads_list (reads_ptr form_legacyVolume ⟨"", rfl⟩))
    fld form_secrets
    fld form_constraints
    exact .nil
  · repeat refine List.forall_mem_cons.mpr ⟨fun _ _ => rfl, ?_⟩
    exact List.forall_mem_nil _
  · unfold legacyContainerLines
    repeat refine List.forall_mem_cons.mpr ⟨by first | exact fun _ _ _ => rfl | exact fun _ _ _ => trivial, ?_⟩
    exact List.forall_mem_nil _

mutual
theorem rewrite_rewritten (text : Scalar → String) (n : Node) : Rewritten text n (rewrite text n) := by
  match n with
  | .null => rw [rewrite]; exact .null
  | .scalar t r =>
    cases r with
    | str => rw [rewrite]; exact .str
    | _ =>
      rw [rewrite]
      · exact .other (by simp)
      · simp
  | .seq xs => rw [rewrite]; exact .seq (rewriteList_rewritten text xs)
  | .map kvs =>
    rw [rewrite]
    obtain ⟨ks, vs, e, h1, h2⟩ := rewriteEntries_rewritten text kvs
    rw [e]
    exact .map h1 h2
theorem rewriteList_rewritten (text : Scalar → String) (xs : List Node) :
    List.Forall₂ (Rewritten text) xs (rewriteList text xs) := by
  match xs with
  | [] => rw [rewriteList]; exact .nil
  | x :: xs => rw [rewriteList]; exact .cons (rewrite_rewritten text x) (rewriteList_rewritten text xs)
theorem rewriteEntries_rewritten (text : Scalar → String) (kvs : List (Node × Node)) :
    ∃ ks vs, rewriteEntries text kvs = List.zip ks vs ∧ List.Forall₂ (Rewritten text) (kvs.map Prod.fst) ks ∧
      List.Forall₂ (Rewritten text) (kvs.map Prod.snd) vs := by
  match kvs with
  | [] => exact ⟨[], [], by rw [rewriteEntries]; rfl, .nil, .nil⟩
  | (k, v) :: kvs =>
    obtain ⟨ks, vs, e, h1, h2⟩ := rewriteEntries_rewritten text kvs
    exact ⟨rewrite text k :: ks, rewrite text v :: vs, by rw [rewriteEntries, e]; rfl,
      .cons (rewrite_rewritten text k) h1, .cons (rewrite_rewritten text v) h2⟩
end

theorem rewritten_one (text : Scalar → String) (t : Node) : ∀ v w, Rewritten text t v → Rewritten text t w → v = w := by
  match t with
  | .null => intro v w h1 h2; cases h1; cases h2; rfl
  | .scalar _ r =>
    intro v w h1 h2
    cases h1 with
    | str =>
      cases h2 with
      | str => rfl
      | other h => exact absurd rfl h
    | other h =>
      cases h2 with
      | str => exact absurd rfl h
      | other _ => rfl
  | .seq xs =>
    intro v w h1 h2
    cases h1 with
    | seq h1 =>
      cases h2 with
      | seq h2 => rw [Json.forall₂_one (fun x _ => rewritten_one text x) h1 h2]
  | .map kvs =>
    intro v w h1 h2
    cases h1 with
    | map h1 h1' =>
      cases h2 with
      | map h2 h2' =>
        rw [Json.forall₂_one (fun x hx => by
          obtain ⟨kv, hkv, rfl⟩ := List.mem_map.1 hx
          exact rewritten_one text kv.1) h1 h2, Json.forall₂_one (fun x hx => by
          obtain ⟨kv, hkv, rfl⟩ := List.mem_map.1 hx
          exact rewritten_one text kv.2) h1' h2']
termination_by sizeOf t
decreasing_by
  · rename_i hx; have := List.sizeOf_lt_of_mem hx; simp; omega
  · have := List.sizeOf_lt_of_mem hkv
    obtain ⟨a, b⟩ := kv
    simp only [Prod.mk.sizeOf_spec, Node.map.sizeOf_spec] at *
    omega
  · have := List.sizeOf_lt_of_mem hkv
    obtain ⟨a, b⟩ := kv
    simp only [Prod.mk.sizeOf_spec, Node.map.sizeOf_spec] at *
    omega

theorem rewritten_iff {text : Scalar → String} {n v : Node} : Rewritten text n v ↔ v = rewrite text n :=
  ⟨fun h => rewritten_one text n _ _ h (rewrite_rewritten text n), fun h => h ▸ rewrite_rewritten text n⟩

theorem keyName_names (text : Scalar → String) {k : Node} (h : (textOf k).isSome) : Names text k (Yaml.keyName text k) := by
  rcases textOf_isSome.1 h with rfl | ⟨t, r, rfl⟩
  · exact .null
  · cases r with
    | str => exact .str
    | bool b => exact .other (r := .bool b) (by simp)
    | int i => exact .other (r := .int i) (by simp)
    | float q => exact .other (r := .float q) (by simp)

theorem named_err (text : Scalar → String) (kvs : List (Node × Node)) :
    (namedContainers text kvs).2 = false ↔ ∀ kv ∈ kvs, ∃ v, Rewritten text kv.2 v ∧ legacyContainerForm.fits v := by
  induction kvs with
  | nil => simp [namedContainers]
  | cons kv kvs ih =>
    obtain ⟨k, v⟩ := kv
    rw [List.forall_mem_cons, ← ih, namedContainers]
    have hok := form_legacyContainer.ok (rewrite text v) {}
    simp only [rewritten_iff, exists_eq_left, ← hok]
    by_cases hc : (decLegacyContainer (rewrite text v) {}).err = true
    · simp [hc]
    · simp [hc]

theorem named_tell (text : Scalar → String) (kvs : List (Node × Node))
    (h1 : ∀ kv ∈ kvs, ∃ v, Rewritten text kv.2 v ∧ legacyContainerForm.fits v)
    (h2 : ∀ kv ∈ kvs, (textOf kv.1).isSome ∧ ∃ v, Rewritten text kv.2 v ∧ legacyContainerForm.once v) :
    List.Forall₂ (fun kv (c : Legacy.Container) => ∃ v c', Rewritten text kv.2 v ∧
      legacyContainerForm.tells v c' ∧ Names text kv.1 c.name ∧ c = { c' with name := c.name }) kvs (namedContainers text kvs).1 := by
  induction kvs with
  | nil => exact .nil
  | cons kv kvs ih =>
    obtain ⟨k, v⟩ := kv
    rw [List.forall_mem_cons] at h1 h2
    obtain ⟨⟨w, e, hf⟩, h1⟩ := h1
    obtain ⟨⟨hk, w', e', ho⟩, h2⟩ := h2
    obtain rfl := rewritten_iff.1 e
    obtain rfl := rewritten_iff.1 e'
    have hc := (form_legacyContainer.ok (rewrite text v) {}).2 hf
    rw [namedContainers]
    simp only [hc, Bool.false_eq_true, if_false]
    exact .cons ⟨_, _, e, form_legacyContainer.read _ hf ho, keyName_names text hk, rfl⟩ (ih h1 h2)

theorem form_section (text : Scalar → String) : Faithful [] (custom [] (unmarshalContainers text)) (sectionForm text) := by
  refine reads_custom (.inl rfl) (.inl ⟨rfl, rfl⟩) (fun n s hn => ?_) (fun n hn hf ho => ?_)
  · cases n with
    | null => exact absurd rfl hn
    | map kvs =>
      simp only [unmarshalContainers, named_err, sectionForm]
      simp
    | _ => simp [unmarshalContainers, sectionForm]
  · rcases hf with rfl | ⟨kvs, rfl, hf⟩
    · exact absurd rfl hn
    · exact .inr ⟨kvs, rfl, named_tell text kvs hf (ho kvs rfl)⟩

theorem form_secretDecl : Faithful {} decSecretDecl secretDeclForm := by
  refine reads_obj (by simp only [List.map]; decide +kernel) ?_
  fld reads_str
  fld (reads_map reads_str)
  iterate 2 (fld reads_str)
  exact .nil

theorem workspace_keeps {α : Type} (get : Legacy.Config → α) (h1 : ∀ s v, get { s with base := v } = get s)
    (h2 : ∀ s v, get { s with path := v } = get s) (n : Node) (s : Legacy.Config) :
    get (nested (fun s => { s with base := "", path := "" }) legacyWorkspaceField n s).1 = get s := by
  refine nested_keeps (fun k g hg n s => ?_) (fun s => ?_) n s
  · have := row_lookup hg
    simp only [List.mem_cons, List.not_mem_nil, or_false, Prod.mk.injEq] at this
    rcases this with ⟨_, rfl⟩ | ⟨_, rfl⟩
    · exact h1 _ _
    · exact h2 _ _
  · exact (h2 { s with base := "" } "").trans (h1 s "")

local macro "othersl" : tactic => `(tactic| (
  repeat refine List.forall_mem_cons.mpr ⟨by first | exact fun h => absurd rfl h | exact fun _ _ _ => rfl |
    exact fun _ n s => workspace_keeps _ (fun _ _ => rfl) (fun _ _ => rfl) n s |
    exact fun _ n s => (by cases n <;> rfl), ?_⟩
  exact List.forall_mem_nil _))
local macro "fldl" t:term : tactic =>
  `(tactic| refine .cons (.field $t (fun _ _ => rfl) (by othersl)) ?_)

theorem form_legacy (text : Scalar → String) : Faithful {} (decStruct {} (legacyConfigField text)) (legacyForm text) := by
  refine reads_obj (by simp only [List.map]; decide +kernel) ?_
  refine .cons (.group (by simp only [List.map]; decide +kernel) ?_ (fun s => ?_) ?_) ?_
  · iterate 2 (fld reads_str)
    exact .nil
  · simp [line]
  · refine List.forall_mem_cons.mpr ⟨by othersl, List.forall_mem_cons.mpr ⟨by othersl, List.forall_mem_nil _⟩⟩
  · iterate 3 (fldl (form_section text))
    fldl form_constraint
    refine .cons ?_ ?_
    · exact
      { name := rfl
        ok := fun n s => by
          show _ ↔ Form.Keyed n
          cases n with
          | null => exact ⟨fun _ => .null, fun _ => rfl⟩
          | _ => exact decAny_err _ _
        null := fun s hs => by
          have hs : s.hasMatrix = false := hs
          show s.hasMatrix = true ↔ Node.null ≠ .null
          simp [hs]
        read := fun n s _ _ _ => by
          show Legacy.Config.hasMatrix _ = true ↔ n ≠ .null
          cases n <;> simp
        congr := fun n s s' hs ht => by
          show s.hasMatrix = true ↔ _
          rw [show s.hasMatrix = s'.hasMatrix from hs]
          exact ht
        refl := fun _ => rfl
        trans := fun _ _ _ h h' => Eq.trans h h'
        others := by
          show ∀ g ∈ (_ : List (String × Field Legacy.Config)), g.1 ≠ "matrix" → ∀ n s, Legacy.Config.hasMatrix (g.2 n s).1 = Legacy.Config.hasMatrix s
          othersl }
    · fldl (reads_map form_secretDecl)
      exact .nil

theorem form_axes : Faithful [] (decStruct [] fun k => List.lookup k
    [("matrix", field id (fun _ v => v) (decMap [] decStrings))]) axesForm := by
  refine reads_obj (by simp only [List.map]; decide +kernel) ?_
  fld (reads_map (reads_list reads_str))
  exact .nil

theorem lookup_single {α : Type} (name : String) (f : α) :
    (fun k => if k = name then some f else none) = fun k => List.lookup k [(name, f)] := by
  funext k
  by_cases h : k = name
  · simp [h, List.lookup]
  · have : (k == name) = false := beq_eq_false_iff_ne.2 h
    simp [h, List.lookup, this]

theorem form_builds : Faithful [] (decStruct [] fun k => List.lookup k
    [("matrix", nested (fun _ => ([] : List (GoMap String))) fun k =>
      if k = "include" then some (field id (fun _ v => v) (decSlice [] decStringMap)) else none)]) buildsForm := by
  rw [lookup_single]
  refine reads_obj (by simp only [List.map]; decide +kernel) ?_
  refine .cons (.group (by simp only [List.map]; decide +kernel) ?_ (fun s => ?_) ?_) .nil
  · fld (reads_list (reads_map reads_str))
    exact .nil
  · simp [line]
  · refine List.forall_mem_cons.mpr ⟨by others, List.forall_mem_nil _⟩

/-! ### GitLab files -/

theorem form_gitlabImageLong : Faithful {} decGitlabImageLong (Form.obj
    [ line "name" Gitlab.Image.name Form.str, line "entrypoint" Gitlab.Image.entrypoint sliceForm,
      line "command" Gitlab.Image.command sliceForm, line "alias" Gitlab.Image.alias Form.str ]) := by
  refine reads_obj (by simp only [List.map]; decide +kernel) ?_
  fld reads_str
  iterate 2 (fld form_slice)
  fld reads_str
  exact .nil

theorem form_gitlabImage : Faithful {} (custom {} unmarshalGitlabImage) gitlabImageForm := by
  have hl := form_gitlabImageLong
  refine reads_custom (.inr (.inl rfl)) (.inr ⟨by simp, hl.null⟩) (fun n s hn => ?_) (fun n hn hf ho => ?_)
  · have h := hl.ok n {}
    cases n with
    | null => exact absurd rfl hn
    | scalar t r => simp [unmarshalGitlabImage, decString, gitlabImageForm, Form.short]
    | _ =>
      rw [gitlabImageForm]
      simp only [Form.short, ← h]
      simp only [unmarshalGitlabImage, decString, mismatch]
      simp
      split <;> simp_all
  · cases n with
    | null => exact absurd rfl hn
    | scalar t r => exact .inl ⟨t, r, rfl, by simp [unmarshalGitlabImage, decString]⟩
    | seq xs => rcases hf with ⟨_, _, h⟩ | h | ⟨_, h, _⟩ <;> cases h
    | map kvs =>
      have hf := hf.resolve_left (by simp)
      refine .inr ⟨by simp, ?_⟩
      have he := (hl.ok (.map kvs) {}).2 hf
      have := hl.read (.map kvs) hf ho
      simpa [unmarshalGitlabImage, decString, mismatch, he] using this

theorem image_null : gitlabImageForm.fits .null := .inr obj_fits_null

theorem form_gitlabJob : Faithful {} decGitlabJob gitlabJobForm := by
  refine reads_obj (by simp only [List.map]; decide +kernel) ?_
  chk reads_str
  fld reads_str
  fld form_gitlabImage
  iterate 3 (fld form_slice)
  chk (reads_list (reads_ptr form_gitlabImage image_null))
  iterate 2 (chk form_slice)
  chk (reads_map reads_str)
  fld reads_bool
  chk form_slice
  exact .nil

theorem form_gitlab : Faithful {} (decStruct {} fun k => some (gitlabField k)) gitlabForm := by
  refine reads_wide (tbl := [ ("image", field Gitlab.Config.image (fun s v => { s with image := v }) (custom {} unmarshalGitlabImage)),
    ("stages", field Gitlab.Config.stages (fun s v => { s with stages := v }) decStrings),
    ("services", field Gitlab.Config.services (fun s v => { s with services := v }) (decSlice none (decPtr {} (custom {} unmarshalGitlabImage)))),
    ("variables", unread [] decStringMap),
    ("before_script", field Gitlab.Config.before (fun s v => { s with before := v }) decStringSlice),
    ("after_script", field Gitlab.Config.after (fun s v => { s with after := v }) decStringSlice) ])
    (rest := fun k n s => let r := decPtr {} decGitlabJob n none; ({ s with jobs := s.jobs.set k r.val }, r.err))
    (z := none) (d := decPtr {} decGitlabJob) (zero := {}) (get := Gitlab.Config.jobs) (by simp only [List.map]; decide +kernel) ?_
    (reads_ptr form_gitlabJob obj_fits_null) ⟨fun _ _ _ => rfl, fun _ _ _ => rfl⟩ ?_ rfl ?_
  · fld form_gitlabImage
    fld (reads_list reads_str)
    fld (reads_list (reads_ptr form_gitlabImage image_null))
    chk (reads_map reads_str)
    iterate 2 (fld form_slice)
    exact .nil
  · repeat refine List.forall_mem_cons.mpr ⟨fun _ _ => rfl, ?_⟩
    exact List.forall_mem_nil _
  · unfold gitlabLines
    repeat refine List.forall_mem_cons.mpr ⟨by first | exact fun _ _ _ => rfl | exact fun _ _ _ => trivial, ?_⟩
    exact List.forall_mem_nil _

/-! ### Bitbucket files -/

theorem form_bitbucketStep : Faithful {} decBitbucketStep bitbucketStepForm := by
  refine reads_obj (by simp only [List.map]; decide +kernel) ?_
  iterate 2 (fld reads_str)
  fld (reads_list reads_str)
  chk (reads_map reads_str)
  chk (reads_list reads_str)
  exact .nil

theorem form_stageEntry : Faithful none decStageEntry (Form.obj [line "step" id (Form.ptr bitbucketStepForm)]) := by
  refine reads_obj (by simp only [List.map]; decide +kernel) ?_
  fld (reads_ptr form_bitbucketStep obj_fits_null)
  exact .nil

theorem form_stage : Faithful [] decStage stageForm := by
  have hl := reads_list form_stageEntry
  refine reads_custom (.inl rfl) (.inl ⟨rfl, rfl⟩) (fun n s hn => ?_) (fun n hn hf ho => ?_)
  · have h := hl.ok n []
    show _ ↔ (Form.list (Form.obj [line "step" id (Form.ptr bitbucketStepForm)])).fits n
    rw [← h, unmarshalStage]
    by_cases hc : (decSlice none decStageEntry n []).err = true
    · simp [hc]
    · simp [hc]
  · have h := (hl.ok n []).2 hf
    have := hl.read n hf ho
    simp only [unmarshalStage, h, Bool.false_eq_true, if_false, List.nil_append]
    exact this

theorem lookup_pair {α : Type} (name name' : String) (f g : α) :
    (fun k => if k = name then some f else if k = name' then some g else none) = fun k => List.lookup k [(name, f), (name', g)] := by
  funext k
  by_cases h : k = name
  · simp [h, List.lookup]
  · have : (k == name) = false := beq_eq_false_iff_ne.2 h
    by_cases h' : k = name'
    · subst h'; simp [h, List.lookup, this]
    · have h2 : (k == name') = false := beq_eq_false_iff_ne.2 h'
      simp [h, h', List.lookup, this, h2]

theorem nested_table {σ α : Type} {get : σ → α} {reset : σ → σ} {tbl : List (String × Field σ)}
    (h : ∀ g ∈ tbl, ∀ n s, get (g.2 n s).1 = get s) (hr : ∀ s, get (reset s) = get s) (n : Node) (s : σ) :
    get (nested reset (fun k => List.lookup k tbl) n s).1 = get s :=
  nested_keeps (fun _ _ hg n s => h _ (row_lookup hg) n s) hr n s

local macro "keeps" : tactic => `(tactic| (
  repeat refine List.forall_mem_cons.mpr ⟨fun _ _ => rfl, ?_⟩
  exact List.forall_mem_nil _))
local macro "othersb" g:term : tactic => `(tactic| (
  repeat refine List.forall_mem_cons.mpr ⟨by first | exact fun h => absurd rfl h | exact fun _ _ _ => rfl |
    exact fun _ n s => nested_table (get := $g) (by keeps) (by exact fun _ => rfl) n s, ?_⟩
  exact List.forall_mem_nil _))

theorem form_bitbucket : Faithful {} (decStruct {} bitbucketField) bitbucketForm := by
  unfold bitbucketField bitbucketPipelinesField
  rw [lookup_single, lookup_pair]
  refine reads_obj (by simp only [List.map]; decide +kernel) ?_
  refine .cons (.field reads_str (fun _ _ => rfl) (by othersb Bitbucket.Config.image)) ?_
  refine .cons (.group (by simp only [List.map]; decide +kernel) ?_ (fun s => ?_) ?_) ?_
  · fld reads_int
    exact .nil
  · simp [line]
  · refine List.forall_mem_cons.mpr ⟨by othersb Bitbucket.Config.depth, List.forall_mem_nil _⟩
  refine .cons (.group (by simp only [List.map]; decide +kernel) ?_ (fun s => ?_) ?_) ?_
  · fld form_stage
    iterate 2 (fld (reads_map form_stage))
    exact .nil
  · simp [line]
  · refine List.forall_mem_cons.mpr ⟨by othersb Bitbucket.Config.default_, List.forall_mem_cons.mpr ⟨by othersb Bitbucket.Config.tags,
      List.forall_mem_cons.mpr ⟨by othersb Bitbucket.Config.branches, List.forall_mem_nil _⟩⟩⟩
  refine .cons (.group (by simp only [List.map]; decide +kernel) ?_ (fun s => ?_) ?_) .nil
  · fld (reads_map (reads_ptr form_bitbucketStep obj_fits_null))
    chk (reads_map reads_str)
    exact .nil
  · simp [line, check]
  · refine List.forall_mem_cons.mpr ⟨by othersb Bitbucket.Config.services, List.forall_mem_cons.mpr ⟨fun _ _ _ _ _ => trivial, List.forall_mem_nil _⟩⟩

/-! ### The tree determines what is read -/

theorem clear_slice : Clear sliceForm := clear_short (clear_list clear_str)

theorem definitions_one {ts : List String} {d d' : GoMap String} (h : Definitions ts d) (h' : Definitions ts d') : d = d' := by
  induction h generalizing d' with
  | nil => cases h'; rfl
  | skip hn _ ih =>
    generalize e : (_ :: _ : List String) = l at h'
    cases h' with
    | nil => cases e
    | skip _ h2 => cases e; exact ih h2
    | take _ h2 => cases e; exact absurd (by simp) hn
  | @take k v ts m hn _ ih =>
    generalize e : (k ++ "=" ++ v) :: ts = l at h'
    cases h' with
    | nil => cases e
    | skip hn' h2 => cases e; exact absurd (by simp) hn'
    | @take k' v' ts' m' hn' h2 =>
      obtain ⟨e1, e2⟩ := List.cons.inj e
      subst e2
      have h1 := congrArg String.toList e1
      simp only [String.toList_append, List.append_assoc] at h1
      have c1 := cut_append v.toList hn
      have c2 := cut_append v'.toList hn'
      rw [show k.toList ++ '=' :: v.toList = k'.toList ++ '=' :: v'.toList from h1, c2] at c1
      simp only [Option.some.injEq, Prod.mk.injEq] at c1
      rw [String.toList_inj.1 c1.1, String.toList_inj.1 c1.2, ih h2]

theorem clear_sliceMap : Clear sliceMapForm := by
  refine ⟨⟨fun kvs h => (by cases h), fun ts m h hd => ?_⟩, fun n v w ho h1 h2 => ?_⟩
  · rcases h with ⟨_, rfl⟩ | ⟨_, h, _⟩
    · cases hd; exact List.nodup_nil
    · cases h
  · have hmix : ∀ v w, (Form.map Form.str).tells n v → (∃ ts, (Form.list Form.str).tells n ts ∧ Definitions ts w) → v = w := by
      rintro v w h1 ⟨ts, h2, hd⟩
      rcases h1 with ⟨rfl, rfl⟩ | ⟨kvs, rfl, _⟩
      · rcases h2 with ⟨_, rfl⟩ | ⟨_, h, _⟩
        · cases hd; rfl
        · cases h
      · rcases h2 with ⟨h, _⟩ | ⟨_, h, _⟩ <;> cases h
    rcases h1 with h1 | h1 <;> rcases h2 with h2 | h2
    · exact (clear_map clear_str).one n v w ho.1 h1 h2
    · exact hmix v w h1 h2
    · exact (hmix w v h2 h1).symm
    · obtain ⟨ts, a, b⟩ := h1
      obtain ⟨ts', a', b'⟩ := h2
      obtain rfl := (clear_list clear_str).one n ts ts' (fun _ _ _ _ => trivial) a a'
      exact definitions_one b b'

theorem namesVolume_val {t : String} {v : Legacy.Volume} (h : NamesVolume t v) :
    (unmarshalLegacyVolume (.scalar t .str) {}).1 = v := by
  cases h with
  | none h => simp [unmarshalLegacyVolume, decString, cut_none h]
  | @short a b ha hb =>
    have : cut ':' (a ++ ":" ++ b).toList = some (a.toList, b.toList) := by
      rw [String.toList_append, String.toList_append, List.append_assoc]
      exact cut_append _ ha
    simp only [unmarshalLegacyVolume, decString, this, cut_none hb]
    simp
  | @long a b c ha hb =>
    have : cut ':' (a ++ ":" ++ b ++ ":" ++ c).toList = some (a.toList, b.toList ++ ':' :: c.toList) := by
      simp only [String.toList_append, List.append_assoc]
      exact cut_append _ ha
    simp only [unmarshalLegacyVolume, decString, this, cut_append _ hb]
    simp

theorem clear_legacyVolume : Clear legacyVolumeForm := by
  refine ⟨trivial, fun n v w _ h1 h2 => ?_⟩
  obtain ⟨t, e, h1⟩ := h1
  obtain ⟨t', e', h2⟩ := h2
  obtain rfl : t = t' := Option.some.inj (e.symm.trans e')
  exact (namesVolume_val h1).symm.trans (namesVolume_val h2)

local macro "lines" : tactic => `(tactic| (
  simp only [List.forall_mem_cons, List.not_mem_nil, false_implies, implies_true, and_true]
  repeat' apply And.intro))
local macro "agree" : tactic => `(tactic| (
  intro s s' h
  simp only [line, group, check, List.forall_mem_cons, List.not_mem_nil, false_implies, implies_true, and_true, true_and] at h
  cases s
  cases s'
  simp_all))

theorem clear_secretRef : Clear secretRefForm := by
  refine clear_obj ?_ ?_
  · lines <;> exact .line clear_str
  · agree

theorem clear_secrets : Clear secretsForm := by
  have hc := clear_list (clear_ptr clear_secretRef)
  have hs := clear_list clear_str
  have hfit : ∀ n ts, (Form.list Form.str).tells n ts → (Form.list Form.str).fits n := by
    intro n ts h
    rcases h with ⟨rfl, _⟩ | ⟨xs, rfl, h⟩
    · exact .inl rfl
    · refine .inr ⟨xs, rfl, fun x hx => ?_⟩
      obtain ⟨t, _, ht⟩ := Json.forall₂_left h hx
      exact ⟨t, ht⟩
  refine ⟨hc.null, fun n v w ho h1 h2 => ?_⟩
  rcases h1 with ⟨ts, h1, rfl⟩ | ⟨hn, h1⟩ <;> rcases h2 with ⟨ts', h2, rfl⟩ | ⟨hn', h2⟩
  · rw [hs.one n ts ts' (fun _ _ _ _ => trivial) h1 h2]
  · exact absurd (hfit n _ h1) hn'
  · exact absurd (hfit n _ h2) hn
  · exact hc.one n v w ho h1 h2

theorem clear_constraint : Clear constraintForm := by
  refine ⟨fun kvs h => (by cases h), fun n v w ho h1 h2 => ?_⟩
  rcases h1 with ⟨h, rfl⟩ | ⟨kvs, i, e, rfl, h3, h4, rfl⟩ <;> rcases h2 with ⟨h', rfl⟩ | ⟨kvs', i', e', e2, h5, h6, rfl⟩
  · rfl
  · exact absurd e2 (h kvs')
  · exact absurd rfl (h' kvs)
  · cases e2
    rw [gives_one (ho kvs rfl "include" (by simp)) h3 h5, gives_one (ho kvs rfl "exclude" (by simp)) h4 h6]

theorem clear_constraints : Clear constraintsForm := by
  refine clear_obj ?_ ?_
  · lines
    all_goals first | exact .line clear_constraint | exact .line (clear_map clear_str)
  · agree

local macro "clears" : tactic => `(tactic| all_goals first
  | exact .check
  | exact .line clear_str
  | exact .line clear_bool
  | exact .line clear_int
  | exact .line clear_slice
  | exact .line (clear_list clear_str))

theorem clear_legacyContainer : Clear legacyContainerForm := by
  refine clear_wide ?_ clear_any ?_
  · unfold legacyContainerLines
    lines
    all_goals first
      | exact .check
      | exact .line clear_str
      | exact .line clear_bool
      | exact .line clear_slice
      | exact .line (clear_list clear_str)
      | exact .line clear_sliceMap
      | exact .line (clear_list (clear_ptr clear_legacyVolume))
      | exact .line clear_secrets
      | exact .line clear_constraints
  · intro s s' h hv
    simp only [legacyContainerLines, line, check, List.forall_mem_cons, List.not_mem_nil, false_implies, implies_true, and_true, true_and] at h
    cases s
    cases s'
    simp_all

theorem names_one {text : Scalar → String} {k : Node} {a b : String} (h : Names text k a) (h' : Names text k b) : a = b := by
  cases h with
  | null => cases h'; rfl
  | str =>
    cases h' with
    | str => rfl
    | other h => exact absurd rfl h
  | other h =>
    cases h' with
    | str => exact absurd rfl h
    | other _ => rfl

theorem clear_section (text : Scalar → String) : Clear (sectionForm text) := by
  refine ⟨fun kvs h => (by cases h), fun n v w ho h1 h2 => ?_⟩
  rcases h1 with ⟨rfl, rfl⟩ | ⟨kvs, rfl, h1⟩ <;> rcases h2 with ⟨e, rfl⟩ | ⟨kvs', e, h2⟩
  · rfl
  · cases e
  · cases e
  · cases e
    refine Json.forall₂_one (fun kv hkv a b ha hb => ?_) h1 h2
    obtain ⟨u, a', r1, t1, n1, e1⟩ := ha
    obtain ⟨u', b', r2, t2, n2, e2⟩ := hb
    obtain ⟨_, x, r3, o⟩ := ho kvs rfl kv hkv
    obtain rfl := rewritten_one text kv.2 _ _ r1 r3
    obtain rfl := rewritten_one text kv.2 _ _ r2 r1
    rw [e1, e2, clear_legacyContainer.one _ a' b' o t1 t2, names_one n1 n2]

theorem clear_secretDecl : Clear secretDeclForm := by
  refine clear_obj ?_ ?_
  · lines
    all_goals first | exact .line clear_str | exact .line (clear_map clear_str)
  · agree

theorem clear_present : Clear present := by
  refine ⟨trivial, fun n v w _ h1 h2 => ?_⟩
  have := Iff.trans (show v = true ↔ n ≠ .null from h1) (Iff.symm (show w = true ↔ n ≠ .null from h2))
  cases v <;> cases w <;> simp_all

theorem clear_legacy (text : Scalar → String) : Clear (legacyForm text) := by
  refine clear_obj ?_ ?_
  · lines
    · refine .group ?_
      lines <;> exact .line clear_str
    all_goals first
      | exact .line (clear_section text)
      | exact .line clear_constraint
      | exact .line clear_present
      | exact .line (clear_map clear_secretDecl)
  · agree

theorem clear_axes : Clear axesForm := by
  refine clear_obj ?_ ?_
  · lines
    exact .line (clear_map (clear_list clear_str))
  · intro s s' h
    simpa [line] using h

theorem clear_builds : Clear buildsForm := by
  refine clear_obj ?_ ?_
  · lines
    refine .group ?_
    lines
    exact .line (clear_list (clear_map clear_str))
  · intro s s' h
    simpa [group, line] using h

theorem clear_gitlabImage : Clear gitlabImageForm := by
  refine clear_short (clear_obj ?_ ?_)
  · lines
    clears
  · agree

theorem clear_gitlabJob : Clear gitlabJobForm := by
  refine clear_obj ?_ ?_
  · lines
    all_goals first
      | exact .check
      | exact .line clear_str
      | exact .line clear_bool
      | exact .line clear_slice
      | exact .line clear_gitlabImage
  · agree

theorem clear_gitlab : Clear gitlabForm := by
  refine clear_wide ?_ (clear_ptr clear_gitlabJob) ?_
  · unfold gitlabLines
    lines
    all_goals first
      | exact .check
      | exact .line clear_slice
      | exact .line (clear_list clear_str)
      | exact .line clear_gitlabImage
      | exact .line (clear_list (clear_ptr clear_gitlabImage))
  · intro s s' h hv
    simp only [gitlabLines, line, check, List.forall_mem_cons, List.not_mem_nil, false_implies, implies_true, and_true, true_and] at h
    cases s
    cases s'
    simp_all

theorem clear_bitbucketStep : Clear bitbucketStepForm := by
  refine clear_obj ?_ ?_
  · lines
    clears
  · agree

theorem clear_stage : Clear stageForm := by
  refine clear_list (clear_obj ?_ ?_)
  · lines
    exact .line (clear_ptr clear_bitbucketStep)
  · intro s s' h
    simpa [line] using h

theorem clear_bitbucket : Clear bitbucketForm := by
  refine clear_obj ?_ ?_
  · lines
    · exact .line clear_str
    · refine .group ?_
      lines
      exact .line clear_int
    · refine .group ?_
      lines
      · exact .line clear_stage
      · exact .line (clear_map clear_stage)
      · exact .line (clear_map clear_stage)
    · refine .group ?_
      lines
      · exact .line (clear_map (clear_ptr clear_bitbucketStep))
      · exact .check
  · agree

/-! ### Repeated sections -/

theorem fill_sections (text : Scalar → String) : ∀ (vs : List Node) (old : List Legacy.Container),
    (∀ v ∈ vs, v ≠ .null ∧ (sectionForm text).fits v ∧ (sectionForm text).once v) →
    ∃ parts, List.Forall₂ (sectionForm text).tells vs parts ∧
      fill (custom [] (unmarshalContainers text)) old vs = old ++ parts.flatten := by
  intro vs
  induction vs with
  | nil => exact fun old _ => ⟨[], .nil, by simp [fill]⟩
  | cons v vs ih =>
    intro old h
    rw [List.forall_mem_cons] at h
    obtain ⟨⟨hn, hf, ho⟩, h⟩ := h
    rcases hf with rfl | ⟨kvs, rfl, hf⟩
    · exact absurd rfl hn
    · obtain ⟨parts, h1, h2⟩ := ih (old ++ (namedContainers text kvs).1) h
      refine ⟨(namedContainers text kvs).1 :: parts, .cons (.inr ⟨kvs, rfl, named_tell text kvs hf (ho kvs rfl)⟩) h1, ?_⟩
      rw [List.flatten_cons, ← List.append_assoc, ← h2]
      rfl

end Yaml

open Yaml

/-- C115: which trees are read as a legacy file, and what is read; the tree determines it. -/
theorem C115_legacy (text : Scalar → String) (n : Yaml.Node) :
    ((∃ c, unmarshalLegacy text n = .ok c) ↔ (legacyForm text).fits n) ∧
    ((legacyForm text).once n → ∀ c, unmarshalLegacy text n = .ok c →
      (legacyForm text).tells n c ∧ ∀ c', (legacyForm text).tells n c' → c' = c) :=
  ⟨doc_fits (form_legacy text) n, fun ho c hc => by
    have := doc_read (form_legacy text) n hc ho
    exact ⟨this, fun c' h' => (clear_legacy text).one n _ _ ho h' this⟩⟩

/-- C115: which matrix is read as axes, and what is read. -/
theorem C115_axes (n : Yaml.Node) :
    ((∃ c, unmarshalMatrix n = .ok c) ↔ axesForm.fits n) ∧
    (axesForm.once n → ∀ c, unmarshalMatrix n = .ok c → axesForm.tells n c ∧ ∀ c', axesForm.tells n c' → c' = c) :=
  ⟨doc_fits form_axes n, fun ho c hc => by
    have := doc_read form_axes n hc ho
    exact ⟨this, fun c' h' => clear_axes.one n _ _ ho h' this⟩⟩

/-- C115: which matrix is read as a list of builds, and what is read. -/
theorem C115_builds (n : Yaml.Node) :
    ((∃ c, unmarshalMatrixList n = .ok c) ↔ buildsForm.fits n) ∧
    (buildsForm.once n → ∀ c, unmarshalMatrixList n = .ok c → buildsForm.tells n c ∧ ∀ c', buildsForm.tells n c' → c' = c) :=
  ⟨doc_fits form_builds n, fun ho c hc => by
    have := doc_read form_builds n hc ho
    exact ⟨this, fun c' h' => clear_builds.one n _ _ ho h' this⟩⟩

/-- C115: which trees are read as a GitLab file, and what is read; the tree determines it. -/
theorem C115_gitlab (n : Yaml.Node) :
    ((∃ c, unmarshalGitlab n = .ok c) ↔ gitlabForm.fits n) ∧
    (gitlabForm.once n → ∀ c, unmarshalGitlab n = .ok c → gitlabForm.tells n c ∧ ∀ c', gitlabForm.tells n c' → c' = c) :=
  ⟨doc_fits form_gitlab n, fun ho c hc => by
    have := doc_read form_gitlab n hc ho
    exact ⟨this, fun c' h' => clear_gitlab.one n _ _ ho h' this⟩⟩

/-- C115: which trees are read as a Bitbucket file, and what is read; the tree determines it. -/
theorem C115_bitbucket (n : Yaml.Node) :
    ((∃ c, unmarshalBitbucket n = .ok c) ↔ bitbucketForm.fits n) ∧
    (bitbucketForm.once n → ∀ c, unmarshalBitbucket n = .ok c →
      bitbucketForm.tells n c ∧ ∀ c', bitbucketForm.tells n c' → c' = c) :=
  ⟨doc_fits form_bitbucket n, fun ho c hc => by
    have := doc_read form_bitbucket n hc ho
    exact ⟨this, fun c' h' => clear_bitbucket.one n _ _ ho h' this⟩⟩

/-- C115: a section of containers that is given more than once in a legacy file is read as one, in
the order of the file. -/
theorem C115_repeated (text : Scalar → String) (kvs : List (Yaml.Node × Yaml.Node)) (c : Legacy.Config)
    (hc : unmarshalLegacy text (.map kvs) = .ok c) (name : String) (get : Legacy.Config → List Legacy.Container)
    (hn : (name, get) ∈ [("clone", Legacy.Config.clone), ("pipeline", Legacy.Config.pipeline), ("services", Legacy.Config.services)])
    (h : ∀ v ∈ valuesOf kvs name, v ≠ .null ∧ (sectionForm text).once v) :
    ∃ parts, List.Forall₂ (sectionForm text).tells (valuesOf kvs name) parts ∧ get c = parts.flatten := by
  have hfit := (doc_fits (form_legacy text) (.map kvs)).1 ⟨c, hc⟩
  have hall : ∀ v ∈ valuesOf kvs name, (sectionForm text).fits v := by
    intro v hv
    obtain ⟨k, hm, hk⟩ := mem_valuesOf.1 hv
    rcases hfit with h | ⟨kvs', e, hf⟩
    · cases h
    · cases e
      obtain ⟨t, ht, hl⟩ := hf _ hm
      simp only [hk, Option.some.injEq] at ht
      subst ht
      simp only [List.mem_cons, List.not_mem_nil, or_false, Prod.mk.injEq] at hn
      rcases hn with ⟨rfl, _⟩ | ⟨rfl, _⟩ | ⟨rfl, _⟩
      · exact hl (line "clone" Legacy.Config.clone (sectionForm text)) (by simp) rfl
      · exact hl (line "pipeline" Legacy.Config.pipeline (sectionForm text)) (by simp) rfl
      · exact hl (line "services" Legacy.Config.services (sectionForm text)) (by simp) rfl
  obtain ⟨parts, h1, h2⟩ := fill_sections text (valuesOf kvs name) [] fun v hv => ⟨(h v hv).1, hall v hv, (h v hv).2⟩
  refine ⟨parts, h1, ?_⟩
  rw [List.nil_append] at h2
  rw [← h2, doc_val hc, C107_legacy]
  simp only [List.mem_cons, List.not_mem_nil, or_false, Prod.mk.injEq] at hn
  rcases hn with ⟨rfl, rfl⟩ | ⟨rfl, rfl⟩ | ⟨rfl, rfl⟩ <;> rfl

/-- The converters, with their decoders on the trees that `tree` makes of a text. -/
def onTrees (X : ConvertLib) (tree : Bytes → Except String Yaml.Node) (text : Scalar → String) : ConvertLib :=
  { X with
    decode := fun b => (tree b).bind (unmarshalLegacy text)
    matrixList := fun b => (tree b).bind unmarshalMatrixList
    matrixMap := fun b => (tree b).bind unmarshalMatrix
    decodeGitlab := fun b => (tree b).bind unmarshalGitlab
    decodeBitbucket := fun b => (tree b).bind unmarshalBitbucket }

theorem bind_read {α : Type} {t : Except String Yaml.Node} {f : Yaml.Node → Except String α} {P : Yaml.Node → Prop}
    (h : ∀ n, (∃ c, f n = .ok c) ↔ P n) : (∃ e, t.bind f = .error e) ↔ ¬ ∃ n, t = .ok n ∧ P n := by
  cases t with
  | error e => simp [Except.bind]
  | ok n =>
    have := h n
    simp only [Except.bind, Except.ok.injEq, exists_eq_left', ← this]
    cases f n <;> simp

theorem parseMatrix_error (X : Legacy.LegacyLib) (d : Bytes) :
    (∃ e, Legacy.parseMatrix X d = some (.error e)) ↔
      (¬ ∃ l, X.matrixList d = .ok l ∧ l ≠ []) ∧ ∃ e, X.matrixMap d = .error e := by
  unfold Legacy.parseMatrix
  cases hm : X.matrixMap d with
  | error e =>
    cases hl : X.matrixList d with
    | error e' => simp
    | ok l => by_cases hz : l.length = 0 <;> simp_all
  | ok m =>
    cases hl : X.matrixList d with
    | error e' => by_cases hy : m.length = 0 <;> simp_all
    | ok l => by_cases hz : l.length = 0 <;> by_cases hy : m.length = 0 <;> simp_all

theorem axisPipelines_error (X : Legacy.LegacyLib) (p : Pipeline) : ∀ (axes : List (GoMap String)) (n : Nat),
    (∃ e, Legacy.axisPipelines X p n axes = .error e) ↔
      ∃ (i : Nat) (a : GoMap String), axes[i]? = some a ∧ ∃ e, Legacy.toAxis X p (n + i) a = .error e
  | [], n => by simp [Legacy.axisPipelines]
  | a :: axes, n => by
    have ih := axisPipelines_error X p axes (n + 1)
    rw [Legacy.axisPipelines]
    constructor
    · rintro ⟨e, h⟩
      cases ha : Legacy.toAxis X p n a with
      | error e' => exact ⟨0, a, rfl, e', ha⟩
      | ok q =>
        rw [ha] at h
        cases hr : Legacy.axisPipelines X p (n + 1) axes with
        | error e' =>
          obtain ⟨i, b, h1, h2⟩ := ih.1 ⟨e', hr⟩
          exact ⟨i + 1, b, h1, by rwa [Nat.add_assoc, Nat.add_comm 1 i] at h2⟩
        | ok qs => rw [hr] at h; cases h
    · rintro ⟨i, b, h1, e, h2⟩
      cases ha : Legacy.toAxis X p n a with
      | error e' => exact ⟨e', rfl⟩
      | ok q =>
        cases i with
        | zero =>
          simp only [List.getElem?_cons_zero, Option.some.injEq] at h1
          subst h1
          rw [Nat.add_zero, ha] at h2
          cases h2
        | succ i =>
          obtain ⟨e', he⟩ := ih.2 ⟨i, b, h1, e, by rw [Nat.add_assoc, Nat.add_comm 1 i]; exact h2⟩
          exact ⟨e', by rw [he]; rfl⟩

theorem legacy_error (X : Legacy.LegacyLib) (env : Legacy.Env) (d : Bytes) (remote : String) :
    (∃ e, Legacy.convert X env d remote = some (.error e)) ↔
      (∃ e, X.decode (if Legacy.hasMergeKeys d then X.expand d else d) = .error e) ∨
      ∃ c, X.decode (if Legacy.hasMergeKeys d then X.expand d else d) = .ok c ∧ ¬ CrashesLegacy c ∧ c.hasMatrix = true ∧
        ((∃ e, Legacy.parseMatrix X (if Legacy.hasMergeKeys d then X.expand d else d) = some (.error e)) ∨
          ∃ p axes, Legacy.toPipeline X env c remote = some p ∧
            Legacy.parseMatrix X (if Legacy.hasMergeKeys d then X.expand d else d) = some (.ok axes) ∧
            ∃ (i : Nat) (a : GoMap String), axes[i]? = some a ∧ ∃ e, Legacy.toAxis X p i a = .error e) := by
  unfold Legacy.convert
  simp only
  generalize (if Legacy.hasMergeKeys d then X.expand d else d) = d'
  cases hc : X.decode d' with
  | error e => simp
  | ok c =>
    have hcr := toPipeline_none X env c remote
    simp only [reduceCtorEq, exists_false, false_or, Except.ok.injEq, exists_eq_left', Legacy.toManifest]
    cases hp : Legacy.toPipeline X env c remote with
    | none =>
      rw [hp] at hcr
      simp [Outcome.andThen, hcr.1 rfl]
    | some p =>
      rw [hp] at hcr
      have hn : ¬ CrashesLegacy c := fun h => by have := hcr.2 h; cases this
      simp only [Option.bind_some, hn, not_false_eq_true, true_and]
      cases hm : c.hasMatrix with
      | false => simp [Outcome.andThen]
      | true =>
        cases hx : Legacy.parseMatrix X d' with
        | none => simp [Outcome.andThen]
        | some r =>
          cases r with
          | error e => simp [Outcome.andThen]
          | ok axes =>
            have ha := axisPipelines_error X p axes 0
            simp only [Nat.zero_add] at ha
            simp only [Outcome.andThen, if_true, Option.bind_some, Option.some.injEq, reduceCtorEq, exists_false,
              false_or, true_and, Except.ok.injEq, exists_and_left, exists_eq_left', ← ha]
            cases Legacy.axisPipelines X p 0 axes <;> simp

/-- C115: what the converter refuses.  A Bitbucket or GitLab file is refused exactly if it does not fit.
A legacy file is refused if it does not fit, or if it has a matrix that is neither a list of builds
nor fits as axes, or one of whose pipelines cannot be written or read back after its variables have been
replaced.  No other file is refused. -/
theorem C115_refused (X : ConvertLib) (tree : Bytes → Except String Yaml.Node) (text : Scalar → String) (d : Bytes) (m : Metadata) :
    (m.filename = "bitbucket-pipelines.yml" →
      ((∃ e, convert (onTrees X tree text) d m = some (.error e)) ↔ ¬ ∃ n, tree d = .ok n ∧ bitbucketForm.fits n)) ∧
    (m.filename = ".gitlab-ci.yml" →
      ((∃ e, convert (onTrees X tree text) d m = some (.error e)) ↔ ¬ ∃ n, tree d = .ok n ∧ gitlabForm.fits n)) ∧
    (m.filename ≠ "bitbucket-pipelines.yml" → m.filename ≠ ".gitlab-ci.yml" →
      (Legacy.isLegacy d = false → convert (onTrees X tree text) d m = some (.ok d)) ∧
      (Legacy.isLegacy d = true →
        ((∃ e, convert (onTrees X tree text) d m = some (.error e)) ↔
          (¬ ∃ n, tree (if Legacy.hasMergeKeys d then X.expand d else d) = .ok n ∧ (legacyForm text).fits n) ∨
          ∃ n c, tree (if Legacy.hasMergeKeys d then X.expand d else d) = .ok n ∧ unmarshalLegacy text n = .ok c ∧
            ¬ CrashesLegacy c ∧ c.hasMatrix = true ∧
            (((¬ ∃ l, unmarshalMatrixList n = .ok l ∧ l ≠ []) ∧ ¬ axesForm.fits n) ∨
              ∃ p axes, Legacy.toPipeline (onTrees X tree text).toLegacyLib X.env c m.url = some p ∧
                Legacy.parseMatrix (onTrees X tree text).toLegacyLib (if Legacy.hasMergeKeys d then X.expand d else d) = some (.ok axes) ∧
                ∃ (i : Nat) (a : GoMap String), axes[i]? = some a ∧
                  ∃ e, Legacy.toAxis (onTrees X tree text).toLegacyLib p i a = .error e)))) := by
  refine ⟨fun h => ?_, fun h => ?_, fun h1 h2 => ⟨fun h => ?_, fun h => ?_⟩⟩
  · rw [← bind_read fun n => (C115_bitbucket n).1]
    have hb : (onTrees X tree text).decodeBitbucket d = (tree d).bind unmarshalBitbucket := rfl
    unfold convert Bitbucket.convert
    rw [if_pos h, hb]
    cases (tree d).bind unmarshalBitbucket with
    | error e => simp
    | ok c =>
      simp only [reduceCtorEq, exists_false, iff_false, not_exists]
      intro e
      cases Bitbucket.toPipeline (onTrees X tree text).glob (onTrees X tree text).orderStages
        (onTrees X tree text).orderServices c m.ref <;> simp
  · rw [← bind_read fun n => (C115_gitlab n).1]
    have hb : (onTrees X tree text).decodeGitlab d = (tree d).bind unmarshalGitlab := rfl
    unfold convert Gitlab.convert
    rw [if_neg (by rw [h]; decide), if_pos h, hb]
    cases (tree d).bind unmarshalGitlab with
    | error e => simp
    | ok c =>
      simp only [reduceCtorEq, exists_false, iff_false, not_exists]
      intro e
      cases Gitlab.toPipelines (onTrees X tree text).digest (onTrees X tree text).orderJobs c <;> simp
  · unfold convert
    rw [if_neg h1, if_neg h2, h]
    rfl
  · rw [← bind_read fun n => (C115_legacy text n).1]
    unfold convert
    rw [if_neg h1, if_neg h2, h, if_pos rfl, legacy_error]
    show ((∃ e, (tree (if Legacy.hasMergeKeys d then X.expand d else d)).bind (unmarshalLegacy text) = .error e) ∨
      ∃ c, (tree (if Legacy.hasMergeKeys d then X.expand d else d)).bind (unmarshalLegacy text) = .ok c ∧ _) ↔ _
    generalize he : (if Legacy.hasMergeKeys d then X.expand d else d) = d'
    have he' : (if Legacy.hasMergeKeys d then (onTrees X tree text).expand d else d) = d' := he
    rw [he']
    refine or_congr_right ?_
    cases ht : tree d' with
    | error e => simp [Except.bind]
    | ok n =>
      simp only [Except.bind, Except.ok.injEq, exists_and_left, exists_eq_left']
      refine exists_congr fun c => and_congr_right fun _ => and_congr_right fun _ => and_congr_right fun _ => ?_
      have hl : (onTrees X tree text).matrixList d' = unmarshalMatrixList n := by
        show (tree d').bind _ = _
        rw [ht]; rfl
      have hm : (onTrees X tree text).matrixMap d' = unmarshalMatrix n := by
        show (tree d').bind _ = _
        rw [ht]; rfl
      rw [parseMatrix_error, hl, hm, ← (C115_axes n).1]
      refine or_congr_left (and_congr_right fun _ => ?_)
      cases unmarshalMatrix n <;> simp

/-! ### Examples -/

section
open Spec

local macro "entries" : tactic => `(tactic| (
  refine once_obj (by decide +kernel) ?_
  repeat' refine List.forall_mem_cons.mpr ⟨?_, ?_⟩
  all_goals first
    | exact List.forall_mem_nil _
    | exact fun e => absurd e (by decide +kernel)
    | exact fun _ => trivial
    | skip))

theorem once_texts {xs : List Yaml.Node} : sliceForm.once (.seq xs) := fun _ _ _ _ => trivial

theorem not_read {α : Type} {r : Except String α} (h : r.toOption.isNone = true) : ¬ ∃ c, r = .ok c :=
  fun ⟨m, e⟩ => by rw [e] at h; cases h

/-- A GitLab file with two jobs, one of them empty -/
def exGitlabTree : Yaml.Node := .map [(key "image", key "golang"), (key "stages", .seq [key "build", key "test"]),
  (key "services", .seq [key "redis", .map [(key "name", key "mysql"), (key "alias", key "db")]]),
  (key "compile", .map [(key "stage", key "build"), (key "script", .seq [key "go build", .scalar "1" (.int 1)]),
    (key "only", key "master"), (key "unknown", .map [])]),
  (key "deploy", .null)]

theorem exGitlabTree_once : gitlabForm.once exGitlabTree := by
  refine ⟨?_, fun kvs h => ?_⟩
  · unfold gitlabLines
    entries
    · exact fun _ kvs h => (by cases h)
    · intro _ xs h x _
      trivial
    · intro _ xs h
      cases h
      refine List.forall_mem_cons.mpr ⟨fun kvs h => (by cases h), List.forall_mem_cons.mpr ⟨?_, List.forall_mem_nil _⟩⟩
      show (Form.obj _).once _
      entries
  · cases h
    refine ⟨by decide +kernel, ?_⟩
    have : extras gitlabLines [(key "image", key "golang"), (key "stages", .seq [key "build", key "test"]),
        (key "services", .seq [key "redis", .map [(key "name", key "mysql"), (key "alias", key "db")]]),
        (key "compile", .map [(key "stage", key "build"), (key "script", .seq [key "go build", .scalar "1" (.int 1)]),
          (key "only", key "master"), (key "unknown", .map [])]),
        (key "deploy", .null)] = [(key "compile", .map [(key "stage", key "build"), (key "script", .seq [key "go build", .scalar "1" (.int 1)]),
          (key "only", key "master"), (key "unknown", .map [])]), (key "deploy", .null)] := by
      rfl
    rw [this]
    refine List.forall_mem_cons.mpr ⟨?_, List.forall_mem_cons.mpr ⟨obj_once_null, List.forall_mem_nil _⟩⟩
    show gitlabJobForm.once _
    entries
    exact fun _ => once_texts

/-- It is read, and so it is described by what is read. -/
example : gitlabForm.tells exGitlabTree
    { image := { name := "golang" }
      stages := ["build", "test"]
      services := [some { name := "redis" }, some { name := "mysql", «alias» := "db" }]
      jobs := [("compile", some { stage := "build", script := ["go build", "1"] }), ("deploy", none)] } :=
  ((C115_gitlab exGitlabTree).2 exGitlabTree_once _ rfl).1

/-- A text for a job, a list for an image, a map for the stages are refused. -/
example (n : Yaml.Node) (h : n ∈ [.map [(key "include", key "/templates/go.yml")], .map [(key "image", .seq [])],
    .map [(key "stages", .map [])], .map [(key "build", .map [(key "only", .map [])])], .seq [], .map [(.seq [], .null)]]) :
    ¬ gitlabForm.fits n := by
  rw [← (C115_gitlab n).1]
  simp only [List.mem_cons, List.not_mem_nil, or_false] at h
  rcases h with rfl | rfl | rfl | rfl | rfl | rfl <;>
    (refine not_read ?_; decide +kernel)

/-- A Bitbucket file -/
def exBitbucketTree : Yaml.Node := .map [(key "image", key "node"), (key "clone", .map [(key "depth", .scalar "5" (.int 5))]),
  (key "pipelines", .map [(key "default", .seq [.map [(key "step", .map [(key "script", .seq [key "npm test"])])], .map [(key "parallel", .seq [])]]),
    (key "branches", .map [(key "master", .seq [])])]),
  (key "definitions", .map [(key "services", .map [(key "db", .map [(key "image", key "mysql")])]), (key "caches", .map [(key "a", key "b")])])]

theorem exBitbucketTree_once : bitbucketForm.once exBitbucketTree := by
  entries
  · intro _
    show (Form.obj _).once _
    entries
  · intro _
    show (Form.obj _).once _
    entries
    · intro _ xs h
      cases h
      refine List.forall_mem_cons.mpr ⟨?_, List.forall_mem_cons.mpr ⟨?_, List.forall_mem_nil _⟩⟩
      · entries
        intro _
        show bitbucketStepForm.once _
        entries
        exact fun _ xs _ x _ => trivial
      · entries
    · intro _ kvs h
      cases h
      refine ⟨by decide +kernel, List.forall_mem_cons.mpr ⟨?_, List.forall_mem_nil _⟩⟩
      intro xs h
      cases h
      exact List.forall_mem_nil _
  · intro _
    show (Form.obj _).once _
    entries
    intro _ kvs h
    cases h
    refine ⟨by decide +kernel, List.forall_mem_cons.mpr ⟨?_, List.forall_mem_nil _⟩⟩
    show bitbucketStepForm.once _
    entries

example : bitbucketForm.tells exBitbucketTree
    { image := "node", depth := 5
      default_ := [some { script := ["npm test"] }, none]
      branches := [("master", [])]
      services := [("db", some { image := "mysql" })] } :=
  ((C115_bitbucket exBitbucketTree).2 exBitbucketTree_once _ rfl).1

example (n : Yaml.Node) (h : n ∈ [.map [(key "pipelines", .map [(key "default", .map [])])],
    .map [(key "clone", .map [(key "depth", key "full")])], .map [(key "pipelines", .map [(key "default", .seq [key "step"])])],
    .map [(key "definitions", .map [(key "caches", .seq [])])]]) :
    ¬ bitbucketForm.fits n := by
  rw [← (C115_bitbucket n).1]
  simp only [List.mem_cons, List.not_mem_nil, or_false] at h
  rcases h with rfl | rfl | rfl | rfl <;>
    (refine not_read ?_; decide +kernel)

/-- A legacy file: a number as a key of a section, settings, a condition, an environment as a list -/
def exLegacyTree : Yaml.Node := .map [(key "workspace", .map [(key "base", key "/go")]),
  (key "pipeline", .map [
    (key "build", .map [(key "image", key "golang"), (key "commands", key "go build"), (key "volumes", .seq [key "/a:/b:ro"]),
      (key "secrets", .seq [key "token", .scalar "7" (.int 7)])]),
    (.scalar "0x10" (.int 16), .map [(key "image", key "plugins/docker"), (key "tags", .seq [.scalar "1.0" (.int 1)]),
      (key "environment", .seq [key "A=1=2", key "none"]), (key "when", .map [(key "branch", .map [(key "exclude", key "dev")])])])]),
  (key "matrix", .map [(key "GO", .seq [.scalar "1.10" (.float (11 / 10))])])]

/-- How its numbers are written -/
def exNumbers : Scalar → String
  | .int 16 => "16"
  | .int 7 => "7"
  | _ => "1"

theorem exLegacyTree_once : (legacyForm exNumbers).once exLegacyTree := by
  entries
  · intro _
    show (Form.obj _).once _
    entries
  · intro _ kvs h
    cases h
    refine List.forall_mem_cons.mpr ⟨⟨rfl, _, rewrite_rewritten _ _, ?_⟩, List.forall_mem_cons.mpr ⟨⟨rfl, _, rewrite_rewritten _ _, ?_⟩, List.forall_mem_nil _⟩⟩
    · show legacyContainerForm.once (.map [(key "image", key "golang"), (key "commands", key "go build"), (key "volumes", .seq [key "/a:/b:ro"]),
        (key "secrets", .seq [key "token", .scalar "7" (.int 7)])])
      refine ⟨?_, fun kvs h => ?_⟩
      · unfold legacyContainerLines
        entries
        · exact fun _ kvs h => (by cases h)
        · exact fun _ xs _ x _ => trivial
        · intro _ xs h
          cases h
          exact List.forall_mem_cons.mpr ⟨fun _ h => (by cases h), List.forall_mem_cons.mpr ⟨fun _ h => (by cases h), List.forall_mem_nil _⟩⟩
      · cases h
        exact ⟨List.nodup_nil, fun kv h => (by cases h)⟩
    · show legacyContainerForm.once (.map [(key "image", key "plugins/docker"), (key "tags", .seq [.scalar "1" (.int 1)]),
        (key "environment", .seq [key "A=1=2", key "none"]), (key "when", .map [(key "branch", .map [(key "exclude", key "dev")])])])
      refine ⟨?_, fun kvs h => ?_⟩
      · unfold legacyContainerLines
        entries
        · refine fun _ => ⟨fun kvs h => (by cases h), fun ts m h hd => ?_⟩
          rcases h with ⟨h, _⟩ | ⟨xs, h, h1⟩
          · cases h
          · cases h
            have e : ts = ["A=1=2", "none"] := (clear_list clear_str).one (.seq [key "A=1=2", key "none"]) ts _ (fun _ _ _ _ => trivial)
              (.inr ⟨_, rfl, h1⟩) (.inr ⟨_, rfl, .cons rfl (.cons rfl .nil)⟩)
            have e2 : m = [("A", "1=2")] := definitions_one (e ▸ hd) (.take (k := "A") (v := "1=2") (by decide) (.skip (by decide) .nil))
            rw [e2]
            decide
        · intro _
          show constraintsForm.once _
          entries
          intro _ kvs h
          cases h
          intro name hn
          simp
      · cases h
        have : extras legacyContainerLines [(key "image", key "plugins/docker"), (key "tags", .seq [.scalar "1" (.int 1)]),
            (key "environment", .seq [key "A=1=2", key "none"]), (key "when", .map [(key "branch", .map [(key "exclude", key "dev")])])] =
            [(key "tags", .seq [.scalar "1" (.int 1)])] := rfl
        rw [this]
        exact ⟨by decide +kernel, List.forall_mem_cons.mpr ⟨.seq (by simp [Form.Distinct.scalar]), List.forall_mem_nil _⟩⟩

/-- What is read from it -/
example : (legacyForm exNumbers).tells exLegacyTree
    { base := "/go"
      hasMatrix := true
      pipeline := [
        { name := "build", image := "golang", commands := ["go build"], volumes := [some ⟨"/a", "/b"⟩],
          secrets := [some ⟨"token", "token"⟩, some ⟨"7", "7"⟩] },
        { name := "16", image := "plugins/docker", environment := [("A", "1=2")],
          constraints := { branch := { excl := ["dev"] } }, vargs := [("tags", .seq [.int 1])] }] } :=
  ((C115_legacy exNumbers exLegacyTree).2 exLegacyTree_once _ rfl).1

/-- A list as a section, a text as a container, a number as a detach flag, a map as an image, a list as a
key in a matrix, a volume that is a map are refused. -/
example (n : Yaml.Node) (h : n ∈ [.map [(key "pipeline", .seq [])], .map [(key "pipeline", .map [(key "a", key "b")])],
    .map [(key "services", .map [(key "a", .map [(key "detach", .scalar "1" (.int 1))])])],
    .map [(key "clone", .map [(key "a", .map [(key "image", .map [])])])], .map [(key "matrix", .map [(.seq [], .null)])],
    .map [(key "pipeline", .map [(key "a", .map [(key "volumes", .seq [.map []])])])]]) :
    ¬ (legacyForm exNumbers).fits n := by
  rw [← (C115_legacy exNumbers n).1]
  simp only [List.mem_cons, List.not_mem_nil, or_false] at h
  rcases h with rfl | rfl | rfl | rfl | rfl | rfl <;>
    (refine not_read ?_; decide +kernel)

/-- Two sections of the same name: the hypotheses of `C115_repeated` are met, and the containers of both
are there. -/
example (v : Yaml.Node) (h : v ∈ valuesOf [(key "pipeline", .map [(key "a", .null)]), (key "pipeline", .map [(key "b", .null)])] "pipeline") :
    v ≠ .null ∧ (sectionForm exNumbers).once v := by
  have hv : valuesOf [(key "pipeline", .map [(key "a", .null)]), (key "pipeline", .map [(key "b", .null)])] "pipeline" =
    [.map [(key "a", .null)], .map [(key "b", .null)]] := rfl
  rw [hv] at h
  have hn : legacyContainerForm.once .null := clear_legacyContainer.null
  simp only [List.mem_cons, List.not_mem_nil, or_false] at h
  rcases h with rfl | rfl
  all_goals
    refine ⟨by simp, fun kvs h => ?_⟩
    cases h
    exact List.forall_mem_cons.mpr ⟨⟨rfl, _, .null, hn⟩, List.forall_mem_nil _⟩

example : unmarshalLegacy exNumbers (.map [(key "pipeline", .map [(key "a", .null)]), (key "pipeline", .map [(key "b", .null)])]) =
    .ok { pipeline := [{ name := "a" }, { name := "b" }] } := rfl

/-- Axes and builds -/
example : unmarshalMatrix (.map [(key "matrix", .map [(key "GO", .seq [.scalar "1.10" (.float (11 / 10)), key "tip"])])]) =
      .ok [("GO", ["1.10", "tip"])] ∧
    unmarshalMatrixList (.map [(key "matrix", .map [(key "include", .seq [.map [(key "GO", .scalar "1.10" (.float (11 / 10)))]])])]) =
      .ok [[("GO", "1.10")]] ∧
    axesForm.once (.map [(key "matrix", .map [(key "GO", .seq [.scalar "1.10" (.float (11 / 10)), key "tip"])])]) := by
  refine ⟨rfl, rfl, ?_⟩
  entries
  intro _ kvs h
  cases h
  exact ⟨by decide +kernel, List.forall_mem_cons.mpr ⟨fun _ _ _ _ => trivial, List.forall_mem_nil _⟩⟩

end

end Drone
