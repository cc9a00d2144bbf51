/-
Encoding a value and decoding the tree.
-/
import Verif.Model.Marshal
import Verif.Spec.Range
import Verif.Props.Decode
import Verif.Proof.Encode
import Mathlib.Data.Rat.Lemmas

namespace Drone
namespace Yaml
open Spec

/-! ### What can be stored -/

/-- No key is twice in a map, a literal setting has a value that is itself read back, and the numbers
are those of Go. -/
structure _root_.Drone.Spec.StorableContainer (c : Container) : Prop where
  build : ∀ b, c.build = some b → b.args.keys.Nodup ∧ b.labels.keys.Nodup
  environment : c.environment.keys.Nodup
  settings : c.settings.keys.Nodup
  values : ∀ k p, (k, some p) ∈ c.settings → p.secret = "" → Proper (plainNumbers p.value) ∧ ¬ LooksSecret p.value
  cond : c.cond.matrix.keys.Nodup
  ports : ∀ p, some p ∈ c.ports → Fits64 p.port ∧ Fits64 p.host
  memory : ∀ r o, c.resources = some r → (r.limits = some o ∨ r.requests = some o) → Fits64 o.memory

structure _root_.Drone.Spec.StorablePipeline (p : Pipeline) : Prop where
  node : p.node.keys.Nodup
  services : ∀ c, some c ∈ p.services → StorableContainer c
  steps : ∀ c, some c ∈ p.steps → StorableContainer c
  trigger : p.trigger.matrix.keys.Nodup
  depth : Fits64 p.clone.depth
  limit : Fits64 p.concurrency.limit
  sizes : ∀ v e, some v ∈ p.volumes → v.emptyDir = some e → Fits64 e.sizeLimit

def _root_.Drone.Spec.Storable : Resource → Prop
  | .pipeline p => StorablePipeline p
  | .registry r => r.data.keys.Nodup
  | _ => True

theorem toString_ne_fromSecret (i : Int) : toString i ≠ "from_secret" := by
  intro hc
  have h := isNumber_int i
  rw [hc] at h
  exact absurd h (by decide)

/-! ### Building blocks -/

theorem rt_string (s o : String) : decString (encString s) o = { val := s } := rfl
theorem rt_int {i : Int} (h : Fits64 i) (o : Int) : decInt (encInt i) o = { val := i } := if_pos h
theorem rt_bool (b o : Bool) : decBool (encBool b) o = { val := b } := rfl

theorem rt_float (f : Rat → String) (q o : Rat) : decFloat (floatNode f q) o = { val := q } := by
  unfold floatNode
  split
  · rename_i h
    simp only [decFloat]
    congr 1
    exact Rat.coe_int_num_of_den_eq_one h.1
  · rfl

theorem rt_list {α β : Type} {zero : β} {d : Dec β} {e : α → Node} {g : α → β} {l : List α}
    (h : ∀ x ∈ l, d (e x) zero = { val := g x }) (old : List β) :
    decSlice zero d (encList e l) old = { val := l.map g } := by
  unfold encList decSlice
  simp only
  induction l with
  | nil => rfl
  | cons x l ih =>
    have ih := ih fun y hy => h y (List.mem_cons_of_mem _ hy)
    simp only [List.map_cons, decElems, h x List.mem_cons_self, ih]
    rfl

theorem rt_strings (l old : List String) : decStrings (encStrings l) old = { val := l } := by
  have := rt_list (zero := "") (d := decString) (e := encString) (g := id) (l := l) (fun x _ => rfl) old
  rwa [List.map_id] at this

theorem set_new {α : Type} (m : GoMap α) (k : String) (v : α) (h : k ∉ m.keys) : m.set k v = m ++ [(k, v)] := by
  induction m with
  | nil => rfl
  | cons p m ih =>
    obtain ⟨k', v'⟩ := p
    simp only [GoMap.keys, List.map_cons, List.mem_cons, not_or] at h
    simp [GoMap.set, Ne.symm h.1, ih h.2]

theorem rt_entries {α β : Type} {zero : β} {d : Dec β} {e : α → Node} {g : α → β} {m : GoMap α}
    (h : ∀ kv ∈ m, d (e kv.2) zero = { val := g kv.2 }) (hn : m.keys.Nodup) (old : GoMap β)
    (hd : ∀ k ∈ m.keys, k ∉ old.keys) :
    decEntries zero d (m.map fun kv => (encString kv.1, e kv.2)) old =
      { val := old ++ m.map fun kv => (kv.1, g kv.2) } := by
  induction m generalizing old with
  | nil => simp [decEntries]
  | cons p m ih =>
    obtain ⟨k, x⟩ := p
    have hx := h (k, x) List.mem_cons_self
    simp only [GoMap.keys, List.map_cons, List.nodup_cons] at hn
    have hk : k ∉ old.keys := hd k (by simp [GoMap.keys])
    simp only at hx
    simp only [List.map_cons, decEntries, rt_string, hx, Bool.and_self, if_true, Bool.or_self, Bool.and_false]
    rw [set_new _ _ _ hk, ih (fun kv hkv => h kv (List.mem_cons_of_mem _ hkv)) hn.2 _ ?_]
    · simp
    · intro k' hk' hc
      simp only [GoMap.keys, List.map_append, List.map_cons, List.map_nil, List.mem_append, List.mem_singleton] at hc
      rcases hc with hc | rfl
      · exact hd k' (by simp only [GoMap.keys, List.map_cons]; exact List.mem_cons_of_mem _ hk') hc
      · exact hn.1 hk'

theorem rt_map {α β : Type} {zero : β} {d : Dec β} {e : α → Node} {g : α → β} {m : GoMap α}
    (h : ∀ kv ∈ m, d (e kv.2) zero = { val := g kv.2 }) (hn : m.keys.Nodup) :
    decMap zero d (encMap e m) [] = { val := m.map fun kv => (kv.1, g kv.2) } := by
  unfold encMap decMap
  simp only
  rw [rt_entries h hn [] (by simp [GoMap.keys])]
  simp

theorem rt_stringMap {m : GoMap String} (hn : m.keys.Nodup) : decStringMap (encMap encString m) [] = { val := m } := by
  have := rt_map (zero := "") (d := decString) (e := encString) (g := id) (m := m) (fun _ _ => rfl) hn
  simpa [decStringMap] using this

theorem rt_stringMap_into {m o : GoMap String} (hn : m.keys.Nodup) (ho : o = []) :
    decStringMap (encMap encString m) o = { val := m } := ho ▸ rt_stringMap hn

theorem set_same {α : Type} {a b : GoMap α} {k : String} {v : α} (h : k ∉ a.keys) :
    GoMap.set (a ++ (k, v) :: b) k v = a ++ (k, v) :: b := by
  induction a with
  | nil => simp [GoMap.set]
  | cons p a ih =>
    obtain ⟨k', v'⟩ := p
    simp only [GoMap.keys, List.map_cons, List.mem_cons, not_or] at h
    simp only [List.cons_append, GoMap.set, Ne.symm h.1, if_false]
    rw [ih h.2]

/-- Into a map that has the entries already. -/
theorem rt_stringMap_same {m : GoMap String} (hn : m.keys.Nodup) : decStringMap (encMap encString m) m = { val := m } := by
  unfold decStringMap encMap decMap
  simp only
  have key : ∀ a b : GoMap String, (a ++ b).keys.Nodup →
      decEntries "" decString (b.map fun kv => (encString kv.1, encString kv.2)) (a ++ b) = { val := a ++ b } := by
    intro a b
    induction b generalizing a with
    | nil => intro _; simp [decEntries]
    | cons p b ih =>
      obtain ⟨k, x⟩ := p
      intro h
      have hk : k ∉ a.keys := by
        intro hc
        simp only [GoMap.keys, List.map_append, List.map_cons] at h hc
        exact (List.nodup_append.1 h).2.2 k hc k List.mem_cons_self rfl
      simp only [List.map_cons, decEntries, rt_string, Bool.and_self, if_true, Bool.or_self, Bool.and_false]
      rw [set_same hk]
      have := ih (a ++ [(k, x)]) (by simpa using h)
      rw [List.append_assoc] at this
      simp only [List.singleton_append] at this
      rw [this]
      rfl
  exact key [] m hn

theorem rt_ptr {α β : Type} {zero : β} {d : Dec β} {e : α → Node} {g : α → β} {o : Option α}
    (h0 : ∀ x, e x ≠ .null) (h : ∀ x, o = some x → d (e x) zero = { val := g x }) :
    decPtr zero d (encPtr e o) none = { val := o.map g } := by
  cases o with
  | none => rfl
  | some x =>
    have hx := h x rfl
    have h0 := h0 x
    simp only [encPtr, Option.map_some]
    cases he : e x with
    | null => exact absurd he h0
    | _ => rw [he] at hx; simp [decPtr, hx]

theorem rt_ptr_id {α : Type} {zero : α} {d : Dec α} {e : α → Node} {o : Option α}
    (h0 : ∀ x, e x ≠ .null) (h : ∀ x, o = some x → d (e x) zero = { val := x }) :
    decPtr zero d (encPtr e o) none = { val := o } := by
  have := rt_ptr (g := id) h0 h
  simpa using this

/-- A list of pointers. -/
theorem rt_ptrs {α β : Type} {zero : β} {d : Dec β} {e : α → Node} {g : α → β} {l : List (Option α)}
    (h0 : ∀ x, e x ≠ .null) (h : ∀ x, some x ∈ l → d (e x) zero = { val := g x }) (old : List (Option β)) :
    decSlice none (decPtr zero d) (encList (encPtr e) l) old = { val := l.map (Option.map g) } :=
  rt_list (fun _ ho => rt_ptr h0 fun x hx => h x (hx ▸ ho)) old

theorem rt_ptrs_id {α : Type} {zero : α} {d : Dec α} {e : α → Node} {l : List (Option α)}
    (h0 : ∀ x, e x ≠ .null) (h : ∀ x, some x ∈ l → d (e x) zero = { val := x }) (old : List (Option α)) :
    decSlice none (decPtr zero d) (encList (encPtr e) l) old = { val := l } := by
  have := rt_ptrs (g := id) h0 h old
  simpa using this

theorem encFields_ne (l : List (String × Node)) : encFields l ≠ .null := by simp [encFields]

/-! ### Structs -/

theorem fields_step {σ : Type} {f : String → Option (Field σ)} {k : String} {v : Node} {l : List (String × Node)}
    {s s' : σ} {g : Field σ} (h : f k = some g) (hg : g v s = (s', false)) :
    decFields f (((k, v) :: l).map fun kv => (encString kv.1, kv.2)) s =
      decFields f (l.map fun kv => (encString kv.1, kv.2)) s' := by
  have hgood := decFields_good f (l.map fun kv => (encString kv.1, kv.2)) s'
  simp only [List.map_cons, decFields, rt_string, h, if_true, hg, Bool.false_or]
  cases hr : decFields f (l.map fun kv => (encString kv.1, kv.2)) s' with
  | mk v g e => rw [hr] at hgood; simp only at hgood; subst hgood; rfl

theorem field_rt {σ α : Type} {get : σ → α} {set : σ → α → σ} {d : Dec α} {n : Node} {s : σ} {x : α}
    (h : d n (get s) = { val := x }) : field get set d n s = (set s x, false) := by
  simp [field, h]

theorem custom_rt {α : Type} {zero : α} {u : Node → α → α × Bool} {n : Node} {old x : α} (h0 : n ≠ .null)
    (h : u n old = (x, false)) : custom zero u n old = { val := x } := by
  cases n with
  | null => exact absurd rfl h0
  | _ => simp [custom, h]

/-- One field after the other. -/
local macro "fld" t:term : tactic => `(tactic| refine (fields_step rfl (field_rt $t)).trans ?_)

theorem rt_condition (c : Condition) (old : Condition) : decCondition (encCondition c) old = { val := c } := by
  have h3 : decInclExcl (encCondition c) {} = { val := c } := by
    obtain ⟨a, b⟩ := c
    unfold decInclExcl decStruct encCondition encFields
    simp only
    by_cases ha : a.length = 0 <;> by_cases hb : b.length = 0 <;>
      simp only [ha, hb, if_true, if_false, List.nil_append, List.append_nil, List.cons_append]
    · rw [List.length_eq_zero_iff.1 ha, List.length_eq_zero_iff.1 hb]; rfl
    · fld rt_strings _ _
      rw [List.length_eq_zero_iff.1 ha]; rfl
    · fld rt_strings _ _
      rw [List.length_eq_zero_iff.1 hb]; rfl
    · fld rt_strings _ _
      fld rt_strings _ _
      rfl
  refine custom_rt (encFields_ne _) ?_
  unfold unmarshalCondition
  simp only [h3]
  simp [encCondition, encFields, decString, mismatch, decStrings, decSlice]

theorem rt_conditions (c o : Conditions) (h : c.matrix.keys.Nodup) (ho : o.matrix = []) :
    decConditions (encConditions c) o = { val := c } := by
  unfold decConditions decStruct encConditions encFields
  simp only
  iterate 10 (fld rt_condition _ _)
  fld rt_stringMap_into h (by exact ho)
  rfl

theorem rt_conditions_same (c : Conditions) (h : c.matrix.keys.Nodup) : decConditions (encConditions c) c = { val := c } := by
  unfold decConditions decStruct encConditions encFields
  simp only
  iterate 10 (fld rt_condition _ _)
  fld rt_stringMap_same h
  rfl

theorem rt_push (p : Push) : custom {} unmarshalPush (encPush p) {} = { val := p } := by rfl

theorem rt_build (b : Build) (h1 : b.args.keys.Nodup) (h2 : b.labels.keys.Nodup) :
    custom {} unmarshalBuild (encBuild b) {} = { val := b } := by
  have : decBuildLong (encBuild b) {} = { val := b } := by
    unfold decBuildLong decStruct encBuild encFields
    simp only
    fld rt_stringMap h1
    fld rt_strings _ _
    fld rt_string _ _
    fld rt_string _ _
    fld rt_string _ _
    fld rt_stringMap h2
    rfl
  refine custom_rt (encFields_ne _) ?_
  unfold unmarshalBuild
  simp only [this]
  rfl

theorem rt_port (p : Port) (h1 : Fits64 p.port) (h2 : Fits64 p.host) :
    custom {} unmarshalPort (encPort p) {} = { val := p } := by
  have : decPortLong (encPort p) {} = { val := p } := by
    unfold decPortLong decStruct encPort encFields
    simp only
    fld rt_int h1 _
    fld rt_int h2 _
    fld rt_string _ _
    rfl
  refine custom_rt (encFields_ne _) ?_
  unfold unmarshalPort
  simp only [this]
  rfl

theorem rt_bytes (ram : String → Option Int) {i : Int} (h : Fits64 i) (o : Int) :
    decBytes ram (encInt i) o = { val := i } := by
  refine custom_rt (by simp [encInt]) ?_
  unfold unmarshalBytes
  simp only [rt_int h]
  rfl

theorem rt_resourceObject (ram : String → Option Int) (f : Rat → String) (o : ResourceObject) (h : Fits64 o.memory) :
    decResourceObject ram (encResourceObject f o) {} = { val := o } := by
  unfold decResourceObject decStruct encResourceObject encFields
  simp only
  fld rt_float _ _ _
  fld rt_bytes _ h _
  rfl

theorem rt_resources (ram : String → Option Int) (f : Rat → String) (r : Resources)
    (h : ∀ o, (r.limits = some o ∨ r.requests = some o) → Fits64 o.memory) :
    decResources ram (encResources f r) {} = { val := r } := by
  unfold decResources decStruct encResources
  rw [encFields]
  simp only
  fld rt_ptr_id (fun _ => encFields_ne _) fun _ ho => rt_resourceObject _ _ _ (h _ (.inl ho))
  fld rt_ptr_id (fun _ => encFields_ne _) fun _ ho => rt_resourceObject _ _ _ (h _ (.inr ho))
  rfl

theorem rt_device (v : VolumeDevice) : decVolumeDevice (encVolumeDevice v) {} = { val := v } := by rfl
theorem rt_mount (v : VolumeMount) : decVolumeMount (encVolumeMount v) {} = { val := v } := by rfl
theorem rt_emptyDir (ram : String → Option Int) (v : VolumeEmptyDir) (h : Fits64 v.sizeLimit) :
    decVolumeEmptyDir ram (encVolumeEmptyDir v) {} = { val := v } := by
  unfold decVolumeEmptyDir decStruct encVolumeEmptyDir encFields
  simp only
  fld rt_string _ _
  fld rt_bytes _ h _
  rfl
theorem rt_hostPath (v : VolumeHostPath) : decVolumeHostPath (encVolumeHostPath v) {} = { val := v } := by rfl

theorem rt_volume (ram : String → Option Int) (v : Volume) (h : ∀ e, v.emptyDir = some e → Fits64 e.sizeLimit) :
    decVolume ram (encVolume v) {} = { val := v } := by
  unfold decVolume decStruct encVolume
  rw [encFields]
  simp only
  fld rt_string _ _
  fld rt_ptr_id (fun _ => encFields_ne _) fun e he => rt_emptyDir _ _ (h e he)
  fld rt_ptr_id (fun _ => encFields_ne _) fun _ _ => rt_hostPath _
  rfl

theorem rt_variable (o : Option Variable) :
    decPtr {} (custom {} unmarshalVariable) (encPtr marshalVariable o) none = { val := o.bind storedVariable } := by
  cases o with
  | none => rfl
  | some v =>
    obtain ⟨a, b⟩ := v
    simp only [encPtr, Option.bind_some, marshalVariable, storedVariable]
    by_cases hb : b = ""
    · subst hb
      by_cases ha : a = ""
      · subst ha; rfl
      · simp only [ne_eq, not_true_eq_false, if_false, ha, not_false_eq_true, if_true]
        rfl
    · simp only [ne_eq, hb, not_false_eq_true, if_true]
      rfl

theorem valueText_ne {float : Rat → String} (hf : ∀ q, float q ≠ "from_secret") (w : Value) (h : ∀ s, w ≠ .str s) :
    valueText float w ≠ "from_secret" := by
  cases w with
  | bool b => cases b <;> simp [valueText]
  | int i =>
    simp only [valueText]
    intro hc
    exact toString_ne_fromSecret i hc
  | float q => exact hf q
  | str s => exact absurd rfl (h s)
  | _ => simp [valueText]

theorem ptr_param {n : Node} {p : Parameter} (h : decParameter n {} = { val := p }) (hn : n ≠ .null) :
    decPtr {} (custom {} unmarshalParameter) n none = { val := some p } := by
  unfold decParameter at h
  cases n with
  | null => exact absurd rfl hn
  | _ => simp only [decPtr, Option.getD_none, h]

theorem rt_parameter {float : Rat → String} (hf : ∀ q, float q ≠ "from_secret") (o : Option Parameter)
    (h : ∀ p, o = some p → p.secret = "" → Proper (plainNumbers p.value) ∧ ¬ LooksSecret p.value) :
    decPtr {} (custom {} unmarshalParameter) (encPtr (marshalParameter (valueText float)) o) none =
      { val := o.bind storedParameter } := by
  cases o with
  | none => rfl
  | some p =>
    have h := h p rfl
    obtain ⟨h1, h2⟩ := C21_parameter_roundtrip (valueText float) (valueText_ne hf) p
    obtain ⟨v, s⟩ := p
    simp only [encPtr, Option.bind_some, storedParameter] at h h1 h2 ⊢
    by_cases hs : s = ""
    · subst hs
      obtain ⟨hp, hl⟩ := h rfl
      simp only [ne_eq, not_true_eq_false, if_false]
      by_cases hv : v = .str ""
      · subst hv; rfl
      have h2 := h2 rfl hv hp hl
      have hm : marshalParameter (valueText float) { value := v, secret := "" } = valueNode (valueText float) v := by
        simp only [marshalParameter, ne_eq, not_true_eq_false, if_false]
      rw [hm] at h2 ⊢
      cases v with
      | null => rfl
      | str t =>
        split
        · contradiction
        · contradiction
        · exact ptr_param h2 (by simp [valueNode])
      | _ => exact ptr_param h2 (by simp [valueNode, floatNode])
    · have h1 := h1 hs
      simp only [ne_eq, hs, not_false_eq_true, if_true]
      exact ptr_param h1 (by simp [marshalParameter, hs])

theorem rt_container (ram : String → Option Int) {float : Rat → String} (hf : ∀ q, float q ≠ "from_secret")
    (c : Container) (h : StorableContainer c) :
    decContainer ram (encContainer float c) {} = { val := storedContainer c } := by
  unfold decContainer decStruct encContainer
  rw [encFields]
  simp only
  fld rt_ptr_id (fun _ => encFields_ne _) fun b hb => rt_build b (h.build b hb).1 (h.build b hb).2
  fld rt_strings _ _
  fld rt_strings _ _
  fld rt_bool _ _
  fld rt_strings _ _
  fld rt_ptrs_id (fun _ => encFields_ne _) (fun _ _ => rt_device _) _
  fld rt_strings _ _
  fld rt_strings _ _
  fld rt_strings _ _
  fld rt_map (g := fun o => o.bind storedVariable) (fun _ _ => rt_variable _) h.environment
  fld rt_strings _ _
  fld rt_string _ _
  fld rt_string _ _
  fld rt_string _ _
  fld rt_string _ _
  fld rt_ptrs_id (fun _ => encFields_ne _) (fun p hp => rt_port p (h.ports p hp).1 (h.ports p hp).2) _
  fld rt_bool _ _
  fld rt_string _ _
  fld rt_ptr_id (fun _ => encFields_ne _) fun _ _ => rt_push _
  fld rt_ptr_id (fun _ => encFields_ne _) fun r hr => rt_resources _ _ r fun o ho => h.memory r o hr ho
  fld rt_map (g := fun o => o.bind storedParameter) (fun kv hkv => rt_parameter hf _ fun p hp => h.values kv.1 p (hp ▸ hkv)) h.settings
  fld rt_string _ _
  fld rt_string _ _
  fld rt_ptrs_id (fun _ => encFields_ne _) (fun _ _ => rt_mount _) _
  fld rt_conditions c.cond _ h.cond (by rfl)
  fld rt_string _ _
  rfl

theorem rt_clone (c : Clone) (o : Clone) (h : Fits64 c.depth) : decClone (encClone c) o = { val := c } := by
  unfold decClone decStruct encClone encFields
  simp only
  fld rt_bool _ _
  fld rt_int h _
  fld rt_bool _ _
  rfl

theorem rt_concurrency (c : Concurrency) (o : Concurrency) (h : Fits64 c.limit) :
    decConcurrency (encFields [("limit", encInt c.limit)]) o = { val := c } := by
  unfold decConcurrency decStruct encFields
  simp only
  fld rt_int h _
  rfl

theorem rt_platform (c : Platform) (o : Platform) : decPlatform (encPlatform c) o = { val := c } := by rfl

/-- Into a pipeline that has no entries in its maps already. -/
theorem rt_pipeline_into (ram : String → Option Int) {float : Rat → String} (hf : ∀ q, float q ≠ "from_secret")
    (p o : Pipeline) (h : StorablePipeline p) (ho : o.node = []) (ht : o.trigger.matrix = []) :
    decPipeline ram (encPipeline float p) o = { val := storedPipeline p } := by
  unfold decPipeline decStruct encPipeline
  rw [encFields]
  simp only
  fld rt_string _ _
  fld rt_string _ _
  fld rt_string _ _
  fld rt_string _ _
  fld rt_clone _ _ h.depth
  fld rt_concurrency _ _ h.limit
  fld rt_strings _ _
  fld rt_stringMap_into h.node (by exact ho)
  fld rt_platform _ _
  fld rt_strings _ _
  fld rt_ptrs (fun _ => encFields_ne _) (fun c hc => rt_container ram hf c (h.services c hc)) _
  fld rt_ptrs (fun _ => encFields_ne _) (fun c hc => rt_container ram hf c (h.steps c hc)) _
  fld rt_conditions p.trigger _ h.trigger (by exact ht)
  fld rt_ptrs_id (fun _ => encFields_ne _) (fun v hv => rt_volume _ v fun e he => h.sizes v e hv he) _
  fld (show decWorkspace _ _ = { val := p.workspace } from rfl)
  rfl

theorem rt_pipeline (ram : String → Option Int) {float : Rat → String} (hf : ∀ q, float q ≠ "from_secret")
    (p : Pipeline) (h : StorablePipeline p) :
    decPipeline ram (encPipeline float p) {} = { val := storedPipeline p } := rt_pipeline_into ram hf p {} h rfl rfl

theorem doc_ok {σ : Type} {zero x : σ} {f : String → Option (Field σ)} {n : Node} (h : decStruct zero f n zero = { val := x }) :
    unmarshalDoc zero f n = .ok x := by
  simp [unmarshalDoc, h]

theorem nested_rt {σ : Type} {reset : σ → σ} {f : String → Option (Field σ)} {kvs : List (Node × Node)} {s s' : σ}
    (h : decFields f kvs s = { val := s' }) : nested reset f (.map kvs) s = (s', false) := by
  simp [nested, h]

/-- Every resource that can be stored is read back, but for what `storedResource` says. -/
theorem rt_resource (ram : String → Option Int) {float : Rat → String} (hf : ∀ q, float q ≠ "from_secret")
    (r : Resource) (h : Storable r) :
    unmarshalResource ram r.resType (encResource float r) = .ok (storedResource r) := by
  cases r with
  | cron c =>
    simp only [Resource.resType, encResource, unmarshalResource, storedResource]
    rw [doc_ok (x := c)]
    · rfl
    · rfl
  | secret c =>
    simp only [Resource.resType, encResource, unmarshalResource, storedResource]
    rw [doc_ok (x := c)]
    · rfl
    · rfl
  | signature c =>
    simp only [Resource.resType, encResource, unmarshalResource, storedResource]
    rw [doc_ok (x := c)]
    · rfl
    · rfl
  | registry c =>
    simp only [Resource.resType, encResource, unmarshalResource, storedResource]
    rw [doc_ok (x := c)]
    · rfl
    · unfold decStruct encRegistry
      rw [encFields]
      simp only
      fld rt_string _ _
      fld rt_string _ _
      fld rt_string _ _
      fld rt_stringMap h
      rfl
  | pipeline p =>
    simp only [Resource.resType, encResource, unmarshalResource, storedResource]
    rw [doc_ok (rt_pipeline ram hf p h)]
    rfl

end Yaml
end Drone
