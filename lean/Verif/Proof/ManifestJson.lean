/-
Encoding a value as JSON and decoding the tree.
-/
import Verif.Spec.Range
import Verif.Spec.ManifestJson
import Verif.Proof.Float64
import Verif.Proof.Marshal
import Verif.Props.FloatText

namespace Drone
namespace Json
open Spec

/-! ### Numbers -/

theorem toFloat_exact {q : Rat} (h : Float64 q) : toFloat q = q := by
  obtain ⟨m, e, hm, he, rfl⟩ := h
  have hp := F64.pow2_pos e
  unfold toFloat
  split
  · rename_i hn
    rw [F64.round_exact (m := -m) (e := e) (by linarith) (by push_cast; ring) (by omega) he]
    ring
  · split
    · rename_i h0; exact h0.symm
    · rename_i h1 h2
      exact F64.round_exact (lt_of_le_of_ne (not_lt.1 h1) (Ne.symm h2)) rfl (by omega) he

theorem float64_int {i : Int} (h : i.natAbs ≤ 2 ^ 53) : Float64 i := by
  by_cases hi : i.natAbs = 2 ^ 53
  · rcases Int.natAbs_eq i with h1 | h1
    · refine ⟨1, 53, by decide, by decide, ?_⟩
      rw [h1, hi, F64.pow2_eq]; norm_num
    · refine ⟨-1, 53, by decide, by decide, ?_⟩
      rw [h1, hi, F64.pow2_eq]; norm_num
  · exact ⟨i, 0, by omega, by decide, by rw [F64.pow2_eq]; norm_num⟩

theorem toFloat_eq (v : Rat) : toFloat v = toFloat64 v := by
  unfold toFloat toFloat64
  by_cases h : v = 0
  · subst h; simp
  · simp [h]

theorem toFloat_toFloat (q : Rat) : toFloat (toFloat q) = toFloat q := by
  rw [toFloat_eq, toFloat_eq]
  exact toFloat_eq _ ▸ toFloat_exact (FloatText.isFloat_iff.1 (FloatText.isFloat_toFloat q))

/-- The value of a text without decimal point and exponent. -/
theorem read_wholeOf {s : List Char} {v : Rat} (h : readNumber s = some v) (h1 : '.' ∉ s) (h2 : 'e' ∉ s) :
    v = wholeOf s ∧ (∃ ds, AllDigits ds ∧ (s = ds ∨ s = '-' :: ds)) := by
  have key : ∀ {s : List Char} {v : Rat}, readUnsigned s = some v → '.' ∉ s → 'e' ∉ s → v = digitsNumber s ∧ AllDigits s := by
    intro s v h h1 h2
    unfold readUnsigned at h
    dsimp only at h
    have hs : s.takeWhile Char.isDigit ++ s.dropWhile Char.isDigit = s := List.takeWhile_append_dropWhile
    split at h
    · cases h
    · rename_i hne
      split at h
      · rename_i r g
        exact absurd (by rw [← hs, g]; simp) h1
      · simp only [Option.map_eq_some_iff] at h
        obtain ⟨e, h, rfl⟩ := h
        generalize hg : s.dropWhile Char.isDigit = r at *
        unfold readExponent at h
        split at h
        · cases h
          rw [List.append_nil] at hs
          rw [hs] at hne ⊢
          refine ⟨by simp, hne, ?_⟩
          intro c hc
          rw [← hs] at hc
          exact List.mem_takeWhile_imp hc
        · exact absurd (by rw [← hs]; simp) h2
        · exact absurd (by rw [← hs]; simp) h2
        · cases h
  unfold readNumber at h
  split at h
  · rename_i r
    simp only [Option.map_eq_some_iff] at h
    obtain ⟨w, h, rfl⟩ := h
    obtain ⟨h3, h4⟩ := key h (by simpa using h1) (by simpa using h2)
    refine ⟨?_, r, h4, .inr rfl⟩
    rw [h3]
    simp [wholeOf, digitsNumber]
  · rename_i hn
    obtain ⟨h3, h4⟩ := key h h1 h2
    refine ⟨?_, s, h4, .inl rfl⟩
    rw [h3]
    unfold wholeOf
    split
    · exact absurd rfl (hn _)
    · simp [digitsNumber]

theorem encFloat_cases (q : Rat) : (∃ i : Int, encFloat q = .int i ∧ toFloat i = toFloat q) ∨ encFloat q = .float (toFloat q) := by
  unfold encFloat
  split
  · exact .inr rfl
  · rename_i h
    rw [not_or] at h
    have hq : Float64 (toFloat q) := by
      rw [toFloat_eq]
      exact FloatText.isFloat_iff.1 (FloatText.isFloat_toFloat q)
    obtain ⟨v, h1, -, h2⟩ := C123_read _ hq
    obtain ⟨h3, -⟩ := read_wholeOf h2 h.1 h.2
    refine .inl ⟨_, rfl, ?_⟩
    rw [← h3, toFloat_eq v, h1]

theorem rt_float (q o : Rat) : decFloat (encFloat q) o = (toFloat q, false) := by
  rcases encFloat_cases q with ⟨i, h, h2⟩ | h <;> rw [h]
  · simp only [decFloat, h2]
  · simp only [decFloat, toFloat_toFloat]

mutual
theorem rt_value (v : Value) (h : plain v = true) : anyValue (encValue v) = floats v := by
  match v with
  | .null | .bool _ | .str _ | .int _ => rfl
  | .float q =>
    rw [encValue]
    rcases encFloat_cases q with ⟨i, h, h2⟩ | h <;> rw [h]
    · simp only [anyValue, floats, h2]
    · simp only [anyValue, floats, toFloat_toFloat]
  | .seq xs =>
    rw [plain] at h
    rw [encValue, anyValue, floats, rt_values xs h]
  | .map _ => simp [plain] at h
theorem rt_values (xs : List Value) (h : plains xs = true) : anyValues (encValues xs) = floatsList xs := by
  match xs with
  | [] => rfl
  | x :: xs =>
    rw [plains, Bool.and_eq_true] at h
    rw [encValues, anyValues, floatsList, rt_value x h.1, rt_values xs h.2]
end

/-! ### Building blocks -/

theorem rt_elems {α β : Type} {zero : β} {d : Dec β} {e : α → Tree} {g : α → β} {l : List α}
    (h : ∀ x ∈ l, d (e x) zero = (g x, false)) : decElems zero d (l.map e) = (l.map g, false) := by
  induction l with
  | nil => rfl
  | cons x l ih =>
    simp only [List.map_cons, decElems, h x List.mem_cons_self, ih fun y hy => h y (List.mem_cons_of_mem _ hy)]
    rfl

theorem rt_entries {α β : Type} {zero : β} {d : Dec β} {e : α → Tree} {g : α → β} {m : GoMap α}
    (h : ∀ kv ∈ m, d (e kv.2) zero = (g kv.2, false)) (hn : m.keys.Nodup) (old : GoMap β)
    (hd : ∀ k ∈ m.keys, k ∉ old.keys) :
    decEntries zero d (m.map fun kv => (kv.1, e kv.2)) old = (old ++ m.map fun kv => (kv.1, g kv.2), false) := by
  induction m generalizing old with
  | nil => simp [decEntries]
  | cons kv m ih =>
    obtain ⟨k, v⟩ := kv
    simp only [GoMap.keys, List.map_cons, List.nodup_cons] at hn
    have hk : k ∉ old.keys := hd k (by simp [GoMap.keys])
    have h1 := h (k, v) List.mem_cons_self
    simp only at h1
    simp only [List.map_cons, decEntries, h1]
    rw [Yaml.set_new old k _ hk, ih (fun x hx => h x (List.mem_cons_of_mem _ hx)) hn.2]
    · simp
    · intro k' hk' hc
      simp only [GoMap.keys, List.map_append, List.map_cons, List.map_nil, List.mem_append, List.mem_singleton] at hc
      rcases hc with hc | rfl
      · exact hd k' (by simp only [GoMap.keys, List.map_cons]; exact List.mem_cons_of_mem _ hk') hc
      · exact hn.1 hk'

section
variable {fold : String → String → Bool} {σ : Type} {fs : List (Field σ)} {l : List (String × Bool × Tree)} {s : σ} {k n : String}

theorem step {α : Type} {get : σ → α} {set : σ → α → σ} {d : Dec α} {keep : Bool} {t : Tree} {v : α}
    (hf : findField fold fs k = some (field n get set d).2) (h1 : keep = true → d t (get s) = (v, false))
    (h2 : keep = false → set s v = s) :
    decStruct fold fs (encObj ((k, keep, t) :: l)) s = decStruct fold fs (encObj l) (set s v) := by
  unfold encObj decStruct
  simp only [List.filterMap_cons]
  cases keep with
  | true =>
    simp only [if_true, decFields, hf]
    simp only [field, h1 rfl]
    simp
  | false =>
    rw [h2 rfl]
    rfl

theorem step_str {get : σ → String} {set : σ → String → σ} {v : String}
    (hf : findField fold fs k = some (field n get set decStr).2) (h2 : set s "" = s) :
    decStruct fold fs (encObj (encStr k v :: l)) s = decStruct fold fs (encObj l) (set s v) := by
  refine step hf (fun _ => rfl) fun h => ?_
  rw [show v = "" by simpa using h, h2]

theorem step_bool {get : σ → Bool} {set : σ → Bool → σ} {v : Bool}
    (hf : findField fold fs k = some (field n get set decBool).2) (h2 : set s false = s) :
    decStruct fold fs (encObj (encBool k v :: l)) s = decStruct fold fs (encObj l) (set s v) := by
  refine step hf (fun _ => rfl) fun h => ?_
  rw [h, h2]

theorem step_int {get : σ → Int} {set : σ → Int → σ} {v : Int}
    (hf : findField fold fs k = some (field n get set decInt).2) (h2 : set s 0 = s) (hv : Fits64 v) :
    decStruct fold fs (encObj (encInt k v :: l)) s = decStruct fold fs (encObj l) (set s v) := by
  refine step hf (fun _ => if_pos hv) fun h => ?_
  rw [show v = 0 by simpa using h, h2]

theorem step_list {α β : Type} {get : σ → List β} {set : σ → List β → σ} {zero : β} {d : Dec β} {e : α → Tree}
    {g : α → β} {v : List α} (hf : findField fold fs k = some (field n get set (decSlice zero d)).2)
    (h2 : set s [] = s) (h : ∀ x ∈ v, d (e x) zero = (g x, false)) :
    decStruct fold fs (encObj (encList k e v :: l)) s = decStruct fold fs (encObj l) (set s (v.map g)) := by
  refine step hf (fun _ => rt_elems h) fun hv => ?_
  rw [show v = [] by simpa using hv, List.map_nil, h2]

theorem step_strs {get : σ → List String} {set : σ → List String → σ} {v : List String}
    (hf : findField fold fs k = some (field n get set decStrs).2) (h2 : set s [] = s) :
    decStruct fold fs (encObj (encStrs k v :: l)) s = decStruct fold fs (encObj l) (set s v) := by
  have := step_list (l := l) (e := Tree.str) (g := id) (v := v) hf h2 fun _ _ => rfl
  rwa [List.map_id] at this

theorem step_map {α β : Type} {get : σ → GoMap β} {set : σ → GoMap β → σ} {zero : β} {d : Dec β} {e : α → Tree}
    {g : α → β} {v : GoMap α} (hf : findField fold fs k = some (field n get set (decMap zero d)).2)
    (h0 : get s = []) (h2 : set s [] = s) (hn : v.keys.Nodup) (h : ∀ kv ∈ v, d (e kv.2) zero = (g kv.2, false)) :
    decStruct fold fs (encObj (encMap k e v :: l)) s =
      decStruct fold fs (encObj l) (set s (v.map fun kv => (kv.1, g kv.2))) := by
  refine step hf (fun _ => ?_) fun hv => ?_
  · rw [h0]
    refine (rt_entries h hn [] (by simp [GoMap.keys])).trans ?_
    simp
  · rw [show v = [] by simpa using hv, List.map_nil, h2]

theorem step_strMap {get : σ → GoMap String} {set : σ → GoMap String → σ} {v : GoMap String}
    (hf : findField fold fs k = some (field n get set decStrMap).2) (h0 : get s = []) (h2 : set s [] = s)
    (hn : v.keys.Nodup) :
    decStruct fold fs (encObj (encMap k .str v :: l)) s = decStruct fold fs (encObj l) (set s v) := by
  have := step_map (l := l) (e := Tree.str) (g := id) (v := v) hf h0 h2 hn fun _ _ => rfl
  simpa using this

theorem rt_ptr {α β : Type} {zero : β} {d : Dec β} {e : α → Tree} {g : α → β} {o : Option α} {old : Option β}
    (ho : old.getD zero = zero) (he : ∀ x, e x ≠ .null) (h : ∀ x, o = some x → d (e x) zero = (g x, false)) :
    decPtr zero d (encPtr e o) old = (o.map g, false) := by
  cases o with
  | none => rfl
  | some x =>
    have hx := h x rfl
    have hn := he x
    simp only [encPtr, Option.map_some]
    rw [← ho] at hx
    generalize e x = t at *
    cases t with
    | null => exact absurd rfl hn
    | _ => simp only [decPtr, hx]

theorem step_ptr {α β : Type} {get : σ → Option β} {set : σ → Option β → σ} {zero : β} {d : Dec β} {e : α → Tree}
    {g : α → β} {v : Option α} (hf : findField fold fs k = some (field n get set (decPtr zero d)).2)
    (h0 : get s = none) (h2 : set s none = s) (he : ∀ x, e x ≠ .null)
    (h : ∀ x, v = some x → d (e x) zero = (g x, false)) :
    decStruct fold fs (encObj (encPtrField k e v :: l)) s = decStruct fold fs (encObj l) (set s (v.map g)) := by
  refine step hf (fun _ => ?_) fun hv => ?_
  · exact rt_ptr (by rw [h0]; rfl) he h
  · rw [show v = none by simpa using hv, Option.map_none, h2]

theorem step_ptr_id {α : Type} {get : σ → Option α} {set : σ → Option α → σ} {zero : α} {d : Dec α} {e : α → Tree}
    {v : Option α} (hf : findField fold fs k = some (field n get set (decPtr zero d)).2)
    (h0 : get s = none) (h2 : set s none = s) (he : ∀ x, e x ≠ .null)
    (h : ∀ x, v = some x → d (e x) zero = (x, false)) :
    decStruct fold fs (encObj (encPtrField k e v :: l)) s = decStruct fold fs (encObj l) (set s v) := by
  have := step_ptr (l := l) (g := id) hf h0 h2 he h
  simpa using this

theorem step_struct {α : Type} {get : σ → α} {set : σ → α → σ} {d : Dec α} {t : Tree} {v : α}
    (hf : findField fold fs k = some (field n get set d).2) (h1 : d t (get s) = (v, false)) :
    decStruct fold fs (encObj (encStruct k t :: l)) s = decStruct fold fs (encObj l) (set s v) :=
  step hf (fun _ => h1) (by simp)

theorem step_end : decStruct fold fs (encObj []) s = (s, false) := rfl

end

theorem encObj_ne (l : List (String × Bool × Tree)) : encObj l ≠ .null := by simp [encObj]

local macro "str" : tactic => `(tactic| refine (step_str rfl rfl).trans ?_)
local macro "strs" : tactic => `(tactic| refine (step_strs rfl rfl).trans ?_)
local macro "bool" : tactic => `(tactic| refine (step_bool rfl rfl).trans ?_)
local macro "int" t:term : tactic => `(tactic| refine (step_int rfl rfl $t).trans ?_)
local macro "sub" t:term : tactic => `(tactic| refine (step_struct rfl (by exact $t)).trans ?_)

section
variable {fold : String → String → Bool}

theorem rt_condition (c : Condition) : decCondition fold (encCondition c) {} = (c, false) := by
  unfold decCondition encCondition
  strs; strs; rfl

theorem rt_conditions (c : Conditions) (h : c.matrix.keys.Nodup) :
    decConditions fold (encConditions c) {} = (c, false) := by
  unfold decConditions encConditions
  iterate 10 (sub (rt_condition _))
  refine (step_strMap rfl rfl rfl h).trans ?_
  rfl

theorem rt_variable (v : Variable) : decVariable fold (encVariable v) {} = (v, false) := by
  unfold decVariable encVariable
  str; str; rfl

theorem rt_parameter (p : Parameter) (h : plain p.value = true) :
    decParameter fold (encParameter p) {} = ({ p with value := floats p.value }, false) := by
  unfold decParameter encParameter
  refine (step (v := floats p.value) rfl (fun _ => ?_) fun hv => ?_).trans ?_
  · simp only [decAny, rt_value _ h]
  · cases hp : p.value <;> simp_all [isNull, floats]
  · str; rfl

theorem rt_build (b : Build) (h1 : b.args.keys.Nodup) (h2 : b.labels.keys.Nodup) :
    decBuild fold (encBuild b) {} = (b, false) := by
  unfold decBuild encBuild
  refine (step_strMap rfl rfl rfl h1).trans ?_
  strs; str; str; str
  refine (step_strMap rfl rfl rfl h2).trans ?_
  rfl

theorem rt_push (p : Push) : decPush fold (encPush p) {} = (p, false) := by
  unfold decPush encPush
  str; rfl

theorem rt_port (p : Port) (h1 : Fits64 p.port) (h2 : Fits64 p.host) : decPort fold (encPort p) {} = (p, false) := by
  unfold decPort encPort
  int h1; int h2; str; rfl

theorem rt_resourceObject (o : ResourceObject) (h : Float64 o.cpu) (h2 : Fits64 o.memory) :
    decResourceObject fold (encResourceObject o) {} = (o, false) := by
  unfold decResourceObject encResourceObject
  refine (step (v := o.cpu) rfl (fun _ => ?_) (by simp)).trans ?_
  · rw [rt_float, toFloat_exact h]
  refine (step (v := o.memory) rfl (fun _ => if_pos h2) (by simp)).trans ?_
  rfl

theorem rt_resources (r : Resources)
    (h : ∀ o, r.limits = some o ∨ r.requests = some o → Float64 o.cpu ∧ Fits64 o.memory) :
    decResources fold (encResources r) {} = (r, false) := by
  unfold decResources encResources
  refine (step_ptr_id rfl rfl rfl (fun _ => encObj_ne _) fun o ho => rt_resourceObject o (h o (.inl ho)).1 (h o (.inl ho)).2).trans ?_
  refine (step_ptr_id rfl rfl rfl (fun _ => encObj_ne _) fun o ho => rt_resourceObject o (h o (.inr ho)).1 (h o (.inr ho)).2).trans ?_
  rfl

theorem rt_device (v : VolumeDevice) : decVolumeDevice fold (encVolumeDevice v) {} = (v, false) := by
  unfold decVolumeDevice encVolumeDevice
  str; str; rfl

theorem rt_mount (v : VolumeMount) : decVolumeMount fold (encVolumeMount v) {} = (v, false) := by
  unfold decVolumeMount encVolumeMount
  str; str; rfl

theorem rt_emptyDir (v : VolumeEmptyDir) (h : Fits64 v.sizeLimit) :
    decVolumeEmptyDir fold (encVolumeEmptyDir v) {} = (v, false) := by
  unfold decVolumeEmptyDir encVolumeEmptyDir
  str; int h; rfl

theorem rt_hostPath (v : VolumeHostPath) : decVolumeHostPath fold (encVolumeHostPath v) {} = (v, false) := by
  unfold decVolumeHostPath encVolumeHostPath
  str; rfl

theorem rt_volume (v : Volume) (h : ∀ e, v.emptyDir = some e → Fits64 e.sizeLimit) :
    decVolume fold (encVolume v) {} = (v, false) := by
  unfold decVolume encVolume
  str
  refine (step_ptr_id rfl rfl rfl (fun _ => encObj_ne _) fun e he => rt_emptyDir e (h e he)).trans ?_
  refine (step_ptr_id rfl rfl rfl (fun _ => encObj_ne _) fun _ _ => rt_hostPath _).trans ?_
  rfl

/-- No key is twice in a map, and numbers are those of Go. -/
structure _root_.Drone.Spec.JsonContainer (c : Container) : Prop where
  build : ∀ b, c.build = some b → b.args.keys.Nodup ∧ b.labels.keys.Nodup
  environment : c.environment.keys.Nodup
  settings : c.settings.keys.Nodup
  cond : c.cond.matrix.keys.Nodup
  ports : ∀ p, some p ∈ c.ports → Fits64 p.port ∧ Fits64 p.host
  limits : ∀ r, c.resources = some r → ∀ o, r.limits = some o ∨ r.requests = some o → Float64 o.cpu ∧ Fits64 o.memory

/-- List of pointers -/
theorem rt_ptrs {α : Type} {zero : α} {d : Dec α} {e : α → Tree} (he : ∀ x, e x ≠ .null)
    {o : Option α} (h : ∀ x, o = some x → d (e x) zero = (x, false)) : decPtr zero d (encPtr e o) none = (o, false) := by
  have := rt_ptr (old := none) (g := id) (o := o) rfl he h
  simpa using this

theorem rt_container (c : Container) (h : JsonContainer c) (hp : plainContainer c = true) :
    decContainer fold (encContainer c) {} = (jsonContainer c, false) := by
  unfold decContainer encContainer
  refine (step_ptr_id rfl rfl rfl (fun _ => encObj_ne _) fun b hb => rt_build b (h.build b hb).1 (h.build b hb).2).trans ?_
  strs; strs; bool; strs
  refine (step_list rfl rfl fun x _ => rt_ptrs (fun _ => encObj_ne _) fun y _ => rt_device y).trans ?_
  strs; strs; strs
  refine (step_map (g := id) rfl rfl rfl h.environment fun kv _ => rt_ptrs (fun _ => encObj_ne _) fun y _ => rt_variable y).trans ?_
  strs; str; str; str; str
  refine (step_list rfl rfl fun x hx => rt_ptrs (fun _ => encObj_ne _) fun p hp =>
    rt_port p (h.ports p (hp ▸ hx)).1 (h.ports p (hp ▸ hx)).2).trans ?_
  bool; str
  refine (step_ptr_id rfl rfl rfl (fun _ => encObj_ne _) fun _ _ => rt_push _).trans ?_
  refine (step_ptr_id rfl rfl rfl (fun _ => encObj_ne _) fun r hr => rt_resources r (h.limits r hr)).trans ?_
  refine (step_map (g := Option.map fun p : Parameter => { p with value := floats p.value }) rfl rfl rfl h.settings fun kv hkv => rt_ptr (g := fun p : Parameter => { p with value := floats p.value })
    rfl (fun _ => encObj_ne _) fun p hp' => rt_parameter p ?_).trans ?_
  · have := List.all_eq_true.1 hp kv hkv
    rw [hp'] at this
    exact this
  str; str
  refine (step_list rfl rfl fun x _ => rt_ptrs (fun _ => encObj_ne _) fun y _ => rt_mount y).trans ?_
  sub (rt_conditions _ h.cond)
  str
  simp only [List.map_id', Prod.mk.eta, id_eq]
  rfl

/-- No key is twice in a map, and numbers are those of Go. -/
structure _root_.Drone.Spec.JsonPipeline (p : Pipeline) : Prop where
  node : p.node.keys.Nodup
  services : ∀ c, some c ∈ p.services → JsonContainer c
  steps : ∀ c, some c ∈ p.steps → JsonContainer c
  trigger : p.trigger.matrix.keys.Nodup
  depth : Fits64 p.clone.depth
  limit : Fits64 p.concurrency.limit
  sizes : ∀ v, some v ∈ p.volumes → ∀ e, v.emptyDir = some e → Fits64 e.sizeLimit

theorem rt_pipeline (p : Pipeline) (h : JsonPipeline p) (hp : plainResource (.pipeline p) = true) :
    decPipeline fold (encPipeline p) {} =
      ({ p with services := p.services.map (Option.map jsonContainer), steps := p.steps.map (Option.map jsonContainer) },
       false) := by
  have hq : ∀ c, some c ∈ p.services ++ p.steps → plainContainer c = true := fun c hc => List.all_eq_true.1 hp _ hc
  unfold decPipeline encPipeline
  str; str; str; str
  refine (step_struct (v := p.clone) rfl ?_).trans ?_
  · refine Eq.trans (b := decClone fold (encClone p.clone) {}) rfl ?_
    unfold decClone encClone
    bool; int h.depth; bool; rfl
  refine (step_struct (v := p.concurrency) rfl ?_).trans ?_
  · refine Eq.trans (b := decConcurrency fold (encObj [encInt "limit" p.concurrency.limit]) {}) rfl ?_
    unfold decConcurrency
    int h.limit; rfl
  strs
  refine (step_strMap rfl rfl rfl h.node).trans ?_
  refine (step_struct (v := p.platform) rfl ?_).trans ?_
  · refine Eq.trans (b := decPlatform fold (encPlatform p.platform) {}) rfl ?_
    unfold decPlatform encPlatform
    str; str; str; str; rfl
  strs
  refine (step_list (g := Option.map jsonContainer) rfl rfl fun x hx => rt_ptr rfl (fun _ => encObj_ne _) fun c hc => ?_).trans ?_
  · exact rt_container c (h.services c (hc ▸ hx)) (hq c (List.mem_append_left _ (hc ▸ hx)))
  refine (step_list (g := Option.map jsonContainer) rfl rfl fun x hx => rt_ptr rfl (fun _ => encObj_ne _) fun c hc => ?_).trans ?_
  · exact rt_container c (h.steps c (hc ▸ hx)) (hq c (List.mem_append_right _ (hc ▸ hx)))
  sub (rt_conditions _ h.trigger)
  refine (step_list (g := id) rfl rfl fun x hx => rt_ptrs (fun _ => encObj_ne _) fun v hv =>
    rt_volume v (h.sizes v (hv ▸ hx))).trans ?_
  refine (step_struct (v := p.workspace) rfl ?_).trans ?_
  · refine Eq.trans (b := decWorkspace fold (encWorkspace p.workspace) {}) rfl ?_
    unfold decWorkspace encWorkspace
    str; str; rfl
  simp only [List.map_id]
  rfl

theorem rt_cron (c : Cron) : decCron fold (encCron c) {} = (c, false) := by
  unfold decCron encCron
  str; str; str; str
  refine (step_struct (v := ⟨c.schedule, c.branch, ⟨c.deployTarget⟩⟩) rfl ?_).trans ?_
  · refine Eq.trans (b := decCronSpec fold (encObj [encStr "schedule" c.schedule, encStr "branch" c.branch,
        encStruct "deployment" (encObj [encStr "target" c.deployTarget])]) {}) rfl ?_
    unfold decCronSpec
    str; str
    refine (step_struct (v := ⟨c.deployTarget⟩) rfl ?_).trans ?_
    · refine Eq.trans (b := decCronDeployment fold (encObj [encStr "target" c.deployTarget]) {}) rfl ?_
      unfold decCronDeployment
      str; rfl
    rfl
  rfl

theorem rt_secret (s : Secret) : decSecret fold (encSecret s) {} = (s, false) := by
  unfold decSecret encSecret
  str; str; str; str; str
  refine (step_struct (v := s.get) rfl ?_).trans ?_
  · refine Eq.trans (b := decSecretGet fold (encObj [encStr "path" s.get.path, encStr "name" s.get.name,
      encStr "key" s.get.key]) {}) rfl ?_
    unfold decSecretGet
    str; str; str; rfl
  rfl

theorem rt_registry (r : Registry) (h : r.data.keys.Nodup) : decRegistry fold (encRegistry r) {} = (r, false) := by
  unfold decRegistry encRegistry
  refine (step (v := r.version) rfl (fun _ => rfl) (by simp)).trans ?_
  str; str
  refine (step_strMap rfl rfl rfl h).trans ?_
  rfl

theorem rt_signature (s : Signature) : decSignature fold (encSignature s) {} = (s, false) := by
  unfold decSignature encSignature
  str
  refine (step (v := s.kind) rfl (fun _ => rfl) (by simp)).trans ?_
  refine (step (v := s.hmac) rfl (fun _ => rfl) (by simp)).trans ?_
  rfl

end

/-! ### The kind -/

section
variable {fold : String → String → Bool}

theorem fold_kind (hF : Folds fold) (a : String) (ha : ∀ c ∈ a.toList, c.toNat < 128)
    (h : a.toList.map Char.toLower ≠ ['k', 'i', 'n', 'd']) : fold a "kind" = false := by
  rw [Bool.eq_false_iff]
  intro hc
  exact h ((hF.ascii a "kind" ha (by decide)).1 hc)

theorem fold_kind_refl (hF : Folds fold) : fold "kind" "kind" = true := (hF.ascii _ _ (by decide) (by decide)).2 rfl

/-- The field `kind` is filled by the keys that are `kind` up to case, and by no others. -/
theorem findField_kind {σ : Type} (hF : Folds fold) {fs pre post : List (Field σ)} {f : Field σ} (e : fs = pre ++ f :: post)
    (hf : f.1 = "kind") (h : ∀ g ∈ pre ++ post, fold g.1 "kind" = false) (k : String) :
    (fold "kind" k = true → findField fold fs k = some f.2) ∧
    (fold "kind" k = false → ∀ d, findField fold fs k = some d → ∃ g ∈ pre ++ post, d = g.2) := by
  have hne : ∀ g ∈ pre ++ post, fold "kind" k = true → fold g.1 k = false := by
    intro g hg hk
    rw [Bool.eq_false_iff]
    intro hc
    have := hF.trans _ _ _ hc (hF.symm _ _ hk)
    rw [h g hg] at this
    cases this
  have hkr := fold_kind_refl hF
  have hex : ∀ g ∈ pre ++ post, fold "kind" k = true → g.1 ≠ k := by
    rintro g hg hk rfl
    have := hF.symm _ _ hk
    rw [h g hg] at this
    cases this
  constructor
  · intro hk
    unfold findField
    cases h1 : fs.find? (fun f => f.1 = k) with
    | some g =>
      have hm := List.mem_of_find?_eq_some h1
      have hp := List.find?_some h1
      simp only [decide_eq_true_eq] at hp
      rw [e] at hm
      simp only
      rcases List.mem_append.1 hm with hm | hm
      · exact absurd hp (hex g (List.mem_append_left _ hm) hk)
      · rcases List.mem_cons.1 hm with rfl | hm
        · rfl
        · exact absurd hp (hex g (List.mem_append_right _ hm) hk)
    | none =>
      simp only
      have h2 : fs.find? (fun f => fold f.1 k) = some f := by
        rw [e, List.find?_append, List.find?_eq_none.2, Option.none_or, List.find?_cons_of_pos]
        · rw [hf]; exact hk
        · intro g hg
          simp [hne g (List.mem_append_left _ hg) hk]
      rw [h2]
      rfl
  · intro hk d hd
    have key : ∀ g ∈ fs, (g.1 = k ∨ fold g.1 k = true) → g ∈ pre ++ post := by
      intro g hg hgk
      rw [e] at hg
      rcases List.mem_append.1 hg with hg | hg
      · exact List.mem_append_left _ hg
      · rcases List.mem_cons.1 hg with rfl | hg
        · rw [hf] at hgk
          rcases hgk with rfl | hgk
          · rw [hkr] at hk; cases hk
          · rw [hgk] at hk; cases hk
        · exact List.mem_append_right _ hg
    unfold findField at hd
    cases h1 : fs.find? (fun f => f.1 = k) with
    | some g =>
      rw [h1] at hd
      simp only [Option.some.injEq] at hd
      exact ⟨g, key g (List.mem_of_find?_eq_some h1) (.inl (by simpa using List.find?_some h1)), hd.symm⟩
    | none =>
      rw [h1] at hd
      simp only [Option.map_eq_some_iff] at hd
      obtain ⟨g, h2, rfl⟩ := hd
      exact ⟨g, key g (List.mem_of_find?_eq_some h2) (.inr (by simpa using List.find?_some h2)), rfl⟩

/-- The kind that a list of keys gives. -/
def kindOf (fold : String → String → Bool) : List (String × Tree) → String → String
  | [], s => s
  | (k, t) :: kvs, s => kindOf fold kvs (if fold "kind" k then (decStr t s).1 else s)

theorem decFields_kind {σ : Type} (hF : Folds fold) {fs pre post : List (Field σ)} {get : σ → String} {set : σ → String → σ}
    (e : fs = pre ++ field "kind" get set decStr :: post)
    (hs : ∀ s v, get (set s v) = v) (h : ∀ g ∈ pre ++ post, fold g.1 "kind" = false ∧ ∀ t s, get (g.2 t s).1 = get s)
    (kvs : List (String × Tree)) (s : σ) : get (decFields fold fs kvs s).1 = kindOf fold kvs (get s) := by
  induction kvs generalizing s with
  | nil => rfl
  | cons kv kvs ih =>
    obtain ⟨k, t⟩ := kv
    obtain ⟨h1, h2⟩ := findField_kind hF e rfl (fun g hg => (h g hg).1) k
    simp only [decFields, kindOf]
    cases hk : fold "kind" k with
    | true =>
      rw [h1 hk]
      simp only [if_true]
      rw [ih]
      simp only [field, hs]
    | false =>
      simp only [Bool.false_eq_true, if_false]
      cases hd : findField fold fs k with
      | none => exact ih s
      | some d =>
        obtain ⟨g, hg, rfl⟩ := h2 hk d hd
        simp only
        rw [ih, (h g hg).2]

/-- Decoder and header see the same kind. -/
theorem decStruct_kind {σ : Type} (hF : Folds fold) {fs pre post : List (Field σ)} {get : σ → String} {set : σ → String → σ}
    (e : fs = pre ++ field "kind" get set decStr :: post)
    (hs : ∀ s v, get (set s v) = v) (h : ∀ g ∈ pre ++ post, fold g.1 "kind" = false ∧ ∀ t s, get (g.2 t s).1 = get s)
    (t : Tree) (s : σ) (h0 : get s = "") :
    get (decStruct fold fs t s).1 = (match t with | .obj kvs => kindOf fold kvs "" | _ => "") := by
  cases t with
  | obj kvs => simp only [decStruct, decFields_kind hF e hs h, h0]
  | _ => exact h0

local macro "tbl" h:term : tactic => `(tactic| (
  repeat refine List.forall_mem_cons.mpr ⟨⟨fold_kind $h _ (by simp only [field]; decide) (by simp only [field]; decide), fun _ _ => rfl⟩, ?_⟩
  exact List.forall_mem_nil _))

theorem header_kind (hF : Folds fold) (t : Tree) :
    (decHeader fold t {}).1.kind = (match t with | .obj kvs => kindOf fold kvs "" | _ => "") := by
  unfold decHeader
  refine decStruct_kind hF (get := Header.kind) (pre := [_]) rfl (fun _ _ => rfl) ?_ t _ rfl
  tbl hF

theorem cron_kind (hF : Folds fold) (t : Tree) :
    (decCron fold t {}).1.kind = (match t with | .obj kvs => kindOf fold kvs "" | _ => "") := by
  unfold decCron
  refine decStruct_kind hF (get := Cron.kind) (pre := [_]) rfl (fun _ _ => rfl) ?_ t _ rfl
  tbl hF

theorem secret_kind (hF : Folds fold) (t : Tree) :
    (decSecret fold t {}).1.kind = (match t with | .obj kvs => kindOf fold kvs "" | _ => "") := by
  unfold decSecret
  refine decStruct_kind hF (get := Secret.kind) (pre := [_]) rfl (fun _ _ => rfl) ?_ t _ rfl
  tbl hF

theorem signature_kind (hF : Folds fold) (t : Tree) :
    (decSignature fold t {}).1.kind = (match t with | .obj kvs => kindOf fold kvs "" | _ => "") := by
  unfold decSignature
  refine decStruct_kind hF (get := Signature.kind) (pre := [_]) rfl (fun _ _ => rfl) ?_ t _ rfl
  tbl hF

theorem registry_kind (hF : Folds fold) (t : Tree) :
    (decRegistry fold t {}).1.kind = (match t with | .obj kvs => kindOf fold kvs "" | _ => "") := by
  unfold decRegistry
  refine decStruct_kind hF (get := Registry.kind) (pre := [_]) rfl (fun _ _ => rfl) ?_ t _ rfl
  tbl hF

theorem pipeline_kind (hF : Folds fold) (t : Tree) :
    (decPipeline fold t {}).1.kind = (match t with | .obj kvs => kindOf fold kvs "" | _ => "") := by
  unfold decPipeline
  refine decStruct_kind hF (get := Pipeline.kind) (pre := [_]) rfl (fun _ _ => rfl) ?_ t _ rfl
  tbl hF

end

end Json
end Drone
