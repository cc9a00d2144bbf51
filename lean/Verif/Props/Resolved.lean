/-
C97: the texts of the scalars that `Manifest.Encode` writes.
-/
import Verif.Spec.Block
import Verif.Model.Marshal
import Verif.Props.Stored

namespace Drone
open Spec Yaml

/-- All scalars of a tree have the property. -/
inductive Spec.AllScalars (P : String → Scalar → Prop) : Yaml.Node → Prop
  | null : AllScalars P .null
  | scalar {t r} : P t r → AllScalars P (.scalar t r)
  | seq {xs} : (∀ x ∈ xs, AllScalars P x) → AllScalars P (.seq xs)
  | map {kvs} : (∀ kv ∈ kvs, AllScalars P kv.1) → (∀ kv ∈ kvs, AllScalars P kv.2) → AllScalars P (.map kvs)

/-- The text stands for the value: it resolves to it, or it is a string; numbers of type `float64` are
written by the library. -/
def Spec.StandsFor (R : Resolver) (float : Rat → String) (t : String) : Scalar → Prop
  | .str => True
  | .bool b => t = (if b then "true" else "false") ∧ R.plain t = some (.bool b)
  | .int i => (t = toString i ∧ (-2 ^ 63 ≤ i → i < 2 ^ 63 → R.plain t = some (.int i))) ∨
      (t = float i ∧ i.natAbs < 1000000)
  | .float q => t = float q ∧ ¬ (q.den = 1 ∧ q.num.natAbs < 1000000)

section
variable {R : Resolver} {float : Rat → String}

local notation "Ok" => AllScalars (StandsFor R float)

theorem ok_pairs {kvs : List (Yaml.Node × Yaml.Node)} (h : ∀ kv ∈ kvs, Ok kv.1 ∧ Ok kv.2) : Ok (.map kvs) :=
  .map (fun kv hkv => (h kv hkv).1) fun kv hkv => (h kv hkv).2

theorem ok_string (s : String) : Ok (encString s) := .scalar trivial

theorem ok_int (i : Int) : Ok (encInt i) := .scalar (.inl ⟨rfl, R.plain_int i⟩)

theorem ok_bool (b : Bool) : Ok (encBool b) := by
  refine .scalar ?_
  cases b
  · exact ⟨rfl, R.plain_false⟩
  · exact ⟨rfl, R.plain_true⟩

theorem ok_float (q : Rat) : Ok (floatNode float q) := by
  unfold floatNode
  refine .scalar ?_
  split
  · rename_i h
    exact .inr ⟨by rw [Rat.coe_int_num_of_den_eq_one h.1], h.2⟩
  · rename_i h
    exact ⟨rfl, h⟩

theorem ok_list {α : Type} {e : α → Yaml.Node} (h : ∀ x, Ok (e x)) (l : List α) : Ok (encList e l) := by
  refine .seq fun x hx => ?_
  obtain ⟨y, _, rfl⟩ := List.mem_map.1 hx
  exact h y

theorem ok_strings (l : List String) : Ok (encStrings l) := ok_list ok_string l

theorem ok_map {α : Type} {e : α → Yaml.Node} (h : ∀ x, Ok (e x)) (m : GoMap α) : Ok (encMap e m) := by
  refine ok_pairs fun x hx => ?_
  obtain ⟨y, _, rfl⟩ := List.mem_map.1 hx
  exact ⟨ok_string _, h y.2⟩

theorem ok_ptr {α : Type} {e : α → Yaml.Node} (h : ∀ x, Ok (e x)) (o : Option α) : Ok (encPtr e o) := by
  cases o with
  | none => exact .null
  | some x => exact h x

theorem ok_fields {l : List (String × Yaml.Node)} (h : ∀ kv ∈ l, Ok kv.2) : Ok (encFields l) := by
  refine ok_pairs fun x hx => ?_
  obtain ⟨y, hy, rfl⟩ := List.mem_map.1 hx
  exact ⟨ok_string _, h y hy⟩

mutual
theorem ok_value (v : Value) : Ok (valueNode (valueText float) v) := by
  match v with
  | .null => exact .null
  | .bool b =>
    refine .scalar ?_
    cases b
    · exact ⟨rfl, R.plain_false⟩
    · exact ⟨rfl, R.plain_true⟩
  | .int i => exact .scalar (.inl ⟨rfl, R.plain_int i⟩)
  | .float q => exact ok_float q
  | .str s => exact .scalar trivial
  | .seq xs => rw [valueNode]; exact .seq (ok_values xs)
  | .map kvs => rw [valueNode]; exact ok_pairs (ok_entries kvs)
theorem ok_values (xs : List Value) : ∀ n ∈ valueNodes (valueText float) xs, Ok n := by
  match xs with
  | [] => simp [valueNodes]
  | x :: xs =>
    rw [valueNodes, List.forall_mem_cons]
    exact ⟨ok_value x, ok_values xs⟩
theorem ok_entries (kvs : List (Value × Value)) : ∀ kv ∈ entryNodes (valueText float) kvs, Ok kv.1 ∧ Ok kv.2 := by
  match kvs with
  | [] => simp [entryNodes]
  | (k, v) :: kvs =>
    rw [entryNodes, List.forall_mem_cons]
    exact ⟨⟨ok_value k, ok_value v⟩, ok_entries kvs⟩
end

theorem ok_variable (v : Variable) : Ok (marshalVariable v) := by
  unfold marshalVariable
  split
  · exact ok_pairs (by simp only [List.mem_singleton, forall_eq]; exact ⟨.scalar trivial, .scalar trivial⟩)
  · split
    · exact .scalar trivial
    · exact .null

theorem ok_parameter (p : Parameter) : Ok (marshalParameter (valueText float) p) := by
  unfold marshalParameter
  split
  · exact ok_pairs (by simp only [List.mem_singleton, forall_eq]; exact ⟨.scalar trivial, .scalar trivial⟩)
  · split
    · exact .null
    · exact ok_value _

local macro "flds" : tactic =>
  `(tactic| (refine ok_fields ?_; simp only [List.forall_mem_cons, List.not_mem_nil, false_implies, implies_true, and_true]))

theorem ok_condition (c : Condition) : Ok (encCondition c) := by
  refine ok_fields fun kv hkv => ?_
  rcases List.mem_append.1 hkv with h | h <;> split at h <;> simp only [List.mem_singleton, List.not_mem_nil] at h
  · rw [h]; exact ok_strings _
  · rw [h]; exact ok_strings _

theorem ok_conditions (c : Conditions) : Ok (encConditions c) := by
  flds
  exact ⟨ok_condition _, ok_condition _, ok_condition _, ok_condition _, ok_condition _, ok_condition _, ok_condition _,
    ok_condition _, ok_condition _, ok_condition _, ok_map ok_string _⟩

theorem ok_push (p : Push) : Ok (encPush p) := by flds; exact ok_string _

theorem ok_build (b : Build) : Ok (encBuild b) := by
  flds
  exact ⟨ok_map ok_string _, ok_strings _, ok_string _, ok_string _, ok_string _, ok_map ok_string _⟩

theorem ok_port (p : Port) : Ok (encPort p) := by flds; exact ⟨ok_int _, ok_int _, ok_string _⟩

theorem ok_resourceObject (o : ResourceObject) : Ok (encResourceObject float o) := by
  flds; exact ⟨ok_float _, ok_int _⟩

theorem ok_resources (r : Resources) : Ok (encResources float r) := by
  flds; exact ⟨ok_ptr ok_resourceObject _, ok_ptr ok_resourceObject _⟩

theorem ok_device (v : VolumeDevice) : Ok (encVolumeDevice v) := by flds; exact ⟨ok_string _, ok_string _⟩
theorem ok_mount (v : VolumeMount) : Ok (encVolumeMount v) := by flds; exact ⟨ok_string _, ok_string _⟩
theorem ok_emptyDir (v : VolumeEmptyDir) : Ok (encVolumeEmptyDir v) := by flds; exact ⟨ok_string _, ok_int _⟩
theorem ok_hostPath (v : VolumeHostPath) : Ok (encVolumeHostPath v) := by flds; exact ok_string _
theorem ok_volume (v : Volume) : Ok (encVolume v) := by
  flds; exact ⟨ok_string _, ok_ptr ok_emptyDir _, ok_ptr ok_hostPath _⟩

theorem ok_container (c : Container) : Ok (encContainer float c) := by
  flds
  exact ⟨ok_ptr ok_build _, ok_strings _, ok_strings _, ok_bool _, ok_strings _, ok_list (ok_ptr ok_device) _,
    ok_strings _, ok_strings _, ok_strings _, ok_map (ok_ptr ok_variable) _, ok_strings _, ok_string _, ok_string _,
    ok_string _, ok_string _, ok_list (ok_ptr ok_port) _, ok_bool _, ok_string _, ok_ptr ok_push _,
    ok_ptr ok_resources _, ok_map (ok_ptr ok_parameter) _, ok_string _, ok_string _, ok_list (ok_ptr ok_mount) _,
    ok_conditions _, ok_string _⟩

theorem ok_clone (c : Clone) : Ok (encClone c) := by flds; exact ⟨ok_bool _, ok_int _, ok_bool _⟩
theorem ok_platform (p : Platform) : Ok (encPlatform p) := by
  flds; exact ⟨ok_string _, ok_string _, ok_string _, ok_string _⟩

theorem ok_pipeline (p : Pipeline) : Ok (encPipeline float p) := by
  flds
  exact ⟨ok_string _, ok_string _, ok_string _, ok_string _, ok_clone _, by flds; exact ok_int _, ok_strings _,
    ok_map ok_string _, ok_platform _, ok_strings _, ok_list (ok_ptr ok_container) _, ok_list (ok_ptr ok_container) _,
    ok_conditions _, ok_list (ok_ptr ok_volume) _, by flds; exact ⟨ok_string _, ok_string _⟩⟩

end

/-- C97.  Every Boolean and integer that `Encode` writes has the text that is read as it. -/
theorem C97_scalars (R : Resolver) (float : Rat → String) (r : Resource) :
    AllScalars (StandsFor R float) (encResource float r) := by
  cases r with
  | cron c =>
    refine ok_fields ?_
    simp only [List.forall_mem_cons, List.not_mem_nil, false_implies, implies_true, and_true]
    refine ⟨ok_string _, ok_string _, ok_string _, ok_string _, ok_fields ?_⟩
    simp only [List.forall_mem_cons, List.not_mem_nil, false_implies, implies_true, and_true]
    refine ⟨ok_string _, ok_string _, ok_fields ?_⟩
    simp only [List.forall_mem_cons, List.not_mem_nil, false_implies, implies_true, and_true]
    exact ok_string _
  | secret s =>
    refine ok_fields ?_
    simp only [List.forall_mem_cons, List.not_mem_nil, false_implies, implies_true, and_true]
    refine ⟨ok_string _, ok_string _, ok_string _, ok_string _, ok_string _, ok_fields ?_⟩
    simp only [List.forall_mem_cons, List.not_mem_nil, false_implies, implies_true, and_true]
    exact ⟨ok_string _, ok_string _, ok_string _⟩
  | signature s =>
    refine ok_fields ?_
    simp only [List.forall_mem_cons, List.not_mem_nil, false_implies, implies_true, and_true]
    exact ⟨ok_string _, ok_string _, ok_string _⟩
  | registry s =>
    refine ok_fields ?_
    simp only [List.forall_mem_cons, List.not_mem_nil, false_implies, implies_true, and_true]
    exact ⟨ok_string _, ok_string _, ok_string _, ok_map ok_string _⟩
  | pipeline p => exact ok_pipeline p

end Drone
