/-
Decoding does not depend on what a text is read as, where a string is expected.
-/
import Verif.Spec.Retag
import Verif.Model.Marshal

namespace Drone
namespace Yaml
open Spec

variable {keep : String → Prop}

mutual
theorem SameText.refl (keep : String → Prop) : ∀ n : Node, SameText keep n n
  | .null => .null
  | .scalar _ _ => .scalar
  | .seq xs => .seq (SameTexts.refl keep xs)
  | .map kvs => .map (SameTextPairs.refl keep kvs)
theorem SameTexts.refl (keep : String → Prop) : ∀ xs : List Node, SameTexts keep xs xs
  | [] => .nil
  | x :: xs => .cons (SameText.refl keep x) (SameTexts.refl keep xs)
theorem SameTextPairs.refl (keep : String → Prop) : ∀ xs : List (Node × Node), SameTextPairs keep xs xs
  | [] => .nil
  | (k, v) :: xs => .cons (SameText.refl keep k) (SameText.refl keep v) (SameTextPairs.refl keep xs)
end

/-- The decoder cannot tell trees with the same texts from this one. -/
def Blind (keep : String → Prop) {α : Type} (d : Dec α) (n : Node) : Prop :=
  ∀ n', SameText keep n n' → ∀ old, d n' old = d n old

theorem blind_string (n : Node) : Blind keep decString n := by
  intro n' h old
  cases h <;> rfl

/-- A scalar that is not a string is the same. -/
theorem same_scalar {t : String} {r : Scalar} (hr : r ≠ .str) {n' : Node} (h : SameText keep (.scalar t r) n') :
    n' = .scalar t r := by
  cases h with
  | scalar => rfl
  | text => exact absurd rfl hr

theorem blind_scalar {α : Type} (d : Dec α) {t : String} {r : Scalar} (hr : r ≠ .str) : Blind keep d (.scalar t r) := by
  intro n' h old
  rw [same_scalar hr h]

theorem blind_int {α : Type} (d : Dec α) (i : Int) : Blind keep d (encInt i) := blind_scalar d (by simp)
theorem blind_bool {α : Type} (d : Dec α) (b : Bool) : Blind keep d (encBool b) := blind_scalar d (by simp)
theorem blind_float {α : Type} (d : Dec α) (f : Rat → String) (q : Rat) : Blind keep d (floatNode f q) := by
  unfold floatNode
  exact blind_scalar d (by split <;> simp)

theorem blind_null {α : Type} (d : Dec α) : Blind keep d .null := by
  intro n' h old
  cases h
  rfl

theorem blind_elems {α : Type} {zero : α} {d : Dec α} {xs ys : List Node} (h : ∀ x ∈ xs, Blind keep d x)
    (hs : SameTexts keep xs ys) : decElems zero d ys = decElems zero d xs := by
  induction xs generalizing ys with
  | nil => cases hs; rfl
  | cons x xs ih =>
    cases hs with
    | cons h1 h2 =>
      simp only [decElems]
      rw [h x List.mem_cons_self _ h1, ih (fun y hy => h y (List.mem_cons_of_mem _ hy)) h2]

theorem blind_list {α β : Type} {zero : β} {d : Dec β} {e : α → Node} {l : List α} (h : ∀ x ∈ l, Blind keep d (e x)) :
    Blind keep (decSlice zero d) (encList e l) := by
  intro n' hn old
  unfold encList at hn ⊢
  cases hn with
  | seq hs =>
    simp only [decSlice]
    refine blind_elems (fun x hx => ?_) hs
    obtain ⟨y, hy, rfl⟩ := List.mem_map.1 hx
    exact h y hy

theorem blind_strings (l : List String) : Blind keep decStrings (encStrings l) :=
  blind_list fun _ _ => blind_string _

theorem blind_entries {α : Type} {zero : α} {d : Dec α} {xs ys : List (Node × Node)} (h : ∀ kv ∈ xs, Blind keep d kv.2)
    (hs : SameTextPairs keep xs ys) (m : GoMap α) : decEntries zero d ys m = decEntries zero d xs m := by
  induction xs generalizing ys m with
  | nil => cases hs; rfl
  | cons kv xs ih =>
    cases hs with
    | cons h1 h2 h3 =>
      simp only [decEntries]
      rw [blind_string _ _ h1, h _ List.mem_cons_self _ h2, ih (fun y hy => h y (List.mem_cons_of_mem _ hy)) h3]

theorem blind_map {α β : Type} {zero : β} {d : Dec β} {e : α → Node} {m : GoMap α}
    (h : ∀ kv ∈ m, Blind keep d (e kv.2)) : Blind keep (decMap zero d) (encMap e m) := by
  intro n' hn old
  unfold encMap at hn ⊢
  cases hn with
  | map hs =>
    simp only [decMap]
    refine blind_entries (fun x hx => ?_) hs old
    obtain ⟨y, hy, rfl⟩ := List.mem_map.1 hx
    exact h y hy

theorem blind_stringMap (m : GoMap String) : Blind keep decStringMap (encMap encString m) :=
  blind_map fun _ _ => blind_string _

theorem same_null {n : Node} (h : SameText keep n .null) : n = .null := by cases h; rfl

theorem blind_ptr {α β : Type} {zero : β} {d : Dec β} {e : α → Node} {o : Option α}
    (h : ∀ x, o = some x → Blind keep d (e x)) : Blind keep (decPtr zero d) (encPtr e o) := by
  cases o with
  | none => exact blind_null _
  | some x =>
    intro n' hn old
    have := h x rfl n' hn
    unfold encPtr at hn ⊢
    simp only at hn ⊢
    generalize e x = n at *
    cases hn <;> simp_all [decPtr]

theorem blind_custom {α : Type} {zero : α} {f : Node → α → α × Bool} {n : Node}
    (h : ∀ n', SameText keep n n' → ∀ old, f n' old = f n old) : Blind keep (custom zero f) n := by
  intro n' hn old
  have := h n' hn old
  cases hn <;> simp_all [custom]

/-- The field of an entry cannot tell trees with the same texts apart. -/
def FieldBlind (keep : String → Prop) {σ : Type} (fields : String → Option (Field σ)) (kv : String × Node) : Prop :=
  ∀ f, fields kv.1 = some f → ∀ n', SameText keep kv.2 n' → ∀ s, f n' s = f kv.2 s

theorem blind_decFields {σ : Type} {fields : String → Option (Field σ)} {l : List (String × Node)} {ys : List (Node × Node)}
    (h : ∀ kv ∈ l, FieldBlind keep fields kv)
    (hs : SameTextPairs keep (l.map fun kv => (encString kv.1, kv.2)) ys) (s : σ) :
    decFields fields ys s = decFields fields (l.map fun kv => (encString kv.1, kv.2)) s := by
  induction l generalizing ys s with
  | nil => cases hs; rfl
  | cons kv l ih =>
    have ih := fun {ys} h3 s => ih (ys := ys) (fun y hy => h y (List.mem_cons_of_mem _ hy)) h3 s
    have h0 := h kv List.mem_cons_self
    rw [List.map_cons] at hs ⊢
    generalize hk : encString kv.1 = k0 at *
    cases hs with
    | cons h1 h2 h3 =>
      simp only [decFields]
      rw [blind_string _ _ h1]
      have e : decString k0 "" = { val := kv.1 } := by rw [← hk]; rfl
      rw [e]
      simp only [if_true]
      cases hf : fields kv.1 with
      | none => exact ih h3 s
      | some f =>
        simp only
        rw [h0 f hf _ h2 s, ih h3]

theorem blind_struct {σ : Type} {zero : σ} {fields : String → Option (Field σ)} {l : List (String × Node)}
    (h : ∀ kv ∈ l, FieldBlind keep fields kv) :
    Blind keep (decStruct zero fields) (encFields l) := by
  intro n' hn old
  unfold encFields at hn ⊢
  cases hn with
  | map hs =>
    simp only [decStruct]
    exact blind_decFields h hs old

theorem blind_field {σ α : Type} {get : σ → α} {set : σ → α → σ} {d : Dec α} {n n' : Node} (h : Blind keep d n)
    (hn : SameText keep n n') (s : σ) : field get set d n' s = field get set d n s := by
  unfold field
  rw [h n' hn]

/-- The fields one by one: the field of the name, and its decoder is blind. -/
theorem blind_one {σ α : Type} {fields : String → Option (Field σ)} {kv : String × Node} {get : σ → α} {set : σ → α → σ}
    {d : Dec α} (hk : fields kv.1 = some (field get set d)) (h : Blind keep d kv.2) : FieldBlind keep fields kv := by
  intro f hf n' hn s
  rw [hk] at hf
  cases hf
  exact blind_field h hn s

theorem forall_nil {α : Type} {P : α → Prop} : ∀ x ∈ ([] : List α), P x := by simp
theorem forall_cons {α : Type} {P : α → Prop} {a : α} {l : List α} (h : P a) (hl : ∀ x ∈ l, P x) : ∀ x ∈ a :: l, P x :=
  List.forall_mem_cons.2 ⟨h, hl⟩

macro "fld " t:term : tactic => `(tactic| refine forall_cons (blind_one rfl $t) ?_)

theorem blind_condition (c : Condition) : Blind keep decCondition (encCondition c) := by
  have hd : Blind keep decInclExcl (encCondition c) := by
    unfold decInclExcl encCondition
    refine blind_struct fun kv hkv => ?_
    rw [List.mem_append] at hkv
    rcases hkv with hkv | hkv
    · split at hkv
      · simp at hkv
      · rw [List.mem_singleton] at hkv
        subst hkv
        exact blind_one rfl (blind_strings _)
    · split at hkv
      · simp at hkv
      · rw [List.mem_singleton] at hkv
        subst hkv
        exact blind_one rfl (blind_strings _)
  refine blind_custom fun n' hn old => ?_
  have hs : decStrings n' [] = decStrings (encCondition c) [] := by
    unfold encCondition encFields at hn ⊢
    cases hn
    rfl
  unfold unmarshalCondition
  rw [blind_string _ _ hn, hd _ hn, hs]

theorem blind_conditions (c : Conditions) : Blind keep decConditions (encConditions c) := by
  unfold decConditions encConditions
  apply blind_struct
  fld (blind_condition _)
  fld (blind_condition _)
  fld (blind_condition _)
  fld (blind_condition _)
  fld (blind_condition _)
  fld (blind_condition _)
  fld (blind_condition _)
  fld (blind_condition _)
  fld (blind_condition _)
  fld (blind_condition _)
  fld (blind_stringMap _)
  exact forall_nil

theorem blind_push (p : Push) : Blind keep (custom {} unmarshalPush) (encPush p) := by
  have hd : Blind keep decPushLong (encPush p) := by
    unfold decPushLong encPush
    apply blind_struct
    fld (blind_string _)
    exact forall_nil
  refine blind_custom fun n' hn old => ?_
  unfold unmarshalPush
  rw [blind_string _ _ hn, hd _ hn]

theorem blind_build (b : Build) : Blind keep (custom {} unmarshalBuild) (encBuild b) := by
  have hd : Blind keep decBuildLong (encBuild b) := by
    unfold decBuildLong encBuild
    apply blind_struct
    fld (blind_stringMap _)
    fld (blind_strings _)
    fld (blind_string _)
    fld (blind_string _)
    fld (blind_string _)
    fld (blind_stringMap _)
    exact forall_nil
  refine blind_custom fun n' hn old => ?_
  unfold unmarshalBuild
  rw [blind_string _ _ hn, hd _ hn]

theorem blind_port (p : Port) : Blind keep (custom {} unmarshalPort) (encPort p) := by
  have hd : Blind keep decPortLong (encPort p) := by
    unfold decPortLong encPort
    apply blind_struct
    fld (blind_int _ _)
    fld (blind_int _ _)
    fld (blind_string _)
    exact forall_nil
  refine blind_custom fun n' hn old => ?_
  have hi : decInt n' 0 = decInt (encPort p) 0 := by
    unfold encPort encFields at hn ⊢
    cases hn
    rfl
  unfold unmarshalPort
  rw [hi, hd _ hn]

theorem blind_variable (v : Variable) : Blind keep (custom {} unmarshalVariable) (marshalVariable v) := by
  have hd : Blind keep decVariableLong (marshalVariable v) := by
    unfold marshalVariable
    split
    · have := blind_struct (keep := keep) (zero := ({} : Variable)) (fields := fun k => List.lookup k
        [ ("value", field Variable.value (fun s v => { s with value := v }) decString),
          ("from_secret", field Variable.secret (fun s v => { s with secret := v }) decString) ])
        (l := [("from_secret", encString v.secret)]) (by
          fld (blind_string _)
          exact forall_nil)
      exact this
    · split
      · intro n' hn old
        cases hn <;> rfl
      · exact blind_null _
  refine blind_custom fun n' hn old => ?_
  unfold unmarshalVariable
  rw [blind_string _ _ hn, hd _ hn]

mutual
theorem same_value {t : Value → String} : ∀ {v : Value} {n' : Node}, (∀ s ∈ valueStrings v, keep s) →
    SameText keep (valueNode t v) n' → n' = valueNode t v
  | .null, _, _, h => by unfold valueNode at h; cases h; rfl
  | .bool b, _, _, h => by unfold valueNode at h ⊢; exact same_scalar (by simp) h
  | .int b, _, _, h => by unfold valueNode at h ⊢; exact same_scalar (by simp) h
  | .float b, _, _, h => by
    unfold valueNode at h ⊢
    unfold floatNode at h ⊢
    exact same_scalar (by split <;> simp) h
  | .str s, n', hk, h => by
    unfold valueNode at h ⊢
    cases h with
    | scalar => rfl
    | text hn => exact absurd (hk s (by simp [valueStrings])) hn
  | .seq xs, n', hk, h => by
    unfold valueNode at h ⊢
    cases h with
    | seq hs => rw [same_values (fun s hs => hk s (by simpa [valueStrings] using hs)) hs]
  | .map xs, n', hk, h => by
    unfold valueNode at h ⊢
    cases h with
    | map hs => rw [same_pairs (fun s hs => hk s (by simpa [valueStrings] using hs)) hs]
theorem same_values {t : Value → String} : ∀ {xs : List Value} {ys : List Node}, (∀ s ∈ valuesStrings xs, keep s) →
    SameTexts keep (valueNodes t xs) ys → ys = valueNodes t xs
  | [], _, _, h => by unfold valueNodes at h ⊢; cases h; rfl
  | x :: xs, ys, hk, h => by
    unfold valueNodes at h ⊢
    cases h with
    | cons h1 h2 =>
      rw [same_value (fun s hs => hk s (by simp [valuesStrings, hs])) h1,
        same_values (fun s hs => hk s (by simp [valuesStrings, hs])) h2]
theorem same_pairs {t : Value → String} : ∀ {xs : List (Value × Value)} {ys : List (Node × Node)},
    (∀ s ∈ pairsStrings xs, keep s) → SameTextPairs keep (entryNodes t xs) ys → ys = entryNodes t xs
  | [], _, _, h => by unfold entryNodes at h ⊢; cases h; rfl
  | (k, v) :: xs, ys, hk, h => by
    unfold entryNodes at h ⊢
    cases h with
    | cons h1 h2 h3 =>
      rw [same_value (fun s hs => hk s (by simp [pairsStrings, hs])) h1,
        same_value (fun s hs => hk s (by simp [pairsStrings, hs])) h2,
        same_pairs (fun s hs => hk s (by simp [pairsStrings, hs])) h3]
end

theorem blind_parameter {t : Value → String} {p : Parameter} (hk : p.secret = "" → ∀ s ∈ valueStrings p.value, keep s) :
    Blind keep (custom {} unmarshalParameter) (marshalParameter t p) := by
  by_cases hp : p.secret = ""
  · have e : ∀ n', SameText keep (marshalParameter t p) n' → n' = marshalParameter t p := by
      intro n' hn
      unfold marshalParameter at hn ⊢
      rw [if_neg (by simpa using hp)] at hn ⊢
      split at hn
      · cases hn; rfl
      · exact same_value (hk hp) hn
    intro n' hn old
    rw [e n' hn]
  · have e : marshalParameter t p = encFields [("from_secret", encString p.secret)] := by
      unfold marshalParameter
      rw [if_pos hp]
      rfl
    rw [e]
    have hd : Blind keep decParameterLong (encFields [("from_secret", encString p.secret)]) := by
      unfold decParameterLong
      apply blind_struct
      fld (blind_string _)
      exact forall_nil
    refine blind_custom fun n' hn old => ?_
    unfold unmarshalParameter
    have h2 : decParameterLong (encFields [("from_secret", encString p.secret)]) "" = { val := p.secret } := rfl
    rw [hd _ hn, h2, if_pos ⟨rfl, hp⟩, if_pos ⟨rfl, hp⟩]

theorem blind_resources (ram : String → Option Int) (f : Rat → String) (r : Resources) :
    Blind keep (decResources ram) (encResources f r) := by
  have h : ∀ o, Blind keep (decResourceObject ram) (encResourceObject f o) := by
    intro o
    unfold decResourceObject encResourceObject
    apply blind_struct
    fld (blind_float _ _ _)
    fld (blind_int _ _)
    exact forall_nil
  unfold decResources encResources
  apply blind_struct
  fld (blind_ptr fun o _ => h o)
  fld (blind_ptr fun o _ => h o)
  exact forall_nil

theorem blind_device (v : VolumeDevice) : Blind keep decVolumeDevice (encVolumeDevice v) := by
  unfold decVolumeDevice encVolumeDevice
  apply blind_struct
  fld (blind_string _)
  fld (blind_string _)
  exact forall_nil

theorem blind_mount (v : VolumeMount) : Blind keep decVolumeMount (encVolumeMount v) := by
  unfold decVolumeMount encVolumeMount
  apply blind_struct
  fld (blind_string _)
  fld (blind_string _)
  exact forall_nil

theorem blind_volume (ram : String → Option Int) (v : Volume) : Blind keep (decVolume ram) (encVolume v) := by
  have h1 : ∀ e, Blind keep (decVolumeEmptyDir ram) (encVolumeEmptyDir e) := by
    intro e
    unfold decVolumeEmptyDir encVolumeEmptyDir
    apply blind_struct
    fld (blind_string _)
    fld (blind_int _ _)
    exact forall_nil
  have h2 : ∀ e, Blind keep decVolumeHostPath (encVolumeHostPath e) := by
    intro e
    unfold decVolumeHostPath encVolumeHostPath
    apply blind_struct
    fld (blind_string _)
    exact forall_nil
  unfold decVolume encVolume
  apply blind_struct
  fld (blind_string _)
  fld (blind_ptr fun e _ => h1 e)
  fld (blind_ptr fun e _ => h2 e)
  exact forall_nil

theorem blind_container (ram : String → Option Int) (f : Rat → String) (c : Container)
    (hk : ∀ k q, (k, some q) ∈ c.settings → q.secret = "" → ∀ s ∈ valueStrings q.value, keep s) :
    Blind keep (decContainer ram) (encContainer f c) := by
  unfold decContainer encContainer
  apply blind_struct
  fld (blind_ptr fun b _ => blind_build b)
  fld (blind_strings _)
  fld (blind_strings _)
  fld (blind_bool _ _)
  fld (blind_strings _)
  fld (blind_list fun v _ => blind_ptr fun w _ => blind_device w)
  fld (blind_strings _)
  fld (blind_strings _)
  fld (blind_strings _)
  fld (blind_map fun v _ => blind_ptr fun w _ => blind_variable w)
  fld (blind_strings _)
  fld (blind_string _)
  fld (blind_string _)
  fld (blind_string _)
  fld (blind_string _)
  fld (blind_list fun v _ => blind_ptr fun w _ => blind_port w)
  fld (blind_bool _ _)
  fld (blind_string _)
  fld (blind_ptr fun b _ => blind_push b)
  fld (blind_ptr fun b _ => blind_resources ram f b)
  fld (blind_map fun v hv => blind_ptr fun w hw => blind_parameter (hk v.1 w (by rw [← hw]; exact hv)))
  fld (blind_string _)
  fld (blind_string _)
  fld (blind_list fun v _ => blind_ptr fun w _ => blind_mount w)
  fld (blind_conditions _)
  fld (blind_string _)
  exact forall_nil

/-- The decoder of pipelines cannot tell the trees apart, as long as the strings in settings are
strings. -/
theorem blind_pipeline (ram : String → Option Int) (f : Rat → String) (p : Pipeline)
    (hk : ∀ s, InSettings p s → keep s) : Blind keep (decPipeline ram) (encPipeline f p) := by
  have h1 : ∀ c, Blind keep decClone (encClone c) := by
    intro c
    unfold decClone encClone
    apply blind_struct
    fld (blind_bool _ _)
    fld (blind_int _ _)
    fld (blind_bool _ _)
    exact forall_nil
  have h2 : ∀ i, Blind keep decConcurrency (encFields [("limit", encInt i)]) := by
    intro i
    unfold decConcurrency
    apply blind_struct
    fld (blind_int _ _)
    exact forall_nil
  have h3 : ∀ c, Blind keep decPlatform (encPlatform c) := by
    intro c
    unfold decPlatform encPlatform
    apply blind_struct
    fld (blind_string _)
    fld (blind_string _)
    fld (blind_string _)
    fld (blind_string _)
    exact forall_nil
  have h4 : ∀ a b, Blind keep decWorkspace (encFields [("base", encString a), ("path", encString b)]) := by
    intro a b
    unfold decWorkspace
    apply blind_struct
    fld (blind_string _)
    fld (blind_string _)
    exact forall_nil
  unfold decPipeline encPipeline
  apply blind_struct
  fld (blind_string _)
  fld (blind_string _)
  fld (blind_string _)
  fld (blind_string _)
  fld (h1 _)
  fld (h2 _)
  fld (blind_strings _)
  fld (blind_stringMap _)
  fld (h3 _)
  fld (blind_strings _)
  fld (blind_list fun v hv => blind_ptr fun c hc => blind_container ram f c fun k q h1 h2 s hs =>
    hk s ⟨c, .inr (hc ▸ hv), k, q, h1, h2, hs⟩)
  fld (blind_list fun v hv => blind_ptr fun c hc => blind_container ram f c fun k q h1 h2 s hs =>
    hk s ⟨c, .inl (hc ▸ hv), k, q, h1, h2, hs⟩)
  fld (blind_conditions _)
  fld (blind_list fun v _ => blind_ptr fun w _ => blind_volume ram w)
  fld (h4 _ _)
  exact forall_nil

end Yaml
end Drone
