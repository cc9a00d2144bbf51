/-
C21, C77 and C78: short and long forms, conditions, and keys of a pipeline.
-/
import Verif.Spec.Stored
import Verif.Model.Decode
import Verif.Spec.Tree
import Verif.Proof.GoMap
import Verif.Model.Cond

namespace Drone
open Yaml Spec

/-! ### C21: short and long forms -/

/-- What decoding a `build` section gives. -/
abbrev decBuild : Dec Build := custom {} unmarshalBuild
abbrev decPush : Dec Push := custom {} unmarshalPush
abbrev decPort : Dec Port := custom {} unmarshalPort
abbrev decVariable : Dec Variable := custom {} unmarshalVariable
abbrev decParameter : Dec Parameter := custom {} unmarshalParameter

/-- C21: `build: x` is `build: {image: x}`. -/
theorem C21_build (t : String) (r : Scalar) (old : Build) :
    decBuild (.scalar t r) old = { val := { image := t } } ∧
    decBuild (single "image" (.scalar t r)) old = { val := { image := t } } := by
  constructor <;> rfl

/-- C21: `push: x` is `push: {image: x}`. -/
theorem C21_push (t : String) (r : Scalar) (old : Push) :
    decPush (.scalar t r) old = { val := { image := t } } ∧
    decPush (single "image" (.scalar t r)) old = { val := { image := t } } := by
  constructor <;> rfl

theorem decInt_scalar (t : String) (r : Scalar) :
    (∃ x, ∀ old, decInt (.scalar t r) old = { val := x }) ∨ ∀ old, decInt (.scalar t r) old = mismatch old := by
  cases r with
  | int i =>
    by_cases h : -2 ^ 63 ≤ i ∧ i < 2 ^ 63
    · exact .inl ⟨i, fun _ => if_pos h⟩
    · exact .inr fun _ => if_neg h
  | float q =>
    by_cases h : q ≤ 2 ^ 63
    · exact .inl ⟨truncInt q, fun _ => if_pos h⟩
    · exact .inr fun _ => if_neg h
  | _ => exact .inr fun _ => rfl

/-- C21: a number as a port is its long form; any other scalar is refused in both. -/
theorem C21_port (t : String) (r : Scalar) (old : Port) :
    decPort (.scalar t r) old = decPort (single "port" (.scalar t r)) old ∧
    (∀ i, r = .int i → -2 ^ 63 ≤ i ∧ i < 2 ^ 63 → decPort (.scalar t r) old = { val := { port := i } }) ∧
    (r = .str → (decPort (.scalar t r) old).err = true) := by
  refine ⟨?_, ?_, ?_⟩
  · have h2 : decPort (single "port" (.scalar t r)) old =
        { val := { port := (decInt (.scalar t r) 0).val }, good := !(decInt (.scalar t r) 0).err,
          err := (decInt (.scalar t r) 0).err } := by
      have hm : ∀ kvs, decInt (.map kvs) 0 = mismatch 0 := fun _ => rfl
      cases h : (decInt (.scalar t r) 0).err <;>
      simp [decPort, custom, unmarshalPort, decPortLong, single, key, decStruct, decFields, decString, hm,
        mismatch, field, List.lookup, h]
    rw [h2]
    rcases decInt_scalar t r with ⟨x, h⟩ | h
    · simp [decPort, custom, unmarshalPort, h]
    · simp [decPort, custom, unmarshalPort, h, mismatch, decPortLong, decStruct]
  · rintro i rfl hi
    simp [decPort, custom, unmarshalPort, show decInt (.scalar t (.int i)) 0 = { val := i } from if_pos hi]
  · rintro rfl; rfl

/-- C21: `X: v` is `X: {value: v}` for environment variables, whatever type the scalar resolves to. -/
theorem C21_variable (t : String) (r : Scalar) (old : Variable) :
    decVariable (.scalar t r) old = { val := { value := t } } ∧
    decVariable (single "value" (.scalar t r)) old = { val := { value := t } } := by
  constructor <;> rfl

theorem decElems_scalars (l : List (String × Scalar)) :
    decElems "" decString (scalars l) = { val := l.map Prod.fst } := by
  induction l with
  | nil => rfl
  | cons p l ih =>
    simp only [scalars, List.map_cons, decElems, decString] at ih ⊢
    rw [ih]
    rfl

theorem decElems_good {α : Type} (z : α) (d : Dec α) (xs : List Node) : (decElems z d xs).good = true := by
  cases xs <;> rfl

/-- C21: a scalar condition, a list with that scalar, and the include form with that list mean the
same; a list means the same as the include form, whatever its elements are. -/
theorem C21_condition (t : String) (r : Scalar) (xs : List Node) :
    decCondition (.scalar t r) {} = { val := { incl := [t] } } ∧
    decCondition (.seq [.scalar t r]) {} = { val := { incl := [t] } } ∧
    decCondition (single "include" (.seq [.scalar t r])) {} = { val := { incl := [t] } } ∧
    decCondition (.seq xs) {} = decCondition (single "include" (.seq xs)) {} := by
  refine ⟨rfl, rfl, rfl, ?_⟩
  simp [decCondition, custom, unmarshalCondition, decString, mismatch, decStrings, decSlice, decInclExcl,
    decStruct, single, key, decFields, field]

/-- C21: lists of scalars as conditions are read element by element. -/
theorem C21_condition_list (l : List (String × Scalar)) :
    decCondition (.seq (scalars l)) {} = { val := { incl := l.map Prod.fst } } := by
  simp [decCondition, custom, unmarshalCondition, decString, mismatch, decStrings, decSlice, decInclExcl,
    decStruct, decElems_scalars]

example : decCondition (.seq (scalars [("master", .str), ("1.10", .float (11/10))])) {} =
    { val := { incl := ["master", "1.10"] } } := by
  exact C21_condition_list _

/-- C21: an environment variable survives marshalling unless it is empty or has both a value and a
secret. -/
theorem C21_variable_roundtrip (v : Variable) :
    (v.secret = "" → v.value ≠ "" → decVariable (marshalVariable v) {} = { val := v }) ∧
    (v.secret ≠ "" → decVariable (marshalVariable v) {} = { val := { secret := v.secret } }) ∧
    (v.secret = "" → v.value = "" → decPtr {} decVariable (marshalVariable v) none = { val := none }) := by
  obtain ⟨a, b⟩ := v
  refine ⟨?_, ?_, ?_⟩
  · intro h1 h2
    simp only at h1 h2
    subst h1
    simp only [marshalVariable, ne_eq, not_true_eq_false, if_false, h2, not_false_eq_true, if_true]
    rfl
  · intro h1
    simp only at h1
    simp only [marshalVariable, ne_eq, h1, not_false_eq_true, if_true]
    rfl
  · intro h1 h2
    simp only at h1 h2
    subst h1; subst h2
    rfl

example : decVariable (marshalVariable { value := "a", secret := "b" }) {} = { val := { secret := "b" } } := by
  exact (C21_variable_roundtrip { value := "a", secret := "b" }).2.1 (by decide)

mutual
/-- A value whose maps have distinct keys that are not lists or maps (all decoded values are
such). -/
def Spec.Proper : Value → Prop
  | .seq xs => Spec.ProperList xs
  | .map kvs => Spec.ProperEntries kvs
  | _ => True
def Spec.ProperList : List Value → Prop
  | [] => True
  | x :: xs => Spec.Proper x ∧ Spec.ProperList xs
def Spec.ProperEntries : List (Value × Value) → Prop
  | [] => True
  | (k, v) :: kvs =>
    (hashable k = true ∧ Spec.Proper k ∧ Spec.Proper v ∧ ∀ kv ∈ kvs, sameKey k kv.1 = false) ∧
      Spec.ProperEntries kvs
end

theorem setKey_append (k v : Value) (m : List (Value × Value)) (h : ∀ kv ∈ m, sameKey kv.1 k = false) :
    setKey k v m = m ++ [(k, v)] := by
  induction m with
  | nil => rfl
  | cons p m ih =>
    obtain ⟨k', v'⟩ := p
    have := h (k', v') List.mem_cons_self
    simp only at this
    simp [setKey, this, ih fun kv hk => h kv (List.mem_cons_of_mem _ hk)]

mutual
theorem toValue_valueNode (text : Value → String) (v : Value) (h : Spec.Proper (Spec.plainNumbers v)) :
    toValue (valueNode text v) = some (Spec.plainNumbers v) := by
  cases v with
  | null => rfl
  | bool b => rfl
  | int i => rfl
  | float q =>
    simp only [valueNode, floatNode, Spec.plainNumbers]
    split <;> rfl
  | str s => rfl
  | seq xs =>
    simp only [Spec.plainNumbers, Spec.Proper] at h
    simp only [valueNode, toValue, Spec.plainNumbers, toValues_valueNodes text xs h]
    rfl
  | map kvs =>
    simp only [Spec.plainNumbers, Spec.Proper] at h
    simp only [valueNode, toValue, Spec.plainNumbers, toEntries_entryNodes text kvs h [] (fun kv hk => by simp at hk)]
    rfl
theorem toValues_valueNodes (text : Value → String) (xs : List Value) (h : Spec.ProperList (Spec.plainList xs)) :
    toValues (valueNodes text xs) = some (Spec.plainList xs) := by
  cases xs with
  | nil => rfl
  | cons x xs =>
    simp only [valueNodes, toValues, Spec.plainList, toValue_valueNode text x h.1, toValues_valueNodes text xs h.2]
    rfl
theorem toEntries_entryNodes (text : Value → String) (kvs : List (Value × Value))
    (h : Spec.ProperEntries (Spec.plainEntries kvs))
    (m : List (Value × Value)) (hm : ∀ kv ∈ m, ∀ kv' ∈ Spec.plainEntries kvs, sameKey kv.1 kv'.1 = false) :
    toEntries (entryNodes text kvs) m = some (m ++ Spec.plainEntries kvs) := by
  cases kvs with
  | nil => simp [entryNodes, toEntries, Spec.plainEntries]
  | cons p kvs =>
    obtain ⟨k, v⟩ := p
    simp only [Spec.plainEntries] at h hm ⊢
    obtain ⟨⟨hh, hk, hv, hd⟩, ht⟩ := h
    simp only [entryNodes, toEntries, toValue_valueNode text k hk, toValue_valueNode text v hv, Option.bind_some,
      hh, if_true]
    rw [setKey_append _ _ m fun kv hkv => hm kv hkv _ List.mem_cons_self,
      toEntries_entryNodes text kvs ht (m ++ [(Spec.plainNumbers k, Spec.plainNumbers v)]) ?_]
    · simp
    · intro kv hkv kv' hkv'
      rcases List.mem_append.mp hkv with hx | hx
      · exact hm kv hx kv' (List.mem_cons_of_mem _ hkv')
      · have : kv = (Spec.plainNumbers k, Spec.plainNumbers v) := by simpa using hx
        subst this
        exact hd kv' hkv'
end

/-- A literal that would be read as a reference to a secret: a map whose key `from_secret` has a
text that is not empty. -/
def Spec.LooksSecret (v : Value) : Prop :=
  ∃ kvs w, v = .map kvs ∧ (.str "from_secret", w) ∈ kvs ∧ w ≠ .null ∧ w ≠ .str "" ∧ (∀ xs, w ≠ .seq xs) ∧ ∀ m, w ≠ .map m

theorem toValue_some_key (text : Value → String) (k : Value) (h : decString (valueNode text k) "" = { val := "from_secret" })
    (hk : ∀ t, k = .str t → t ≠ "from_secret") (ht : (∀ s, k ≠ .str s) → text k ≠ "from_secret") : False := by
  cases k with
  | null => exact absurd (congrArg Res.val h) (by simp [valueNode, decString])
  | bool b =>
    have := congrArg Res.val h
    simp only [valueNode, decString] at this
    exact ht (by simp) this
  | int i =>
    have := congrArg Res.val h
    simp only [valueNode, decString] at this
    exact ht (by simp) this
  | float q =>
    have := congrArg Res.val h
    simp only [valueNode, floatNode, decString] at this
    exact ht (by simp) this
  | str s =>
    have := congrArg Res.val h
    simp only [valueNode, decString] at this
    exact hk s rfl this
  | seq xs =>
    have := congrArg Res.good h
    simp [valueNode, decString, mismatch] at this
  | map kvs =>
    have := congrArg Res.good h
    simp [valueNode, decString, mismatch] at this

theorem decParameterLong_entries (text : Value → String) (kvs : List (Value × Value))
    (ht : ∀ kv ∈ kvs, (∀ s, kv.1 ≠ .str s) → text kv.1 ≠ "from_secret")
    (hs : ∀ w, (.str "from_secret", w) ∈ kvs → w = .null ∨ w = .str "" ∨ (∃ xs, w = .seq xs) ∨ ∃ m, w = .map m)
    (fields : String → Option (Field String)) (hf : ∀ k, k ≠ "from_secret" → fields k = none)
    (hfs : fields "from_secret" = some (field id (fun _ v => v) decString)) :
    (decFields fields (entryNodes text kvs) "").val = "" := by
  induction kvs with
  | nil => rfl
  | cons p kvs ih =>
    obtain ⟨k, v⟩ := p
    have ih := ih (fun kv hkv => ht kv (List.mem_cons_of_mem _ hkv)) fun w hw => hs w (List.mem_cons_of_mem _ hw)
    simp only [entryNodes, decFields]
    by_cases hk : k = .str "from_secret"
    · subst hk
      have : (field id (fun _ v => v) decString (valueNode text v) "").1 = "" := by
        rcases hs v List.mem_cons_self with rfl | rfl | ⟨_, rfl⟩ | ⟨_, rfl⟩ <;> rfl
      simp only [valueNode, decString, hfs, if_true]
      rw [this]
      exact ih
    have hn : (decString (valueNode text k) "").good = true → fields (decString (valueNode text k) "").val = none := by
      intro hg
      apply hf
      intro hc
      refine toValue_some_key text k ?_ ?_ (ht _ List.mem_cons_self)
      · cases k <;> simp [valueNode, floatNode, decString, mismatch] at hg hc ⊢ <;> assumption
      · rintro t rfl rfl
        exact hk rfl
    by_cases hg : (decString (valueNode text k) "").good = true
    · rw [if_pos hg, hn hg]
      exact ih
    · rw [if_neg hg]
      exact ih

/-- C21: a setting survives marshalling: a reference to a secret always (without its value), a
literal unless it is the empty string or a map that looks like a reference.  Whole numbers of up to six
digits come back as integers.  `text` writes numbers. -/
theorem C21_parameter_roundtrip (text : Value → String) (ht : ∀ w, (∀ s, w ≠ .str s) → text w ≠ "from_secret")
    (p : Parameter) :
    (p.secret ≠ "" → decParameter (marshalParameter text p) {} = { val := { secret := p.secret } }) ∧
    (p.secret = "" → p.value ≠ .str "" → Spec.Proper (Spec.plainNumbers p.value) → ¬ Spec.LooksSecret p.value →
      decParameter (marshalParameter text p) {} = { val := { value := Spec.plainNumbers p.value } }) := by
  obtain ⟨v, s⟩ := p
  refine ⟨?_, ?_⟩
  · intro h
    simp only at h
    simp only [marshalParameter, ne_eq, h, not_false_eq_true, if_true, decParameter, custom, unmarshalParameter,
      decParameterLong, decStruct, decFields, decString]
    simp [field, decString, h]
  · intro h1 h2 h3 h4
    simp only at h1 h2 h3 h4
    subst h1
    have hm : marshalParameter text { value := v, secret := "" } = valueNode text v := by
      simp only [marshalParameter, ne_eq, not_true_eq_false, if_false]
    rw [hm]
    have hany : decAny (valueNode text v) .null = { val := Spec.plainNumbers v } := by
      simp [decAny, toValue_valueNode text v h3]
    have hl : ¬ ((decParameterLong (valueNode text v) "").err = false ∧ (decParameterLong (valueNode text v) "").val ≠ "") := by
      rintro ⟨-, hv⟩
      apply hv
      cases v with
      | map kvs =>
        simp only [valueNode, decParameterLong, decStruct]
        refine decParameterLong_entries text kvs (fun kv _ => ht kv.1) (fun w hw => ?_) _ (fun k hk => by simp [hk]) rfl
        by_contra hc
        push Not at hc
        exact h4 ⟨kvs, w, rfl, hw, hc.1, hc.2.1, hc.2.2.1, hc.2.2.2⟩
      | _ => rfl
    cases hn : valueNode text v with
    | null =>
      cases v with
      | null => rfl
      | _ => simp [valueNode, floatNode] at hn
    | _ =>
      rw [← hn]
      have : custom {} unmarshalParameter (valueNode text v) {} =
          { val := (unmarshalParameter (valueNode text v) {}).1, good := !(unmarshalParameter (valueNode text v) {}).2,
            err := (unmarshalParameter (valueNode text v) {}).2 } := by
        rw [hn]; rfl
      rw [decParameter, this]
      simp only [unmarshalParameter, if_neg hl, hany]
      rfl

/-- C21: the exception is real: a literal map with the key `from_secret` comes back as a secret. -/
theorem C21_parameter_secret_map (text : Value → String) :
    decParameter (marshalParameter text { value := .map [(.str "from_secret", .str "token"), (.str "a", .int 1)] }) {} =
      { val := { secret := "token" } } := by
  rfl

/-! ### Fields of a struct -/

theorem decString_eq (n : Node) (o : String) :
    decString n o = match textOf n with
      | some t => { val := t }
      | none => mismatch o := by
  cases n <;> rfl

theorem decFields_cons {σ : Type} (f : String → Option (Field σ)) (k v : Node) (kvs : List (Node × Node)) (s : σ) :
    (decFields f ((k, v) :: kvs) s).val =
      (decFields f kvs (match (textOf k).bind f with
        | some g => (g v s).1
        | none => s)).val := by
  rw [decFields, decString_eq]
  cases h : textOf k with
  | none => simp [mismatch]
  | some t =>
    simp only [if_true, Option.bind_some]
    cases f t <;> rfl

theorem decFields_good {σ : Type} (f : String → Option (Field σ)) (kvs : List (Node × Node)) (s : σ) :
    (decFields f kvs s).good = true := by
  induction kvs generalizing s with
  | nil => rfl
  | cons p kvs ih =>
    obtain ⟨k, v⟩ := p
    rw [decFields]
    split
    · split
      · exact ih s
      · rfl
    · rfl

theorem valuesOf_cons (k v : Node) (kvs : List (Node × Node)) (x : String) :
    valuesOf ((k, v) :: kvs) x = if textOf k = some x then v :: valuesOf kvs x else valuesOf kvs x := by
  by_cases h : textOf k = some x <;> simp [valuesOf, h]

/-- A projection of the struct that the field `x` fills with `d`, and no other field touches. -/
structure Spec.Fills {σ α : Type} (f : String → Option (Field σ)) (x : String) (get : σ → α) (d : Dec α) : Prop where
  here : ∃ g, f x = some g ∧ ∀ n s, get (g n s).1 = (d n (get s)).val
  others : ∀ k g, k ≠ x → f k = some g → ∀ n s, get (g n s).1 = get s

theorem fills_val {σ α : Type} {f : String → Option (Field σ)} {x : String} {get : σ → α} {d : Dec α}
    (h : Spec.Fills f x get d) (kvs : List (Node × Node)) (s : σ) :
    get (decFields f kvs s).val = fill d (get s) (valuesOf kvs x) := by
  induction kvs generalizing s with
  | nil => rfl
  | cons p kvs ih =>
    obtain ⟨k, v⟩ := p
    rw [decFields_cons, ih, valuesOf_cons]
    cases ht : textOf k with
    | none => simp
    | some t =>
      simp only [Option.bind_some, Option.some.injEq]
      by_cases hx : t = x
      · subst hx
        obtain ⟨g, hg, hh⟩ := h.here
        simp only [hg, if_true]
        rw [hh, fill, fill, List.foldl_cons]
      · rw [if_neg hx]
        cases hf : f t with
        | none => rfl
        | some g => simp only [h.others t g hx hf]

/-- Errors do not depend on what the value contained before. -/
def Spec.Steady {α : Type} (d : Dec α) : Prop := ∀ n a b, (d n a).err = (d n b).err

theorem decFields_err {σ : Type} (f : String → Option (Field σ))
    (hf : ∀ k g, f k = some g → ∀ n s s', (g n s).2 = (g n s').2) (kvs : List (Node × Node)) (s s0 : σ) :
    (decFields f kvs s).err = true ↔ ∃ k v, (k, v) ∈ kvs ∧
      (textOf k = none ∨ ∃ t g, textOf k = some t ∧ f t = some g ∧ (g v s0).2 = true) := by
  induction kvs generalizing s with
  | nil => simp [decFields]
  | cons p kvs ih =>
    obtain ⟨k, v⟩ := p
    rw [decFields, decString_eq]
    have step : ∀ P : Prop, (P ∨ ∃ k' v', (k', v') ∈ kvs ∧ (textOf k' = none ∨ ∃ t g, textOf k' = some t ∧ f t = some g ∧
        (g v' s0).2 = true)) → (P → textOf k = none ∨ ∃ t g, textOf k = some t ∧ f t = some g ∧ (g v s0).2 = true) →
        ∃ k' v', (k', v') ∈ (k, v) :: kvs ∧ (textOf k' = none ∨ ∃ t g, textOf k' = some t ∧ f t = some g ∧
        (g v' s0).2 = true) := by
      rintro P (h | ⟨k', v', h1, h2⟩) hp
      · exact ⟨k, v, List.mem_cons_self, hp h⟩
      · exact ⟨k', v', List.mem_cons_of_mem _ h1, h2⟩
    cases ht : textOf k with
    | none =>
      simp only [mismatch, Bool.false_eq_true, if_false, true_iff]
      exact ⟨k, v, List.mem_cons_self, .inl ht⟩
    | some t =>
      simp only [if_true]
      cases hg : f t with
      | none =>
        simp only
        rw [ih]
        constructor
        · intro h
          exact step False (.inr h) (fun h => h.elim)
        · rintro ⟨k', v', h1, h2⟩
          rcases List.mem_cons.mp h1 with h1 | h1
          · obtain ⟨rfl, rfl⟩ := Prod.mk.inj h1
            rcases h2 with h2 | ⟨t', g, h2, h3, -⟩
            · simp [ht] at h2
            · rw [ht] at h2
              cases h2
              simp [hg] at h3
          · exact ⟨k', v', h1, h2⟩
      | some g =>
        simp only [Bool.or_eq_true]
        rw [ih]
        constructor
        · intro h
          refine step _ h fun h => .inr ⟨t, g, ht, hg, ?_⟩
          rw [hf t g hg v s0 s]
          exact h
        · rintro ⟨k', v', h1, h2⟩
          rcases List.mem_cons.mp h1 with h1 | h1
          · obtain ⟨rfl, rfl⟩ := Prod.mk.inj h1
            rcases h2 with h2 | ⟨t', g', h2, h3, h4⟩
            · simp [ht] at h2
            · rw [ht] at h2
              cases h2
              rw [hg] at h3
              cases h3
              left
              rw [hf t g hg _ s s0]
              exact h4
          · exact .inr ⟨k', v', h1, h2⟩

theorem fills_table {σ α : Type} {tbl : List (String × Field σ)} {x : String} {get : σ → α} {d : Dec α}
    (here : ∃ g, tbl.lookup x = some g ∧ ∀ n s, get (g n s).1 = (d n (get s)).val)
    (others : ∀ p ∈ tbl, p.1 ≠ x → ∀ n s, get (p.2 n s).1 = get s) : Spec.Fills (fun k => tbl.lookup k) x get d :=
  ⟨here, fun k g hk hf => others (k, g) (GoMap.mem_of_get? hf) hk⟩

macro "fills_others" n:ident : tactic => `(tactic| (
  unfold $n:ident
  repeat refine List.forall_mem_cons.mpr ⟨by first | exact fun h => absurd rfl h | exact fun _ _ _ => rfl, ?_⟩
  exact List.forall_mem_nil _))

/-! ### C78: the keys of a pipeline -/

attribute [ext] Container

theorem fills_Container_build (ram : String → Option Int) : Spec.Fills (fun k => (containerFields ram).lookup k) "build" Container.build ((decPtr {} decBuild)) :=
  fills_table ⟨_, by simp [containerFields, List.lookup]; rfl, fun _ _ => rfl⟩ (by fills_others containerFields)
theorem fills_Container_command (ram : String → Option Int) : Spec.Fills (fun k => (containerFields ram).lookup k) "command" Container.command (decStrings) :=
  fills_table ⟨_, by simp [containerFields, List.lookup]; rfl, fun _ _ => rfl⟩ (by fills_others containerFields)
theorem fills_Container_commands (ram : String → Option Int) : Spec.Fills (fun k => (containerFields ram).lookup k) "commands" Container.commands (decStrings) :=
  fills_table ⟨_, by simp [containerFields, List.lookup]; rfl, fun _ _ => rfl⟩ (by fills_others containerFields)
theorem fills_Container_detach (ram : String → Option Int) : Spec.Fills (fun k => (containerFields ram).lookup k) "detach" Container.detach (decBool) :=
  fills_table ⟨_, by simp [containerFields, List.lookup]; rfl, fun _ _ => rfl⟩ (by fills_others containerFields)
theorem fills_Container_dependsOn (ram : String → Option Int) : Spec.Fills (fun k => (containerFields ram).lookup k) "depends_on" Container.dependsOn (decStrings) :=
  fills_table ⟨_, by simp [containerFields, List.lookup]; rfl, fun _ _ => rfl⟩ (by fills_others containerFields)
theorem fills_Container_devices (ram : String → Option Int) : Spec.Fills (fun k => (containerFields ram).lookup k) "devices" Container.devices ((decSlice none (decPtr {} decVolumeDevice))) :=
  fills_table ⟨_, by simp [containerFields, List.lookup]; rfl, fun _ _ => rfl⟩ (by fills_others containerFields)
theorem fills_Container_dns (ram : String → Option Int) : Spec.Fills (fun k => (containerFields ram).lookup k) "dns" Container.dns (decStrings) :=
  fills_table ⟨_, by simp [containerFields, List.lookup]; rfl, fun _ _ => rfl⟩ (by fills_others containerFields)
theorem fills_Container_dnsSearch (ram : String → Option Int) : Spec.Fills (fun k => (containerFields ram).lookup k) "dns_search" Container.dnsSearch (decStrings) :=
  fills_table ⟨_, by simp [containerFields, List.lookup]; rfl, fun _ _ => rfl⟩ (by fills_others containerFields)
theorem fills_Container_entrypoint (ram : String → Option Int) : Spec.Fills (fun k => (containerFields ram).lookup k) "entrypoint" Container.entrypoint (decStrings) :=
  fills_table ⟨_, by simp [containerFields, List.lookup]; rfl, fun _ _ => rfl⟩ (by fills_others containerFields)
theorem fills_Container_environment (ram : String → Option Int) : Spec.Fills (fun k => (containerFields ram).lookup k) "environment" Container.environment ((decMap none (decPtr {} decVariable))) :=
  fills_table ⟨_, by simp [containerFields, List.lookup]; rfl, fun _ _ => rfl⟩ (by fills_others containerFields)
theorem fills_Container_extraHosts (ram : String → Option Int) : Spec.Fills (fun k => (containerFields ram).lookup k) "extra_hosts" Container.extraHosts (decStrings) :=
  fills_table ⟨_, by simp [containerFields, List.lookup]; rfl, fun _ _ => rfl⟩ (by fills_others containerFields)
theorem fills_Container_failure (ram : String → Option Int) : Spec.Fills (fun k => (containerFields ram).lookup k) "failure" Container.failure (decString) :=
  fills_table ⟨_, by simp [containerFields, List.lookup]; rfl, fun _ _ => rfl⟩ (by fills_others containerFields)
theorem fills_Container_image (ram : String → Option Int) : Spec.Fills (fun k => (containerFields ram).lookup k) "image" Container.image (decString) :=
  fills_table ⟨_, by simp [containerFields, List.lookup]; rfl, fun _ _ => rfl⟩ (by fills_others containerFields)
theorem fills_Container_network (ram : String → Option Int) : Spec.Fills (fun k => (containerFields ram).lookup k) "network_mode" Container.network (decString) :=
  fills_table ⟨_, by simp [containerFields, List.lookup]; rfl, fun _ _ => rfl⟩ (by fills_others containerFields)
theorem fills_Container_name (ram : String → Option Int) : Spec.Fills (fun k => (containerFields ram).lookup k) "name" Container.name (decString) :=
  fills_table ⟨_, by simp [containerFields, List.lookup]; rfl, fun _ _ => rfl⟩ (by fills_others containerFields)
theorem fills_Container_ports (ram : String → Option Int) : Spec.Fills (fun k => (containerFields ram).lookup k) "ports" Container.ports ((decSlice none (decPtr {} decPort))) :=
  fills_table ⟨_, by simp [containerFields, List.lookup]; rfl, fun _ _ => rfl⟩ (by fills_others containerFields)
theorem fills_Container_privileged (ram : String → Option Int) : Spec.Fills (fun k => (containerFields ram).lookup k) "privileged" Container.privileged (decBool) :=
  fills_table ⟨_, by simp [containerFields, List.lookup]; rfl, fun _ _ => rfl⟩ (by fills_others containerFields)
theorem fills_Container_pull (ram : String → Option Int) : Spec.Fills (fun k => (containerFields ram).lookup k) "pull" Container.pull (decString) :=
  fills_table ⟨_, by simp [containerFields, List.lookup]; rfl, fun _ _ => rfl⟩ (by fills_others containerFields)
theorem fills_Container_push (ram : String → Option Int) : Spec.Fills (fun k => (containerFields ram).lookup k) "push" Container.push ((decPtr {} decPush)) :=
  fills_table ⟨_, by simp [containerFields, List.lookup]; rfl, fun _ _ => rfl⟩ (by fills_others containerFields)
theorem fills_Container_resources (ram : String → Option Int) : Spec.Fills (fun k => (containerFields ram).lookup k) "resources" Container.resources ((decPtr {} (decResources ram))) :=
  fills_table ⟨_, by simp [containerFields, List.lookup]; rfl, fun _ _ => rfl⟩ (by fills_others containerFields)
theorem fills_Container_settings (ram : String → Option Int) : Spec.Fills (fun k => (containerFields ram).lookup k) "settings" Container.settings ((decMap none (decPtr {} decParameter))) :=
  fills_table ⟨_, by simp [containerFields, List.lookup]; rfl, fun _ _ => rfl⟩ (by fills_others containerFields)
theorem fills_Container_shell (ram : String → Option Int) : Spec.Fills (fun k => (containerFields ram).lookup k) "shell" Container.shell (decString) :=
  fills_table ⟨_, by simp [containerFields, List.lookup]; rfl, fun _ _ => rfl⟩ (by fills_others containerFields)
theorem fills_Container_user (ram : String → Option Int) : Spec.Fills (fun k => (containerFields ram).lookup k) "user" Container.user (decString) :=
  fills_table ⟨_, by simp [containerFields, List.lookup]; rfl, fun _ _ => rfl⟩ (by fills_others containerFields)
theorem fills_Container_volumes (ram : String → Option Int) : Spec.Fills (fun k => (containerFields ram).lookup k) "volumes" Container.volumes ((decSlice none (decPtr {} decVolumeMount))) :=
  fills_table ⟨_, by simp [containerFields, List.lookup]; rfl, fun _ _ => rfl⟩ (by fills_others containerFields)
theorem fills_Container_cond (ram : String → Option Int) : Spec.Fills (fun k => (containerFields ram).lookup k) "when" Container.cond (decConditions) :=
  fills_table ⟨_, by simp [containerFields, List.lookup]; rfl, fun _ _ => rfl⟩ (by fills_others containerFields)
theorem fills_Container_workingDir (ram : String → Option Int) : Spec.Fills (fun k => (containerFields ram).lookup k) "working_dir" Container.workingDir (decString) :=
  fills_table ⟨_, by simp [containerFields, List.lookup]; rfl, fun _ _ => rfl⟩ (by fills_others containerFields)

/-- C78: a step: every key fills the field it names and no other, whatever the order of the keys and
whatever other keys there are. -/
theorem C78_container (ram : String → Option Int) (kvs : List (Node × Node)) :
    (decContainer ram (.map kvs) {}).val =
      { build := fill (decPtr {} decBuild) none (valuesOf kvs "build")
        command := fill decStrings [] (valuesOf kvs "command")
        commands := fill decStrings [] (valuesOf kvs "commands")
        detach := fill decBool false (valuesOf kvs "detach")
        dependsOn := fill decStrings [] (valuesOf kvs "depends_on")
        devices := fill (decSlice none (decPtr {} decVolumeDevice)) [] (valuesOf kvs "devices")
        dns := fill decStrings [] (valuesOf kvs "dns")
        dnsSearch := fill decStrings [] (valuesOf kvs "dns_search")
        entrypoint := fill decStrings [] (valuesOf kvs "entrypoint")
        environment := fill (decMap none (decPtr {} decVariable)) [] (valuesOf kvs "environment")
        extraHosts := fill decStrings [] (valuesOf kvs "extra_hosts")
        failure := fill decString "" (valuesOf kvs "failure")
        image := fill decString "" (valuesOf kvs "image")
        network := fill decString "" (valuesOf kvs "network_mode")
        name := fill decString "" (valuesOf kvs "name")
        ports := fill (decSlice none (decPtr {} decPort)) [] (valuesOf kvs "ports")
        privileged := fill decBool false (valuesOf kvs "privileged")
        pull := fill decString "" (valuesOf kvs "pull")
        push := fill (decPtr {} decPush) none (valuesOf kvs "push")
        resources := fill (decPtr {} (decResources ram)) none (valuesOf kvs "resources")
        settings := fill (decMap none (decPtr {} decParameter)) [] (valuesOf kvs "settings")
        shell := fill decString "" (valuesOf kvs "shell")
        user := fill decString "" (valuesOf kvs "user")
        volumes := fill (decSlice none (decPtr {} decVolumeMount)) [] (valuesOf kvs "volumes")
        cond := fill decConditions {} (valuesOf kvs "when")
        workingDir := fill decString "" (valuesOf kvs "working_dir") } := by
  apply Container.ext
  · exact fills_val (fills_Container_build ram) kvs {}
  · exact fills_val (fills_Container_command ram) kvs {}
  · exact fills_val (fills_Container_commands ram) kvs {}
  · exact fills_val (fills_Container_detach ram) kvs {}
  · exact fills_val (fills_Container_dependsOn ram) kvs {}
  · exact fills_val (fills_Container_devices ram) kvs {}
  · exact fills_val (fills_Container_dns ram) kvs {}
  · exact fills_val (fills_Container_dnsSearch ram) kvs {}
  · exact fills_val (fills_Container_entrypoint ram) kvs {}
  · exact fills_val (fills_Container_environment ram) kvs {}
  · exact fills_val (fills_Container_extraHosts ram) kvs {}
  · exact fills_val (fills_Container_failure ram) kvs {}
  · exact fills_val (fills_Container_image ram) kvs {}
  · exact fills_val (fills_Container_network ram) kvs {}
  · exact fills_val (fills_Container_name ram) kvs {}
  · exact fills_val (fills_Container_ports ram) kvs {}
  · exact fills_val (fills_Container_privileged ram) kvs {}
  · exact fills_val (fills_Container_pull ram) kvs {}
  · exact fills_val (fills_Container_push ram) kvs {}
  · exact fills_val (fills_Container_resources ram) kvs {}
  · exact fills_val (fills_Container_settings ram) kvs {}
  · exact fills_val (fills_Container_shell ram) kvs {}
  · exact fills_val (fills_Container_user ram) kvs {}
  · exact fills_val (fills_Container_volumes ram) kvs {}
  · exact fills_val (fills_Container_cond ram) kvs {}
  · exact fills_val (fills_Container_workingDir ram) kvs {}

attribute [ext] Pipeline

theorem fills_Pipeline_version (ram : String → Option Int) : Spec.Fills (fun k => (pipelineFields ram).lookup k) "version" Pipeline.version (decString) :=
  fills_table ⟨_, by simp [pipelineFields, List.lookup]; rfl, fun _ _ => rfl⟩ (by fills_others pipelineFields)
theorem fills_Pipeline_kind (ram : String → Option Int) : Spec.Fills (fun k => (pipelineFields ram).lookup k) "kind" Pipeline.kind (decString) :=
  fills_table ⟨_, by simp [pipelineFields, List.lookup]; rfl, fun _ _ => rfl⟩ (by fills_others pipelineFields)
theorem fills_Pipeline_type (ram : String → Option Int) : Spec.Fills (fun k => (pipelineFields ram).lookup k) "type" Pipeline.type (decString) :=
  fills_table ⟨_, by simp [pipelineFields, List.lookup]; rfl, fun _ _ => rfl⟩ (by fills_others pipelineFields)
theorem fills_Pipeline_name (ram : String → Option Int) : Spec.Fills (fun k => (pipelineFields ram).lookup k) "name" Pipeline.name (decString) :=
  fills_table ⟨_, by simp [pipelineFields, List.lookup]; rfl, fun _ _ => rfl⟩ (by fills_others pipelineFields)
theorem fills_Pipeline_clone (ram : String → Option Int) : Spec.Fills (fun k => (pipelineFields ram).lookup k) "clone" Pipeline.clone (decClone) :=
  fills_table ⟨_, by simp [pipelineFields, List.lookup]; rfl, fun _ _ => rfl⟩ (by fills_others pipelineFields)
theorem fills_Pipeline_concurrency (ram : String → Option Int) : Spec.Fills (fun k => (pipelineFields ram).lookup k) "concurrency" Pipeline.concurrency (decConcurrency) :=
  fills_table ⟨_, by simp [pipelineFields, List.lookup]; rfl, fun _ _ => rfl⟩ (by fills_others pipelineFields)
theorem fills_Pipeline_dependsOn (ram : String → Option Int) : Spec.Fills (fun k => (pipelineFields ram).lookup k) "depends_on" Pipeline.dependsOn (decStrings) :=
  fills_table ⟨_, by simp [pipelineFields, List.lookup]; rfl, fun _ _ => rfl⟩ (by fills_others pipelineFields)
theorem fills_Pipeline_node (ram : String → Option Int) : Spec.Fills (fun k => (pipelineFields ram).lookup k) "node" Pipeline.node (decStringMap) :=
  fills_table ⟨_, by simp [pipelineFields, List.lookup]; rfl, fun _ _ => rfl⟩ (by fills_others pipelineFields)
theorem fills_Pipeline_platform (ram : String → Option Int) : Spec.Fills (fun k => (pipelineFields ram).lookup k) "platform" Pipeline.platform (decPlatform) :=
  fills_table ⟨_, by simp [pipelineFields, List.lookup]; rfl, fun _ _ => rfl⟩ (by fills_others pipelineFields)
theorem fills_Pipeline_pullSecrets (ram : String → Option Int) : Spec.Fills (fun k => (pipelineFields ram).lookup k) "image_pull_secrets" Pipeline.pullSecrets (decStrings) :=
  fills_table ⟨_, by simp [pipelineFields, List.lookup]; rfl, fun _ _ => rfl⟩ (by fills_others pipelineFields)
theorem fills_Pipeline_services (ram : String → Option Int) : Spec.Fills (fun k => (pipelineFields ram).lookup k) "services" Pipeline.services ((decSlice none (decPtr {} (decContainer ram)))) :=
  fills_table ⟨_, by simp [pipelineFields, List.lookup]; rfl, fun _ _ => rfl⟩ (by fills_others pipelineFields)
theorem fills_Pipeline_steps (ram : String → Option Int) : Spec.Fills (fun k => (pipelineFields ram).lookup k) "steps" Pipeline.steps ((decSlice none (decPtr {} (decContainer ram)))) :=
  fills_table ⟨_, by simp [pipelineFields, List.lookup]; rfl, fun _ _ => rfl⟩ (by fills_others pipelineFields)
theorem fills_Pipeline_trigger (ram : String → Option Int) : Spec.Fills (fun k => (pipelineFields ram).lookup k) "trigger" Pipeline.trigger (decConditions) :=
  fills_table ⟨_, by simp [pipelineFields, List.lookup]; rfl, fun _ _ => rfl⟩ (by fills_others pipelineFields)
theorem fills_Pipeline_volumes (ram : String → Option Int) : Spec.Fills (fun k => (pipelineFields ram).lookup k) "volumes" Pipeline.volumes ((decSlice none (decPtr {} (decVolume ram)))) :=
  fills_table ⟨_, by simp [pipelineFields, List.lookup]; rfl, fun _ _ => rfl⟩ (by fills_others pipelineFields)
theorem fills_Pipeline_workspace (ram : String → Option Int) : Spec.Fills (fun k => (pipelineFields ram).lookup k) "workspace" Pipeline.workspace (decWorkspace) :=
  fills_table ⟨_, by simp [pipelineFields, List.lookup]; rfl, fun _ _ => rfl⟩ (by fills_others pipelineFields)

/-- C78: the same for the keys of a pipeline. -/
theorem C78_pipeline (ram : String → Option Int) (kvs : List (Node × Node)) :
    (decPipeline ram (.map kvs) {}).val =
      { version := fill decString "" (valuesOf kvs "version")
        kind := fill decString "" (valuesOf kvs "kind")
        type := fill decString "" (valuesOf kvs "type")
        name := fill decString "" (valuesOf kvs "name")
        clone := fill decClone {} (valuesOf kvs "clone")
        concurrency := fill decConcurrency {} (valuesOf kvs "concurrency")
        dependsOn := fill decStrings [] (valuesOf kvs "depends_on")
        node := fill decStringMap [] (valuesOf kvs "node")
        platform := fill decPlatform {} (valuesOf kvs "platform")
        pullSecrets := fill decStrings [] (valuesOf kvs "image_pull_secrets")
        services := fill (decSlice none (decPtr {} (decContainer ram))) [] (valuesOf kvs "services")
        steps := fill (decSlice none (decPtr {} (decContainer ram))) [] (valuesOf kvs "steps")
        trigger := fill decConditions {} (valuesOf kvs "trigger")
        volumes := fill (decSlice none (decPtr {} (decVolume ram))) [] (valuesOf kvs "volumes")
        workspace := fill decWorkspace {} (valuesOf kvs "workspace") } := by
  apply Pipeline.ext
  · exact fills_val (fills_Pipeline_version ram) kvs {}
  · exact fills_val (fills_Pipeline_kind ram) kvs {}
  · exact fills_val (fills_Pipeline_type ram) kvs {}
  · exact fills_val (fills_Pipeline_name ram) kvs {}
  · exact fills_val (fills_Pipeline_clone ram) kvs {}
  · exact fills_val (fills_Pipeline_concurrency ram) kvs {}
  · exact fills_val (fills_Pipeline_dependsOn ram) kvs {}
  · exact fills_val (fills_Pipeline_node ram) kvs {}
  · exact fills_val (fills_Pipeline_platform ram) kvs {}
  · exact fills_val (fills_Pipeline_pullSecrets ram) kvs {}
  · exact fills_val (fills_Pipeline_services ram) kvs {}
  · exact fills_val (fills_Pipeline_steps ram) kvs {}
  · exact fills_val (fills_Pipeline_trigger ram) kvs {}
  · exact fills_val (fills_Pipeline_volumes ram) kvs {}
  · exact fills_val (fills_Pipeline_workspace ram) kvs {}

/-! ### C78: which documents are refused -/

theorem steady_string : Spec.Steady decString := by
  intro n a b; cases n <;> rfl
theorem steady_int : Spec.Steady decInt := by
  intro n a b; cases n with
  | scalar t r =>
    rcases decInt_scalar t r with ⟨x, h⟩ | h
    · rw [h, h]
    · rw [h, h]; rfl
  | _ => rfl
theorem steady_float : Spec.Steady decFloat := by
  intro n a b; cases n with
  | scalar t r => cases r <;> rfl
  | _ => rfl
theorem steady_bool : Spec.Steady decBool := by
  intro n a b; cases n with
  | scalar t r => cases r <;> rfl
  | _ => rfl
theorem steady_slice {α : Type} (z : α) (d : Dec α) : Spec.Steady (decSlice z d) := by
  intro n a b; cases n <;> rfl
theorem decEntries_err {α : Type} (z : α) (d : Dec α) (kvs : List (Node × Node)) (m m' : GoMap α) :
    (decEntries z d kvs m).err = (decEntries z d kvs m').err := by
  induction kvs generalizing m m' with
  | nil => rfl
  | cons p kvs ih =>
    obtain ⟨k, v⟩ := p
    simp only [decEntries]
    rw [ih]
theorem steady_map {α : Type} (z : α) (d : Dec α) : Spec.Steady (decMap z d) := by
  intro n a b
  cases n with
  | map kvs => exact decEntries_err z d kvs a b
  | _ => rfl
theorem steady_ptr {α : Type} (z : α) {d : Dec α} (h : Spec.Steady d) : Spec.Steady (decPtr z d) := by
  intro n a b
  cases n with
  | null => rfl
  | _ => exact h _ _ _
theorem steady_custom {α : Type} (z : α) {f : Node → α → α × Bool} (h : ∀ n a b, (f n a).2 = (f n b).2) :
    Spec.Steady (custom z f) := by
  intro n a b
  cases n with
  | null => rfl
  | _ => exact h _ _ _
theorem steady_field {σ α : Type} {get : σ → α} {set : σ → α → σ} {d : Dec α} (h : Spec.Steady d) (n : Node)
    (s s' : σ) : (field get set d n s).2 = (field get set d n s').2 := h n _ _
theorem steady_table {σ : Type} (z : σ) (tbl : List (String × Field σ))
    (h : ∀ p ∈ tbl, ∀ n s s', (p.2 n s).2 = (p.2 n s').2) : Spec.Steady (decStruct z fun k => tbl.lookup k) := by
  intro n a b
  cases n with
  | map kvs =>
    have hf : ∀ k g, tbl.lookup k = some g → ∀ n s s', (g n s).2 = (g n s').2 :=
      fun k g hk => h (k, g) (GoMap.mem_of_get? hk)
    have := (decFields_err _ hf kvs a z).trans (decFields_err _ hf kvs b z).symm
    exact Bool.eq_iff_iff.mpr this
  | _ => rfl
theorem steady_build : Spec.Steady decBuild := steady_custom _ fun n _ _ => rfl
theorem steady_push : Spec.Steady decPush := steady_custom _ fun n _ _ => rfl
theorem steady_port : Spec.Steady decPort := steady_custom _ fun n _ _ => rfl
theorem steady_variable : Spec.Steady decVariable := steady_custom _ fun n _ _ => rfl
theorem steady_parameter : Spec.Steady decParameter := steady_custom _ fun n a b => by
  simp only [unmarshalParameter]; split <;> rfl
theorem steady_condition : Spec.Steady decCondition := steady_custom _ fun n a b => by
  simp only [unmarshalCondition]; split <;> rfl
theorem steady_bytes (ram : String → Option Int) : Spec.Steady (decBytes ram) := steady_custom _ fun n a b => by
  simp only [unmarshalBytes]
  split
  · rfl
  · split
    · rfl
    · split <;> rfl

macro "steady_base" : tactic => `(tactic| first
  | exact steady_string | exact steady_int | exact steady_float | exact steady_bool
  | exact steady_slice _ _ | exact steady_map _ _ | exact steady_bytes _ | exact steady_condition)

macro "steady_rows" : tactic => `(tactic| (
  apply steady_table
  repeat refine List.forall_mem_cons.mpr ⟨by apply steady_field; first
    | steady_base | (apply steady_ptr; assumption) | assumption, ?_⟩
  exact List.forall_mem_nil _))

theorem steady_device : Spec.Steady decVolumeDevice := by steady_rows
theorem steady_mount : Spec.Steady decVolumeMount := by steady_rows
theorem steady_hostPath : Spec.Steady decVolumeHostPath := by steady_rows
theorem steady_conditions : Spec.Steady decConditions := by
  unfold decConditions conditionsFields; steady_rows
theorem steady_resourceObject (ram : String → Option Int) : Spec.Steady (decResourceObject ram) := by steady_rows
theorem steady_resources (ram : String → Option Int) : Spec.Steady (decResources ram) := by
  have := steady_resourceObject ram
  steady_rows
theorem steady_clone : Spec.Steady decClone := by steady_rows
theorem steady_concurrency : Spec.Steady decConcurrency := by steady_rows
theorem steady_platform : Spec.Steady decPlatform := by steady_rows
theorem steady_workspace : Spec.Steady decWorkspace := by steady_rows

macro "steady_auto" : tactic => `(tactic| first
  | steady_base | exact steady_conditions | exact steady_ptr _ steady_build | exact steady_ptr _ steady_push
  | exact steady_ptr _ (steady_resources _) | exact steady_clone | exact steady_concurrency | exact steady_platform
  | exact steady_workspace)

/-- What is wrong with a value, by key. -/
def Spec.stepWrong (ram : String → Option Int) : List (String × (Node → Bool)) :=
  [ ("build", fun n => (decPtr {} decBuild n none).err),
    ("command", fun n => (decStrings n []).err),
    ("commands", fun n => (decStrings n []).err),
    ("detach", fun n => (decBool n false).err),
    ("depends_on", fun n => (decStrings n []).err),
    ("devices", fun n => (decSlice none (decPtr {} decVolumeDevice) n []).err),
    ("dns", fun n => (decStrings n []).err),
    ("dns_search", fun n => (decStrings n []).err),
    ("entrypoint", fun n => (decStrings n []).err),
    ("environment", fun n => (decMap none (decPtr {} decVariable) n []).err),
    ("extra_hosts", fun n => (decStrings n []).err),
    ("failure", fun n => (decString n "").err),
    ("image", fun n => (decString n "").err),
    ("network_mode", fun n => (decString n "").err),
    ("name", fun n => (decString n "").err),
    ("ports", fun n => (decSlice none (decPtr {} decPort) n []).err),
    ("privileged", fun n => (decBool n false).err),
    ("pull", fun n => (decString n "").err),
    ("push", fun n => (decPtr {} decPush n none).err),
    ("resources", fun n => (decPtr {} (decResources ram) n none).err),
    ("settings", fun n => (decMap none (decPtr {} decParameter) n []).err),
    ("shell", fun n => (decString n "").err),
    ("user", fun n => (decString n "").err),
    ("volumes", fun n => (decSlice none (decPtr {} decVolumeMount) n []).err),
    ("when", fun n => (decConditions n {}).err),
    ("working_dir", fun n => (decString n "").err) ]

theorem containerFields_steady (ram : String → Option Int) :
    ∀ p ∈ containerFields ram, ∀ n s s', (p.2 n s).2 = (p.2 n s').2 := by
  unfold containerFields
  repeat refine List.forall_mem_cons.mpr ⟨by apply steady_field; steady_auto, ?_⟩
  exact List.forall_mem_nil _

/-- C78: a step is refused exactly if a key is not a text or a value does not fit its key; keys that are
not in the list are never looked at. -/
theorem C78_container_refused (ram : String → Option Int) (kvs : List (Node × Node)) :
    (decContainer ram (.map kvs) {}).err = true ↔ ∃ k v, (k, v) ∈ kvs ∧
      (textOf k = none ∨ ∃ t wrong, textOf k = some t ∧ (t, wrong) ∈ Spec.stepWrong ram ∧ wrong v = true) := by
  rw [decContainer, decStruct, decFields_err (fun k => (containerFields ram).lookup k) (fun k g h => containerFields_steady ram (k, g) (GoMap.mem_of_get? h)) kvs {} {}]
  have hl : ∀ t v, (∃ g, (containerFields ram).lookup t = some g ∧ (g v {}).2 = true) ↔
      ∃ wrong, (t, wrong) ∈ Spec.stepWrong ram ∧ wrong v = true := by
    intro t v
    have hm : Spec.stepWrong ram = (containerFields ram).map fun p => (p.1, fun n => (p.2 n {}).2) := rfl
    rw [hm]
    have hn : ((containerFields ram).map Prod.fst).Nodup := by simp [containerFields]
    constructor
    · rintro ⟨g, h1, h2⟩
      exact ⟨fun n => (g n {}).2, List.mem_map.mpr ⟨(t, g), GoMap.mem_of_get? h1, rfl⟩, h2⟩
    · rintro ⟨w, h1, h2⟩
      obtain ⟨⟨t', g⟩, h3, h4⟩ := List.mem_map.mp h1
      obtain ⟨rfl, rfl⟩ := Prod.mk.inj h4
      exact ⟨g, GoMap.get?_of_mem hn h3, h2⟩
  constructor
  · rintro ⟨k, v, hm, h⟩
    refine ⟨k, v, hm, h.imp id ?_⟩
    rintro ⟨t, g, h1, h2, h3⟩
    obtain ⟨w, h4, h5⟩ := (hl t v).mp ⟨g, h2, h3⟩
    exact ⟨t, w, h1, h4, h5⟩
  · rintro ⟨k, v, hm, h⟩
    refine ⟨k, v, hm, h.imp id ?_⟩
    rintro ⟨t, w, h1, h2, h3⟩
    obtain ⟨g, h4, h5⟩ := (hl t v).mpr ⟨w, h2, h3⟩
    exact ⟨t, g, h1, h4, h5⟩


/-- What is wrong with a value, by key. -/
def Spec.pipelineWrong (ram : String → Option Int) : List (String × (Node → Bool)) :=
  [ ("version", fun n => (decString n "").err),
    ("kind", fun n => (decString n "").err),
    ("type", fun n => (decString n "").err),
    ("name", fun n => (decString n "").err),
    ("clone", fun n => (decClone n {}).err),
    ("concurrency", fun n => (decConcurrency n {}).err),
    ("depends_on", fun n => (decStrings n []).err),
    ("node", fun n => (decStringMap n []).err),
    ("platform", fun n => (decPlatform n {}).err),
    ("image_pull_secrets", fun n => (decStrings n []).err),
    ("services", fun n => (decSlice none (decPtr {} (decContainer ram)) n []).err),
    ("steps", fun n => (decSlice none (decPtr {} (decContainer ram)) n []).err),
    ("trigger", fun n => (decConditions n {}).err),
    ("volumes", fun n => (decSlice none (decPtr {} (decVolume ram)) n []).err),
    ("workspace", fun n => (decWorkspace n {}).err) ]

theorem pipelineFields_steady (ram : String → Option Int) :
    ∀ p ∈ pipelineFields ram, ∀ n s s', (p.2 n s).2 = (p.2 n s').2 := by
  unfold pipelineFields
  repeat refine List.forall_mem_cons.mpr ⟨by apply steady_field; steady_auto, ?_⟩
  exact List.forall_mem_nil _

/-- C78: the same for pipelines; a step that does not fit makes the pipeline not fit. -/
theorem C78_pipeline_refused (ram : String → Option Int) (kvs : List (Node × Node)) :
    (decPipeline ram (.map kvs) {}).err = true ↔ ∃ k v, (k, v) ∈ kvs ∧
      (textOf k = none ∨ ∃ t wrong, textOf k = some t ∧ (t, wrong) ∈ Spec.pipelineWrong ram ∧ wrong v = true) := by
  rw [decPipeline, decStruct, decFields_err (fun k => (pipelineFields ram).lookup k) (fun k g h => pipelineFields_steady ram (k, g) (GoMap.mem_of_get? h)) kvs {} {}]
  have hl : ∀ t v, (∃ g, (pipelineFields ram).lookup t = some g ∧ (g v {}).2 = true) ↔
      ∃ wrong, (t, wrong) ∈ Spec.pipelineWrong ram ∧ wrong v = true := by
    intro t v
    have hm : Spec.pipelineWrong ram = (pipelineFields ram).map fun p => (p.1, fun n => (p.2 n {}).2) := rfl
    rw [hm]
    have hn : ((pipelineFields ram).map Prod.fst).Nodup := by simp [pipelineFields]
    constructor
    · rintro ⟨g, h1, h2⟩
      exact ⟨fun n => (g n {}).2, List.mem_map.mpr ⟨(t, g), GoMap.mem_of_get? h1, rfl⟩, h2⟩
    · rintro ⟨w, h1, h2⟩
      obtain ⟨⟨t', g⟩, h3, h4⟩ := List.mem_map.mp h1
      obtain ⟨rfl, rfl⟩ := Prod.mk.inj h4
      exact ⟨g, GoMap.get?_of_mem hn h3, h2⟩
  constructor
  · rintro ⟨k, v, hm, h⟩
    refine ⟨k, v, hm, h.imp id ?_⟩
    rintro ⟨t, g, h1, h2, h3⟩
    obtain ⟨w, h4, h5⟩ := (hl t v).mp ⟨g, h2, h3⟩
    exact ⟨t, w, h1, h4, h5⟩
  · rintro ⟨k, v, hm, h⟩
    refine ⟨k, v, hm, h.imp id ?_⟩
    rintro ⟨t, w, h1, h2, h3⟩
    obtain ⟨g, h4, h5⟩ := (hl t v).mpr ⟨w, h2, h3⟩
    exact ⟨t, g, h1, h4, h5⟩


/-! ### C78: order of keys -/

theorem valuesOf_perm {kvs kvs' : List (Node × Node)} (h : kvs.Perm kvs') (hd : DistinctKeys kvs) (k : String) :
    valuesOf kvs k = valuesOf kvs' k := by
  have hp : (valuesOf kvs k).Perm (valuesOf kvs' k) := (h.filter _).map _
  have hlen : (valuesOf kvs k).length ≤ 1 := by
    have hsub : ((kvs.filter fun kv => decide (textOf kv.1 = some k)).map fun kv => textOf kv.1).Nodup :=
      hd.2.sublist (List.filter_sublist.map _)
    have hall : ∀ t ∈ (kvs.filter fun kv => decide (textOf kv.1 = some k)).map fun kv => textOf kv.1, t = some k := by
      intro t ht
      obtain ⟨kv, h1, rfl⟩ := List.mem_map.mp ht
      simpa using (List.mem_filter.mp h1).2
    have hl := List.length_map (as := kvs.filter fun kv => decide (textOf kv.1 = some k)) (fun kv => textOf kv.1)
    rw [valuesOf, List.length_map, ← hl]
    generalize ((kvs.filter fun kv => decide (textOf kv.1 = some k)).map fun kv => textOf kv.1) = l at hsub hall
    match l, hsub, hall with
    | [], _, _ => simp
    | [_], _, _ => simp
    | a :: b :: l, hs, ha =>
      have h1 := ha a (by simp)
      have h2 := ha b (by simp)
      rw [h1, h2] at hs
      simp at hs
  match h1 : valuesOf kvs k with
  | [] => rw [h1] at hp; exact (List.nil_perm.mp hp).symm
  | [a] => rw [h1] at hp; exact List.singleton_perm.mp hp
  | a :: b :: l => rw [h1] at hlen; simp at hlen

theorem perm_exists {kvs kvs' : List (Node × Node)} (h : kvs.Perm kvs') (P : Node → Node → Prop) :
    (∃ k v, (k, v) ∈ kvs ∧ P k v) ↔ ∃ k v, (k, v) ∈ kvs' ∧ P k v := by
  constructor
  · rintro ⟨k, v, h1, h2⟩; exact ⟨k, v, h.mem_iff.mp h1, h2⟩
  · rintro ⟨k, v, h1, h2⟩; exact ⟨k, v, h.mem_iff.mpr h1, h2⟩

/-- C78: the order of the keys of a step or a pipeline does not matter when they are distinct. -/
theorem C78_key_order (ram : String → Option Int) {kvs kvs' : List (Node × Node)} (h : kvs.Perm kvs')
    (hd : DistinctKeys kvs) :
    decContainer ram (.map kvs) {} = decContainer ram (.map kvs') {} ∧
    decPipeline ram (.map kvs) {} = decPipeline ram (.map kvs') {} := by
  have ext : ∀ {α : Type} (a b : Res α), a.val = b.val → a.good = b.good → a.err = b.err → a = b := by
    rintro α ⟨⟩ ⟨⟩ h1 h2 h3
    simp only at h1 h2 h3
    subst h1; subst h2; subst h3
    rfl
  constructor
  · apply ext
    · rw [C78_container, C78_container]
      simp only [valuesOf_perm h hd]
    · exact (decFields_good _ _ _).trans (decFields_good _ _ _).symm
    · rw [Bool.eq_iff_iff, C78_container_refused, C78_container_refused]
      exact perm_exists h _
  · apply ext
    · rw [C78_pipeline, C78_pipeline]
      simp only [valuesOf_perm h hd]
    · exact (decFields_good _ _ _).trans (decFields_good _ _ _).symm
    · rw [Bool.eq_iff_iff, C78_pipeline_refused, C78_pipeline_refused]
      exact perm_exists h _

/-- A step with an unknown key, two orders. -/
example : ∃ kvs kvs', List.Perm kvs kvs' ∧ DistinctKeys kvs ∧ kvs ≠ kvs' ∧
    (decContainer (fun _ => none) (.map kvs') {}).val.image = "golang:1.10" ∧
    (decContainer (fun _ => none) (.map kvs') {}).val.name = "test" ∧
    (decContainer (fun _ => none) (.map kvs') {}).err = false := by
  refine ⟨[(key "name", .scalar "test" .str), (key "image", .scalar "golang:1.10" .str), (key "imgae", .seq [])],
    [(key "image", .scalar "golang:1.10" .str), (key "name", .scalar "test" .str), (key "imgae", .seq [])],
    List.Perm.swap _ _ _, ?_, ?_, rfl, rfl, rfl⟩
  · constructor
    · intro kv h; simp only [List.mem_cons, List.not_mem_nil, or_false] at h
      rcases h with rfl | rfl | rfl <;> simp [textOf, key]
    · simp [textOf, key]
  · intro h
    have := congrArg (fun l => (l.map fun (kv : Node × Node) => textOf kv.1).head?) h
    simp [textOf, key] at this

/-- A step with a list where a text belongs is refused. -/
example : (decContainer (fun _ => none) (.map [(key "image", .seq [])]) {}).err = true :=
  (C78_container_refused _ _).mpr ⟨key "image", .seq [], List.mem_singleton.mpr rfl, .inr ⟨"image", _, rfl,
    by unfold Spec.stepWrong; iterate 12 apply List.mem_cons_of_mem
       exact List.mem_cons_self, rfl⟩⟩

/-! ### C77: conditions -/

/-- The documented forms of a condition: a scalar, a list of scalars, or a map whose `include` and
`exclude` are lists of scalars. -/
inductive Spec.CondForm : Node → Condition → Prop
  | scalar (t : String) (r : Scalar) : CondForm (.scalar t r) { incl := [t] }
  | list (l : List (String × Scalar)) : CondForm (.seq (scalars l)) { incl := l.map Prod.fst }
  | map (kvs : List (Node × Node)) (i e : List (String × Scalar))
      (hi : valuesOf kvs "include" = [.seq (scalars i)] ∨ (valuesOf kvs "include" = [] ∧ i = []))
      (he : valuesOf kvs "exclude" = [.seq (scalars e)] ∨ (valuesOf kvs "exclude" = [] ∧ e = [])) :
      CondForm (.map kvs) { incl := i.map Prod.fst, excl := e.map Prod.fst }

theorem fills_inclExcl_incl : Spec.Fills (fun k => (List.lookup k
    [ ("include", field Condition.incl (fun s v => { s with incl := v }) decStrings),
      ("exclude", field Condition.excl (fun s v => { s with excl := v }) decStrings) ])) "include" Condition.incl decStrings :=
  fills_table ⟨_, by simp [List.lookup]; rfl, fun _ _ => rfl⟩ (by
    repeat refine List.forall_mem_cons.mpr ⟨by first | exact fun h => absurd rfl h | exact fun _ _ _ => rfl, ?_⟩
    exact List.forall_mem_nil _)

theorem fills_inclExcl_excl : Spec.Fills (fun k => (List.lookup k
    [ ("include", field Condition.incl (fun s v => { s with incl := v }) decStrings),
      ("exclude", field Condition.excl (fun s v => { s with excl := v }) decStrings) ])) "exclude" Condition.excl decStrings :=
  fills_table ⟨_, by simp [List.lookup]; rfl, fun _ _ => rfl⟩ (by
    repeat refine List.forall_mem_cons.mpr ⟨by first | exact fun h => absurd rfl h | exact fun _ _ _ => rfl, ?_⟩
    exact List.forall_mem_nil _)

theorem decCondition_map (kvs : List (Node × Node)) (old : Condition) :
    decCondition (.map kvs) old =
      { val := { incl := fill decStrings [] (valuesOf kvs "include"), excl := fill decStrings [] (valuesOf kvs "exclude") } } := by
  have h1 := fills_val fills_inclExcl_incl kvs {}
  have h2 := fills_val fills_inclExcl_excl kvs {}
  simp only [decCondition, custom, unmarshalCondition, decString, mismatch, decStrings, decSlice, decInclExcl,
    decStruct, List.append_nil] at h1 h2 ⊢
  rw [h1, h2]
  rfl

/-- C77: every documented form of a condition is read in full, and no form is ever refused. -/
theorem C77_condition_partial (n : Node) (c : Condition) (h : Spec.CondForm n c) :
    decCondition n {} = { val := c } ∧ ∀ n' old, (decCondition n' old).err = false := by
  refine ⟨?_, ?_⟩
  · cases h with
    | scalar t r => rfl
    | list l => exact C21_condition_list l
    | map kvs i e hi he =>
      rw [decCondition_map]
      have hf : ∀ (l : List (String × Scalar)) k, (valuesOf kvs k = [.seq (scalars l)] ∨ (valuesOf kvs k = [] ∧ l = [])) →
          fill decStrings [] (valuesOf kvs k) = l.map Prod.fst := by
        rintro l k (h | ⟨h, rfl⟩)
        · rw [h]
          simp [fill, decStrings, decSlice, decElems_scalars]
        · rw [h]; rfl
      rw [hf i _ hi, hf e _ he]
  · intro n' old
    cases n' with
    | null => rfl
    | _ => simp only [decCondition, custom, unmarshalCondition]; split <;> rfl

example : Spec.CondForm (.map [(key "exclude", .seq (scalars [("dev", .str)])), (key "include", .seq (scalars [("a", .str)]))])
    { incl := ["a"], excl := ["dev"] } :=
  .map _ [("a", .str)] [("dev", .str)] (.inl (by simp [valuesOf, textOf, key])) (.inl (by simp [valuesOf, textOf, key]))

theorem decElems_strings (xs : List Node) : (decElems "" decString xs).val = xs.filterMap textOf := by
  induction xs with
  | nil => rfl
  | cons x xs ih =>
    cases x <;> simp [decElems, decString, mismatch, ih, List.filterMap_cons, textOf]

theorem fill_once (l : List Node) (h : l.length ≤ 1) :
    fill decStrings [] l = l.flatMap Spec.listed ↔ ∀ v ∈ l, ∀ t r, v ≠ .scalar t r := by
  match l, h with
  | [], _ => simp [fill]
  | [v], _ =>
    cases v with
    | scalar t r => simp [fill, decStrings, decSlice, mismatch, Spec.listed]
    | seq xs => simp [fill, decStrings, decSlice, Spec.listed, decElems_strings]
    | null => simp [fill, decStrings, decSlice, Spec.listed]
    | map kvs => simp [fill, decStrings, decSlice, mismatch, Spec.listed]

/-- C77, exactly: what is read is what is meant iff neither `include` nor `exclude` is a scalar. -/
theorem C77_read_iff (n : Node) (h1 : Spec.OnceEach n) : decCondition n {} = { val := Spec.meant n } ↔
    ∀ kvs, n = .map kvs → ∀ v ∈ valuesOf kvs "include" ++ valuesOf kvs "exclude", ∀ t r, v ≠ .scalar t r := by
  cases n with
  | null => exact ⟨nofun, fun _ => rfl⟩
  | scalar t r => exact ⟨nofun, fun _ => rfl⟩
  | seq xs =>
    refine ⟨nofun, fun _ => ?_⟩
    simp only [decCondition, custom, unmarshalCondition, decString, mismatch, decStrings, decSlice, decInclExcl,
      decStruct, decElems_strings]
    simp [Spec.meant, Spec.listed]
  | map kvs =>
    obtain ⟨hi, he⟩ := h1 kvs rfl
    rw [decCondition_map]
    simp only [Spec.meant, Res.mk.injEq, Condition.mk.injEq, and_true, fill_once _ hi, fill_once _ he, Node.map.injEq,
      List.mem_append]
    constructor
    · rintro ⟨a, b⟩ _ rfl v (hv | hv)
      · exact a v hv
      · exact b v hv
    · exact fun h => ⟨fun v hv => h _ rfl v (.inl hv), fun v hv => h _ rfl v (.inr hv)⟩

example : Spec.OnceEach (.map [(key "include", .scalar "dev" .str)]) ∧
    ¬ decCondition (.map [(key "include", .scalar "dev" .str)]) {} =
      { val := Spec.meant (.map [(key "include", .scalar "dev" .str)]) } := by
  have h : Spec.OnceEach (.map [(key "include", .scalar "dev" .str)]) := by
    rintro _ ⟨⟩
    simp [valuesOf, textOf, key]
  refine ⟨h, fun e => ?_⟩
  exact (C77_read_iff _ h).1 e _ rfl (.scalar "dev" .str) (by simp [valuesOf, textOf, key]) _ _ rfl

/-- C77: the price: a condition whose `include` is not a list is read as no restriction at all.  The
step then runs on every branch. -/
theorem C77_include_ignored (g : Glob) (t : String) (r : Scalar) (v : String) :
    decCondition (single "include" (.scalar t r)) {} = { val := {} } ∧
    (decCondition (single "include" (.scalar t r)) {}).val.matches g v = true := by
  have h : decCondition (single "include" (.scalar t r)) {} = { val := {} } := by
    rw [single, decCondition_map]
    simp [valuesOf, textOf, key, fill, decStrings, decSlice, mismatch]
  refine ⟨h, ?_⟩
  rw [h]
  simp [Condition.matches, Condition.excludes, Condition.includes]

/-- C77: the same for `exclude`, and for a list element that is not a scalar: it is left out and the
rest is kept. -/
theorem C77_parts_ignored (t : String) (r : Scalar) (l : List (String × Scalar)) (kvs : List (Node × Node)) :
    decCondition (single "exclude" (.scalar t r)) {} = { val := {} } ∧
    decCondition (.seq (scalars l ++ [.map kvs])) {} = { val := { incl := l.map Prod.fst } } := by
  constructor
  · rw [single, decCondition_map]
    simp [valuesOf, textOf, key, fill, decStrings, decSlice, mismatch]
  · have h : (decElems "" decString (scalars l ++ [.map kvs])).val = l.map Prod.fst := by
      induction l with
      | nil => rfl
      | cons p l ih =>
        simp only [scalars, List.map_cons, List.cons_append, decElems, decString, if_true] at ih ⊢
        rw [ih]
    simp [decCondition, custom, unmarshalCondition, decString, mismatch, decStrings, decSlice, decInclExcl, decStruct, h]

/-! ### The tree decoder as the library of the parser -/

/-- The tree decoder meets the assumption under which C04 is proved. -/
theorem treeLib_typed (ram : String → Option Int) (tree : Bytes → Except String Node) :
    (treeLib ram tree).Typed := by
  intro t d r h
  simp only [treeLib] at h
  cases ht : tree d with
  | error e => rw [ht] at h; cases h
  | ok n =>
    rw [ht] at h
    simp only [Except.bind, unmarshalResource] at h
    cases t <;> simp only [Except.map] at h <;> split at h <;> cases h <;> rfl

end Drone
