/-
C93: the variable of a setting stands for its value.
-/
import Verif.Proof.Encode
import Verif.Props.Attr
import Verif.Props.PrettyOrder

namespace Drone
open Spec Encode

variable {X : Floats}

namespace Spec

mutual
/-- A map that occurs in a value, at any depth. -/
inductive Occurs (kvs : List (Value × Value)) : Value → Prop
  | here : Occurs kvs (.map kvs)
  | item {vs} : OccursList kvs vs → Occurs kvs (.seq vs)
  | entry {es} : OccursEntries kvs es → Occurs kvs (.map es)

inductive OccursList (kvs : List (Value × Value)) : List Value → Prop
  | head {v vs} : Occurs kvs v → OccursList kvs (v :: vs)
  | tail {v vs} : OccursList kvs vs → OccursList kvs (v :: vs)

inductive OccursEntries (kvs : List (Value × Value)) : List (Value × Value) → Prop
  | head {k v es} : Occurs kvs v → OccursEntries kvs ((k, v) :: es)
  | tail {e es} : OccursEntries kvs es → OccursEntries kvs (e :: es)
end

/-- Keys that are scalars with different texts. -/
def KeysOk (key : Rat → String) (kvs : List (Value × Value)) : Prop :=
  ∃ names, List.Forall₂ (fun e s => KeyName key e.1 s) kvs names ∧ names.Nodup

/-- The text of a scalar in a list; null has the empty text. -/
inductive ItemText (num : Rat → String) : Value → String → Prop
  | null : ItemText num .null ""
  | str (s) : ItemText num (.str s) s
  | int (i : Int) : ItemText num (.int i) (toString i)
  | float (q) : ItemText num (.float q) (num q)
  | true : ItemText num (.bool true) "true"
  | false : ItemText num (.bool false) "false"

end Spec

/-! ### Which values have a JSON value -/

mutual
theorem stands_exists {v : Value} (h : ∀ kvs, Occurs kvs v → KeysOk X.key kvs) : ∃ j, Stands X.json X.key v j := by
  cases v with
  | null => exact ⟨_, .null⟩
  | bool b => exact ⟨_, .bool b⟩
  | int i => exact ⟨_, .int i⟩
  | float q => exact ⟨_, .float q⟩
  | str s => exact ⟨_, .str s⟩
  | seq vs =>
    obtain ⟨js, hj⟩ := standsList_exists (vs := vs) fun kvs ho => h kvs (.item ho)
    exact ⟨_, .seq hj⟩
  | map kvs =>
    obtain ⟨names, h1, h2⟩ := h kvs .here
    obtain ⟨es, h3, h4⟩ := standsEntries_exists (fun kvs ho => h kvs (.entry ho)) h1
    exact ⟨_, .map h3 (sortEntries_perm es).symm (sortEntries_pairwise (by rw [h4]; exact h2))⟩
termination_by sizeOf v

theorem standsList_exists {vs : List Value} (h : ∀ kvs, OccursList kvs vs → KeysOk X.key kvs) :
    ∃ js, StandsList X.json X.key vs js := by
  cases vs with
  | nil => exact ⟨_, .nil⟩
  | cons v vs =>
    obtain ⟨j, hj⟩ := stands_exists (v := v) fun kvs ho => h kvs (.head ho)
    obtain ⟨js, hjs⟩ := standsList_exists (vs := vs) fun kvs ho => h kvs (.tail ho)
    exact ⟨_, .cons hj hjs⟩
termination_by sizeOf vs

theorem standsEntries_exists : ∀ {kvs : List (Value × Value)} {names : List String},
    (∀ es, OccursEntries es kvs → KeysOk X.key es) →
    List.Forall₂ (fun e s => KeyName X.key e.1 s) kvs names →
    ∃ es, StandsEntries X.json X.key kvs es ∧ es.map Prod.fst = names
  | [], _, _, hk => by cases hk; exact ⟨_, .nil, rfl⟩
  | (_, v) :: kvs, [], _, hk => by cases hk
  | (_, v) :: kvs, _ :: names, h, hk => by
    have hks : List.Forall₂ (fun e s => KeyName X.key e.1 s) kvs names := by cases hk; assumption
    obtain ⟨j, hj⟩ := stands_exists (v := v) fun kvs ho => h kvs (.head ho)
    obtain ⟨es, h1, h2⟩ := standsEntries_exists (kvs := kvs) (fun es ho => h es (.tail ho)) hks
    exact ⟨_, .cons (by cases hk; assumption) hj h1, by rw [List.map_cons, h2]⟩
termination_by kvs => sizeOf kvs
end

theorem standsEntries_keys {kvs : List (Value × Value)} {es : List (String × Json)}
    (h : StandsEntries X.json X.key kvs es) : List.Forall₂ (fun e s => KeyName X.key e.1 s) kvs (es.map Prod.fst) := by
  induction kvs generalizing es with
  | nil => cases h; exact .nil
  | cons e kvs ih =>
    cases h with
    | cons hk _ hs => exact .cons hk (ih hs)

mutual
theorem stands_keys {v : Value} {j : Json} (h : Stands X.json X.key v j) {kvs : List (Value × Value)}
    (ho : Occurs kvs v) : KeysOk X.key kvs := by
  cases h with
  | null => cases ho
  | bool b => cases ho
  | int i => cases ho
  | float q => cases ho
  | str s => cases ho
  | seq h =>
    cases ho with
    | item ho => exact standsList_keys h ho
  | map h hp hs =>
    cases ho with
    | here => exact ⟨_, standsEntries_keys h, (hp.map Prod.fst).nodup_iff.2 (pairwise_nodup hs)⟩
    | entry ho => exact standsEntries_keysIn h ho

theorem standsList_keys {vs : List Value} {js : List Json} (h : StandsList X.json X.key vs js)
    {kvs : List (Value × Value)} (ho : OccursList kvs vs) : KeysOk X.key kvs := by
  cases h with
  | nil => cases ho
  | cons h hs =>
    cases ho with
    | head ho => exact stands_keys h ho
    | tail ho => exact standsList_keys hs ho

theorem standsEntries_keysIn {es : List (Value × Value)} {js : List (String × Json)} (h : StandsEntries X.json X.key es js)
    {kvs : List (Value × Value)} (ho : OccursEntries kvs es) : KeysOk X.key kvs := by
  cases h with
  | nil => cases ho
  | cons hk h hs =>
    cases ho with
    | head ho => exact stands_keys h ho
    | tail ho => exact standsEntries_keysIn hs ho
end

/-- C93.  A value has a JSON value exactly if the keys of every map in it are scalars with
different texts. -/
theorem C93_domain (X : Floats) (v : Value) :
    (∃ j, Stands X.json X.key v j) ↔ ∀ kvs, Occurs kvs v → KeysOk X.key kvs :=
  ⟨fun ⟨_, h⟩ _ ho => stands_keys h ho, stands_exists⟩

/-! ### Maps and nested lists -/

theorem render_isJson (hX : ∀ q, isNumber (X.json q).toList = true) {v : Value} {j : Json}
    (h : Stands X.json X.key v j) : IsJson (jsonText X v) j := by
  obtain ⟨_, n, h2⟩ := stands_reads hX h
  refine ⟨n, ?_⟩
  have := h2 n (Nat.le_refl _) [] (by simp)
  rwa [stands_text h, String.toList_ofList, ← List.append_nil (render j)]

/-- C93.  A map is written as the JSON text of its value. -/
theorem C93_map (X : Floats) (hX : ∀ q, isNumber (X.json q).toList = true) (v : Value) (j : Json)
    (h : Stands X.json X.key v j) : IsJson (encodeMap X v) j :=
  render_isJson hX h

theorem elementText_iff {v : Value} {t : String} : elementText X v = some t ↔ ItemText X.text v t := by
  constructor
  · intro h
    cases v with
    | null => cases h; exact .null
    | bool b =>
      cases b
      · cases h; exact .false
      · cases h; exact .true
    | int i => cases h; exact .int _
    | float q => cases h; exact .float _
    | str s => cases h; exact .str _
    | seq vs => cases h
    | map kvs => cases h
  · intro h
    cases h <;> rfl

theorem mapM_elements {vs : List Value} {ts : List String} :
    vs.mapM (elementText X) = some ts ↔ List.Forall₂ (ItemText X.text) vs ts := by
  induction vs generalizing ts with
  | nil =>
    simp only [List.mapM_nil, Option.pure_def, Option.some.injEq]
    constructor
    · rintro rfl; exact .nil
    · intro h; cases h; rfl
  | cons v vs ih =>
    simp only [List.mapM_cons, Option.bind_eq_bind, Option.pure_def, Option.bind_eq_some_iff, Option.some.injEq]
    constructor
    · rintro ⟨t, h1, us, h2, rfl⟩
      exact .cons (elementText_iff.1 h1) (ih.1 h2)
    · intro h
      cases h with
      | cons h1 h2 => exact ⟨_, elementText_iff.2 h1, _, ih.2 h2, rfl⟩

/-- C93.  A list that has lists or maps in it is written as the JSON text of its value. -/
theorem C93_nested (X : Floats) (hX : ∀ q, isNumber (X.json q).toList = true) (vs : List Value) (js : List Json)
    (hn : ∃ v ∈ vs, ∀ t, ¬ ItemText X.text v t) (h : Stands X.json X.key (.seq vs) (.arr js)) :
    IsJson (encodeSlice X vs) (.arr js) := by
  have : vs.mapM (elementText X) = none := by
    cases hm : vs.mapM (elementText X) with
    | none => rfl
    | some ts =>
      exfalso
      obtain ⟨v, hv, hvn⟩ := hn
      have hf := mapM_elements.1 hm
      clear hm h
      induction hf with
      | nil => simp at hv
      | cons h _ ih =>
        rcases List.mem_cons.1 hv with rfl | hv
        · exact hvn _ h
        · exact ih hv
  unfold encodeSlice
  rw [this]
  exact render_isJson hX h

/-- C93.  Texts of different JSON values are different. -/
theorem C93_injective (X : Floats) (hX : ∀ q, isNumber (X.json q).toList = true) (v w : Value) (j k : Json)
    (hv : Stands X.json X.key v j) (hw : Stands X.json X.key w k) (h : encodeMap X v = encodeMap X w) : j = k := by
  obtain ⟨_, n, h1⟩ := stands_reads hX hv
  obtain ⟨_, m, h2⟩ := stands_reads hX hw
  have a := h1 (max n m) (by omega) [] (by simp)
  have b := h2 (max n m) (by omega) [] (by simp)
  have e : render j = render k := by
    have : jsonText X v = jsonText X w := h
    rw [stands_text hv, stands_text hw] at this
    have := congrArg String.toList this
    rwa [String.toList_ofList, String.toList_ofList] at this
  rw [e, b] at a
  simp only [Option.some.injEq, Prod.mk.injEq, and_true] at a
  exact a.symm

/-! ### Keys that cannot be written -/

mutual
theorem toJson_bad {v : Value} {kvs : List (Value × Value)} (ho : Occurs kvs v)
    (hb : ∃ e ∈ kvs, ∀ s, ¬ KeyName X.key e.1 s) : toJson X v = none := by
  cases ho with
  | here =>
    have key : ∀ (es : List (Value × Value)) acc, (∃ e ∈ es, ∀ s, ¬ KeyName X.key e.1 s) → toEntries X es acc = none := by
      intro es
      induction es with
      | nil => rintro acc ⟨_, h, _⟩; simp at h
      | cons e es ih =>
        rintro acc ⟨f, hf, hn⟩
        obtain ⟨k, v⟩ := e
        rw [toEntries]
        rcases List.mem_cons.1 hf with rfl | hf
        · cases hk : keyText X k with
          | none => rfl
          | some s => exact absurd (text_keyName hk) (hn s)
        · cases hk : keyText X k with
          | none => rfl
          | some s =>
            cases hj : toJson X v with
            | none => rfl
            | some j => exact ih _ ⟨f, hf, hn⟩
    rw [toJson, key kvs [] hb]
    rfl
  | item ho => rw [toJson, toJsons_bad ho hb]; rfl
  | entry ho => rw [toJson, toEntries_bad ho hb []]; rfl

theorem toJsons_bad {vs : List Value} {kvs : List (Value × Value)} (ho : OccursList kvs vs)
    (hb : ∃ e ∈ kvs, ∀ s, ¬ KeyName X.key e.1 s) : toJsons X vs = none := by
  cases ho with
  | head ho => rw [toJsons, toJson_bad ho hb]; rfl
  | @tail v vs ho =>
    rw [toJsons, toJsons_bad ho hb]
    cases toJson X v <;> rfl

theorem toEntries_bad {es : List (Value × Value)} {kvs : List (Value × Value)} (ho : OccursEntries kvs es)
    (hb : ∃ e ∈ kvs, ∀ s, ¬ KeyName X.key e.1 s) (acc : GoMap Json) : toEntries X es acc = none := by
  cases ho with
  | @head k v es ho =>
    rw [toEntries, toJson_bad ho hb]
    cases keyText X k <;> rfl
  | @tail e es ho =>
    obtain ⟨k, v⟩ := e
    rw [toEntries]
    cases keyText X k with
    | none => rfl
    | some s =>
      cases toJson X v with
      | none => rfl
      | some j => exact toEntries_bad ho hb _
end

/-- C93.  A key that is null, a list or a map, anywhere in a map, makes its text empty. -/
theorem C93_refused (X : Floats) (v : Value) (kvs : List (Value × Value)) (ho : Occurs kvs v)
    (hb : ∃ e ∈ kvs, ∀ s, ¬ KeyName X.key e.1 s) : encodeMap X v = "" := by
  unfold encodeMap jsonText
  rw [toJson_bad ho hb]

/-! ### Order of maps -/

theorem standsEntries_perm {kvs kvs' : List (Value × Value)} (hp : kvs.Perm kvs') {es : List (String × Json)}
    (h : StandsEntries X.json X.key kvs es) : ∃ es', StandsEntries X.json X.key kvs' es' ∧ es.Perm es' := by
  induction hp generalizing es with
  | nil => exact ⟨es, h, .refl _⟩
  | cons e _ ih =>
    cases h with
    | cons hk h hs =>
      obtain ⟨es', h1, h2⟩ := ih hs
      exact ⟨_, .cons hk h h1, h2.cons _⟩
  | swap e f l =>
    cases h with
    | cons hk h hs =>
      cases hs with
      | cons hk' h' hs => exact ⟨_, .cons hk' h' (.cons hk h hs), .swap _ _ _⟩
  | trans _ _ ih1 ih2 =>
    obtain ⟨es', h1, h2⟩ := ih1 h
    obtain ⟨es'', h3, h4⟩ := ih2 h1
    exact ⟨es'', h3, h2.trans h4⟩

mutual
theorem stands_same {v w : Value} {j : Json} (hs : SameValue v w) (h : Stands X.json X.key v j) :
    Stands X.json X.key w j := by
  cases hs with
  | null => exact h
  | bool b => exact h
  | int i => exact h
  | float q => exact h
  | str s => exact h
  | seq hs =>
    cases h with
    | seq h => exact .seq (standsList_same hs h)
  | map hs hp _ =>
    cases h with
    | map h h1 h2 =>
      obtain ⟨es', h3, h4⟩ := standsEntries_perm hp (standsEntries_same hs h)
      exact .map h3 (h4.symm.trans h1) h2

theorem standsList_same {vs ws : List Value} {js : List Json} (hs : SameValues vs ws)
    (h : StandsList X.json X.key vs js) : StandsList X.json X.key ws js := by
  cases hs with
  | nil => exact h
  | cons hv hvs =>
    cases h with
    | cons h1 h2 => exact .cons (stands_same hv h1) (standsList_same hvs h2)

theorem standsEntries_same {vs ws : List (Value × Value)} {js : List (String × Json)} (hs : SameEntries vs ws)
    (h : StandsEntries X.json X.key vs js) : StandsEntries X.json X.key ws js := by
  cases hs with
  | nil => exact h
  | cons hv hvs =>
    cases h with
    | cons hk h1 h2 => exact .cons hk (stands_same hv h1) (standsEntries_same hvs h2)
end

theorem elements_same {vs ws : List Value} (hs : SameValues vs ws) :
    vs.mapM (elementText X) = ws.mapM (elementText X) := by
  induction vs generalizing ws with
  | nil => cases hs; rfl
  | cons v vs ih =>
    cases hs with
    | @cons _ w _ ws h1 h2 =>
      have : elementText X v = elementText X w := by cases h1 <;> rfl
      simp only [List.mapM_cons, this, ih h2]

/-- C93.  The text does not depend on the order of the maps in the value. -/
theorem C93_order (X : Floats) (E : Ext) (v w : Value) (hs : SameValue v w)
    (hk : ∀ kvs, Occurs kvs v → KeysOk X.key kvs) :
    encodeValue (E.encoding X) v = encodeValue (E.encoding X) w := by
  obtain ⟨j, hj⟩ := stands_exists hk
  have ht : jsonText X v = jsonText X w := by rw [stands_text hj, stands_text (stands_same hs hj)]
  cases hs with
  | null => rfl
  | bool b => rfl
  | int i => rfl
  | float q => rfl
  | str s => rfl
  | @seq vs ws h =>
    show encodeSlice X vs = encodeSlice X ws
    unfold encodeSlice
    rw [elements_same h, ht]
  | map _ _ _ => exact ht

/-! ### Lists of scalars -/

/-- C93.  A list of scalars is written as their texts with commas between them. -/
theorem C93_scalars (X : Floats) (vs : List Value) (ts : List String)
    (h : List.Forall₂ (ItemText X.text) vs ts) : encodeSlice X vs = ",".intercalate ts := by
  unfold encodeSlice
  rw [mapM_elements.2 h]
  rfl

/-- C93.  Cutting the text of a list of scalars at the commas gives the texts of its elements, if
there are any and none has a comma. -/
theorem C93_split (X : Floats) (vs : List Value) (ts : List String) (h : List.Forall₂ (ItemText X.text) vs ts)
    (hne : vs ≠ []) (hc : ∀ t ∈ ts, ',' ∉ t.toList) :
    (encodeSlice X vs).toList.splitOn ',' = ts.map String.toList := by
  rw [C93_scalars X vs ts h, String.toList_intercalate]
  have hne' : ts ≠ [] := by rintro rfl; cases h; exact hne rfl
  exact List.splitOn_intercalate ',' (by
    intro l hl
    obtain ⟨t, ht, rfl⟩ := List.mem_map.1 hl
    exact hc t ht) (by simpa using hne')

/-- C93.  A comma in an element cannot be told from one between elements, nor can an empty list
from one with an empty element. -/
theorem C93_ambiguous (X : Floats) :
    encodeSlice X [.str "a,b"] = encodeSlice X [.str "a", .str "b"] ∧
    encodeSlice X [] = encodeSlice X [.str ""] ∧ encodeSlice X [] = encodeSlice X [.null] := by
  refine ⟨?_, ?_, ?_⟩ <;> rfl

/-- C93.  Keys with the same text: one of the entries is lost, which one depends on the order. -/
theorem C93_clash (X : Floats) :
    encodeMap X (.map [(.int 1, .str "a"), (.str "1", .str "b")]) ≠
    encodeMap X (.map [(.str "1", .str "b"), (.int 1, .str "a")]) := by
  rw [show encodeMap X (.map [(.int 1, .str "a"), (.str "1", .str "b")]) = "{\"1\":\"b\"}" from by rfl,
    show encodeMap X (.map [(.str "1", .str "b"), (.int 1, .str "a")]) = "{\"1\":\"a\"}" from by rfl]
  decide

/-! ### Compiled steps -/

/-- C93.  A map given as a setting reaches the compiled step as the JSON text of its value. -/
theorem C93_compiled {E : Ext} (X : Floats) (hX : ∀ q, isNumber (X.json q).toList = true) {c : Compiler} (hc : c.Std)
    (ht : c.transform = none) {rnd : Nat → String} {p : Pipeline} {sp : Engine.Spec}
    (h : compile (E.encoding X) c rnd p = some sp) :
    List.Forall₂ (fun y s => ¬ IsBuild y → (y.2.settings.map Prod.fst).Nodup → ∀ k v kvs j,
      (k, some v) ∈ y.2.settings → v.secret = "" → v.value = .map kvs → Stands X.json X.key (.map kvs) j →
      (∀ k' v', (k', some v') ∈ y.2.settings → v'.secret = "" → E.upper k' = E.upper k → k' = k) →
      ∃ t, s.envs.get? ("PLUGIN_" ++ E.upper k) = some t ∧ IsJson t j) (sources p) sp.steps := by
  refine (settings_envs hc ht h).imp fun y s hf hb hn k v kvs j hm hsec hv hj hset => ?_
  exact ⟨_, hf hb hn k v _ hm hsec rfl hset, by rw [hv]; exact C93_map X hX _ j hj⟩

/-! ### Examples -/

def exFloats : Floats := ⟨fun _ => "0.5", fun _ => "0.5", fun _ => "0.5"⟩

def exSetting : Value :=
  .map [(.str "user", .str "a\"<\n"), (.int 7, .seq [.null, .int (-12), .float (1/2), .bool true]), (.str "Z", .map [])]

example : encodeMap exFloats exSetting =
    "{\"7\":[null,-12,0.5,true],\"Z\":{},\"user\":\"a\\\"\\u003c\\n\"}" := by decide +kernel

def exJson : Json :=
  .obj [("7", .arr [.null, .num ['-', '1', '2'], .num ['0', '.', '5'], .bool true]), ("Z", .obj []),
    ("user", .str ['a', '"', '<', '\n'])]

example : Stands exFloats.json exFloats.key exSetting exJson := by
  refine .map (.cons (.str _) (.str _) (.cons (.int _) (.seq (.cons .null (.cons (.int _) (.cons (.float _) (.cons (.bool _) .nil)))))
    (.cons (.str _) (.map .nil (.refl _) .nil) .nil))) ?_ ?_
  · exact (List.Perm.swap _ _ _).trans ((List.Perm.swap _ _ _).cons _)
  · decide

example : ∀ q, isNumber (exFloats.json q).toList = true := fun _ => by
  show isNumber "0.5".toList = true
  decide

example : encodeSlice exFloats [.str "a", .int 3, .null, .bool false] = "a,3,,false" := by decide +kernel
example : encodeSlice exFloats [.str "a", .map [(.str "b", .int 1)]] = "[\"a\",{\"b\":1}]" := by decide +kernel
example : encodeMap exFloats (.map [(.str "a", .map [(.null, .int 1)]), (.str "b", .int 2)]) = "" := by decide +kernel

/-- Texts that are no JSON are refused. -/
example : (readValue 9 "{\"a\":01}".toList).isNone ∧ (readValue 9 "[1,]".toList).isNone ∧
    (readValue 9 "\"a".toList).isNone ∧ (readValue 9 "[1 2]".toList).isNone := by decide +kernel

end Drone
