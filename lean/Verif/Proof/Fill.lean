/-
Replacing references: in a text, and in the tree of a pipeline.
-/
import Verif.Model.MatrixTree
import Verif.Spec.Fill
import Verif.Proof.Marshal

namespace Drone
open Spec Yaml

/-! ### Texts -/

namespace Legacy

theorem prefix_dollar {old : List Char} {c : Char} {s : List Char} (h : '$' :: old <+: c :: s) : c = '$' := by
  rw [List.cons_prefix_cons] at h
  exact h.1.symm

/-- Text without a dollar sign is copied. -/
theorem replaceLoop_text (old new l s : List Char) (n : Nat) (hl : '$' ∉ l) :
    replaceLoop ('$' :: old) new (n + l.length) (l ++ s) = l ++ replaceLoop ('$' :: old) new n s := by
  induction l with
  | nil => rfl
  | cons c l ih =>
    have hc : ¬ ('$' :: old <+: c :: (l ++ s)) := fun h => hl (by rw [prefix_dollar h]; exact List.mem_cons_self)
    have ih := ih fun h => hl (List.mem_cons_of_mem _ h)
    show replaceLoop ('$' :: old) new (n + l.length + 1) (c :: (l ++ s)) = _
    rw [replaceLoop, if_neg hc, ih]
    rfl

/-- A reference with a key is found only where it stands. -/
theorem ref_prefix {key k s : List Char} (h1 : '}' ∉ key) (h2 : '}' ∉ k) :
    '$' :: '{' :: key ++ ['}'] <+: '$' :: '{' :: k ++ ['}'] ++ s ↔ key = k := by
  constructor
  · intro h
    simp only [List.cons_append, List.cons_prefix_cons, true_and, List.append_assoc] at h
    induction key generalizing k with
    | nil =>
      cases k with
      | nil => rfl
      | cons c k =>
        simp only [List.nil_append, List.cons_append, List.cons_prefix_cons] at h
        exact absurd (h.1 ▸ List.mem_cons_self) h2
    | cons d key ih =>
      cases k with
      | nil =>
        simp only [List.nil_append, List.cons_append, List.cons_prefix_cons] at h
        exact absurd (h.1 ▸ List.mem_cons_self) h1
      | cons c k =>
        simp only [List.cons_append, List.cons_prefix_cons] at h
        rw [h.1, ih (fun hc => h1 (List.mem_cons_of_mem _ hc)) (fun hc => h2 (List.mem_cons_of_mem _ hc)) h.2]
  · rintro rfl
    exact List.prefix_append _ _

/-- What one replacement does to a piece. -/
def stepPiece (key value : List Char) : Piece → Piece
  | .text l => .text l
  | .ref k => if k = key then .text value else .ref k

theorem replaceLoop_nil (old new : List Char) (n : Nat) : replaceLoop old new n [] = [] := by cases n <;> rfl

theorem replaceLoop_pieces (key value : List Char) (hk : '}' ∉ key) (ps : List Piece) (h : ∀ p ∈ ps, p.Tame) (n : Nat)
    (hn : (ps.flatMap Piece.written).length ≤ n) :
    replaceLoop ('$' :: '{' :: key ++ ['}']) value n (ps.flatMap Piece.written) =
      (ps.map (stepPiece key value)).flatMap Piece.written := by
  induction ps generalizing n with
  | nil => exact replaceLoop_nil _ _ _
  | cons p ps ih =>
    have ih := ih fun q hq => h q (List.mem_cons_of_mem _ hq)
    have hp := h p List.mem_cons_self
    rw [List.flatMap_cons, List.length_append] at hn
    rw [List.flatMap_cons, List.map_cons, List.flatMap_cons]
    cases p with
    | text l =>
      obtain ⟨m, rfl⟩ : ∃ m, n = m + l.length := ⟨n - l.length, by simp only [Piece.written] at hn; omega⟩
      have e := replaceLoop_text ('{' :: key ++ ['}']) value l (ps.flatMap Piece.written) m hp
      refine e.trans ?_
      rw [show '$' :: ('{' :: key ++ ['}']) = '$' :: '{' :: key ++ ['}'] from rfl, ih m (by simp only [Piece.written] at hn; omega)]
      rfl
    | ref k =>
      have hlen : (Piece.ref k).written.length = k.length + 3 := by simp [Piece.written]
      obtain ⟨m, rfl⟩ : ∃ m, n = m + 1 := ⟨n - 1, by omega⟩
      by_cases hkk : k = key
      · subst hkk
        rw [show (Piece.ref k).written ++ ps.flatMap Piece.written =
          '$' :: ('{' :: k ++ ['}'] ++ ps.flatMap Piece.written) from rfl, replaceLoop, if_pos]
        · have e : ('$' :: ('{' :: k ++ ['}'] ++ ps.flatMap Piece.written)).drop ('$' :: '{' :: k ++ ['}']).length =
              ps.flatMap Piece.written := by
            exact List.drop_left (l₁ := '$' :: '{' :: k ++ ['}'])
          rw [e, ih m (by omega)]
          simp [stepPiece, Piece.written]
        · exact (ref_prefix hk hk).2 rfl
      · rw [show (Piece.ref k).written ++ ps.flatMap Piece.written =
          '$' :: ('{' :: k ++ ['}'] ++ ps.flatMap Piece.written) from rfl, replaceLoop, if_neg]
        · obtain ⟨j, rfl⟩ : ∃ j, m = j + ('{' :: k ++ ['}']).length := ⟨m - (k.length + 2), by simp; omega⟩
          have hd : '$' ∉ '{' :: k ++ ['}'] := by simpa using hp.1
          have e := replaceLoop_text ('{' :: key ++ ['}']) value ('{' :: k ++ ['}']) (ps.flatMap Piece.written) j hd
          rw [show '$' :: '{' :: key ++ ['}'] = '$' :: ('{' :: key ++ ['}']) from rfl, e]
          rw [show '$' :: ('{' :: key ++ ['}']) = '$' :: '{' :: key ++ ['}'] from rfl, ih j (by simp at hn hlen ⊢; omega)]
          simp [stepPiece, hkk, Piece.written]
        · exact fun hc => hkk ((ref_prefix hk hp.2).1 hc).symm

theorem substitute_cons (X : LegacyLib) (k v : String) (env : GoMap String) (s : List Char) (hv : '\n' ∉ v.toList) :
    substitute X ((k, v) :: env) s = substitute X env (replaceAll ('$' :: '{' :: k.toList ++ ['}']) v.toList s) := by
  simp only [substitute, List.foldl_cons, hv, if_false]
  rfl

/-- Replacing the references of a text. -/
theorem substitute_pieces (X : LegacyLib) (env : GoMap String) (ps : List Piece) (h : ∀ p ∈ ps, p.Tame)
    (hk : ∀ kv ∈ env, '}' ∉ kv.1.toList) (hv : ∀ kv ∈ env, '$' ∉ kv.2.toList ∧ '\n' ∉ kv.2.toList) :
    substitute X env (ps.flatMap Piece.written) = ps.flatMap (Piece.filled env) := by
  induction env generalizing ps with
  | nil =>
    have e : Piece.filled [] = Piece.written := by
      funext p
      cases p <;> rfl
    rw [e]
    rfl
  | cons kv env ih =>
    obtain ⟨k, v⟩ := kv
    have hv' := hv (k, v) List.mem_cons_self
    have hk' := hk (k, v) List.mem_cons_self
    rw [substitute_cons X k v env _ hv'.2, replaceAll, replaceLoop_pieces _ _ hk' ps h _ (Nat.le_refl _)]
    rw [ih _ ?_ (fun kv hkv => hk kv (List.mem_cons_of_mem _ hkv)) (fun kv hkv => hv kv (List.mem_cons_of_mem _ hkv))]
    · rw [List.flatMap_map]
      congr 1
      funext p
      cases p with
      | text l => rfl
      | ref q =>
        by_cases hq : q = k.toList
        · subst hq
          simp [stepPiece, Piece.filled, GoMap.get?]
        · have : (String.ofList q == k) = false := by
            rw [beq_eq_false_iff_ne]
            exact fun hc => hq (by rw [← hc]; simp)
          simp [stepPiece, hq, Piece.filled, GoMap.get?, List.lookup, this]
    · intro p hp
      obtain ⟨q, hq, rfl⟩ := List.mem_map.1 hp
      have := h q hq
      cases q with
      | text l => exact this
      | ref q =>
        show (if q = k.toList then Piece.text v.toList else .ref q).Tame
        split
        · exact hv'.1
        · exact this

/-- Without a dollar sign there is nothing to replace. -/
theorem substitute_plain (X : LegacyLib) (env : GoMap String) (s : List Char) (h : '$' ∉ s) : substitute X env s = s := by
  unfold substitute
  induction env with
  | nil => rfl
  | cons kv env ih =>
    rw [List.foldl_cons]
    generalize (if '\n' ∈ kv.2.toList then _ else _ : List Char) = v
    have e : replaceAll ("${".toList ++ kv.1.toList ++ ['}']) v s = s := by
      have := replaceLoop_text ('{' :: kv.1.toList ++ ['}']) v s [] 0 h
      simpa [replaceAll, replaceLoop] using this
    rw [e]
    exact ih

theorem replaceLoop_ne (old new s : List Char) (n : Nat) (hn : new ≠ []) (hs : s ≠ []) : replaceLoop old new n s ≠ [] := by
  cases n with
  | zero => exact hs
  | succ n =>
    cases s with
    | nil => exact absurd rfl hs
    | cons c s =>
      rw [replaceLoop]
      split
      · simp [hn]
      · simp

theorem quote_ne (f : Char → Bool) (s : List Char) : Script.quote f s ≠ [] := by
  simp [Script.quote]

theorem substitute_ne (X : LegacyLib) (env : GoMap String) (s : List Char) (hv : ∀ kv ∈ env, kv.2 ≠ "") (hs : s ≠ []) :
    substitute X env s ≠ [] := by
  unfold substitute
  induction env generalizing s with
  | nil => exact hs
  | cons kv env ih =>
    rw [List.foldl_cons]
    refine ih _ (fun kv hkv => hv kv (List.mem_cons_of_mem _ hkv)) (replaceLoop_ne _ _ _ _ ?_ hs)
    split
    · exact quote_ne _ _
    · intro hc
      exact hv kv List.mem_cons_self (by rw [← String.ofList_toList (s := kv.2), hc])

/-- The replacement as a function on strings. -/
def fillString (X : LegacyLib) (env : GoMap String) (s : String) : String := String.ofList (substitute X env s.toList)

end Legacy

/-! ### Trees -/

mutual
/-- A function applied to the strings of a tree. -/
def Spec.mapNode (f : String → String) : Yaml.Node → Yaml.Node
  | .scalar s .str => .scalar (f s) .str
  | .seq xs => .seq (Spec.mapNodes f xs)
  | .map kvs => .map (Spec.mapEntries f kvs)
  | n => n
def Spec.mapNodes (f : String → String) : List Yaml.Node → List Yaml.Node
  | [] => []
  | x :: xs => Spec.mapNode f x :: Spec.mapNodes f xs
def Spec.mapEntries (f : String → String) : List (Yaml.Node × Yaml.Node) → List (Yaml.Node × Yaml.Node)
  | [] => []
  | (k, v) :: kvs => (Spec.mapNode f k, Spec.mapNode f v) :: Spec.mapEntries f kvs
end

/-- The function leaves texts without a dollar sign alone, and makes no text empty. -/
structure Spec.Replaces (f : String → String) : Prop where
  plain : ∀ s, '$' ∉ s.toList → f s = s
  empty : ∀ s, f s = "" ↔ s = ""

namespace Yaml

theorem mapNodes_eq (f : String → String) (xs : List Node) : mapNodes f xs = xs.map (mapNode f) := by
  induction xs with
  | nil => rfl
  | cons x xs ih => simp [mapNodes, ih]

theorem mapEntries_eq (f : String → String) (kvs : List (Node × Node)) :
    mapEntries f kvs = kvs.map fun kv => (mapNode f kv.1, mapNode f kv.2) := by
  induction kvs with
  | nil => rfl
  | cons kv kvs ih => obtain ⟨k, v⟩ := kv; simp [mapEntries, ih]

variable {f : String → String}

theorem map_string (f : String → String) (s : String) : mapNode f (encString s) = encString (f s) := rfl
theorem map_int (f : String → String) (i : Int) : mapNode f (encInt i) = encInt i := rfl
theorem map_bool (f : String → String) (b : Bool) : mapNode f (encBool b) = encBool b := rfl

theorem map_float (f : String → String) (t : Rat → String) (q : Rat) : mapNode f (floatNode t q) = floatNode t q := by
  unfold floatNode
  split <;> rfl

theorem map_list {α β : Type} {e : α → Node} {e' : β → Node} {g : α → β} (h : ∀ x, mapNode f (e x) = e' (g x)) (l : List α) :
    mapNode f (encList e l) = encList e' (l.map g) := by
  simp [encList, mapNode, mapNodes_eq, h, Function.comp_def]

theorem map_strings (f : String → String) (l : List String) : mapNode f (encStrings l) = encStrings (l.map f) :=
  map_list (map_string f) l

theorem map_map {α β : Type} {e : α → Node} {e' : β → Node} {g : α → β} (h : ∀ x, mapNode f (e x) = e' (g x)) (m : GoMap α) :
    mapNode f (encMap e m) = encMap e' (mapGoMap f g m) := by
  simp [encMap, mapNode, mapEntries_eq, h, map_string, mapGoMap, Function.comp_def]

theorem map_stringMap (f : String → String) (m : GoMap String) :
    mapNode f (encMap encString m) = encMap encString (mapGoMap f f m) := map_map (map_string f) m

theorem map_ptr {α β : Type} {e : α → Node} {e' : β → Node} {g : α → β} (h : ∀ x, mapNode f (e x) = e' (g x)) (o : Option α) :
    mapNode f (encPtr e o) = encPtr e' (o.map g) := by
  cases o with
  | none => rfl
  | some x => exact h x

theorem map_fields (hf : Replaces f) (l : List (String × Node)) (h : ∀ k ∈ l.map Prod.fst, '$' ∉ k.toList) :
    mapNode f (encFields l) = encFields (l.map fun kv => (kv.1, mapNode f kv.2)) := by
  simp only [encFields, mapNode, mapEntries_eq, List.map_map]
  congr 1
  apply List.map_congr_left
  intro kv hkv
  simp only [Function.comp_apply, map_string]
  rw [hf.plain kv.1 (h _ (List.mem_map_of_mem hkv))]

local macro "keys" : tactic => `(tactic| (simp only [List.map_cons, List.map_nil]; decide))

theorem map_condition (hf : Replaces f) (c : Condition) : mapNode f (encCondition c) = encCondition (mapCondition f c) := by
  unfold encCondition mapCondition
  rw [map_fields hf]
  · by_cases h1 : c.incl.length = 0 <;> by_cases h2 : c.excl.length = 0 <;> simp [h1, h2, map_strings]
  · by_cases h1 : c.incl.length = 0 <;> by_cases h2 : c.excl.length = 0 <;> simp [h1, h2]

theorem map_conditions (hf : Replaces f) (c : Conditions) : mapNode f (encConditions c) = encConditions (mapConditions f c) := by
  unfold encConditions mapConditions
  rw [map_fields hf _ (by keys)]
  simp only [List.map_cons, List.map_nil, map_condition hf, map_stringMap]

theorem map_variable (hf : Replaces f) (v : Variable) : mapNode f (marshalVariable v) = marshalVariable (mapVariable f v) := by
  have e : f "from_secret" = "from_secret" := hf.plain _ (by decide)
  unfold marshalVariable mapVariable
  by_cases h1 : v.secret = "" <;> by_cases h2 : v.value = "" <;>
    simp [h1, h2, hf.empty, mapNode, mapEntries, e]

mutual
theorem map_value (f : String → String) (t : Value → String) (ht : ∀ v, t (mapValue f v) = t v) (v : Value) : mapNode f (valueNode t v) = valueNode t (mapValue f v) := by
  cases v with
  | float q =>
    simp only [valueNode, mapValue]
    exact map_float _ _ _
  | seq xs => simp only [valueNode, mapNode, mapValue]; rw [map_values f t ht xs]
  | map kvs => simp only [valueNode, mapNode, mapValue]; rw [map_pairs f t ht kvs]
  | _ => rfl
theorem map_values (f : String → String) (t : Value → String) (ht : ∀ v, t (mapValue f v) = t v) (xs : List Value) : mapNodes f (valueNodes t xs) = valueNodes t (mapValues f xs) := by
  cases xs with
  | nil => rfl
  | cons x xs => simp only [valueNodes, mapNodes, mapValues]; rw [map_value f t ht x, map_values f t ht xs]
theorem map_pairs (f : String → String) (t : Value → String) (ht : ∀ v, t (mapValue f v) = t v) (kvs : List (Value × Value)) :
    mapEntries f (entryNodes t kvs) = entryNodes t (mapPairs f kvs) := by
  cases kvs with
  | nil => rfl
  | cons p kvs =>
    obtain ⟨k, v⟩ := p
    simp only [entryNodes, mapEntries, mapPairs]
    rw [map_value f t ht k, map_value f t ht v, map_pairs f t ht kvs]
end

theorem marshalParameter_literal (t : Value → String) {v : Value} (hv : v ≠ .str "") :
    marshalParameter t { value := v, secret := "" } = valueNode t v := by
  unfold marshalParameter
  simp only [ne_eq, not_true_eq_false, if_false]

theorem map_parameter (hf : Replaces f) (t : Rat → String) (p : Parameter) :
    mapNode f (marshalParameter (valueText t) p) = marshalParameter (valueText t) (mapParameter f p) := by
  have e : f "from_secret" = "from_secret" := hf.plain _ (by decide)
  have e0 : f "" = "" := (hf.empty "").2 rfl
  obtain ⟨v, s⟩ := p
  have ht : ∀ v, valueText t (mapValue f v) = valueText t v := by intro v; cases v <;> rfl
  by_cases h1 : s = ""
  · subst h1
    unfold mapParameter
    simp only [e0]
    by_cases hv : v = .str ""
    · subst hv
      simp only [mapValue, e0]
      rfl
    · have hv' : mapValue f v ≠ .str "" := by
        intro hc
        cases v with
        | str x => simp only [mapValue, Value.str.injEq] at hc; exact hv (by rw [(hf.empty x).1 hc])
        | _ => simp [mapValue] at hc
      rw [marshalParameter_literal _ hv, marshalParameter_literal _ hv', map_value f _ ht]
  · have h2 : f s ≠ "" := fun hc => h1 ((hf.empty s).1 hc)
    simp [marshalParameter, mapParameter, h1, h2, mapNode, mapEntries, e]

theorem map_build (hf : Replaces f) (b : Build) : mapNode f (encBuild b) = encBuild (mapBuild f b) := by
  unfold encBuild mapBuild
  rw [map_fields hf _ (by keys)]
  simp only [List.map_cons, List.map_nil, map_string, map_strings, map_stringMap]

theorem map_resources (hf : Replaces f) (t : Rat → String) (r : Resources) : mapNode f (encResources t r) = encResources t r := by
  have h1 : ∀ o, mapNode f (encResourceObject t o) = encResourceObject t o := by
    intro o
    unfold encResourceObject
    rw [map_fields hf _ (by keys)]
    simp only [List.map_cons, List.map_nil, map_float, map_int]
  have h2 : ∀ o, mapNode f (encPtr (encResourceObject t) o) = encPtr (encResourceObject t) o := by
    intro o
    cases o with
    | none => rfl
    | some x => exact h1 x
  unfold encResources
  rw [map_fields hf _ (by keys)]
  simp only [List.map_cons, List.map_nil, h2]

theorem map_container (hf : Replaces f) (t : Rat → String) (c : Container) :
    mapNode f (encContainer t c) = encContainer t (mapContainer f c) := by
  have h1 : ∀ o, mapNode f (encPtr (encResources t) o) = encPtr (encResources t) o := by
    intro o
    cases o with
    | none => rfl
    | some x => exact map_resources hf t x
  have h2 : ∀ v : VolumeDevice, mapNode f (encVolumeDevice v) = encVolumeDevice { name := f v.name, devicePath := f v.devicePath } := by
    intro v; unfold encVolumeDevice; rw [map_fields hf _ (by keys)]; rfl
  have h3 : ∀ v : VolumeMount, mapNode f (encVolumeMount v) = encVolumeMount { name := f v.name, mountPath := f v.mountPath } := by
    intro v; unfold encVolumeMount; rw [map_fields hf _ (by keys)]; rfl
  have h4 : ∀ p : Port, mapNode f (encPort p) = encPort { p with protocol := f p.protocol } := by
    intro v; unfold encPort; rw [map_fields hf _ (by keys)]; rfl
  have h5 : ∀ p : Push, mapNode f (encPush p) = encPush { image := f p.image } := by
    intro v; unfold encPush; rw [map_fields hf _ (by keys)]; rfl
  unfold encContainer mapContainer
  rw [map_fields hf _ (by keys)]
  simp only [List.map_cons, List.map_nil, map_string, map_strings, map_bool, map_conditions hf, h1,
    map_ptr (map_build hf), map_ptr h5, map_list (map_ptr h2), map_list (map_ptr h3), map_list (map_ptr h4),
    map_map (map_ptr (map_variable hf)), map_map (map_ptr (map_parameter hf t))]

theorem map_volume (hf : Replaces f) (v : Volume) : mapNode f (encVolume v) = encVolume (mapVolume f v) := by
  have h1 : ∀ e : VolumeEmptyDir, mapNode f (encVolumeEmptyDir e) = encVolumeEmptyDir { e with medium := f e.medium } := by
    intro v; unfold encVolumeEmptyDir; rw [map_fields hf _ (by keys)]; rfl
  have h2 : ∀ e : VolumeHostPath, mapNode f (encVolumeHostPath e) = encVolumeHostPath { path := f e.path } := by
    intro v; unfold encVolumeHostPath; rw [map_fields hf _ (by keys)]; rfl
  unfold encVolume mapVolume
  rw [map_fields hf _ (by keys)]
  simp only [List.map_cons, List.map_nil, map_string, map_ptr h1, map_ptr h2]

/-- The tree of a pipeline with its strings mapped is the tree of the mapped pipeline. -/
theorem map_pipeline (hf : Replaces f) (t : Rat → String) (p : Pipeline) :
    mapNode f (encPipeline t p) = encPipeline t (mapPipeline f p) := by
  have h1 : ∀ c, mapNode f (encClone c) = encClone c := by
    intro v; unfold encClone; rw [map_fields hf _ (by keys)]; rfl
  have h2 : ∀ i, mapNode f (encFields [("limit", encInt i)]) = encFields [("limit", encInt i)] := by
    intro v; rw [map_fields hf _ (by keys)]; rfl
  have h3 : ∀ c : Platform, mapNode f (encPlatform c) = encPlatform
      { os := f c.os, arch := f c.arch, variant := f c.variant, version := f c.version } := by
    intro v; unfold encPlatform; rw [map_fields hf _ (by keys)]; rfl
  have h4 : ∀ a b, mapNode f (encFields [("base", encString a), ("path", encString b)]) =
      encFields [("base", encString (f a)), ("path", encString (f b))] := by
    intro a b; rw [map_fields hf _ (by keys)]; rfl
  unfold encPipeline mapPipeline
  rw [map_fields hf _ (by keys)]
  simp only [List.map_cons, List.map_nil, map_string, map_strings, map_stringMap, map_conditions hf, h1, h2, h3, h4,
    map_list (map_ptr (map_container hf t)), map_list (map_ptr (map_volume hf))]

end Yaml
end Drone
