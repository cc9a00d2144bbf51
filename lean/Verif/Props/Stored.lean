/-
C97: a manifest written by `Manifest.Encode` is parsed again.
-/
import Verif.Proof.Marshal
import Verif.Props.ReadBack
import Verif.Proof.ParseRaw
import Verif.Props.PrettyNil

namespace Drone
open Spec Yaml

/-! ### The tree of a resource -/

theorem encResource_header (float : Rat → String) (r : Resource) :
    ∃ hd, unmarshalDoc {} headerField (encResource float r) = .ok hd ∧ hd.kind = r.getKind := by
  cases r with
  | cron c => exact ⟨⟨c.version, c.kind, c.type⟩, rfl, rfl⟩
  | secret c => exact ⟨⟨c.version, c.kind, c.type⟩, rfl, rfl⟩
  | signature c => exact ⟨⟨c.version, c.kind, ""⟩, rfl, rfl⟩
  | registry c => exact ⟨⟨c.version, c.kind, c.type⟩, rfl, rfl⟩
  | pipeline c => exact ⟨⟨c.version, c.kind, c.type⟩, rfl, rfl⟩

theorem storedResource_kind (r : Resource) : (storedResource r).getKind = r.getKind := by
  cases r <;> rfl

/-! ### Documents -/

/-- The document of a tree: lines that are none of the stream's own, read as the tree. -/
structure Spec.Written (tree : Bytes → Except String Yaml.Node) (emit : Yaml.Node → Bytes) (n : Yaml.Node) : Prop where
  lines : ∃ ls : List Bytes, ls ≠ [] ∧ emit n = unlines ls ∧ ∀ l ∈ ls, GoodLine l
  reads : tree (emit n) = .ok n

theorem splitDocs_first (b : List Bytes) (bs : List (List Bytes)) (hb : b ≠ [])
    (h : ∀ b' ∈ b :: bs, ∀ l ∈ b', GoodLine l) :
    splitDocs (unlines b ++ (bs.map unlines).flatMap (fun d => [45, 45, 45, 10] ++ d)) = (b :: bs).map unlines := by
  rw [← unlines_blockLines, ← unlines_append]
  unfold splitDocs
  have hgood : ∀ l ∈ b ++ blockLines bs, l = [45, 45, 45] ∨ GoodLine l := by
    intro l hl
    rcases List.mem_append.1 hl with hl | hl
    · exact .inr (h b List.mem_cons_self l hl)
    · simp only [blockLines, List.mem_flatMap, List.mem_cons] at hl
      obtain ⟨b', hb', rfl | hl⟩ := hl
      · exact .inl rfl
      · exact .inr (h b' (List.mem_cons_of_mem _ hb') l hl)
  rw [scanLines_unlines]
  · rw [← documents_iff]
    refine ⟨b ++ blockLines bs, [], b, bs, by simp, ?_, .inl rfl, ?_, fun hs => ?_, fun _ => rfl⟩
    · intro l hl
      rcases hgood l hl with rfl | hl
      · exact sep_not_term ⟨[], rfl⟩
      · exact hl.2.2.2.2
    · have := cut_good b (fun l hl => (h b List.mem_cons_self l hl).2.2.2.1) _ _ _
        (cut_blocks bs fun b' hb' l hl => (h b' (List.mem_cons_of_mem _ hb') l hl).2.2.2.1)
      simpa using this
    · exfalso
      cases b with
      | nil => exact hb rfl
      | cons l b =>
        rcases hs with hs | ⟨l', ls', he, hsep⟩
        · simp at hs
        · simp only [List.cons_append, List.cons.injEq] at he
          exact (h _ List.mem_cons_self l List.mem_cons_self).2.2.2.1 (he.1 ▸ hsep)
  · intro l hl
    rcases hgood l hl with rfl | hl
    · exact ⟨by decide, by decide, by decide⟩
    · exact ⟨hl.1, hl.2.1, hl.2.2.1⟩

/-- The kind of a resource is the one its type stands for. -/
def Spec.OwnKind (r : Resource) : Prop := typeOfKind r.getKind = r.resType ∧ r.getKind ≠ ""

/-- C97.  `Encode` and `Parse`: a manifest is read back, but for what `storedResource` lists.
`tree` and `emit` are the library's parser and emitter of trees, of which only the documents of this
manifest matter. -/
theorem C97_encode_partial (ram : String → Option Int) (float : Rat → String) (hf : ∀ q, float q ≠ "from_secret")
    (tree : Bytes → Except String Yaml.Node) (emit : Yaml.Node → Bytes) (m : Manifest)
    (he : ∀ r ∈ m.resources, Written tree emit (encResource float r))
    (hs : ∀ r ∈ m.resources, Storable r) (hk : ∀ r ∈ m.resources, OwnKind r) :
    parseBytes (treeLib ram tree) (encode float emit m) = .ok ⟨m.resources.map storedResource⟩ := by
  obtain ⟨rs⟩ := m
  simp only at he hs hk ⊢
  have hsplit : splitDocs (encode float emit ⟨rs⟩) = rs.map fun r => emit (encResource float r) := by
    cases rs with
    | nil => rfl
    | cons r rs =>
      have hb : ∀ r, ∃ b : List Bytes, (Written tree emit (encResource float r) →
          b ≠ [] ∧ emit (encResource float r) = unlines b ∧ ∀ l ∈ b, GoodLine l) := by
        intro r
        by_cases hw : Written tree emit (encResource float r)
        · obtain ⟨b, hb⟩ := hw.lines
          exact ⟨b, fun _ => hb⟩
        · exact ⟨[], fun h => absurd h hw⟩
      choose B hB using hb
      have e1 : ∀ rs' : List Resource, (∀ x ∈ rs', x ∈ r :: rs) →
          rs'.map (fun r => emit (encResource float r)) = (rs'.map B).map unlines := by
        intro rs' h
        rw [List.map_map]
        exact List.map_congr_left fun x hx => (hB x (he x (h x hx))).2.1
      have key := splitDocs_first (B r) (rs.map B) (hB r (he r List.mem_cons_self)).1 (by
        intro b hb
        rw [← List.map_cons] at hb
        obtain ⟨x, hx, rfl⟩ := List.mem_map.1 hb
        exact (hB x (he x hx)).2.2)
      rw [e1 _ fun x hx => hx, List.map_cons, ← key]
      congr 1
      show emit (encResource float r) ++ rs.flatMap _ = _
      rw [(hB r (he r List.mem_cons_self)).2.1, ← e1 rs fun x hx => List.mem_cons_of_mem _ hx, List.flatMap_map]
  have key : List.Forall₂ (fun r d => ∃ hd, (treeLib ram tree).header d = .ok hd ∧
      (treeLib ram tree).resource (typeOfKind hd.kind) d = .ok r ∧ r.getKind ≠ "")
      (rs.map storedResource) (rs.map fun r => emit (encResource float r)) := by
    rw [List.forall₂_map_left_iff, List.forall₂_map_right_iff]
    refine List.forall₂_same.2 fun r hr => ?_
    obtain ⟨hd, h1, h2⟩ := encResource_header float r
    refine ⟨hd, ?_, ?_, ?_⟩
    · simp only [treeLib, (he r hr).reads]
      exact h1
    · simp only [treeLib, (he r hr).reads, h2, (hk r hr).1]
      exact rt_resource ram hf r (hs r hr)
    · rw [storedResource_kind]
      exact (hk r hr).2
  obtain ⟨raws, h1, h2⟩ := parse_docs _ key
  simp only [parseBytes, parseReader, parseRawReader, hsplit, h1, h2]

/-! ### What was parsed can be stored -/

/-- What holds of the zero value and is kept by all fields holds of what is decoded. -/
theorem decFields_inv {σ : Type} {F : String → Option (Yaml.Field σ)} {P : σ → Prop}
    (hF : ∀ k f, F k = some f → ∀ n s, P s → P (f n s).1) (kvs : List (Yaml.Node × Yaml.Node)) (s : σ) (h : P s) :
    P (decFields F kvs s).val := by
  induction kvs generalizing s with
  | nil => exact h
  | cons e kvs ih =>
    obtain ⟨k, v⟩ := e
    simp only [decFields]
    by_cases hg : (decString k "").good = true
    · rw [if_pos hg]
      cases hf : F (decString k "").val with
      | none => exact ih s h
      | some f => exact ih _ (hF _ f hf v s h)
    · rw [if_neg hg]
      exact ih s h

theorem decStruct_inv {σ : Type} {F : String → Option (Yaml.Field σ)} {P : σ → Prop} {zero : σ}
    (hF : ∀ k f, F k = some f → ∀ n s, P s → P (f n s).1) (hz : P zero) (n : Yaml.Node) (s : σ) (h : P s) :
    P (decStruct zero F n s).val := by
  cases n with
  | null => exact hz
  | map kvs => exact decFields_inv hF kvs s h
  | _ => exact h

theorem table_inv {σ : Type} {tbl : List (String × Yaml.Field σ)} {P : σ → Prop}
    (h : ∀ p ∈ tbl, ∀ n s, P s → P (p.2 n s).1) : ∀ k f, tbl.lookup k = some f → ∀ n s, P s → P (f n s).1 :=
  fun k f hf => h (k, f) (lookup_mem hf)

theorem mem_set' {α : Type} {m : GoMap α} {k : String} {v : α} {kv : String × α} (h : kv ∈ m.set k v) :
    kv = (k, v) ∨ kv ∈ m := by
  induction m with
  | nil => simpa [GoMap.set] using h
  | cons p m ih =>
    obtain ⟨k', v'⟩ := p
    unfold GoMap.set at h
    split at h
    · rcases List.mem_cons.1 h with h | h
      · exact .inl h
      · exact .inr (List.mem_cons_of_mem _ h)
    · rcases List.mem_cons.1 h with h | h
      · exact .inr (h ▸ List.mem_cons_self)
      · exact (ih h).imp id (List.mem_cons_of_mem _)

theorem set_nodup' {α : Type} {m : GoMap α} (h : m.keys.Nodup) (k : String) (v : α) : (m.set k v).keys.Nodup := by
  induction m with
  | nil => simp [GoMap.set, GoMap.keys]
  | cons p m ih =>
    obtain ⟨k', v'⟩ := p
    simp only [GoMap.keys, List.map_cons, List.nodup_cons] at h
    unfold GoMap.set
    split
    · rename_i he
      simp only [GoMap.keys, List.map_cons, List.nodup_cons]
      exact ⟨he ▸ h.1, h.2⟩
    · rename_i he
      simp only [GoMap.keys, List.map_cons, List.nodup_cons]
      refine ⟨fun hc => ?_, ih h.2⟩
      obtain ⟨kv, h1, h2⟩ := List.mem_map.1 hc
      rcases mem_set' h1 with rfl | h1
      · exact he h2.symm
      · exact h.1 (List.mem_map.2 ⟨kv, h1, h2⟩)

theorem decEntries_inv {α : Type} {zero : α} {d : Dec α} {Q : α → Prop} (hd : ∀ n, Q (d n zero).val)
    (kvs : List (Yaml.Node × Yaml.Node)) (m : GoMap α) (h : m.keys.Nodup ∧ ∀ kv ∈ m, Q kv.2) :
    (decEntries zero d kvs m).val.keys.Nodup ∧ ∀ kv ∈ (decEntries zero d kvs m).val, Q kv.2 := by
  induction kvs generalizing m with
  | nil => exact h
  | cons e kvs ih =>
    obtain ⟨k, v⟩ := e
    simp only [decEntries]
    refine ih _ ?_
    split
    · refine ⟨set_nodup' h.1 _ _, fun kv hkv => ?_⟩
      rcases mem_set' hkv with rfl | hkv
      · exact hd v
      · exact h.2 kv hkv
    · exact h

theorem decMap_inv {α : Type} {zero : α} {d : Dec α} {Q : α → Prop} (hd : ∀ n, Q (d n zero).val) (n : Yaml.Node)
    (m : GoMap α) (h : m.keys.Nodup ∧ ∀ kv ∈ m, Q kv.2) :
    (decMap zero d n m).val.keys.Nodup ∧ ∀ kv ∈ (decMap zero d n m).val, Q kv.2 := by
  cases n with
  | null => exact ⟨List.nodup_nil, by simp [decMap]⟩
  | map kvs => exact decEntries_inv hd kvs m h
  | _ => exact h

theorem decMap_nodup {α : Type} {zero : α} {d : Dec α} (n : Yaml.Node) (m : GoMap α) (h : m.keys.Nodup) :
    (decMap zero d n m).val.keys.Nodup :=
  (decMap_inv (Q := fun _ => True) (fun _ => trivial) n m ⟨h, fun _ _ => trivial⟩).1

theorem decSlice_inv {α : Type} {zero : α} {d : Dec α} {Q : α → Prop} (hd : ∀ n, Q (d n zero).val) (n : Yaml.Node)
    (l : List α) (h : ∀ x ∈ l, Q x) : ∀ x ∈ (decSlice zero d n l).val, Q x := by
  cases n with
  | null => simp [decSlice]
  | seq xs =>
    simp only [decSlice]
    induction xs with
    | nil => simp [decElems]
    | cons n xs ih =>
      simp only [decElems]
      split
      · intro x hx
        rcases List.mem_cons.1 hx with rfl | hx
        · exact hd n
        · exact ih x hx
      · exact ih
  | _ => exact h

theorem decPtr_inv {α : Type} {zero : α} {d : Dec α} {P : α → Prop} (hd : ∀ n s, P s → P (d n s).val) (hz : P zero)
    (n : Yaml.Node) (o : Option α) (ho : ∀ x, o = some x → P x) : ∀ x, (decPtr zero d n o).val = some x → P x := by
  intro x hx
  have : ∀ n, P (d n (o.getD zero)).val := fun n => hd n _ (by cases o <;> simp [hz, ho])
  cases n with
  | null => simp [decPtr] at hx
  | _ => simp only [decPtr, Option.some.injEq] at hx; exact hx ▸ this _

theorem conditions_inv (n : Yaml.Node) (s : Conditions) (h : s.matrix.keys.Nodup) :
    (decConditions n s).val.matrix.keys.Nodup := by
  refine decStruct_inv (zero := {}) (P := fun s : Conditions => s.matrix.keys.Nodup) (table_inv ?_) List.nodup_nil n s h
  unfold conditionsFields
  iterate 10 (refine List.forall_mem_cons.2 ⟨fun _ _ h => h, ?_⟩)
  refine List.forall_mem_cons.2 ⟨fun n s h => decMap_nodup n _ h, ?_⟩
  simp

theorem build_inv (n : Yaml.Node) (s : Build) (h : s.args.keys.Nodup ∧ s.labels.keys.Nodup) :
    (decBuild n s).val.args.keys.Nodup ∧ (decBuild n s).val.labels.keys.Nodup := by
  have long : ∀ n, (decBuildLong n {}).val.args.keys.Nodup ∧ (decBuildLong n {}).val.labels.keys.Nodup := by
    intro n
    refine decStruct_inv (zero := {}) (P := fun s : Build => s.args.keys.Nodup ∧ s.labels.keys.Nodup) (table_inv ?_)
      ⟨List.nodup_nil, List.nodup_nil⟩ n _ ⟨List.nodup_nil, List.nodup_nil⟩
    unfold buildLongFields
    refine List.forall_mem_cons.2 ⟨fun n s h => ⟨decMap_nodup n _ h.1, h.2⟩, ?_⟩
    iterate 4 (refine List.forall_mem_cons.2 ⟨fun _ _ h => h, ?_⟩)
    refine List.forall_mem_cons.2 ⟨fun n s h => ⟨h.1, decMap_nodup n _ h.2⟩, ?_⟩
    simp
  have key : ∀ n s, (unmarshalBuild n s).1.args.keys.Nodup ∧ (unmarshalBuild n s).1.labels.keys.Nodup := by
    intro n s
    unfold unmarshalBuild
    dsimp only
    split
    · exact ⟨List.nodup_nil, List.nodup_nil⟩
    · exact long n
  cases n with
  | null => exact ⟨List.nodup_nil, List.nodup_nil⟩
  | _ => exact key _ _

/-! Values -/

theorem setKey_mem {k v : Value} {m : List (Value × Value)} {kv : Value × Value} (h : kv ∈ setKey k v m) :
    kv = (k, v) ∨ kv ∈ m := by
  induction m with
  | nil => simpa [setKey] using h
  | cons p m ih =>
    obtain ⟨k', v'⟩ := p
    unfold setKey at h
    split at h
    · rcases List.mem_cons.1 h with h | h
      · exact .inl h
      · exact .inr (List.mem_cons_of_mem _ h)
    · rcases List.mem_cons.1 h with h | h
      · exact .inr (h ▸ List.mem_cons_self)
      · exact (ih h).imp id (List.mem_cons_of_mem _)

theorem sameKey_eq {a b : Value} (h : sameKey a b = true) : a = b := by
  cases a <;> cases b <;> simp_all [sameKey]

theorem setKey_proper {k v : Value} (hk : hashable k = true) (hpk : Proper k) (hpv : Proper v)
    {m : List (Value × Value)} (hm : ProperEntries m) : ProperEntries (setKey k v m) := by
  induction m with
  | nil => exact ⟨⟨hk, hpk, hpv, by simp⟩, trivial⟩
  | cons p m ih =>
    obtain ⟨k', v'⟩ := p
    obtain ⟨⟨h1, h2, h3, h4⟩, h5⟩ := hm
    unfold setKey
    split
    · rename_i hs
      rw [← sameKey_eq hs]
      exact ⟨⟨h1, h2, hpv, h4⟩, h5⟩
    · rename_i hs
      refine ⟨⟨h1, h2, h3, fun kv hkv => ?_⟩, ih h5⟩
      rcases setKey_mem hkv with rfl | hkv
      · simpa using hs
      · exact h4 kv hkv

mutual
theorem toValue_proper (n : Yaml.Node) (v : Value) (h : toValue n = some v) : Proper v := by
  cases n with
  | null => simp only [toValue, Option.some.injEq] at h; subst h; trivial
  | scalar t r => cases r <;> simp only [toValue, Option.some.injEq] at h <;> subst h <;> trivial
  | seq xs =>
    simp only [toValue, Option.map_eq_some_iff] at h
    obtain ⟨vs, h1, rfl⟩ := h
    exact toValues_proper xs vs h1
  | map kvs =>
    simp only [toValue, Option.map_eq_some_iff] at h
    obtain ⟨m, h1, rfl⟩ := h
    exact toEntries_proper kvs [] m trivial h1
theorem toValues_proper (xs : List Yaml.Node) (vs : List Value) (h : toValues xs = some vs) : ProperList vs := by
  cases xs with
  | nil => simp only [toValues, Option.some.injEq] at h; subst h; trivial
  | cons x xs =>
    simp only [toValues, Option.bind_eq_some_iff, Option.map_eq_some_iff] at h
    obtain ⟨v, h1, vs', h2, rfl⟩ := h
    exact ⟨toValue_proper x v h1, toValues_proper xs vs' h2⟩
theorem toEntries_proper (kvs : List (Yaml.Node × Yaml.Node)) (m m' : List (Value × Value)) (hm : ProperEntries m)
    (h : toEntries kvs m = some m') : ProperEntries m' := by
  cases kvs with
  | nil => simp only [toEntries, Option.some.injEq] at h; subst h; exact hm
  | cons e kvs =>
    obtain ⟨k, v⟩ := e
    simp only [toEntries, Option.bind_eq_some_iff] at h
    obtain ⟨k', h1, h2⟩ := h
    split at h2
    · rename_i hk
      obtain ⟨v', h3, h4⟩ := Option.bind_eq_some_iff.1 h2
      exact toEntries_proper kvs _ m' (setKey_proper hk (toValue_proper k k' h1) (toValue_proper v v' h3) hm) h4
    · simp at h2
end

/-! ### Containers and pipelines -/

theorem parameter_inv (n : Yaml.Node) (s : Parameter) (h : Proper s.value) : Proper (decParameter n s).val.value := by
  have key : ∀ n, Proper (unmarshalParameter n s).1.value := by
    intro n
    unfold unmarshalParameter
    dsimp only
    split
    · exact h
    · simp only [decAny]
      cases hv : toValue n with
      | none => trivial
      | some v => exact toValue_proper n v hv
  cases n with
  | null => trivial
  | _ => exact key _

/-! Numbers -/

theorem int_inv (n : Yaml.Node) (i : Int) (h : Fits64 i) : Fits64 (decInt n i).val := by
  cases n with
  | null => exact (by decide : Fits64 0)
  | scalar t r =>
    cases r with
    | int j =>
      by_cases hj : -2 ^ 63 ≤ j ∧ j < 2 ^ 63
      · rw [decInt, if_pos hj]; exact hj
      · rw [decInt, if_neg hj]; exact h
    | float q =>
      by_cases hq : q ≤ 2 ^ 63
      · rw [decInt, if_pos hq]
        show Fits64 (truncInt q)
        unfold truncInt
        dsimp only
        split
        · assumption
        · exact (by decide : Fits64 (-2 ^ 63))
      · rw [decInt, if_neg hq]; exact h
    | _ => exact h
  | _ => exact h

theorem bytes_inv {ram : String → Option Int} (hram : ∀ s i, ram s = some i → Fits64 i) (n : Yaml.Node) (i : Int)
    (h : Fits64 i) : Fits64 (decBytes ram n i).val := by
  have key : Fits64 (unmarshalBytes ram n i).1 := by
    unfold unmarshalBytes
    dsimp only
    split
    · exact int_inv n 0 (by decide)
    · split
      · exact h
      · split
        · rename_i h; exact hram _ _ h
        · exact h
  cases n with
  | null => exact (by decide : Fits64 0)
  | _ => exact key

theorem port_inv (n : Yaml.Node) (s : Port) (h : Fits64 s.port ∧ Fits64 s.host) :
    Fits64 (custom {} unmarshalPort n s).val.port ∧ Fits64 (custom {} unmarshalPort n s).val.host := by
  have hz : Fits64 ({} : Port).port ∧ Fits64 ({} : Port).host := by decide
  have long : ∀ n, Fits64 (decPortLong n {}).val.port ∧ Fits64 (decPortLong n {}).val.host := by
    intro n
    refine decStruct_inv (zero := {}) (P := fun s : Port => Fits64 s.port ∧ Fits64 s.host) (table_inv ?_) hz n _ hz
    refine List.forall_mem_cons.2 ⟨fun n s h => ⟨int_inv n _ h.1, h.2⟩, ?_⟩
    refine List.forall_mem_cons.2 ⟨fun n s h => ⟨h.1, int_inv n _ h.2⟩, ?_⟩
    refine List.forall_mem_cons.2 ⟨fun _ _ h => h, ?_⟩
    simp
  have key : Fits64 (unmarshalPort n s).1.port ∧ Fits64 (unmarshalPort n s).1.host := by
    unfold unmarshalPort
    dsimp only
    split
    · exact ⟨int_inv n 0 (by decide), (by decide : Fits64 0)⟩
    · exact long n
  cases n with
  | null => exact hz
  | _ => exact key

theorem portPtr_inv (n : Yaml.Node) :
    ∀ p, (decPtr {} (custom {} unmarshalPort) n none).val = some p → Fits64 p.port ∧ Fits64 p.host := by
  have hz : (fun p : Port => Fits64 p.port ∧ Fits64 p.host) {} := by decide
  exact decPtr_inv port_inv hz n none (by simp)

theorem resourceObject_inv {ram : String → Option Int} (hram : ∀ s i, ram s = some i → Fits64 i) (n : Yaml.Node)
    (s : ResourceObject) (h : Fits64 s.memory) : Fits64 (decResourceObject ram n s).val.memory := by
  refine decStruct_inv (zero := {}) (P := fun s : ResourceObject => Fits64 s.memory) (table_inv ?_)
    (by decide : Fits64 0) n _ h
  refine List.forall_mem_cons.2 ⟨fun _ _ h => h, ?_⟩
  refine List.forall_mem_cons.2 ⟨fun n s h => bytes_inv hram n _ h, ?_⟩
  simp

theorem resources_inv {ram : String → Option Int} (hram : ∀ s i, ram s = some i → Fits64 i) (n : Yaml.Node)
    (s : Resources) (h : ∀ o, (s.limits = some o ∨ s.requests = some o) → Fits64 o.memory) :
    ∀ o, ((decResources ram n s).val.limits = some o ∨ (decResources ram n s).val.requests = some o) →
      Fits64 o.memory := by
  have hp := fun n o => decPtr_inv (zero := {}) (P := fun s : ResourceObject => Fits64 s.memory)
    (resourceObject_inv hram) (by decide : Fits64 0) n o
  refine decStruct_inv (zero := {})
    (P := fun s : Resources => ∀ o, (s.limits = some o ∨ s.requests = some o) → Fits64 o.memory) (table_inv ?_)
    (by simp) n _ h
  refine List.forall_mem_cons.2 ⟨fun n s h o ho => ?_, ?_⟩
  · exact ho.elim (hp n _ (fun x hx => h x (.inl hx)) o) fun h' => h o (.inr h')
  refine List.forall_mem_cons.2 ⟨fun n s h o ho => ?_, ?_⟩
  · exact ho.elim (fun h' => h o (.inl h')) (hp n _ (fun x hx => h x (.inr hx)) o)
  simp

theorem resourcesPtr_inv {ram : String → Option Int} (hram : ∀ s i, ram s = some i → Fits64 i) (n : Yaml.Node)
    (o : Option Resources) (h : ∀ r, o = some r → ∀ o, (r.limits = some o ∨ r.requests = some o) → Fits64 o.memory) :
    ∀ r, (decPtr {} (decResources ram) n o).val = some r →
      ∀ o, (r.limits = some o ∨ r.requests = some o) → Fits64 o.memory := by
  have hz : (fun r : Resources => ∀ o, (r.limits = some o ∨ r.requests = some o) → Fits64 o.memory) {} := by simp
  exact decPtr_inv (resources_inv hram) hz n o h

theorem clone_inv (n : Yaml.Node) (s : Clone) (h : Fits64 s.depth) : Fits64 (decClone n s).val.depth := by
  refine decStruct_inv (zero := {}) (P := fun s : Clone => Fits64 s.depth) (table_inv ?_) (by decide : Fits64 0) n _ h
  refine List.forall_mem_cons.2 ⟨fun _ _ h => h, ?_⟩
  refine List.forall_mem_cons.2 ⟨fun n s h => int_inv n _ h, ?_⟩
  refine List.forall_mem_cons.2 ⟨fun _ _ h => h, ?_⟩
  simp

theorem concurrency_inv (n : Yaml.Node) (s : Concurrency) (h : Fits64 s.limit) :
    Fits64 (decConcurrency n s).val.limit := by
  refine decStruct_inv (zero := {}) (P := fun s : Concurrency => Fits64 s.limit) (table_inv ?_)
    (by decide : Fits64 0) n _ h
  refine List.forall_mem_cons.2 ⟨fun n s h => int_inv n _ h, ?_⟩
  simp

theorem volumePtr_inv {ram : String → Option Int} (hram : ∀ s i, ram s = some i → Fits64 i) (n : Yaml.Node) :
    ∀ v, (decPtr {} (decVolume ram) n none).val = some v → ∀ e, v.emptyDir = some e → Fits64 e.sizeLimit := by
  have he : ∀ n s, Fits64 s.sizeLimit → Fits64 (decVolumeEmptyDir ram n s).val.sizeLimit := by
    intro n s h
    refine decStruct_inv (zero := {}) (P := fun s : VolumeEmptyDir => Fits64 s.sizeLimit) (table_inv ?_)
      (by decide : Fits64 0) n _ h
    refine List.forall_mem_cons.2 ⟨fun _ _ h => h, ?_⟩
    refine List.forall_mem_cons.2 ⟨fun n s h => bytes_inv hram n _ h, ?_⟩
    simp
  have hp := fun n o => decPtr_inv (zero := {}) (P := fun s : VolumeEmptyDir => Fits64 s.sizeLimit)
    he (by decide : Fits64 0) n o
  have hv : ∀ n (s : Volume), (∀ e, s.emptyDir = some e → Fits64 e.sizeLimit) →
      ∀ e, (decVolume ram n s).val.emptyDir = some e → Fits64 e.sizeLimit := by
    intro n s h
    refine decStruct_inv (zero := {}) (P := fun s : Volume => ∀ e, s.emptyDir = some e → Fits64 e.sizeLimit)
      (table_inv ?_) (by simp) n _ h
    refine List.forall_mem_cons.2 ⟨fun _ _ h => h, ?_⟩
    refine List.forall_mem_cons.2 ⟨fun n s h => hp n _ h, ?_⟩
    refine List.forall_mem_cons.2 ⟨fun _ _ h => h, ?_⟩
    simp
  have hz : (fun v : Volume => ∀ e, v.emptyDir = some e → Fits64 e.sizeLimit) {} := by simp
  exact decPtr_inv hv hz n none (by simp)

/-- What is known of a decoded container. -/
structure Spec.DecodedContainer (c : Container) : Prop where
  build : ∀ b, c.build = some b → b.args.keys.Nodup ∧ b.labels.keys.Nodup
  environment : c.environment.keys.Nodup
  settings : c.settings.keys.Nodup ∧ ∀ kv ∈ c.settings, ∀ p, kv.2 = some p → Proper p.value
  cond : c.cond.matrix.keys.Nodup
  ports : ∀ o ∈ c.ports, ∀ p, o = some p → Fits64 p.port ∧ Fits64 p.host
  memory : ∀ r, c.resources = some r → ∀ o, (r.limits = some o ∨ r.requests = some o) → Fits64 o.memory

theorem buildPtr_inv (n : Yaml.Node) (o : Option Build) (h : ∀ b, o = some b → b.args.keys.Nodup ∧ b.labels.keys.Nodup) :
    ∀ b, (decPtr {} decBuild n o).val = some b → b.args.keys.Nodup ∧ b.labels.keys.Nodup := by
  have hz : (fun b : Build => b.args.keys.Nodup ∧ b.labels.keys.Nodup) {} := ⟨List.nodup_nil, List.nodup_nil⟩
  exact decPtr_inv build_inv hz n o h

theorem paramPtr_inv (n : Yaml.Node) : ∀ p, (decPtr {} decParameter n none).val = some p → Proper p.value := by
  have hz : (fun p : Parameter => Proper p.value) {} := trivial
  exact decPtr_inv parameter_inv hz n none (by simp)

theorem decodedContainer_zero : DecodedContainer {} :=
  ⟨by simp, List.nodup_nil, ⟨List.nodup_nil, by simp⟩, List.nodup_nil, by simp, by simp⟩

theorem container_inv {ram : String → Option Int} (hram : ∀ s i, ram s = some i → Fits64 i) (n : Yaml.Node) (s : Container) (h : DecodedContainer s) :
    DecodedContainer (decContainer ram n s).val := by
  refine decStruct_inv (table_inv ?_) decodedContainer_zero n s h
  unfold containerFields
  refine List.forall_mem_cons.2 ⟨fun n s h => ⟨buildPtr_inv n _ h.build, h.environment, h.settings, h.cond, h.ports, h.memory⟩, ?_⟩
  iterate 8 (refine List.forall_mem_cons.2 ⟨fun _ _ h => ⟨h.build, h.environment, h.settings, h.cond, h.ports, h.memory⟩, ?_⟩)
  refine List.forall_mem_cons.2 ⟨fun n _ h => ⟨h.build, decMap_nodup n _ h.environment, h.settings, h.cond, h.ports, h.memory⟩, ?_⟩
  iterate 5 (refine List.forall_mem_cons.2 ⟨fun _ _ h => ⟨h.build, h.environment, h.settings, h.cond, h.ports, h.memory⟩, ?_⟩)
  refine List.forall_mem_cons.2 ⟨fun n _ h => ⟨h.build, h.environment, h.settings, h.cond, decSlice_inv
    (Q := fun o : Option Port => ∀ p, o = some p → Fits64 p.port ∧ Fits64 p.host) portPtr_inv n _ h.ports, h.memory⟩, ?_⟩
  iterate 3 (refine List.forall_mem_cons.2 ⟨fun _ _ h => ⟨h.build, h.environment, h.settings, h.cond, h.ports, h.memory⟩, ?_⟩)
  refine List.forall_mem_cons.2 ⟨fun n _ h => ⟨h.build, h.environment, h.settings, h.cond, h.ports,
    resourcesPtr_inv hram n _ h.memory⟩, ?_⟩
  refine List.forall_mem_cons.2 ⟨fun n _ h => ⟨h.build, h.environment, decMap_inv
    (Q := fun o : Option Parameter => ∀ p, o = some p → Proper p.value)
    paramPtr_inv n _ h.settings, h.cond, h.ports, h.memory⟩, ?_⟩
  iterate 3 (refine List.forall_mem_cons.2 ⟨fun _ _ h => ⟨h.build, h.environment, h.settings, h.cond, h.ports, h.memory⟩, ?_⟩)
  refine List.forall_mem_cons.2 ⟨fun n _ h => ⟨h.build, h.environment, h.settings, conditions_inv n _ h.cond, h.ports, h.memory⟩, ?_⟩
  refine List.forall_mem_cons.2 ⟨fun _ _ h => ⟨h.build, h.environment, h.settings, h.cond, h.ports, h.memory⟩, ?_⟩
  simp

structure Spec.DecodedPipeline (p : Pipeline) : Prop where
  node : p.node.keys.Nodup
  services : ∀ o ∈ p.services, ∀ c, o = some c → DecodedContainer c
  steps : ∀ o ∈ p.steps, ∀ c, o = some c → DecodedContainer c
  trigger : p.trigger.matrix.keys.Nodup
  depth : Fits64 p.clone.depth
  limit : Fits64 p.concurrency.limit
  sizes : ∀ o ∈ p.volumes, ∀ v, o = some v → ∀ e, v.emptyDir = some e → Fits64 e.sizeLimit

theorem pipeline_inv {ram : String → Option Int} (hram : ∀ s i, ram s = some i → Fits64 i) (n : Yaml.Node) :
    DecodedPipeline (decPipeline ram n {}).val := by
  have hz : DecodedPipeline {} := ⟨List.nodup_nil, by simp, by simp, List.nodup_nil, by decide, by decide, by simp⟩
  refine decStruct_inv (table_inv ?_) hz n _ hz
  unfold pipelineFields
  iterate 4 (refine List.forall_mem_cons.2 ⟨fun _ _ h => ⟨h.node, h.services, h.steps, h.trigger, h.depth, h.limit, h.sizes⟩, ?_⟩)
  refine List.forall_mem_cons.2 ⟨fun n _ h => ⟨h.node, h.services, h.steps, h.trigger, clone_inv n _ h.depth, h.limit, h.sizes⟩, ?_⟩
  refine List.forall_mem_cons.2 ⟨fun n _ h => ⟨h.node, h.services, h.steps, h.trigger, h.depth, concurrency_inv n _ h.limit, h.sizes⟩, ?_⟩
  refine List.forall_mem_cons.2 ⟨fun _ _ h => ⟨h.node, h.services, h.steps, h.trigger, h.depth, h.limit, h.sizes⟩, ?_⟩
  refine List.forall_mem_cons.2 ⟨fun n _ h => ⟨decMap_nodup n _ h.node, h.services, h.steps, h.trigger, h.depth, h.limit, h.sizes⟩, ?_⟩
  iterate 2 (refine List.forall_mem_cons.2 ⟨fun _ _ h => ⟨h.node, h.services, h.steps, h.trigger, h.depth, h.limit, h.sizes⟩, ?_⟩)
  have hc : ∀ n, ∀ c, (decPtr {} (decContainer ram) n none).val = some c → DecodedContainer c := fun n =>
    decPtr_inv (container_inv hram) decodedContainer_zero n none (by simp)
  refine List.forall_mem_cons.2 ⟨fun n _ h => ⟨h.node, decSlice_inv (Q := fun o : Option Container => ∀ c, o = some c →
    DecodedContainer c) hc n _ h.services, h.steps, h.trigger, h.depth, h.limit, h.sizes⟩, ?_⟩
  refine List.forall_mem_cons.2 ⟨fun n _ h => ⟨h.node, h.services, decSlice_inv (Q := fun o : Option Container => ∀ c, o = some c →
    DecodedContainer c) hc n _ h.steps, h.trigger, h.depth, h.limit, h.sizes⟩, ?_⟩
  refine List.forall_mem_cons.2 ⟨fun n _ h => ⟨h.node, h.services, h.steps, conditions_inv n _ h.trigger, h.depth, h.limit, h.sizes⟩, ?_⟩
  refine List.forall_mem_cons.2 ⟨fun n _ h => ⟨h.node, h.services, h.steps, h.trigger, h.depth, h.limit, decSlice_inv
    (Q := fun o : Option Volume => ∀ v, o = some v → ∀ e, v.emptyDir = some e → Fits64 e.sizeLimit)
    (volumePtr_inv hram) n _ h.sizes⟩, ?_⟩
  refine List.forall_mem_cons.2 ⟨fun _ _ h => ⟨h.node, h.services, h.steps, h.trigger, h.depth, h.limit, h.sizes⟩, ?_⟩
  simp

/-! ### Numbers as keys -/

mutual
/-- No number with a fraction or exponent is a key of a map. -/
def Spec.NoFloatKeys : Value → Prop
  | .seq xs => Spec.NoFloatKeysList xs
  | .map kvs => Spec.NoFloatKeysEntries kvs
  | _ => True
def Spec.NoFloatKeysList : List Value → Prop
  | [] => True
  | x :: xs => Spec.NoFloatKeys x ∧ Spec.NoFloatKeysList xs
def Spec.NoFloatKeysEntries : List (Value × Value) → Prop
  | [] => True
  | (k, v) :: kvs => (∀ q, k ≠ .float q) ∧ Spec.NoFloatKeys v ∧ Spec.NoFloatKeysEntries kvs
end

theorem plain_key {k : Value} (hk : hashable k = true) (h : ∀ q, k ≠ .float q) : plainNumbers k = k := by
  cases k with
  | float q => exact absurd rfl (h q)
  | seq xs => simp [hashable] at hk
  | map kvs => simp [hashable] at hk
  | _ => rfl

theorem plainEntries_mem {kvs : List (Value × Value)} {kv : Value × Value} (h : kv ∈ plainEntries kvs) :
    ∃ kv' ∈ kvs, kv = (plainNumbers kv'.1, plainNumbers kv'.2) := by
  induction kvs with
  | nil => simp [plainEntries] at h
  | cons p kvs ih =>
    obtain ⟨k, v⟩ := p
    simp only [plainEntries, List.mem_cons] at h
    rcases h with rfl | h
    · exact ⟨_, List.mem_cons_self, rfl⟩
    · obtain ⟨kv', h1, h2⟩ := ih h
      exact ⟨kv', List.mem_cons_of_mem _ h1, h2⟩

theorem entries_keys {kvs : List (Value × Value)} (h : ProperEntries kvs) (hn : NoFloatKeysEntries kvs) :
    ∀ kv ∈ kvs, plainNumbers kv.1 = kv.1 := by
  induction kvs with
  | nil => simp
  | cons p kvs ih =>
    obtain ⟨k, v⟩ := p
    intro kv hkv
    rcases List.mem_cons.1 hkv with rfl | hkv
    · exact plain_key h.1.1 hn.1
    · exact ih h.2 hn.2.2 kv hkv

mutual
theorem proper_plain (v : Value) (h : Proper v) (hn : NoFloatKeys v) : Proper (plainNumbers v) := by
  cases v with
  | float q => unfold plainNumbers; split <;> trivial
  | seq xs => exact properList_plain xs h hn
  | map kvs => exact properEntries_plain kvs h hn
  | _ => trivial
theorem properList_plain (xs : List Value) (h : ProperList xs) (hn : NoFloatKeysList xs) : ProperList (plainList xs) := by
  cases xs with
  | nil => trivial
  | cons x xs => exact ⟨proper_plain x h.1 hn.1, properList_plain xs h.2 hn.2⟩
theorem properEntries_plain (kvs : List (Value × Value)) (h : ProperEntries kvs) (hn : NoFloatKeysEntries kvs) :
    ProperEntries (plainEntries kvs) := by
  cases kvs with
  | nil => trivial
  | cons p kvs =>
    obtain ⟨k, v⟩ := p
    have hk := plain_key h.1.1 hn.1
    refine ⟨⟨by rw [hk]; exact h.1.1, by rw [hk]; exact h.1.2.1, proper_plain v h.1.2.2.1 hn.2.1, ?_⟩,
      properEntries_plain kvs h.2 hn.2.2⟩
    intro kv hkv
    obtain ⟨kv', h1, rfl⟩ := plainEntries_mem hkv
    rw [hk]
    show sameKey k (plainNumbers kv'.1) = false
    rw [entries_keys h.2 hn.2.2 kv' h1]
    exact h.1.2.2.2 kv' h1
end

/-- The literal settings have no numbers with a fraction as keys, and do not look like references to
secrets. -/
def Spec.PlainSettings : Resource → Prop
  | .pipeline p => ∀ c, some c ∈ p.steps ∨ some c ∈ p.services → ∀ k v, (k, some v) ∈ c.settings →
      v.secret = "" → NoFloatKeys v.value ∧ ¬ LooksSecret v.value
  | _ => True

theorem decoded_storable {c : Container} (h : DecodedContainer c)
    (hv : ∀ k v, (k, some v) ∈ c.settings → v.secret = "" → NoFloatKeys v.value ∧ ¬ LooksSecret v.value) :
    StorableContainer c :=
  ⟨h.build, h.environment, h.settings.1, fun k p hp hs =>
    ⟨proper_plain _ (h.settings.2 _ hp p rfl) (hv k p hp hs).1, (hv k p hp hs).2⟩, h.cond, fun p hp => h.ports _ hp p rfl, fun r o hr ho => h.memory r hr o ho⟩

theorem unmarshalDoc_ok {σ : Type} {zero s : σ} {F : String → Option (Yaml.Field σ)} {n : Yaml.Node}
    (h : unmarshalDoc zero F n = .ok s) : s = (decStruct zero F n zero).val := by
  unfold unmarshalDoc at h
  dsimp only at h
  split at h
  · simp at h
  · simp only [Except.ok.injEq] at h
    exact h.symm

theorem map_ok {ε α β : Type} {f : α → β} {x : Except ε α} {b : β} (h : x.map f = .ok b) : ∃ a, x = .ok a ∧ b = f a := by
  cases x with
  | error e => simp [Except.map] at h
  | ok a => simp only [Except.map, Except.ok.injEq] at h; exact ⟨a, rfl, h.symm⟩

theorem unmarshal_storable {ram : String → Option Int} (hram : ∀ s i, ram s = some i → Fits64 i) {t : ResType} {n : Yaml.Node} {r : Resource}
    (h : unmarshalResource ram t n = .ok r) (hp : PlainSettings r) : Storable r ∧ r.resType = t := by
  cases t with
  | cron => obtain ⟨a, _, rfl⟩ := map_ok h; exact ⟨trivial, rfl⟩
  | secret => obtain ⟨a, _, rfl⟩ := map_ok h; exact ⟨trivial, rfl⟩
  | signature => obtain ⟨a, _, rfl⟩ := map_ok h; exact ⟨trivial, rfl⟩
  | registry =>
    obtain ⟨a, h1, rfl⟩ := map_ok h
    refine ⟨?_, rfl⟩
    rw [unmarshalDoc_ok h1]
    refine decStruct_inv (zero := {}) (P := fun s : Registry => s.data.keys.Nodup) (table_inv ?_) List.nodup_nil n _ List.nodup_nil
    iterate 3 (refine List.forall_mem_cons.2 ⟨fun _ _ h => h, ?_⟩)
    refine List.forall_mem_cons.2 ⟨fun n s h => decMap_nodup n _ h, ?_⟩
    simp
  | pipeline =>
    obtain ⟨a, h1, rfl⟩ := map_ok h
    have e : a = (decPipeline ram n {}).val := unmarshalDoc_ok h1
    have hd := pipeline_inv hram n
    rw [← e] at hd
    exact ⟨⟨hd.node, fun c hc => decoded_storable (hd.services _ hc c rfl) (hp c (.inr hc)),
      fun c hc => decoded_storable (hd.steps _ hc c rfl) (hp c (.inl hc)), hd.trigger,
      hd.depth, hd.limit, fun v e hv he => hd.sizes _ hv v rfl e he⟩, rfl⟩

/-! ### The kind -/

theorem fills_header_kind : Fills headerField "kind" Header.kind decString :=
  fills_table ⟨_, rfl, fun _ _ => rfl⟩ (by
    refine List.forall_mem_cons.2 ⟨fun _ _ _ => rfl, List.forall_mem_cons.2 ⟨fun h => absurd rfl h, ?_⟩⟩
    refine List.forall_mem_cons.2 ⟨fun _ _ _ => rfl, List.forall_mem_nil _⟩)

/-- The decoder of a resource and that of the header see the same kind. -/
theorem kind_agrees {σ : Type} {F : String → Option (Yaml.Field σ)} {zero : σ} {get : σ → String}
    (hF : Fills F "kind" get decString) (hz : get zero = "") (n : Yaml.Node) {s : σ} {hd : Header}
    (h : unmarshalDoc zero F n = .ok s) (hh : unmarshalDoc {} headerField n = .ok hd) : get s = hd.kind := by
  rw [unmarshalDoc_ok h, unmarshalDoc_ok hh]
  cases n with
  | map kvs =>
    simp only [decStruct]
    rw [fills_val hF, fills_val fills_header_kind, hz]
  | _ => exact hz

theorem cron_kind : Fills cronField "kind" Cron.kind decString := by
  refine ⟨⟨_, rfl, fun _ _ => rfl⟩, fun k g hk hg n s => ?_⟩
  have h := cron_header k g hg n s
  have hn : headerField k = none ∨ k = "version" ∨ k = "type" := by
    by_cases h1 : k = "version"
    · exact .inr (.inl h1)
    by_cases h2 : k = "type"
    · exact .inr (.inr h2)
    · left
      simp [headerField, List.lookup, beq_eq_false_iff_ne.2 h1, beq_eq_false_iff_ne.2 h2, beq_eq_false_iff_ne.2 hk]
  rcases hn with hn | rfl | rfl
  · rw [hn] at h
    exact congrArg Header.kind h
  · cases hg; rfl
  · cases hg; rfl

theorem secret_kind : Fills secretField "kind" Secret.kind decString :=
  fills_table ⟨_, rfl, fun _ _ => rfl⟩ (by
    repeat refine List.forall_mem_cons.mpr ⟨by first | exact fun h => absurd rfl h | exact fun _ _ _ => rfl, ?_⟩
    exact List.forall_mem_nil _)

theorem signature_kind : Fills signatureField "kind" Signature.kind decString :=
  fills_table ⟨_, rfl, fun _ _ => rfl⟩ (by
    repeat refine List.forall_mem_cons.mpr ⟨by first | exact fun h => absurd rfl h | exact fun _ _ _ => rfl, ?_⟩
    exact List.forall_mem_nil _)

theorem registry_kind : Fills registryField "kind" Registry.kind decString :=
  fills_table ⟨_, rfl, fun _ _ => rfl⟩ (by
    repeat refine List.forall_mem_cons.mpr ⟨by first | exact fun h => absurd rfl h | exact fun _ _ _ => rfl, ?_⟩
    exact List.forall_mem_nil _)

theorem resource_kind {ram : String → Option Int} {t : ResType} {n : Yaml.Node} {r : Resource} {hd : Header}
    (h : unmarshalResource ram t n = .ok r) (hh : unmarshalDoc {} headerField n = .ok hd) : r.getKind = hd.kind := by
  cases t with
  | cron => obtain ⟨a, h1, rfl⟩ := map_ok h; exact kind_agrees cron_kind rfl n h1 hh
  | secret => obtain ⟨a, h1, rfl⟩ := map_ok h; exact kind_agrees secret_kind rfl n h1 hh
  | signature => obtain ⟨a, h1, rfl⟩ := map_ok h; exact kind_agrees signature_kind rfl n h1 hh
  | registry => obtain ⟨a, h1, rfl⟩ := map_ok h; exact kind_agrees registry_kind rfl n h1 hh
  | pipeline => obtain ⟨a, h1, rfl⟩ := map_ok h; exact kind_agrees (fills_Pipeline_kind ram) rfl n h1 hh

/-- Every resource that was parsed has the kind of its type, and can be stored if its settings are
plain. -/
theorem parsed_storable {ram : String → Option Int} (hram : ∀ s i, ram s = some i → Fits64 i) {tree : Bytes → Except String Yaml.Node} {text : Bytes}
    {m : Manifest} (h : parseBytes (treeLib ram tree) text = .ok m) :
    ∀ r ∈ m.resources, OwnKind r ∧ (PlainSettings r → Storable r) := by
  unfold parseBytes parseReader parseRawReader at h
  cases h1 : decodeHeaders (treeLib ram tree) (splitDocs text) with
  | error e => simp [h1] at h
  | ok raws =>
    simp only [h1] at h
    cases h2 : parseAll (treeLib ram tree) raws with
    | error e => simp [h2] at h
    | ok rs =>
      simp only [h2, Except.ok.injEq] at h
      subst h
      have f1 := (decodeHeaders_ok_iff _ _ _).1 h1
      have f2 := (parseAll_ok_iff _ _ _).1 h2
      intro r hr
      obtain ⟨raw, hraw, h3, h4⟩ := forall₂_mem_right f2 hr
      obtain ⟨d, _, h5, h6⟩ := forall₂_mem_right f1 hraw
      unfold parseResource at h3
      rw [h5] at h3
      simp only [treeLib] at h3 h6
      cases ht : tree d with
      | error e => rw [ht] at h3; simp [Except.bind] at h3
      | ok n =>
        rw [ht] at h3 h6
        have h3 : unmarshalResource ram (typeOfKind raw.kind) n = .ok r := h3
        have h6 : unmarshalDoc {} headerField n = .ok ⟨raw.version, raw.kind, raw.type⟩ := h6
        have hkind : r.getKind = raw.kind := resource_kind h3 h6
        have htype : r.resType = typeOfKind raw.kind := by
          revert h3
          generalize typeOfKind raw.kind = t
          intro h3
          cases t <;> (obtain ⟨a, _, rfl⟩ := map_ok h3; rfl)
        exact ⟨⟨by rw [hkind, htype], h4⟩, fun hp => (unmarshal_storable hram h3 hp).1⟩

/-- C97.  A file that was parsed is written by `Encode` and parsed again: what is left is
`storedResource` of every resource. -/
theorem C97_parsed_partial (ram : String → Option Int) (hram : ∀ s i, ram s = some i → Fits64 i) (float : Rat → String) (hf : ∀ q, float q ≠ "from_secret")
    (tree : Bytes → Except String Yaml.Node) (emit : Yaml.Node → Bytes) (text : Bytes) (m : Manifest)
    (h : parseBytes (treeLib ram tree) text = .ok m)
    (he : ∀ r ∈ m.resources, Written tree emit (encResource float r))
    (hp : ∀ r ∈ m.resources, PlainSettings r) :
    parseBytes (treeLib ram tree) (encode float emit m) = .ok ⟨m.resources.map storedResource⟩ :=
  C97_encode_partial ram float hf tree emit m he (fun r hr => (parsed_storable hram h r hr).2 (hp r hr))
    fun r hr => (parsed_storable hram h r hr).1

/-! ### Exactly -/

/-- A variable has a value or names a secret, and not both. -/
def Spec.SoundVariable (v : Variable) : Prop := (v.secret = "" ∧ v.value ≠ "") ∨ (v.secret ≠ "" ∧ v.value = "")

/-- A setting has a value that is not empty, whose whole numbers of up to six digits are integers, or
names a secret, and not both. -/
def Spec.SoundParameter (p : Parameter) : Prop :=
  (p.secret = "" ∧ p.value ≠ .null ∧ p.value ≠ .str "" ∧ plainNumbers p.value = p.value) ∨
    (p.secret ≠ "" ∧ p.value = .null)

def Spec.SoundContainer (c : Container) : Prop :=
  (∀ k v, (k, some v) ∈ c.environment → SoundVariable v) ∧ ∀ k p, (k, some p) ∈ c.settings → SoundParameter p

def Spec.SoundResource : Resource → Prop
  | .pipeline p => ∀ c, some c ∈ p.steps ∨ some c ∈ p.services → SoundContainer c
  | _ => True

theorem map_self_iff {α : Type} (f : α → α) (l : List α) : l.map f = l ↔ ∀ x ∈ l, f x = x := by
  induction l with
  | nil => simp
  | cons x l ih => simp [ih]

theorem storedVariable_iff (v : Variable) : storedVariable v = some v ↔ SoundVariable v := by
  obtain ⟨a, b⟩ := v
  unfold storedVariable SoundVariable
  by_cases hb : b = ""
  · by_cases ha : a = "" <;> simp [ha, hb]
  · simp [hb, eq_comm]

theorem storedParameter_iff (p : Parameter) : storedParameter p = some p ↔ SoundParameter p := by
  obtain ⟨a, b⟩ := p
  unfold storedParameter SoundParameter
  by_cases hb : b = ""
  · subst hb
    simp only [ne_eq, not_true_eq_false, if_false, true_and, false_and, or_false]
    split
    · simp
    · simp
    · rename_i h1 h2
      simp only [Option.some.injEq, Parameter.mk.injEq, and_true]
      exact ⟨fun h => ⟨h1, h2, h⟩, fun h => h.2.2⟩
  · simp [hb, eq_comm]

theorem storedContainer_iff (c : Container) : storedContainer c = c ↔ SoundContainer c := by
  have e : storedContainer c = c ↔ (c.environment.map (fun kv => (kv.1, kv.2.bind storedVariable)) = c.environment ∧
      c.settings.map (fun kv => (kv.1, kv.2.bind storedParameter)) = c.settings) := by
    constructor
    · intro h
      exact ⟨congrArg Container.environment h, congrArg Container.settings h⟩
    · rintro ⟨h1, h2⟩
      unfold storedContainer
      rw [h1, h2]
  rw [e, map_self_iff, map_self_iff]
  refine and_congr ⟨fun h k v hv => ?_, fun h kv hkv => ?_⟩ ⟨fun h k v hv => ?_, fun h kv hkv => ?_⟩
  · have := h (k, some v) hv
    simp only [Option.bind_some, Prod.mk.injEq, true_and] at this
    exact (storedVariable_iff v).1 this
  · obtain ⟨k, o⟩ := kv
    cases o with
    | none => rfl
    | some v => simp [(storedVariable_iff v).2 (h k v hkv)]
  · have := h (k, some v) hv
    simp only [Option.bind_some, Prod.mk.injEq, true_and] at this
    exact (storedParameter_iff v).1 this
  · obtain ⟨k, o⟩ := kv
    cases o with
    | none => rfl
    | some v => simp [(storedParameter_iff v).2 (h k v hkv)]

theorem storedContainers_iff (l : List (Option Container)) :
    l.map (Option.map storedContainer) = l ↔ ∀ c, some c ∈ l → SoundContainer c := by
  rw [map_self_iff]
  constructor
  · intro h c hc
    have := h _ hc
    simp only [Option.map_some, Option.some.injEq] at this
    exact (storedContainer_iff c).1 this
  · intro h o ho
    cases o with
    | none => rfl
    | some c => simp [(storedContainer_iff c).2 (h c ho)]

theorem storedResource_iff (r : Resource) : storedResource r = r ↔ SoundResource r := by
  cases r with
  | pipeline p =>
    have e : storedResource (.pipeline p) = .pipeline p ↔ (p.services.map (Option.map storedContainer) = p.services ∧
        p.steps.map (Option.map storedContainer) = p.steps) := by
      simp only [storedResource, Resource.pipeline.injEq]
      constructor
      · intro h
        exact ⟨congrArg Pipeline.services h, congrArg Pipeline.steps h⟩
      · rintro ⟨h1, h2⟩
        unfold storedPipeline
        rw [h1, h2]
    rw [e, storedContainers_iff, storedContainers_iff]
    exact ⟨fun h c hc => hc.elim (h.2 c) (h.1 c), fun h => ⟨fun c hc => h c (.inr hc), fun c hc => h c (.inl hc)⟩⟩
  | _ => simp [storedResource, SoundResource]

/-- C97.  The manifest is read back as it was exactly if all variables and settings are sound. -/
theorem C97_same_iff (ram : String → Option Int) (float : Rat → String) (hf : ∀ q, float q ≠ "from_secret")
    (tree : Bytes → Except String Yaml.Node) (emit : Yaml.Node → Bytes) (m : Manifest)
    (he : ∀ r ∈ m.resources, Written tree emit (encResource float r))
    (hs : ∀ r ∈ m.resources, Storable r) (hk : ∀ r ∈ m.resources, OwnKind r) :
    parseBytes (treeLib ram tree) (encode float emit m) = .ok m ↔ ∀ r ∈ m.resources, SoundResource r := by
  rw [C97_encode_partial ram float hf tree emit m he hs hk]
  obtain ⟨rs⟩ := m
  simp only [Except.ok.injEq, Manifest.mk.injEq, map_self_iff, storedResource_iff]

/-! ### Formatting what was stored -/

/-- A variable or setting with nothing in it. -/
def Spec.EmptyEntry (c : Container) : Prop :=
  (∃ k v, (k, some v) ∈ c.environment ∧ v.value = "" ∧ v.secret = "") ∨
    ∃ k p, (k, some p) ∈ c.settings ∧ p.secret = "" ∧ (p.value = .null ∨ p.value = .str "")

theorem storedVariable_none (v : Variable) : storedVariable v = none ↔ v.value = "" ∧ v.secret = "" := by
  obtain ⟨a, b⟩ := v
  unfold storedVariable
  by_cases hb : b = "" <;> by_cases ha : a = "" <;> simp [ha, hb]

theorem storedParameter_none (p : Parameter) :
    storedParameter p = none ↔ p.secret = "" ∧ (p.value = .null ∨ p.value = .str "") := by
  obtain ⟨a, b⟩ := p
  unfold storedParameter
  by_cases hb : b = ""
  · subst hb
    simp only [ne_eq, not_true_eq_false, if_false, true_and]
    split
    · simp
    · simp
    · rename_i h1 h2
      simp only [reduceCtorEq, false_iff, not_or]
      exact ⟨h1, h2⟩
  · simp [hb]

theorem noNil_stored (c : Container) (h : NoNilContainer c) : NoNilContainer (storedContainer c) ↔ ¬ EmptyEntry c := by
  constructor
  · rintro h' (⟨k, v, h1, h2⟩ | ⟨k, p, h1, h2⟩)
    · refine h'.environment _ (List.mem_map_of_mem h1) ?_
      exact (storedVariable_none v).2 h2
    · refine h'.settings _ (List.mem_map_of_mem h1) ?_
      exact (storedParameter_none p).2 h2
  · intro hn
    refine ⟨fun kv hkv hc => ?_, fun kv hkv hc => ?_, h.devices, h.ports, h.volumes⟩
    · obtain ⟨⟨k, o⟩, h1, rfl⟩ := List.mem_map.1 hkv
      cases o with
      | none => exact h.settings _ h1 rfl
      | some p => exact hn (.inr ⟨k, p, h1, (storedParameter_none p).1 hc⟩)
    · obtain ⟨⟨k, o⟩, h1, rfl⟩ := List.mem_map.1 hkv
      cases o with
      | none => exact h.environment _ h1 rfl
      | some v => exact hn (.inl ⟨k, v, h1, (storedVariable_none v).1 hc⟩)

theorem storedContainers_mem {l : List (Option Container)} {c : Container}
    (h : some c ∈ l.map (Option.map storedContainer)) : ∃ c', some c' ∈ l ∧ c = storedContainer c' := by
  obtain ⟨o, h1, h2⟩ := List.mem_map.1 h
  cases o with
  | none => simp at h2
  | some c' => simp only [Option.map_some, Option.some.injEq] at h2; exact ⟨c', h1, h2.symm⟩

theorem stored_keys {α β : Type} (f : α → β) (m : GoMap α) : GoMap.keys (m.map fun kv => (kv.1, f kv.2)) = m.keys := by
  simp [GoMap.keys, Function.comp_def]

theorem goMaps_stored {p : Pipeline} (h : GoMaps p) : GoMaps (storedPipeline p) := by
  intro c hc
  have key : ∃ c', (some c' ∈ p.steps ∨ some c' ∈ p.services) ∧ c = storedContainer c' := by
    rcases hc with hc | hc
    · obtain ⟨c', h1, h2⟩ := storedContainers_mem hc
      exact ⟨c', .inl h1, h2⟩
    · obtain ⟨c', h1, h2⟩ := storedContainers_mem hc
      exact ⟨c', .inr h1, h2⟩
  obtain ⟨c', h1, rfl⟩ := key
  obtain ⟨h2, h3⟩ := h c' h1
  have e1 : GoMap.keys (storedContainer c').settings = c'.settings.keys :=
    stored_keys (fun o : Option Parameter => o.bind storedParameter) c'.settings
  have e2 : GoMap.keys (storedContainer c').environment = c'.environment.keys :=
    stored_keys (fun o : Option Variable => o.bind storedVariable) c'.environment
  exact ⟨e1 ▸ h2, e2 ▸ h3⟩

/-- C97.  A file that could be formatted cannot be formatted after `Encode` exactly if a step or
service has an empty variable or setting: the printer panics. -/
theorem C97_format_panics_iff (ram : String → Option Int) (float : Rat → String) (hf : ∀ q, float q ≠ "from_secret")
    (tree : Bytes → Except String Yaml.Node) (emit : Yaml.Node → Bytes) (L : Pretty.PrettyLib) (m : Manifest)
    (he : ∀ r ∈ m.resources, Written tree emit (encResource float r))
    (hs : ∀ r ∈ m.resources, Storable r) (hk : ∀ r ∈ m.resources, OwnKind r) (hp : Pretty.print L m ≠ none) :
    (∃ m', parseBytes (treeLib ram tree) (encode float emit m) = .ok m' ∧ Pretty.print L m' = none) ↔
      ∃ p, Resource.pipeline p ∈ m.resources ∧ ∃ c, (some c ∈ p.steps ∨ some c ∈ p.services) ∧ EmptyEntry c := by
  have hg : ∀ p, Resource.pipeline p ∈ m.resources → GoMaps p := by
    intro p hp c hc
    have h := hs _ hp
    rcases hc with hc | hc
    · exact ⟨(h.steps c hc).settings, (h.steps c hc).environment⟩
    · exact ⟨(h.services c hc).settings, (h.services c hc).environment⟩
  have hn : ∀ p, Resource.pipeline p ∈ m.resources → NoNilPipeline p := by
    intro p hm
    by_contra hc
    exact hp ((C69_panic L m hg).2 ⟨p, hm, hc⟩)
  have hmem : ∀ p, Resource.pipeline p ∈ m.resources.map storedResource ↔
      ∃ p', Resource.pipeline p' ∈ m.resources ∧ p = storedPipeline p' := by
    intro p
    rw [List.mem_map]
    constructor
    · rintro ⟨r, h1, h2⟩
      cases r with
      | pipeline p' => simp only [storedResource, Resource.pipeline.injEq] at h2; exact ⟨p', h1, h2.symm⟩
      | _ => simp [storedResource] at h2
    · rintro ⟨p', h1, rfl⟩
      exact ⟨_, h1, rfl⟩
  rw [C97_encode_partial ram float hf tree emit m he hs hk]
  simp only [Except.ok.injEq, exists_eq_left']
  rw [C69_panic L ⟨m.resources.map storedResource⟩]
  · constructor
    · rintro ⟨p, h1, h2⟩
      obtain ⟨p', h3, rfl⟩ := (hmem p).1 h1
      refine ⟨p', h3, ?_⟩
      by_contra hc
      push Not at hc
      refine h2 ⟨fun c hc' => ?_, fun c hc' => ?_, (hn p' h3).volumes⟩
      · obtain ⟨c', h4, rfl⟩ := storedContainers_mem hc'
        exact (noNil_stored c' ((hn p' h3).steps c' h4)).2 (hc c' (.inl h4))
      · obtain ⟨c', h4, rfl⟩ := storedContainers_mem hc'
        exact (noNil_stored c' ((hn p' h3).services c' h4)).2 (hc c' (.inr h4))
    · rintro ⟨p, h1, c, h2, h3⟩
      refine ⟨storedPipeline p, (hmem _).2 ⟨p, h1, rfl⟩, fun hc => ?_⟩
      rcases h2 with h2 | h2
      · exact (noNil_stored c ((hn p h1).steps c h2)).1 (hc.steps _ (List.mem_map.2 ⟨_, h2, rfl⟩)) h3
      · exact (noNil_stored c ((hn p h1).services c h2)).1 (hc.services _ (List.mem_map.2 ⟨_, h2, rfl⟩)) h3
  · intro p h1
    obtain ⟨p', h3, rfl⟩ := (hmem p).1 h1
    exact goMaps_stored (hg p' h3)

/-! ### A case -/

/-- A pipeline whose step has a variable, a reference to a secret and an empty variable. -/
def exStored : Manifest :=
  ⟨[.cron { kind := "cron", name := "nightly", schedule := "@daily" },
    .pipeline { kind := "pipeline", name := "p", steps := [some
    { name := "a", image := "golang",
      environment := [("A", some { value := "1" }), ("B", some { secret := "token" }), ("C", some {})],
      settings := [("n", some { value := .float 2 })] }] }]⟩

/-- A library that writes these two documents. -/
def exEmit (n : Yaml.Node) : Bytes :=
  match n with
  | .map (_ :: (_, .scalar "cron" _) :: _) => unlines [utf8 "kind: cron", utf8 "name: nightly"]
  | _ => unlines [utf8 "kind: pipeline", utf8 "name: p"]
def exStoredFloat (q : Rat) : String := toString q.num
def exTree (b : Bytes) : Except String Yaml.Node :=
  if b = unlines [utf8 "kind: cron", utf8 "name: nightly"] then
    .ok (encResource (fun _ => "2") (.cron { kind := "cron", name := "nightly", schedule := "@daily" }))
  else .ok (match exStored.resources with | [_, r] => encResource (fun _ => "2") r | _ => .null)

theorem exStored_written : ∀ r ∈ exStored.resources, Written exTree exEmit (encResource (fun _ => "2") r) := by
  simp only [exStored, List.forall_mem_cons]
  refine ⟨⟨⟨[utf8 "kind: cron", utf8 "name: nightly"], by simp, rfl, ?_⟩, rfl⟩,
    ⟨⟨[utf8 "kind: pipeline", utf8 "name: p"], by simp, rfl, ?_⟩, rfl⟩, by simp⟩
  · simp only [List.forall_mem_cons]
    refine ⟨⟨by decide, by decide, by decide, ?_, ?_⟩, ⟨by decide, by decide, by decide, ?_, ?_⟩, by simp⟩ <;>
      (first | rw [← isSeparator_iff] | rw [← isTerminator_iff]) <;> decide
  · simp only [List.forall_mem_cons]
    refine ⟨⟨by decide, by decide, by decide, ?_, ?_⟩, ⟨by decide, by decide, by decide, ?_, ?_⟩, by simp⟩ <;>
      (first | rw [← isSeparator_iff] | rw [← isTerminator_iff]) <;> decide

theorem exStored_storable : ∀ r ∈ exStored.resources, Storable r := by
  simp only [exStored, List.forall_mem_cons]
  refine ⟨trivial, ⟨List.nodup_nil, by simp, ?_, List.nodup_nil, by decide, by decide, by simp⟩, by simp⟩
  intro c hc
  simp only [List.mem_singleton, Option.some.injEq] at hc
  subst hc
  refine ⟨by simp, by decide, by decide, ?_, List.nodup_nil, by simp, by simp⟩
  intro k p hp _
  simp only [List.mem_singleton, Prod.mk.injEq, Option.some.injEq] at hp
  obtain ⟨rfl, rfl⟩ := hp
  exact ⟨trivial, by rintro ⟨_, _, h, _⟩; simp at h⟩

theorem exStored_kinds : ∀ r ∈ exStored.resources, OwnKind r := by
  simp only [exStored, List.forall_mem_cons]
  exact ⟨⟨by decide, by decide⟩, ⟨by decide, by decide⟩, by simp⟩

example : parseBytes (treeLib (fun _ => none) exTree) (encode (fun _ => "2") exEmit exStored) =
    .ok ⟨exStored.resources.map storedResource⟩ :=
  C97_encode_partial _ _ (by simp) _ _ _ exStored_written exStored_storable exStored_kinds

/-- The empty variable is null afterwards, and the number an integer. -/
example : exStored.resources.map storedResource =
  [.cron { kind := "cron", name := "nightly", schedule := "@daily" },
    .pipeline { kind := "pipeline", name := "p", steps := [some
    { name := "a", image := "golang",
      environment := [("A", some { value := "1" }), ("B", some { secret := "token" }), ("C", none)],
      settings := [("n", some { value := .int 2 })] }] }] := by
  rfl

theorem exStored_prints : Pretty.print exPretty exStored ≠ none := by
  have hp : ∀ p, Resource.pipeline p ∈ exStored.resources → NoNilPipeline p ∧ GoMaps p := by
    intro p hp
    simp only [exStored, List.mem_cons, reduceCtorEq, false_or, Resource.pipeline.injEq, List.not_mem_nil,
      or_false] at hp
    subst hp
    refine ⟨⟨fun c h => ?_, by simp, by simp⟩, fun c h => ?_⟩
    · have := Option.some.inj (List.mem_singleton.1 h)
      subst this
      exact ⟨by simp, by simp, by simp, by simp, by simp⟩
    · have := Option.some.inj (List.mem_singleton.1 (h.resolve_right (by simp)))
      subst this
      exact ⟨by decide, by decide⟩
  intro h
  obtain ⟨p, h1, h2⟩ := (C69_panic exPretty exStored fun p h => (hp p h).2).1 h
  exact h2 (hp p h1).1

/-- It could be formatted, and cannot be any more. -/
theorem C97_unformattable : Pretty.print exPretty exStored ≠ none ∧
    ∃ m', parseBytes (treeLib (fun _ => none) exTree) (encode (fun _ => "2") exEmit exStored) = .ok m' ∧
      Pretty.print exPretty m' = none := by
  have h := exStored_prints
  refine ⟨h, (C97_format_panics_iff _ _ (by simp) _ _ _ _ exStored_written exStored_storable exStored_kinds h).2 ?_⟩
  refine ⟨_, List.mem_cons_of_mem _ List.mem_cons_self, _, .inl List.mem_cons_self, .inl ⟨"C", {}, ?_, rfl, rfl⟩⟩
  simp

/-- A file with sound variables and settings comes back. -/
def exSound : Manifest :=
  ⟨[.pipeline { kind := "pipeline", name := "p", steps := [some
    { name := "a", image := "golang",
      environment := [("A", some { value := "1" }), ("B", some { secret := "token" })],
      settings := [("n", some { value := .int 2 })] }] }]⟩
def exSoundTree (_ : Bytes) : Except String Yaml.Node :=
  .ok (match exSound.resources with | [r] => encResource (fun _ => "2") r | _ => .null)

theorem exSound_written : ∀ r ∈ exSound.resources, Written exSoundTree exEmit (encResource (fun _ => "2") r) := by
  simp only [exSound, List.forall_mem_cons]
  refine ⟨⟨⟨[utf8 "kind: pipeline", utf8 "name: p"], by simp, rfl, ?_⟩, rfl⟩, by simp⟩
  simp only [List.forall_mem_cons]
  refine ⟨⟨by decide, by decide, by decide, ?_, ?_⟩, ⟨by decide, by decide, by decide, ?_, ?_⟩, by simp⟩ <;>
    (first | rw [← isSeparator_iff] | rw [← isTerminator_iff]) <;> decide

theorem exSound_settings : ∀ r ∈ exSound.resources, PlainSettings r := by
  simp only [exSound, List.forall_mem_cons]
  refine ⟨?_, by simp⟩
  intro c hc
  have := Option.some.inj (List.mem_singleton.1 (hc.resolve_right (by simp)))
  subst this
  intro k p hp _
  simp only [List.mem_singleton, Prod.mk.injEq, Option.some.injEq] at hp
  obtain ⟨rfl, rfl⟩ := hp
  exact ⟨trivial, by rintro ⟨_, _, h, _⟩; simp at h⟩

theorem exSound_parsed : parseBytes (treeLib (fun _ => none) exSoundTree) (utf8 "x\n") = .ok exSound := by rfl

example : parseBytes (treeLib (fun _ => none) exSoundTree) (encode (fun _ => "2") exEmit exSound) = .ok exSound :=
  C97_parsed_partial _ (by simp) _ (by simp) _ _ _ _ exSound_parsed exSound_written exSound_settings

end Drone
