/-
C53: printing does not depend on the iteration order of maps.
-/
import Mathlib.Data.List.Perm.Basic
import Mathlib.Data.List.Nodup
import Mathlib.Data.String.Basic
import Verif.Proof.GoMap
import Verif.Props.Pretty

namespace Drone
open Pretty

namespace Spec

mutual
/-- The same value, with the entries of every map in any order.  Keys of a map are
distinct. -/
inductive SameValue : Value → Value → Prop
  | null : SameValue .null .null
  | bool (b) : SameValue (.bool b) (.bool b)
  | int (i) : SameValue (.int i) (.int i)
  | float (q) : SameValue (.float q) (.float q)
  | str (s) : SameValue (.str s) (.str s)
  | seq {xs ys} : SameValues xs ys → SameValue (.seq xs) (.seq ys)
  | map {xs ys zs} : SameEntries xs ys → ys.Perm zs → (xs.map Prod.fst).Nodup →
      SameValue (.map xs) (.map zs)

/-- Element by element. -/
inductive SameValues : List Value → List Value → Prop
  | nil : SameValues [] []
  | cons {x y xs ys} : SameValue x y → SameValues xs ys → SameValues (x :: xs) (y :: ys)

/-- The same keys in the same order with the same values. -/
inductive SameEntries : List (Value × Value) → List (Value × Value) → Prop
  | nil : SameEntries [] []
  | cons {k x y xs ys} : SameValue x y → SameEntries xs ys → SameEntries ((k, x) :: xs) ((k, y) :: ys)
end

/-- A map in another order. -/
def SameMap {α : Type} (m m' : GoMap α) : Prop := m.Perm m' ∧ m.keys.Nodup

/-- Settings in another order, with values in another order. -/
def SameSettings (m m' : GoMap (Option Parameter)) : Prop :=
  ∃ mid : GoMap (Option Parameter), List.Forall₂ (fun a b => a.1 = b.1 ∧ (a.2 = b.2 ∨
    ∃ p q, a.2 = some p ∧ b.2 = some q ∧ p.secret = q.secret ∧ SameValue p.value q.value)) m mid ∧
    mid.Perm m' ∧ m.keys.Nodup

/-- A build section with its maps in another order. -/
def SameBuild (b b' : Build) : Prop :=
  ∃ args labels, SameMap b.args args ∧ SameMap b.labels labels ∧
    b' = { b with args := args, labels := labels }

/-- A container with its maps in another order. -/
def SameContainer (c c' : Container) : Prop :=
  ∃ (build : Option Build) (env : GoMap (Option Variable)) (settings : GoMap (Option Parameter))
    (matrix : GoMap String),
    Option.Rel SameBuild c.build build ∧ SameMap c.environment env ∧ SameSettings c.settings settings ∧
    SameMap c.cond.matrix matrix ∧
    c' = { c with build := build, environment := env, settings := settings,
                  cond := { c.cond with matrix := matrix } }

/-- A pipeline with its maps in another order. -/
def SamePipeline (p p' : Pipeline) : Prop :=
  ∃ (node : GoMap String) (steps services : List (Option Container)) (matrix : GoMap String),
    SameMap p.node node ∧ List.Forall₂ (Option.Rel SameContainer) p.steps steps ∧
    List.Forall₂ (Option.Rel SameContainer) p.services services ∧ SameMap p.trigger.matrix matrix ∧
    p' = { p with node := node, steps := steps, services := services,
                  trigger := { p.trigger with matrix := matrix } }

/-- A resource with its maps in another order. -/
inductive SameResource : Resource → Resource → Prop
  | cron (c) : SameResource (.cron c) (.cron c)
  | secret (s) : SameResource (.secret s) (.secret s)
  | signature (s) : SameResource (.signature s) (.signature s)
  | registry (r data) : SameMap r.data data → SameResource (.registry r) (.registry { r with data := data })
  | pipeline {p p'} : SamePipeline p p' → SameResource (.pipeline p) (.pipeline p')

end Spec

open Spec

namespace Pretty

/-! ### Sorting -/

theorem insertString_perm (s : String) (l : List String) : (insertString s l).Perm (s :: l) := by
  induction l with
  | nil => exact .refl _
  | cons t ts ih =>
    unfold insertString
    split
    · exact .refl _
    · exact (List.Perm.cons t ih).trans (List.Perm.swap s t ts)

theorem sortStrings_perm (l : List String) : (sortStrings l).Perm l := by
  induction l with
  | nil => exact .refl _
  | cons s l ih => exact (insertString_perm s _).trans (List.Perm.cons s ih)

theorem insertString_sorted (s : String) (l : List String) (h : l.Pairwise (· ≤ ·)) :
    (insertString s l).Pairwise (· ≤ ·) := by
  induction l with
  | nil => exact List.pairwise_singleton _ _
  | cons t ts ih =>
    obtain ⟨h1, h2⟩ := List.pairwise_cons.1 h
    unfold insertString
    split
    · rename_i hs
      refine List.pairwise_cons.2 ⟨fun x hx => ?_, h⟩
      rcases List.mem_cons.1 hx with rfl | hx
      · exact hs
      · exact le_trans hs (h1 x hx)
    · rename_i hs
      refine List.pairwise_cons.2 ⟨fun x hx => ?_, ih h2⟩
      rcases List.mem_cons.1 ((insertString_perm s ts).mem_iff.1 hx) with rfl | hx
      · exact le_of_not_ge hs
      · exact h1 x hx

theorem sortStrings_sorted (l : List String) : (sortStrings l).Pairwise (· ≤ ·) := by
  induction l with
  | nil => exact List.Pairwise.nil
  | cons s l ih => exact insertString_sorted s _ ih

/-- Two orders of the same strings are sorted to the same list. -/
theorem sortStrings_congr {l l' : List String} (h : l.Perm l') : sortStrings l = sortStrings l' :=
  List.Perm.eq_of_pairwise (fun _ _ _ _ h1 h2 => le_antisymm h1 h2) (sortStrings_sorted l) (sortStrings_sorted l')
    (((sortStrings_perm l).trans h).trans (sortStrings_perm l').symm)

/-! ### Maps -/

theorem sameMap_get? {α : Type} {m m' : GoMap α} (h : SameMap m m') (k : String) : m.get? k = m'.get? k :=
  GoMap.keys_perm_get? h.1 h.2 k

theorem sameMap_keys {α : Type} {m m' : GoMap α} (h : SameMap m m') : sortStrings m.keys = sortStrings m'.keys :=
  sortStrings_congr (h.1.map _)

theorem sameMap_length {α : Type} {m m' : GoMap α} (h : SameMap m m') : m.length = m'.length := h.1.length_eq

theorem mapStrLoop_congr (L : PrettyLib) {m m' : GoMap String} (h : ∀ k, m.get? k = m'.get? k) (b : Bool)
    (w : Writer) (l : List String) : mapStrLoop L m b w l = mapStrLoop L m' b w l := by
  induction l generalizing b w with
  | nil => rfl
  | cons k ks ih => unfold mapStrLoop; rw [h k]; exact ih _ _

theorem writeMappingStr_congr (L : PrettyLib) {m m' : GoMap String} (h : SameMap m m') (w : Writer) :
    writeMappingStr L w m = writeMappingStr L w m' := by
  unfold writeMappingStr
  rw [sameMap_length h, sameMap_keys h, mapStrLoop_congr L (sameMap_get? h)]

theorem writeTagMap_congr (L : PrettyLib) {m m' : GoMap String} (h : SameMap m m') (w : Writer) (k : String) :
    writeTagValue L w k (.strMap m) = writeTagValue L w k (.strMap m') := by
  have hz : isZero (.strMap m) = isZero (.strMap m') := by simp only [isZero, sameMap_length h]
  unfold writeTagValue
  rw [hz]
  simp only [writeValue, writeMappingStr_congr L h, isPrimative, isSlice]
  congr

/-! ### Values -/

theorem mapLoop_congr (L : PrettyLib) {es es' : GoMap (Writer → Writer)} (h : ∀ k, es.get? k = es'.get? k)
    (b : Bool) (w : Writer) (l : List String) : mapLoop L es b w l = mapLoop L es' b w l := by
  induction l generalizing b w with
  | nil => rfl
  | cons k ks ih => unfold mapLoop; rw [h k]; exact ih _ _

/-- The entries found under string keys. -/
def entryOf (L : PrettyLib) (kv : Value × Value) : Option (String × (Writer → Writer)) :=
  match kv.1 with
  | .str k => some (k, mapEntry kv.2 (writeVal L kv.2))
  | _ => none

theorem mapEntries_eq (L : PrettyLib) (kvs : List (Value × Value)) :
    mapEntries L kvs = kvs.filterMap (entryOf L) := by
  induction kvs with
  | nil => simp [mapEntries]
  | cons kv kvs ih =>
    obtain ⟨k, v⟩ := kv
    cases k <;> simp only [mapEntries, ih, List.filterMap_cons, entryOf]

theorem entries_keys (L : PrettyLib) (kvs : List (Value × Value)) (h : (kvs.map Prod.fst).Nodup) :
    (GoMap.keys (mapEntries L kvs)).Nodup := by
  have : (GoMap.keys (mapEntries L kvs)).map Value.str = (kvs.map Prod.fst).filter
      (fun v => match v with | .str _ => true | _ => false) := by
    induction kvs with
    | nil => simp [mapEntries, GoMap.keys]
    | cons kv kvs ih =>
      have ih := ih (List.nodup_cons.1 h).2
      obtain ⟨k, v⟩ := kv
      cases k <;> simp only [mapEntries, GoMap.keys, List.map_cons, List.filter_cons] at ih ⊢ <;> simp [ih]
  have h2 := h.filter (fun v => match v with | .str _ => true | _ => false)
  rw [← this] at h2
  exact List.Nodup.of_map _ h2

theorem SameEntries.keys {xs ys : List (Value × Value)} (h : SameEntries xs ys) :
    xs.map Prod.fst = ys.map Prod.fst := by
  induction xs generalizing ys with
  | nil => cases h; rfl
  | cons x xs ih =>
    cases h with
    | cons h1 h2 => simp [ih h2]

theorem SameValues.length {xs ys : List Value} (h : SameValues xs ys) : xs.length = ys.length := by
  induction xs generalizing ys with
  | nil => cases h; rfl
  | cons x xs ih =>
    cases h with
    | cons h1 h2 => simp [ih h2]

theorem SameEntries.length {xs ys : List (Value × Value)} (h : SameEntries xs ys) :
    xs.length = ys.length := by
  have := congrArg List.length (SameEntries.keys h)
  simpa using this

theorem SameValue.shape {v v' : Value} (h : SameValue v v') :
    isPrimValue v = isPrimValue v' ∧ isSliceValue v = isSliceValue v' ∧ isZeroValue v = isZeroValue v' ∧
    (v = .null ↔ v' = .null) := by
  cases h with
  | seq h => simp [isPrimValue, isSliceValue, isZeroValue, SameValues.length h]
  | map h1 h2 h3 =>
    simp [isPrimValue, isSliceValue, isZeroValue, SameEntries.length h1, h2.length_eq]
  | _ => simp

theorem mapEntry_congr {v v' : Value} (h : SameValue v v') (f : Writer → Writer) :
    mapEntry v f = mapEntry v' f := by
  funext w
  cases h with
  | seq h => simp [mapEntry, isPrimValue, isSliceValue, isZeroValue, SameValues.length h]
  | map h1 h2 h3 =>
    simp [mapEntry, isPrimValue, isSliceValue, isZeroValue, SameEntries.length h1, h2.length_eq]
  | _ => rfl

mutual
theorem writeVal_congr (L : PrettyLib) (v v' : Value) (h : SameValue v v') : writeVal L v = writeVal L v' := by
  cases v with
  | seq xs =>
    cases h with
    | seq h =>
      funext w
      simp only [writeVal, writeSeq_congr L xs _ h true, SameValues.length h]
  | map kvs =>
    cases h with
    | @map xs ys zs h1 h2 h3 =>
      funext w
      have hk : (kvs.map fun kv => keyText L kv.1) = (ys.map fun kv => keyText L kv.1) := by
        have := congrArg (List.map (keyText L)) (SameEntries.keys h1)
        simpa [List.map_map, Function.comp_def] using this
      have he := mapEntries_congr L kvs _ h1
      have hn : (ys.map Prod.fst).Nodup := by rw [← SameEntries.keys h1]; exact h3
      have hg : ∀ k, (mapEntries L ys).get? k = (mapEntries L zs).get? k := by
        intro k
        refine GoMap.keys_perm_get? ?_ (entries_keys L ys hn) k
        rw [mapEntries_eq, mapEntries_eq]
        exact h2.filterMap _
      simp only [writeVal, he, hk, SameEntries.length h1, h2.length_eq, sortStrings_congr (h2.map _)]
      rw [mapLoop_congr L hg]
  | _ => cases h; rfl

theorem writeSeq_congr (L : PrettyLib) (xs ys : List Value) (h : SameValues xs ys) :
    ∀ b, writeSeq L b xs = writeSeq L b ys := by
  intro b
  cases xs with
  | nil => cases h; rfl
  | cons x xs =>
    cases h with
    | cons h1 h2 =>
      funext w
      simp only [writeSeq, writeVal_congr L x _ h1, writeSeq_congr L xs _ h2 false]

theorem mapEntries_congr (L : PrettyLib) (xs ys : List (Value × Value)) (h : SameEntries xs ys) :
    mapEntries L xs = mapEntries L ys := by
  cases xs with
  | nil => cases h; rfl
  | cons x xs =>
    cases h with
    | @cons k x y xs ys h1 h2 =>
      cases k <;>
        simp only [mapEntries, mapEntries_congr L xs _ h2, mapEntry_congr h1, writeVal_congr L x _ h1]
end

theorem writeTagVal_congr (L : PrettyLib) {v v' : Value} (h : SameValue v v') (w : Writer) (k : String) :
    writeTagValue L w k (.val v) = writeTagValue L w k (.val v') := by
  obtain ⟨h1, h2, h3, _⟩ := SameValue.shape h
  unfold writeTagValue
  simp only [isZero, isPrimative, isSlice, writeValue, h1, h2, h3, writeVal_congr L v v' h]
  congr

/-! ### Containers -/

theorem printBuild_congr (L : PrettyLib) {b b' : Build} (h : SameBuild b b') (w : Writer) :
    printBuild L w b = printBuild L w b' := by
  obtain ⟨args, labels, h1, h2, rfl⟩ := h
  have hs : shortBuild { b with args := args, labels := labels } = shortBuild b := by
    simp only [shortBuild, sameMap_length h1, sameMap_length h2]
  unfold printBuild
  rw [hs]
  simp only [writeTagMap_congr L h1, writeTagMap_congr L h2]

theorem eachKey_congr {α : Type} {m m' : GoMap (Option α)} {f : Writer → String → α → Writer}
    (h : ∀ k, m.get? k = m'.get? k ∨ ∃ p q, m.get? k = some (some p) ∧ m'.get? k = some (some q) ∧
      ∀ w, f w k p = f w k q) (l : List String) (w : Writer) : eachKey m f l w = eachKey m' f l w := by
  induction l generalizing w with
  | nil => rfl
  | cons k ks ih =>
    unfold eachKey
    rcases h k with h | ⟨p, q, h1, h2, h3⟩
    · rw [h]
      split
      · exact ih _
      · rfl
    · rw [h1, h2]
      dsimp only
      rw [h3 w]
      exact ih _

theorem printEnviron_congr (L : PrettyLib) {m m' : GoMap (Option Variable)} (h : SameMap m m') (w : Writer) :
    printEnviron L w m = printEnviron L w m' := by
  unfold printEnviron
  rw [sameMap_keys h, eachKey_congr fun k => .inl (sameMap_get? h k)]

theorem forall₂_get? {α : Type} {R : α → α → Prop} {m mid : GoMap α}
    (h : List.Forall₂ (fun a b => a.1 = b.1 ∧ R a.2 b.2) m mid) (k : String) :
    (m.get? k = none ∧ mid.get? k = none) ∨ ∃ a b, m.get? k = some a ∧ mid.get? k = some b ∧ R a b := by
  induction h with
  | nil => exact .inl ⟨rfl, rfl⟩
  | @cons x y xs ys hxy _ ih =>
    obtain ⟨k1, v1⟩ := x
    obtain ⟨k2, v2⟩ := y
    obtain ⟨h1, h2⟩ := hxy
    dsimp only at h1 h2
    subst h1
    by_cases hk : k = k1
    · subst hk
      exact .inr ⟨v1, v2, by simp [GoMap.get?, List.lookup], by simp [GoMap.get?, List.lookup], h2⟩
    · have hb : (k == k1) = false := by simpa using hk
      simp only [GoMap.get?, List.lookup, hb] at ih ⊢
      exact ih

theorem SameSettings.length {m m' : GoMap (Option Parameter)} (h : SameSettings m m') :
    m.length = m'.length := by
  obtain ⟨mid, h1, h2, _⟩ := h
  rw [h1.length_eq, h2.length_eq]

theorem printSettings_congr (L : PrettyLib) {m m' : GoMap (Option Parameter)} (h : SameSettings m m')
    (w : Writer) : printSettings L w m = printSettings L w m' := by
  obtain ⟨mid, h1, h2, h3⟩ := h
  have hk : m.keys = mid.keys := by
    clear h2 h3
    unfold GoMap.keys
    induction h1 with
    | nil => rfl
    | cons hab _ ih => simp [hab.1, ih]
  have h4 : SameMap mid m' := ⟨h2, hk ▸ h3⟩
  unfold printSettings
  rw [hk, sameMap_keys h4]
  congr 1
  refine eachKey_congr (fun k => ?_) _ _
  rw [← sameMap_get? h4 k]
  rcases forall₂_get? (R := fun (a b : Option Parameter) => a = b ∨ ∃ p q, a = some p ∧ b = some q ∧ p.secret = q.secret ∧
    SameValue p.value q.value) h1 k with ⟨e1, e2⟩ | ⟨a, b, e1, e2, hab⟩
  · exact .inl (e1.trans e2.symm)
  · rcases hab with rfl | ⟨p, q, rfl, rfl, hs, hv⟩
    · exact .inl (e1.trans e2.symm)
    · refine .inr ⟨p, q, e1, e2, fun w => ?_⟩
      rw [hs, writeTagVal_congr L hv]

theorem ifSome_congr {α : Type} {R : α → α → Prop} {o o' : Option α} {f : Writer → α → Writer}
    (h : Option.Rel R o o') (hf : ∀ a b, R a b → ∀ w, f w a = f w b) (w : Writer) :
    ifSome o f w = ifSome o' f w := by
  cases h with
  | none => rfl
  | some h => exact hf _ _ h w

theorem isConditionsEmpty_matrix (c : Conditions) (m : GoMap String) :
    isConditionsEmpty { c with matrix := m } = isConditionsEmpty c := rfl

theorem printConditions_matrix (L : PrettyLib) (w : Writer) (k : String) (c : Conditions) (m : GoMap String) :
    printConditions L w k { c with matrix := m } = printConditions L w k c := rfl

theorem printContainer_congr (L : PrettyLib) {c c' : Container} (h : SameContainer c c') (w : Writer) :
    printContainer L w c = printContainer L w c' := by
  obtain ⟨build, env, settings, matrix, h1, h2, h3, _, rfl⟩ := h
  have e1 := ifSome_congr h1 (fun a b hab w => printBuild_congr L hab w)
  have e2 := fun w => printEnviron_congr L h2 w
  have e3 := fun w => printSettings_congr L h3 w
  unfold printContainer
  simp only [e1, e2, e3, sameMap_length h2, SameSettings.length h3, printConditions_matrix, isConditionsEmpty_matrix]
  rfl

theorem printContainers_congr (L : PrettyLib) {l l' : List (Option Container)}
    (h : List.Forall₂ (Option.Rel SameContainer) l l') (w : Writer) :
    printContainers L l w = printContainers L l' w := by
  induction h generalizing w with
  | nil => rfl
  | cons hab _ ih =>
    cases hab with
    | none => exact ih w
    | some hab =>
      unfold printContainers
      simp only [printContainer_congr L hab]
      congr 1
      funext w
      exact ih w

theorem printPipeline_congr (L : PrettyLib) {p p' : Pipeline} (h : SamePipeline p p') (w : Writer) :
    printPipeline L w p = printPipeline L w p' := by
  obtain ⟨node, steps, services, matrix, h1, h2, h3, _, rfl⟩ := h
  unfold printPipeline
  simp only [fun w => printContainers_congr L h2 w, fun w => printContainers_congr L h3 w, sameMap_length h1,
    h2.length_eq, h3.length_eq, fun w k => writeTagMap_congr L h1 w k, printConditions_matrix,
    isConditionsEmpty_matrix]

end Pretty

/-- C53: two manifests that differ in the order of map entries only are printed alike. -/
theorem C53_order (L : PrettyLib) (m m' : Manifest)
    (h : List.Forall₂ SameResource m.resources m'.resources) : print L m = print L m' := by
  have key : ∀ rs rs' w, List.Forall₂ SameResource rs rs' → printLoop L rs w = printLoop L rs' w := by
    intro rs rs' w h
    induction h generalizing w with
    | nil => rfl
    | cons hab _ ih =>
      unfold printLoop
      have : ∀ {a b}, SameResource a b → printResource L w a = printResource L w b := by
        intro a b hab
        cases hab with
        | pipeline hp => exact printPipeline_congr L hp w
        | _ => rfl
      rw [this hab]
      congr 1
      funext w
      exact ih w
  unfold print
  rw [key _ _ _ h]

/-- A step with two variables and a nested setting, in two orders. -/
example :
    let v1 : Value := .map [(.str "b", .int 1), (.int 7, .null), (.str "a", .map [(.str "y", .null), (.str "x", .bool true)])]
    let v2 : Value := .map [(.str "a", .map [(.str "x", .bool true), (.str "y", .null)]), (.str "b", .int 1), (.int 7, .null)]
    let c1 : Container := { name := "s", environment := [("B", some { value := "1" }), ("A", some { secret := "k" })], settings := [("k", some { value := v1 })] }
    let c2 : Container := { name := "s", environment := [("A", some { secret := "k" }), ("B", some { value := "1" })], settings := [("k", some { value := v2 })] }
    let m1 : Manifest := ⟨[.pipeline { steps := [some c1], node := [("z", "1"), ("y", "2")] }]⟩
    let m2 : Manifest := ⟨[.pipeline { steps := [some c2], node := [("y", "2"), ("z", "1")] }]⟩
    m1.resources ≠ m2.resources ∧ List.Forall₂ SameResource m1.resources m2.resources := by
  intro v1 v2 c1 c2 m1 m2
  refine ⟨by simp [m1, m2, c1, c2, v1, v2], .cons (.pipeline ?_) .nil⟩
  have hv : SameValue v1 v2 := by
    refine .map (ys := [(.str "b", .int 1), (.int 7, .null), (.str "a", .map [(.str "x", .bool true), (.str "y", .null)])])
      (.cons (.int 1) (.cons .null (.cons ?_ .nil))) ?_ (by simp)
    · exact .map (.cons .null (.cons (.bool true) .nil)) (.swap _ _ _) (by simp)
    · exact List.perm_append_comm (l₁ := [_, _]) (l₂ := [_])
  have hc : SameContainer c1 c2 := by
    refine ⟨none, _, _, [], .none, ⟨.swap _ _ _, by decide⟩, ?_, ⟨.refl _, by decide⟩, rfl⟩
    exact ⟨[("k", some { value := v2 })], .cons ⟨rfl, .inr ⟨_, _, rfl, rfl, rfl, hv⟩⟩ .nil, .refl _, by decide⟩
  exact ⟨_, _, _, [], ⟨.swap _ _ _, by decide⟩, .cons (.some hc) .nil, .nil, ⟨.refl _, by decide⟩, rfl⟩

end Drone
