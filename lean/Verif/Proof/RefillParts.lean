/-
What is decoded from the parts of a container and pipeline the printer writes.
-/
import Mathlib.Tactic.Common
import Verif.Proof.Refill
import Verif.Spec.Kept

namespace Drone
open Spec Yaml Pretty

variable {R : Resolver}

theorem Writer.dec_inc (w : Writer) : w.dec.inc = w := by
  cases w
  simp [Writer.dec, Writer.inc]

/-- A key of the printer. -/
theorem wk (L : PrettyLib) (k : String) (h : Word k := by decide) : ReadableKey R L k := Word.key L h

section
variable {σ : Type} {F : String → Option (Field σ)} {d : Nat} {w : Writer} {s : σ} {k : String}

/-! ### Conditions -/

/-- The strings of a condition survive. -/
def CondOk (R : Resolver) (c : Condition) : Prop := (∀ x ∈ c.incl, Readable R x) ∧ ∀ x ∈ c.excl, Readable R x

theorem decCondition_seq {l : List String} (h : ∀ x ∈ l, Readable R x) (o : Condition) :
    decCondition (.seq (l.map (strNode R))) o = { val := { incl := l } } := by
  show Res.mk (unmarshalCondition _ _).1 _ _ = _
  unfold unmarshalCondition
  have h2 : decStrings (.seq (l.map (strNode R))) [] = { val := l } := decElems_strs l h
  simp only [decString, mismatch, h2]
  simp [decInclExcl, decStruct, mismatch]

theorem decCondition_excl {l : List String} (h : ∀ x ∈ l, Readable R x) (o : Condition) :
    decCondition (.map [(strNode R "exclude", .seq (l.map (strNode R)))]) o = { val := { excl := l } } := by
  have h2 : decStrings (.seq (l.map (strNode R))) [] = { val := l } := decElems_strs l h
  have h1 := strNode_dec (R := R) (wk ⟨fun _ => false, fun _ => "", fun _ => "", fun _ => "", by simp, by simp⟩ "exclude").toReadable ""
  have h3 : decInclExcl (.map [(strNode R "exclude", .seq (l.map (strNode R)))]) {} = { val := { excl := l } } := by
    simp only [decInclExcl, decStruct, decFields, h1, if_true]
    rw [show List.lookup "exclude" [("include", field Condition.incl (fun s v => { s with incl := v }) decStrings),
      ("exclude", field Condition.excl (fun s v => { s with excl := v }) decStrings)] =
      some (field Condition.excl (fun s v => { s with excl := v }) decStrings) from rfl]
    simp [field, h2]
  show Res.mk (unmarshalCondition _ _).1 _ _ = _
  unfold unmarshalCondition
  simp only [decString, mismatch, h3]
  simp [decStrings, decSlice, mismatch]

theorem decCondition_both {l m : List String} (hl : ∀ x ∈ l, Readable R x) (hm : ∀ x ∈ m, Readable R x) (o : Condition) :
    decCondition (.map [(strNode R "include", .seq (l.map (strNode R))), (strNode R "exclude", .seq (m.map (strNode R)))]) o
      = { val := { incl := l, excl := m } } := by
  have h2 : decStrings (.seq (l.map (strNode R))) [] = { val := l } := decElems_strs l hl
  have h2' : decStrings (.seq (m.map (strNode R))) [] = { val := m } := decElems_strs m hm
  have h0 := strNode_dec (R := R) (wk ⟨fun _ => false, fun _ => "", fun _ => "", fun _ => "", by simp, by simp⟩ "include").toReadable ""
  have h1 := strNode_dec (R := R) (wk ⟨fun _ => false, fun _ => "", fun _ => "", fun _ => "", by simp, by simp⟩ "exclude").toReadable ""
  have h3 : decInclExcl (.map [(strNode R "include", .seq (l.map (strNode R))),
      (strNode R "exclude", .seq (m.map (strNode R)))]) {} = { val := { incl := l, excl := m } } := by
    simp only [decInclExcl, decStruct, decFields, h0, h1, if_true]
    rw [show List.lookup "exclude" [("include", field Condition.incl (fun s v => { s with incl := v }) decStrings),
      ("exclude", field Condition.excl (fun s v => { s with excl := v }) decStrings)] =
      some (field Condition.excl (fun s v => { s with excl := v }) decStrings) from rfl]
    rw [show List.lookup "include" [("include", field Condition.incl (fun s v => { s with incl := v }) decStrings),
      ("exclude", field Condition.excl (fun s v => { s with excl := v }) decStrings)] =
      some (field Condition.incl (fun s v => { s with incl := v }) decStrings) from rfl]
    simp [field, h2, h2']
  show Res.mk (unmarshalCondition _ _).1 _ _ = _
  unfold unmarshalCondition
  simp only [decString, mismatch, h3]
  simp [decStrings, decSlice, mismatch]

theorem isConditionEmpty_iff (v : Condition) : isConditionEmpty v = true ↔ v = {} := by
  cases v
  simp [isConditionEmpty, and_comm]

theorem cond_fill (L : PrettyLib) {get : σ → Condition} {set : σ → Condition → σ} (hk : ReadableKey R L k)
    (hF : F k = some (field get set decCondition)) {v : Condition} (hv : CondOk R v) (hs : v = {} → set s v = s) :
    Fill R F d w (printConditionIf L w k v) s (set s v) (v ≠ {}) := by
  unfold printConditionIf
  by_cases h : v = {}
  · rw [if_pos ((isConditionEmpty_iff v).2 h)]
    refine Fill.iff (p := False) ?_ (by simp [h])
    rw [hs h]
    exact Fill.refl
  · rw [if_neg (fun e => h ((isConditionEmpty_iff v).1 e))]
    obtain ⟨incl, excl⟩ := v
    obtain ⟨h1, h2⟩ := hv
    simp only at h1 h2
    refine Fill.iff (p := True) ?_ (by simp [h])
    unfold printCondition
    by_cases hi : incl = []
    · subst hi
      have he : excl ≠ [] := by rintro rfl; exact h rfl
      simp only [List.length_nil, ne_eq, not_true_eq_false, false_and, if_false, List.length_eq_zero_iff, he,
        not_false_eq_true, if_true]
      refine Fill.one (get := get) (set := set) hk.toReadable hF (decCondition_excl h2 _) fun hz => ?_
      have := ents_block L hk (ents_strs (d := d + 1) (w := (writeTag L w k).inc) L (wk (R := R) L "exclude") he h2)
      simpa using this
    · by_cases he : excl = []
      · subst he
        simp only [ne_eq, List.length_eq_zero_iff, hi, not_false_eq_true, List.length_nil, and_self, if_true,
          not_true_eq_false, and_false, if_false]
        refine Fill.one (get := get) (set := set) hk.toReadable hF (decCondition_seq h1 _) fun hz => ?_
        have := ents_list L hk (writeSequenceStr_itms L d (writeTag L w k) hi h1)
        simpa [hi] using this
      · simp only [ne_eq, List.length_eq_zero_iff, hi, he, not_false_eq_true, and_self, and_false, if_true, if_false]
        refine Fill.one (get := get) (set := set) hk.toReadable hF (decCondition_both h1 h2 _) fun hz => ?_
        have e1 := ents_strs (d := d + 1) (w := (writeTag L w k).inc) L (wk (R := R) L "include") hi h1
        have e2 := ents_strs (d := d + 1) (w := writeTagValue L (writeTag L w k).inc "include" (.strs incl)) L
          (wk (R := R) L "exclude") he h2
        have := ents_block L hk (e1.trans e2)
        rw [Writer.dec_inc]
        simpa using this

/-- All conditions survive; `matrix` is not printed. -/
def CondsOk (R : Resolver) (c : Conditions) : Prop :=
  CondOk R c.action ∧ CondOk R c.branch ∧ CondOk R c.cron ∧ CondOk R c.event ∧ CondOk R c.inst ∧ CondOk R c.paths ∧
  CondOk R c.ref ∧ CondOk R c.repo ∧ CondOk R c.status ∧ CondOk R c.target

theorem isConditionsEmpty_iff (v : Conditions) : isConditionsEmpty v = true ↔ keptConditions v = {} := by
  cases v
  simp only [isConditionsEmpty, keptConditions, Bool.and_eq_true, isConditionEmpty_iff, Conditions.mk.injEq]
  tauto

theorem conds_block (L : PrettyLib) {v : Conditions} (hv : CondsOk R v) (w : Writer) (d : Nat) (name : String) :
    ∃ w', printConditions L w name v = w'.dec ∧
      Fill R (fun k => conditionsFields.lookup k) d (writeTag L w name).inc w' {} (keptConditions v)
        (keptConditions v ≠ {}) := by
  refine ⟨_, rfl, ?_⟩
  obtain ⟨action, cron, ref, repo, inst, target, event, branch, status, paths, mat⟩ := v
  obtain ⟨h1, h2, h3, h4, h5, h6, h7, h8, h9, h10⟩ := hv
  dsimp only at *
  have key :=
    ((((((((((cond_fill (d := d) (F := fun k => conditionsFields.lookup k) (w := (writeTag L w name).inc) (s := {}) L (wk (R := R) L "action") rfl h1 (fun h => by subst h; rfl)).trans
    (cond_fill L (wk (R := R) L "branch") rfl h2 (fun h => by subst h; rfl))).trans
    (cond_fill L (wk (R := R) L "cron") rfl h3 (fun h => by subst h; rfl))).trans
    (cond_fill L (wk (R := R) L "event") rfl h4 (fun h => by subst h; rfl))).trans
    (cond_fill L (wk (R := R) L "instance") rfl h5 (fun h => by subst h; rfl))).trans
    (cond_fill L (wk (R := R) L "paths") rfl h6 (fun h => by subst h; rfl))).trans
    (cond_fill L (wk (R := R) L "ref") rfl h7 (fun h => by subst h; rfl))).trans
    (cond_fill L (wk (R := R) L "repo") rfl h8 (fun h => by subst h; rfl))).trans
    (cond_fill L (wk (R := R) L "status") rfl h9 (fun h => by subst h; rfl))).trans
    (cond_fill L (wk (R := R) L "target") rfl h10 (fun h => by subst h; rfl)))
  refine Fill.iff key ?_
  simp only [keptConditions, ne_eq, Conditions.mk.injEq]
  tauto

theorem conds_fill (L : PrettyLib) {get : σ → Conditions} {set : σ → Conditions → σ} (hk : ReadableKey R L k)
    (hF : F k = some (field get set decConditions)) {v : Conditions} (hv : CondsOk R v) (hg : get s = {})
    (hs : set s {} = s) :
    Fill R F d w (if isConditionsEmpty v then w else printConditions L w k v) s (set s (keptConditions v))
      (keptConditions v ≠ {}) := by
  by_cases h : keptConditions v = {}
  · rw [if_pos ((isConditionsEmpty_iff v).2 h)]
    refine Fill.iff (p := False) ?_ (by simp [h])
    rw [h, hs]
    exact Fill.refl
  · rw [if_neg (fun e => h ((isConditionsEmpty_iff v).1 e))]
    obtain ⟨w', h1, h2⟩ := conds_block L hv w (d + 1) k
    rw [h1]
    exact (block_fill L hk hF h2 hg).iff (by simp [h])

/-! ### Builds and pushes -/

/-- A block that is not empty, as a pointer with a method of its own. -/
theorem block_custom (L : PrettyLib) {τ : Type} {G : String → Option (Field τ)} {get : σ → Option τ}
    {set : σ → Option τ → σ} {dc : Dec (Option τ)} {z t : τ} {w' : Writer} {p : Prop} (hk : ReadableKey R L k)
    (hF : F k = some (field get set dc)) (h : Fill R G (d + 1) (writeTag L w k).inc w' z t p) (hp : p)
    (hd : ∀ es, decFields G es z = { val := t } → es ≠ [] → dc (.map es) (get s) = { val := some t }) :
    Fill R F d w w'.dec s (set s (some t)) True := by
  intro hz
  obtain ⟨es, h1, h2, h3, h4⟩ := h ((writeTag_same L w k).zero.trans hz)
  have he := h3.2 hp
  refine Fill.one (get := get) (set := set) hk.toReadable hF (hd es h2 he) (fun _ => ?_) hz
  have := ents_block L hk h1
  rwa [if_neg he] at this

/-- The strings of a build section survive. -/
def BuildOk (R : Resolver) (L : PrettyLib) (b : Build) : Prop :=
  StrMapOk R L b.args ∧ (∀ x ∈ b.cacheFrom, Readable R x) ∧ Readable R b.context ∧ Readable R b.dockerfile ∧
  Readable R b.image ∧ StrMapOk R L b.labels

/-- A build section with its maps sorted. -/
def sortBuild (b : Build) : Build := { b with args := sorted b.args, labels := sorted b.labels }

theorem build_fill (L : PrettyLib) {get : σ → Option Build} {set : σ → Option Build → σ} (hk : ReadableKey R L "build")
    (hF : F "build" = some (field get set (decPtr {} (custom {} unmarshalBuild)))) {v : Option Build}
    (hv : ∀ b, v = some b → BuildOk R L b) (hg : get s = none) (hs : set s none = s) :
    Fill R F d w (ifSome v (printBuild L) w) s (set s ((v.bind keptBuild).map sortBuild)) ((v.bind keptBuild) ≠ none) := by
  cases v with
  | none =>
    refine Fill.iff (p := False) ?_ (by simp)
    rw [show set s (((none : Option Build).bind keptBuild).map sortBuild) = s from hs]
    exact Fill.refl
  | some b =>
    obtain ⟨h1, h2, h3, h4, h5, h6⟩ := hv b rfl
    simp only [ifSome, Option.bind_some]
    unfold printBuild
    by_cases hb : shortBuild b = true
    · rw [if_pos hb]
      obtain ⟨args, cf, cx, df, im, lb⟩ := b
      simp only [shortBuild, Bool.and_eq_true, decide_eq_true_eq, List.length_eq_zero_iff, String.length_eq_zero_iff] at hb
      obtain ⟨⟨⟨⟨rfl, rfl⟩, rfl⟩, rfl⟩, rfl⟩ := hb
      by_cases hi : im = ""
      · subst hi
        intro hz
        rw [tagStr, writeTagValue_skip L hz (by simp [isZero, isZeroValue])]
        have hn : keptBuild { image := "" } = none := rfl
        refine (Fill.iff (p := False) ?_ (by simp [hn])) hz
        rw [hn, Option.map_none, hs]
        exact Fill.refl
      · have hn : keptBuild { image := im } = some { image := im } := by
          unfold keptBuild
          rw [if_neg (by simp [hi])]
        rw [hn, Option.map_some]
        refine Fill.iff (p := True) ?_ (by simp)
        refine Fill.one (get := get) (set := set) hk.toReadable hF ?_ fun hz =>
          ents_prim L hk rfl (by simp [isZero, isZeroValue, hi]) (fun _ => rfl) (str_atom L h5)
        obtain ⟨r, hr⟩ := strNode_scalar h5
        simp only at hr
        rw [hr]
        rfl
    · rw [if_neg hb]
      have hne : b ≠ {} := by rintro rfl; exact hb rfl
      have hn : keptBuild b = some b := by
        unfold keptBuild
        rw [if_neg hne]
      rw [hn, Option.map_some]
      refine Fill.iff (p := True) ?_ (by simp)
      obtain ⟨args, cf, cx, df, im, lb⟩ := b
      dsimp only at *
      have key :=
        ((((((str_fill (d := d + 1) (F := fun k => buildLongFields.lookup k) (w := (writeTag L w "build").inc) (s := {})
            L (wk (R := R) L "image") rfl h5 (fun h => by subst h; rfl)).trans
        (strMap_fill L (wk (R := R) L "args") rfl h1 (fun h => by subst h; rfl) rfl)).trans
        (strs_fill L (wk (R := R) L "cache_from") rfl h2 (fun h => by subst h; rfl))).trans
        (str_fill L (wk (R := R) L "context") rfl h3 (fun h => by subst h; rfl))).trans
        (str_fill L (wk (R := R) L "dockerfile") rfl h4 (fun h => by subst h; rfl))).trans
        (strMap_fill L (wk (R := R) L "labels") rfl h6 (fun h => by subst h; rfl) rfl))
      refine block_custom L hk hF key ?_ ?_
      · simp only [ne_eq, Build.mk.injEq] at hne
        tauto
      · intro es he hes
        rw [hg]
        show Res.mk (some (unmarshalBuild (.map es) {}).1) (!(unmarshalBuild (.map es) {}).2) (unmarshalBuild (.map es) {}).2 = _
        have : unmarshalBuild (.map es) {} = ((decFields (fun k => buildLongFields.lookup k) es {}).val,
          (decFields (fun k => buildLongFields.lookup k) es {}).err) := rfl
        rw [this, he]
        rfl

theorem push_fill (L : PrettyLib) {get : σ → Option Push} {set : σ → Option Push → σ} (hk : ReadableKey R L k)
    (hF : F k = some (field get set (decPtr {} (custom {} unmarshalPush)))) {v : Option Push}
    (hv : ∀ b, v = some b → Readable R b.image) (hs : set s none = s) :
    Fill R F d w (ifSome v (fun w p => tagStr L w k p.image) w) s (set s (v.bind keptPush)) (v.bind keptPush ≠ none) := by
  cases v with
  | none =>
    refine Fill.iff (p := False) ?_ (by simp)
    rw [show set s ((none : Option Push).bind keptPush) = s from hs]
    exact Fill.refl
  | some b =>
    obtain ⟨im⟩ := b
    have h5 := hv _ rfl
    simp only [ifSome, Option.bind_some] at h5 ⊢
    by_cases hi : im = ""
    · subst hi
      intro hz
      rw [tagStr, writeTagValue_skip L hz (by simp [isZero, isZeroValue])]
      have hn : keptPush { image := "" } = none := rfl
      refine (Fill.iff (p := False) ?_ (by simp [hn])) hz
      rw [hn, hs]
      exact Fill.refl
    · have hn : keptPush { image := im } = some { image := im } := by
        unfold keptPush
        rw [if_neg (by simp [hi])]
      rw [hn]
      refine Fill.iff (p := True) ?_ (by simp)
      refine Fill.one (get := get) (set := set) hk.toReadable hF ?_ fun hz =>
        ents_prim L hk rfl (by simp [isZero, isZeroValue, hi]) (fun _ => rfl) (str_atom L h5)
      obtain ⟨r, hr⟩ := strNode_scalar h5
      rw [hr]
      rfl

/-! ### Maps of pointers -/

/-- Entries of a map of pointers, decoded one by one. -/
def MapEnts {τ : Type} (R : Resolver) (d : Nat) (dc : Dec (Option τ)) (w w' : Writer) (l : List (String × τ)) : Prop :=
  w.zero = false → ∃ l' : List (String × Yaml.Node × Option τ), l'.map (fun x => (x.1, x.2.2)) = l.map (fun x => (x.1, some x.2)) ∧
    Ents R d w w' (l'.map fun x => (strNode R x.1, x.2.1)) ∧ ∀ x ∈ l', Readable R x.1 ∧ dc x.2.1 none = { val := x.2.2 }

theorem MapEnts.refl {τ : Type} {dc : Dec (Option τ)} : MapEnts R d dc w w [] :=
  fun _ => ⟨[], rfl, .refl d w, by simp⟩

theorem MapEnts.trans {τ : Type} {dc : Dec (Option τ)} {a b c : Writer} {l m : List (String × τ)}
    (h : MapEnts R d dc a b l) (h' : MapEnts R d dc b c m) : MapEnts R d dc a c (l ++ m) := by
  intro hz
  obtain ⟨l', h1, h2, h3⟩ := h hz
  obtain ⟨m', e1, e2, e3⟩ := h' (by rw [h2.same.zero, hz])
  refine ⟨l' ++ m', by rw [List.map_append, List.map_append, h1, e1], ?_, ?_⟩
  · rw [List.map_append]; exact h2.trans e2
  · intro x hx
    rcases List.mem_append.1 hx with hx | hx
    · exact h3 x hx
    · exact e3 x hx

theorem MapEnts.one {τ : Type} {dc : Dec (Option τ)} {w' : Writer} {n : Yaml.Node} {t : τ} (hk : Readable R k)
    (hd : dc n none = { val := some t }) (h : w.zero = false → Ents R d w w' [(strNode R k, n)]) :
    MapEnts R d dc w w' [(k, t)] :=
  fun hz => ⟨[(k, n, some t)], rfl, h hz, by simp [hk, hd]⟩

/-- The kept entries in the order of their keys. -/
def keptSorted {α β : Type} (g : α → Option β) (m : GoMap (Option α)) (ks : List String) : List (String × β) :=
  ks.filterMap fun k => ((m.get? k).bind fun o => o.bind g).map fun b => (k, b)

theorem eachKey_ents {α τ : Type} {dc : Dec (Option τ)} {m : GoMap (Option α)} {f : Writer → String → α → Writer}
    {g : α → Option τ}
    (hf : ∀ w k v, m.get? k = some (some v) → MapEnts R d dc w (f w k v) ((g v).map fun b => (k, b)).toList)
    (ks : List String) (w w' : Writer) (h : eachKey m f ks w = some w') :
    MapEnts R d dc w w' (keptSorted g m ks) := by
  induction ks generalizing w with
  | nil =>
    simp only [eachKey, Option.some.injEq] at h
    subst h
    exact MapEnts.refl
  | cons k ks ih =>
    unfold eachKey at h
    split at h
    · rename_i v hv
      have := (hf w k v hv).trans (ih _ h)
      unfold keptSorted
      rw [List.filterMap_cons, hv]
      simp only [Option.bind_some]
      cases hg : g v <;> simpa [hg, keptSorted] using this
    · simp at h

theorem keptSorted_keys {α β : Type} (g : α → Option β) (m : GoMap (Option α)) (ks : List String) :
    ((keptSorted g m ks).map Prod.fst).Sublist ks := by
  induction ks with
  | nil => exact .slnil
  | cons k ks ih =>
    unfold keptSorted at ih ⊢
    rw [List.filterMap_cons]
    cases ((m.get? k).bind fun o => o.bind g) with
    | none => exact ih.cons k
    | some b => simpa using ih

/-- The map that is read. -/
def keptMapS {α β : Type} (g : α → Option β) (m : GoMap (Option α)) : GoMap (Option β) :=
  (keptSorted g m (sortStrings m.keys)).map fun x => (x.1, some x.2)

theorem mapPtr_fill {α τ : Type} (L : PrettyLib) {dc : Dec (Option τ)} {m : GoMap (Option α)}
    {f : Writer → String → α → Writer} {g : α → Option τ} {get : σ → GoMap (Option τ)} {set : σ → GoMap (Option τ) → σ}
    (hk : ReadableKey R L k) (hF : F k = some (field get set (decMap none dc)))
    (hf : ∀ w k v, m.get? k = some (some v) → MapEnts R (d + 1) dc w (f w k v) ((g v).map fun b => (k, b)).toList)
    (hn : m.keys.Nodup) (hg : get s = []) {w' : Writer}
    (h : (eachKey m f (sortStrings m.keys) (writeTag L w k).inc).map Writer.dec = some w') :
    Fill R F d w w' s (set s (keptMapS g m)) True := by
  obtain ⟨w1, h1, rfl⟩ := Option.map_eq_some_iff.1 h
  intro hz
  obtain ⟨l', e1, e2, e3⟩ := eachKey_ents hf _ _ _ h1 ((writeTag_same L w k).zero.trans hz)
  refine Fill.one (get := get) (set := set) hk.toReadable hF ?_ (fun _ => ents_block L hk e2) hz
  rw [hg]
  unfold keptMapS
  rw [← e1]
  by_cases hl : l' = []
  · subst hl; rfl
  · rw [if_neg (by simpa using hl)]
    have := decEntries_list none dc l' [] e3 ?_
    · rw [List.nil_append] at this
      exact this
    · have e4 : l'.map Prod.fst = (keptSorted g m (sortStrings m.keys)).map Prod.fst := by
        have := congrArg (List.map Prod.fst) e1
        simpa [List.map_map, Function.comp_def] using this
      simp only [GoMap.keys, List.map_nil, List.nil_append]
      rw [e4]
      exact (keptSorted_keys g m _).nodup ((sortStrings_perm _).nodup_iff.2 hn)

theorem fromSecret_node {secret : String} (L : PrettyLib) (hv : Readable R secret) (hne : secret ≠ "") (hk : ReadableKey R L k)
    (hz : w.zero = false) :
    Ents R d w (printFromSecret L w k secret) [(strNode R k, .map [(strNode R "from_secret", strNode R secret)])] := by
  have e : Ents R (d + 1) (writeTag L w k).inc (tagStr L (writeTag L w k).inc "from_secret" secret)
      [(strNode R "from_secret", strNode R secret)] :=
    ents_prim L (wk (R := R) L "from_secret") rfl (by simp [isZero, isZeroValue, hne]) (fun _ => rfl) (str_atom L hv)
  have := ents_block L hk e
  rw [if_neg (by simp)] at this
  exact this

/-- Variables that survive. -/
def EnvOk (R : Resolver) (L : PrettyLib) (m : GoMap (Option Variable)) : Prop :=
  m.keys.Nodup ∧ ∀ k v, m.get? k = some (some v) → ReadableKey R L k ∧ (v.secret = "" → Readable R v.value) ∧ Readable R v.secret

theorem env_fill (L : PrettyLib) {m : GoMap (Option Variable)} {get : σ → GoMap (Option Variable)}
    {set : σ → GoMap (Option Variable) → σ}
    (hF : F "environment" = some (field get set (decMap none (decPtr {} (custom {} unmarshalVariable)))))
    (hv : EnvOk R L m) (hg : get s = []) (hs : set s [] = s) {w' : Writer}
    (h : when? (m.length > 0) (fun w => printEnviron L w m) w = some w') :
    Fill R F d w w' s (set s (keptMapS keptVariable m)) (m ≠ []) := by
  unfold when? at h
  by_cases hm : m = []
  · subst hm
    simp only [List.length_nil, gt_iff_lt, Nat.lt_irrefl, decide_false, Bool.false_eq_true, if_false, Option.some.injEq] at h
    subst h
    refine Fill.iff (p := False) ?_ (by simp)
    rw [show set s (keptMapS keptVariable []) = s from hs]
    exact Fill.refl
  · rw [if_pos (by simpa [List.length_pos_iff] using hm)] at h
    refine Fill.iff (p := True) ?_ (by simp [hm])
    refine mapPtr_fill L (wk (R := R) L "environment") hF ?_ hv.1 hg h
    rintro w k ⟨value, secret⟩ hm
    obtain ⟨h1, h2, h3⟩ := hv.2 _ _ hm
    simp only at h2 h3 ⊢
    by_cases hse : secret = ""
    · subst hse
      rw [if_pos rfl]
      by_cases hva : value = ""
      · subst hva
        intro hz
        rw [tagStr, writeTagValue_skip L hz (by simp [isZero, isZeroValue])]
        exact MapEnts.refl hz
      · have : keptVariable ⟨value, ""⟩ = some ⟨value, ""⟩ := by simp [keptVariable, hva]
        rw [this]
        refine MapEnts.one h1.toReadable ?_ fun hz =>
          ents_prim L h1 rfl (by simp [isZero, isZeroValue, hva]) (fun _ => rfl) (str_atom L (h2 rfl))
        obtain ⟨r, hr⟩ := strNode_scalar (h2 rfl)
        rw [hr]
        rfl
    · rw [if_neg hse]
      have : keptVariable ⟨value, secret⟩ = some ⟨"", secret⟩ := by simp [keptVariable, hse]
      rw [this]
      refine MapEnts.one h1.toReadable ?_ fun hz => fromSecret_node L h3 hse h1 hz
      have h0 := strNode_dec (R := R) (wk L "from_secret").toReadable ""
      have hsd := strNode_dec h3 ""
      have h4 : decVariableLong (.map [(strNode R "from_secret", strNode R secret)]) {} = { val := { secret := secret } } := by
        simp only [decVariableLong, decStruct, decFields, h0, if_true]
        rw [show List.lookup "from_secret" [("value", field Variable.value (fun s v => { s with value := v }) decString),
          ("from_secret", field Variable.secret (fun s v => { s with secret := v }) decString)] =
          some (field Variable.secret (fun s v => { s with secret := v }) decString) from rfl]
        simp [field, hsd]
      show Res.mk (some (unmarshalVariable (.map [(strNode R "from_secret", strNode R secret)]) {}).1)
        (!(unmarshalVariable (.map [(strNode R "from_secret", strNode R secret)]) {}).2)
        (unmarshalVariable (.map [(strNode R "from_secret", strNode R secret)]) {}).2 = _
      have h5 : unmarshalVariable (.map [(strNode R "from_secret", strNode R secret)]) {} = ({ secret := secret }, false) := by
        show ((decVariableLong (.map [(strNode R "from_secret", strNode R secret)]) {}).val,
          (decVariableLong (.map [(strNode R "from_secret", strNode R secret)]) {}).err) = _
        rw [h4]
      rw [h5]
      rfl

end

end Drone
