/-
C84, C85: what `fmt` prints is read back as what was printed.
-/
import Std.Data.String.ToInt
import Verif.Proof.RefillAll
import Verif.Proof.Reading
import Verif.Props.Legacy
import Verif.Spec.Kept
import Verif.Props.PrettyOrder
import Verif.Props.Parse

namespace Drone
open Spec Yaml Pretty

variable {R : Resolver}

namespace Spec

/-- A resource every part of which survives, of the kind of its Go type. -/
def ResourceOk (R : Resolver) (L : PrettyLib) (ram : String → Option Int) : Resource → Prop
  | .cron c => CronOk R c ∧ c.kind = "cron"
  | .secret s => SecretOk R s ∧ s.kind = "secret"
  | .signature s => SignatureOk R s ∧ s.kind = "signature"
  | .registry _ => True
  | .pipeline p => PipelineOk R L ram p ∧ p.kind ∉ ["", "cron", "secret", "signature", "registry"]

/-- A parser of YAML text that agrees with the grammar. -/
def Parses (R : Resolver) (tree : Bytes → Except String Yaml.Node) : Prop :=
  ∀ s n, Reads R s n → tree (utf8 s) = .ok n

end Spec

/-! ### One document -/

/-- The resource that is read. -/
def readResource : Resource → Resource
  | .cron c => .cron (keptCron c)
  | .secret s => .secret (keptSecret s)
  | .signature s => .signature s
  | .registry r => .registry r
  | .pipeline p => .pipeline (readPipeline p)

theorem doc_of {σ : Type} {F : String → Option (Yaml.Field σ)} {w' : Writer} {z s' : σ} {π : σ → Header}
    (h : Doc R F (Writer.str {} "---") w' z s') (hz : π z = {}) (hk : (π s').kind ≠ "")
    (hF : ∀ k f, F k = some f → ∀ v s, match headerField k with
      | none => π (f v s).1 = π s
      | some g => g v (π s) = (π (f v s).1, (f v s).2)) :
    ∃ ls ts es, Puts (Writer.str {} "---") w' (feed ls) ∧ Toks R ls ts ∧ Block 0 ts (.map es) ∧
      unmarshalDoc z F (.map es) = .ok s' ∧ unmarshalDoc {} headerField (.map es) = .ok (π s') := by
  obtain ⟨ls, ts, es, o, t, e, d, n⟩ := h
  have hh := header_fields π hF d n
  refine ⟨ls, ts, es, o, t, .map e ?_, ?_, ?_⟩
  · rintro rfl
    simp only [decFields, Res.mk.injEq, and_true] at d
    rw [← d, hz] at hk
    exact hk rfl
  · unfold unmarshalDoc
    rw [show decStruct z F (.map es) z = decFields F es z from rfl, d]
    rfl
  · unfold unmarshalDoc
    rw [show decStruct {} headerField (.map es) {} = decFields headerField es {} from rfl, ← hz, hh]
    rfl

theorem resource_doc (L : PrettyLib) (ram : String → Option Int) {r : Resource} {w' : Writer}
    (h : ResourceOk R L ram r) (hr : ∀ x, r ≠ .registry x) (hw : printResource L {} r = some w') :
    ∃ ls ts es hd, Puts (Writer.str {} "---") w' (feed ls) ∧ Toks R ls ts ∧ Block 0 ts (.map es) ∧
      unmarshalResource ram r.resType (.map es) = .ok (readResource r) ∧
      unmarshalDoc {} headerField (.map es) = .ok hd ∧ hd.kind = r.getKind := by
  cases r with
  | registry x => exact absurd rfl (hr x)
  | cron c =>
    obtain ⟨h1, h2⟩ := h
    simp only [printResource, Option.some.injEq] at hw
    subst hw
    obtain ⟨ls, ts, es, a1, a2, a3, a4, a5⟩ := doc_of (π := fun p : Cron => ⟨p.version, p.kind, p.type⟩)
      ((cron_fill L h1 (d := 0) (w := {})).doc rfl rfl rfl) rfl (by simp [keptCron, h2]) cron_header
    exact ⟨ls, ts, es, _, a1, a2, a3, by simp only [Resource.resType, unmarshalResource, a4]; rfl, a5, rfl⟩
  | secret c =>
    obtain ⟨h1, h2⟩ := h
    simp only [printResource, Option.some.injEq] at hw
    subst hw
    obtain ⟨ls, ts, es, a1, a2, a3, a4, a5⟩ := doc_of (π := fun p : Secret => ⟨p.version, p.kind, p.type⟩)
      (secret_doc L h1) rfl (by simp [keptSecret, h2]) secret_header
    exact ⟨ls, ts, es, _, a1, a2, a3, by simp only [Resource.resType, unmarshalResource, a4]; rfl, a5, rfl⟩
  | signature c =>
    obtain ⟨h1, h2⟩ := h
    simp only [printResource, Option.some.injEq] at hw
    subst hw
    obtain ⟨ls, ts, es, a1, a2, a3, a4, a5⟩ := doc_of (π := fun p : Signature => ⟨p.version, p.kind, ""⟩)
      ((signature_fill L h1 (d := 0) (w := {})).doc rfl rfl rfl) rfl (by simp [h2]) signature_header
    exact ⟨ls, ts, es, _, a1, a2, a3, by simp only [Resource.resType, unmarshalResource, a4]; rfl, a5, rfl⟩
  | pipeline p =>
    obtain ⟨h1, h2⟩ := h
    simp only [printResource] at hw
    obtain ⟨ls, ts, es, a1, a2, a3, a4, a5⟩ := doc_of (π := fun p : Pipeline => ⟨p.version, p.kind, p.type⟩)
      ((pipeline_fill L ram h1 (d := 0) hw).doc rfl rfl rfl) rfl
      (by simp only [List.mem_cons, not_or] at h2; exact h2.1) (pipeline_header ram)
    exact ⟨ls, ts, es, _, a1, a2, a3, by simp only [Resource.resType, unmarshalResource, a4]; rfl, a5, rfl⟩

theorem resource_reads (L : PrettyLib) (ram : String → Option Int) {r : Resource} {w' : Writer} {b : Bytes}
    (h : ResourceOk R L ram r) (hr : ∀ x, r ≠ .registry x) (hw : printResource L {} r = some w')
    (hb : w'.buf = [45, 45, 45, 10] ++ b) :
    ∃ s n hd, b = utf8 s ∧ Reads R s n ∧ unmarshalResource ram r.resType n = .ok (readResource r) ∧
      unmarshalDoc {} headerField n = .ok hd ∧ hd.kind = r.getKind := by
  obtain ⟨ls, ts, es, hd, o, t, bl, e1, e2, e3⟩ := resource_doc L ram h hr hw
  obtain ⟨Bs, hB, hs⟩ := printResource_doc (C := False) L hr (fun _ _ => False.elim) hw
  have hb2 : b = unlines Bs := by
    rw [hB] at hb
    have : [45, 45, 45, 10] ++ unlines Bs = ([45, 45, 45, 10] ++ b : Bytes) := by simpa [Writer.pre] using hb
    exact (List.append_cancel_left this).symm
  have hl := toks_lf t
  have hbuf : utf8L (feed ls) = 10 :: unlines Bs := by
    unfold Puts at o
    rw [hb, hb2] at o
    have h0 : (Writer.str {} "---").buf = [45, 45, 45] := by decide
    rw [h0] at o
    have : [45, 45, 45] ++ (10 :: unlines Bs) = ([45, 45, 45] ++ utf8L (feed ls) : Bytes) := o
    exact (List.append_cancel_left this).symm
  have hun : unlines (ls.map utf8L) = unlines (Bs ++ [[]]) := by
    rw [utf8L_feed] at hbuf
    have := flatMap_lf (ls.map utf8L)
    rw [hbuf] at this
    have h2 : unlines Bs ++ [10] = unlines (ls.map utf8L) := by simpa using this
    rw [← h2, unlines_append]
    simp [unlines]
  have hmap : ls.map utf8L = Bs ++ [[]] := by
    refine unlines_inj _ _ ?_ ?_ hun
    · intro l hm
      obtain ⟨x, hx, rfl⟩ := List.mem_map.1 hm
      exact utf8L_lf (hl x hx)
    · intro l hm
      rcases List.mem_append.1 hm with hm | hm
      · exact (hs l hm).1
      · simp only [List.mem_singleton] at hm
        simp [hm]
  obtain ⟨ls0, l1, rfl, hm0, hm1⟩ := List.map_eq_append_iff.1 hmap
  have hl1 : l1 = [[]] := by
    cases l1 with
    | nil => simp at hm1
    | cons x xs =>
      simp only [List.map_cons, List.cons.injEq, List.map_eq_nil_iff] at hm1
      rw [utf8L_nil_iff hm1.1, hm1.2]
  subst hl1
  have t0 := toks_dropLast t ls0 rfl
  refine ⟨String.ofList (ls0.flatMap (· ++ ['\n'])), .map es, hd, ?_, ⟨ls0, ts, 0, by simp, ?_, t0, bl⟩, e1, e2, e3⟩
  · rw [hb2, utf8_eq, String.toList_ofList, ← hm0]
    clear * -
    induction ls0 with
    | nil => rfl
    | cons l ls ih =>
      rw [List.map_cons, unlines_cons, ih, List.flatMap_cons, utf8L_append, utf8L_append]
      rfl
  · intro l hlm
    have hsafe := (hs (utf8L l) (by rw [← hm0]; exact List.mem_map_of_mem hlm)).2.1
    refine ⟨hl l (by simp [hlm]), ?_, ?_⟩
    · intro hp
      obtain ⟨r, hr⟩ := utf8L_prefix hp
      exact hsafe.not_sep ⟨r, hr.symm⟩
    · intro hp
      obtain ⟨r, hr⟩ := utf8L_prefix hp
      exact hsafe.not_term ⟨r, hr.symm⟩

/-! ### Parsing -/

theorem parse_docs (Y : YamlLib) {rs : List Resource} {ds : List Bytes} (h : List.Forall₂ (fun r d =>
    ∃ hd, Y.header d = .ok hd ∧ Y.resource (typeOfKind hd.kind) d = .ok r ∧ r.getKind ≠ "") rs ds) :
    ∃ raws, decodeHeaders Y ds = .ok raws ∧ parseAll Y raws = .ok rs := by
  induction h with
  | nil => exact ⟨[], rfl, rfl⟩
  | @cons r d _ _ h1 _ ih =>
    obtain ⟨hd, a1, a2, a3⟩ := h1
    obtain ⟨raws, b1, b2⟩ := ih
    refine ⟨⟨hd.version, hd.kind, hd.type, d⟩ :: raws, by simp only [decodeHeaders, a1, b1], ?_⟩
    simp only [parseAll, parseResource, a2, if_neg a3, b2]

theorem kind_type {L : PrettyLib} {ram : String → Option Int} {r : Resource} (h : ResourceOk R L ram r)
    (hr : ∀ x, r ≠ .registry x) : typeOfKind r.getKind = r.resType ∧ r.getKind ≠ "" ∧
      (readResource r).getKind = r.getKind := by
  cases r with
  | registry x => exact absurd rfl (hr x)
  | cron c =>
    refine ⟨?_, ?_, rfl⟩ <;> (simp only [Resource.getKind, h.2, Resource.resType]; decide)
  | secret c =>
    refine ⟨?_, ?_, rfl⟩ <;> (simp only [Resource.getKind, h.2, Resource.resType]; decide)
  | signature c =>
    refine ⟨?_, ?_, rfl⟩ <;> (simp only [Resource.getKind, h.2, Resource.resType]; decide)
  | pipeline p =>
    have h2 := h.2
    simp only [List.mem_cons, not_or, List.not_mem_nil, not_false_eq_true, and_true] at h2
    refine ⟨?_, h2.1, rfl⟩
    simp [Resource.getKind, typeOfKind, Resource.resType, h2]

theorem readBack (L : PrettyLib) (ram : String → Option Int) {tree : Bytes → Except String Yaml.Node}
    (ht : Parses R tree) {m : Manifest} {text : Bytes} (h : print L m = some text) (hne : Spec.printable m ≠ [])
    (hlen : ∃ ls, IsLines text ls ∧ ∀ l ∈ ls, l.length < 65536)
    (hok : ∀ r ∈ m.resources, ResourceOk R L ram r) :
    parseBytes (treeLib ram tree) text = .ok ⟨(Spec.printable m).map readResource⟩ := by
  have hcr : NoCRData m := by
    intro s hs hc
    have := (hok _ hs).1.data.ascii _ hc
    revert this
    decide
  obtain ⟨bodies, hf, _, hsplit⟩ := C52_frame L m text h hne hcr hlen
  have hpm : ∀ r ∈ Spec.printable m, r ∈ m.resources ∧ ∀ x, r ≠ .registry x := by
    intro r hr
    unfold Spec.printable at hr
    obtain ⟨h1, h2⟩ := List.mem_filter.1 hr
    refine ⟨h1, ?_⟩
    rintro x rfl
    simp at h2
  have key : List.Forall₂ (fun r d => ∃ hd, (treeLib ram tree).header d = .ok hd ∧
      (treeLib ram tree).resource (typeOfKind hd.kind) d = .ok r ∧ r.getKind ≠ "")
      ((Spec.printable m).map readResource) bodies := by
    rw [List.forall₂_map_left_iff]
    have : ∀ rs bs, (∀ r ∈ rs, r ∈ m.resources ∧ ∀ x, r ≠ .registry x) →
        List.Forall₂ (fun r b => print L ⟨[r]⟩ = some ([45, 45, 45, 10] ++ b ++ [46, 46, 46, 10])) rs bs →
        List.Forall₂ (fun r d => ∃ hd, (treeLib ram tree).header d = .ok hd ∧
          (treeLib ram tree).resource (typeOfKind hd.kind) d = .ok (readResource r) ∧ (readResource r).getKind ≠ "")
          rs bs := by
      intro rs bs hm hf
      induction hf with
      | nil => exact .nil
      | @cons r b rs bs hp _ ih =>
        refine .cons ?_ (ih fun r hr => hm r (List.mem_cons_of_mem _ hr))
        obtain ⟨hm1, hm2⟩ := hm r List.mem_cons_self
        have hk := hok r hm1
        unfold print at hp
        obtain ⟨w', hw, hb⟩ := Option.map_eq_some_iff.1 hp
        simp only [printLoop] at hw
        obtain ⟨w2, hw2, hw3⟩ := Option.bind_eq_some_iff.1 hw
        simp only [Option.some.injEq] at hw3
        subst hw3
        have hb' : w2.buf = [45, 45, 45, 10] ++ b := by
          have e : ((w2.str "...").str "\n").buf = w2.buf ++ [46, 46, 46, 10] := by
            simp [Writer.str, Writer.bytes, utf8, String.utf8EncodeChar]
          rw [e] at hb
          exact List.append_cancel_right hb
        obtain ⟨s, n, hd, rfl, hr, e1, e2, e3⟩ := resource_reads L ram hk hm2 hw2 hb'
        obtain ⟨k1, k2, k3⟩ := kind_type hk hm2
        have htree := ht s n hr
        refine ⟨hd, ?_, ?_, by rw [k3]; exact k2⟩
        · simp only [treeLib, htree]
          exact e2
        · simp only [treeLib, htree, e3, k1]
          exact e1
    exact this _ _ hpm hf
  obtain ⟨raws, h1, h2⟩ := parse_docs _ key
  simp only [parseBytes, parseReader, parseRawReader, hsplit, h1, h2]

/-! ### Up to the order of maps -/

theorem sameBuild_sort {L : PrettyLib} {b : Build} (h : BuildOk R L b) : SameBuild b (sortBuild b) :=
  ⟨_, _, sameMap_sorted h.1.1, sameMap_sorted h.2.2.2.2.2.1, rfl⟩

theorem keptContainer_same {L : PrettyLib} {ram : String → Option Int} {c c' : Container} (h : ContainerOk R L ram c)
    (hc : keptContainer c = some c') : SameContainer c' (readContainer c) := by
  unfold keptContainer at hc
  split at hc
  · simp at hc
  · simp only [Option.some.injEq] at hc
    subst hc
    refine ⟨(c.build.bind keptBuild).map sortBuild, keptMapS keptVariable c.environment, keptMapS sortParam c.settings,
      [], ?_, ⟨(keptMapS_perm keptVariable h.environment.1).symm, (keepMap_keys _ _).nodup h.environment.1⟩,
      keptMapS_settings L h.settings, ⟨.refl _, List.nodup_nil⟩, rfl⟩
    dsimp only
    cases hb : c.build with
    | none => exact .none
    | some b =>
      rw [Option.bind_some]
      unfold keptBuild
      split
      · exact .none
      · exact .some (sameBuild_sort (h.build b hb))

theorem keepList_same {α β : Type} {f g : α → Option β} {S : β → β → Prop} (l : List (Option α))
    (h : ∀ a, some a ∈ l → Option.Rel S (f a) (g a)) : List.Forall₂ (Option.Rel S) (keepList f l) (keepList g l) := by
  induction l with
  | nil => exact .nil
  | cons o l ih =>
    have ih := ih fun a ha => h a (List.mem_cons_of_mem _ ha)
    unfold keepList at ih ⊢
    cases o with
    | none => simpa using ih
    | some a =>
      have := h a List.mem_cons_self
      simp only [List.filterMap_cons, Option.bind_some]
      generalize f a = x, g a = y at this
      cases this with
      | none => exact ih
      | some hs => exact .cons (.some hs) ih

theorem containers_same {L : PrettyLib} {ram : String → Option Int} {l : List (Option Container)}
    (h : ∀ c, some c ∈ l → ContainerOk R L ram c) :
    List.Forall₂ (Option.Rel SameContainer) (keepList keptContainer l)
      (keepList (fun c => if blankContainer c then none else some (readContainer c)) l) := by
  refine keepList_same l fun c hc => ?_
  by_cases hb : blankContainer c
  · rw [if_pos hb, keptContainer, if_pos hb]
    exact .none
  · rw [if_neg hb]
    obtain ⟨c', hc'⟩ : ∃ c', keptContainer c = some c' := by
      unfold keptContainer
      rw [if_neg hb]
      exact ⟨_, rfl⟩
    rw [hc']
    exact .some (keptContainer_same (h c hc) hc')

theorem keptResource_same {L : PrettyLib} {ram : String → Option Int} {r r' : Resource} (h : ResourceOk R L ram r)
    (hr : keptResource r = some r') : SameResource r' (readResource r) := by
  cases r with
  | registry x => simp [keptResource] at hr
  | cron c => simp only [keptResource, Option.some.injEq] at hr; subst hr; exact .cron _
  | secret c => simp only [keptResource, Option.some.injEq] at hr; subst hr; exact .secret _
  | signature c => simp only [keptResource, Option.some.injEq] at hr; subst hr; exact .signature _
  | pipeline p =>
    simp only [keptResource, Option.some.injEq] at hr
    subst hr
    exact .pipeline ⟨sorted p.node, _, _, [], sameMap_sorted h.1.node.1, containers_same h.1.steps,
      containers_same h.1.services, ⟨.refl _, List.nodup_nil⟩, rfl⟩

theorem keptManifest_same {L : PrettyLib} {ram : String → Option Int} {rs : List Resource}
    (h : ∀ r ∈ rs, ResourceOk R L ram r) : List.Forall₂ SameResource (keptManifest ⟨rs⟩).resources
      ((Spec.printable ⟨rs⟩).map readResource) := by
  induction rs with
  | nil => exact .nil
  | cons r rs ih =>
    have ih := ih fun r hr => h r (List.mem_cons_of_mem _ hr)
    have h1 := h r List.mem_cons_self
    unfold keptManifest Spec.printable at ih ⊢
    cases r with
    | registry x => exact ih
    | cron c => exact .cons (keptResource_same h1 rfl) ih
    | secret c => exact .cons (keptResource_same h1 rfl) ih
    | signature c => exact .cons (keptResource_same h1 rfl) ih
    | pipeline c => exact .cons (keptResource_same h1 rfl) ih

/-! ### C84 -/

/-- C84.  What is printed is read back: with every parser that agrees with the grammar, parsing the
text gives the resources that were printed, apart from the order of maps and from what
`keptManifest` lists. -/
theorem C84_read_back_partial (R : Resolver) (L : PrettyLib) (ram : String → Option Int)
    (tree : Bytes → Except String Yaml.Node) (ht : Parses R tree) (m : Manifest) (text : Bytes)
    (h : print L m = some text) (hne : Spec.printable m ≠ [])
    (hlen : ∃ ls, IsLines text ls ∧ ∀ l ∈ ls, l.length < 65536)
    (hok : ∀ r ∈ m.resources, ResourceOk R L ram r) :
    ∃ m', parseBytes (treeLib ram tree) text = .ok m' ∧
      List.Forall₂ SameResource (keptManifest m).resources m'.resources :=
  ⟨_, readBack L ram ht h hne hlen hok, keptManifest_same hok⟩

/-- C84.  If nothing is lost, the manifest is read back as it was, apart from the order of maps. -/
theorem C84_faithful_partial (R : Resolver) (L : PrettyLib) (ram : String → Option Int)
    (tree : Bytes → Except String Yaml.Node) (ht : Parses R tree) (m : Manifest) (text : Bytes)
    (h : print L m = some text) (hne : m.resources ≠ [])
    (hlen : ∃ ls, IsLines text ls ∧ ∀ l ∈ ls, l.length < 65536)
    (hok : ∀ r ∈ m.resources, ResourceOk R L ram r) (hk : keptManifest m = m) :
    ∃ m', parseBytes (treeLib ram tree) text = .ok m' ∧ List.Forall₂ SameResource m.resources m'.resources := by
  have hp : Spec.printable m ≠ [] := by
    intro e
    have := keptManifest_same hok
    rw [show (⟨m.resources⟩ : Manifest) = m from rfl, e, hk] at this
    cases hm : m.resources with
    | nil => exact hne hm
    | cons a as => rw [hm] at this; cases this
  have := C84_read_back_partial R L ram tree ht m text h hp hlen hok
  rwa [hk] at this

/-! ### C85 -/

/-- C85.  Formatting twice is formatting once, where nothing is lost. -/
theorem C85_idempotent_partial (R : Resolver) (L : PrettyLib) (ram : String → Option Int)
    (tree : Bytes → Except String Yaml.Node) (ht : Parses R tree) (m : Manifest) (text : Bytes)
    (h : print L m = some text) (hne : m.resources ≠ [])
    (hlen : ∃ ls, IsLines text ls ∧ ∀ l ∈ ls, l.length < 65536)
    (hok : ∀ r ∈ m.resources, ResourceOk R L ram r) (hk : keptManifest m = m) :
    ∃ m', parseBytes (treeLib ram tree) text = .ok m' ∧ print L m' = some text := by
  obtain ⟨m', h1, h2⟩ := C84_faithful_partial R L ram tree ht m text h hne hlen hok hk
  exact ⟨m', h1, by rw [← h]; exact (C53_order L m m' h2).symm⟩

/-- C85.  The second formatting is that of what the first one kept. -/
theorem C85_second_partial (R : Resolver) (L : PrettyLib) (ram : String → Option Int)
    (tree : Bytes → Except String Yaml.Node) (ht : Parses R tree) (m : Manifest) (text : Bytes)
    (h : print L m = some text) (hne : Spec.printable m ≠ [])
    (hlen : ∃ ls, IsLines text ls ∧ ∀ l ∈ ls, l.length < 65536)
    (hok : ∀ r ∈ m.resources, ResourceOk R L ram r) :
    ∃ m', parseBytes (treeLib ram tree) text = .ok m' ∧ print L m' = print L (keptManifest m) := by
  obtain ⟨m', h1, h2⟩ := C84_read_back_partial R L ram tree ht m text h hne hlen hok
  exact ⟨m', h1, (C53_order L _ m' h2).symm⟩

/-! ### Parsers and examples -/

/-- There is a parser that agrees with the grammar. -/
theorem parser_exists (R : Resolver) : ∃ tree, Parses R tree := by
  classical
  refine ⟨fun b => if h : ∃ n s, utf8 s = b ∧ Reads R s n then .ok h.choose else .error "", fun s n hr => ?_⟩
  have h : ∃ n t, utf8 t = utf8 s ∧ Reads R t n := ⟨n, s, rfl, hr⟩
  show (if h : _ then _ else _) = _
  rw [dif_pos h]
  obtain ⟨t, e, ht⟩ := h.choose_spec
  rw [utf8_injective e] at ht
  rw [reads_unique ht hr]

theorem toString_int_chars (i : Int) : ((toString i).toList.all fun c => c = '-' || c.isDigit) = true := by
  have nat : ∀ n : Nat, ∀ c ∈ (Nat.repr n).toList, c.isDigit = true := by
    intro n c hc
    unfold Nat.repr at hc
    rw [String.toList_ofList] at hc
    exact Nat.isDigit_of_mem_toDigits (by decide) (by decide) hc
  rw [List.all_eq_true]
  show ∀ c ∈ (Int.repr i).toList, _
  cases i with
  | ofNat m => exact fun c hc => by simp [nat m c hc]
  | negSucc m =>
    have hr : (Int.repr (Int.negSucc m)).toList = '-' :: (Nat.repr (m + 1)).toList := by
      show ("-" ++ (Nat.repr (m + 1))).toList = _
      rw [String.toList_append]; rfl
    rw [hr]
    intro c hc
    rcases List.mem_cons.1 hc with rfl | hc
    · rfl
    · simp [nat _ c hc]

/-- A resolver that knows null, booleans and decimal numbers. -/
def exResolver : Resolver where
  plain s :=
    if s ∈ ["", "~", "null", "Null", "NULL"] then none
    else if s = "true" then some (.bool true)
    else if s = "false" then some (.bool false)
    else if (s.toList.all fun c => c = '-' || c.isDigit) = true then
      match s.toInt? with
      | some i => some (.int i)
      | none => some .str
    else some .str
  null_iff s := by
    by_cases h : s ∈ ["", "~", "null", "Null", "NULL"]
    · simp only [h, if_true]
    · rw [if_neg h]
      refine iff_of_false ?_ h
      split
      · simp
      · split
        · simp
        · split
          · split <;> simp
          · simp
  plain_true := by decide
  plain_false := by decide
  plain_int i _ _ := by
    have hc := toString_int_chars i
    have ne : ∀ t : String, (t.toList.all fun c => c = '-' || c.isDigit) = false → toString i ≠ t := by
      rintro t ht rfl
      rw [ht] at hc
      simp at hc
    have hempty : toString i ≠ "" := by
      obtain ⟨c, t, e, _⟩ := (toString_int_plain i).first
      intro h
      rw [h] at e
      simp at e
    rw [if_neg, if_neg (ne _ (by decide)), if_neg (ne _ (by decide)), if_pos hc]
    · have : (toString i).toInt? = some i := Int.toInt?_repr i
      rw [this]
    · simp only [List.mem_cons, List.not_mem_nil, or_false, not_or]
      exact ⟨hempty, ne _ (by decide), ne _ (by decide), ne _ (by decide), ne _ (by decide)⟩

/-- Strings that survive, by computation. -/
theorem rd (s : String) (h : (isQuoted s.toList = true ∧ s ≠ "-" ∧ s ≠ "?") ∨ Word s := by decide) : Readable R s := by
  rcases h with ⟨h1, h2, h3⟩ | h
  · have hp : ¬ WrittenPlain s.toList := fun h => by
      have := (C55_plain_iff _).2 h
      rw [h1] at this
      simp at this
    exact ⟨fun h => absurd h hp, fun h => absurd h hp, ⟨h2, h3⟩, fun h => absurd h hp⟩
  · exact (Word.key exPretty h).toReadable

def rbStep : Container :=
  { name := "build", image := "golang:1.12", commands := ["go build", "echo \"done: yes\""],
    environment := [("TOKEN", some { secret := "token" }), ("GOOS", some { value := "linux" })],
    settings := [("tags", some { value := .seq [.str "latest", .int 1] }), ("force", some { value := .bool true }),
      ("build", some { value := .map [(.str "b", .str "x y"), (.str "a", .int (-3))] })],
    ports := [some { port := 80, host := 8080 }],
    cond := { branch := { incl := ["master", "feature/*"] } }, detach := true }

def rbPipeline : Pipeline :=
  { kind := "pipeline", type := "docker", name := "default", platform := { os := "linux", arch := "amd64" },
    clone := { depth := 50 }, steps := [some rbStep], trigger := { event := { excl := ["tag"] } },
    node := [("disk", "ssd"), ("cpu", "arm")], dependsOn := ["other"] }

def rbCron : Cron := { kind := "cron", name := "nightly", schedule := "0 0 0 * * *", branch := "master" }

def rbSecret : Secret :=
  { kind := "secret", name := "token",
    data := "012345678901234567890123456789012345678901234567890123456789 0123456789\n" }

def rbSignature : Signature := { kind := "signature", hmac := "a8842634682b78946a2" }

def rbManifest : Manifest := ⟨[.pipeline rbPipeline, .cron rbCron, .secret rbSecret, .signature rbSignature]⟩

theorem rbStep_ok (ram : String → Option Int) : ContainerOk exResolver exPretty ram rbStep where
  name := rd _
  pull := rd _
  image := rd _
  build := by simp [rbStep]
  push := by simp [rbStep]
  user := rd _
  shell := rd _
  entrypoint := by simp [rbStep]
  command := by simp [rbStep]
  commands := by
    intro x hx
    simp only [rbStep, List.mem_cons, List.not_mem_nil, or_false] at hx
    rcases hx with rfl | rfl <;> exact rd _
  dns := by simp [rbStep]
  dnsSearch := by simp [rbStep]
  extraHosts := by simp [rbStep]
  network := rd _
  settings := by
    refine ⟨by decide, fun k p h => ?_⟩
    have := GoMap.mem_of_get? h
    simp only [rbStep, List.mem_cons, List.not_mem_nil, or_false, Prod.mk.injEq, Option.some.injEq] at this
    rcases this with ⟨rfl, rfl⟩ | ⟨rfl, rfl⟩ | ⟨rfl, rfl⟩
    · refine ⟨wk _ _, rd _, fun _ => ⟨?_, by simp, by simp, ?_⟩⟩
      · exact ⟨⟨rd _, fun _ => by decide⟩, ⟨by decide, by decide⟩, trivial⟩
      · rintro ⟨kvs, w, h1, h2⟩
        cases h1
    · refine ⟨wk _ _, rd _, fun _ => ⟨trivial, by simp, by simp, ?_⟩⟩
      rintro ⟨kvs, w, h1, _⟩
      cases h1
    · refine ⟨wk _ _, rd _, fun _ => ⟨?_, by simp, by simp, ?_⟩⟩
      · exact ⟨⟨⟨_, rfl, wk _ _, fun _ => by decide⟩, ⟨rd _, fun _ => by decide⟩,
          ⟨_, rfl, wk _ _, fun _ => by decide⟩, ⟨by decide, by decide⟩, trivial⟩, by simp⟩
      · rintro ⟨kvs, w, h1, h2⟩
        cases h1
        simp at h2
  environment := by
    refine ⟨by decide, fun k p h => ?_⟩
    have := GoMap.mem_of_get? h
    simp only [rbStep, List.mem_cons, List.not_mem_nil, or_false, Prod.mk.injEq, Option.some.injEq] at this
    rcases this with ⟨rfl, rfl⟩ | ⟨rfl, rfl⟩
    · exact ⟨wk _ _, fun _ => rd _, rd _⟩
    · exact ⟨wk _ _, fun _ => rd _, rd _⟩
  failure := rd _
  workingDir := rd _
  devices := by simp [rbStep]
  ports := by
    intro v hv
    simp only [rbStep, List.mem_cons, List.not_mem_nil, or_false, Option.some.injEq] at hv
    subst hv
    exact ⟨by decide, by decide, rd _⟩
  resources := by simp [rbStep]
  volumes := by simp [rbStep]
  cond := by
    refine ⟨⟨by simp [rbStep], by simp [rbStep]⟩, ⟨?_, by simp [rbStep]⟩, ⟨by simp [rbStep], by simp [rbStep]⟩,
      ⟨by simp [rbStep], by simp [rbStep]⟩, ⟨by simp [rbStep], by simp [rbStep]⟩, ⟨by simp [rbStep], by simp [rbStep]⟩,
      ⟨by simp [rbStep], by simp [rbStep]⟩, ⟨by simp [rbStep], by simp [rbStep]⟩, ⟨by simp [rbStep], by simp [rbStep]⟩,
      ⟨by simp [rbStep], by simp [rbStep]⟩⟩
    intro x hx
    simp only [rbStep, List.mem_cons, List.not_mem_nil, or_false] at hx
    rcases hx with rfl | rfl <;> exact rd _
  dependsOn := by simp [rbStep]

theorem rbPipeline_ok (ram : String → Option Int) : PipelineOk exResolver exPretty ram rbPipeline where
  version := rd _
  kind := rd _
  type := rd _
  name := rd _
  platform := ⟨rd _, rd _, rd _, rd _⟩
  clone := by decide
  concurrency := by decide
  workspace := ⟨rd _, rd _⟩
  steps := by
    intro c hc
    simp only [rbPipeline, List.mem_cons, List.not_mem_nil, or_false, Option.some.injEq] at hc
    subst hc
    exact rbStep_ok ram
  services := by simp [rbPipeline]
  volumes := by simp [rbPipeline]
  pullSecrets := by simp [rbPipeline]
  node := by
    refine ⟨by decide, fun k p h => ?_⟩
    have := GoMap.mem_of_get? h
    simp only [rbPipeline, List.mem_cons, List.not_mem_nil, or_false, Prod.mk.injEq] at this
    rcases this with ⟨rfl, rfl⟩ | ⟨rfl, rfl⟩
    · exact ⟨wk _ _, rd _⟩
    · exact ⟨wk _ _, rd _⟩
  trigger := by
    refine ⟨⟨by simp [rbPipeline], by simp [rbPipeline]⟩, ⟨by simp [rbPipeline], by simp [rbPipeline]⟩,
      ⟨by simp [rbPipeline], by simp [rbPipeline]⟩, ⟨by simp [rbPipeline], ?_⟩,
      ⟨by simp [rbPipeline], by simp [rbPipeline]⟩, ⟨by simp [rbPipeline], by simp [rbPipeline]⟩,
      ⟨by simp [rbPipeline], by simp [rbPipeline]⟩, ⟨by simp [rbPipeline], by simp [rbPipeline]⟩,
      ⟨by simp [rbPipeline], by simp [rbPipeline]⟩, ⟨by simp [rbPipeline], by simp [rbPipeline]⟩⟩
    intro x hx
    simp only [rbPipeline, List.mem_cons, List.not_mem_nil, or_false] at hx
    subst hx
    exact rd _
  dependsOn := by
    intro x hx
    simp only [rbPipeline, List.mem_cons, List.not_mem_nil, or_false] at hx
    subst hx
    exact rd _

theorem rbManifest_ok (ram : String → Option Int) : ∀ r ∈ rbManifest.resources, ResourceOk exResolver exPretty ram r := by
  intro r hr
  simp only [rbManifest, List.mem_cons, List.not_mem_nil, or_false] at hr
  rcases hr with rfl | rfl | rfl | rfl
  · exact ⟨rbPipeline_ok ram, by decide⟩
  · exact ⟨⟨rd _, rd _, rd _, rd _, rd _, rd _⟩, rfl⟩
  · exact ⟨⟨rd _, rd _, rd _, rd _, ⟨by decide, fun _ => ⟨'0', by decide, by decide⟩⟩, rd _, rd _, rd _⟩, rfl⟩
  · exact ⟨⟨rd _, rd _, rd _⟩, rfl⟩

/-- The text of the example. -/
def rbText : Bytes := (print exPretty rbManifest).getD []

theorem rbText_print : print exPretty rbManifest = some rbText := by decide +kernel

theorem rbText_lines : ∃ ls, IsLines rbText ls ∧ ∀ l ∈ ls, l.length < 65536 :=
  ⟨rawLines rbText, rawLines_isLines _, by decide +kernel⟩

/-- The hypotheses of C84 and C85 are met: a pipeline with settings of all shapes, a schedule, a
secret and a signature, with a parser. -/
example (ram : String → Option Int) : ∃ tree m', Parses exResolver tree ∧
    parseBytes (treeLib ram tree) rbText = .ok m' ∧ List.Forall₂ SameResource rbManifest.resources m'.resources ∧
    print exPretty m' = some rbText := by
  obtain ⟨tree, ht⟩ := parser_exists exResolver
  obtain ⟨m', h1, h2⟩ := C84_faithful_partial exResolver exPretty ram tree ht rbManifest rbText rbText_print (by decide)
    rbText_lines (rbManifest_ok ram) rfl
  obtain ⟨m'', h3, h4⟩ := C85_idempotent_partial exResolver exPretty ram tree ht rbManifest rbText rbText_print (by decide)
    rbText_lines (rbManifest_ok ram) rfl
  rw [h1] at h3
  cases h3
  exact ⟨tree, m', ht, h1, h2, h4⟩

/-- A step with an empty variable. -/
def rbEmptyStep : Container := { name := "build", image := "golang", environment := [("A", some {})] }

/-- A pipeline with that step. -/
def rbEmpty : Manifest := ⟨[.pipeline { kind := "pipeline", name := "default", steps := [some rbEmptyStep] }]⟩

theorem rbEmptyStep_ok (ram : String → Option Int) : ContainerOk exResolver exPretty ram rbEmptyStep where
  name := rd _
  pull := rd _
  image := rd _
  build := by simp [rbEmptyStep]
  push := by simp [rbEmptyStep]
  user := rd _
  shell := rd _
  entrypoint := by simp [rbEmptyStep]
  command := by simp [rbEmptyStep]
  commands := by simp [rbEmptyStep]
  dns := by simp [rbEmptyStep]
  dnsSearch := by simp [rbEmptyStep]
  extraHosts := by simp [rbEmptyStep]
  network := rd _
  settings := ⟨by decide, fun k p h => by simp [rbEmptyStep, GoMap.get?] at h⟩
  environment := by
    refine ⟨by decide, fun k p h => ?_⟩
    have := GoMap.mem_of_get? h
    simp only [rbEmptyStep, List.mem_cons, List.not_mem_nil, or_false, Prod.mk.injEq, Option.some.injEq] at this
    obtain ⟨rfl, rfl⟩ := this
    exact ⟨wk _ _, fun _ => rd _, rd _⟩
  failure := rd _
  workingDir := rd _
  devices := by simp [rbEmptyStep]
  ports := by simp [rbEmptyStep]
  resources := by simp [rbEmptyStep]
  volumes := by simp [rbEmptyStep]
  cond := by
    refine ⟨⟨?_, ?_⟩, ⟨?_, ?_⟩, ⟨?_, ?_⟩, ⟨?_, ?_⟩, ⟨?_, ?_⟩, ⟨?_, ?_⟩, ⟨?_, ?_⟩, ⟨?_, ?_⟩, ⟨?_, ?_⟩, ⟨?_, ?_⟩⟩ <;> simp [rbEmptyStep]
  dependsOn := by simp [rbEmptyStep]

theorem rbEmpty_ok (ram : String → Option Int) : ∀ r ∈ rbEmpty.resources, ResourceOk exResolver exPretty ram r := by
  intro r hr
  simp only [rbEmpty, List.mem_cons, List.not_mem_nil, or_false] at hr
  subst hr
  refine ⟨?_, by decide⟩
  constructor
  case steps =>
    intro c hc
    simp only [List.mem_cons, List.not_mem_nil, or_false, Option.some.injEq] at hc
    subst hc
    exact rbEmptyStep_ok ram
  case trigger =>
    refine ⟨⟨?_, ?_⟩, ⟨?_, ?_⟩, ⟨?_, ?_⟩, ⟨?_, ?_⟩, ⟨?_, ?_⟩, ⟨?_, ?_⟩, ⟨?_, ?_⟩, ⟨?_, ?_⟩, ⟨?_, ?_⟩, ⟨?_, ?_⟩⟩ <;> simp
  case node => exact ⟨by decide, fun k p h => by simp [GoMap.get?] at h⟩
  case platform => exact ⟨rd _, rd _, rd _, rd _⟩
  case workspace => exact ⟨rd _, rd _⟩
  case version => exact rd _
  case kind => exact rd _
  case type => exact rd _
  case name => exact rd _
  all_goals first | decide | simp

/-- The texts of the first and of the second formatting. -/
def rbEmptyText : Bytes := (print exPretty rbEmpty).getD []
def rbEmptyText2 : Bytes := (print exPretty (keptManifest rbEmpty)).getD []

/-- C84, C85.  Formatting is not faithful, and formatting twice is not formatting once: a variable
that is set to the empty text is not set after formatting, and the text changes again when it is
formatted for the second time. -/
theorem C85_not_idempotent (ram : String → Option Int) (tree : Bytes → Except String Yaml.Node)
    (ht : Parses exResolver tree) :
    ∃ m', print exPretty rbEmpty = some rbEmptyText ∧ parseBytes (treeLib ram tree) rbEmptyText = .ok m' ∧
      ¬ List.Forall₂ SameResource rbEmpty.resources m'.resources ∧
      print exPretty m' = some rbEmptyText2 ∧ rbEmptyText2 ≠ rbEmptyText := by
  have hp : print exPretty rbEmpty = some rbEmptyText := by decide +kernel
  have hne : rbEmptyText2 ≠ rbEmptyText := by decide +kernel
  obtain ⟨m', h1, h2⟩ := C85_second_partial exResolver exPretty ram tree ht rbEmpty rbEmptyText hp (by decide +kernel)
    ⟨rawLines rbEmptyText, rawLines_isLines _, by decide +kernel⟩ (rbEmpty_ok ram)
  have h3 : print exPretty m' = some rbEmptyText2 := h2.trans (by decide +kernel)
  refine ⟨m', hp, h1, fun h => hne ?_, h3, hne⟩
  have := C53_order exPretty rbEmpty m' h
  rw [hp, h3] at this
  exact (Option.some.inj this).symm

end Drone
