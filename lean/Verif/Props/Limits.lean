/- C123, C92: limits in formatted files, with the texts that are really written. -/
import Verif.Props.FloatUse
import Verif.Props.Units

namespace Drone
open FloatText Spec Pretty Units

/-- Plain scalars that end like a size are strings (resolve.go of yaml.v2: they are no numbers, unless
hexadecimal). -/
def Spec.ReadsSizes (R : Resolver) : Prop := ∀ s : String, s.toList.getLast? = some 'B' → 'x' ∉ s.toList →
  'X' ∉ s.toList → R.plain s = some .str

namespace Units

/-- The characters of sizes. -/
def sizeChars : List Char := "0123456789.e+-BKMGTPEZYi".toList

theorem digit_size {c : Char} (h : c ∈ decimalDigits) : c ∈ sizeChars := by
  revert c
  decide

theorem toDigits_size (n : Nat) : ∀ c ∈ Nat.toDigits 10 n, c ∈ sizeChars :=
  fun _ hc => digit_size ((toDigits_digits n).2 _ hc)

theorem trim_size (s : List Char) (h : ∀ c ∈ s, c ∈ sizeChars) : ∀ c ∈ trimZeros s, c ∈ sizeChars := by
  obtain ⟨j, e⟩ := trim_spec s
  intro c hc
  exact h c (by rw [e]; simp [hc])

theorem padded_size (k n : Nat) : ∀ c ∈ padded k n, c ∈ sizeChars := fun c hc => digit_size (padded_digits k n c hc)

theorem fixed_size (t k : Nat) : ∀ c ∈ fixed t k, c ∈ sizeChars := by
  intro c hc
  unfold fixed at hc
  rcases List.mem_append.1 hc with hc | hc
  · exact toDigits_size _ c hc
  · split at hc
    · simp at hc
    · rcases List.mem_cons.1 hc with rfl | hc
      · decide
      · exact trim_size _ (padded_size _ _) c hc

theorem g4_size (q : Rat) : ∀ c ∈ g4 q, c ∈ sizeChars := by
  intro c hc
  unfold g4 at hc
  split at hc
  · simp only [List.mem_singleton] at hc
    subst hc
    decide
  · dsimp only at hc
    split at hc
    · split at hc
      · exact fixed_size _ _ c hc
      · revert c
        decide
    · rcases List.mem_append.1 hc with hc | hc
      · exact fixed_size _ _ c hc
      · rcases List.mem_cons.1 hc with rfl | hc
        · decide
        · rcases List.mem_cons.1 hc with rfl | hc
          · decide
          · exact padded_size _ _ c hc

theorem unit_le (n : Nat) (q : Rat) (i : Nat) : (sizeAndUnit n q i).2 ≤ i + n := by
  induction n generalizing q i with
  | zero => simp [sizeAndUnit]
  | succ n ih =>
    unfold sizeAndUnit
    split
    · have := ih (q / 1024) (i + 1)
      omega
    · simp

theorem abbrs_size : ∀ i ≤ 8, (binaryAbbrs.getD i "").toList.getLast? = some 'B' ∧
    ∀ c ∈ (binaryAbbrs.getD i "").toList, c ∈ sizeChars := by decide

theorem bytesSize_chars (b : Int) : (bytesSize b).toList.getLast? = some 'B' ∧ ∀ c ∈ (bytesSize b).toList, c ∈ sizeChars := by
  unfold bytesSize
  split
  · rw [String.toList_ofList]
    refine ⟨by rw [List.getLast?_append]; rfl, ?_⟩
    intro c hc
    simp only [List.cons_append, List.mem_cons, List.mem_append, List.not_mem_nil, or_false] at hc
    rcases hc with rfl | hc | rfl
    · decide
    · exact g4_size _ c hc
    · decide
  · dsimp only
    rw [String.toList_append, String.toList_ofList]
    obtain ⟨h1, h2⟩ := abbrs_size _ (unit_le 8 (F64.round (b : Int)) 0)
    constructor
    · rw [List.getLast?_append, h1]
      rfl
    · intro c hc
      rcases List.mem_append.1 hc with hc | hc
      · exact g4_size _ c hc
      · exact h2 c hc

end Units

/-- C92.  The text of a size is a string for YAML, and it comes back as it is. -/
theorem C92_text (R : Resolver) (hR : ReadsSizes R) (b : Int) : R.plain (bytesSize b) = some .str ∧ Readable R (bytesSize b) := by
  obtain ⟨h1, h2⟩ := bytesSize_chars b
  have hs : R.plain (bytesSize b) = some .str :=
    hR _ h1 (fun h => absurd (h2 _ h) (by decide)) (fun h => absurd (h2 _ h) (by decide))
  refine ⟨hs, ⟨fun _ c hc => ?_, fun _ => ⟨?_, ?_⟩, ⟨?_, ?_⟩, fun _ => by rw [hs]; simp⟩⟩
  · have : ∀ c ∈ sizeChars, Unescaped c := by unfold Unescaped; decide
    exact this c (h2 c hc)
  · intro h
    exact absurd (h2 _ (List.mem_of_mem_head? h)) (by decide)
  · intro h
    exact absurd (h2 _ (List.mem_of_mem_head? h)) (by decide)
  · intro h
    rw [h] at h1
    exact absurd h1 (by decide)
  · intro h
    rw [h] at h1
    exact absurd h1 (by decide)

/-- C123.  Limits survive formatting exactly if the text of the memory is read as the memory it was
written for: the processors never stand in the way. -/
theorem C123_limits_iff (R : Resolver) (hF : ReadsFloats R) (hS : ReadsSizes R) (L : PrettyLib)
    (hL : L.fmtFloat = formatG) (hB : L.fmtSize = bytesSize) (o : ResourceObject) (h : Float64 o.cpu) :
    ObjectOk R L ramInBytes o ↔ o.memory = 0 ∨ ramInBytes (bytesSize o.memory) = some o.memory := by
  obtain ⟨h1, h2⟩ := C92_text R hS o.memory
  have hn : strNode R (bytesSize o.memory) = .scalar (bytesSize o.memory) .str := by
    unfold strNode
    split
    · rfl
    · unfold plainNode
      rw [h1]
  have hd : ∀ b, Yaml.decBytes ramInBytes (.scalar (bytesSize o.memory) .str) 0 = { val := b } ↔
      ramInBytes (bytesSize o.memory) = some b := by
    intro b
    cases hr : ramInBytes (bytesSize o.memory) with
    | none => simp [Yaml.decBytes, Yaml.custom, Yaml.unmarshalBytes, Yaml.decInt, Yaml.decString, Yaml.mismatch, hr]
    | some i => simp [Yaml.decBytes, Yaml.custom, Yaml.unmarshalBytes, Yaml.decInt, Yaml.decString, Yaml.mismatch, hr]
  unfold ObjectOk
  rw [hB, hn, hd]
  constructor
  · rintro ⟨_, g⟩
    by_cases hm : o.memory = 0
    · exact .inl hm
    · exact .inr (g hm).2
  · intro g
    refine ⟨fun _ => C123_cpu R hF L hL o.cpu h, fun hm => ⟨h2, ?_⟩⟩
    rcases g with g | g
    · exact absurd g hm
    · exact g

/-- C123.  Limits given in whole units below 1024 of them survive formatting. -/
theorem C123_limits_whole (R : Resolver) (hF : ReadsFloats R) (hS : ReadsSizes R) (L : PrettyLib)
    (hL : L.fmtFloat = formatG) (hB : L.fmtSize = bytesSize) (cpu : Rat) (h : Float64 cpu) (n i : Nat) (hi : i ≤ 5)
    (hn : n < 1024) : ObjectOk R L ramInBytes { cpu := cpu, memory := (n * 1024 ^ i : Nat) } := by
  rw [C123_limits_iff R hF hS L hL hB _ h]
  rcases Nat.eq_zero_or_pos n with rfl | h0
  · left; simp
  · exact .inr (C92_multiple n i hi ⟨h0, hn⟩).2

/-- C123.  Limits below zero do not survive. -/
theorem C123_limits_negative (R : Resolver) (hF : ReadsFloats R) (hS : ReadsSizes R) (L : PrettyLib)
    (hL : L.fmtFloat = formatG) (hB : L.fmtSize = bytesSize) (o : ResourceObject) (h : Float64 o.cpu) (hm : o.memory < 0) :
    ¬ ObjectOk R L ramInBytes o := by
  rw [C123_limits_iff R hF hS L hL hB o h, (C92_negative _ hm).2.1]
  simp only [reduceCtorEq, or_false]
  omega

/-! ### Such a library exists -/

namespace FloatText

/-- The characters of numbers that are read. -/
def numberChars (l : List Char) : Prop := ∀ c ∈ l, c.isDigit = true ∨ c ∈ ['.', 'e', '-', '+']

theorem readExponent_chars {l : List Char} {e : Int} (h : readExponent l = some e) : numberChars l := by
  unfold readExponent at h
  split at h
  · intro c hc; simp at hc
  · split_ifs at h with hd
    intro c hc
    simp only [List.mem_cons] at hc
    rcases hc with rfl | rfl | hc
    · simp
    · simp
    · exact .inl (hd.2 c hc)
  · split_ifs at h with hd
    intro c hc
    simp only [List.mem_cons] at hc
    rcases hc with rfl | rfl | hc
    · simp
    · simp
    · exact .inl (hd.2 c hc)
  · cases h

theorem split_chars {l : List Char} (h : numberChars (l.dropWhile Char.isDigit)) : numberChars l := by
  intro c hc
  rw [← List.takeWhile_append_dropWhile (p := Char.isDigit) (l := l)] at hc
  rcases List.mem_append.1 hc with hc | hc
  · exact .inl (List.mem_takeWhile_imp hc)
  · exact h c hc

theorem readUnsigned_chars {l : List Char} {v : Rat} (h : readUnsigned l = some v) : numberChars l := by
  unfold readUnsigned at h
  dsimp only at h
  split_ifs at h with h0
  apply split_chars
  split at h
  · rename_i r hr
    split_ifs at h with h1
    obtain ⟨e, he, _⟩ := Option.map_eq_some_iff.1 h
    rw [hr]
    intro c hc
    rcases List.mem_cons.1 hc with rfl | hc
    · simp
    · exact split_chars (readExponent_chars he) c hc
  · obtain ⟨e, he, _⟩ := Option.map_eq_some_iff.1 h
    exact readExponent_chars he

theorem readNumber_chars {l : List Char} {v : Rat} (h : readNumber l = some v) : numberChars l := by
  unfold readNumber at h
  split at h
  · obtain ⟨e, he, _⟩ := Option.map_eq_some_iff.1 h
    intro c hc
    rcases List.mem_cons.1 hc with rfl | hc
    · simp
    · exact readUnsigned_chars he c hc
  · exact readUnsigned_chars h

end FloatText

/-- C123.  There is a resolver that reads floating point numbers and sizes. -/
theorem C123_sizes : ReadsSizes numberResolver := by
  intro s h _ _
  have hB : 'B' ∈ s.toList := List.mem_of_getLast? h
  have hf : floatOf s = none := by
    unfold floatOf
    split
    · cases hr : readNumber s.toList with
      | none => rfl
      | some v => exact absurd (readNumber_chars hr _ hB) (by decide)
    · rfl
  have ne : ∀ t : String, 'B' ∉ t.toList → s ≠ t := by
    rintro t ht rfl
    exact ht hB
  show (match floatOf s with
    | some v => some (Yaml.Scalar.float (toFloat64 v))
    | none => exResolver.plain s) = _
  rw [hf]
  show exResolver.plain s = _
  unfold exResolver
  dsimp only
  rw [if_neg, if_neg (ne _ (by decide)), if_neg (ne _ (by decide)), if_neg]
  · rw [List.all_eq_true]
    intro hall
    exact absurd (hall _ hB) (by decide)
  · simp only [List.mem_cons, List.not_mem_nil, or_false, not_or]
    exact ⟨ne _ (by decide), ne _ (by decide), ne _ (by decide), ne _ (by decide), ne _ (by decide)⟩

/-- A library of the printer with the real texts of numbers. -/
def numberPretty : PrettyLib := 
  { exPretty with
    fmtFloat := formatG
    fmtSize := bytesSize
    float_line := C123_line }

/-- Half a processor and 512 MiB survive, 1100 MiB do not. -/
example : ObjectOk numberResolver numberPretty ramInBytes { cpu := 1 / 2, memory := 512 * 1024 ^ 2 } ∧
    ¬ ObjectOk numberResolver numberPretty ramInBytes { cpu := 1 / 2, memory := 1100 * 1024 ^ 2 } := by
  have hc : Float64 ((1 : Rat) / 2) := by
    have : toFloat64 (1 / 2) = 1 / 2 := by decide +kernel
    rw [← this]
    exact (C123_nearest _).1
  constructor
  · have := C123_limits_whole numberResolver C123_resolver C123_sizes numberPretty rfl rfl (1 / 2) hc 512 2 (by decide) (by decide)
    simpa using this
  · rw [C123_limits_iff numberResolver C123_resolver C123_sizes numberPretty rfl rfl _ hc]
    decide +kernel

end Drone
