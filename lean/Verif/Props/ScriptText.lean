/-
C128: which commands a script and its log stand for.
-/
import Verif.Props.Script
import Verif.Props.Power

namespace Drone
open Script (quoteChar escapeDollar escaped hexN hexd)

namespace ScriptText

/-! ### Reading a quoted command -/

/-- Value of a hexadecimal digit -/
def hexVal (c : Char) : Nat := if c ≤ '9' then c.toNat - 48 else c.toNat - 87

/-- Value of hexadecimal digits -/
def hexVals (s : List Char) : Nat := s.foldl (fun n c => 16 * n + hexVal c) 0

/-- The first character of a quoted command, and what follows it -/
def first : List Char → Option (Char × List Char)
  | '\\' :: 'a' :: r => some ('\x07', r)
  | '\\' :: 'b' :: r => some ('\x08', r)
  | '\\' :: 'f' :: r => some ('\x0c', r)
  | '\\' :: 'n' :: r => some ('\n', r)
  | '\\' :: 'r' :: r => some ('\r', r)
  | '\\' :: 't' :: r => some ('\t', r)
  | '\\' :: 'v' :: r => some ('\x0b', r)
  | '\\' :: 'x' :: r => some (Char.ofNat (hexVals (r.take 2)), r.drop 2)
  | '\\' :: 'u' :: r => some (Char.ofNat (hexVals (r.take 4)), r.drop 4)
  | '\\' :: 'U' :: r => some (Char.ofNat (hexVals (r.take 8)), r.drop 8)
  | '\\' :: c :: r => some (c, r)
  | '"' :: _ => none
  | c :: r => some (c, r)
  | [] => none

theorem hexN_length : ∀ k n, (hexN k n).length = k
  | 0, _ => rfl
  | k + 1, n => by rw [hexN, List.length_append, hexN_length k]; rfl

theorem hexVal_hexd : ∀ n, hexVal (hexd n) = n % 16 := by
  have : ∀ m, m < 16 → hexVal (hexd m) = m := by decide
  intro n
  have h := this (n % 16) (Nat.mod_lt _ (by decide))
  rwa [show hexd (n % 16) = hexd n by unfold hexd; rw [Nat.mod_mod]] at h

theorem hexVals_hexN : ∀ k n, hexVals (hexN k n) = n % 16 ^ k
  | 0, n => by simp [hexN, hexVals, Nat.mod_one]
  | k + 1, n => by
    have ih := hexVals_hexN k (n / 16)
    unfold hexVals at ih ⊢
    rw [hexN, List.foldl_append, ih, List.foldl_cons, List.foldl_nil, hexVal_hexd, Nat.pow_succ, Nat.mul_comm (16 ^ k) 16,
      Nat.mod_mul]
    omega

theorem hex_no_dollar : ∀ k n, '$' ∉ hexN k n
  | 0, _ => by simp [hexN]
  | k + 1, n => by
    have : ∀ m, m < 16 → '$' ≠ hexd m := by decide
    have h := this (n % 16) (Nat.mod_lt _ (by decide))
    rw [show hexd (n % 16) = hexd n by unfold hexd; rw [Nat.mod_mod]] at h
    simp only [hexN, List.mem_append, List.mem_singleton, not_or]
    exact ⟨hex_no_dollar k _, h⟩

/-- How a character of a command is quoted -/
def code (isPrint : Char → Bool) (c : Char) : List Char := escapeDollar (quoteChar isPrint c)

theorem take_hex (k n : Nat) (r : List Char) : (hexN k n ++ r).take k = hexN k n ∧ (hexN k n ++ r).drop k = r := by
  have h := hexN_length k n
  constructor
  · rw [List.take_append_of_le_length (by omega), List.take_of_length_le (by omega)]
  · rw [List.drop_append_of_le_length (by omega), List.drop_of_length_le (by omega), List.nil_append]

theorem first_plain {c : Char} (h1 : c ≠ '\\') (h2 : c ≠ '"') (r : List Char) : first (c :: r) = some (c, r) := by
  unfold first
  split
  all_goals first
    | (rename_i heq; injection heq with e _; exact absurd e h1)
    | (rename_i heq; injection heq with e _; exact absurd e h2)
    | (rename_i heq; injection heq with e e'; rw [e, e'])
    | (rename_i heq; cases heq)

theorem first_x (r : List Char) : first ('\\' :: 'x' :: r) = some (Char.ofNat (hexVals (r.take 2)), r.drop 2) := rfl
theorem first_u (r : List Char) : first ('\\' :: 'u' :: r) = some (Char.ofNat (hexVals (r.take 4)), r.drop 4) := rfl
theorem first_U (r : List Char) : first ('\\' :: 'U' :: r) = some (Char.ofNat (hexVals (r.take 8)), r.drop 8) := rfl

theorem escapeDollar_cons (x : Char) (l : List Char) (h : x ≠ '$') : escapeDollar (x :: l) = x :: escapeDollar l := by
  unfold escapeDollar
  rw [List.flatMap_cons, if_neg h]
  rfl

theorem ofNat_hex {c : Char} {k : Nat} (hk : c.toNat < 16 ^ k) : Char.ofNat (hexVals (hexN k c.toNat)) = c := by
  rw [hexVals_hexN, Nat.mod_eq_of_lt hk, Char.ofNat_toNat]

theorem escapeDollar_hex (a b : Char) (k n : Nat) (ha : a ≠ '$') (hb : b ≠ '$') :
    escapeDollar (a :: b :: hexN k n) = a :: b :: hexN k n := by
  rw [escapeDollar_cons _ _ ha, escapeDollar_cons _ _ hb, escapeDollar_id (hex_no_dollar k n)]

/-- The quoted character is read back, whatever follows. -/
theorem first_code (isPrint : Char → Bool) (c : Char) (r : List Char) : first (code isPrint c ++ r) = some (c, r) := by
  unfold code quoteChar
  split
  · rename_i h1
    rcases h1 with rfl | rfl <;> rfl
  · rename_i h1
    simp only [not_or] at h1
    split
    · by_cases hd : c = '$'
      · subst hd; rfl
      · rw [escapeDollar_cons _ _ hd]
        exact first_plain h1.2 h1.1 r
    · iterate 7 (split; · rename_i h; subst h; rfl)
      split
      · rw [escapeDollar_hex _ _ _ _ (by decide) (by decide), List.cons_append, List.cons_append, first_x, (take_hex _ _ _).1,
          (take_hex _ _ _).2, ofNat_hex]
        show c.toNat < 256
        omega
      · split
        · rw [escapeDollar_hex _ _ _ _ (by decide) (by decide), List.cons_append, List.cons_append, first_u, (take_hex _ _ _).1,
            (take_hex _ _ _).2, ofNat_hex]
          show c.toNat < 65536
          omega
        · rw [escapeDollar_hex _ _ _ _ (by decide) (by decide), List.cons_append, List.cons_append, first_U, (take_hex _ _ _).1,
            (take_hex _ _ _).2, ofNat_hex]
          exact c.val.toNat_lt

/-- The end of a quoted command is found. -/
theorem quoted_inj (isPrint : Char → Bool) : ∀ (s s' r r' : List Char),
    s.flatMap (code isPrint) ++ '"' :: r = s'.flatMap (code isPrint) ++ '"' :: r' → s = s' ∧ r = r'
  | [], [], r, r', h => by simpa using h
  | [], c :: s', r, r', h => by
    exfalso
    rw [List.flatMap_nil, List.nil_append, List.flatMap_cons, List.append_assoc] at h
    have := first_code isPrint c (s'.flatMap (code isPrint) ++ '"' :: r')
    rw [← h] at this
    simp [first] at this
  | c :: s, [], r, r', h => by
    exfalso
    rw [List.flatMap_nil, List.nil_append, List.flatMap_cons, List.append_assoc] at h
    have := first_code isPrint c (s.flatMap (code isPrint) ++ '"' :: r)
    rw [h] at this
    simp [first] at this
  | c :: s, d :: s', r, r', h => by
    rw [List.flatMap_cons, List.flatMap_cons, List.append_assoc, List.append_assoc] at h
    have h1 := first_code isPrint c (s.flatMap (code isPrint) ++ '"' :: r)
    rw [h, first_code] at h1
    simp only [Option.some.injEq, Prod.mk.injEq] at h1
    obtain ⟨h2, h3⟩ := quoted_inj isPrint s s' r r' h1.2.symm
    exact ⟨by rw [h1.1, h2], h3⟩

theorem escaped_code (isPrint : Char → Bool) (s : List Char) : escaped isPrint s = '"' :: (s.flatMap (code isPrint) ++ ['"']) :=
  escaped_eq isPrint s

theorem escaped_append_inj (isPrint : Char → Bool) {s s' r r' : List Char} (h : escaped isPrint s ++ r = escaped isPrint s' ++ r') :
    s = s' ∧ r = r' := by
  rw [escaped_code, escaped_code] at h
  simp only [List.cons_append, List.append_assoc, List.nil_append, List.cons.injEq, true_and] at h
  exact quoted_inj isPrint _ _ _ _ h

/-- Texts of commands one after the other, with a quoted command after each beginning -/
theorem flat_inj (isPrint : Char → Bool) (a b z : List Char) (f : List Char → List Char)
    (ht : ∀ c, f c = a ++ escaped isPrint c ++ (b ++ c) ++ z) (e : List Char) (he : e.length < a.length) :
    ∀ cs cs' : List String, cs.flatMap (fun c => f c.toList) ++ e = cs'.flatMap (fun c => f c.toList) ++ e → cs = cs'
  | [], [], _ => rfl
  | [], c :: cs', h => by
    exfalso
    have := congrArg List.length h
    simp only [List.flatMap_nil, List.nil_append, List.flatMap_cons, ht, List.length_append] at this
    omega
  | c :: cs, [], h => by
    exfalso
    have := congrArg List.length h
    simp only [List.flatMap_nil, List.nil_append, List.flatMap_cons, ht, List.length_append] at this
    omega
  | c :: cs, d :: cs', h => by
    simp only [List.flatMap_cons, ht, List.append_assoc] at h
    obtain ⟨h1, h2⟩ := escaped_append_inj isPrint (List.append_cancel_left h)
    rw [h1] at h2
    have h3 := List.append_cancel_left (List.append_cancel_left (List.append_cancel_left h2))
    have := flat_inj isPrint a b z f ht e he cs cs' (by simpa only [ht, List.append_assoc] using h3)
    rw [this, String.toList_inj.1 h1]

end ScriptText

open ScriptText

/-- C128.  The script determines the commands: no command can pass for several, or for a trace. -/
theorem C128_posix_iff (isPrint : Char → Bool) (cs cs' : List String) :
    Script.posix isPrint cs = Script.posix isPrint cs' ↔ cs = cs' := by
  refine ⟨fun h => ?_, fun h => by rw [h]⟩
  unfold Script.posix at h
  have h := congrArg String.toList h
  simp only [String.toList_ofList, List.append_assoc] at h
  refine flat_inj isPrint "\necho + ".toList "\n".toList "\n".toList (Script.trace isPrint) (fun c => ?_) "\n".toList (by decide) cs cs'
    (List.append_cancel_left h)
  unfold Script.trace
  simp only [List.append_assoc]

/-- C128.  The same on Windows. -/
theorem C128_windows_iff (isPrint : Char → Bool) (cs cs' : List String) :
    Script.windows isPrint cs = Script.windows isPrint cs' ↔ cs = cs' := by
  refine ⟨fun h => ?_, fun h => by rw [h]⟩
  unfold Script.windows at h
  have h := congrArg String.toList h
  simp only [String.toList_ofList, List.append_assoc] at h
  refine flat_inj isPrint "\nWrite-Output ('+ ".toList "');\n& ".toList "; if ($LASTEXITCODE -ne 0) {exit $LASTEXITCODE}\n".toList
    (Script.traceWin isPrint) (fun c => ?_) "\n".toList (by decide) cs cs' (List.append_cancel_left h)
  unfold Script.traceWin
  simp only [List.append_assoc]

/-! ### The log -/

/-- C128.  The log shows a command as it is exactly if all its characters can be printed. -/
theorem C128_shown_iff (isPrint : Char → Bool) (cmd : List Char) :
    cmd.flatMap (Spec.shown isPrint) = cmd ↔ ∀ c ∈ cmd, isPrint c = true ∨ c = '"' ∨ c = '\\' := by
  have hlen : ∀ c, ¬ (isPrint c = true ∨ c = '"' ∨ c = '\\') → 2 ≤ (Spec.shown isPrint c).length := by
    intro c h
    unfold Spec.shown
    rw [if_neg h]
    simp only [not_or] at h
    unfold quoteChar
    rw [if_neg (by simp [h.2.1, h.2.2]), if_neg h.1]
    split_ifs <;> simp [hexN_length]
  have hge : ∀ l : List Char, l.length ≤ (l.flatMap (Spec.shown isPrint)).length := by
    intro l
    induction l with
    | nil => simp
    | cons c l ih =>
      rw [List.flatMap_cons, List.length_append, List.length_cons]
      have : 1 ≤ (Spec.shown isPrint c).length := by
        by_cases h : isPrint c = true ∨ c = '"' ∨ c = '\\'
        · unfold Spec.shown; rw [if_pos h]; simp
        · have := hlen c h; omega
      omega
  induction cmd with
  | nil => simp
  | cons c cmd ih =>
    rw [List.flatMap_cons]
    by_cases h : isPrint c = true ∨ c = '"' ∨ c = '\\'
    · have e : Spec.shown isPrint c = [c] := by unfold Spec.shown; rw [if_pos h]
      rw [e]
      simp only [List.cons_append, List.nil_append, List.cons.injEq, true_and, ih, List.forall_mem_cons, h]
    · constructor
      · intro hc
        have h1 := congrArg List.length hc
        have h2 := hlen c h
        have h3 := hge cmd
        rw [List.length_append, List.length_cons] at h1
        omega
      · intro hc
        exact absurd (hc c List.mem_cons_self) h

/-- C128.  Different commands of printable characters show differently. -/
theorem C128_shown_differs (isPrint : Char → Bool) (c d : List Char) (hc : ∀ x ∈ c, isPrint x = true) (hd : ∀ x ∈ d, isPrint x = true)
    (h : c.flatMap (Spec.shown isPrint) = d.flatMap (Spec.shown isPrint)) : c = d := by
  rwa [(C128_shown_iff isPrint c).2 fun x hx => .inl (hc x hx), (C128_shown_iff isPrint d).2 fun x hx => .inl (hd x hx)] at h

/-- C128.  Other commands need not: a line feed shows as the two characters of its code.  So the log of
a step does not determine its commands, though its script does. -/
theorem C128_shown_alike (isPrint : Char → Bool) (h : isPrint '\n' = false) (hn : isPrint 'n' = true) :
    ("a\nb".toList).flatMap (Spec.shown isPrint) = ("a\\nb".toList).flatMap (Spec.shown isPrint) := by
  simp [Spec.shown, quoteChar, h, hn]

/-- C128.  On Windows the log shows the quoted command, so it determines a command without single quotes. -/
theorem C128_shown_windows (isPrint : Char → Bool) (c d : String) (hc : ∀ x ∈ c.toList, ¬ Spec.psQuote x)
    (hd : ∀ x ∈ d.toList, ¬ Spec.psQuote x) (h : shownWin isPrint c = shownWin isPrint d) : c = d := by
  rw [C119_shown isPrint c hc, C119_shown isPrint d hd] at h
  exact String.toList_inj.1 (escaped_append_inj isPrint (r := []) (r' := []) (by rw [h])).1

/-! ### Examples -/

/-- A command that looks like two commands with their traces -/
example : Script.posix exExt.isPrint ["a\n\necho + \"b\"\nb"] ≠ Script.posix exExt.isPrint ["a", "b"] :=
  fun h => absurd ((C128_posix_iff _ _ _).1 h) (by decide)

example : ("go test ./... | tee \"$LOG\"".toList).flatMap (Spec.shown exExt.isPrint) = "go test ./... | tee \"$LOG\"".toList := by decide

end Drone
