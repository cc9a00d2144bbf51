import Verif.Spec.Power
/-
For C119: how PowerShell reads the script of a step (/repo/yaml/compiler/script_win.go:27-73).
-/
namespace Drone
namespace Power
open Spec Spec.Power

/-! ### Reading -/

/-- Statements in front do not matter. -/
def push (b : List Text) (r : Reading) : Reading := { r with before := b ++ r.before }

theorem finish_push (b : List Text) (r : Reading) : (push b r).finish = push b r.finish := by
  unfold Reading.finish push
  simp only
  split
  · rfl
  · simp

theorem readCode_push (b : List Text) (r : Reading) (c : Char) : readCode (push b r) c = push b (readCode r c) := by
  unfold readCode
  rw [finish_push]
  show (if _ then _ else _) = _
  simp only [apply_ite (push b)]
  rfl

theorem read_push (b : List Text) (r : Reading) (c : Char) : scan (push b r) c = push b (scan r c) := by
  have h := readCode_push b r c
  have h' := readCode_push b { r with mode := .code } c
  unfold scan
  rcases r with ⟨m, d, bad, p, cur, bef⟩
  cases m <;> simp only [push] at h h' ⊢
  · rw [h]
  · by_cases hc : c = '\n'
    · simp only [hc, if_true] at h' ⊢
      rw [h']
    · simp only [hc, if_false]
  · rfl

theorem foldl_push (b : List Text) (l : Text) (r : Reading) : l.foldl scan (push b r) = push b (l.foldl scan r) := by
  induction l generalizing r with
  | nil => rfl
  | cons c l ih => rw [List.foldl_cons, List.foldl_cons, read_push, ih]

/-- Inside of a text in double quotes -/
theorem double_read {w : Text} (h : ∀ c ∈ w, ¬ psDouble c ∧ c ≠ '`') (r : Reading) (hm : r.mode = .double) :
    w.foldl scan r = { r with cur := r.cur ++ w, prev := w.getLast?.getD r.prev } := by
  induction w generalizing r with
  | nil => simp
  | cons c l ih =>
    have : scan r c = { r with cur := r.cur ++ [c], prev := c } := by
      unfold scan
      rw [hm]
      simp only [if_neg (h c (.head _)).1, if_neg (h c (.head _)).2, ← hm]
    rw [List.foldl_cons, this, ih (fun d hd => h d (.tail _ hd)) { r with cur := r.cur ++ [c], prev := c } hm]
    simp [List.getLast?_cons]

theorem push_push (a b : List Text) : push a (push b {}) = push (a ++ b) {} := by
  simp [push]

/-- The lines of the text of `_netrc` -/
def netrcLines : Text := "\nmachine $Env:CI_NETRC_MACHINE\nlogin $Env:CI_NETRC_USERNAME\npassword $Env:CI_NETRC_PASSWORD\n".toList

/-- The statement that removes a variable -/
def unsetStatement (name : String) : Text := "[Environment]::SetEnvironmentVariable(\"".toList ++ name.toList ++ "\", $null)".toList

theorem unsets_read (names : List String) (h : names ⊆ hiddenVars) (b : List Text) :
    (names.flatMap fun n => unsetStatement n ++ ";\n".toList).foldl scan (push b {}) = push (b ++ names.map unsetStatement) {} := by
  induction names generalizing b with
  | nil => simp
  | cons n ns ih =>
    have h1 : (unsetStatement n ++ ";\n".toList).foldl scan {} = push [unsetStatement n] {} := by
      have : ∀ n ∈ hiddenVars, (unsetStatement n ++ ";\n".toList).foldl scan {} = push [unsetStatement n] {} := by decide +kernel
      exact this n (h (.head _))
    rw [List.flatMap_cons, List.foldl_append, foldl_push, h1, push_push, ih (fun x hx => h (.tail _ hx))]
    simp

theorem preamble_parts : Script.preambleWin =
    ("\nif ($Env:CI_NETRC_MACHINE) {\n@\"".toList ++ netrcLines ++ "\"@ > (Join-Path $Env:USERPROFILE '_netrc');\n}\n".toList) ++
      ((hiddenVars.flatMap fun n => unsetStatement n ++ ";\n".toList) ++ "$ErrorActionPreference = 'Stop';\n".toList) := by
  decide +kernel

/-- The statement that writes `_netrc` -/
def netrcStatement : Text := "if ($Env:CI_NETRC_MACHINE) {\n@\"".toList ++ netrcLines ++ "\"@ > (Join-Path $Env:USERPROFILE '_netrc');\n}".toList

theorem netrc_read :
    ("\nif ($Env:CI_NETRC_MACHINE) {\n@\"".toList ++ netrcLines ++ "\"@ > (Join-Path $Env:USERPROFILE '_netrc');\n}\n".toList).foldl scan {} =
      push [netrcStatement] {} := by
  decide +kernel

/-- The statements the script starts with -/
def headStatements : List Text := [netrcStatement] ++ hiddenVars.map unsetStatement ++ ["$ErrorActionPreference = 'Stop'".toList]

theorem head_read : Script.preambleWin.foldl scan {} = push headStatements {} := by
  have h1 : "$ErrorActionPreference = 'Stop';\n".toList.foldl scan {} = push ["$ErrorActionPreference = 'Stop'".toList] {} := by decide +kernel
  rw [preamble_parts, List.foldl_append, List.foldl_append, netrc_read, unsets_read _ (fun _ h => h), foldl_push, h1, push_push]
  rfl

/-- Inside of a string -/
theorem paired_read {w : Text} (h : Paired w) (r : Reading) (hm : r.mode = .single) :
    w.foldl scan r = { r with cur := r.cur ++ w, prev := w.getLast?.getD r.prev } := by
  induction h generalizing r with
  | nil => simp
  | @skip c l hc hl ih =>
    have : scan r c = { r with cur := r.cur ++ [c], prev := c } := by
      unfold scan
      rw [hm]
      simp only [if_neg hc, ← hm]
    rw [List.foldl_cons, this, ih { r with cur := r.cur ++ [c], prev := c } hm]
    simp [List.getLast?_cons]
  | @pair c d l hc hd hl ih =>
    have h1 : scan r c = { r with mode := .code, cur := r.cur ++ [c], prev := c } := by
      unfold scan
      rw [hm]
      simp only [if_pos hc]
    have h2 : scan { r with mode := .code, cur := r.cur ++ [c], prev := c } d = { r with cur := r.cur ++ [c] ++ [d], prev := d } := by
      unfold scan
      simp only [readCode, if_pos hd, ← hm]
    rw [List.foldl_cons, List.foldl_cons, h1, h2, ih { r with cur := r.cur ++ [c] ++ [d], prev := d } hm]
    simp [List.getLast?_cons]

/-- The statement that announces a command -/
def traceStatement (w : Text) : Text := "Write-Output ('+ ".toList ++ w ++ "')".toList

/-- The statement behind a command -/
def checkStatement : Text := "if ($LASTEXITCODE -ne 0) {exit $LASTEXITCODE}".toList

theorem trace_read {w : Text} (h : Paired w) (b : List Text) :
    ("\nWrite-Output ('+ ".toList ++ w ++ "');\n".toList).foldl scan (push b {}) = push (b ++ [traceStatement w]) {} := by
  have h0 : push (b ++ [traceStatement w]) {} = push b (push [traceStatement w] {}) := by
    unfold push
    simp
  rw [foldl_push, h0]
  congr 1
  have h1 : "\nWrite-Output ('+ ".toList.foldl scan {} = { mode := .single, depth := 1, prev := ' ', cur := "Write-Output ('+ ".toList } := by
    decide +kernel
  rw [List.foldl_append, List.foldl_append, h1, paired_read h _ rfl]
  unfold traceStatement
  generalize "Write-Output ('+ ".toList ++ w = u
  generalize w.getLast?.getD _ = p
  have h2 : scan { mode := .single, depth := 1, prev := p, cur := u } '\'' = { mode := .code, depth := 1, prev := '\'', cur := u ++ ['\''] } := by
    unfold scan
    simp only [if_pos (show psQuote '\'' from .inl rfl)]
  have h3 : scan { mode := .code, depth := 1, prev := '\'', cur := u ++ ['\''] } ')' =
      { mode := .code, depth := 0, prev := ')', cur := u ++ ['\''] ++ [')'] } := by
    rfl
  have h4 : scan { mode := .code, depth := 0, prev := ')', cur := u ++ ['\''] ++ [')'] } ';' = { prev := ';', before := [u ++ ['\''] ++ [')']] } := by
    show ({ (Reading.finish _) with prev := ';' } : Reading) = _
    unfold Reading.finish
    simp
  show scan (scan (scan (scan _ '\'') ')') ';') '\n' = _
  rw [h2, h3, h4]
  show push [u ++ ['\''] ++ [')']] {} = _
  congr 2
  simp

theorem check_read (r : Reading) (h : r.closed = true) :
    ("; if ($LASTEXITCODE -ne 0) {exit $LASTEXITCODE}\n".toList).foldl scan r = push (r.finish.before ++ [checkStatement]) {} := by
  simp only [Reading.closed, Bool.and_eq_true, decide_eq_true_eq, Bool.not_eq_true'] at h
  obtain ⟨⟨hm, hd⟩, hb⟩ := h
  have h1 : scan r ';' = push r.finish.before { prev := ';' } := by
    have : readCode r ';' = r.finish := by
      unfold readCode
      rw [if_neg (by decide), if_neg (by decide), if_neg (by decide), if_neg (by simp), if_neg (by simp), if_neg (by decide), if_neg (by decide),
        if_pos ⟨.inl rfl, hd⟩]
    unfold scan
    simp only [hm, this]
    unfold Reading.finish
    rcases r with ⟨m, d, bad, p, cur, bef⟩
    cases hm
    cases hd
    cases hb
    simp only
    split
    · simp [push, *]
    · simp [push]
  have e : "; if ($LASTEXITCODE -ne 0) {exit $LASTEXITCODE}\n".toList = ';' :: " if ($LASTEXITCODE -ne 0) {exit $LASTEXITCODE}\n".toList := rfl
  have h2 : " if ($LASTEXITCODE -ne 0) {exit $LASTEXITCODE}\n".toList.foldl scan { prev := ';' } = push [checkStatement] {} := by decide +kernel
  rw [e, List.foldl_cons, h1, foldl_push, h2]
  simp [push]

theorem command_read {w c : Text} (hw : Paired w) (hc : (("& ".toList ++ c).foldl scan {}).closed = true) (b : List Text) :
    ("\nWrite-Output ('+ ".toList ++ w ++ "');\n& ".toList ++ c ++ "; if ($LASTEXITCODE -ne 0) {exit $LASTEXITCODE}\n".toList).foldl scan (push b {}) =
      push (b ++ ([traceStatement w] ++ (("& ".toList ++ c).foldl scan {}).finish.before ++ [checkStatement])) {} := by
  have e : "\nWrite-Output ('+ ".toList ++ w ++ "');\n& ".toList ++ c ++ "; if ($LASTEXITCODE -ne 0) {exit $LASTEXITCODE}\n".toList =
      ("\nWrite-Output ('+ ".toList ++ w ++ "');\n".toList) ++ (("& ".toList ++ c) ++ "; if ($LASTEXITCODE -ne 0) {exit $LASTEXITCODE}\n".toList) := by
    have : "');\n& ".toList = "');\n".toList ++ "& ".toList := by decide
    rw [this]
    simp only [List.append_assoc]
  rw [e, List.foldl_append, trace_read hw, foldl_push, List.foldl_append, check_read _ hc]
  simp [push]

/-! ### Announcing -/

theorem paired_append {a b : Text} (ha : Paired a) (hb : Paired b) : Paired (a ++ b) := by
  induction ha with
  | nil => exact hb
  | skip h _ ih => exact .skip h ih
  | pair h1 h2 _ ih => exact .pair h1 h2 ih

theorem paired_plain {a : Text} (h : ∀ c ∈ a, ¬ psQuote c) : Paired a := by
  induction a with
  | nil => exact .nil
  | cons c a ih => exact .skip (h c (.head _)) (ih fun d hd => h d (.tail _ hd))

theorem paired_tail {c : Char} {l : Text} (hc : ¬ psQuote c) (h : Paired (c :: l)) : Paired l := by
  generalize e : c :: l = m at h
  cases h with
  | nil => cases e
  | skip _ h => cases e; exact h
  | pair h => cases e; exact absurd h hc

theorem paired_prefix {a b : Text} (ha : ∀ c ∈ a, ¬ psQuote c) : Paired (a ++ b) ↔ Paired b := by
  induction a with
  | nil => rfl
  | cons c a ih =>
    rw [← ih fun d hd => ha d (.tail _ hd)]
    constructor
    · exact paired_tail (ha c (.head _))
    · exact .skip (ha c (.head _))

/-- What a character becomes in the announcement -/
def escapedChar (isPrint : Char → Bool) (c : Char) : Text := Script.escapeDollar (Script.quoteChar isPrint c)

theorem escapedChar_plain (isPrint : Char → Bool) {c : Char} (h : ¬ psQuote c) : ∀ x ∈ escapedChar isPrint c, ¬ psQuote x := by
  intro x hx
  have := escaped_psQuote (isPrint := isPrint) (cmd := [c]) (by simpa using h) x
  rw [escaped_eq] at this
  exact this (by simp only [List.flatMap_cons, List.flatMap_nil, List.append_nil]; exact .tail _ (List.mem_append_left _ hx))

theorem escapedChar_quote (isPrint : Char → Bool) {c : Char} (h : psQuote c) (hp : isPrint c = true) : escapedChar isPrint c = [c] := by
  unfold escapedChar Script.quoteChar
  rw [if_neg (by rcases h with rfl | rfl | rfl | rfl | rfl <;> decide), if_pos hp]
  rcases h with rfl | rfl | rfl | rfl | rfl <;> rfl

theorem paired_flatMap (isPrint : Char → Bool) (hq : ∀ q, psQuote q → isPrint q = true) : ∀ c : Text,
    Paired (c.flatMap (escapedChar isPrint) ++ ['"']) ↔ Paired c
  | [] => ⟨fun _ => .nil, fun _ => .skip (by decide) .nil⟩
  | [c] => by
    by_cases h : psQuote c
    · rw [List.flatMap_cons, escapedChar_quote isPrint h (hq c h)]
      constructor
      · intro hp
        cases hp with
        | skip h' => exact absurd h h'
        | pair _ h' => exact absurd h' (by decide)
      · intro hp
        cases hp with
        | skip h' => exact absurd h h'
    · rw [List.flatMap_cons, List.append_assoc, paired_prefix (escapedChar_plain isPrint h)]
      exact ⟨fun _ => .skip h .nil, fun _ => .skip (by decide) .nil⟩
  | c :: d :: r => by
    by_cases h : psQuote c
    · rw [List.flatMap_cons, escapedChar_quote isPrint h (hq c h)]
      by_cases h2 : psQuote d
      · rw [List.flatMap_cons, escapedChar_quote isPrint h2 (hq d h2)]
        have ih := paired_flatMap isPrint hq r
        constructor
        · intro hp
          cases hp with
          | skip h' => exact absurd h h'
          | pair _ _ h' => exact .pair h h2 (ih.1 h')
        · intro hp
          cases hp with
          | skip h' => exact absurd h h'
          | pair _ _ h' => exact .pair h h2 (ih.2 h')
      · constructor
        · intro hp
          rw [List.flatMap_cons] at hp
          have : escapedChar isPrint d ≠ [] := by
            unfold escapedChar
            rcases quoteChar_cases isPrint d with ⟨e, _⟩ | ⟨e, _⟩ | ⟨x, t, e, _⟩
            · rw [e]; rw [Script.escapeDollar, List.flatMap_cons]; split <;> simp
            · rw [e]; rw [Script.escapeDollar, List.flatMap_cons]; split <;> simp
            · rw [e]; rw [Script.escapeDollar, List.flatMap_cons]; split <;> simp
          cases he : escapedChar isPrint d with
          | nil => exact absurd he this
          | cons x t =>
            rw [he] at hp
            cases hp with
            | skip h' => exact absurd h h'
            | pair _ h' => exact absurd h' (escapedChar_plain isPrint h2 x (by rw [he]; exact .head _))
        · intro hp
          cases hp with
          | skip h' => exact absurd h h'
          | pair _ h' => exact absurd h' h2
    · rw [List.flatMap_cons, List.append_assoc, paired_prefix (escapedChar_plain isPrint h), paired_flatMap isPrint hq (d :: r)]
      exact ⟨fun hp => .skip h hp, fun hp => by
        cases hp with
        | skip _ h' => exact h'
        | pair h' => exact absurd h' h⟩

theorem paired_escaped (isPrint : Char → Bool) (hq : ∀ q, psQuote q → isPrint q = true) (c : Text) :
    Paired (Script.escaped isPrint c) ↔ Paired c := by
  rw [escaped_eq, ← paired_flatMap isPrint hq c]
  exact paired_prefix (a := ['"']) (by decide)

/-- A string ends at its closing quote exactly if the quotes inside of it come in pairs. -/
theorem squote_paired {w : Text} (h : Paired w) {d : Char} (hd : ¬ psQuote d) (rest : Text) :
    squote (w ++ '\'' :: d :: rest) = some (unpair w, d :: rest) := by
  induction h with
  | nil =>
    rw [List.nil_append, squote, if_pos (.inl rfl), if_neg hd]
    rfl
  | @skip c l hc _ ih =>
    rw [List.cons_append, squote_plain hc (by simp), ih]
    cases l with
    | nil => rfl
    | cons d l => rw [unpair, if_neg hc]; rfl
  | @pair c d l hc hd _ ih =>
    rw [List.cons_append, List.cons_append, squote, if_pos hc, if_pos hd, ih, unpair, if_pos hc]
    rfl

end Power
end Drone
