import Verif.Proof.Power
/-
C119: what PowerShell does with the script of a step (/repo/yaml/compiler/script_win.go:27-73).
-/
namespace Drone
namespace Power
open Spec Spec.Power

/-! ### Running -/

variable {ω : Type}

theorem between_none {a l : Text} (b : Text) (h : ¬ a <+: l) : between a b l = none := if_neg fun h' => h h'.1

theorem between_some (a b l : Text) : between a b (a ++ l ++ b) = some l := by
  unfold between
  rw [if_pos ⟨⟨l ++ b, by simp⟩, ⟨a ++ l, rfl⟩, by simp⟩]
  congr 1
  rw [List.append_assoc, List.drop_left]
  have : (a ++ (l ++ b)).length - (a.length + b.length) = l.length := by simp; omega
  rw [this, List.take_left]

theorem execAll_append (C : Commands ω) (a b : List Text) (s : State ω) :
    execAll C (a ++ b) s = match execAll C a s with
      | (s, some n) => (s, some n)
      | (s, none) => execAll C b s := by
  induction a generalizing s with
  | nil => rfl
  | cons l a ih =>
    rw [List.cons_append, execAll, execAll]
    rcases exec C l s with ⟨s1, _ | n⟩
    · exact ih s1
    · rfl

theorem exec_trace (C : Commands ω) {w : Text} (h : Paired w) (s : State ω) :
    exec C (traceStatement w) s = ({ s with out := s.out ++ ("+ ".toList ++ unpair w ++ ['\n']) }, none) := by
  have e : traceStatement w = "Write-Output ('".toList ++ ("+ ".toList ++ w ++ "')".toList) := by
    unfold traceStatement
    have : "Write-Output ('+ ".toList = "Write-Output ('".toList ++ "+ ".toList := by decide
    rw [this]
    simp only [List.append_assoc]
  have h1 : squote ("+ ".toList ++ w ++ "')".toList) = some ("+ ".toList ++ unpair w, ")".toList) := by
    have := squote_paired (paired_append (paired_plain (a := "+ ".toList) (by decide)) h) (d := ')') (by decide) []
    have hu : ∀ w, unpair ('+' :: ' ' :: w) = '+' :: ' ' :: unpair w := by
      intro w
      rw [unpair, if_neg (by decide)]
      cases w with
      | nil => rfl
      | cons c w => rw [unpair, if_neg (by decide)]
    have hu' : unpair ("+ ".toList ++ w) = "+ ".toList ++ unpair w := hu w
    rw [hu'] at this
    exact this
  have h2 : outputOf (traceStatement w) = some ("+ ".toList ++ unpair w) := by
    have hb := between_some "Write-Output ('".toList [] ("+ ".toList ++ w ++ "')".toList)
    rw [List.append_nil] at hb
    unfold outputOf
    rw [e, hb, Option.bind_some, h1, Option.bind_some, if_pos rfl]
  have h3 : unsetOf (traceStatement w) = none := by
    rw [e]
    exact between_none _ (by rintro ⟨t, e⟩; cases e)
  unfold exec
  rw [if_neg (by rw [e]; intro h; cases h), if_neg (by rw [e]; intro h; cases h), h3, h2]
  simp only [List.append_assoc]

theorem exec_check (C : Commands ω) (s : State ω) : exec C checkStatement s = (s, if s.last = some 0 then none else some (s.last.getD 0)) := by
  have h1 : checkStatement ≠ "$ErrorActionPreference = 'Stop'".toList := by decide +kernel
  have h2 : checkStatement = "if ($LASTEXITCODE -ne 0) {exit $LASTEXITCODE}".toList := rfl
  unfold exec
  rw [if_neg h1, if_pos h2]

theorem exec_unset (C : Commands ω) (name : String) (s : State ω) :
    exec C (unsetStatement name) s = ({ s with env := fun x => if x = name then none else s.env x }, none) := by
  have h : unsetOf (unsetStatement name) = some name.toList := between_some _ _ _
  have h1 : unsetStatement name = '[' :: (unsetStatement name).tail := rfl
  unfold exec
  rw [h, if_neg (by rw [h1]; intro h; cases h), if_neg (by rw [h1]; intro h; cases h)]
  simp only [String.ofList_toList]

theorem exec_unsets (C : Commands ω) (names : List String) (s : State ω) :
    execAll C (names.map unsetStatement) s = ({ s with env := fun x => if x ∈ names then none else s.env x }, none) := by
  induction names generalizing s with
  | nil => simp [execAll]
  | cons n ns ih =>
    rw [List.map_cons, execAll, exec_unset]
    simp only
    rw [ih]
    congr 2
    funext x
    by_cases h1 : x = n
    · simp [h1]
    · simp [h1]

theorem write_netrc : writeOf netrcStatement = some ("CI_NETRC_MACHINE".toList,
    "machine $Env:CI_NETRC_MACHINE\nlogin $Env:CI_NETRC_USERNAME\npassword $Env:CI_NETRC_PASSWORD".toList, "USERPROFILE".toList, "_netrc".toList) := by
  decide +kernel

theorem expand_netrc (s : State ω) :
    expandFrom s.env none "machine $Env:CI_NETRC_MACHINE\nlogin $Env:CI_NETRC_USERNAME\npassword $Env:CI_NETRC_PASSWORD".toList ++ ['\n'] =
      (netrc s).toList := by
  have : expandFrom s.env none "machine $Env:CI_NETRC_MACHINE\nlogin $Env:CI_NETRC_USERNAME\npassword $Env:CI_NETRC_PASSWORD".toList =
      "machine ".toList ++ ((s.env "CI_NETRC_MACHINE").getD "").toList ++ ("\nlogin ".toList ++ ((s.env "CI_NETRC_USERNAME").getD "").toList ++
        ("\npassword ".toList ++ ((s.env "CI_NETRC_PASSWORD").getD "").toList)) := by
    rfl
  rw [this]
  unfold netrc State.get
  simp only [String.toList_append, List.append_assoc]
  rfl

theorem exec_netrc (C : Commands ω) (s : State ω) :
    exec C netrcStatement s = (if s.get "CI_NETRC_MACHINE" = "" then s else s.write (C.join (s.get "USERPROFILE") "_netrc") (netrc s), none) := by
  have e : netrcStatement = 'i' :: 'f' :: ' ' :: '(' :: '$' :: 'E' :: netrcStatement.drop 6 := rfl
  have h1 : netrcStatement ≠ "$ErrorActionPreference = 'Stop'".toList := by rw [e]; intro h; cases h
  have h2 : netrcStatement ≠ "if ($LASTEXITCODE -ne 0) {exit $LASTEXITCODE}".toList := by rw [e]; intro h; cases h
  have h3 : unsetOf netrcStatement = none := by
    rw [e]
    exact between_none _ (by rintro ⟨t, e⟩; cases e)
  have h4 : outputOf netrcStatement = none := by
    unfold outputOf
    rw [e, between_none _ (by rintro ⟨t, e⟩; cases e)]
    rfl
  unfold exec
  rw [if_neg h1, if_neg h2, h3, h4, write_netrc]
  simp only [String.ofList_toList, expand_netrc]
  split <;> rfl

theorem exec_stop (C : Commands ω) (s : State ω) : exec C "$ErrorActionPreference = 'Stop'".toList s = ({ s with stop := true }, none) := if_pos rfl

theorem head_run (C : Commands ω) (s : State ω) : execAll C headStatements s = (prepared C s, none) := by
  unfold headStatements
  rw [List.append_assoc, List.singleton_append, execAll, exec_netrc]
  simp only
  rw [execAll_append, exec_unsets]
  simp only
  rw [execAll, exec_stop]
  simp only [execAll]
  unfold prepared
  by_cases h : s.get "CI_NETRC_MACHINE" = ""
  · rw [if_pos h, if_pos h]
  · rw [if_neg h, if_neg h]
    rfl

theorem commands_run (C : Commands ω) (isPrint : Char → Bool) (cmds : List String)
    (hs : ∀ c ∈ cmds, (statements c).isSome ∧ Paired (Script.escaped isPrint c.toList)) (s : State ω) :
    execAll C (cmds.flatMap fun c => [traceStatement (Script.escaped isPrint c.toList)] ++ (statements c).getD [] ++ [checkStatement]) s =
      perform C (fun c => unpair (Script.escaped isPrint c.toList)) cmds s := by
  induction cmds generalizing s with
  | nil => rfl
  | cons c cs ih =>
    rw [List.flatMap_cons, execAll_append, execAll_append, List.singleton_append, execAll, exec_trace C (hs c (.head _)).2, perform]
    simp only
    rcases execAll C ((statements c).getD []) _ with ⟨s1, _ | n⟩
    · simp only [execAll, exec_check]
      by_cases h : s1.last = some 0
      · rw [if_pos h, if_pos h]
        exact ih (fun c hc => hs c (.tail _ hc)) s1
      · rw [if_neg h, if_neg h]
    · rfl

/-- Up to the end of some commands -/
theorem cmds_read (isPrint : Char → Bool) (cmds : List String)
    (hs : ∀ c ∈ cmds, (statements c).isSome ∧ Paired (Script.escaped isPrint c.toList)) (b : List Text) :
    (cmds.flatMap fun c => Script.traceWin isPrint c.toList).foldl scan (push b {}) =
      push (b ++ cmds.flatMap fun c => [traceStatement (Script.escaped isPrint c.toList)] ++ (statements c).getD [] ++ [checkStatement]) {} := by
  induction cmds generalizing b with
  | nil => simp
  | cons c cs ih =>
    obtain ⟨h1, h2⟩ := hs c (.head _)
    have h3 : (("& ".toList ++ c.toList).foldl scan {}).closed = true := by
      unfold statements at h1
      by_contra h
      simp only [h] at h1
      cases h1
    have h4 : (statements c).getD [] = (("& ".toList ++ c.toList).foldl scan {}).finish.before := by
      unfold statements
      simp only [h3, if_true, Option.getD_some]
    have h5 : Script.traceWin isPrint c.toList = "\nWrite-Output ('+ ".toList ++ Script.escaped isPrint c.toList ++ "');\n& ".toList ++ c.toList ++
      "; if ($LASTEXITCODE -ne 0) {exit $LASTEXITCODE}\n".toList := rfl
    rw [List.flatMap_cons, List.foldl_append, h5, command_read h2 h3, ih fun c hc => hs c (.tail _ hc), List.flatMap_cons, h4]
    simp only [List.append_assoc]

theorem windows_parse (isPrint : Char → Bool) (cmds : List String)
    (hs : ∀ c ∈ cmds, (statements c).isSome ∧ Paired (Script.escaped isPrint c.toList)) :
    parse (Script.windows isPrint cmds).toList = some (headStatements ++
      cmds.flatMap fun c => [traceStatement (Script.escaped isPrint c.toList)] ++ (statements c).getD [] ++ [checkStatement]) := by
  unfold Script.windows parse
  rw [String.toList_ofList, List.foldl_append, List.foldl_append, head_read, cmds_read isPrint cmds hs]
  generalize headStatements ++ _ = b
  show some (b ++ []) = _
  rw [List.append_nil]

theorem perform_append (C : Commands ω) (f : String → Text) (a b : List String) (s : State ω) :
    perform C f (a ++ b) s = match perform C f a s with
      | (s, some n) => (s, some n)
      | (s, none) => perform C f b s := by
  induction a generalizing s with
  | nil => rfl
  | cons c a ih =>
    rw [List.cons_append, perform, perform]
    rcases execAll C ((statements c).getD []) _ with ⟨s1, _ | n⟩
    · simp only
      by_cases h : s1.last = some 0
      · rw [if_pos h, if_pos h]
        exact ih s1
      · rw [if_neg h, if_neg h]
    · rfl

theorem exec_obedient {C : Commands ω} (hC : Obedient C) (l : Text) (s : State ω) (hs : s.last ≠ none) :
    (exec C l s).1.last ≠ none ∧ (exec C l s).2 ≠ some 0 := by
  unfold exec
  split
  · exact ⟨hs, nofun⟩
  · split
    · refine ⟨hs, ?_⟩
      split
      · nofun
      · rename_i h
        intro e
        cases hl : s.last with
        | none => exact hs hl
        | some n =>
          rw [hl] at h e
          exact h e
    · split
      · exact ⟨hs, nofun⟩
      · split
        · exact ⟨hs, nofun⟩
        · split
          · split
            · exact ⟨hs, nofun⟩
            · exact ⟨hs, nofun⟩
          · obtain ⟨h1, h2⟩ := hC l s hs
            exact ⟨h1, by rw [h2]; nofun⟩

theorem execAll_obedient {C : Commands ω} (hC : Obedient C) (ls : List Text) (s : State ω) (hs : s.last ≠ none) :
    (execAll C ls s).1.last ≠ none ∧ (execAll C ls s).2 ≠ some 0 := by
  induction ls generalizing s with
  | nil => exact ⟨hs, nofun⟩
  | cons l ls ih =>
    have h := exec_obedient hC l s hs
    rw [execAll]
    revert h
    rcases exec C l s with ⟨s1, _ | n⟩
    · exact fun h => ih s1 h.1
    · exact fun h => h

theorem perform_obedient {C : Commands ω} (hC : Obedient C) (f : String → Text) (cs : List String) (s : State ω) (hs : s.last ≠ none) :
    (perform C f cs s).2 ≠ some 0 := by
  induction cs generalizing s with
  | nil => nofun
  | cons c cs ih =>
    have h := execAll_obedient hC ((statements c).getD []) { s with out := s.out ++ ("+ ".toList ++ f c ++ ['\n']) } hs
    rw [perform]
    revert h
    rcases execAll C ((statements c).getD []) _ with ⟨s1, _ | n⟩
    · intro h
      simp only
      by_cases h0 : s1.last = some 0
      · rw [if_pos h0]
        exact ih s1 h.1
      · rw [if_neg h0]
        intro e
        cases hl : s1.last with
        | none => exact h.1 hl
        | some n =>
          rw [hl] at h0 e
          exact h0 e
    · exact fun h => h.2

/-! ### An apostrophe -/

theorem push_mode (b : List Text) (r : Reading) : (push b r).mode = r.mode := rfl

theorem scan_plain {c : Char} (h : PlainChar c) (r : Reading) (hm : r.mode = .code) : (scan r c).mode = .code := by
  obtain ⟨h1, h2, h3, h4⟩ := h
  have hf : r.finish.mode = r.mode := by
    unfold Reading.finish
    split <;> rfl
  show (match r.mode with
    | .code => readCode r c
    | .tick => _
    | .single => _
    | .double => _
    | .dtick => _
    | .comment => _
    | .block => _ : Reading).mode = _
  rw [hm]
  simp only [readCode]
  rw [if_neg h1, if_neg h2, if_neg h3, if_neg (fun h => h4 h.1), if_neg (fun h => h4 h.1)]
  split
  · exact hm
  · split
    · exact hm
    · split
      · rw [hf, hm]
      · split <;> exact hm

theorem fold_plain {l : Text} (h : ∀ c ∈ l, PlainChar c) (r : Reading) (hm : r.mode = .code) : (l.foldl scan r).mode = .code := by
  induction l generalizing r with
  | nil => exact hm
  | cons c l ih =>
    rw [List.foldl_cons]
    exact ih (fun d hd => h d (.tail _ hd)) _ (scan_plain (h c (.head _)) r hm)

theorem escapedChar_plainChar (isPrint : Char → Bool) {c : Char} (h : PlainChar c) : ∀ x ∈ escapedChar isPrint c, PlainChar x := by
  intro x hx
  unfold escapedChar Script.escapeDollar at hx
  obtain ⟨y, hy, hxy⟩ := List.mem_flatMap.mp hx
  have hy' : PlainChar y := by
    rcases quoteChar_cases isPrint c with ⟨e, _⟩ | ⟨e, _⟩ | ⟨a, t, e, _, ha, ht⟩
    · rw [e] at hy
      simp only [List.mem_cons, List.not_mem_nil, or_false] at hy
      rcases hy with rfl | rfl
      · decide
      · exact h
    · rw [e] at hy
      simp only [List.mem_singleton] at hy
      subst hy
      exact h
    · rw [e] at hy
      simp only [List.mem_cons] at hy
      have hhex : ∀ x ∈ "0123456789abcdef".toList, PlainChar x := by decide
      have hesc : ∀ x ∈ "abfnrtvxuU".toList, PlainChar x := by decide
      rcases hy with rfl | rfl | hy
      · decide
      · exact hesc _ ha
      · exact hhex _ (ht _ hy)
  split at hxy
  · simp only [List.mem_cons, List.not_mem_nil, or_false] at hxy
    rcases hxy with rfl | rfl <;> decide
  · simp only [List.mem_singleton] at hxy
    subst hxy
    exact hy'

end Power

open Spec Spec.Power

variable {ω : Type}

/-- How a command shows in the trace on Windows -/
def shownWin (isPrint : Char → Bool) (c : String) : Text := unpair (Script.escaped isPrint c.toList)

/-- C119: PowerShell that runs the script of a step writes `_netrc`, removes the credentials and the script from
the variables, and then does the commands one after the other, each announced by its text, until one ends it or
leaves an exit code that is not zero. -/
theorem C119_runs (C : Commands ω) (isPrint : Char → Bool) (hq : ∀ q, psQuote q → isPrint q = true) (cmds : List String)
    (hs : ∀ c ∈ cmds, (statements c).isSome ∧ Paired c.toList) (s : State ω) :
    powershell C (Script.windows isPrint cmds) s = some (perform C (shownWin isPrint) cmds (prepared C s)) := by
  have hs' : ∀ c ∈ cmds, (statements c).isSome ∧ Paired (Script.escaped isPrint c.toList) :=
    fun c hc => ⟨(hs c hc).1, (Power.paired_escaped isPrint hq _).2 (hs c hc).2⟩
  unfold powershell
  rw [Power.windows_parse isPrint cmds hs', Option.map_some, Power.execAll_append, Power.head_run]
  simp only
  rw [Power.commands_run C isPrint cmds hs']
  rfl

/-- C119: without single quotes the announcement is the command in double quotes. -/
theorem C119_shown (isPrint : Char → Bool) (c : String) (h : ∀ x ∈ c.toList, ¬ psQuote x) :
    shownWin isPrint c = Script.escaped isPrint c.toList := by
  have : ∀ w : Text, (∀ x ∈ w, ¬ psQuote x) → unpair w = w := by
    intro w
    induction w with
    | nil => exact fun _ => rfl
    | cons c w ih =>
      intro h
      cases w with
      | nil => rfl
      | cons d w => rw [unpair, if_neg (h c (.head _)), ih fun x hx => h x (.tail _ hx)]
  exact this _ (escaped_psQuote h)

/-- C119: what comes behind a command that ends the script is not run. -/
theorem C119_stops (C : Commands ω) (isPrint : Char → Bool) (hq : ∀ q, psQuote q → isPrint q = true) (cmds rest : List String)
    (hs : ∀ c ∈ cmds ++ rest, (statements c).isSome ∧ Paired c.toList) (s : State ω)
    (h : (perform C (shownWin isPrint) cmds (prepared C s)).2 ≠ none) :
    powershell C (Script.windows isPrint (cmds ++ rest)) s = powershell C (Script.windows isPrint cmds) s := by
  rw [C119_runs C isPrint hq _ hs, C119_runs C isPrint hq _ (fun c hc => hs c (List.mem_append_left _ hc)), Power.perform_append]
  rcases hx : perform C (shownWin isPrint) cmds (prepared C s) with ⟨s1, _ | n⟩
  · rw [hx] at h
    exact absurd rfl h
  · rfl

/-- C119: a step never passes before all its commands were run, if none of them ends the script by itself and
`$LASTEXITCODE` has a value all the time. -/
theorem C119_status (C : Commands ω) (hC : Obedient C) (isPrint : Char → Bool) (hq : ∀ q, psQuote q → isPrint q = true) (cmds : List String)
    (hs : ∀ c ∈ cmds, (statements c).isSome ∧ Paired c.toList) (s : State ω) (hl : s.last ≠ none) :
    (powershell C (Script.windows isPrint cmds) s).map (·.2) ≠ some (some 0) := by
  rw [C119_runs C isPrint hq cmds hs]
  intro h
  exact Power.perform_obedient hC (shownWin isPrint) cmds (prepared C s) hl (Option.some.inj h)

/-- C119: the commands do not see the credentials, except in `_netrc`. -/
theorem C119_credentials (C : Commands ω) (isPrint : Char → Bool) (hq : ∀ q, psQuote q → isPrint q = true) (cmds : List String)
    (hs : ∀ c ∈ cmds, (statements c).isSome ∧ Paired c.toList) (s : State ω) (env : String → Option String)
    (hv : ∀ x, x ∉ hiddenVars → env x = s.env x)
    (hn : s.get "CI_NETRC_MACHINE" = "" ∨ netrc { s with env := env } = netrc s) :
    powershell C (Script.windows isPrint cmds) { s with env := env } = powershell C (Script.windows isPrint cmds) s := by
  rw [C119_runs C isPrint hq cmds hs, C119_runs C isPrint hq cmds hs]
  congr 2
  have e1 : ∀ x, x ∉ hiddenVars → State.get { s with env := env } x = s.get x := fun x hx => by
    show (env x).getD "" = _
    rw [hv x hx]
    rfl
  have e2 := e1 "CI_NETRC_MACHINE" (by decide)
  have e3 := e1 "USERPROFILE" (by decide)
  unfold prepared
  rw [e2, e3]
  have e4 : (fun x => if x ∈ hiddenVars then none else env x) = fun x => if x ∈ hiddenVars then none else s.env x := by
    funext x
    by_cases hx : x ∈ hiddenVars
    · rw [if_pos hx, if_pos hx]
    · rw [if_neg hx, if_neg hx, hv x hx]
  rcases hn with hn | hn
  · simp only [hn, e4, if_true]
  · simp only [hn, e4]

/-- C119: an apostrophe in the last command, and nothing at all is run: the script cannot be read. -/
theorem C119_apostrophe (C : Commands ω) (isPrint : Char → Bool) (hq : ∀ q, psQuote q → isPrint q = true) (cmds : List String)
    (hs : ∀ c ∈ cmds, (statements c).isSome ∧ Paired c.toList) (a b : String) (ha : ∀ c ∈ a.toList, PlainChar c) (hb : ∀ c ∈ b.toList, PlainChar c)
    (s : State ω) : powershell C (Script.windows isPrint (cmds ++ [a ++ "'" ++ b])) s = none := by
  have hs' : ∀ c ∈ cmds, (statements c).isSome ∧ Paired (Script.escaped isPrint c.toList) :=
    fun c hc => ⟨(hs c hc).1, (Power.paired_escaped isPrint hq _).2 (hs c hc).2⟩
  have hq' : Power.escapedChar isPrint '\'' = ['\''] := Power.escapedChar_quote isPrint (.inl rfl) (hq _ (.inl rfl))
  have e : Script.escaped isPrint (a ++ "'" ++ b).toList =
      ('"' :: a.toList.flatMap (Power.escapedChar isPrint)) ++ '\'' :: (b.toList.flatMap (Power.escapedChar isPrint) ++ ['"']) := by
    rw [escaped_eq]
    show '"' :: ((a ++ "'" ++ b).toList.flatMap (Power.escapedChar isPrint) ++ ['"']) = _
    rw [String.toList_append, String.toList_append, List.flatMap_append, List.flatMap_append]
    show '"' :: (_ ++ (Power.escapedChar isPrint '\'' ++ []) ++ _ ++ _) = _
    rw [hq']
    simp
  have key : ∀ r : Reading, r = Power.push r.before {} → ((Script.traceWin isPrint (a ++ "'" ++ b).toList ++ "\n".toList).foldl scan r).mode = .double := by
    intro r hr
    rw [hr, Power.foldl_push, Power.push_mode]
    have e2 : Script.traceWin isPrint (a ++ "'" ++ b).toList ++ "\n".toList =
        "\nWrite-Output ('+ ".toList ++ (('"' :: a.toList.flatMap (Power.escapedChar isPrint)) ++ ('\'' :: (b.toList.flatMap (Power.escapedChar isPrint) ++
          ('"' :: ("');\n& ".toList ++ (a.toList ++ ('\'' :: (b.toList ++ "; if ($LASTEXITCODE -ne 0) {exit $LASTEXITCODE}\n\n".toList)))))))) := by
      unfold Script.traceWin
      rw [e, String.toList_append, String.toList_append]
      have : "; if ($LASTEXITCODE -ne 0) {exit $LASTEXITCODE}\n".toList ++ "\n".toList = "; if ($LASTEXITCODE -ne 0) {exit $LASTEXITCODE}\n\n".toList := by
        decide +kernel
      rw [← this]
      have h1 : "'".toList = ['\''] := rfl
      rw [h1]
      simp only [List.append_assoc, List.cons_append, List.nil_append]
    have h1 : "\nWrite-Output ('+ ".toList.foldl scan {} = { mode := .single, depth := 1, prev := ' ', cur := "Write-Output ('+ ".toList } := by
      decide +kernel
    rw [e2, List.foldl_append, h1, List.foldl_append, Power.paired_read (w := '"' :: a.toList.flatMap (Power.escapedChar isPrint)) (Power.paired_plain ?_) _ rfl, List.foldl_cons]
    · generalize "Write-Output ('+ ".toList ++ _ = cur
      generalize (List.getLast? _).getD _ = prev
      have h2 : (scan { mode := .single, depth := 1, prev := prev, cur := cur } '\'').mode = .code := rfl
      generalize scan { mode := .single, depth := 1, prev := prev, cur := cur } '\'' = r2 at h2
      rw [List.foldl_append, List.foldl_cons]
      have h3 := Power.fold_plain (l := b.toList.flatMap (Power.escapedChar isPrint)) (by
        intro x hx
        obtain ⟨y, hy, hx⟩ := List.mem_flatMap.1 hx
        exact Power.escapedChar_plainChar isPrint (hb y hy) x hx) r2 h2
      generalize (b.toList.flatMap (Power.escapedChar isPrint)).foldl scan r2 = r3 at h3
      have h4 : (scan r3 '"').mode = .double := by
        unfold scan
        simp only [h3]
        rfl
      rw [Power.double_read ?_ _ h4]
      · exact h4
      · intro c hc
        simp only [List.mem_append, List.mem_cons] at hc
        rcases hc with hc | hc | hc | hc | hc
        · revert c; decide
        · exact ⟨(ha c hc).2.1, (ha c hc).2.2.1⟩
        · subst hc; decide
        · exact ⟨(hb c hc).2.1, (hb c hc).2.2.1⟩
        · revert c; decide +kernel
    · intro x hx
      rcases List.mem_cons.1 hx with rfl | hx
      · decide
      · obtain ⟨y, hy, hx⟩ := List.mem_flatMap.1 hx
        exact (Power.escapedChar_plainChar isPrint (ha y hy) x hx).1
  unfold powershell Script.windows parse
  rw [String.toList_ofList, List.flatMap_append, ← List.append_assoc, List.foldl_append, List.foldl_append, List.foldl_append, Power.head_read,
    Power.cmds_read isPrint cmds hs']
  rw [← List.foldl_append]
  have h5 := key (Power.push (Power.headStatements ++ cmds.flatMap fun c => [Power.traceStatement (Script.escaped isPrint c.toList)] ++ (statements c).getD [] ++
    [Power.checkStatement]) {}) (by simp [Power.push])
  simp only [List.flatMap_cons, List.flatMap_nil, List.append_nil]
  generalize List.foldl scan _ _ = r at h5
  simp [Reading.closed, h5]

/-- C119: the program that a compiled step with commands runs in a Windows container does this: it is PowerShell, which
gets the script from a variable. -/
theorem C119_step {E : Ext} {c : Compiler} (hc : c.Std) (ht : c.transform = none) {rnd : Nat → String} {p : Pipeline} {sp : Engine.Spec}
    (h : compile E c rnd p = some sp) (hos : p.platform.os = "windows") (hq : ∀ q, psQuote q → E.isPrint q = true) :
    List.Forall₂ (fun y s =>
      y.2.commands ≠ [] → ¬ IsBuild y → (∀ c ∈ y.2.commands, (statements c).isSome ∧ Paired c.toList) →
      s.docker.command = ["powershell", "-noprofile", "-noninteractive", "-command"] ∧
      s.docker.args = ["[System.Text.Encoding]::UTF8.GetString([System.Convert]::FromBase64String($Env:CI_SCRIPT)) | iex"] ∧
      ∃ v text, s.envs.get? "CI_SCRIPT" = some v ∧ decode64 v.toList = some (utf8 text) ∧
        ∀ (ω : Type) (C : Commands ω) (st : State ω),
          powershell C text st = some (perform C (shownWin E.isPrint) y.2.commands (prepared C st)))
      (sources p) sp.steps := by
  refine (C37_windows_step hc ht h hos).imp ?_
  intro y s hy h1 h2 h3
  obtain ⟨e1, e2, e3⟩ := hy h1 h2
  obtain ⟨v, hv, hd⟩ := Option.bind_eq_some_iff.1 e1
  exact ⟨e2, e3, v, _, hv, hd, fun ω C st => C119_runs C E.isPrint hq _ h3 st⟩

/-! ### Examples -/

/-- Statements that are written down; `& bad` fails, `& Get-Date` is not a program and sets no exit code. -/
def exPower : Commands (List Text) where
  run l s :=
    if "& bad".toList <+: l then ({ s with last := some 2, world := s.world ++ [l] }, none)
    else if l = "& Get-Date".toList then ({ s with world := s.world ++ [l] }, none)
    else ({ s with last := some 0, world := s.world ++ [l] }, none)
  join a b := a ++ "\\" ++ b

/-- A new PowerShell with these variables -/
def exWindows (env : List (String × String)) : State (List Text) where
  env x := (env.find? (·.1 = x)).map (·.2)
  world := []

/-- Which characters are printed -/
def exPrint (c : Char) : Bool := exExt.isPrint c || decide (psQuote c)

theorem exPrint_quotes : ∀ q, psQuote q → exPrint q = true := by
  intro q h
  simp [exPrint, h]

theorem exWhole : ∀ c ∈ ["go build; go test", "echo \"a;b\" (1;2)", "echo don''t", "bad", "bad\ngo test", "Get-Date"],
    (statements c).isSome ∧ Paired c.toList := by
  have h : ∀ c ∈ ["go build; go test", "echo \"a;b\" (1;2)", "echo don''t", "bad", "bad\ngo test", "Get-Date"], (statements c).isSome := by
    decide +kernel
  intro c hc
  refine ⟨h c hc, ?_⟩
  simp only [List.mem_cons, List.not_mem_nil, or_false] at hc
  rcases hc with rfl | rfl | rfl | rfl | rfl | rfl
  · exact Power.paired_plain (by decide)
  · exact Power.paired_plain (by decide)
  · exact Power.paired_append (a := "echo don".toList) (Power.paired_plain (by decide)) (.pair (.inl rfl) (.inl rfl) (Power.paired_plain (a := ['t']) (by decide)))
  · exact Power.paired_plain (by decide)
  · exact Power.paired_plain (by decide)
  · exact Power.paired_plain (by decide)

/-- The statements of a command -/
example : statements "go build; go test" = some ["& go build".toList, "go test".toList] ∧
    statements "echo \"a;b\" (1;2)" = some ["& echo \"a;b\" (1;2)".toList] ∧ statements "go build # all" = none := by
  decide +kernel

/-- The second command fails, the third is not run. -/
example : ((powershell exPower (Script.windows exPrint ["go build; go test", "bad", "echo don''t"]) (exWindows [])).map fun q =>
      (q.1.world, q.1.out, q.2)) =
    some (["& go build".toList, "go test".toList, "& bad".toList], "+ \"go build; go test\"\n+ \"bad\"\n".toList, some 2) := by
  rw [C119_runs exPower exPrint exPrint_quotes _ (fun c hc => exWhole c (by revert hc; simp; grind))]
  decide +kernel

/-- The commands see no credentials, `_netrc` has them. -/
example : let s := prepared exPower (exWindows [("USERPROFILE", "c:"), ("CI_NETRC_MACHINE", "git"), ("CI_NETRC_USERNAME", "u"), ("CI_NETRC_PASSWORD", "p")])
    s.env "CI_NETRC_PASSWORD" = none ∧ s.env "USERPROFILE" = some "c:" ∧ s.files "c:\\_netrc" = some "machine git\nlogin u\npassword p\n" := by
  decide +kernel

/-- C119: what does not hold.  A failure of a line that is not the last one of its command goes unnoticed.  So does
the failure of a command with a comment behind it, which makes the check part of the comment.  If `$LASTEXITCODE`
has no value at the start, a first command that is not a program ends the script, and the step passes without
running the rest. -/
theorem C119_limits :
    ((powershell exPower (Script.windows exPrint ["bad\ngo test"]) (exWindows [])).map fun q => (q.1.world, q.2)) =
      some (["& bad".toList, "go test".toList], none) ∧
    ((powershell exPower (Script.windows exPrint ["bad # all", "go test"]) (exWindows [])).map fun q => (q.1.world, q.2)) =
      some (["& bad ".toList, "& go test".toList], none) ∧
    ((powershell exPower (Script.windows exPrint ["Get-Date", "bad"]) { exWindows [] with last := none }).map fun q => (q.1.world, q.2)) =
      some (["& Get-Date".toList], some 0) := by
  refine ⟨?_, ?_, ?_⟩
  · rw [C119_runs exPower exPrint exPrint_quotes _ (fun c hc => exWhole c (by revert hc; simp; grind))]
    decide +kernel
  · have h1 : ((["bad # all", "go test"].flatMap fun c => Script.traceWin exPrint c.toList) ++ "\n".toList).foldl scan {} =
        Power.push [Power.traceStatement "\"bad # all\"".toList, "& bad ".toList, Power.traceStatement "\"go test\"".toList, "& go test".toList,
          Power.checkStatement] {} := by
      decide +kernel
    have h2 : parse (Script.windows exPrint ["bad # all", "go test"]).toList = some (Power.headStatements ++ [Power.traceStatement "\"bad # all\"".toList,
        "& bad ".toList, Power.traceStatement "\"go test\"".toList, "& go test".toList, Power.checkStatement]) := by
      unfold Script.windows parse
      rw [String.toList_ofList, List.append_assoc, List.foldl_append, Power.head_read, Power.foldl_push, h1, Power.push_push]
      generalize Power.headStatements ++ _ = b
      show some (b ++ []) = _
      rw [List.append_nil]
    unfold powershell
    rw [h2, Option.map_some, Power.execAll_append, Power.head_run]
    decide +kernel
  · rw [C119_runs exPower exPrint exPrint_quotes _ (fun c hc => exWhole c (by revert hc; simp; grind))]
    decide +kernel

/-- `C119_apostrophe` -/
example : powershell exPower (Script.windows exPrint ["go build; go test", "echo it" ++ "'" ++ "s done"]) (exWindows []) = none :=
  C119_apostrophe exPower exPrint exPrint_quotes ["go build; go test"] (fun c hc => exWhole c (by revert hc; simp; grind)) "echo it" "s done"
    (by decide) (by decide) _

end Drone
