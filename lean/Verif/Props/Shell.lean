import Verif.Spec.Shell
/-
C118: what a shell does with the script of a step (/repo/yaml/compiler/script_posix.go:27-84).
-/
namespace Drone
namespace Shell
open Spec Spec.Shell

/-! ### Lines -/

theorem lines_cons (c : Char) {r : List Char} (h : r ≠ []) :
    lines (c :: r) = if c = '\n' then [] :: lines r else (c :: (lines r).headD []) :: (lines r).tail := by
  cases r with
  | nil => exact absurd rfl h
  | cons d r => rw [lines]

theorem lines_append (a t : List Char) : lines (a ++ '\n' :: t) = lines (a ++ ['\n']) ++ lines t := by
  induction a with
  | nil =>
    cases t with
    | nil => rfl
    | cons d r => rw [List.nil_append, lines]; rfl
  | cons c a ih =>
    rw [List.cons_append, List.cons_append, lines_cons c (by simp), lines_cons c (by simp), ih]
    split
    · rfl
    · have : lines (a ++ ['\n']) ≠ [] := by
        cases a with
        | nil => exact List.cons_ne_nil _ _
        | cons d a =>
          rw [List.cons_append, lines_cons d (by simp)]
          split <;> simp
      cases h : lines (a ++ ['\n']) with
      | nil => exact absurd h this
      | cons x xs => rfl

theorem lines_line {l : List Char} (h : '\n' ∉ l) : lines (l ++ ['\n']) = [l] := by
  induction l with
  | nil => rfl
  | cons c l ih =>
    simp only [List.mem_cons, not_or] at h
    rw [List.cons_append, lines_cons c (by simp), if_neg (fun e => h.1 e.symm), ih h.2]
    rfl

theorem lines_textLines (ls : List (List Char)) (h : ∀ l ∈ ls, '\n' ∉ l) (t : List Char) : lines (textLines ls ++ t) = ls ++ lines t := by
  induction ls with
  | nil => rfl
  | cons l ls ih =>
    have : textLines (l :: ls) ++ t = l ++ '\n' :: (textLines ls ++ t) := by simp [textLines]
    rw [this, lines_append, lines_line (h l (.head _)), ih (fun l hl => h l (.tail _ hl))]
    rfl

/-! ### Running -/

variable {ω : Type}

theorem runLines_all (C : Commands ω) (ls rest : List Line) (h : ∀ l ∈ ls, ifLine l = none ∧ catLine l = none) (s : State ω) :
    runLines C .top (ls ++ rest) s = match execAll C ls s with
      | (s, true) => (s, true)
      | (s, false) => runLines C .top rest s := by
  induction ls generalizing s with
  | nil => rfl
  | cons l ls ih =>
    obtain ⟨h1, h2⟩ := h l (.head _)
    rw [List.cons_append, runLines, step, execAll]
    simp only [h1, h2]
    rcases execE C l s with ⟨s, _ | _⟩
    · simp only
      rw [ih fun l hl => h l (.tail _ hl)]
    · rfl

theorem between_none {a l : List Char} (b : List Char) (h : ¬ a <+: l) : between a b l = none := if_neg fun h' => h h'.1

theorem between_some (a l : List Char) : between a [] (a ++ l) = some l := by
  unfold between
  rw [if_pos ⟨List.prefix_append _ _, List.nil_suffix, by simp⟩]
  simp

theorem blank_line (C : Commands ω) (rest : List Line) (s : State ω) (he : s.errexit = true → s.status = 0) :
    runLines C .top ([] :: rest) s = runLines C .top rest s := by
  have h := runLines_all C [[]] rest (by decide) s
  rw [List.singleton_append] at h
  rw [h]
  have : execAll C [[]] s = (s, false) := by
    have : execE C [] s = (s, false) := by
      show (s, _) = _
      cases hh : s.errexit with
      | false => simp [exec, hh]
      | true => simp [exec, he hh]
    simp only [execAll, this]
  rw [this]

theorem trace_line (C : Commands ω) (isPrint : Char → Bool) (c : List Char) (h : '`' ∉ c) (rest : List Line) (s : State ω) :
    runLines C .top (("echo + ".toList ++ Script.escaped isPrint c) :: rest) s =
      runLines C .top rest { s with out := s.out ++ ("+ ".toList ++ C.echo (c.flatMap (shown isPrint)) ++ ['\n']), status := 0 } := by
  obtain ⟨body, e, hb⟩ := C38_trace_word_partial isPrint c h []
  rw [List.append_nil] at hb
  rw [e]
  have el : "echo + ".toList ++ '"' :: body = "echo + \"".toList ++ body := rfl
  rw [el]
  have h1 : ifLine ("echo + \"".toList ++ body) = none := by
    unfold ifLine
    rw [between_none _ (by rintro ⟨t, e⟩; cases e)]
    rfl
  have h2 : catLine ("echo + \"".toList ++ body) = none := between_none _ (by rintro ⟨t, e⟩; cases e)
  have h3 : unsetLine ("echo + \"".toList ++ body) = none := by
    unfold unsetLine
    rw [between_none _ (by rintro ⟨t, e⟩; cases e)]
    rfl
  have h4 : echoLine ("echo + \"".toList ++ body) = some (c.flatMap (shown isPrint)) := by
    unfold echoLine
    rw [between_some, Option.bind_some, hb]
    rfl
  have h5 : execE C ("echo + \"".toList ++ body) s =
      ({ s with out := s.out ++ ("+ ".toList ++ C.echo (c.flatMap (shown isPrint)) ++ ['\n']), status := 0 }, false) := by
    have : exec C ("echo + \"".toList ++ body) s =
        ({ s with out := s.out ++ ("+ ".toList ++ C.echo (c.flatMap (shown isPrint)) ++ ['\n']), status := 0 }, false) := by
      unfold exec
      rw [if_neg (by simp), if_neg (by rintro h; cases h), h3, h4]
    unfold execE
    rw [this]
    simp
  rw [runLines, step]
  simp only [h1, h2, h5]

theorem execAll_quiet (C : Commands ω) (ls : List Line) (s s' : State ω) (he : s.errexit = true → s.status = 0) (h : execAll C ls s = (s', false)) :
    s'.errexit = true → s'.status = 0 := by
  induction ls generalizing s with
  | nil => cases h; exact he
  | cons l ls ih =>
    rw [execAll] at h
    cases hx : execE C l s with
    | mk s1 b =>
      rw [hx] at h
      cases b with
      | true => cases h
      | false =>
        refine ih s1 ?_ h
        intro h1
        have e1 : (exec C l s).1 = s1 := congrArg Prod.fst hx
        have e2 := congrArg Prod.snd hx
        simp only [execE, e1, h1, Bool.true_and, Bool.or_eq_false_iff] at e2
        simpa using e2.2

theorem commands_run (C : Commands ω) (isPrint : Char → Bool) (cmds : List String) (hb : ∀ c ∈ cmds, '`' ∉ c.toList) (hs : ∀ c ∈ cmds, Simple c)
    (rest : List Line) (s : State ω) (he : s.errexit = true → s.status = 0) :
    runLines C .top (cmds.flatMap (fun c => [[], "echo + ".toList ++ Script.escaped isPrint c.toList] ++ lines (c.toList ++ ['\n'])) ++ rest) s =
      match perform C (fun c => c.toList.flatMap (shown isPrint)) cmds s with
      | (s, true) => (s, true)
      | (s, false) => runLines C .top rest s := by
  induction cmds generalizing s with
  | nil => rfl
  | cons c cs ih =>
    rw [List.flatMap_cons, List.append_assoc, List.append_assoc, List.cons_append, List.singleton_append, blank_line C _ _ he,
      trace_line C isPrint _ (hb c (.head _)), runLines_all C _ _ (hs c (.head _)), perform]
    cases hx : execAll C (lines (c.toList ++ ['\n'])) { s with out := s.out ++ ("+ ".toList ++ C.echo (c.toList.flatMap (shown isPrint)) ++ ['\n']), status := 0 } with
    | mk s1 b =>
      cases b with
      | true => rfl
      | false =>
        simp only
        exact ih (fun c hc => hb c (.tail _ hc)) (fun c hc => hs c (.tail _ hc)) s1 (execAll_quiet C _ _ _ (fun _ => rfl) hx)

/-! ### The first lines -/

theorem expand_path (vars : String → Option String) : expand vars "$HOME/.netrc".toList = ((vars "HOME").getD "").toList ++ "/.netrc".toList := by
  rfl

theorem expand_machine (vars : String → Option String) :
    expand vars "machine $CI_NETRC_MACHINE".toList = "machine ".toList ++ ((vars "CI_NETRC_MACHINE").getD "").toList := by
  rfl

theorem expand_login (vars : String → Option String) :
    expand vars "login $CI_NETRC_USERNAME".toList = "login ".toList ++ ((vars "CI_NETRC_USERNAME").getD "").toList := by
  rfl

theorem expand_password (vars : String → Option String) :
    expand vars "password $CI_NETRC_PASSWORD".toList = "password ".toList ++ ((vars "CI_NETRC_PASSWORD").getD "").toList := by
  rfl

theorem run_next (C : Commands ω) (m m' : Mode) (l : Line) (ls : List Line) (s s' : State ω) (h : step C m l s = (m', s', false)) :
    runLines C m (l :: ls) s = runLines C m' ls s' := by
  rw [runLines, h]

theorem exec_unset (C : Commands ω) (n : List Char) (h1 : unsetLine ("unset ".toList ++ n) = some n) (s : State ω) :
    exec C ("unset ".toList ++ n) s = ({ s with vars := fun x => if x = String.ofList n then none else s.vars x, status := 0 }, false) := by
  unfold exec
  rw [if_neg (by simp), if_neg (by rintro h; cases h), h1]

theorem step_unset (C : Commands ω) (name : String) (h1 : unsetLine ("unset ".toList ++ name.toList) = some name.toList) (s : State ω) :
    step C .top ("unset ".toList ++ name.toList) s = (.top, { s with vars := fun x => if x = name then none else s.vars x, status := 0 }, false) := by
  have e1 : ifLine ("unset ".toList ++ name.toList) = none := by
    unfold ifLine
    rw [between_none _ (by rintro ⟨t, e⟩; cases e)]
    rfl
  have e2 : catLine ("unset ".toList ++ name.toList) = none := between_none _ (by rintro ⟨t, e⟩; cases e)
  rw [step]
  simp only [e1, e2, execE, exec_unset C _ h1, String.ofList_toList]
  simp

theorem unset_four (a b c d : String) (vars : String → Option String) :
    (fun x => if x = d then none else if x = c then none else if x = b then none else if x = a then none else vars x) =
      fun x => if x ∈ [a, b, c, d] then none else vars x := by
  funext x
  by_cases h1 : x = d
  · simp [h1]
  · by_cases h2 : x = c
    · simp [h2]
    · by_cases h3 : x = b
      · simp [h3]
      · by_cases h4 : x = a
        · simp [h4]
        · simp [h1, h2, h3, h4]

/-- The lines behind `fi` -/
theorem tail_run (C : Commands ω) (rest : List Line) (s : State ω) :
    runLines C .top (scriptHead.drop 9 ++ rest) s =
      runLines C .top rest { s with vars := fun x => if x ∈ credentials then none else s.vars x, errexit := true, status := 0 } := by
  show runLines C .top (("unset ".toList ++ "CI_NETRC_USERNAME".toList) :: ("unset ".toList ++ "CI_NETRC_PASSWORD".toList) ::
    ("unset ".toList ++ "DRONE_NETRC_USERNAME".toList) :: ("unset ".toList ++ "DRONE_NETRC_PASSWORD".toList) :: "set -e".toList :: rest) s = _
  rw [run_next C _ _ _ _ _ _ (step_unset C _ (by decide) s), run_next C _ _ _ _ _ _ (step_unset C _ (by decide) _),
    run_next C _ _ _ _ _ _ (step_unset C _ (by decide) _), run_next C _ _ _ _ _ _ (step_unset C _ (by decide) _)]
  have : ∀ s : State ω, step C .top "set -e".toList s = (.top, { s with errexit := true, status := 0 }, false) := by
    intro s
    rfl
  rw [run_next C _ _ _ _ _ _ (this _), credentials, ← unset_four]

theorem head_run (C : Commands ω) (rest : List Line) (s : State ω) (he : s.errexit = false) :
    runLines C .top (scriptHead ++ rest) s = runLines C .top rest (prepared C s) := by
  have e : scriptHead ++ rest = [] :: "if [ -n \"$CI_NETRC_MACHINE\" ]; then".toList :: "cat <<EOF > $HOME/.netrc".toList ::
    "machine $CI_NETRC_MACHINE".toList :: "login $CI_NETRC_USERNAME".toList :: "password $CI_NETRC_PASSWORD".toList :: "EOF".toList ::
    "chmod 0600 $HOME/.netrc".toList :: "fi".toList :: (scriptHead.drop 9 ++ rest) := rfl
  rw [e, blank_line C _ _ (by simp [he])]
  have hif : step C .top "if [ -n \"$CI_NETRC_MACHINE\" ]; then".toList s =
      (.body (value s.vars "CI_NETRC_MACHINE".toList ≠ []), s, false) := by
    rfl
  rw [run_next C _ _ _ _ _ _ hif]
  have hv : value s.vars "CI_NETRC_MACHINE".toList = (s.get "CI_NETRC_MACHINE").toList := rfl
  rw [hv]
  by_cases hm : s.get "CI_NETRC_MACHINE" = ""
  · rw [hm]
    show runLines C (.body false) _ s = _
    have h1 : step C (.body false) "cat <<EOF > $HOME/.netrc".toList s = (.here (some false) (expand s.vars "$HOME/.netrc".toList) [], s, false) := rfl
    rw [run_next C _ _ _ _ _ _ h1, run_next C _ _ _ _ _ _ rfl, run_next C _ _ _ _ _ _ rfl, run_next C _ _ _ _ _ _ rfl,
      run_next C _ _ _ _ _ _ rfl, run_next C _ _ _ _ _ _ rfl, run_next C _ _ _ _ _ _ rfl, tail_run]
    congr 1
    simp [prepared, hm]
  · have : decide ((s.get "CI_NETRC_MACHINE").toList ≠ []) = true := by simp [hm]
    rw [this]
    have h1 : step C (.body true) "cat <<EOF > $HOME/.netrc".toList s = (.here (some true) (expand s.vars "$HOME/.netrc".toList) [], s, false) := rfl
    have h2 : ∀ path text s, step C (.here (some true) path text) "EOF".toList s =
        (.body true, cat C path text s, (cat C path text s).errexit && (cat C path text s).status != 0) := fun _ _ _ => rfl
    have h3 : ∀ path text (s : State ω), (cat C path text s).errexit = s.errexit := by
      intro path text s
      unfold cat
      split <;> rfl
    rw [run_next C _ _ _ _ _ _ h1, run_next C _ _ _ _ _ _ rfl, run_next C _ _ _ _ _ _ rfl, run_next C _ _ _ _ _ _ rfl,
      run_next C _ (.body true) _ _ _ (cat C _ _ s) (by rw [h2, h3, he]; rfl), expand_path, expand_machine, expand_login, expand_password]
    have h4 : ∀ s : State ω, s.errexit = false → step C (.body true) "chmod 0600 $HOME/.netrc".toList s = (.body true, { s with
        world := (C.chmod (String.ofList (expand s.vars "$HOME/.netrc".toList)) s.world).1
        status := (C.chmod (String.ofList (expand s.vars "$HOME/.netrc".toList)) s.world).2 }, false) := by
      intro s he
      have : exec C "chmod 0600 $HOME/.netrc".toList s = ({ s with
        world := (C.chmod (String.ofList (expand s.vars "$HOME/.netrc".toList)) s.world).1
        status := (C.chmod (String.ofList (expand s.vars "$HOME/.netrc".toList)) s.world).2 }, false) := rfl
      rw [step]
      have e1 : ("chmod 0600 $HOME/.netrc".toList = "fi".toList) = False := by simp
      have e2 : catLine "chmod 0600 $HOME/.netrc".toList = none := by decide
      simp only [e1, e2, if_false, execE, this, he, Bool.false_and, Bool.or_false]
    have h5 : ∀ s : State ω, step C (.body true) "fi".toList s = (.top, s, false) := fun _ => rfl
    rw [run_next C _ _ _ _ _ _ (h4 _ (by rw [h3, he])), run_next C _ _ _ _ _ _ (h5 _), tail_run]
    congr 1
    have hp : String.ofList (((s.vars "HOME").getD "").toList ++ "/.netrc".toList) = s.get "HOME" ++ "/.netrc" :=
      String.toList_injective (by simp [State.get])
    have ht : String.ofList ([] ++ ("machine ".toList ++ ((s.vars "CI_NETRC_MACHINE").getD "").toList) ++ ['\n'] ++
        ("login ".toList ++ ((s.vars "CI_NETRC_USERNAME").getD "").toList) ++ ['\n'] ++
        ("password ".toList ++ ((s.vars "CI_NETRC_PASSWORD").getD "").toList) ++ ['\n']) = netrc s :=
      String.toList_injective (by simp [netrc, State.get])
    have hvars : ∀ path text, (cat C path text s).vars = s.vars := by
      intro path text
      unfold cat
      split <;> rfl
    have hworld : ∀ path text, (cat C path text s).world = s.world := by
      intro path text
      unfold cat
      split <;> rfl
    have hout : ∀ path text, (cat C path text s).out = s.out := by
      intro path text
      unfold cat
      split <;> rfl
    rw [hvars, hworld, hout, expand_path, hp]
    unfold prepared
    simp only [ne_eq, hm, not_false_eq_true, true_and, if_true]
    congr 1
    unfold cat
    rw [hp, ht]
    split <;> rfl

/-! ### The script -/

theorem posix_lines (isPrint : Char → Bool) (hp : isPrint '\n' = false) (cmds : List String) :
    lines (Script.posix isPrint cmds).toList = scriptHead ++
      (cmds.flatMap (fun c => [[], "echo + ".toList ++ Script.escaped isPrint c.toList] ++ lines (c.toList ++ ['\n'])) ++ [[]]) := by
  have hpre : Script.preamble = textLines scriptHead := by decide +kernel
  unfold Script.posix
  rw [String.toList_ofList, hpre, List.append_assoc, lines_textLines _ (by decide +kernel)]
  generalize scriptHead = head
  refine congrArg (fun t => head ++ t) ?_
  induction cmds with
  | nil => rfl
  | cons c cs ih =>
    have h1 : ∀ t, Script.trace isPrint c.toList ++ t =
        textLines [[], "echo + ".toList ++ Script.escaped isPrint c.toList] ++ (c.toList ++ '\n' :: t) := by
      intro t
      unfold Script.trace
      generalize Script.escaped isPrint c.toList = w
      generalize c.toList = c'
      simp [textLines]
    rw [List.flatMap_cons, List.append_assoc, h1]
    rw [lines_textLines _ (by
      intro l hl
      simp only [List.mem_cons, List.not_mem_nil, or_false] at hl
      rcases hl with rfl | rfl
      · simp
      · intro h
        rcases List.mem_append.1 h with h | h
        · revert h; decide
        · exact escaped_no_nl hp _ h), lines_append, ih, List.flatMap_cons, List.append_assoc, List.append_assoc]

theorem perform_append (C : Commands ω) (f : String → List Char) (a b : List String) (s : State ω) :
    perform C f (a ++ b) s = match perform C f a s with
      | (s, true) => (s, true)
      | (s, false) => perform C f b s := by
  induction a generalizing s with
  | nil => rfl
  | cons c a ih =>
    rw [List.cons_append, perform, perform]
    rcases execAll C (lines (c.toList ++ ['\n'])) _ with ⟨s1, _ | _⟩
    · simp only
      exact ih s1
    · rfl

theorem perform_quiet (C : Commands ω) (f : String → List Char) (cs : List String) (s s' : State ω) (he : s.errexit = true → s.status = 0)
    (h : perform C f cs s = (s', false)) : s'.errexit = true → s'.status = 0 := by
  induction cs generalizing s with
  | nil => cases h; exact he
  | cons c cs ih =>
    rw [perform] at h
    cases hx : execAll C (lines (c.toList ++ ['\n'])) { s with out := s.out ++ ("+ ".toList ++ C.echo (f c) ++ ['\n']), status := 0 } with
    | mk s1 b =>
      rw [hx] at h
      cases b with
      | true => cases h
      | false => exact ih s1 (execAll_quiet C _ _ _ (fun _ => rfl) hx) h

theorem exec_obedient {C : Commands ω} (hC : Obedient C) (l : Line) (s : State ω) (he : s.errexit = true) :
    (exec C l s).1.errexit = true ∧ (exec C l s).2 = false := by
  unfold exec
  split
  · exact ⟨he, rfl⟩
  · split
    · exact ⟨rfl, rfl⟩
    · split
      · exact ⟨he, rfl⟩
      · split
        · exact ⟨he, rfl⟩
        · split
          · exact ⟨he, rfl⟩
          · exact hC l s he

theorem execAll_obedient {C : Commands ω} (hC : Obedient C) (ls : List Line) (s : State ω) (he : s.errexit = true) :
    (execAll C ls s).1.errexit = true ∧ ((execAll C ls s).2 = true → (execAll C ls s).1.status ≠ 0) := by
  induction ls generalizing s with
  | nil => exact ⟨he, nofun⟩
  | cons l ls ih =>
    obtain ⟨h1, h2⟩ := exec_obedient hC l s he
    rw [execAll]
    unfold execE
    rw [h1, h2]
    simp only [Bool.false_or, Bool.true_and]
    by_cases h3 : (exec C l s).1.status = 0
    · rw [h3]
      exact ih _ h1
    · have : ((exec C l s).1.status != 0) = true := by simpa using h3
      rw [this]
      exact ⟨h1, fun _ => h3⟩

theorem perform_obedient {C : Commands ω} (hC : Obedient C) (f : String → List Char) (cs : List String) (s : State ω) (he : s.errexit = true) :
    (perform C f cs s).1.errexit = true ∧ ((perform C f cs s).2 = true → (perform C f cs s).1.status ≠ 0) := by
  induction cs generalizing s with
  | nil => exact ⟨he, nofun⟩
  | cons c cs ih =>
    have h := execAll_obedient hC (lines (c.toList ++ ['\n'])) { s with out := s.out ++ ("+ ".toList ++ C.echo (f c) ++ ['\n']), status := 0 } he
    rw [perform]
    rcases hx : execAll C (lines (c.toList ++ ['\n'])) { s with out := s.out ++ ("+ ".toList ++ C.echo (f c) ++ ['\n']), status := 0 } with ⟨s1, _ | _⟩
    · rw [hx] at h
      exact ih s1 h.1
    · rw [hx] at h
      exact h

end Shell

open Spec Spec.Shell

variable {ω : Type}

/-- How a command shows in the trace -/
def shownText (isPrint : Char → Bool) (c : String) : List Char := c.toList.flatMap (shown isPrint)

/-- C118: a shell that runs the script of a step writes `.netrc`, removes the credentials, and then does
the commands one after the other, each announced by its text, until one ends it. -/
theorem C118_runs (C : Commands ω) (isPrint : Char → Bool) (hp : isPrint '\n' = false) (cmds : List String)
    (hb : ∀ c ∈ cmds, '`' ∉ c.toList) (hs : ∀ c ∈ cmds, Simple c) (s : State ω) :
    sh C (Script.posix isPrint cmds) s = (perform C (shownText isPrint) cmds (prepared C s)).1 := by
  unfold sh
  rw [Shell.posix_lines isPrint hp, Shell.head_run C _ _ rfl, Shell.commands_run C isPrint cmds hb hs _ _ (fun _ => rfl)]
  show (match perform C (shownText isPrint) cmds (prepared C s) with
    | (s, true) => (s, true)
    | (s, false) => runLines C .top [[]] s).1 = _
  cases hx : perform C (shownText isPrint) cmds (prepared C s) with
  | mk s1 b =>
    cases b with
    | true => rfl
    | false =>
      simp only
      rw [Shell.blank_line C _ _ (Shell.perform_quiet C _ _ _ _ (fun _ => rfl) hx)]
      rfl

/-- C118: what comes behind a command that ends the shell is not run. -/
theorem C118_stops (C : Commands ω) (isPrint : Char → Bool) (hp : isPrint '\n' = false) (cmds rest : List String)
    (hb : ∀ c ∈ cmds ++ rest, '`' ∉ c.toList) (hs : ∀ c ∈ cmds ++ rest, Simple c) (s : State ω)
    (h : (perform C (shownText isPrint) cmds (prepared C s)).2 = true) :
    sh C (Script.posix isPrint (cmds ++ rest)) s = sh C (Script.posix isPrint cmds) s := by
  rw [C118_runs C isPrint hp _ hb hs, C118_runs C isPrint hp _ (fun c hc => hb c (List.mem_append_left _ hc))
    (fun c hc => hs c (List.mem_append_left _ hc)), Shell.perform_append]
  cases hx : perform C (shownText isPrint) cmds (prepared C s) with
  | mk s1 b =>
    rw [hx] at h
    cases h
    rfl

/-- C118: a step passes exactly if all its commands do, if none of them ends the shell by itself or
switches `set -e` off. -/
theorem C118_status (C : Commands ω) (hC : Obedient C) (isPrint : Char → Bool) (hp : isPrint '\n' = false) (cmds : List String)
    (hb : ∀ c ∈ cmds, '`' ∉ c.toList) (hs : ∀ c ∈ cmds, Simple c) (s : State ω) :
    (sh C (Script.posix isPrint cmds) s).status = 0 ↔ (perform C (shownText isPrint) cmds (prepared C s)).2 = false := by
  rw [C118_runs C isPrint hp _ hb hs]
  obtain ⟨h1, h2⟩ := Shell.perform_obedient hC (shownText isPrint) cmds (prepared C s) rfl
  constructor
  · intro h
    rw [Bool.eq_false_iff]
    exact fun e => h2 e h
  · intro h
    exact Shell.perform_quiet C _ _ _ _ (fun _ => rfl) (Prod.ext rfl h) h1

/-- C118: the commands do not see the credentials, except in `.netrc`: whatever the values of the variables
are, the outcome is the same if no `.netrc` is written or it has the same text. -/
theorem C118_credentials (C : Commands ω) (isPrint : Char → Bool) (hp : isPrint '\n' = false) (cmds : List String)
    (hb : ∀ c ∈ cmds, '`' ∉ c.toList) (hs : ∀ c ∈ cmds, Simple c) (s : State ω) (vars : String → Option String)
    (hv : ∀ x, x ∉ credentials → vars x = s.vars x)
    (hn : s.get "CI_NETRC_MACHINE" = "" ∨ netrc { s with vars := vars } = netrc s) :
    sh C (Script.posix isPrint cmds) { s with vars := vars } = sh C (Script.posix isPrint cmds) s := by
  rw [C118_runs C isPrint hp _ hb hs, C118_runs C isPrint hp _ hb hs]
  congr 2
  have e1 : ∀ x, x ∉ credentials → State.get { s with vars := vars } x = s.get x := fun x hx => by
    show (vars x).getD "" = _
    rw [hv x hx]
    rfl
  have e2 := e1 "CI_NETRC_MACHINE" (by decide)
  have e3 := e1 "HOME" (by decide)
  unfold prepared
  rw [e2, e3]
  have e4 : (fun x => if x ∈ credentials then none else vars x) = fun x => if x ∈ credentials then none else s.vars x := by
    funext x
    by_cases hx : x ∈ credentials
    · rw [if_pos hx, if_pos hx]
    · rw [if_neg hx, if_neg hx, hv x hx]
  rcases hn with hn | hn
  · simp only [hn, e4, ne_eq, not_true_eq_false, false_and, if_false]
  · simp only [hn, e4]

/-- C118: the program that a compiled step with commands runs in its container does this: it is the shell,
with a script that is mounted for it alone. -/
theorem C118_step {E : Ext} {c : Compiler} (hc : c.Std) (ht : c.transform = none) {rnd : Nat → String} {p : Pipeline} {sp : Engine.Spec}
    (h : compile E c rnd p = some sp) {trusted : Bool} (hl : lint (.pipeline p) trusted = .ok ()) (hp : E.isPrint '\n' = false) :
    List.Forall₂ (fun y s =>
      y.2.commands ≠ [] → p.platform.os ≠ "windows" → ¬ IsBuild y → y.2.name ≠ ".git-credentials" →
      (∀ c ∈ y.2.commands, '`' ∉ c.toList ∧ Simple c) →
      s.docker.command = ["/bin/sh"] ∧ ∃ path, s.docker.args = [path] ∧ ∃ m ∈ s.files, m.path = path ∧ ∃ f,
        sp.files.filter (fun f => f.md.name = m.name) = [f] ∧ ∃ text, f.data = utf8 text ∧
        ∀ (ω : Type) (C : Commands ω) (st : State ω), sh C text st = (perform C (shownText E.isPrint) y.2.commands (prepared C st)).1)
      (sources p) sp.steps := by
  refine (C40_own_script hc ht h hl).imp ?_
  intro y s hy h1 h2 h3 h4 h5
  obtain ⟨e1, e2, m, hm, e3, _, f, e4, e5⟩ := hy h1 h2 h3 h4
  exact ⟨e1, _, e2, m, hm, e3, f, e4, _, e5, fun ω C st => C118_runs C E.isPrint hp _ (fun c hc => (h5 c hc).1) (fun c hc => (h5 c hc).2) st⟩

/-! ### Examples -/

/-- Commands that are written down; `false` fails, `exit 0` ends the shell, `set +e` does what it says. -/
def exCommands : Commands (List Line) where
  run l s :=
    if l = "false".toList then ({ s with status := 1, world := s.world ++ [l] }, false)
    else if l = "exit 0".toList then ({ s with status := 0 }, true)
    else if l = "set +e".toList then ({ s with errexit := false, status := 0 }, false)
    else ({ s with status := 0, world := s.world ++ [l] }, false)
  echo := id
  writable _ _ := true
  chmod _ w := (w, 0)

/-- A new shell with these variables -/
def exShell (vars : List (String × String)) : State (List Line) where
  vars x := (vars.find? (·.1 = x)).map (·.2)
  world := []

theorem exSimple : ∀ c ∈ ["go build\ngo test", "false", "exit 0", "set +e"], '`' ∉ c.toList ∧ Simple c := by
  unfold Simple
  decide +kernel

/-- The second command fails, the third is not run; the lines of the first are. -/
example : let s := sh exCommands (Script.posix exExt.isPrint ["go build\ngo test", "false", "go build\ngo test"]) (exShell [])
    s.world = ["go build".toList, "go test".toList, "false".toList] ∧ s.status = 1 ∧
      s.out = "+ go build\\ngo test\n+ false\n".toList := by
  rw [C118_runs exCommands exExt.isPrint (by decide) _ (by decide +kernel) (fun c hc => (exSimple c (by revert hc; simp; grind)).2)]
  decide +kernel

/-- The commands see no credentials, `.netrc` has them. -/
example : let s := prepared exCommands (exShell [("HOME", "/root"), ("CI_NETRC_MACHINE", "git"), ("CI_NETRC_USERNAME", "u"), ("CI_NETRC_PASSWORD", "p")])
    s.vars "CI_NETRC_PASSWORD" = none ∧ s.vars "HOME" = some "/root" ∧ s.files "/root/.netrc" = some "machine git\nlogin u\npassword p\n" := by
  decide +kernel

/-- C118: the conditions of `C118_status` cannot be dropped: after `set +e` a failure does not count, and `exit 0`
passes without running the rest. -/
theorem C118_limits :
    (let s := sh exCommands (Script.posix exExt.isPrint ["set +e", "false", "set +e"]) (exShell []);
      s.world = ["false".toList] ∧ s.status = 0) ∧
    (let s := sh exCommands (Script.posix exExt.isPrint ["exit 0", "false"]) (exShell []);
      s.world = [] ∧ s.status = 0) := by
  constructor
  · rw [C118_runs exCommands exExt.isPrint (by decide) _ (by decide +kernel) (fun c hc => (exSimple c (by revert hc; simp; grind)).2)]
    decide +kernel
  · rw [C118_runs exCommands exExt.isPrint (by decide) _ (by decide +kernel) (fun c hc => (exSimple c (by revert hc; simp; grind)).2)]
    decide +kernel

end Drone
