/-
C37, C38, C67: the scripts generated from commands.
-/
import Verif.Props.Files

namespace Drone
open Engine (Step File)
open Spec (Role sources IsBuild)

/-! ### C37 -/

/-- Lines joined, each followed by a line feed. -/
def Spec.textLines (ls : List (List Char)) : List Char := ls.flatMap (· ++ ['\n'])

/-- The fixed lines every script starts with. -/
def Spec.scriptHead : List (List Char) := ["", "if [ -n \"$CI_NETRC_MACHINE\" ]; then",
  "cat <<EOF > $HOME/.netrc", "machine $CI_NETRC_MACHINE", "login $CI_NETRC_USERNAME",
  "password $CI_NETRC_PASSWORD", "EOF", "chmod 0600 $HOME/.netrc", "fi",
  "unset CI_NETRC_USERNAME", "unset CI_NETRC_PASSWORD", "unset DRONE_NETRC_USERNAME",
  "unset DRONE_NETRC_PASSWORD", "set -e"].map String.toList

/-- The credential variables are unset before the first command. -/
example : ["unset CI_NETRC_USERNAME", "unset CI_NETRC_PASSWORD", "unset DRONE_NETRC_USERNAME",
    "unset DRONE_NETRC_PASSWORD"].map String.toList ⊆ Spec.scriptHead := by decide

/-- Is it a lower case hexadecimal digit? -/
def Spec.isHex (c : Char) : Prop := c ∈ "0123456789abcdef".toList

theorem hexN_isHex : ∀ k n, ∀ x ∈ Script.hexN k n, Spec.isHex x := by
  intro k
  induction k with
  | zero => intro n; simp [Script.hexN]
  | succ k ih =>
    intro n x hx
    simp only [Script.hexN, List.mem_append, List.mem_singleton] at hx
    rcases hx with hx | rfl
    · exact ih _ x hx
    · unfold Script.hexd Spec.isHex
      have : ∀ m < 16, "0123456789abcdef".toList.getD m '0' ∈ "0123456789abcdef".toList := by decide
      exact this _ (Nat.mod_lt _ (by decide))

theorem quoteChar_cases (isPrint : Char → Bool) (c : Char) :
    (Script.quoteChar isPrint c = ['\\', c] ∧ (c = '"' ∨ c = '\\')) ∨
    (Script.quoteChar isPrint c = [c] ∧ isPrint c = true ∧ c ≠ '"' ∧ c ≠ '\\') ∨
    (∃ e t, Script.quoteChar isPrint c = '\\' :: e :: t ∧ isPrint c = false ∧
      e ∈ "abfnrtvxuU".toList ∧ ∀ x ∈ t, Spec.isHex x) := by
  unfold Script.quoteChar
  by_cases h1 : c = '"' ∨ c = '\\'
  · rw [if_pos h1]; exact .inl ⟨rfl, h1⟩
  rw [if_neg h1]
  by_cases h2 : isPrint c = true
  · rw [if_pos h2]; exact .inr (.inl ⟨rfl, h2, fun h => h1 (.inl h), fun h => h1 (.inr h)⟩)
  rw [if_neg h2]
  have h2' : isPrint c = false := by simpa using h2
  refine .inr (.inr ?_)
  by_cases h3 : c = '\x07'
  · rw [if_pos h3]; exact ⟨_, _, rfl, h2', by decide, by simp⟩
  rw [if_neg h3]
  by_cases h3 : c = '\x08'
  · rw [if_pos h3]; exact ⟨_, _, rfl, h2', by decide, by simp⟩
  rw [if_neg h3]
  by_cases h3 : c = '\x0c'
  · rw [if_pos h3]; exact ⟨_, _, rfl, h2', by decide, by simp⟩
  rw [if_neg h3]
  by_cases h3 : c = '\n'
  · rw [if_pos h3]; exact ⟨_, _, rfl, h2', by decide, by simp⟩
  rw [if_neg h3]
  by_cases h3 : c = '\r'
  · rw [if_pos h3]; exact ⟨_, _, rfl, h2', by decide, by simp⟩
  rw [if_neg h3]
  by_cases h3 : c = '\t'
  · rw [if_pos h3]; exact ⟨_, _, rfl, h2', by decide, by simp⟩
  rw [if_neg h3]
  by_cases h3 : c = '\x0b'
  · rw [if_pos h3]; exact ⟨_, _, rfl, h2', by decide, by simp⟩
  rw [if_neg h3]
  by_cases h3 : c.toNat < 32 ∨ c.toNat = 127
  · rw [if_pos h3]; exact ⟨_, _, rfl, h2', by decide, hexN_isHex _ _⟩
  rw [if_neg h3]
  by_cases h3 : c.toNat < 65536
  · rw [if_pos h3]; exact ⟨_, _, rfl, h2', by decide, hexN_isHex _ _⟩
  rw [if_neg h3]
  exact ⟨_, _, rfl, h2', by decide, hexN_isHex _ _⟩
theorem quoteChar_no_nl {isPrint : Char → Bool} (hp : isPrint '\n' = false) (c : Char) :
    '\n' ∉ Script.quoteChar isPrint c := by
  rcases quoteChar_cases isPrint c with ⟨h, h1⟩ | ⟨h, h1, _⟩ | ⟨e, t, h, _, he, ht⟩
  · rw [h]; rcases h1 with rfl | rfl <;> decide
  · rw [h]
    simp only [List.mem_singleton]
    rintro rfl
    rw [hp] at h1; simp at h1
  · rw [h]
    simp only [List.mem_cons, not_or]
    refine ⟨by decide, ?_, fun hm => ?_⟩
    · rintro rfl; revert he; decide
    · have := ht _ hm
      revert this; unfold Spec.isHex; decide

theorem escaped_no_nl {isPrint : Char → Bool} (hp : isPrint '\n' = false) (s : List Char) :
    '\n' ∉ Script.escaped isPrint s := by
  have he : ∀ t : List Char, '\n' ∉ t → '\n' ∉ Script.escapeDollar t := by
    intro t ht hm
    unfold Script.escapeDollar at hm
    obtain ⟨c, hc, hx⟩ := List.mem_flatMap.mp hm
    split at hx
    · simp at hx
    · simp only [List.mem_singleton] at hx
      subst hx
      exact ht hc
  apply he
  unfold Script.quote
  simp only [List.mem_cons, List.mem_append, List.mem_flatMap, List.not_mem_nil, or_false, not_or]
  exact ⟨by decide, fun ⟨c, _, hx⟩ => quoteChar_no_nl hp c hx, by decide⟩

/-- C37: the script of a step is the fixed head, then for every command in order an empty
line, one trace line and the command verbatim, and an empty line at the end.  The trace
line is a single line for every command. -/
theorem C37_posix_script (isPrint : Char → Bool) (cmds : List String) :
    ∃ word : String → List Char, (isPrint '\n' = false → ∀ c, '\n' ∉ word c) ∧
      (Script.posix isPrint cmds).toList = Spec.textLines (Spec.scriptHead ++
        cmds.flatMap (fun c => [[], "echo + ".toList ++ word c, c.toList]) ++ [[]]) := by
  refine ⟨fun c => Script.escaped isPrint c.toList, fun hp c => escaped_no_nl hp _, ?_⟩
  unfold Script.posix
  rw [String.toList_ofList]
  have hpre : Script.preamble = Spec.textLines Spec.scriptHead := by decide +kernel
  have happ : ∀ a b, Spec.textLines (a ++ b) = Spec.textLines a ++ Spec.textLines b := by
    intro a b; unfold Spec.textLines; rw [List.flatMap_append]
  rw [happ, happ, ← hpre]
  generalize Script.preamble = pre
  have hbody : ∀ cs : List String, cs.flatMap (fun c => Script.trace isPrint c.toList) =
      Spec.textLines (cs.flatMap fun c =>
        [[], "echo + ".toList ++ Script.escaped isPrint c.toList, c.toList]) := by
    intro cs
    induction cs with
    | nil => rfl
    | cons c cs ih =>
      have h1 : Script.trace isPrint c.toList = Spec.textLines
          [[], "echo + ".toList ++ Script.escaped isPrint c.toList, c.toList] := by
        unfold Script.trace
        generalize Script.escaped isPrint c.toList = w
        generalize c.toList = c'
        simp [Spec.textLines]
      rw [List.flatMap_cons, List.flatMap_cons, happ, ← ih, h1]
  rw [hbody]
  simp [Spec.textLines]

/-- Value of a base64 digit (RFC 4648 table 1). -/
def Spec.digit64 (c : Char) : Option Nat :=
  if 'A' ≤ c ∧ c ≤ 'Z' then some (c.toNat - 65)
  else if 'a' ≤ c ∧ c ≤ 'z' then some (c.toNat - 97 + 26)
  else if '0' ≤ c ∧ c ≤ '9' then some (c.toNat - 48 + 52)
  else if c = '+' then some 62
  else if c = '/' then some 63
  else none

/-- Base64 decoding (RFC 4648 section 4), with padding. -/
def Spec.decode64 : List Char → Option Bytes
  | [] => some []
  | a :: b :: c :: d :: rest =>
    (Spec.digit64 a).bind fun va => (Spec.digit64 b).bind fun vb =>
    if c = '=' ∧ d = '=' ∧ rest = [] then some [UInt8.ofNat (va * 4 + vb / 16)]
    else (Spec.digit64 c).bind fun vc =>
      if d = '=' ∧ rest = [] then
        some [UInt8.ofNat (va * 4 + vb / 16), UInt8.ofNat (vb % 16 * 16 + vc / 4)]
      else (Spec.digit64 d).bind fun vd => (Spec.decode64 rest).map fun r =>
        UInt8.ofNat (va * 4 + vb / 16) :: UInt8.ofNat (vb % 16 * 16 + vc / 4) ::
          UInt8.ofNat (vc % 4 * 64 + vd) :: r
  | _ => none

example : Spec.decode64 "aGVsbG8=".toList = some [104, 101, 108, 108, 111] := by decide

theorem digit64_b64 {n : Nat} (h : n < 64) : Spec.digit64 (Script.b64 n) = some n ∧ Script.b64 n ≠ '=' := by
  have : ∀ m < 64, Spec.digit64 (Script.b64 m) = some m ∧ Script.b64 m ≠ '=' := by decide +kernel
  exact this n h

/-- C37: the base64 encoding of a Windows script decodes to the script. -/
theorem C37_base64_roundtrip : ∀ bs : Bytes, Spec.decode64 (Script.base64 bs) = some bs
  | [] => rfl
  | [a] => by
    have ha := a.toNat_lt
    simp only [Script.base64, Spec.decode64]
    rw [(digit64_b64 (n := a.toNat / 4) (by omega)).1, (digit64_b64 (n := a.toNat % 4 * 16) (by omega)).1]
    simp only [Option.bind_some, and_self, if_true, Option.some.injEq, List.cons.injEq, and_true]
    have : a.toNat / 4 * 4 + a.toNat % 4 * 16 / 16 = a.toNat := by omega
    rw [this, UInt8.ofNat_toNat]
  | [a, b] => by
    have ha := a.toNat_lt
    have hb := b.toNat_lt
    simp only [Script.base64, Spec.decode64]
    rw [(digit64_b64 (n := a.toNat / 4) (by omega)).1,
      (digit64_b64 (n := a.toNat % 4 * 16 + b.toNat / 16) (by omega)).1]
    simp only [Option.bind_some]
    have hc := digit64_b64 (n := b.toNat % 16 * 4) (by omega)
    rw [if_neg (by simp [hc.2]), hc.1]
    simp only [Option.bind_some, and_self, if_true, Option.some.injEq, List.cons.injEq, and_true]
    have e1 : a.toNat / 4 * 4 + (a.toNat % 4 * 16 + b.toNat / 16) / 16 = a.toNat := by omega
    have e2 : (a.toNat % 4 * 16 + b.toNat / 16) % 16 * 16 + b.toNat % 16 * 4 / 4 = b.toNat := by omega
    rw [e1, e2, UInt8.ofNat_toNat, UInt8.ofNat_toNat]
    exact ⟨rfl, rfl⟩
  | a :: b :: c :: rest => by
    have ha := a.toNat_lt
    have hb := b.toNat_lt
    have hcc := c.toNat_lt
    simp only [Script.base64, Spec.decode64]
    rw [(digit64_b64 (n := a.toNat / 4) (by omega)).1,
      (digit64_b64 (n := a.toNat % 4 * 16 + b.toNat / 16) (by omega)).1]
    simp only [Option.bind_some]
    have hc := digit64_b64 (n := b.toNat % 16 * 4 + c.toNat / 64) (by omega)
    have hd := digit64_b64 (n := c.toNat % 64) (by omega)
    rw [if_neg (by simp [hc.2]), hc.1]
    simp only [Option.bind_some]
    rw [if_neg (by simp [hd.2]), hd.1, C37_base64_roundtrip rest]
    simp only [Option.bind_some, Option.map_some, Option.some.injEq, List.cons.injEq, and_true]
    have e1 : a.toNat / 4 * 4 + (a.toNat % 4 * 16 + b.toNat / 16) / 16 = a.toNat := by omega
    have e2 : (a.toNat % 4 * 16 + b.toNat / 16) % 16 * 16 + (b.toNat % 16 * 4 + c.toNat / 64) / 4 = b.toNat := by
      omega
    have e3 : (b.toNat % 16 * 4 + c.toNat / 64) % 4 * 64 + c.toNat % 64 = c.toNat := by omega
    rw [e1, e2, e3, UInt8.ofNat_toNat, UInt8.ofNat_toNat, UInt8.ofNat_toNat]
    exact ⟨rfl, rfl, rfl⟩

/-- The fixed lines every Windows script starts with. -/
def Spec.scriptHeadWin : List (List Char) := ["", "if ($Env:CI_NETRC_MACHINE) {", "@\"",
  "machine $Env:CI_NETRC_MACHINE", "login $Env:CI_NETRC_USERNAME",
  "password $Env:CI_NETRC_PASSWORD", "\"@ > (Join-Path $Env:USERPROFILE '_netrc');", "}",
  "[Environment]::SetEnvironmentVariable(\"CI_NETRC_USERNAME\", $null);",
  "[Environment]::SetEnvironmentVariable(\"CI_NETRC_PASSWORD\", $null);",
  "[Environment]::SetEnvironmentVariable(\"DRONE_NETRC_USERNAME\", $null);",
  "[Environment]::SetEnvironmentVariable(\"DRONE_NETRC_PASSWORD\", $null);",
  "[Environment]::SetEnvironmentVariable(\"CI_SCRIPT\", $null);",
  "$ErrorActionPreference = 'Stop';"].map String.toList

/-- C37: the Windows script has the same structure; every command is invoked by the call
operator and followed by the check of its exit code. -/
theorem C37_windows_script (isPrint : Char → Bool) (cmds : List String) :
    ∃ word : String → List Char, (isPrint '\n' = false → ∀ c, '\n' ∉ word c) ∧
      (Script.windows isPrint cmds).toList = Spec.textLines (Spec.scriptHeadWin ++
        cmds.flatMap (fun c => [[], "Write-Output ('+ ".toList ++ word c ++ "');".toList,
          "& ".toList ++ c.toList ++ "; if ($LASTEXITCODE -ne 0) {exit $LASTEXITCODE}".toList]) ++ [[]]) := by
  refine ⟨fun c => Script.escaped isPrint c.toList, fun hp c => escaped_no_nl hp _, ?_⟩
  unfold Script.windows
  rw [String.toList_ofList]
  have hpre : Script.preambleWin = Spec.textLines Spec.scriptHeadWin := by decide +kernel
  have happ : ∀ a b, Spec.textLines (a ++ b) = Spec.textLines a ++ Spec.textLines b := by
    intro a b; unfold Spec.textLines; rw [List.flatMap_append]
  rw [happ, happ, ← hpre]
  generalize Script.preambleWin = pre
  have hbody : ∀ cs : List String, cs.flatMap (fun c => Script.traceWin isPrint c.toList) =
      Spec.textLines (cs.flatMap fun c =>
        [[], "Write-Output ('+ ".toList ++ Script.escaped isPrint c.toList ++ "');".toList,
          "& ".toList ++ c.toList ++ "; if ($LASTEXITCODE -ne 0) {exit $LASTEXITCODE}".toList]) := by
    intro cs
    induction cs with
    | nil => rfl
    | cons c cs ih =>
      have h1 : Script.traceWin isPrint c.toList = Spec.textLines
          [[], "Write-Output ('+ ".toList ++ Script.escaped isPrint c.toList ++ "');".toList,
          "& ".toList ++ c.toList ++ "; if ($LASTEXITCODE -ne 0) {exit $LASTEXITCODE}".toList] := by
        unfold Script.traceWin
        generalize Script.escaped isPrint c.toList = w
        generalize c.toList = c'
        simp [Spec.textLines]
      rw [List.flatMap_cons, List.flatMap_cons, happ, ← ih, h1]
  rw [hbody]
  simp [Spec.textLines]

/-- C37: on Windows a step with commands gets its script base64 encoded in the variable
`CI_SCRIPT`, which its command decodes and runs. -/
theorem C37_windows_step {E : Ext} {c : Compiler} (hc : c.Std) (ht : c.transform = none)
    {rnd : Nat → String} {p : Pipeline} {sp : Engine.Spec} (h : compile E c rnd p = some sp)
    (hos : p.platform.os = "windows") :
    List.Forall₂ (fun y s => y.2.commands ≠ [] → ¬ IsBuild y →
      (s.envs.get? "CI_SCRIPT").bind (fun v => Spec.decode64 v.toList) =
        some (utf8 (Script.windows E.isPrint y.2.commands)) ∧
      s.docker.command = ["powershell", "-noprofile", "-noninteractive", "-command"] ∧
      s.docker.args = ["[System.Text.Encoding]::UTF8.GetString([System.Convert]::FromBase64String($Env:CI_SCRIPT)) | iex"])
      (sources p) sp.steps := by
  refine compile_forall hc ht h ?_
  rintro rename y s hy ⟨k, raw, i, hr, rfl⟩ hcmd hb
  have hpf := rawStep_plain (x := ctxOf E c rnd p) hc hb hr
  have hcom := hpf.command
  have hlen : y.2.commands.length > 0 := List.length_pos_iff.mpr hcmd
  have hos' : (ctxOf E c rnd p).p.platform.os = "windows" := hos
  rw [commandOf, if_pos hlen, if_pos hos', Prod.mk.injEq] at hcom
  refine ⟨?_, hcom.1, hcom.2⟩
  have hnc : y.1 ≠ .clone := by
    intro hr
    exact hcmd (sources_clone_commands p y hy hr)
  have he : (setImage raw (renameImage (ctxOf E c rnd p).E raw.docker.image
      ((ctxOf E c rnd p).E.iter i rename))).envs = raw.envs := rfl
  rw [he, hpf.envs, if_neg hnc, withWorkspace_get]
  simp only [id]
  have : (withScript E "windows" y.2 (stepEnvs E y.2).1).get? "CI_SCRIPT" =
      some (String.ofList (Script.base64 (utf8 (Script.windows E.isPrint y.2.commands)))) := by
    unfold withScript
    rw [if_pos ⟨hlen, rfl⟩, GoMap.get?_set, if_neg (by decide), GoMap.get?_set, if_pos rfl]
  rw [hos']
  show Option.bind (if _ then _ else if _ then _ else if _ then _ else
    (withScript E "windows" y.2 (stepEnvs E y.2).1).get? "CI_SCRIPT") _ = _
  rw [this]
  simp [String.toList_ofList, C37_base64_roundtrip]

example : (Script.posix exExt.isPrint ["go build", "echo $HOME"]).toList.drop Script.preamble.length =
    "\necho + \"go build\"\ngo build\n\necho + \"echo \\$HOME\"\necho $HOME\n\n".toList := by decide +kernel

/-! ### C38 -/

/-- The shell reads a double quoted word, after the opening quote (POSIX 2.2.3): the text
of the word and what follows its closing quote.  `none` if anything in the word is
expanded (an unescaped dollar sign or backquote) or the word does not end. -/
def Spec.dquote : List Char → Option (List Char × List Char)
  | [] => none
  | '"' :: r => some ([], r)
  | '\\' :: c :: r =>
    if c = '\n' then Spec.dquote r
    else (Spec.dquote r).map fun q =>
      ((if c = '$' ∨ c = '`' ∨ c = '"' ∨ c = '\\' then [c] else ['\\', c]) ++ q.1, q.2)
  | c :: r => if c = '$' ∨ c = '`' ∨ c = '\\' then none else (Spec.dquote r).map fun q => (c :: q.1, q.2)

example : Spec.dquote "a \\$b\" c".toList = some ("a $b".toList, " c".toList) := by decide
example : Spec.dquote "a `b`\" c".toList = none := by decide

theorem dquote_plain {c : Char} (h1 : c ≠ '"') (h2 : c ≠ '\\') (h3 : c ≠ '$') (h4 : c ≠ '`') (r : List Char) :
    Spec.dquote (c :: r) = (Spec.dquote r).map fun q => (c :: q.1, q.2) := by
  rw [Spec.dquote]
  · rw [if_neg (by simp [h2, h3, h4])]
  · intro h; exact h1 h
  · intro c' r' h; exact absurd h h2

theorem dquote_escape {c : Char} (h : c ≠ '\n') (r : List Char) :
    Spec.dquote ('\\' :: c :: r) = (Spec.dquote r).map fun q =>
      ((if c = '$' ∨ c = '`' ∨ c = '"' ∨ c = '\\' then [c] else ['\\', c]) ++ q.1, q.2) := by
  rw [Spec.dquote, if_neg h]

theorem dquote_hex {t : List Char} (ht : ∀ x ∈ t, Spec.isHex x) (r : List Char) :
    Spec.dquote (t ++ r) = (Spec.dquote r).map fun q => (t ++ q.1, q.2) := by
  induction t with
  | nil => simp
  | cons c t ih =>
    have hc := ht c (by simp)
    have hne : c ≠ '"' ∧ c ≠ '\\' ∧ c ≠ '$' ∧ c ≠ '`' := by
      have : ∀ x ∈ "0123456789abcdef".toList, x ≠ '"' ∧ x ≠ '\\' ∧ x ≠ '$' ∧ x ≠ '`' := by decide
      exact this c hc
    rw [List.cons_append, dquote_plain hne.1 hne.2.1 hne.2.2.1 hne.2.2.2, ih fun x hx => ht x (by simp [hx])]
    simp [Option.map_map, Function.comp_def]

/-- How a character of a command shows in the trace. -/
def Spec.shown (isPrint : Char → Bool) (c : Char) : List Char :=
  if isPrint c = true ∨ c = '"' ∨ c = '\\' then [c] else Script.quoteChar isPrint c

theorem escapeDollar_id {t : List Char} (h : '$' ∉ t) : Script.escapeDollar t = t := by
  induction t with
  | nil => rfl
  | cons c t ih =>
    simp only [List.mem_cons, not_or] at h
    show (if c = '$' then _ else [c]) ++ Script.escapeDollar t = _
    rw [if_neg (fun e => h.1 e.symm), ih h.2]
    rfl

theorem dquote_word {isPrint : Char → Bool} (c : Char) (r : List Char) (hbq : c ≠ '`') :
    Spec.dquote (Script.escapeDollar (Script.quoteChar isPrint c) ++ r) =
      (Spec.dquote r).map fun q => (Spec.shown isPrint c ++ q.1, q.2) := by
  rcases quoteChar_cases isPrint c with ⟨h, h1⟩ | ⟨h, h1, h2, h3⟩ | ⟨e, t, h, h1, he, ht⟩
  · have : Spec.shown isPrint c = [c] := by
      unfold Spec.shown; rw [if_pos (.inr h1)]
    rw [h, this]
    rcases h1 with rfl | rfl
    · show Spec.dquote ('\\' :: '"' :: r) = _
      rw [dquote_escape (by decide)]; rfl
    · show Spec.dquote ('\\' :: '\\' :: r) = _
      rw [dquote_escape (by decide)]; rfl
  · have : Spec.shown isPrint c = [c] := by
      unfold Spec.shown; rw [if_pos (.inl h1)]
    rw [h, this]
    by_cases hd : c = '$'
    · subst hd
      show Spec.dquote ('\\' :: '$' :: r) = _
      rw [dquote_escape (by decide)]; rfl
    · rw [escapeDollar_id (by simpa using fun e => hd e.symm)]
      exact dquote_plain h2 h3 hd hbq r
  · have hne : e ≠ '\n' ∧ ¬ (e = '$' ∨ e = '`' ∨ e = '"' ∨ e = '\\') := by
      have : ∀ x ∈ "abfnrtvxuU".toList, x ≠ '\n' ∧ ¬ (x = '$' ∨ x = '`' ∨ x = '"' ∨ x = '\\') := by decide
      exact this e he
    have hnd : '$' ∉ '\\' :: e :: t := by
      simp only [List.mem_cons, not_or]
      refine ⟨by decide, fun h => hne.2 (.inl h.symm), fun hm => ?_⟩
      have := ht _ hm
      revert this; unfold Spec.isHex; decide
    by_cases hq : c = '"' ∨ c = '\\'
    · exfalso
      have : Script.quoteChar isPrint c = ['\\', c] := by unfold Script.quoteChar; rw [if_pos hq]
      rw [this] at h
      simp only [List.cons.injEq, true_and] at h
      rw [← h.1] at he
      rcases hq with rfl | rfl <;> revert he <;> decide
    · have hs : Spec.shown isPrint c = '\\' :: e :: t := by
        unfold Spec.shown; rw [if_neg (by simp [h1, hq]), h]
      rw [h, escapeDollar_id hnd, hs, List.cons_append, List.cons_append, dquote_escape hne.1, dquote_hex ht,
        if_neg hne.2]
      simp [Option.map_map, Function.comp_def]

theorem escaped_eq (isPrint : Char → Bool) (s : List Char) :
    Script.escaped isPrint s =
      '"' :: (s.flatMap (fun c => Script.escapeDollar (Script.quoteChar isPrint c)) ++ ['"']) := by
  unfold Script.escaped Script.quote
  have happ : ∀ a b, Script.escapeDollar (a ++ b) = Script.escapeDollar a ++ Script.escapeDollar b := by
    intro a b; unfold Script.escapeDollar; rw [List.flatMap_append]
  show Script.escapeDollar ('"' :: _) = _
  have : ∀ l, Script.escapeDollar ('"' :: l) = '"' :: Script.escapeDollar l := by intro l; rfl
  rw [this, happ]
  congr 1
  congr 1
  induction s with
  | nil => rfl
  | cons c s ih => rw [List.flatMap_cons, happ, ih, List.flatMap_cons]

/-- C38 (partial: commands without a backquote, see `C38_backquote`): the shell reads the
trace of a command as one word in which nothing is expanded, which ends exactly at the end
of the trace line, and which shows the printable characters of the command as they are. -/
theorem C38_trace_word_partial (isPrint : Char → Bool) (cmd : List Char) (h : '`' ∉ cmd) (rest : List Char) :
    ∃ body, Script.escaped isPrint cmd = '"' :: body ∧
      Spec.dquote (body ++ rest) = some (cmd.flatMap (Spec.shown isPrint), rest) := by
  refine ⟨_, escaped_eq isPrint cmd, ?_⟩
  rw [List.append_assoc]
  induction cmd with
  | nil => rfl
  | cons c cmd ih =>
    simp only [List.mem_cons, not_or] at h
    rw [List.flatMap_cons, List.append_assoc, dquote_word c _ (fun e => h.1 e.symm), ih h.2]
    rfl

/-- C38 (exact condition): the trace of a command is free of expansions iff the command
has no backquote (a printable character). -/
theorem C38_trace_iff (isPrint : Char → Bool) (hb : isPrint '`' = true) (cmd rest : List Char) :
    ∃ body, Script.escaped isPrint cmd = '"' :: body ∧
      ((∃ text, Spec.dquote (body ++ rest) = some (text, rest)) ↔ '`' ∉ cmd) := by
  refine ⟨_, escaped_eq isPrint cmd, ?_⟩
  constructor
  · rintro ⟨text, ht⟩ hm
    have key : ∀ (cmd : List Char), '`' ∈ cmd →
        Spec.dquote (cmd.flatMap (fun c => Script.escapeDollar (Script.quoteChar isPrint c)) ++ ('"' :: rest)) = none := by
      intro cmd
      induction cmd with
      | nil => simp
      | cons c cmd ih =>
        intro hm
        rw [List.flatMap_cons, List.append_assoc]
        by_cases hc : c = '`'
        · subst hc
          have hq : Script.quoteChar isPrint '`' = ['`'] := by
            unfold Script.quoteChar; rw [if_neg (by decide), if_pos hb]
          rw [hq]
          show Spec.dquote ('`' :: _) = none
          rw [Spec.dquote]
          · rfl
          · intro h; revert h; decide
          · intro c' r' h; exact absurd h (by decide)
        · rw [dquote_word c _ hc, ih (by
            rcases List.mem_cons.mp hm with e | e
            · exact absurd e.symm hc
            · exact e)]
          rfl
    rw [List.append_assoc] at ht
    have := key cmd hm
    rw [show ['"'] ++ rest = '"' :: rest from rfl, this] at ht
    simp at ht
  · intro h
    obtain ⟨body, h1, h2⟩ := C38_trace_word_partial isPrint cmd h rest
    rw [escaped_eq] at h1
    simp only [List.cons.injEq, true_and] at h1
    rw [← h1] at h2
    exact ⟨_, h2⟩

/-- Why the backquote is excluded: tracing ``echo `id` `` runs `id`. -/
theorem C38_backquote : Script.escaped exExt.isPrint "echo `id`".toList = "\"echo `id`\"".toList ∧
    Spec.dquote "echo `id`\"".toList = none := by decide

example : Script.escaped exExt.isPrint "echo \"$HOME\"".toList = "\"echo \\\"\\$HOME\\\"\"".toList ∧
    Spec.dquote "echo \\\"\\$HOME\\\"\"\n".toList = some ("echo \"$HOME\"".toList, "\n".toList) := by decide

/-! ### C67 -/

/-- PowerShell treats these as single quotes. -/
def Spec.psQuote (c : Char) : Prop :=
  c = '\'' ∨ c = '\u2018' ∨ c = '\u2019' ∨ c = '\u201A' ∨ c = '\u201B'

instance (c : Char) : Decidable (Spec.psQuote c) := by unfold Spec.psQuote; infer_instance

/-- PowerShell reads a single quoted string, after the opening quote: its text and what
follows.  A doubled quote stands for one. -/
def Spec.squote : List Char → Option (List Char × List Char)
  | [] => none
  | [c] => if Spec.psQuote c then some ([], []) else none
  | c :: d :: r =>
    if Spec.psQuote c then
      if Spec.psQuote d then (Spec.squote r).map fun q => (d :: q.1, q.2) else some ([], d :: r)
    else (Spec.squote (d :: r)).map fun q => (c :: q.1, q.2)

theorem squote_plain {c : Char} (h : ¬ Spec.psQuote c) {r : List Char} (hr : r ≠ []) :
    Spec.squote (c :: r) = (Spec.squote r).map fun q => (c :: q.1, q.2) := by
  cases r with
  | nil => exact absurd rfl hr
  | cons d r => rw [Spec.squote, if_neg h]

theorem squote_text : ∀ {s : List Char}, (∀ c ∈ s, ¬ Spec.psQuote c) → ∀ {d : Char} (rest : List Char),
    ¬ Spec.psQuote d → Spec.squote (s ++ '\'' :: d :: rest) = some (s, d :: rest)
  | [], _, d, rest, hd => by
    show Spec.squote ('\'' :: d :: rest) = _
    rw [Spec.squote, if_pos (.inl rfl), if_neg hd]
  | c :: s, h, d, rest, hd => by
    rw [List.cons_append, squote_plain (h c (by simp)) (by simp),
      squote_text (fun x hx => h x (by simp [hx])) rest hd]
    rfl

theorem escaped_psQuote {isPrint : Char → Bool} {cmd : List Char} (h : ∀ c ∈ cmd, ¬ Spec.psQuote c) :
    ∀ x ∈ Script.escaped isPrint cmd, ¬ Spec.psQuote x := by
  have hhex : ∀ x ∈ "0123456789abcdef".toList, ¬ Spec.psQuote x := by decide
  have hesc : ∀ x ∈ "abfnrtvxuU".toList, ¬ Spec.psQuote x := by decide
  have hw : ∀ c, ¬ Spec.psQuote c → ∀ x ∈ Script.quoteChar isPrint c, ¬ Spec.psQuote x := by
    intro c hc x hx
    rcases quoteChar_cases isPrint c with ⟨h, h1⟩ | ⟨h, _⟩ | ⟨e, t, h, _, he, ht⟩
    · rw [h] at hx
      simp only [List.mem_cons, List.not_mem_nil, or_false] at hx
      rcases hx with rfl | rfl
      · decide
      · exact hc
    · rw [h] at hx
      simp only [List.mem_singleton] at hx
      subst hx; exact hc
    · rw [h] at hx
      simp only [List.mem_cons] at hx
      rcases hx with rfl | rfl | hx
      · decide
      · exact hesc _ he
      · exact hhex _ (ht _ hx)
  intro x hx
  rw [escaped_eq] at hx
  simp only [List.mem_cons, List.mem_append, List.mem_flatMap, List.not_mem_nil, or_false] at hx
  rcases hx with rfl | ⟨c, hc, hx⟩ | rfl
  · decide
  · unfold Script.escapeDollar at hx
    obtain ⟨y, hy, hxy⟩ := List.mem_flatMap.mp hx
    split at hxy
    · simp only [List.mem_cons, List.not_mem_nil, or_false] at hxy
      rcases hxy with rfl | rfl <;> decide
    · simp only [List.mem_singleton] at hxy
      subst hxy
      exact hw c (h c hc) _ hy
  · decide

/-- C67 (partial: commands without single quotes, see `C67_quote`): PowerShell reads the
trace of a command as one string literal that ends right before the closing
parenthesis of the trace line. -/
theorem C67_trace_string_partial (isPrint : Char → Bool) (cmd : List Char)
    (h : ∀ c ∈ cmd, ¬ Spec.psQuote c) :
    ∃ body, Script.traceWin isPrint cmd = "\nWrite-Output ('".toList ++ body ∧
      Spec.squote body = some ("+ ".toList ++ Script.escaped isPrint cmd,
        ");\n& ".toList ++ cmd ++ "; if ($LASTEXITCODE -ne 0) {exit $LASTEXITCODE}\n".toList) := by
  refine ⟨"+ ".toList ++ Script.escaped isPrint cmd ++ '\'' :: ')' :: (";\n& ".toList ++ cmd ++
    "; if ($LASTEXITCODE -ne 0) {exit $LASTEXITCODE}\n".toList), ?_, ?_⟩
  · unfold Script.traceWin
    generalize Script.escaped isPrint cmd = w
    simp
  · have hall : ∀ c ∈ "+ ".toList ++ Script.escaped isPrint cmd, ¬ Spec.psQuote c := by
      intro c hc
      rcases List.mem_append.mp hc with hc | hc
      · have : ∀ x ∈ "+ ".toList, ¬ Spec.psQuote x := by decide
        exact this c hc
      · exact escaped_psQuote h c hc
    generalize "; if ($LASTEXITCODE -ne 0) {exit $LASTEXITCODE}\n".toList = tail
    have := squote_text hall (d := ')') (";\n& ".toList ++ cmd ++ tail) (by decide)
    rw [this]
    simp

/-- Why single quotes are excluded: the trace of `echo 'a'` ends the string early, and the
rest of the command is read as PowerShell code. -/
theorem C67_quote : ∃ body, Script.traceWin exExt.isPrint "echo 'a'".toList =
      "\nWrite-Output ('".toList ++ body ∧
    ∃ rest, Spec.squote body = some ("+ \"echo ".toList, "a'\"');\n& echo 'a'".toList ++ rest) :=
  ⟨"+ \"echo 'a'\"');\n& echo 'a'; if ($LASTEXITCODE -ne 0) {exit $LASTEXITCODE}\n".toList, by decide +kernel,
   "; if ($LASTEXITCODE -ne 0) {exit $LASTEXITCODE}\n".toList, by decide +kernel⟩

end Drone
