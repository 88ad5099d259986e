import Verif.Inject.Model
/-!
# The injected setup (C67, C78, C81, C82)
-/

namespace Shpool.Inject

/-! ## C67 -/

private theorem endsWith_iff {s t : Str} : endsWith s t = true ↔ t <:+ s := by
  unfold endsWith
  exact List.isSuffixOf_iff_suffix

/-- **C67**: whatever the shell, prefix, name and start command, the script ends with the command that prints the prompt
sentinel. -/
theorem C67_ends_with_sentinel (procName pfx startCmd name exe : Str) :
    sentinelCmd "prompt".toList exe <:+ script procName pfx startCmd name exe := by
  unfold script
  exact List.suffix_append _ _

private theorem daemon_nl : " daemon\n".toList = ' ' :: ("daemon".toList ++ ['\n']) := by decide +kernel
private theorem daemon_sp : " daemon".toList = ' ' :: "daemon".toList := by decide +kernel
private theorem eq_prompt : "=prompt".toList = '=' :: "prompt".toList := by decide +kernel

/-- **C67**: that command stands on lines of its own. -/
theorem C67_sentinel_own_line (which exe : Str) :
    sentinelCmd which exe = '\n' :: (' ' :: flagVar ++ '=' :: which ++ ' ' :: exe ++ " daemon".toList) ++ ['\n'] := by
  rw [sentinelCmd, daemon_nl, daemon_sp]
  simp only [List.cons_append, List.append_assoc]

/-- **C67**: a configured start command is a line of the script, between the prompt setup and the sentinel command; the
prompt setup does not depend on it. -/
theorem C67_start_cmd (procName pfx startCmd name exe : Str) (h : startCmd ≠ []) :
    script procName pfx startCmd name exe =
      promptScript (sniff procName) (expandPrefix pfx name) ++ '\n' :: startCmd ++ '\n' :: sentinelCmd "prompt".toList exe := by
  cases startCmd with
  | nil => exact absurd rfl h
  | cons c t => simp [script]

/-- **C67**: without a start command the script is the prompt setup and the sentinel command, nothing else. -/
theorem C67_no_start_cmd (procName pfx name exe : Str) :
    script procName pfx [] name exe =
      promptScript (sniff procName) (expandPrefix pfx name) ++ sentinelCmd "prompt".toList exe := rfl

/-- **C67**: in a shell that is not known no prompt setup is injected. -/
theorem C67_unknown_shell (procName pfx startCmd name exe : Str) (hb : ¬ "bash".toList <:+ procName)
    (hz : ¬ "zsh".toList <:+ procName) (hf : ¬ "fish".toList <:+ procName) :
    script procName pfx startCmd name exe =
      (if startCmd = [] then [] else '\n' :: startCmd ++ ['\n']) ++ sentinelCmd "prompt".toList exe := by
  have hs : sniff procName = none := by
    simp only [sniff]
    rw [if_neg (fun h => hb (endsWith_iff.1 h)), if_neg (fun h => hz (endsWith_iff.1 h)), if_neg (fun h => hf (endsWith_iff.1 h))]
  cases startCmd <;> simp [script, hs, promptScript]

/-- **C67**: in a known shell the expanded prefix is part of the prompt setup. -/
theorem C67_prefix_present (procName pfx name : Str) (k : Known) (h : sniff procName = some k) :
    expandPrefix pfx name <:+: promptScript (sniff procName) (expandPrefix pfx name) := by
  rw [h]
  cases k
  · exact ⟨bash1, bash2 ++ expandPrefix pfx name ++ bash3, by simp [promptScript]⟩
  · exact ⟨zsh1, zsh2, by simp [promptScript]⟩
  · exact ⟨fish1, fish2, by simp [promptScript]⟩

/-- **C67**: the script fits the shell: bash gets the setup of `PS1` and `PROMPT_COMMAND`, zsh that of `PROMPT`, fish that of
`fish_prompt` (a login shell's name begins with a dash, so the end of the name decides). -/
theorem C67_fits_shell (procName p : Str) :
    ("bash".toList <:+ procName → promptScript (sniff procName) p = bash1 ++ p ++ bash2 ++ p ++ bash3) ∧
    ("zsh".toList <:+ procName → promptScript (sniff procName) p = zsh1 ++ p ++ zsh2) ∧
    ("fish".toList <:+ procName → promptScript (sniff procName) p = fish1 ++ p ++ fish2) := by
  have ne : ∀ a b : Str, a <:+ procName → a.length = b.length → a ≠ b → ¬ b <:+ procName := by
    intro a b ha hl hab hb
    exact hab (List.suffix_of_suffix_length_le ha hb (by omega) |>.eq_of_length hl)
  have zb : "zsh".toList <:+ procName → ¬ "bash".toList <:+ procName := fun hz hb =>
    ne "zsh".toList "ash".toList hz (by decide) (by decide) (List.IsSuffix.trans (by decide) hb)
  have fb : "fish".toList <:+ procName → ¬ "bash".toList <:+ procName := fun hf =>
    ne "fish".toList "bash".toList hf (by decide) (by decide)
  have fz : "fish".toList <:+ procName → ¬ "zsh".toList <:+ procName := fun hf hz =>
    ne "ish".toList "zsh".toList (List.IsSuffix.trans (by decide) hf) (by decide) (by decide) hz
  refine ⟨fun h => ?_, fun h => ?_, fun h => ?_⟩
  · rw [sniff, if_pos (endsWith_iff.2 h)]; rfl
  · rw [sniff, if_neg (fun hb => zb h (endsWith_iff.1 hb)), if_pos (endsWith_iff.2 h)]; rfl
  · rw [sniff, if_neg (fun hb => fb h (endsWith_iff.1 hb)), if_neg (fun hz => fz h (endsWith_iff.1 hz)),
      if_pos (endsWith_iff.2 h)]; rfl

example : "fish".toList <:+ "-fish".toList ∧ "zsh".toList <:+ "/bin/zsh".toList := by decide

/-- Specification of the expansion: reading from the left, every occurrence of the variable becomes the session name, every
other character stays. -/
inductive Expands (var val : Str) : Str → Str → Prop where
  | nil : Expands var val [] []
  | var (rest out : Str) : Expands var val rest out → Expands var val (var ++ rest) (val ++ out)
  | lit (c : Char) (rest out : Str) : ¬ var <+: c :: rest → Expands var val rest out →
      Expands var val (c :: rest) (c :: out)

private theorem replaceFrom_skip (pat to : Str) : ∀ (a rest : Str), replaceFrom pat to a.length (a ++ rest) = replaceFrom pat to 0 rest := by
  intro a
  induction a with
  | nil => intro rest; rfl
  | cons x xs ih => intro rest; simp only [List.length_cons, List.cons_append, replaceFrom]; exact ih rest

private theorem replace_expands (pat to : Str) (hp : pat ≠ []) : ∀ (n : Nat) (s : Str), s.length ≤ n →
    Expands pat to s (replaceFrom pat to 0 s) := by
  intro n
  induction n with
  | zero =>
    intro s hs
    cases s with
    | nil => exact .nil
    | cons c t => simp at hs
  | succ n ih =>
    intro s hs
    cases s with
    | nil => exact .nil
    | cons c t =>
      simp only [List.length_cons] at hs
      simp only [replaceFrom]
      by_cases hpre : pat <+: c :: t
      · rw [if_pos (by simpa using hpre)]
        obtain ⟨rest, hr⟩ := hpre
        cases pat with
        | nil => exact absurd rfl hp
        | cons p ps =>
          simp only [List.cons_append, List.cons.injEq] at hr
          obtain ⟨rfl, rfl⟩ := hr
          have hskip := replaceFrom_skip (p :: ps) to ps rest
          simp only [List.length_cons, Nat.add_sub_cancel]
          rw [hskip]
          exact .var rest _ (ih rest (by simp at hs; omega))
      · rw [if_neg (by simpa using hpre)]
        exact .lit c t _ hpre (ih t (by omega))

/-- **C67**: the prefix is the configured one with every `$SHPOOL_SESSION_NAME` replaced by the session name. -/
theorem C67_prefix_expanded (pfx name : Str) : Expands nameVar name pfx (expandPrefix pfx name) :=
  replace_expands nameVar name (by decide) pfx.length pfx (Nat.le_refl _)

example : expandPrefix defaultPrefix "main".toList = "shpool:main ".toList := by decide
example : sniff "-bash".toList = some .bash ∧ sniff "dash".toList = none := by decide

/-- **C67**: nothing at all is injected for a custom command, for a shell without sentinel support, and when neither a prefix
nor a start command is wanted; otherwise the session waits for the sentinel. -/
theorem C67_when (cmd startCmd pfx : Option Str) (shell procName name exe : Str) (startup : Bool) :
    ((cmd.isSome ∨ "nu".toList <:+ shell ∨ (pfx = some [] ∧ (startCmd = none ∨ startCmd = some []))) →
      setup cmd startCmd pfx shell procName name exe startup = ([], false)) ∧
    (cmd = none → ¬ "nu".toList <:+ shell → (pfx ≠ some [] ∨ (∃ c, startCmd = some c ∧ c ≠ [])) →
      (setup cmd startCmd pfx shell procName name exe startup).2 = true) := by
  constructor
  · rintro (h | h | ⟨rfl, h⟩)
    · cases cmd with
      | none => cases h
      | some c => simp [setup, supportsSentinels]
    · have : endsWith shell "nu".toList = true := endsWith_iff.2 h
      have : supportsSentinels cmd startCmd pfx shell = false := by simp only [supportsSentinels, this]; simp
      simp [setup, this]
    · rcases h with rfl | rfl <;> simp [setup, supportsSentinels]
  · intro hc hn h
    subst hc
    have hns : endsWith shell "nu".toList = false := by
      rw [Bool.eq_false_iff]
      exact fun h => hn (endsWith_iff.1 h)
    have : supportsSentinels none startCmd pfx shell = true := by
      simp only [supportsSentinels, hns]
      rcases h with h | ⟨c, rfl, h⟩
      · cases pfx with
        | none => simp
        | some p => cases p with
          | nil => exact absurd rfl h
          | cons a b => simp
      · cases c with
        | nil => exact absurd rfl h
        | cons a b => simp
    simp [setup, this]

/-- **C67**: without a configured prefix the default one is used, and once the shell has started the text written to it is the
command for the startup sentinel followed by the script. -/
theorem C67_written (startCmd pfx : Option Str) (shell procName name exe : Str) (hn : ¬ "nu".toList <:+ shell)
    (h : pfx ≠ some [] ∨ (∃ c, startCmd = some c ∧ c ≠ [])) :
    (setup none startCmd pfx shell procName name exe true).1 =
      sentinelCmd "startup".toList exe ++
        script procName (match pfx with | none => "shpool:$SHPOOL_SESSION_NAME ".toList | some p => p)
          (match startCmd with | none => [] | some c => c) name exe := by
  have h2 := (C67_when none startCmd pfx shell procName name exe true).2 rfl hn h
  unfold setup at h2 ⊢
  split at h2
  · rename_i hs
    rw [if_pos hs]
    cases pfx <;> cases startCmd <;> rfl
  · cases h2

/-! ## C81 -/

/-- The full property: a session that hides its shell's output until the prompt sentinel has told the shell to print it. -/
def C81_statement : Prop :=
  ∀ cmd startCmd pfx shell procName name exe startup,
    (setup cmd startCmd pfx shell procName name exe startup).2 = true →
      sentinelCmd "prompt".toList exe <:+: (setup cmd startCmd pfx shell procName name exe startup).1

/-- The second `=` of the startup command is followed by `s`, so the prompt command is not in it. -/
private theorem startup_only : ¬ sentinelCmd "prompt".toList "x".toList <:+: sentinelCmd "startup".toList "x".toList := by
  decide +kernel

/-- **C81 (defect)**: a shell whose start files take longer than the waiting time (or whose start could not be watched) never
gets the command, and the session hides its output for ever. -/
theorem C81_false : ¬ C81_statement := by
  intro h
  exact startup_only (h none none none "/bin/bash".toList "bash".toList "main".toList "x".toList false (by decide))

/-- **C81 (part)**: when the start of the shell was noticed, a session that hides output has told the shell to print the
sentinel. -/
theorem C81_told_partial (cmd startCmd pfx : Option Str) (shell procName name exe : Str)
    (h : (setup cmd startCmd pfx shell procName name exe true).2 = true) :
    sentinelCmd "prompt".toList exe <:+ (setup cmd startCmd pfx shell procName name exe true).1 := by
  unfold setup at h ⊢
  split at h
  · rename_i hs
    rw [if_pos hs]
    exact (C67_ends_with_sentinel _ _ _ _ _).trans (List.suffix_append _ _)
  · cases h

/-! ## C82 -/

/-- Splitting a command line at blanks, dropping empty words (the shell's word splitting for a line without quoting or other
special characters). -/
def wordsOf : Str → Str → List Str
  | [], [] => []
  | w, [] => [w.reverse]
  | w, c :: t =>
    if c = ' ' ∨ c = '\n' then (if w.isEmpty then wordsOf [] t else w.reverse :: wordsOf [] t)
    else wordsOf (c :: w) t

def words (s : Str) : List Str := wordsOf [] s

/-- Characters with which some shell does more on a command line than take them as part of a word. -/
def isMeta (c : Char) : Bool := "|&;<>()$`\\\"'*?[]{}#~!^%\t\r".toList.contains c

/-- The words of a command line, if it has no quoting or other special characters. -/
def commandWords (s : Str) : Option (List Str) := if s.any isMeta then none else some (words s)

/-- The full property: wherever the binary is installed, the sentinel command runs it. -/
def C82_statement : Prop :=
  ∀ exe, exe ≠ [] → commandWords (sentinelCmd "prompt".toList exe) = some ["SHPOOL__INTERNAL__PRINT_SENTINEL=prompt".toList, exe, "daemon".toList]

/-- **C82 (defect)**: the path is not quoted: with a blank in it the shell runs something else, and the session stays
invisible. -/
theorem C82_false : ¬ C82_statement := by
  intro h
  exact absurd (h "/opt/my tools/shpool".toList (by decide)) (by decide +kernel)

/-- **C82 (defect)**: with a semicolon in the path two commands are run. -/
theorem C82_false_special : commandWords (sentinelCmd "prompt".toList "/opt/a;b/shpool".toList) = none := by decide +kernel

private theorem wordsOf_word (t : Str) : ∀ (x w : Str), (∀ c ∈ x, c ≠ ' ' ∧ c ≠ '\n') → wordsOf w (x ++ t) = wordsOf (x.reverse ++ w) t := by
  intro x
  induction x with
  | nil => intro w _; rfl
  | cons c cs ih =>
    intro w h
    have hc := h c (by simp)
    simp only [List.cons_append, wordsOf]
    rw [if_neg (by simp [hc.1, hc.2]), ih _ (fun d hd => h d (by simp [hd]))]
    simp

private theorem words_cmd (exe : Str) (hne : exe ≠ []) (h : ∀ c ∈ exe, c ≠ ' ' ∧ c ≠ '\n') :
    words (sentinelCmd "prompt".toList exe) = [flagVar ++ "=prompt".toList, exe, "daemon".toList] := by
  have e : sentinelCmd "prompt".toList exe =
      '\n' :: ' ' :: ((flagVar ++ "=prompt".toList) ++ (' ' :: (exe ++ (' ' :: ("daemon".toList ++ ['\n']))))) := by
    rw [sentinelCmd, daemon_nl, eq_prompt]
    simp only [List.cons_append, List.append_assoc]
  rw [e]
  have h1 : ∀ c ∈ flagVar ++ "=prompt".toList, c ≠ ' ' ∧ c ≠ '\n' := by decide
  have h2 : ∀ c ∈ "daemon".toList, c ≠ ' ' ∧ c ≠ '\n' := by decide
  simp only [words]
  rw [wordsOf, if_pos (.inr rfl), if_pos (by rfl), wordsOf, if_pos (.inl rfl), if_pos (by rfl), wordsOf_word _ _ _ h1, wordsOf, if_pos (.inl rfl)]
  rw [if_neg (by decide), wordsOf_word _ _ _ h, wordsOf, if_pos (.inl rfl)]
  rw [if_neg (by simpa using hne), wordsOf_word _ _ _ h2]
  simp only [List.append_nil, List.reverse_reverse]
  congr 2

/-- **C82 (part)**: for a path without blanks and characters special to a shell the words of the command are the assignment, the path and
`daemon`. -/
theorem C82_words_partial (exe : Str) (hne : exe ≠ []) (h : ∀ c ∈ exe, c ≠ ' ' ∧ c ≠ '\n' ∧ isMeta c = false) :
    commandWords (sentinelCmd "prompt".toList exe) = some ["SHPOOL__INTERNAL__PRINT_SENTINEL=prompt".toList, exe, "daemon".toList] := by
  have hv : flagVar ++ "=prompt".toList = "SHPOOL__INTERNAL__PRINT_SENTINEL=prompt".toList := by decide +kernel
  rw [← hv]
  have hm : (sentinelCmd "prompt".toList exe).any isMeta = false := by
    have h0 : ('\n' :: ' ' :: flagVar ++ '=' :: "prompt".toList).any isMeta = false := by decide +kernel
    have h2 : " daemon\n".toList.any isMeta = false := by decide +kernel
    have h1 : (' ' :: exe).any isMeta = false := by
      simp only [List.any_cons, Bool.or_eq_false_iff, List.any_eq_false]
      exact ⟨by decide, fun c hc => by simp [(h c hc).2.2]⟩
    rw [sentinelCmd, List.any_append, List.any_append, h0, h1, h2]
    rfl
  rw [commandWords, hm, words_cmd exe hne (fun c hc => ⟨(h c hc).1, (h c hc).2.1⟩)]
  rfl

example : ∀ c ∈ "/home/u/.cargo/bin/shpool".toList, c ≠ ' ' ∧ c ≠ '\n' ∧ isMeta c = false := by decide +kernel

/-- **C82**: after the binary was replaced on disk the command runs the new file at the old place ... -/
theorem C82_replaced (p : Str) : exeCurrent (p ++ " (deleted)".toList) = p := by
  show exeCurrent (p ++ deletedMark) = p
  simp [exeCurrent, endsWith]

/-- **C82**: ... and otherwise the path is the one the system reports. -/
theorem C82_not_replaced (p : Str) (h : ¬ " (deleted)".toList <:+ p) : exeCurrent p = p := by
  rw [exeCurrent, if_neg (show ¬ endsWith p deletedMark = true from fun he => h (endsWith_iff.1 he))]

example : exeCurrent "/usr/bin/shpool (deleted)".toList = "/usr/bin/shpool".toList := by decide +kernel

/-! ## C78 -/

/-- Characters that do not stand for themselves inside double quotes on a line typed into an interactive shell, or in the prompt made of it:
quotation mark, backslash and dollar sign; in bash and zsh also the backquote and the exclamation mark (history); in zsh also the percent
sign (prompt escapes). -/
def special : Known → Char → Bool
  | .bash, c => c = '"' || c = '\\' || c = '$' || c = '`' || c = '!'
  | .zsh, c => c = '"' || c = '\\' || c = '$' || c = '`' || c = '!' || c = '%'
  | .fish, c => c = '"' || c = '\\' || c = '$'

/-- The text a shell takes literally at the beginning of the inside of double quotes. -/
def literalRun (k : Known) (s : Str) : Str := s.takeWhile (fun c => !special k c)

/-- What stands before and after the (first) prefix in the script for a shell. -/
def before : Known → Str
  | .bash => bash1
  | .zsh => zsh1
  | .fish => fish1

def afterPrefix : Known → Str
  | .bash => bash2
  | .zsh => zsh2
  | .fish => fish2

private theorem bash2_ends : ∃ d, bash2 = d ++ ['"'] ∧ 0 < d.length :=
  Exists.intro bash2.dropLast (And.intro (by decide +kernel) (by decide +kernel))

/-- C78: in the script for each of the shells the prefix stands at the beginning of a text in double quotes (twice in the one for bash, with
the same text after it). -/
theorem C78_quoted (k : Known) (p : Str) :
    before k ++ p ++ afterPrefix k <+: promptScript (some k) p ∧ ['"'] <:+ before k ∧
    (k = .bash → ∃ a b, promptScript (some k) p = a ++ '"' :: (p ++ b) ∧ a.length > (before k ++ p).length ∧ "${PS1}\"".toList <+: b) := by
  refine ⟨?_, by cases k <;> decide +kernel, ?_⟩
  · cases k
    · exact ⟨p ++ bash3, by simp [promptScript, before, afterPrefix]⟩
    · exact ⟨[], by simp [promptScript, before, afterPrefix]⟩
    · exact ⟨[], by simp [promptScript, before, afterPrefix]⟩
  · rintro rfl
    refine bash2_ends.elim fun d hd => ?_
    refine ⟨bash1 ++ p ++ d, bash3, ?_, ?_, by decide +kernel⟩
    · rw [promptScript, hd.1]
      simp only [List.append_assoc, List.cons_append, List.nil_append]
    · have := hd.2
      simp only [before, List.length_append]
      omega

/-- The full property: for every session name the daemon accepts, each of the shells takes the default prefix with the name as it is. -/
def C78_statement : Prop :=
  ∀ k name, Env.daemonRejects name = false →
    literalRun k (expandPrefix "shpool:$SHPOOL_SESSION_NAME ".toList name ++ afterPrefix k) = "shpool:".toList ++ name ++ " ".toList

/-- **C78 (defect)**: a quotation mark in the session name ends the string in the injected script. -/
theorem C78_false : ¬ C78_statement := by
  intro h
  exact absurd (h .bash "a\"b".toList (by decide)) (by decide +kernel)

/-- **C78 (defect)**: in no shell is every accepted name taken literally; zsh interprets a percent sign too. -/
theorem C78_false_each (k : Known) : ∃ name, Env.daemonRejects name = false ∧
    literalRun k (expandPrefix "shpool:$SHPOOL_SESSION_NAME ".toList name ++ afterPrefix k) ≠ "shpool:".toList ++ name ++ " ".toList := by
  cases k
  · exact ⟨"a!b".toList, by decide, by decide +kernel⟩
  · exact ⟨"50%".toList, by decide, by decide +kernel⟩
  · exact ⟨"a$b".toList, by decide, by decide +kernel⟩

private theorem expand_default (name : Str) : expandPrefix defaultPrefix name = "shpool:".toList ++ name ++ " ".toList := by
  have hv : nameVar = '$' :: "SHPOOL_SESSION_NAME".toList := by decide +kernel
  have hne : ∀ (x rest : Str), (∀ c ∈ x, c ≠ '$') → replaceFrom nameVar name 0 (x ++ rest) = x ++ replaceFrom nameVar name 0 rest := by
    intro x
    induction x with
    | nil => intro rest _; rfl
    | cons c cs ih =>
      intro rest h
      have hc : '$' ≠ c := fun e => h c (by simp) e.symm
      simp only [List.cons_append, replaceFrom]
      rw [if_neg (by rw [hv]; simp [hc]), ih _ (fun d hd => h d (by simp [hd]))]
  have hvar : ∀ rest, replaceFrom nameVar name 0 (nameVar ++ rest) = name ++ replaceFrom nameVar name 0 rest := by
    intro rest
    have hp : nameVar.isPrefixOf (nameVar ++ rest) = true := by simp
    have hl : nameVar.length - 1 = "SHPOOL_SESSION_NAME".toList.length := by rw [hv]; rfl
    have h2 : nameVar ++ rest = '$' :: ("SHPOOL_SESSION_NAME".toList ++ rest) := by rw [hv]; rfl
    rw [h2] at hp ⊢
    rw [replaceFrom, if_pos hp, hl, replaceFrom_skip]
  have e : defaultPrefix = "shpool:".toList ++ (nameVar ++ (" ".toList ++ [])) := by decide +kernel
  unfold expandPrefix replaceAll
  rw [e, hne _ _ (by decide +kernel), hvar, hne _ _ (by decide +kernel)]
  simp only [replaceFrom, List.append_nil, List.append_assoc]

private theorem takeWhile_run {p : Char → Bool} {a : Str} {c : Char} {b : Str} (ha : ∀ x ∈ a, p x = true) (hc : p c = false) :
    (a ++ c :: b).takeWhile p = a := by
  induction a with
  | nil => simp [hc]
  | cons x xs ih =>
    have hx := ha x (by simp)
    simp [hx, ih (fun y hy => ha y (by simp [hy]))]

/-- **C78 (part)**: a name made of characters that stand for themselves is shown as it is, by each of the shells. -/
theorem C78_literal_partial (k : Known) (name : Str) (h : ∀ c ∈ name, special k c = false) :
    literalRun k (expandPrefix "shpool:$SHPOOL_SESSION_NAME ".toList name ++ afterPrefix k) = "shpool:".toList ++ name ++ " ".toList := by
  show literalRun k (expandPrefix defaultPrefix name ++ afterPrefix k) = _
  rw [expand_default]
  have hb : ∃ c rest, afterPrefix k = c :: rest ∧ special k c = true := by
    cases k
    · exact ⟨'$', bash2rest, rfl, by decide⟩
    · exact ⟨'$', zsh2.tail, by decide +kernel, by decide⟩
    · exact ⟨'"', fish2.tail, by decide +kernel, by decide⟩
  obtain ⟨c, rest, hb, hc⟩ := hb
  rw [hb]
  refine takeWhile_run ?_ (by simp [hc])
  intro x hx
  simp only [List.mem_append] at hx
  rcases hx with (hx | hx) | hx
  · revert x; cases k <;> decide
  · simp [h x hx]
  · revert x; cases k <;> decide

example : ∀ k, ∀ c ∈ "my-session_2".toList, special k c = false := by intro k; cases k <;> decide

end Shpool.Inject
