import Verif.Env.Model
/-!
# Model of the setup injected into a new shell

Sources: `/repo/libshpool/src/daemon/shell_inject.rs` 57-142 and 204-218, `/repo/libshpool/src/daemon/server.rs` 1078-1106 and
1306-1308, `/repo/libshpool/src/exe.rs`, `/repo/libshpool/src/consts.rs` 40.

Strings are lists of characters.  The texts of the scripts are copied from the source.  What the shell makes of the script is
the subject of `ShellPrompt`; here there are only two fragments of shell syntax in the specification: splitting a command line at
blanks, and reading text inside double quotes.
-/

namespace Shpool.Inject

abbrev Str := List Char

/-- `KnownShell`, shell_inject.rs 43-48. -/
inductive Known where
  | bash
  | zsh
  | fish
  deriving DecidableEq, Repr

/-- `str::ends_with`. -/
def endsWith (s suffix : Str) : Bool := suffix.isSuffixOf s

/-- `sniff_shell`, shell_inject.rs 204-218, given the process name. -/
def sniff (name : Str) : Option Known :=
  if endsWith name "bash".toList then some .bash
  else if endsWith name "zsh".toList then some .zsh
  else if endsWith name "fish".toList then some .fish
  else none

/-- `str::replace`: left to right, not overlapping.  `skip` counts characters of a match still to be dropped. -/
def replaceFrom (pat to : Str) : Nat → Str → Str
  | _, [] => []
  | skip + 1, _ :: t => replaceFrom pat to skip t
  | 0, c :: t =>
    if pat.isPrefixOf (c :: t) then to ++ replaceFrom pat to (pat.length - 1) t
    else c :: replaceFrom pat to 0 t

def replaceAll (pat to s : Str) : Str := replaceFrom pat to 0 s

def deletedMark : Str := " (deleted)".toList

/-- `exe::current`, exe.rs 4-21 (on Linux, for a path that is valid UTF-8), given the path the system reports. -/
def exeCurrent (p : Str) : Str :=
  if endsWith p deletedMark then p.take (p.length - deletedMark.length) else p

def nameVar : Str := "$SHPOOL_SESSION_NAME".toList

/-- The expanded prompt prefix, shell_inject.rs 74. -/
def expandPrefix (pfx name : Str) : Str := replaceAll nameVar name pfx

def bash1 : Str := "
            if [[ -z \"${PROMPT_COMMAND+x}\" ]]; then
               PS1=\"".toList
def bash2rest : Str := "{PS1}\"
            else
               SHPOOL__OLD_PROMPT_COMMAND=(\"${PROMPT_COMMAND[@]}\")
               SHPOOL__OLD_PS1=\"${PS1}\"
               function __shpool__prompt_command() {
                  PS1=\"${SHPOOL__OLD_PS1}\"
                  for prompt_hook in \"${SHPOOL__OLD_PROMPT_COMMAND[@]}\"
                  do
                    eval \"${prompt_hook}\"
                  done
                  PS1=\"".toList
def bash2 : Str := '$' :: bash2rest
def bash3 : Str := "${PS1}\"
               }
               PROMPT_COMMAND=__shpool__prompt_command
            fi
        ".toList
def zsh1 : Str := "
            typeset -a precmd_functions
            SHPOOL__OLD_PROMPT=\"${PROMPT}\"
            function __shpool__reset_rprompt() {
                PROMPT=\"${SHPOOL__OLD_PROMPT}\"
            }
            precmd_functions[1,0]=(__shpool__reset_rprompt)
            function __shpool__prompt_command() {
               PROMPT=\"".toList
def zsh2 : Str := "${PROMPT}\"
            }
            precmd_functions+=(__shpool__prompt_command)
        ".toList
def fish1 : Str := "
            functions --copy fish_prompt shpool__old_prompt
            function fish_prompt; echo -n \"".toList
def fish2 : Str := "\"; shpool__old_prompt; end
        ".toList

/-- The part of the script that sets the prompt, shell_inject.rs 76-119. -/
def promptScript (shell : Option Known) (p : Str) : Str :=
  match shell with
  | some .bash => bash1 ++ p ++ bash2 ++ p ++ bash3
  | some .zsh => zsh1 ++ p ++ zsh2
  | some .fish => fish1 ++ p ++ fish2
  | none => []

def flagVar : Str := "SHPOOL__INTERNAL__PRINT_SENTINEL".toList

/-- The command that prints a sentinel, shell_inject.rs 134 and 150; `which` is `prompt` or `startup`. -/
def sentinelCmd (which exe : Str) : Str :=
  '\n' :: ' ' :: flagVar ++ '=' :: which ++ ' ' :: exe ++ " daemon\n".toList

/-- The script written by `maybe_setup`, shell_inject.rs 74-139. -/
def script (procName pfx startCmd name exe : Str) : Str :=
  let s := promptScript (sniff procName) (expandPrefix pfx name)
  let s := if startCmd.isEmpty then s else s ++ '\n' :: startCmd ++ ['\n']
  s ++ sentinelCmd "prompt".toList exe

/-- `supports_sentinels`, server.rs 1079-1084: the request's command and start command, the configured prefix, the shell. -/
def supportsSentinels (cmd startCmd : Option Str) (pfx : Option Str) (shell : Str) : Bool :=
  let blank := match pfx with
    | some p => p.isEmpty
    | none => false
  cmd.isNone && ((match startCmd with
    | some c => !c.isEmpty
    | none => false) || !blank) && !endsWith shell "nu".toList

def defaultPrefix : Str := "shpool:$SHPOOL_SESSION_NAME ".toList

/-- The setup of a new shell, server.rs 1078-1106: what is written to the shell, and whether the session hides output until
the prompt sentinel (shell.rs 278).  `startup`: whether the startup sentinel was seen (`wait_for_startup`); an error of
`maybe_setup` is only logged. -/
def setup (cmd startCmd pfx : Option Str) (shell procName name exe : Str) (startup : Bool) : Str × Bool :=
  if supportsSentinels cmd startCmd pfx shell then
    (sentinelCmd "startup".toList exe ++
      (if startup then script procName (pfx.getD defaultPrefix) (startCmd.getD []) name exe else []), true)
  else ([], false)

end Shpool.Inject
