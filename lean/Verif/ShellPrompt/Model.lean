import Verif.Inject.Model
/-!
# Model of what the injected setup does to the prompt of the shell

Source: `/repo/libshpool/src/daemon/shell_inject.rs` 72-120: the scripts written to bash, zsh and fish.

The area `Inject` has the texts of the scripts.  Here each script is a small program.  `render` spells the program out, line by
line, and a theorem says that this is the text of `Inject` (blanks at the start of lines and empty lines aside).  So what is
trusted is the meaning given below to each form of command:

* A variable holds a list of texts.  A plain variable of bash and zsh is a list of one.
* Assigning a text to a name that holds a list replaces its first element only (bash).
* An assignment sets the status (`$?`) to 0, and so does defining a function, and `echo` in fish.
* bash runs the elements of `PROMPT_COMMAND` before a prompt, and restores the status after each of them.
* zsh runs the function `precmd`, if there is one, then those named in `precmd_functions`, and restores the status after each.
* fish shows what the function `fish_prompt` prints; in it, `$status` is the status of the last command.

What the user's own commands and hooks do is not restricted: `ext` says, for each text, what running it does to the shell.
`user` stands for everything in the shell that the scripts never mention.  A prompt is the value of `PS1` or `PROMPT`; what the
shell makes of backslashes and percent signs when it prints it is not modelled.  The prefix is taken to hold no characters with a
meaning inside double quotes (see C78).  A user's hook that names the function of the daemon is not modelled, nor are arrays of
bash with gaps.
-/

namespace Shpool.ShellPrompt

open Inject (Str)

/-- A piece of a text in double quotes: itself, or `${x}`. -/
inductive Word where
  | lit (s : Str)
  | var (x : String)

/-- The commands of the scripts that are not made of other commands; the lines are those of shell_inject.rs. -/
inductive Simple where
  /-- `x="…"`: 78, 81, 83, 88, 97, 99, 103. -/
  | set (x : String) (w : List Word)
  /-- `x=v`: 90. -/
  | name (x v : String)
  /-- `x=("${y[@]}")`: 80. -/
  | copy (x y : String)
  /-- `for i in "${a[@]}"`, `do`, `eval "${i}"`, `done`: 84-87. -/
  | evalAll (i a : String)
  /-- `typeset -a x`: 96. -/
  | array (x : String)
  /-- `x[1,0]=(v)`: 101. -/
  | front (x v : String)
  /-- `x+=(v)`: 105. -/
  | back (x v : String)

/-- A command: a simple one, or a definition of a function (82-89, 98-100, 102-104). -/
inductive Cmd where
  | run (c : Simple)
  | func (f : String) (body : List Simple)

/-- A script: commands, or `if [[ -z "${x+x}" ]]; then … else … fi` (77-91). -/
inductive Script where
  | all (l : List Cmd)
  | ifUnset (x : String) (a b : List Cmd)

/-- The script for bash, shell_inject.rs 75-93. -/
def bashScript (p : Str) : Script :=
  .ifUnset "PROMPT_COMMAND"
    [.run (.set "PS1" [.lit p, .var "PS1"])]
    [.run (.copy "SHPOOL__OLD_PROMPT_COMMAND" "PROMPT_COMMAND"),
     .run (.set "SHPOOL__OLD_PS1" [.var "PS1"]),
     .func "__shpool__prompt_command"
       [.set "PS1" [.var "SHPOOL__OLD_PS1"],
        .evalAll "prompt_hook" "SHPOOL__OLD_PROMPT_COMMAND",
        .set "PS1" [.lit p, .var "PS1"]],
     .run (.name "PROMPT_COMMAND" "__shpool__prompt_command")]

/-- The script for zsh, shell_inject.rs 94-107. -/
def zshScript (p : Str) : Script :=
  .all
    [.run (.array "precmd_functions"),
     .run (.set "SHPOOL__OLD_PROMPT" [.var "PROMPT"]),
     .func "__shpool__reset_rprompt" [.set "PROMPT" [.var "SHPOOL__OLD_PROMPT"]],
     .run (.front "precmd_functions" "__shpool__reset_rprompt"),
     .func "__shpool__prompt_command" [.set "PROMPT" [.lit p, .var "PROMPT"]],
     .run (.back "precmd_functions" "__shpool__prompt_command")]

/-! ## Spelling (not code of the daemon: how the forms above are written) -/

def Word.text : Word → Str
  | .lit s => s
  | .var x => "${".toList ++ x.toList ++ "}".toList

def Simple.lines : Simple → List Str
  | .set x w => [x.toList ++ "=\"".toList ++ w.flatMap Word.text ++ "\"".toList]
  | .name x v => [x.toList ++ "=".toList ++ v.toList]
  | .copy x y => [x.toList ++ "=(\"${".toList ++ y.toList ++ "[@]}\")".toList]
  | .evalAll i a =>
    ["for ".toList ++ i.toList ++ " in \"${".toList ++ a.toList ++ "[@]}\"".toList, "do".toList,
     "eval \"${".toList ++ i.toList ++ "}\"".toList, "done".toList]
  | .array x => ["typeset -a ".toList ++ x.toList]
  | .front x v => [x.toList ++ "[1,0]=(".toList ++ v.toList ++ ")".toList]
  | .back x v => [x.toList ++ "+=(".toList ++ v.toList ++ ")".toList]

def Cmd.lines : Cmd → List Str
  | .run c => c.lines
  | .func f body => ["function ".toList ++ f.toList ++ "() {".toList] ++ body.flatMap Simple.lines ++ ["}".toList]

def Script.lines : Script → List Str
  | .all l => l.flatMap Cmd.lines
  | .ifUnset x a b =>
    ["if [[ -z \"${".toList ++ x.toList ++ "+x}\" ]]; then".toList] ++ a.flatMap Cmd.lines ++ ["else".toList] ++
      b.flatMap Cmd.lines ++ ["fi".toList]

/-! ## Meaning (not code of the daemon: what bash and zsh do with these forms) -/

/-- A shell: its variables, the functions the script defined, the status of the last command, and the rest. -/
structure Sh (U : Type) where
  vars : String → Option (List Str)
  funs : String → Option (List Simple)
  status : Nat
  user : U

variable {U : Type}

/-- `${x}`: the first element; nothing if the variable is not set. -/
def Sh.get (s : Sh U) (x : String) : Str := ((s.vars x).getD []).headD []

/-- `${x[@]}`. -/
def Sh.list (s : Sh U) (x : String) : List Str := (s.vars x).getD []

/-- `${x+x}` is not empty. -/
def Sh.isSet (s : Sh U) (x : String) : Bool := !(s.list x).isEmpty

/-- The variable `x` holds the list `l`. -/
def Sh.put (s : Sh U) (x : String) (l : List Str) : Sh U := { s with vars := fun y => if y = x then some l else s.vars y }

/-- Assigning a text: the first element is replaced. -/
def Sh.assign (s : Sh U) (x : String) (v : Str) : Sh U := s.put x (v :: (s.list x).tail)

def Word.value (s : Sh U) : Word → Str
  | .lit t => t
  | .var x => s.get x

/-- What running a user's command does. -/
abbrev Ext (U : Type) := Str → Sh U → Sh U

def Simple.exec (ext : Ext U) (s : Sh U) : Simple → Sh U
  | .set x w => { s.assign x (w.flatMap (Word.value s)) with status := 0 }
  | .name x v => { s.assign x v.toList with status := 0 }
  | .copy x y => { s.put x (s.list y) with status := 0 }
  | .evalAll i a => (s.list a).foldl (fun s h => ext h (s.assign i h)) { s with status := 0 }
  | .array x => { s.put x (s.list x) with status := 0 }
  | .front x v => { s.put x (v.toList :: s.list x) with status := 0 }
  | .back x v => { s.put x (s.list x ++ [v.toList]) with status := 0 }

def Cmd.exec (ext : Ext U) (s : Sh U) : Cmd → Sh U
  | .run c => c.exec ext s
  | .func f body => { s with funs := fun y => if y = f then some body else s.funs y, status := 0 }

def Script.exec (ext : Ext U) (s : Sh U) : Script → Sh U
  | .all l => l.foldl (Cmd.exec ext) s
  | .ifUnset x a b => if s.isSet x then b.foldl (Cmd.exec ext) s else a.foldl (Cmd.exec ext) s

/-- Running a hook: a function of the script, or something of the user's; the status is as before afterwards. -/
def hook (ext : Ext U) (s : Sh U) (h : Str) : Sh U :=
  { (match s.funs (String.ofList h) with
    | some body => body.foldl (Simple.exec ext) s
    | none => ext h s) with status := s.status }

/-- The hooks bash and zsh run before a prompt. -/
def bashHooks (s : Sh U) : List Str := s.list "PROMPT_COMMAND"
def zshHooks (s : Sh U) : List Str := "precmd".toList :: s.list "precmd_functions"

/-- A prompt of bash: the hooks are run, then `PS1` is shown. -/
def bashPrompt (ext : Ext U) (s : Sh U) : Sh U × Str :=
  let s' := (bashHooks s).foldl (hook ext) s
  (s', s'.get "PS1")

/-- A prompt of zsh: the hooks are run, then `PROMPT` is shown. -/
def zshPrompt (ext : Ext U) (s : Sh U) : Sh U × Str :=
  let s' := (zshHooks s).foldl (hook ext) s
  (s', s'.get "PROMPT")

/-- The prompts a shell shows while the user types the given commands. -/
def shows {S : Type} (prompt : S → S × Str) (ext : Str → S → S) : S → List Str → List Str
  | s, [] => [(prompt s).2]
  | s, t :: ts => (prompt s).2 :: shows prompt ext (ext t (prompt s).1) ts

/-! ## fish -/

/-- What a function of fish consists of: a function of the user's (told the status and the rest of the shell, what it prints
and what becomes of the rest), or commands of the script: `echo -n "…"` and a call. -/
inductive FishFun (U : Type) where
  | own (f : Nat → U → Str × U)
  | echoThen (p : Str) (g : String)

/-- A shell of this kind. -/
structure Fish (U : Type) where
  funs : String → Option (FishFun U)
  status : Nat
  user : U

/-- A command of the script for fish. -/
inductive FishCmd where
  /-- `functions --copy f g`: shell_inject.rs 110. -/
  | copy (f g : String)
  /-- `function f; echo -n "p"; g; end`: 111. -/
  | func (f : String) (p : Str) (g : String)

/-- The script for fish, shell_inject.rs 108-113. -/
def fishScript (p : Str) : List FishCmd :=
  [.copy "fish_prompt" "shpool__old_prompt", .func "fish_prompt" p "shpool__old_prompt"]

def FishCmd.line : FishCmd → Str
  | .copy f g => "functions --copy ".toList ++ f.toList ++ " ".toList ++ g.toList
  | .func f p g => "function ".toList ++ f.toList ++ "; echo -n \"".toList ++ p ++ "\"; ".toList ++ g.toList ++ "; end".toList

def FishCmd.exec (s : Fish U) : FishCmd → Fish U
  | .copy f g => { s with funs := fun y => if y = g then s.funs f else s.funs y, status := 0 }
  | .func f p g => { s with funs := fun y => if y = f then some (.echoThen p g) else s.funs y, status := 0 }

def fishSetup (p : Str) (s : Fish U) : Fish U := (fishScript p).foldl FishCmd.exec s

/-- A prompt of fish.  After `echo` the status is 0.  The function the script's one calls is taken to be the user's (it is a copy
of the one that was there before the script). -/
def fishPrompt (s : Fish U) : Fish U × Str :=
  match s.funs "fish_prompt" with
  | none => (s, [])
  | some (.own f) => ({ s with user := (f s.status s.user).2 }, (f s.status s.user).1)
  | some (.echoThen p g) =>
    match s.funs g with
    | some (.own f) => ({ s with user := (f 0 s.user).2 }, p ++ (f 0 s.user).1)
    | _ => (s, p)

end Shpool.ShellPrompt
