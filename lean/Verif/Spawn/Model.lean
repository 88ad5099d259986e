import Verif.Env.Model
import Verif.Duration.Model
import Verif.S2C.Model
import Verif.Pipe.Model
/-!
# Model of starting a shell and of the way its exit status takes

Source: `/repo/libshpool/src/daemon/server.rs` 906-1183 (`spawn_subshell`), `/repo/libshpool/src/attach.rs` 76-84 and 285 (the ttl).
The frame with the status is that of `Verif/S2C`, the client's handling of it that of `Verif/Pipe`.

Splitting a command line (`shell_words::split`) is a parameter.  What the operating system answers (terminal database, fork, threads,
channel) is a parameter.  Instants are seconds of the monotonic clock, in the range of `i64` (std's `Instant` on Linux; the
nanoseconds take no part since the ttl is whole seconds).  The prompt set-up is in `Verif/Inject`, the closing of
descriptors in `Verif/Fds`.
-/

namespace Shpool.Spawn

open Shpool.Str Shpool.Env

/-! ## The command -/

/-- Called at server.rs 1001-1006: the components of a path that are not empty and not `.` (`Path::components`, except that a leading `.` and the root are left
out, which `file_name` does not look at). -/
def components (p : Str) : List Str := (split '/' p).filter (fun c => !c.isEmpty && c != ['.'])

/-- `Path::file_name`, called at server.rs 1001-1006. -/
def fileName (p : Str) : Option Str :=
  match (components p).getLast? with
  | none => none
  | some c => if c = ['.', '.'] then none else some c

/-- `str::ends_with`, called at server.rs 938-942. -/
def endsWith (s suffix : Str) : Bool := suffix.isSuffixOf s

/-- What an attach request and the configuration say about the shell (the arguments of `spawn_subshell`, server.rs 906-919). -/
structure Input where
  configShell : Option Str
  defaultShell : Str
  norc : Option Bool
  cmd : Option Str
  dir : Option Str
  home : Str
  env : Pairs
  name : Str
  ttl : Option Nat

/-- What is executed: the `process::Command` built at server.rs 926-1007. -/
structure Exec where
  program : Str
  arg0 : Str
  args : List Str
  dir : Str
  env : Pairs
  deriving DecidableEq, Repr

/-- server.rs 915-919. -/
def shellOf (i : Input) : Str :=
  match i.configShell with
  | some s => s
  | none => i.defaultShell

/-- server.rs 937-945. -/
def norcArgs (i : Input) : List Str :=
  if i.norc.getD false then
    if endsWith (shellOf i) "bash".toList then ["--norc".toList, "--noprofile".toList]
    else if endsWith (shellOf i) "zsh".toList then ["--no-rcs".toList]
    else if endsWith (shellOf i) "fish".toList then ["--no-config".toList]
    else []
  else []

/-- server.rs 926-948: program and arguments; `none`: an error. -/
def commandOf (words : Str → Option (List Str)) (i : Input) : Option (Str × List Str) :=
  match i.cmd with
  | some c =>
    match words c with
    | none => none
    | some [] => none
    | some (p :: args) => some (p, args)
  | none => some (shellOf i, norcArgs i)

/-- The terminal type whose database is used, server.rs 964: the first setting. -/
def termUsed (env : Pairs) : Option Str := ((env.filter (fun p => p.1 == kTERM)).map (·.2)).head?

/-- server.rs 950-1007: the whole command; `none`: an error. -/
def execOf (words : Str → Option (List Str)) (i : Input) : Option Exec :=
  match commandOf words i with
  | none => none
  | some (p, args) =>
    let e : Exec := ⟨p, p, args, startDir i.home i.dir, i.env⟩
    match i.cmd with
    | some _ => some e
    | none =>
      match fileName (shellOf i) with
      | none => none
      | some b => some { e with arg0 := '-' :: b }

/-! ## Starting it -/

/-- Whether the steps that depend on the system work: terminal database (977-998), fork (1011), shell-to-client thread (1139-1163),
the reaper still takes registrations (1167); and the time. -/
structure World where
  terminfo : Bool
  fork : Bool
  thread : Bool
  reaper : Bool
  now : Nat

/-- How `spawn_subshell` ends, server.rs 906-1183. -/
inductive Outcome where
  | created
  | error
  | panic
  deriving DecidableEq, Repr

/-- The shell started, the registration with the reaper, and how `spawn_subshell` ended (server.rs 1011-1183). -/
structure Res where
  child : Option Exec
  registered : Option (Str × Nat)
  outcome : Outcome
  deriving DecidableEq, Repr

/-- `Instant::add`, called at server.rs 1167: panics if the result is not representable. -/
def instantAdd (now secs : Nat) : Option Nat := if now + secs < 2 ^ 63 then some (now + secs) else none

/-- `spawn_subshell`, server.rs 906-1183. -/
def spawnSubshell (words : Str → Option (List Str)) (w : World) (i : Input) : Res :=
  match execOf words i with
  | none => ⟨none, none, .error⟩
  | some e =>
    if !w.terminfo then ⟨none, none, .error⟩
    else if !w.fork then ⟨none, none, .error⟩
    else if !w.thread then ⟨some e, none, .error⟩
    else match i.ttl with
      | none => ⟨some e, none, .created⟩
      | some ttl =>
        match instantAdd w.now ttl with
        | none => ⟨some e, none, .panic⟩
        | some at_ => if w.reaper then ⟨some e, some (i.name, at_), .created⟩ else ⟨some e, none, .error⟩

/-- The ttl in the request, attach.rs 76-84 and 285: `none` if the client refuses it (or crashes). -/
def requestTtl (t : CharTables) (b : Duration.Build) : Option (List Char) → Option (Option Nat)
  | none => some none
  | some src => match Duration.parse t b src with
    | .ok secs => some (some secs)
    | _ => none

/-! ## The exit status -/

/-- The child watcher, server.rs 1038-1077, on the results of its calls of `waitpid` (return value and status word); `none`: still
waiting. -/
def watch : List (Int × Nat) → Option Nat
  | [] => none
  | (r, st) :: rest =>
    if r = 0 then watch rest
    else if r = -1 then some 1
    else if st &&& 0x7f = 0 then some ((st >>> 8) &&& 0xff)   -- WIFEXITED, WEXITSTATUS
    else some 1

end Shpool.Spawn
