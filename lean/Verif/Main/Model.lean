/-!
# Model of a whole `shpool` command

Sources: `/repo/shpool/src/main.rs` (all of it), `/repo/libshpool/src/lib.rs` 310-364 (where log messages go) and 372-496 (`run`),
`/repo/libshpool/src/daemonize.rs` 40-123 (`maybe_launch_daemon`; the waiting is in the area Launch) and 149-158 (`cd /`),
`/repo/libshpool/src/config.rs` 57-98, `/repo/libshpool/src/attach.rs` 43-260 up to the moment the client is attached and 333-373,
`/repo/libshpool/src/detach.rs`, `kill.rs`, `list.rs`, `set_log_level.rs`, `var.rs`, `events.rs` (their `run`), `common.rs` 76-89.

What the command finds (environment, files, sockets, the daemon's answers) is a parameter, `World`; the model says what the command does
with it: which daemon it starts, which connection it makes, what it writes to its standard error, how it ends.  Simplifications: texts
of messages are left out, only that there is one; the arguments of a command that do not matter to this are left out; errors of printing
to standard output are left out; an attached client is modelled only by how it ends.
-/

namespace Shpool.Main

abbrev Str := List Char

/-- A path: absolute or relative, and its components. -/
structure Path where
  abs : Bool
  parts : List Str
  deriving DecidableEq, Repr

/-- What a path leads to for a process with the working directory `cwd`. -/
def Path.at (cwd : List Str) (p : Path) : List Str := if p.abs then p.parts else cwd ++ p.parts

/-- `Path::join` with a relative path. -/
def Path.join (p : Path) (s : Str) : Path := { p with parts := p.parts ++ [s] }

/-- `Path::with_file_name`. -/
def Path.withFileName (p : Path) (s : Str) : Path := { p with parts := p.parts.dropLast ++ [s] }

/-- `Commands`, lib.rs 118-230. -/
inductive Cmd where
  | version | daemon | attach | detach | kill | list | setLogLevel | var | events
  deriving DecidableEq, Repr

/-- `Args`, lib.rs 56-112. -/
structure Args where
  cmd : Cmd
  logFile : Bool := false
  socket : Option Path := none
  configFile : Option Path := none
  daemonize : Bool := false
  noDaemonize : Bool := false
  deriving DecidableEq, Repr

/-- What `UnixStream::connect` answers. -/
inductive Probe where
  | connected
  | refused
  | notFound
  | other
  deriving DecidableEq, Repr

/-- What the daemon sends first, protocol.rs 161-170: this version, another one or nothing that can be read, a version that cannot be
compared. -/
inductive Hello where
  | same
  | mismatch
  | nonsense
  deriving DecidableEq, Repr

/-- The reply to a request of a command other than attach: none that can be read, or one that names these many sessions that were not
found and these many that were not attached. -/
inductive Reply where
  | none
  | names (notFound notAttached : Nat)
  deriving DecidableEq, Repr

/-- The reply to an attach request, attach.rs 296-323. -/
inductive AttachReply where
  | none
  | busy
  | forbidden
  | attached (warnings : Nat)
  | created (warnings : Nat)
  | unexpected
  deriving DecidableEq, Repr

/-- How an attached client ends: with the status it was told, or with an error, attach.rs 226-237. -/
inductive Piped where
  | exit (status : Nat)
  | error
  deriving DecidableEq, Repr

/-- What a command finds. -/
structure World where
  /-- `SHPOOL__INTERNAL__PRINT_SENTINEL` is "prompt" or "startup" -/
  sentinel : Bool := false
  logFileOk : Bool := true
  runtimeDir : Option Path := some ⟨true, ["run".toList]⟩
  home : Option Path := some ⟨true, ["home".toList]⟩
  mkdirOk : Bool := true
  /-- `config::Manager::new` for the file given on the command line, or the usual ones: `none` is an error (a malformed file; see C119 for
  another reason), else it is the value of `nodaemonize` -/
  config : Option Path → Option (Option Bool) := fun _ => some none
  /-- the probe of `maybe_launch_daemon` -/
  probe : Probe := .connected
  removeOk : Bool := true
  spawnOk : Bool := true
  /-- the daemon that was launched answered in time -/
  cameUp : Bool := true
  /-- the connection of the command itself -/
  dial : Probe := .connected
  hello : Hello := .same
  /-- the number of sessions named on the command line, and whether `SHPOOL_SESSION_NAME` is set -/
  named : Nat := 1
  inSession : Bool := false
  writeOk : Bool := true
  reply : Reply := .names 0 0
  tmplOk : Bool := true
  ttlOk : Bool := true
  /-- a prompt about another version could be read -/
  promptOk : Bool := true
  /-- the reply to the request for variables could be read -/
  varsOk : Bool := true
  nameOk : Bool := true
  attachReply : AttachReply := .attached 0
  piped : Piped := .exit 0
  /-- reading events, and a daemon that runs, end without an error -/
  streamOk : Bool := true

/-- How a command ends: well; with the status of a shell; with an error. -/
inductive End where
  | ok
  | shell (status : Nat)
  | error
  deriving DecidableEq, Repr

/-- What a function of a command says and gives: `said` is the number of messages on standard error. -/
structure Res where
  said : Nat
  ending : End
  deriving DecidableEq, Repr

/-- `protocol::Client::new` and how its result is handled in all commands (list.rs 23-36, kill.rs 26-39, detach.rs 26-39,
set_log_level.rs 23-36, var.rs 9-22, attach.rs 333-373): the number of messages said, and whether there is a client. -/
def connect (w : World) : Nat × Bool := match w.dial with
  | .connected => match w.hello with
    | .same => (0, true)
    | .mismatch => (1, true)
    -- `err.downcast::<io::Error>()?`
    | .nonsense => (0, false)
  | .notFound => (1, false)
  | .refused => (0, false)
  | .other => (0, false)

/-- `common::resolve_sessions`, common.rs 76-89: whether there is a session to act on; if not, it says so. -/
def resolveSessions (w : World) : Bool := decide (0 < w.named) || w.inSession

/-- The `run` of detach.rs, kill.rs, list.rs, set_log_level.rs and var.rs.  `targets`: it acts on sessions that are named; `checks`: which of
the counts of a reply are errors. -/
def request (w : World) (targets : Bool) (checks : Nat → Nat → Bool) : Res :=
  let (n, ok) := connect w
  if !ok then ⟨n, .error⟩
  else if targets && !resolveSessions w then ⟨n + 1, .error⟩
  else if !w.writeOk then ⟨n, .error⟩
  else match w.reply with
    | .none => ⟨n, .error⟩
    | .names a b => if checks a b then ⟨n + 1, .error⟩ else ⟨n, .ok⟩

/-- `attach::run` and `Attach::run`, attach.rs 43-140, with one attempt of `attach_resolved`, attach.rs 140-238.  A busy session is a
message and no error (163-169); with `--force` more attempts follow (area Client), which is left out here. -/
def attach (w : World) : Res :=
  -- attach.rs 56-74: parsing the templates
  if !w.tmplOk then ⟨0, .error⟩
  -- attach.rs 76-84
  else if !w.ttlOk then ⟨0, .error⟩
  else
    let (n, ok) := connect w
    if !ok then ⟨n, .error⟩
    else if !w.promptOk then ⟨n, .error⟩
    else if !w.writeOk || !w.varsOk then ⟨n, .error⟩
    -- attach.rs 141-156
    else if !w.nameOk then ⟨n + 1, .ok⟩
    else match w.attachReply with
      | .none => ⟨n, .error⟩
      | .busy => ⟨n + 1, .ok⟩
      | .forbidden => ⟨n + 1, .error⟩
      | .unexpected => ⟨n, .error⟩
      | .attached k | .created k => match w.piped with
        | .exit s => ⟨n + k, .shell s⟩
        | .error => ⟨n + k, .error⟩

/-- `events::run`, events.rs 18-31. -/
def events (w : World) : Res := if w.dial = .connected && w.streamOk then ⟨0, .ok⟩ else ⟨0, .error⟩

/-- `daemon::run`: what matters here is whether it ends with an error. -/
def daemon (w : World) : Res := if w.streamOk then ⟨0, .ok⟩ else ⟨0, .error⟩

/-- The `match` of lib.rs 462-488. -/
def dispatch (w : World) : Cmd → Res
  | .version => ⟨0, .error⟩
  | .daemon => daemon w
  | .attach => attach w
  | .detach => request w true (fun a b => decide (0 < a) || decide (0 < b))
  | .kill => request w true (fun a _ => decide (0 < a))
  | .list => request w false (fun _ _ => false)
  | .setLogLevel => request w false (fun _ _ => false)
  | .var => request w false (fun _ _ => false)
  | .events => events w

/-- The command line of a daemon that is launched, daemonize.rs 76-88. -/
structure Launch where
  configFile : Option Path
  socket : Path
  deriving DecidableEq, Repr

/-- What a command did: the daemon it launched; the socket its subcommand worked on, if it got that far; messages on standard error;
messages in the log file; how it ended. -/
structure Out where
  launched : Option Launch := none
  worked : Option Path := none
  said : Nat := 0
  logged : Nat := 0
  ending : End
  deriving DecidableEq, Repr

/-- `run` ended with an error: main.rs returns it, so that it is printed. -/
def failed (l : Option Launch) : Out := { launched := l, said := 1, ending := .error }

/-- The default socket's directory, lib.rs 416-422. -/
def runtimeDir (w : World) : Option Path := match w.runtimeDir with
  | some d => some (d.join "shpool".toList)
  | none => match w.home with
    | some h => some (((h.join ".local".toList).join "run".toList).join "shpool".toList)
    | none => none

/-- The socket, lib.rs 425-440; `dir` is the runtime directory. -/
def sock (a : Args) (dir : Path) : Path := a.socket.getD (dir.join "shpool.socket".toList)

/-- `maybe_launch_daemon`: the daemon that was launched, and whether that went well. -/
def maybeLaunch (a : Args) (w : World) (sock : Path) : Option Launch × Bool :=
  let go : Option Launch × Bool := if w.spawnOk then (some ⟨a.configFile, sock⟩, w.cameUp) else (none, false)
  match w.probe with
  | .connected => (none, true)
  | .refused => if w.removeOk then go else (none, false)
  | .notFound | .other => go

/-- lib.rs 462-496: the subcommand, and where its error goes: to the log, which is the log file if there is one, for a daemon without one
its standard error, and nowhere for other commands (lib.rs 346-356). -/
def perform (a : Args) (w : World) (sock : Path) (l : Option Launch) : Out :=
  -- lib.rs 463: `return Err(..)`
  if a.cmd = .version then failed l
  else
    let r := dispatch w a.cmd
    { launched := l, worked := some sock, ending := r.ending,
      said := r.said + (if r.ending = .error ∧ a.logFile = false ∧ a.cmd = .daemon then 1 else 0),
      logged := if r.ending = .error ∧ a.logFile then 1 else 0 }

/-- `run`, lib.rs 372-496, and main.rs. -/
def run (a : Args) (w : World) : Out :=
  -- main.rs: `args.version()`
  if a.cmd = .version then { ending := .ok }
  -- lib.rs 374-384
  else if a.cmd = .daemon ∧ w.sentinel then { ending := .ok }
  else if a.logFile && !w.logFileOk then failed none
  else match runtimeDir w with
    | none => failed none
    | some dir =>
      if !w.mkdirOk then failed none
      -- lib.rs 442
      else match w.config a.configFile with
        | none => failed none
        | some nodaemonize =>
          -- lib.rs 444-449
          if (!nodaemonize.getD false || a.daemonize) && !a.noDaemonize && !decide (a.cmd = .daemon) then
            match maybeLaunch a w (sock a dir) with
            | (l, true) => perform a w (sock a dir) l
            | (l, false) => failed l
          else perform a w (sock a dir) none

/-- Where a launched daemon listens: it changes its directory to the root before it binds its socket, daemonize.rs 153-158, mod.rs 57-92. -/
def Launch.listens (l : Launch) : List Str := l.socket.at []

end Shpool.Main
