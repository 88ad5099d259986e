import Verif.Util.Lts
/-!
# Model of the files in the directory of a session

Sources: `/repo/libshpool/src/daemon/server.rs` 270-286 (`handle_attach`: the session is chosen or made, then the link to the client's ssh agent
is set, then the file with the forwarded variables is written), 574-606 (`link_ssh_auth_sock`), 608-622 (`populate_session_env_file`), 1012-1104
(`spawn_subshell`: the shell is started and, if its prompt is set up, waited for until it has run its start files), 357-364 and 752-763 (a session is
removed; its directory is left as it is).

The directory of one session name is modelled (different names have different directories: C36).  The link and the file are represented by the
client they came from.  `agent` tells which clients have an ssh agent.  A shell can look at the files at any time, so the claims are about
every state in which there is a shell.

Simplifications: linking is on (`nosymlink_ssh_auth_sock` is not set).  One request at a time serves a name (the others are refused or wait:
C44); a shell exits, or is killed, while a client is attached or when no request is being served.  Replacing the link takes two steps in the
program, with no link between them; here it is one.  An error in setting the link or writing the file ends the request and leaves the session.
-/

namespace Shpool.SessDir

/-- `agent`: which clients have an ssh agent.  `early`: the files are made before the shell is started; `clears`: the link of an earlier client is
removed if the new one has no agent.  The program does neither. -/
structure Params where
  agent : Nat → Bool
  early : Bool
  clears : Bool

/-- The program (server.rs 270-286, 579-602). -/
def program (agent : Nat → Bool) : Params := ⟨agent, false, false⟩

/-- Where the request that serves the name is; `new`: it has made the session. -/
inductive Phase where
  | idle
  /-- in `spawn_subshell`: the shell runs its start files (and the start command) -/
  | starting (c : Nat)
  /-- before `link_ssh_auth_sock` -/
  | toLink (c : Nat) (new : Bool)
  /-- before `populate_session_env_file` -/
  | toWrite (c : Nat) (new : Bool)
  /-- the files are there -/
  | ready (c : Nat) (new : Bool)
  /-- the client has the session -/
  | attached (c : Nat)
  deriving DecidableEq, Repr

/-- The directory, whether there is a shell, and the request. -/
structure St where
  link : Option Nat
  env : Option Nat
  shell : Bool
  phase : Phase
  deriving DecidableEq, Repr

/-- The name was never used. -/
def init : St := ⟨none, none, false, .idle⟩

/-- What happens. -/
inductive Label where
  /-- a request of client `c` is served -/
  | attach (c : Nat)
  | spawn
  /-- the shell has started, or was waited for long enough -/
  | started
  | link
  | write
  /-- setting the link or writing the file fails -/
  | fail
  /-- the client is given the session -/
  | join
  /-- the client leaves -/
  | leave
  /-- the shell exits or is killed, and the session is removed -/
  | exit
  deriving DecidableEq, Repr

/-- What becomes of the link, server.rs 579-602. -/
def relink (P : Params) (old : Option Nat) (c : Nat) : Option Nat := if P.agent c then some c else if P.clears then none else old

/-- One step. -/
def step (P : Params) (s : St) : Label → Option St
  | .attach c =>
    match s.phase with
    | .idle =>
      if s.shell then some { s with phase := .toLink c false }
      else if P.early then some { s with phase := .toLink c true }
      else some { s with shell := true, phase := .starting c }
    | _ => none
  | .spawn =>
    match s.phase with
    | .ready c true => if P.early ∧ s.shell = false then some { s with shell := true, phase := .starting c } else none
    | _ => none
  | .started =>
    match s.phase with
    | .starting c => some { s with phase := if P.early then .ready c true else .toLink c true }
    | _ => none
  | .link =>
    match s.phase with
    | .toLink c n => some { s with link := relink P s.link c, phase := .toWrite c n }
    | _ => none
  | .write =>
    match s.phase with
    | .toWrite c n => some { s with env := some c, phase := .ready c n }
    | _ => none
  | .fail =>
    match s.phase with
    | .toLink _ _ | .toWrite _ _ => some { s with phase := .idle }
    | _ => none
  | .join =>
    match s.phase with
    | .ready c _ => if s.shell then some { s with phase := .attached c } else none
    | _ => none
  | .leave =>
    match s.phase with
    | .attached _ => some { s with phase := .idle }
    | _ => none
  | .exit =>
    match s.phase with
    | .attached _ | .idle => if s.shell then some { s with shell := false, phase := .idle } else none
    | _ => none

/-- The runs. -/
def Run (P : Params) (ls : List Label) (s : St) : Prop := runSteps (step P) init ls = some s

end Shpool.SessDir
