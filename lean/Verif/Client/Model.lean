import Verif.Env.Model
import Verif.Template.Model
/-!
# Model of the client subcommands and of the daemon's connection handler

Sources: `/repo/libshpool/src/list.rs` 22-58, `kill.rs` 22-55, `detach.rs` 22-59, `common.rs` 76-89, `attach.rs` 101-239,
`daemon/server.rs` 166-239 and 1338-1358.
-/

namespace Shpool.Client

abbrev Str := List Char

/-! ## list -/

/-- `str::len`: length in UTF-8 bytes. -/
def byteLen : Str → Nat
  | [] => 0
  | c :: cs => c.utf8Size + byteLen cs

theorem byteLen_append (a b : Str) : byteLen (a ++ b) = byteLen a + byteLen b := by
  induction a with
  | nil => simp [byteLen]
  | cons c a ih => simp [byteLen, ih]; omega

/-- The padding loop, list.rs 48-50. -/
def pad (longest : Nat) (name : Str) : Str :=
  if byteLen name < longest then pad longest (name ++ [' ']) else name
termination_by longest - byteLen name
decreasing_by
  rw [byteLen_append]
  have : byteLen [' '] = 1 := by decide
  omega

/-- `SessionStatus` as displayed, shpool-protocol lib.rs 308-321. -/
inductive Status where
  | attached | disconnected
  deriving DecidableEq, Repr
def Status.text : Status → Str
  | .attached => "attached".toList
  | .disconnected => "disconnected".toList

/-- list.rs 41-42. -/
def longestLen (sessions : List (Str × Status)) : Nat := (sessions.map (fun s => byteLen s.1)).foldl max 0

/-- The lines printed, list.rs 44-52. -/
def listLines (sessions : List (Str × Status)) : List Str :=
  "NAME\tSTATUS".toList :: sessions.map (fun s => pad (longestLen sessions) s.1 ++ '\t' :: s.2.text)

/-! ## kill and detach -/

/-- How the dialogue with the daemon went. -/
inductive Dial (R : Type) where
  /-- connecting failed -/
  | refused
  /-- the request could not be sent or no reply came -/
  | broken
  | replied (r : R)
  deriving DecidableEq, Repr

/-- Requests sent by the client. -/
inductive Request where
  | kill (sessions : List Str)
  | detach (sessions : List Str)
  deriving DecidableEq, Repr

/-- `resolve_sessions`, common.rs 76-89; `none` is the error. -/
def resolveSessions (sessions : List Str) (envName : Option Str) : Option (List Str) :=
  let sessions := if sessions.isEmpty then (match envName with | some n => [n] | none => []) else sessions
  if sessions.isEmpty then none else some sessions

structure KillReply where
  notFound : List Str
  deriving DecidableEq, Repr
structure DetachReply where
  notFound : List Str
  notAttached : List Str
  deriving DecidableEq, Repr

/-- `kill::run`, kill.rs 22-55: the request sent, if any, and whether the exit status is success. -/
def killRun (args : List Str) (envName : Option Str) (dial : Dial KillReply) : Option Request × Bool :=
  match dial with
  | .refused => (none, false)
  | d => match resolveSessions args envName with
    | none => (none, false)
    | some ss => match d with
      | .replied r => (some (.kill ss), r.notFound.isEmpty)
      | _ => (some (.kill ss), false)

/-- `detach::run`, detach.rs 22-59. -/
def detachRun (args : List Str) (envName : Option Str) (dial : Dial DetachReply) : Option Request × Bool :=
  match dial with
  | .refused => (none, false)
  | d => match resolveSessions args envName with
    | none => (none, false)
    | some ss => match d with
      | .replied r =>
        if !r.notFound.isEmpty then (some (.detach ss), false)
        else if !r.notAttached.isEmpty then (some (.detach ss), false)
        else (some (.detach ss), true)
      | _ => (some (.detach ss), false)

/-! ## attach: the busy loop -/

/-- Outcome of one `dial_attach`, attach.rs 243-329. -/
inductive DialAttach where
  | client
  | busy
  | err
  deriving DecidableEq, Repr

/-- What the client does on the wire while trying to attach. -/
inductive Act where
  | dialAttach
  | detachRequest (name : Str)
  | sleep100ms
  deriving DecidableEq, Repr

inductive Res where
  /-- attached: go on to piping -/
  | attached
  /-- "already has a terminal attached": returns `Done` -/
  | reportedBusy
  | failed
  /-- the name is unacceptable: a message, then `Done` -/
  | reportedName
  /-- no reply (yet) to the last dial -/
  | waiting
  deriving DecidableEq, Repr

/-- `MAX_FORCE_RETRIES`, attach.rs 40. -/
def maxForceRetries : Nat := 20

/-- The loop of `attach_resolved`, attach.rs 159-203, fed with the outcomes of the successive dials; `detachOk` says whether the
detach dialogue works. -/
def busyLoop (force detachOk : Bool) (name : Str) : List DialAttach → Bool → Nat → List Act × Res
  | [], _, _ => ([.dialAttach], .waiting)
  | d :: ds, detached, tries =>
    match d with
    | .client => ([.dialAttach], .attached)
    | .err => ([.dialAttach], .failed)
    | .busy =>
      if !force then ([.dialAttach], .reportedBusy)
      else
        let pre := if detached then [] else [.detachRequest name]
        if !detached && !detachOk then (.dialAttach :: pre, .failed)
        else if tries > maxForceRetries then (.dialAttach :: pre ++ [.sleep100ms], .failed)
        else
          let r := busyLoop force detachOk name ds true (tries + 1)
          (.dialAttach :: pre ++ [.sleep100ms] ++ r.1, r.2)

/-- `attach_resolved` up to the piping, attach.rs 140-204: the name check, then the loop. -/
def attachResolved (force detachOk : Bool) (name : Str) (ds : List DialAttach) : List Act × Res :=
  if (Env.clientRejects name).isSome then ([], .reportedName) else busyLoop force detachOk name ds false 0

/-! ## attach: following the variables -/

open Template in
/-- The callback given to `pipe_bytes`, attach.rs 230-233: whether an update makes the client switch. -/
def wantsSwitch (tm : Template) (current : Str) (vars : Vars) : Bool := tm.apply vars != current

open Template in
/-- The loop of `Attach::run` (attach.rs 119-135) with `pipe_bytes` reporting the first update that wants a switch, fed with the
updates read from the daemon: the names attached to, in order.  The client leaves if a name is unacceptable (attach.rs 141-156). -/
def follow (tm : Template) : Str → List Vars → List Str
  | current, us =>
    if (Env.clientRejects current).isSome then []
    else match us with
      | [] => [current]
      | u :: us => if wantsSwitch tm current u then current :: follow tm (tm.apply u) us else follow tm current us

open Template in
/-- `Attach::run`, attach.rs 101-136: the first name comes from the variables read at start. -/
def attachRun (tm : Template) (initial : Vars) (us : List Vars) : List Str := follow tm (tm.apply initial) us

/-! ## The daemon's connection handler -/

/-- The eight requests, shpool-protocol lib.rs 42-70. -/
inductive Header where
  | attach | detach | kill | list | sessionMessage | setLogLevel | getVars | modifyVar
  deriving DecidableEq, Repr

inductive WriteVersion where
  | ok | brokenPipe | otherErr
  deriving DecidableEq, Repr

/-- What the handler learns from the connection. -/
structure Peer where
  /-- `none` if the credentials cannot be read -/
  uid : Option Nat
  /-- whether the executables of peer and daemon can be looked up -/
  exeReadable : Bool
  /-- whether they are the same file -/
  sameExe : Bool
  deriving DecidableEq, Repr

/-- Observable effects. -/
inductive Effect where
  | sentVersion
  | sentForbidden
  | shutdown
  | warnedBinary
  | handled (h : Header)
  deriving DecidableEq, Repr

/-- `check_peer`, server.rs 1338-1358: whether it succeeds and its warning. -/
def checkPeer (selfUid : Nat) (p : Peer) : Bool × List Effect :=
  match p.uid with
  | none => (false, [])
  | some u =>
    if u ≠ selfUid then (false, [])
    else if !p.exeReadable then (false, [])
    else (true, if p.sameExe then [] else [.warnedBinary])

/-- `handle_conn`, server.rs 166-239; `header` is `none` if it cannot be parsed in time. -/
def handleConn (selfUid : Nat) (w : WriteVersion) (header : Option Header) (p : Peer) : List Effect :=
  match w with
  | .brokenPipe => []
  | .otherErr => []
  | .ok => match header with
    | none => [.sentVersion]
    | some h =>
      let (ok, warn) := checkPeer selfUid p
      if ok then [.sentVersion] ++ warn ++ [.handled h]
      else [.sentVersion] ++ (if h = .attach then [.sentForbidden] else []) ++ [.shutdown]

end Shpool.Client
