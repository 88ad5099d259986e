import Verif.Util.Lts
/-!
# Model of the session table and the requests working on it

Sources: `/repo/libshpool/src/daemon/server.rs` 242-397 (`handle_attach`), 400-571 (`select_shell_desc`), 625-662
(`handle_detach`), 738-769 (`handle_kill`), 772-807 (`handle_list`), 1163-1183 (`spawn_subshell`);
`/repo/libshpool/src/daemon/shell.rs` 67-122 (`SessionLifecycle`, `Session`); `/repo/libshpool/src/daemon/ttl_reaper.rs` 108-121.

A transition system: any number of threads serving attach requests, with kill, detach and list requests and the ttl reaper in
between.  Every critical section of the session table's lock is one step, except those that can block while holding it: the
third one of `select_shell_desc`, which waits for a session's own lock.  (`handle_detach` waits for the session's
shell-to-client thread while holding it; that is modelled in the handshake model, here the thread answers or is gone.)
(Other threads do go on while one holds the table's lock.  `Verif/Sections` takes kill, detach and the reaper apart and shows that the same
states are reached; `Verif/Listing` does so for list requests.)
A session's own lock (`inner`) is held by an attach request from selecting the session to the end of the request.
Times are those of a clock that does not go back.  Hooks and replies that cannot be sent are left out.
-/

namespace Shpool.Server

abbrev Name := List Char

/-- A session, shell.rs 109-122.  `alive`: its shell runs; `s2c`: its shell-to-client thread runs; `handle`:
the handle for joining it is still there; `conn`: that thread has a client;
`owner`: the attach request holding the lock of `inner`; `stream`: the client in `inner.client_stream`; then
`SessionLifecycle`; `started`: when it was started. -/
structure Sess where
  name : Name
  alive : Bool
  s2c : Bool
  handle : Bool
  conn : Bool
  owner : Option Nat
  stream : Option Nat
  lastConn : Option Nat
  lastDisc : Option Nat
  attachment : Option Nat
  started : Nat
  deriving DecidableEq, Repr

/-- `record_attached`, shell.rs 76-80. -/
def Sess.recordAttached (s : Sess) (t now : Nat) : Sess := { s with lastConn := some now, attachment := some t }
/-- `record_detached`, shell.rs 83-87. -/
def Sess.recordDetached (s : Sess) (now : Nat) : Sess := { s with lastDisc := some now, attachment := none }

/-- How an attach request ended: busy; its attachment ended; no session found although just inserted (no reply, 392-394);
an error (no reply). -/
inductive Result where
  | busy
  | served
  | lost
  | error
  deriving DecidableEq, Repr

/-- An attach request for a name: before selecting (400); about to spawn a shell (521); spawned, not in the table (535); in the
table, about to look it up again (552); waiting for the session's lock while holding the table's (563); holding the session's lock
(285-337); streaming (339); streaming is over, about to take the table's lock; done with the table, still holding the session's
lock; over.  The session in `inserted` is only remembered for stating properties. -/
inductive Phase where
  | idle
  | making (n : Name)
  | spawned (n : Name) (x : Nat)
  | inserted (n : Name) (x : Nat)
  | blocked (n : Name) (x : Nat)
  | owns (n : Name) (x : Nat)
  | streaming (n : Name) (x : Nat)
  | ending (n : Name) (x : Nat) (childDone : Bool)
  | leaving (x : Nat)
  | done (r : Result)
  deriving DecidableEq, Repr

inductive Event where
  | created
  | attached
  | detached
  | removed
  deriving DecidableEq, Repr

abbrev Table := List (Name × Nat)

/-- `HashMap::get`. -/
def find (n : Name) (tb : Table) : Option Nat := (tb.find? (fun p => p.1 = n)).map (·.2)
/-- `HashMap::remove`. -/
def erase (n : Name) (tb : Table) : Table := tb.filter (fun p => p.1 ≠ n)
/-- `HashMap::insert` (the order of the table has no meaning). -/
def insert (n : Name) (x : Nat) (tb : Table) : Table := (n, x) :: erase n tb

structure St where
  table : Table
  sess : Nat → Sess
  next : Nat
  lock : Option Nat
  thr : Nat → Phase
  events : List Event
  now : Nat

def upd {α : Type} (f : Nat → α) (i : Nat) (x : α) : Nat → α := fun j => if j = i then x else f j

/-- No session yet. -/
def blank : Sess := ⟨[], false, false, false, false, none, none, none, none, none, 0⟩

def init : St := ⟨[], fun _ => blank, 0, none, fun _ => .idle, [], 0⟩

/-- The loop of `handle_kill`, server.rs 744-755.  `fail = some k`: the kill after `k` successful ones reports an error.  A session
whose kill succeeded counts as dead (it was waited for or got SIGKILL). -/
structure KillRes where
  sess : Nat → Sess
  toRemove : List Name
  notFound : List Name
  ok : Bool

def killLoop (tb : Table) : (Nat → Sess) → List Name → Option Nat → KillRes
  | σ, [], _ => ⟨σ, [], [], true⟩
  | σ, n :: ns, fail =>
    match find n tb with
    | none =>
      let r := killLoop tb σ ns fail
      { r with notFound := n :: r.notFound }
    | some x =>
      match fail with
      | some 0 => ⟨σ, [], [], false⟩
      | _ =>
        let r := killLoop tb (upd σ x { σ x with alive := false }) ns (fail.map (· - 1))
        { r with toRemove := n :: r.toRemove }

/-- `handle_kill`, server.rs 738-769: the new state and the reply (`none`: the request fails, no reply). -/
def kill (s : St) (names : List Name) (fail : Option Nat) : St × Option (List Name) :=
  let r := killLoop s.table s.sess names fail
  if r.ok then
    ({ s with
        sess := r.sess
        table := r.toRemove.foldl (fun tb n => erase n tb) s.table
        events := s.events ++ r.toRemove.map (fun _ => .removed) }, some r.notFound)
  else ({ s with sess := r.sess }, none)

structure DetachRes where
  sess : Nat → Sess
  notFound : List Name
  notAttached : List Name
  ok : Bool

/-- The loop of `handle_detach`, server.rs 631-656: a session whose thread is gone ends it with an error. -/
def detachLoop (tb : Table) (now : Nat) : (Nat → Sess) → List Name → DetachRes
  | σ, [] => ⟨σ, [], [], true⟩
  | σ, n :: ns =>
    match find n tb with
    | none =>
      let r := detachLoop tb now σ ns
      { r with notFound := n :: r.notFound }
    | some x =>
      if (σ x).s2c = false then ⟨σ, [], [], false⟩
      else if (σ x).conn then
        detachLoop tb now (upd σ x { (σ x).recordDetached now with conn := false }) ns
      else
        let r := detachLoop tb now σ ns
        { r with notAttached := n :: r.notAttached }

/-- `handle_detach`: the new state and the reply (names not found, names not attached). -/
def detach (s : St) (names : List Name) : St × Option (List Name × List Name) :=
  let r := detachLoop s.table s.now s.sess names
  ({ s with sess := r.sess }, if r.ok then some (r.notFound, r.notAttached) else none)

/-- One line of the list. -/
structure Row where
  name : Name
  attached : Bool
  lastConn : Option Nat
  lastDisc : Option Nat
  attachment : Option Nat
  deriving DecidableEq, Repr

/-- `handle_list`, server.rs 772-807. -/
def list (s : St) : List Row :=
  s.table.map fun p => ⟨p.1, (s.sess p.2).owner.isSome, (s.sess p.2).lastConn, (s.sess p.2).lastDisc, (s.sess p.2).attachment⟩

inductive Label where
  | select (t : Nat) (n : Name) (joinErr : Bool)
  | spawn (t : Nat)
  | spawnFails (t : Nat)
  | insert (t : Nat)
  | lookup (t : Nat)
  | acquire (t : Nat)
  | start (t : Nat)
  | abort (t : Nat)
  | clientGone (t : Nat)
  | childDone (t : Nat)
  | unlink (t : Nat)
  | release (t : Nat)
  | exit (x : Nat)
  | s2cEnds (x : Nat)
  | kill (names : List Name) (fail : Option Nat)
  /-- `fails`: the signal cannot be sent (the shell runs as another user) -/
  | reap (n : Name) (fails : Bool)
  | detach (names : List Name)
  | tick (d : Nat)
  deriving DecidableEq, Repr

def setThr (s : St) (t : Nat) (p : Phase) : St := { s with thr := upd s.thr t p }
def setSess (s : St) (x : Nat) (v : Sess) : St := { s with sess := upd s.sess x v }

/-- The first critical section, server.rs 422-519, with the table's lock free.  `joinErr`: joining a finished shell-to-client thread
reports its error (its handle is gone then, 498). -/
def select (s : St) (t : Nat) (n : Name) (joinErr : Bool) : St :=
  match find n s.table with
  | none => setThr s t (.making n)
  | some x =>
    let v := s.sess x
    match v.owner with
    | some _ => setThr s t (.done .busy)
    | none =>
      let finished := v.handle && !v.s2c
      let next := if finished && joinErr then Phase.done .error else .making n
      if v.alive then
        let v' := { v.recordAttached t s.now with stream := some t }
        if finished then setThr (setSess s x { v' with handle := false }) t next
        else { setThr (setSess s x { v' with owner := some t }) t (.owns n x) with events := s.events ++ [.attached] }
      else if finished then setThr (setSess s x { v with handle := false }) t next
      else setThr s t next

def step (s : St) : Label → Option St
  | .select t n joinErr =>
    if s.thr t = .idle ∧ s.lock = none then some (select s t n joinErr) else none
  -- server.rs 521-538: outside the table's lock
  | .spawn t => match s.thr t with
    | .making n =>
      some { setThr s t (.spawned n s.next) with
        sess := upd s.sess s.next ⟨n, true, true, true, false, none, some t, some s.now, none, some t, s.now⟩
        next := s.next + 1 }
    | _ => none
  | .spawnFails t => match s.thr t with
    | .making _ => some (setThr s t (.done .error))
    | _ => none
  -- server.rs 539-550
  | .insert t => match s.thr t with
    | .spawned n x =>
      if s.lock = none then
        some { setThr s t (.inserted n x) with
          table := Server.insert n x s.table
          events := s.events ++ (if (find n s.table).isSome then [.removed] else []) ++ [.created, .attached] }
      else none
    | _ => none
  -- server.rs 552-570
  | .lookup t => match s.thr t with
    | .inserted n _ =>
      if s.lock = none then
        match find n s.table with
        | none => some (setThr s t (.done .lost))
        | some y => match (s.sess y).owner with
          | none => some (setThr (setSess s y { s.sess y with owner := some t }) t (.owns n y))
          | some _ => some { setThr s t (.blocked n y) with lock := some t }
      else none
    | _ => none
  | .acquire t => match s.thr t with
    | .blocked n y => match (s.sess y).owner with
      | none => some { setThr (setSess s y { s.sess y with owner := some t }) t (.owns n y) with lock := none }
      | some _ => none
    | _ => none
  -- `bidi_stream`, server.rs 339: the shell-to-client thread, if it runs, gets the client
  | .start t => match s.thr t with
    | .owns n x => some (setThr (setSess s x { s.sess x with conn := (s.sess x).s2c }) t (.streaming n x))
    | _ => none
  -- the early returns, server.rs 285-331 (errors about files, the pager's client hung up)
  | .abort t => match s.thr t with
    | .owns _ x => some (setThr s t (.leaving x))
    | _ => none
  -- the end of `bidi_stream`, server.rs 340-347
  | .clientGone t => match s.thr t with
    | .streaming n x => some (setThr (setSess s x { s.sess x with conn := false }) t (.ending n x false))
    | _ => none
  | .childDone t => match s.thr t with
    | .streaming n x =>
      if (s.sess x).alive then none
      else some (setThr (setSess s x { s.sess x with conn := false }) t (.ending n x true))
    | _ => none
  -- server.rs 349-389: by name, not by session
  | .unlink t => match s.thr t with
    | .ending n x true =>
      if s.lock = none then
        some { setThr s t (.leaving x) with
          table := erase n s.table
          events := s.events ++ (if (find n s.table).isSome then [.removed] else []) }
      else none
    | .ending n x false =>
      if s.lock = none then
        match find n s.table with
        | some y => some { setThr (setSess s y ((s.sess y).recordDetached s.now)) t (.leaving x) with events := s.events ++ [.detached] }
        | none => some (setThr s t (.leaving x))
      else none
    | _ => none
  | .release t => match s.thr t with
    | .leaving x => some (setThr (setSess s x { s.sess x with owner := none }) t (.done .served))
    | _ => none
  -- the shell of a session exits
  | .exit x => if x < s.next then some (setSess s x { s.sess x with alive := false }) else none
  -- the shell-to-client thread of a session ends
  | .s2cEnds x => if x < s.next then some (setSess s x { s.sess x with s2c := false, conn := false }) else none
  | .kill names fail => if s.lock = none then some (kill s names fail).1 else none
  -- ttl_reaper.rs 108-121 (which names are due is modelled in the reaper model); an error of the kill is logged only
  | .reap n fails =>
    if s.lock = none then
      match find n s.table with
      | none => some s
      | some x => some { setSess s x { s.sess x with alive := fails && (s.sess x).alive } with
          table := erase n s.table
          events := s.events ++ [.removed] }
    else none
  | .detach names => if s.lock = none then some (detach s names).1 else none
  | .tick d => some { s with now := s.now + d }

def Run (ls : List Label) (s : St) : Prop := runSteps step init ls = some s

/-- The request holds the session's lock. -/
def Phase.holds : Phase → Nat → Prop
  | .owns _ x, y | .streaming _ x, y | .ending _ x _, y | .leaving x, y => x = y
  | _, _ => False

/-- The name the request is creating a session for: it is between its first and its third critical section. -/
def Phase.creates : Phase → Option Name
  | .making n | .spawned n _ | .inserted n _ | .blocked n _ => some n
  | _ => none

/-- The session whose lock the request holds while it will still work on the table, and the name it will use for that. -/
def Phase.serves : Phase → Option (Name × Nat)
  | .owns n x | .streaming n x | .ending n x _ => some (n, x)
  | _ => none

end Shpool.Server
