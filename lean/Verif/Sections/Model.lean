import Verif.Server.Model
/-!
# Model of kill and detach requests and of the reaper, taken apart

Sources: `/repo/libshpool/src/daemon/server.rs` 625-662 (`handle_detach`), 738-769 (`handle_kill`);
`/repo/libshpool/src/daemon/ttl_reaper.rs` 108-121.

In the model of the session table (`Verif/Server`) each of these is one step.  They take their time, though: killing a shell means waiting
for it, detaching means waiting for the thread that serves the client.  The table is locked all the while, but threads that do not need it go
on: shells exit, clients leave, attach requests that have found their session begin to stream, time passes.  Here each session that a request
is about is a step of its own, with any steps of the others in between.  (A list request is taken apart in `Verif/Listing`.)

Simplifications: killing one shell is one step (`Verif/Kill` has the signals and the waiting); so is detaching one session, including noting
the time of it (`Verif/Handshake` has the messages).
-/

namespace Shpool.Sections
open Server (Name)

/-- The request that has locked the table.  `todo`: the names it has still to look at. -/
inductive Sec where
  /-- `handle_kill`: what was asked for (only remembered for stating properties), `to_remove`, `not_found_sessions` -/
  | kill (asked todo gone missing : List Name)
  /-- `handle_detach`: what was asked for, `not_found_sessions`, `not_attached_sessions` -/
  | detach (asked todo missing unattached : List Name)
  /-- the reaper has found a session of this name; whether it has tried to kill it -/
  | reap (n : Name) (tried : Bool)
  deriving DecidableEq, Repr

inductive Answer where
  | kill (missing : List Name)
  | detach (missing unattached : List Name)
  /-- the request ends with an error, no reply is sent -/
  | failed
  deriving DecidableEq, Repr

structure St where
  srv : Server.St
  sec : Option Sec
  answers : List Answer

def init : St := ⟨Server.init, none, []⟩

inductive Label where
  | killBegin (names : List Name)
  /-- the next name; if there is such a session: whether its shell could be killed -/
  | killNext (ok : Bool)
  | killEnd
  | detachBegin (names : List Name)
  | detachNext
  | detachEnd
  | reapBegin (n : Name)
  | reapKill (ok : Bool)
  | reapEnd
  | srv (l : Server.Label)
  deriving DecidableEq, Repr

/-- The steps of other threads for which they lock the table: `select_shell_desc` 424, 541, 554; `handle_attach` 360, 379. -/
def needsTable : Server.Label → Bool
  | .select _ _ _ | .insert _ | .lookup _ | .unlink _ => true
  | _ => false

/-- The requests that are taken apart here. -/
def whole : Server.Label → Bool
  | .kill _ _ | .detach _ | .reap _ _ => true
  | _ => false

/-- `Session::kill` of a session has succeeded: its shell is dead. -/
def dead (v : Server.St) (x : Nat) : Server.St := Server.setSess v x { v.sess x with alive := false }

def step (s : St) : Label → Option St
  -- server.rs 739-743
  | .killBegin names =>
    if s.srv.lock = none ∧ s.sec = none then some { s with sec := some (.kill names names [] []) } else none
  -- 744-755
  | .killNext ok => match s.sec with
    | some (.kill asked (n :: ns) gone missing) =>
      match Server.find n s.srv.table with
      | none => some { s with sec := some (.kill asked ns gone (missing ++ [n])) }
      | some x =>
        if ok then some { s with srv := dead s.srv x, sec := some (.kill asked ns (gone ++ [n]) missing) }
        else some { s with sec := none, answers := s.answers ++ [.failed] }
    | _ => none
  -- 757-766
  | .killEnd => match s.sec with
    | some (.kill _ [] gone missing) =>
      some { s with
        srv := { s.srv with
          table := gone.foldl (fun tb n => Server.erase n tb) s.srv.table
          events := s.srv.events ++ gone.map (fun _ => .removed) }
        sec := none
        answers := s.answers ++ [.kill missing] }
    | _ => none
  -- 626-630
  | .detachBegin names =>
    if s.srv.lock = none ∧ s.sec = none then some { s with sec := some (.detach names names [] []) } else none
  -- 631-655
  | .detachNext => match s.sec with
    | some (.detach asked (n :: ns) missing unattached) =>
      match Server.find n s.srv.table with
      | none => some { s with sec := some (.detach asked ns (missing ++ [n]) unattached) }
      | some x =>
        if (s.srv.sess x).s2c = false then some { s with sec := none, answers := s.answers ++ [.failed] }
        else if (s.srv.sess x).conn then
          some { s with
            srv := Server.setSess s.srv x { (s.srv.sess x).recordDetached s.srv.now with conn := false }
            sec := some (.detach asked ns missing unattached) }
        else some { s with sec := some (.detach asked ns missing (unattached ++ [n])) }
    | _ => none
  -- 656-659
  | .detachEnd => match s.sec with
    | some (.detach _ [] missing unattached) =>
      some { s with sec := none, answers := s.answers ++ [.detach missing unattached] }
    | _ => none
  -- ttl_reaper.rs 108-109, 114-118
  | .reapBegin n =>
    if s.srv.lock = none ∧ s.sec = none then
      match Server.find n s.srv.table with
      | none => some s
      | some _ => some { s with sec := some (.reap n false) }
    else none
  -- 110-113: an error is only logged
  | .reapKill ok => match s.sec with
    | some (.reap n false) => match Server.find n s.srv.table with
      | some x => some { s with srv := if ok then dead s.srv x else s.srv, sec := some (.reap n true) }
      | none => none
    | _ => none
  -- 119-120
  | .reapEnd => match s.sec with
    | some (.reap n true) =>
      some { s with
        srv := { s.srv with table := Server.erase n s.srv.table, events := s.srv.events ++ [.removed] }
        sec := none }
    | _ => none
  | .srv l =>
    if whole l ∨ (needsTable l ∧ s.sec.isSome) then none
    else match Server.step s.srv l with
      | some v => some { s with srv := v }
      | none => none

def Run (ls : List Label) (s : St) : Prop := runSteps step init ls = some s

end Shpool.Sections
