import Verif.Util.Lts
/-!
# Session messages: resize and detach requests by name

`handle_session_message` and `dispath_session_message` in libshpool/src/daemon/server.rs (lines 809-898): a client asks the daemon to resize
the session of a name, or to detach it, and gets an answer.  The request looks the name up in the session table, lets go of the table, and
works on what it found; a resize request that finds no pager looks the name up a second time.  Between these steps anything can happen:
sessions are created (also in place of one of the same name), removed, attached to and left, and pagers come and go.

Simplified: sessions are numbered in the order of their creation.  Handing a size or a disconnect to the thread of a session or to the pager
and getting its acknowledgement (838-849, 855-871, 886-896) is one step, which either has its effect and is acknowledged in time, or ends the
request without an answer (the details of these handshakes are in the areas Handshake, Bidi, PagerSize).  The locks of
`shell_to_client_ctl` are not modelled, since each is held during one step only; that of the slot of the pager is, since it is held
over the second look into the table.
-/

namespace Shpool.Message

/-- A session, daemon/shell.rs 111-122: the size its terminal was given last; the size of its pager, if one is shown; the client its
shell-to-client thread serves; whether that thread runs; which request has locked the slot of the pager. -/
structure Sess where
  size : Nat
  pager : Option Nat
  conn : Option Nat
  s2c : Bool
  slot : Option Nat
  deriving DecidableEq, Repr

/-- `SessionMessageRequestPayload`, shpool-protocol lib.rs. -/
inductive Msg where
  | resize (z : Nat)
  | detach
  deriving DecidableEq, Repr

/-- `SessionMessageReply`, shpool-protocol lib.rs. -/
inductive Reply where
  | notFound
  | notAttached
  | resizeOk
  | detachOk
  deriving DecidableEq, Repr

/-- Where a request is. -/
inductive Req where
  | idle
  /-- about to look the name up -/
  | asked (n : Nat) (m : Msg)
  /-- has the slot of session `x`, server.rs 836: about to lock it -/
  | found (n z x : Nat)
  /-- has locked the slot, server.rs 838-840: there is a pager -/
  | pager (n z x : Nat)
  /-- has locked the slot: there is none; about to look the name up again, server.rs 851-859 -/
  | again (n z x : Nat)
  /-- has the controls of session `y`, server.rs 860-861; the slot of `x` is still locked -/
  | shell (n z x y : Nat)
  /-- has the controls of session `y`, server.rs 884-885 -/
  | leave (n y : Nat)
  /-- answered, or ended with an error and without an answer -/
  | done (r : Option Reply)
  deriving DecidableEq, Repr

structure St where
  table : Nat → Option Nat
  sess : Nat → Sess
  next : Nat
  req : Nat → Req

def upd {α : Type} (f : Nat → α) (i : Nat) (x : α) : Nat → α := fun j => if j = i then x else f j

theorem upd_apply {α : Type} (f : Nat → α) (i j : Nat) (x : α) : upd f i x j = if j = i then x else f j := rfl

/-- No sessions, no requests. -/
def init : St := ⟨fun _ => none, fun _ => ⟨0, none, none, false, none⟩, 0, fun _ => .idle⟩

inductive Label where
  | ask (r n : Nat) (m : Msg)
  /-- the request's next step; `ok`: what it waits for comes in time -/
  | go (r : Nat) (ok : Bool)
  /-- a session of this name is created for a client, with the size of its terminal, in place of what has the name, server.rs 521-550 -/
  | create (n z c : Nat)
  /-- the session of this name is removed: its shell exited, it was killed, or its time is over -/
  | remove (n : Nat)
  /-- a client attaches to the session, with its size, server.rs 455-476 -/
  | attach (x z c : Nat)
  /-- the client of the session is gone -/
  | gone (x : Nat)
  /-- a pager is shown (one at a time, pager.rs 114-125), or ends (`PagerCltGuard`, pager.rs 317-331): for that the slot is locked -/
  | showPager (x z : Nat)
  | endPager (x : Nat)
  /-- the shell-to-client thread of the session ends -/
  | s2cEnds (x : Nat)
  deriving DecidableEq, Repr

def setSess (s : St) (x : Nat) (v : Sess) : St := { s with sess := upd s.sess x v }
def setReq (s : St) (r : Nat) (p : Req) : St := { s with req := upd s.req r p }

/-- The request `r` is over: guards are dropped. -/
def answer (s : St) (r x : Nat) (a : Option Reply) : St := setReq (setSess s x { s.sess x with slot := none }) r (.done a)

/-- The next step of a request, `dispath_session_message`, server.rs 823-898. -/
def go (s : St) (r : Nat) (ok : Bool) : Option St :=
  match s.req r with
  -- 828-836
  | .asked n (.resize z) => match s.table n with
    | none => some (setReq s r (.done (some .notFound)))
    | some x => some (setReq s r (.found n z x))
  -- 837-840
  | .found n z x => match (s.sess x).slot with
    | some _ => none
    | none =>
      let s' := setSess s x { s.sess x with slot := some r }
      match (s.sess x).pager with
      | some _ => some (setReq s' r (.pager n z x))
      | none => some (setReq s' r (.again n z x))
  -- 841-849
  | .pager _ z x =>
    if ok then some (answer (setSess s x { s.sess x with pager := some z }) r x (some .resizeOk)) else some (answer s r x none)
  -- 851-859
  | .again n z x => match s.table n with
    | none => some (answer s r x (some .notFound))
    | some y => some (setReq s r (.shell n z x y))
  -- 860-873
  | .shell _ z x y =>
    if ok && (s.sess y).s2c then some (answer (setSess s y { s.sess y with size := z }) r x (some .resizeOk)) else some (answer s r x none)
  -- 875-883
  | .asked n .detach => match s.table n with
    | none => some (setReq s r (.done (some .notFound)))
    | some y => some (setReq s r (.leave n y))
  -- 884-897: the status that is acknowledged is only logged
  | .leave _ y =>
    if ok && (s.sess y).s2c then some (setReq (setSess s y { s.sess y with conn := none }) r (.done (some .detachOk)))
    else some (setReq s r (.done none))
  | .idle | .done _ => none

/-- server.rs 809-898, and what else happens in the daemon. -/
def step (s : St) : Label → Option St
  | .ask r n m => if s.req r = .idle then some (setReq s r (.asked n m)) else none
  | .go r ok => go s r ok
  | .create n z c => some { setSess s s.next ⟨z, none, some c, true, none⟩ with table := upd s.table n (some s.next), next := s.next + 1 }
  | .remove n => some { s with table := upd s.table n none }
  | .attach x z c => if x < s.next ∧ (s.sess x).s2c then some (setSess s x { s.sess x with size := z, conn := some c }) else none
  | .gone x => some (setSess s x { s.sess x with conn := none })
  | .showPager x z => if (s.sess x).slot = none ∧ (s.sess x).pager = none then some (setSess s x { s.sess x with pager := some z }) else none
  | .endPager x => if (s.sess x).slot = none then some (setSess s x { s.sess x with pager := none }) else none
  | .s2cEnds x => some (setSess s x { s.sess x with s2c := false, conn := none })

def Run (ls : List Label) (s : St) : Prop := runSteps step init ls = some s

end Shpool.Message
