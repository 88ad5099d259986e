import Verif.Util.Lts
/-!
# Model of the locks of the daemon and of the order in which its threads take them

Sources: `/repo/libshpool/src/daemon/server.rs` 240-400 (`handle_attach`), 402-572 (`select_shell_desc`), 624-662 (`handle_detach`),
684-735 (`handle_get_vars`, `handle_modify_var`), 737-811 (`handle_kill`, `handle_list`), 812-900 (session messages), 1042-1077;
`/repo/libshpool/src/daemon/shell.rs` 66-155 (`SessionLifecycle`, `Session::kill`), 550-575 (the end of the output thread), 655-803
(`bidi_stream`), 806-1064 (its three threads), 1071-1085 (`action_detach`); `/repo/libshpool/src/daemon/pager.rs` 99-330; `/repo/libshpool/src/daemon/show_motd.rs` 85-126, 171-195;
`/repo/libshpool/src/daemon/ttl_reaper.rs` 36-126; `/repo/libshpool/src/daemon/exit_notify.rs` 19-61.

Every handler and every thread is written down as a program that says, branch by branch, in which order it takes and gives back locks and
which threads it joins.  A transition system runs any number of such programs next to each other.  `Verif/Server` has the table of
sessions with one lock for it; here all the mutexes of the daemon appear, and what the table holds is left open: which session a name
leads to, and which way a branch goes, is a choice.

Simplifications:
* What a thread does apart from locks is `work`, which comes to an end, or `idle`, which may last for ever: waiting for a client, for a user,
  for the shell, for something to do.  `work` includes waiting for the output thread of a session and for the pager, nearly always with a
  time limit, and writing answers to clients; how long that may take is the matter of `Verif/Slow`, `Verif/Bidi` and `Verif/Handshake`.
* The lock around the configuration is in `Verif/CfgLock`.  The locks of `test_hooks.rs` (not in release builds) and of the writer of the
  log (taken and given back within one call) are left out.
* A thread with a loop begins its program again.  Threads that an attach starts exist from the beginning; they may run before the attach
  gets there.  The sessions that a request names, and those the reaper has to do with, are given by a list.
* `parking_lot` mutexes are not poisoned; a thread that panics is not modelled.
-/

namespace Shpool.Locks

/-- The mutexes of the daemon.  The number is the session (the object, not its name: a name may lead to different sessions in the course
of time). -/
inductive Lock where
  /-- the table of sessions, `Server.shells`, server.rs 75 -/
  | shells
  /-- `Session.inner`, shell.rs 121: who holds it is attached -/
  | inner (x : Nat)
  /-- `Session.pager_ctl`, shell.rs 117 -/
  | pager (x : Nat)
  /-- `Session.shell_to_client_ctl`, shell.rs 116 -/
  | ctl (x : Nat)
  /-- `SessionLifecycle.state`, shell.rs 66-93 -/
  | life (x : Nat)
  /-- `ExitNotifier.slot`, exit_notify.rs 21 -/
  | slot (x : Nat)
  /-- `tty_size` of a pager, pager.rs 183; in the code a new one for every pager, here one for the session -/
  | size (x : Nat)
  /-- `Debouncer.last_fired`, show_motd.rs 173 -/
  | fired
  /-- the variables, `Server.vars`, server.rs 85 -/
  | vars
  deriving DecidableEq, Repr

/-- What matters here about what a thread does. -/
inductive Prog where
  | done
  /-- `lock()` -/
  | acq (l : Lock) (p : Prog)
  /-- `session.inner.lock_arc()` in server.rs 563, the one place where a thread waits for a session while it has the table -/
  | grab (l : Lock) (p : Prog)
  /-- `try_lock()`: the first branch when it succeeds -/
  | attempt (l : Lock) (p q : Prog)
  /-- dropping the guard -/
  | rel (l : Lock) (p : Prog)
  | work (p : Prog)
  /-- waiting for something that need not happen -/
  | idle (p : Prog)
  | choice (p q : Prog)
  /-- `h.join()`: waits until the thread `u` is done -/
  | join (u : Nat) (p : Prog)
  /-- the next turn of the loop that the thread is -/
  | again
  deriving DecidableEq, Repr

/-- Taking a lock for a moment. -/
def touch (l : Lock) (p : Prog) : Prog := .acq l (.rel l p)

/-- The sessions and threads an attach has to do with: the session it finds under the name (server.rs 427), the one it starts (526), the
one it finds after that (559), the one it finds in the end (381); its three threads (shell.rs 709-723); the output thread of the session
(server.rs 371, 498). -/
structure Ids where
  found : Nat
  fresh : Nat
  third : Nat
  last : Nat
  c2s : Nat
  heart : Nat
  sup : Nat
  out : Nat

/-- The client has gone and the shell runs on, server.rs 376-389. -/
def left (x : Nat) (i : Ids) : Prog :=
  .acq .shells (.choice
    (touch (.life i.last) (.rel .shells (.work (.rel (.inner x) .done))))
    (.rel .shells (.work (.rel (.inner x) .done))))

/-- The shell has ended, server.rs 347-375: the table, and after that the output thread is joined. -/
def ended (x : Nat) (i : Ids) : Prog :=
  .work (touch .shells (.join i.out (.rel (.inner x) .done)))

/-- The threads of the connection are joined, shell.rs 771-793; also when the scope ends with an error. -/
def joins (x : Nat) (i : Ids) : Prog :=
  .join i.c2s (.join i.heart (.join i.sup (.choice (ended x i) (left x i))))

/-- The output thread is told that the client goes, shell.rs 745-769. -/
def tell (x : Nat) (i : Ids) : Prog :=
  .acq (.ctl x) (.choice
    (touch (.slot x) (.work (.rel (.ctl x) (joins x i))))
    (.work (.rel (.ctl x) (joins x i))))

/-- `bidi_stream`, shell.rs 655-803: the output thread is told about the client (679-698), the threads are started (one of them may fail
to start), and the loop waits for one of them to finish. -/
def bidi (x : Nat) (i : Ids) : Prog :=
  .choice (left x i)
    (.acq (.ctl x) (.work (.choice
      (.rel (.ctl x) (left x i))
      (.rel (.ctl x) (.choice (left x i) (.choice (joins x i) (.idle (tell x i))))))))

/-- `display_in_pager` and `Pager::display`, show_motd.rs 85-126, pager.rs 99-330: the debouncer, the slot for the pager, the pager
itself, the size in the end, and the guard that empties the slot. -/
def showPager (x : Nat) (i : Ids) : Prog :=
  touch .fired (.choice (bidi x i) (.choice (.rel (.inner x) .done)
    (.acq (.pager x) (.choice
      (.rel (.pager x) (.rel (.inner x) .done))
      (.rel (.pager x) (.idle (.choice
        (touch (.size x) (touch (.pager x) (bidi x i)))
        (touch (.pager x) (.rel (.inner x) .done)))))))))

/-- What an attach does with a session it has got, server.rs 282-345. -/
def serve (x : Nat) (i : Ids) : Prog :=
  .work (.choice (.rel (.inner x) .done) (.work (.choice (bidi x i) (showPager x i))))

/-- A new session, server.rs 522-571: it is put into the table; then the table is looked into again, and the session that is there is
waited for while the table is locked. -/
def create (i : Ids) : Prog :=
  .work (.choice .done (touch (.life i.fresh) (touch .shells (.acq .shells (.choice
    (.grab (.inner i.third) (.rel .shells (serve i.third i)))
    (.rel .shells .done))))))

/-- What was found is stale, server.rs 480-501.  The output thread is joined only if it has finished already (489-495): that is `work`. -/
def stale (i : Ids) : Prog :=
  .choice (.rel (.inner i.found) (.rel .shells (create i)))
    (.work (.choice (.rel (.inner i.found) (.rel .shells .done)) (.rel (.inner i.found) (.rel .shells (create i)))))

/-- `handle_attach`, server.rs 240-400 with `select_shell_desc` 402-572. -/
def attach (i : Ids) : Prog :=
  .choice .done (.work (.acq .shells (.choice
    (.attempt (.inner i.found)
      (touch (.slot i.found) (.choice
        (.choice (.rel (.inner i.found) (.rel .shells .done))
          (touch (.life i.found) (.choice (stale i) (.work (.rel .shells (serve i.found i))))))
        (stale i)))
      (.work (.rel .shells .done)))
    (.rel .shells (create i)))))

/-- The thread that reads from the client, shell.rs 806-953, with `action_detach` 1071-1085. -/
def c2s (x : Nat) : Prog := .idle (.choice .done (.acq (.ctl x) (.work (.rel (.ctl x) .done))))

/-- The heartbeats, shell.rs 956-1020. -/
def heart (x : Nat) : Prog :=
  .idle (.choice .done (.acq (.ctl x) (.work (.choice (.rel (.ctl x) .done) (.rel (.ctl x) .again)))))

/-- The supervisor, shell.rs 1023-1064; waiting on the condition gives the slot back and takes it again, exit_notify.rs 39-60. -/
def sup (x : Nat) : Prog := .choice .done (touch (.slot x) (.work (touch (.slot x) (.choice .done .again))))

/-- The output thread of a session, shell.rs 293-640: of the locks it takes only the slot of the exit notifier, in the end (558-562). -/
def output (x : Nat) : Prog := .idle (.choice .done (touch (.slot x) (.work (touch (.slot x) (.work .done)))))

/-- `handle_detach`, server.rs 625-662: for every name in the request the session is told, all while the table is locked. -/
def detach : List Nat → Prog
  | [] => .rel .shells (.work .done)
  | x :: xs => .choice (detach xs) (.acq (.ctl x) (.work (.choice
      (.rel (.ctl x) (.rel .shells .done))
      (.choice (.rel (.ctl x) (detach xs)) (touch (.life x) (.rel (.ctl x) (detach xs)))))))

/-- `Session::kill`, shell.rs 128-155: the process is signalled, its exit waited for. -/
def killOne (x : Nat) (p : Prog) : Prog := .work (.choice p (touch (.slot x) (.work (touch (.slot x) p))))

/-- `handle_kill`, server.rs 738-768. -/
def kill : List Nat → Prog
  | [] => .rel .shells (.work .done)
  | x :: xs => .choice (kill xs) (killOne x (.choice (.rel .shells .done) (kill xs)))

/-- `handle_list`, server.rs 770-811: every session is tried for a moment (778-781); the reply is written while the table is locked. -/
def list : List Nat → Prog
  | [] => .work (.rel .shells .done)
  | x :: xs => .attempt (.inner x)
      (.rel (.inner x) (touch (.life x) (.choice (.rel .shells .done) (list xs))))
      (touch (.life x) (.choice (.rel .shells .done) (list xs)))

/-- Telling the sessions about a variable, server.rs 726-731. -/
def spread : List Nat → Prog
  | [] => .work .done
  | x :: xs => .acq (.ctl x) (.work (.choice (.rel (.ctl x) .done) (.rel (.ctl x) (spread xs))))

/-- `handle_modify_var`, server.rs 699-735. -/
def modifyVar (xs : List Nat) : Prog := touch .vars (touch .shells (spread xs))

/-- `handle_get_vars`, server.rs 687-697. -/
def getVars : Prog := touch .vars (.work .done)

/-- `SessionMessageRequestPayload::Resize`, server.rs 827-873: the slot of the pager stays locked while the table is looked into again and
while the output thread is told. -/
def resize (x y : Nat) : Prog :=
  .acq .shells (.choice (.rel .shells .done) (.rel .shells (.acq (.pager x) (.choice
    (.work (.rel (.pager x) .done))
    (.acq .shells (.choice
      (.rel .shells (.rel (.pager x) .done))
      (.rel .shells (.acq (.ctl y) (.work (.rel (.ctl y) (.rel (.pager x) .done)))))))))))

/-- `SessionMessageRequestPayload::Detach`, server.rs 874-898. -/
def messageDetach (x : Nat) : Prog :=
  .acq .shells (.choice (.rel .shells .done) (.rel .shells (.acq (.ctl x) (.work (.rel (.ctl x) .done)))))

/-- The reaper, ttl_reaper.rs 36-126: sessions one after the other, when it is time. -/
def reaper : List Nat → Prog
  | [] => .idle (.choice .done .again)
  | x :: xs => .idle (.choice (reaper xs) (.acq .shells (.choice
      (.rel .shells (reaper xs))
      (killOne x (.rel .shells (reaper xs))))))

/-- The thread that hears of new sizes for a pager, pager.rs 186-212. -/
def pagerSize (x : Nat) : Prog := .idle (.choice .done (touch (.size x) (.idle (.choice .done .again))))

/-- The thread that reaps the shell of a session, server.rs 1042-1077 with `notify_exit`, exit_notify.rs 31-35. -/
def shellExit (x : Nat) : Prog := .idle (touch (.slot x) .done)

/-- The threads of a connection, and the output thread of a session. -/
inductive Helper : Prog → Prop
  | c2s (x) : Helper (c2s x)
  | heart (x) : Helper (heart x)
  | sup (x) : Helper (sup x)
  | output (x) : Helper (output x)

/-- The programs of the daemon.  `f` says what the other threads are: those an attach joins are threads of a connection or output threads. -/
inductive Thread (f : Nat → Prog) : Prog → Prop
  | none : Thread f .done
  | helper {p} : Helper p → Thread f p
  | attach (i : Ids) : Helper (f i.c2s) → Helper (f i.heart) → Helper (f i.sup) → Helper (f i.out) → Thread f (attach i)
  | detach (xs) : Thread f (.acq .shells (detach xs))
  | kill (xs) : Thread f (.acq .shells (kill xs))
  | list (xs) : Thread f (.acq .shells (list xs))
  | getVars : Thread f getVars
  | modifyVar (xs) : Thread f (modifyVar xs)
  | resize (x y) : Thread f (resize x y)
  | messageDetach (x) : Thread f (messageDetach x)
  | reaper (xs) : Thread f (reaper xs)
  | pagerSize (x) : Thread f (pagerSize x)
  | shellExit (x) : Thread f (shellExit x)

/-- What the threads are, what they have still to do, and who holds which lock. -/
structure St where
  code : Nat → Prog
  thr : Nat → Prog
  held : Lock → Option Nat

/-- In the beginning no lock is held. -/
def start (f : Nat → Prog) : St := { code := f, thr := f, held := fun _ => none }

/-- Steps: thread `t` goes on (the flag says which way a choice goes); what thread `t` waits for happens. -/
inductive Label where
  | go (t : Nat) (b : Bool)
  | wake (t : Nat)
  deriving DecidableEq, Repr

/-- Thread `t` goes on with `p`. -/
def goOn (s : St) (t : Nat) (p : Prog) : St := { s with thr := fun u => if u = t then p else s.thr u }

/-- Lock `l` changes hands. -/
def hand (s : St) (l : Lock) (o : Option Nat) : St := { s with held := fun k => if k = l then o else s.held k }

/-- One step. -/
def step (s : St) : Label → Option St
  | .wake t => match s.thr t with
    | .idle p => some (goOn s t p)
    | _ => none
  | .go t b => match s.thr t with
    | .done | .idle _ => none
    | .acq l p | .grab l p => if s.held l = none then some (hand (goOn s t p) l (some t)) else none
    | .attempt l p q => if s.held l = none then some (hand (goOn s t p) l (some t)) else some (goOn s t q)
    | .rel l p => if s.held l = some t then some (hand (goOn s t p) l none) else none
    | .work p => some (goOn s t p)
    | .choice p q => some (goOn s t (if b then p else q))
    | .join u p => if s.thr u = .done then some (goOn s t p) else none
    | .again => some (goOn s t (s.code t))

end Shpool.Locks
