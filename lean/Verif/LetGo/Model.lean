/-!
# Model of how an automatically started daemon leaves what launched it

Sources: `/repo/libshpool/src/daemonize.rs` 72-89 (the command that is launched), 149-203 (`daemonize`), 205-232
(`redirect_std_fds_to_null`), 242-260 (`become_child`).

A process has numbers (its own, its group's, its session's), perhaps a controlling terminal, a working directory and descriptors.  The
system calls are modelled from their manual pages: fork(2) copies everything but the number; a new number is none that is the number of a
process, a group or a session; setsid(2) fails for the leader of a group; open(2) takes the lowest free descriptor, and a leader of a
session without a controlling terminal gets the terminal it opens; execve(2) closes the descriptors that are marked.  The run-time system
of Rust opens /dev/null for those of the first three descriptors that are closed when a program starts.

Simplifications: of the pid file only its descriptor is here (its locking is in the area Launch); the parents of the two forks only wait
and exit.  What the process opens between its start and `daemonize` (the log file, the watcher of the configuration) is a list of opens.
-/

namespace Shpool.LetGo

/-- What a descriptor leads to. -/
inductive File where
  | null
  | tty (n : Nat)
  /-- any other file, pipe or socket -/
  | other (n : Nat)
  deriving DecidableEq, Repr

/-- An open descriptor. -/
structure Desc where
  file : File
  writable : Bool
  cloexec : Bool
  deriving DecidableEq, Repr

structure Proc where
  pid : Nat
  group : Nat
  session : Nat
  ctty : Option Nat
  /-- 0 is the root -/
  cwd : Nat
  fd : Nat → Option Desc

/-- fork(2): the child, if its number is `pid`. -/
def fork (p : Proc) (pid : Nat) : Proc := { p with pid := pid }

/-- setsid(2). -/
def setsid (p : Proc) : Option Proc :=
  if p.pid = p.group then none else some { p with group := p.pid, session := p.pid, ctty := none }

/-- The lowest free descriptor below `n`, or `n`. -/
def lowest (f : Nat → Option Desc) (n : Nat) : Nat :=
  ((List.range n).find? fun i => (f i).isNone).getD n

/-- Setting a descriptor. -/
def put (f : Nat → Option Desc) (i : Nat) (d : Option Desc) : Nat → Option Desc := fun j => if j = i then d else f j

/-- open(2) without O_NOCTTY, at a free descriptor `i` (the lowest one); `free`: the terminal is not that of another session. -/
def openAt (p : Proc) (i : Nat) (d : Desc) (free : Bool) : Proc :=
  let ctty := match d.file with
    | .tty n => if p.pid = p.session ∧ p.ctty = none ∧ free = true then some n else p.ctty
    | _ => p.ctty
  { p with fd := put p.fd i (some d), ctty := ctty }

/-- dup2(2): the copy is not marked close-on-exec; nothing changes if the two are the same. -/
def dup2 (p : Proc) (a b : Nat) : Proc :=
  if a = b then p else { p with fd := put p.fd b ((p.fd a).map fun d => { d with cloexec := false }) }

/-- close(2). -/
def close (p : Proc) (i : Nat) : Proc := { p with fd := put p.fd i none }

/-- The launching of `shpool daemon`, daemonize.rs 72-89: stdout and stderr lead to /dev/null, stdin and all descriptors that are not marked
are inherited; then the run-time system opens what is missing of the first three. -/
def launch (c : Proc) (pid : Nat) : Proc :=
  { c with
    pid := pid
    fd := fun i =>
      let inherited := match c.fd i with
        | some d => if d.cloexec then none else some d
        | none => none
      if i = 1 ∨ i = 2 then some ⟨.null, true, false⟩
      else if i = 0 then some (inherited.getD ⟨.null, true, false⟩)
      else inherited }

/-- What the process opens before `daemonize`, each at the lowest free descriptor below `n`. -/
def opens (n : Nat) (p : Proc) : List (Desc × Bool) → Proc
  | [] => p
  | (d, free) :: ds => opens n (openAt p (lowest p.fd n) d free) ds

/-- What the system answers: the numbers of the two children (`none`: fork fails), and whether the other calls succeed; `pidFile`, `null`:
where they are opened. -/
structure Answers where
  cd : Bool
  fork1 : Option Nat
  pidFile : Bool
  fork2 : Option Nat
  writePid : Bool
  null : Bool
  dups : Bool

/-- `redirect_std_fds_to_null`, daemonize.rs 207-232: /dev/null is opened for reading only, and `nullfd` is closed at the end. -/
def redirect (n : Nat) (p : Proc) : Proc :=
  let i := lowest p.fd n
  let p := openAt p i ⟨.null, false, true⟩ true
  let p := dup2 p i 0
  let p := dup2 p i 1
  let p := dup2 p i 2
  close p i

/-- `daemonize`, daemonize.rs 149-203: the process that returns from it, or none that does.  `n`: the limit of open files. -/
def daemonize (n : Nat) (a : Answers) (p : Proc) : Option Proc :=
  if a.cd = false then none
  else
    let p := { p with cwd := 0 }
    match a.fork1 with
    | none => none
    | some pid1 =>
      match setsid (fork p pid1) with
      | none => none
      | some p =>
        if a.pidFile = false then none
        else
          let i := lowest p.fd n
          let p := openAt p i ⟨.other 0, true, true⟩ true
          match a.fork2 with
          | none => none
          | some pid2 =>
            let p := fork p pid2
            if a.writePid = false ∨ a.null = false ∨ a.dups = false then none
            else some (close (redirect n p) i)

/-- What the daemon does later, as far as it matters here. -/
inductive Act where
  | open (i : Nat) (d : Desc) (free : Bool)
  | close (i : Nat)
  | dup2 (a b : Nat)

def act (p : Proc) : Act → Proc
  | .open i d free => openAt p i d free
  | .close i => close p i
  | .dup2 a b => dup2 p a b

end Shpool.LetGo
