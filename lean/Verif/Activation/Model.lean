/-!
# Model of socket activation

Sources: `/repo/libshpool/src/daemon/systemd.rs` 26-54 (`activation_socket`), `/repo/libshpool/src/daemon/mod.rs` 73-97 and 113-118
(its use in `run`), `/repo/libshpool/src/lib.rs` 385-440 and `/repo/libshpool/src/config.rs` 56-96 (what the daemon has opened by then).

A service manager that activates the daemon through a socket passes the socket as descriptor 3, with `LISTEN_FDS=1` and
`LISTEN_PID` the process it is meant for.  The model is the table of descriptors of the daemon, with what each of them is and who
uses it.  Descriptors of the daemon's own are opened at the lowest free number, as by the kernel.  The environment variable is a
list of characters (`none`: not set, or not UTF-8); binding the daemon's own path is not part of this model (see the model of
starting daemons).
-/

namespace Shpool.Activation

/-- Types of files, as in the high four bits of `st_mode` (inode(7)). -/
inductive Kind where
  | fifo | chr | dir | blk | reg | lnk | sock
  /-- no file: epoll, inotify -/
  | anon
  deriving DecidableEq, Repr

def Kind.bits : Kind → BitVec 4
  | .fifo => 0x1
  | .chr => 0x2
  | .dir => 0x4
  | .blk => 0x6
  | .reg => 0x8
  | .lnk => 0xA
  | .sock => 0xC
  | .anon => 0x0

/-- `st_mode`: the type, then the permissions. -/
def mode (k : Kind) (perm : BitVec 12) : BitVec 16 := k.bits ++ perm

/-- `SFlag::from_bits_truncate(st_mode).contains(S_IFSOCK)`, systemd.rs 49: all bits of `S_IFSOCK` (0o140000) are set. -/
def isSock (m : BitVec 16) : Bool := m &&& 0xC000 == 0xC000

/-- Whose a descriptor is: passed to this process by the service manager; inherited in another way; or opened by the daemon itself
(its log, the watcher of its configuration, the listener of its events). -/
inductive Owner where
  | passed
  | inherited
  | own
  deriving DecidableEq, Repr

/-- An open file.  `id` tells files apart. -/
structure File where
  kind : Kind
  perm : BitVec 12
  owner : Owner
  id : Nat
  deriving DecidableEq, Repr

abbrev Table := Nat → Option File

/-- `str::parse::<isize>`, on 64 bits, systemd.rs 37: a sign or none, at least one digit, nothing else, in range. -/
def digits : List Char → Option Nat
  | [] => none
  | cs => cs.foldl (fun acc c => match acc with
    | none => none
    | some n => if '0' ≤ c ∧ c ≤ '9' then some (n * 10 + (c.toNat - 48)) else none) (some 0)

def parseIsize : List Char → Option Int
  | '+' :: cs => match digits cs with
    | some n => if n < 9223372036854775808 then some n else none
    | none => none
  | '-' :: cs => match digits cs with
    | some n => if n ≤ 9223372036854775808 then some (-(n : Int)) else none
    | none => none
  | cs => match digits cs with
    | some n => if n < 9223372036854775808 then some n else none
    | none => none

/-- What the daemon listens on. -/
inductive Listen where
  | activation (f : File)
  | ownPath
  deriving DecidableEq, Repr

def close (t : Table) (fd : Nat) : Table := fun i => if i = fd then none else t i

/-- `activation_socket`, systemd.rs 34-53, and the branch on it in `run`, mod.rs 79-97.  Ownership of descriptor 3 is taken before
it is looked at (`OwnedFd::from_raw_fd`), so that it is closed when it is not a socket.  (`fstat` fails only if it is not open; closing
what is not open does nothing.) -/
def activate (listenFds : Option (List Char)) (t : Table) : Listen × Table :=
  match listenFds with
  | none => (.ownPath, t)
  | some s =>
    match parseIsize s with
    | none => (.ownPath, t)
    | some n =>
      if n ≠ 1 then (.ownPath, t)
      else match t 3 with
        | none => (.ownPath, t)
        | some f => if isSock (mode f.kind f.perm) then (.activation f, t) else (.ownPath, close t 3)

/-- Whether the daemon removes the socket file when it ends, mod.rs 113-118: not if it is the service manager's. -/
def cleansUp : Listen → Bool
  | .activation _ => false
  | .ownPath => true

/-- Opening files one after another: each takes the lowest descriptor that is free (`open`, `socket`, `epoll_create`, ...).  The daemon
opens, before it looks for an activation socket, its log file if it was given one (lib.rs 385-391), what the watcher of its
configuration needs (config.rs 76-96) and the listener of its events (mod.rs 73-75). -/
inductive Opens : Table → List File → Table → Prop
  | nil (t) : Opens t [] t
  | cons (t : Table) (fd : Nat) (f : File) (fs : List File) (t' : Table) :
      t fd = none → (∀ j, j < fd → t j ≠ none) → Opens (fun i => if i = fd then some f else t i) fs t' → Opens t (f :: fs) t'

end Shpool.Activation
