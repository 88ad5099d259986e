import Verif.Spawn.Model
/-!
# Model of looking up the user

Sources: `/repo/libshpool/src/user.rs` 26-97 (`info`), `/repo/libshpool/src/daemon/server.rs` 266-271, 915-919 and 958-961 (its use for
a new shell).

The user database is a function from user numbers to entries.  `getpwuid_r` copies an entry into a buffer of 4096 bytes and fails if
it does not fit; how many bytes an entry takes (`need`) depends on the system and is a parameter.  Decoding UTF-8 is a
parameter as well, and so is its lossy variant, which puts replacement characters for what cannot be decoded.
-/

namespace Shpool.User

open Shpool.Env (Str)

abbrev Bytes := List UInt8

/-- `struct passwd`, without the numbers (passwd(5)). -/
structure Entry where
  name : Bytes
  passwd : Bytes
  gecos : Bytes
  dir : Bytes
  shell : Bytes
  deriving DecidableEq, Repr

/-- user.rs 19-24. -/
structure Info where
  defaultShell : Str
  home : Str
  user : Str
  deriving DecidableEq, Repr

/-- Errors of `info`, user.rs 68-78. -/
inductive Err where
  | notFound
  | errno
  deriving DecidableEq, Repr

/-- What the lookup depends on. -/
structure Sys where
  db : Nat → Option Entry
  need : Entry → Nat
  utf8 : Bytes → Option Str
  lossy : Bytes → Str

/-- The size of `passwd_str_buf`, user.rs 27. -/
def bufLen : Nat := 4096

/-- `getpwuid_r`, called at user.rs 61-67: no entry, an error (`ERANGE`), or the entry. -/
def getpwuid (s : Sys) (uid : Nat) : Except Unit (Option Entry) :=
  match s.db uid with
  | none => .ok none
  | some e => if s.need e ≤ bufLen then .ok (some e) else .error ()

/-- A C string: up to the first zero byte (`CStr::from_ptr`, user.rs 86-95). -/
def cstr (b : Bytes) : Bytes := b.takeWhile (· != 0)

/-- `info`, user.rs 26-97. -/
def info (s : Sys) (uid : Nat) : Except Err Info :=
  match getpwuid s uid with
  | .error _ => .error .errno
  | .ok none => .error .notFound
  | .ok (some e) => .ok ⟨s.lossy (cstr e.shell), s.lossy (cstr e.dir), s.lossy (cstr e.name)⟩

/-- The command of a new shell for this user, server.rs 266-271 and 915-961: without user information the attach fails (and the client
is not answered); `rest` is what else the request and the configuration say. -/
def execFor (s : Sys) (uid : Nat) (words : Str → Option (List Str)) (rest : Spawn.Input) : Option Spawn.Exec :=
  match info s uid with
  | .error _ => none
  | .ok i => Spawn.execOf words { rest with defaultShell := i.defaultShell, home := i.home }

end Shpool.User
