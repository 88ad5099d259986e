/-!
# Model of the file descriptors given to a new process

Sources: `/repo/libshpool/src/daemon/server.rs` 1011-1021 (a shell), `/repo/libshpool/src/daemon/pager.rs` 143-150 (a pager),
`/repo/libshpool/src/consts.rs` (`STDERR_FD` is 2).

The upper bound of the loop is `SysconfVar::OPEN_MAX as i32`: the number of the enumerator, which the nix crate takes from libc
(`_SC_OPEN_MAX`), not the limit it stands for.  The number is a parameter here; on Linux it is 4 (bits/confname.h).
-/

namespace Shpool.Fds

/-- An open descriptor and its close-on-exec flag. -/
structure Fd where
  num : Nat
  cloexec : Bool
  deriving DecidableEq, Repr

/-- `for fd in 3..bound { close(fd) }`. -/
def closeLoop (bound : Nat) (open_ : List Fd) : List Fd := open_.filter fun f => !(3 ≤ f.num && f.num < bound)

/-- `exec`: descriptors with the flag are closed by the system. -/
def exec (open_ : List Fd) : List Fd := open_.filter fun f => !f.cloexec

/-- What the new program starts with. -/
def inherited (bound : Nat) (open_ : List Fd) : List Fd := exec (closeLoop bound open_)

/-- `_SC_OPEN_MAX` on Linux. -/
def scOpenMax : Nat := 4

end Shpool.Fds
