import Verif.Inject.Model
import Verif.Sentinel.Model
/-!
# Model of what the terminal shows while a shell is set up

Sources: `/repo/libshpool/src/lib.rs` 374-384 (what `shpool daemon` does first of all), `/repo/libshpool/src/consts.rs` 27-40,
`/repo/libshpool/src/daemon/server.rs` 1009-1016 (the terminal echoes unless `noecho` is set).

The scripts that are typed are those of `Verif/Inject/Model.lean` and the scanner is that of `Verif/Sentinel/Model.lean`; this area puts
them together with the terminal between them: what is typed comes back as echo, mixed with what the shell prints.
-/

namespace Shpool.Noise

abbrev Str := List Char

/-- The first thing `run` does, lib.rs 374-384: with the subcommand `daemon` and the flag variable set (`env::var` gives a value only if it
is valid text) it prints a line and exits; else (`none`) it goes on. -/
def prologue (daemon : Bool) (flag : Option Str) : Option Str :=
  match daemon, flag with
  | true, some v =>
    if v = "prompt".toList then some "SHPOOL_PROMPT_SETUP_SENTINEL\n".toList
    else if v = "startup".toList then some "SHPOOL_STARTUP_SENTINEL\n".toList
    else none
  | _, _ => none

/-- The echo of one typed character by the terminal's line discipline (the kernel, not code of /repo; the flags ECHO, ECHOCTL and ONLCR are
set on a new pty and `noecho` is not the default, server.rs 1009-1016): a line end is a carriage return and a line feed; other control
characters but the tab are shown with a caret; everything else is itself, in UTF-8. -/
def echoChar (c : Char) : List UInt8 :=
  if c = '\n' then [13, 10]
  else if c = '\t' then [9]
  else if c.toNat < 32 then [94, (c.toNat + 64).toUInt8]
  else if c.toNat = 127 then [94, 63]
  else String.utf8EncodeChar c

/-- The echo of a text. -/
def echo (s : Str) : List UInt8 := s.flatMap echoChar

/-- A program's output on the terminal (ONLCR): line ends get a carriage return. -/
def printedOn (s : Str) : List UInt8 := s.flatMap fun c => if c = '\n' then [13, 10] else String.utf8EncodeChar c

end Shpool.Noise
