import Verif.Util.Lts
import Verif.Util.Str
/-!
# Model of the message of the day

Source: `/repo/libshpool/src/daemon/show_motd.rs`.

Texts are lists of bytes (the code splits a `str` at `'\n'`, which is the same as splitting its UTF-8 bytes at 10).  Times of
the system clock are integers in nanoseconds since the epoch.
-/

namespace Shpool.Motd

/-! ## Conversion for a raw terminal -/

/-- `str::split('\n')`. -/
def splitLines : List UInt8 → List (List UInt8)
  | [] => [[]]
  | c :: t =>
    if c = 10 then [] :: splitLines t
    else
      match splitLines t with
      | [] => [[c]]
      | l :: ls => (c :: l) :: ls

/-- `DailyMessenger::convert_to_raw`, show_motd.rs 153-168; `cr` is the terminal's carriage return capability. -/
def convertToRaw (cr : Option (List UInt8)) (motd : List UInt8) : Except Unit (List UInt8) :=
  match cr with
  | none => .error ()
  | some cr => .ok (((splitLines motd).map fun line => line ++ 10 :: cr).flatten)

/-! ## Arguments of the resolver -/

/-- The arguments handed to the resolver, show_motd.rs 130-141. -/
def motdArgs (args : List (List Char)) : List (List Char) :=
  if args.any (· = "noupdate".toList) then args else args ++ ["noupdate".toList]

/-! ## Debouncing -/

/-- `Debouncer`, show_motd.rs 171-174. -/
structure Debouncer where
  last : Int
  dur : Nat
  deriving DecidableEq, Repr

/-- One second. -/
def sec : Nat := 1000000000

/-- `Debouncer::new`, show_motd.rs 177-179, at time `now`.  `dur * 2` panics when the seconds do not fit in 64 bits, the
subtraction when the result's seconds do not fit in a signed 64-bit number (Linux `SystemTime`). -/
def Debouncer.new (now : Int) (dur : Nat) : Option Debouncer :=
  if dur * 2 / sec < 2 ^ 64 ∧ -(2 ^ 63 : Int) * sec ≤ now - dur * 2 then some ⟨now - dur * 2, dur⟩ else none

/-- `Debouncer::should_fire`, show_motd.rs 182-194: the clock is read at `now` for the comparison (an error if it is before the
last display) and again at `now'` for the record.  The mutex makes calls exclusive. -/
def Debouncer.shouldFire (d : Debouncer) (now now' : Int) : Except Unit (Bool × Debouncer) :=
  if d.last ≤ now then
    if (d.dur : Int) ≤ now - d.last then .ok (true, { d with last := now' }) else .ok (false, d)
  else .error ()

/-- The state after a call. -/
def Debouncer.after (d : Debouncer) (c : Int × Int) : Debouncer :=
  match d.shouldFire c.1 c.2 with
  | .ok (_, d') => d'
  | .error _ => d

/-- A history of calls: the readings of the clock; the result is the list of the calls that displayed the message (time of
the comparison, time recorded). -/
def fires : Debouncer → List (Int × Int) → List (Int × Int)
  | _, [] => []
  | d, (a, b) :: rest =>
    match d.shouldFire a b with
    | .ok (true, d') => (a, b) :: fires d' rest
    | .ok (false, d') => fires d' rest
    | .error _ => fires d rest

end Shpool.Motd
