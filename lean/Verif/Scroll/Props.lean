import Verif.Scroll.Model
/-!
# The output spool (C69)
-/

namespace Shpool.Scroll

open Config

/-! ## Number of lines -/

/-- **C69**: an explicit number of lines wins. -/
theorem C69_explicit (c : Config) (l : Nat) (h : c.output_spool_lines = some l) : scrollbackLines c = l := by
  simp [scrollbackLines, h]

/-- **C69**: otherwise the number in a `lines` restore mode. -/
theorem C69_lines_mode (c : Config) (l : Nat) (h : c.output_spool_lines = none) (hm : c.session_restore_mode = some (.lines l)) :
    scrollbackLines c = l := by
  simp [scrollbackLines, h, hm]

/-- **C69**: otherwise 500. -/
theorem C69_default (c : Config) (h : c.output_spool_lines = none) (hm : ∀ l, c.session_restore_mode ≠ some (.lines l)) :
    scrollbackLines c = 500 := by
  unfold scrollbackLines
  split
  · rename_i l _ h'; rw [h] at h'; cases h'
  · rename_i l _ h'; exact absurd h' (hm l)
  · rfl

example : scrollbackLines Config.empty = 500 := rfl
example : scrollbackLines { Config.empty with session_restore_mode := some (.lines 70) } = 70 := rfl

/-! ## What is restored -/

/-- Specification: the calls the emulator must have seen for a history, `width` being the width used for a resize under the
given configuration by a client with the given number of columns. -/
def expected (width : Config → Nat → Nat) : Op → Call
  | .resize c r k => .setSize r (width c k)
  | .process b => .process b

private theorem fold_screen (cs : List Call) (ops : List Op) :
    ops.foldl Spool.apply (.vt100Screen cs) = .vt100Screen (cs ++ ops.map (expected fun c _ => vtermWidth c)) := by
  induction ops generalizing cs with
  | nil => simp
  | cons o os ih => cases o <;> simp [Spool.apply, Spool.resize, Spool.process, ih, expected]

private theorem fold_lines (cs : List Call) (n : Nat) (ops : List Op) :
    ops.foldl Spool.apply (.vt100Lines cs n) = .vt100Lines (cs ++ ops.map (expected fun c _ => vtermWidth c)) n := by
  induction ops generalizing cs with
  | nil => simp
  | cons o os ih => cases o <;> simp [Spool.apply, Spool.resize, Spool.process, ih, expected]

private theorem fold_vterm (cs : List Call) (m : RestoreMode) (ops : List Op) :
    ops.foldl Spool.apply (.vterm cs m) = .vterm (cs ++ ops.map (expected fun _ k => k)) m := by
  induction ops generalizing cs with
  | nil => simp
  | cons o os ih => cases o <;> simp [Spool.apply, Spool.resize, Spool.process, ih, expected]

private theorem fold_null (ops : List Op) : ops.foldl Spool.apply .null = .null := by
  induction ops with
  | nil => rfl
  | cons o os ih => cases o <;> simp [Spool.apply, Spool.resize, Spool.process, ih]

/-- **C69**: a session created in the simple mode never restores anything, with either engine, whatever the emulator, the
output, the resizes and later configurations. -/
theorem C69_simple (e : Emulator) (c : Config) (rows cols : Nat) (ops : List Op) (h : c.session_restore_mode = some .simple) :
    (after c rows cols ops).restore e = [] := by
  simp [after, Spool.new, h, fold_null, Spool.restore]

/-- The calls seen by shpool_vt100: created with the rows of the first client, the configured width and the selected number
of lines; then all resizes (rows of the client, configured width) and all output, in order. -/
def vt100Calls (c : Config) (rows : Nat) (ops : List Op) : List Call :=
  .new rows (c.vt100_output_spool_width.getD 1024) (scrollbackLines c) ::
    ops.map (expected fun c _ => c.vt100_output_spool_width.getD 1024)

/-- The calls seen by shpool-vterm: the same with the client's own columns. -/
def vtermCalls (c : Config) (rows cols : Nat) (ops : List Op) : List Call :=
  .new rows cols (scrollbackLines c) :: ops.map (expected fun _ k => k)

/-- **C69**: the default mode and the default engine restore the screen of a terminal that has seen all output, followed by
the input modes. -/
theorem C69_screen (e : Emulator) (c : Config) (rows cols : Nat) (ops : List Op)
    (hm : c.session_restore_mode = none ∨ c.session_restore_mode = some .screen)
    (he : c.session_restore_engine = none ∨ c.session_restore_engine = some .vt100) :
    (after c rows cols ops).restore e =
      e (vt100Calls c rows ops) .screen ++ e (vt100Calls c rows ops) .inputModes := by
  rcases hm with hm | hm <;> rcases he with he | he <;>
    simp [after, Spool.new, hm, he, fold_screen, Spool.restore, vt100Calls, vtermWidth]

/-- **C69**: the `lines` mode restores that many lines (of those kept) and the input modes. -/
theorem C69_lines (e : Emulator) (c : Config) (rows cols n : Nat) (ops : List Op)
    (hm : c.session_restore_mode = some (.lines n))
    (he : c.session_restore_engine = none ∨ c.session_restore_engine = some .vt100) :
    (after c rows cols ops).restore e =
      e (vt100Calls c rows ops) (.last n) ++ e (vt100Calls c rows ops) .inputModes := by
  rcases he with he | he <;>
    simp [after, Spool.new, hm, he, fold_lines, Spool.restore, vt100Calls, vtermWidth]

/-- **C69**: the other engine, by mode. -/
theorem C69_vterm (e : Emulator) (c : Config) (rows cols : Nat) (ops : List Op) (he : c.session_restore_engine = some .vterm) :
    ((c.session_restore_mode = none ∨ c.session_restore_mode = some .screen) →
      (after c rows cols ops).restore e = e (vtermCalls c rows cols ops) .screen) ∧
    (∀ n, c.session_restore_mode = some (.lines n) →
      (after c rows cols ops).restore e = e (vtermCalls c rows cols ops) (.last n)) := by
  refine ⟨?_, ?_⟩
  · rintro (hm | hm) <;> simp [after, Spool.new, hm, he, fold_vterm, Spool.restore, vtermCalls]
  · intro n hm
    simp [after, Spool.new, hm, he, fold_vterm, Spool.restore, vtermCalls]

/-- The output in a history. -/
def outputOf (ops : List Op) : Bytes :=
  ops.flatMap fun
    | .process b => b
    | .resize .. => []

/-- The bytes an emulator has been given. -/
def fed (cs : List Call) : Bytes :=
  cs.flatMap fun
    | .process b => b
    | _ => []

/-- **C69**: either emulator has been given exactly the output of the shell, in order. -/
theorem C69_fed (c : Config) (rows cols : Nat) (ops : List Op) :
    fed (vt100Calls c rows ops) = outputOf ops ∧ fed (vtermCalls c rows cols ops) = outputOf ops := by
  have h : ∀ w, fed (ops.map (expected w)) = outputOf ops := by
    intro w
    induction ops with
    | nil => rfl
    | cons o os ih => cases o <;> simpa [fed, outputOf, expected] using ih
  exact ⟨by rw [← h]; rfl, by rw [← h]; rfl⟩

/-- An emulator that shows the rows last set: after a resize to 50 rows the default configuration restores a screen of 50. -/
example : ∃ e : Emulator, (after Config.empty 24 80 [.process [65], .resize Config.empty 50 132]).restore e = [50, 7] :=
  ⟨fun cs q => match q with
    | .inputModes => [7]
    | _ => match cs.getLast? with
      | some (.setSize r _) => [UInt8.ofNat r]
      | _ => [], by decide⟩

end Shpool.Scroll
