import Verif.Util.List
import Verif.Input.Lemmas
import Verif.Keybindings.Props
/-!
# Properties C13-C17: what the shell gets of the bytes the client sends

All statements are about the thread reading the client connection, started with a fresh engine for an arbitrary accepted
keybinding configuration, an arbitrary buffer, and an arbitrary series of reads.
-/

namespace Shpool.Input
open Keys (BindingResult Action Bindings Spells)

/-- The thread at its start, shell.rs 838-842: fresh engine, nothing withheld. -/
def Thread.start (b : Bindings) (buf : List UInt8) : Thread Bindings := ⟨b, [], buf⟩

/-- The ideal filter at its start. -/
def Ideal.start (b : Bindings) : Ideal Bindings := ⟨b, [], []⟩

/-- The ideal filter withholds exactly the bytes of the engine's current run of partial answers. -/
theorem ideal_track (b : Bindings) (input : List UInt8) :
    ((Ideal.start b).run Bindings.transition input).eng = (b.track input).1 ∧
    ((Ideal.start b).run Bindings.transition input).withheld = (b.track input).2 := by
  induction input using snocInd with
  | nil => exact ⟨rfl, rfl⟩
  | snoc xs x ih =>
    obtain ⟨h1, h2⟩ := ih
    rw [run_append, Keys.track_snoc]
    show ((Ideal.run _ _ _).step _ x).eng = _ ∧ ((Ideal.run _ _ _).step _ x).withheld = _
    unfold Ideal.step
    rw [h1, h2]
    cases ((b.track xs).1.transition x).2 <;> exact ⟨rfl, rfl⟩

/-- What the thread does with a series of reads. -/
def session (cfg : List (List Char × Action)) (cap : Nat) (reads : List (List UInt8)) : Option (List UInt8 × Bool) :=
  match Bindings.new cfg with
  | .error _ => none
  | .ok b => match runReads Bindings.transition (Thread.start b (List.replicate cap 0)) [] reads with
    | .running _ w => some (w, false)
    | .detached w => some (w, true)
    | .panicked => none

/-! ## C13: the split into reads does not matter -/

/-- The claim is false: with "a" bound to NoOp, the input "xa" reaches the shell as "x" if it comes in two reads, and not at all
if it comes in one. -/
theorem C13_false :
    session [("a".toList, .noOp)] 16 [[120], [97]] = some ([120], false) ∧
    session [("a".toList, .noOp)] 16 [[120, 97]] = some ([], false) := by decide

/-- C13 (if no binding fires whose first byte is the second byte of a read). Two series of reads that carry the same
bytes lead to the same bytes being written to the shell, the same withheld bytes and the same engine state. -/
theorem C13_split_independent_partial (b : Bindings) (buf : List UInt8) (r1 r2 : List (List UInt8))
    (h1 : LegalReads buf.length r1) (h2 : LegalReads buf.length r2) (heq : r1.flatten = r2.flatten)
    (hnd : NoDetach Bindings.transition b r1.flatten)
    (g1 : NoSecondByteStarts Bindings.transition (Ideal.start b) r1)
    (g2 : NoSecondByteStarts Bindings.transition (Ideal.start b) r2) :
    ∃ t1 t2 w, runReads Bindings.transition (Thread.start b buf) [] r1 = .running t1 w ∧
      runReads Bindings.transition (Thread.start b buf) [] r2 = .running t2 w ∧
      t1.eng = t2.eng ∧ t1.part = t2.part := by
  obtain ⟨t1, w1, a1, a2, a3, -, -, a6⟩ := runReads_running (W := []) (G := True) (id := Ideal.start b)
    (Thread.start b buf) r1 h1 rfl rfl (List.Sublist.refl _) (fun _ => rfl) hnd (fun _ => g1)
  obtain ⟨t2, w2, c1, c2, c3, -, -, c6⟩ := runReads_running (W := []) (G := True) (id := Ideal.start b)
    (Thread.start b buf) r2 h2 rfl rfl (List.Sublist.refl _) (fun _ => rfl) (heq ▸ hnd) (fun _ => g2)
  refine ⟨t1, t2, w1, a1, ?_, ?_, ?_⟩
  · rw [c1, a6 trivial, c6 trivial, heq]
  · rw [a2, c2, heq]
  · rw [a3, c3, heq]

/-- "ls", the start of the detach sequence, and something else, split in two ways. -/
example : session Keys.defaultCfg 16 [[108, 115, 0], [104, 105]] = some ([108, 115, 0, 104, 105], false) ∧
    session Keys.defaultCfg 16 [[108], [115, 0, 104], [105]] = some ([108, 115, 0, 104, 105], false) := by decide

/-! ## C14: transparency -/

/-- C14. If no binding fires, then for every input and every split into reads the thread keeps running, and what it has written to
the shell, followed by what it still withholds, is exactly what the client has sent.  What is withheld is a beginning, but not
all, of some configured binding. -/
theorem C14_transparent (cfg : List (List Char × Action)) (b : Bindings) (hb : Bindings.new cfg = .ok b) (buf : List UInt8)
    (reads : List (List UInt8)) (hl : LegalReads buf.length reads)
    (hf : NoFire Bindings.transition b reads.flatten) :
    ∃ t w, runReads Bindings.transition (Thread.start b buf) [] reads = .running t w ∧
      w ++ t.part = reads.flatten ∧
      (t.part ≠ [] → ∃ src a codes, (src, a) ∈ cfg ∧ Spells src codes ∧ t.part <+: codes ∧ t.part ≠ codes) := by
  obtain ⟨t1, w1, a1, a2, a3, -, -, a6⟩ := runReads_running (W := []) (G := True) (id := Ideal.start b)
    (Thread.start b buf) reads hl rfl rfl (List.Sublist.refl _) (fun _ => rfl) hf.noDetach
    (fun _ => NoFire.noSeconds (id := Ideal.start b) hf)
  refine ⟨t1, w1, a1, ?_, ?_⟩
  · rw [a6 trivial, a3]
    simpa [Ideal.start] using ideal_noFire (id := Ideal.start b) hf
  · rw [a3, (ideal_track b _).2]
    exact Keys.C11_partial_is_proper_prefix cfg b hb _

/-- The bytes of a session without any Ctrl-Space are passed on unchanged under the default configuration, and a single
Ctrl-Space is withheld. -/
example : ∃ b, Bindings.new Keys.defaultCfg = .ok b ∧ NoFire Bindings.transition b [108, 115, 10, 0] :=
  ⟨_, rfl, by
    refine ⟨?_, ?_, ?_, ?_, trivial⟩ <;>
      (intro a h; cases a <;> revert h <;> decide)⟩
example : session Keys.defaultCfg 16 [[108, 115], [10, 0]] = some ([108, 115, 10], false) := by decide

/-- The byte sequence of no configured binding with an action of the set `A` occurs in the input. -/
def Absent (cfg : List (List Char × Action)) (A : Action → Prop) (input : List UInt8) : Prop :=
  ∀ src a codes, (src, a) ∈ cfg → A a → Spells src codes → codes ≠ [] → ¬ codes <:+: input

theorem Absent.init {cfg : List (List Char × Action)} {A : Action → Prop} {xs ys : List UInt8} (h : Absent cfg A (xs ++ ys)) :
    Absent cfg A xs := fun src a codes m ha sp hne hi =>
  h src a codes m ha sp hne (hi.trans (List.prefix_append xs ys).isInfix)

/-- Where the bytes of no binding occur, none fires. -/
theorem noFire_of_absent {cfg : List (List Char × Action)} {b : Bindings} (hb : Bindings.new cfg = .ok b) {input : List UInt8}
    (h : Absent cfg (fun _ => True) input) : NoFire Bindings.transition b input := by
  induction input using snocInd with
  | nil => trivial
  | snoc xs x ih =>
    refine (NoFire.append (e := b) (Ideal.start b) rfl).mpr ⟨ih h.init, fun a ha => ?_, trivial⟩
    rw [(ideal_track b xs).1, Keys.track_fst] at ha
    obtain ⟨src, codes, m, sp, hne, hs⟩ := Keys.C11_action_only_on_its_keys cfg b hb xs x a ha
    exact h src a codes m trivial sp hne hs.isInfix

/-- Where the bytes of no detach binding occur, the client is not detached. -/
theorem noDetach_of_absent {cfg : List (List Char × Action)} {b : Bindings} (hb : Bindings.new cfg = .ok b) {input : List UInt8}
    (h : Absent cfg (fun a => a = .detach) input) : NoDetach Bindings.transition b input := by
  induction input using snocInd with
  | nil => trivial
  | snoc xs x ih =>
    refine (NoDetach.append (e := b) (Ideal.start b) rfl).mpr ⟨ih h.init, fun ha => ?_, trivial⟩
    rw [(ideal_track b xs).1, Keys.track_fst] at ha
    obtain ⟨src, codes, m, sp, hne, hs⟩ := Keys.C11_action_only_on_its_keys cfg b hb xs x .detach ha
    exact h src .detach codes m rfl sp hne hs.isInfix

/-- C14, in terms of the bytes alone. Input in which the byte sequence of no configured binding occurs reaches the shell
unchanged, but for a last piece that is the beginning of a binding. -/
theorem C14_absent (cfg : List (List Char × Action)) (b : Bindings) (hb : Bindings.new cfg = .ok b) (buf : List UInt8)
    (reads : List (List UInt8)) (hl : LegalReads buf.length reads) (ha : Absent cfg (fun _ => True) reads.flatten) :
    ∃ t w, runReads Bindings.transition (Thread.start b buf) [] reads = .running t w ∧
      w ++ t.part = reads.flatten ∧
      (t.part ≠ [] → ∃ src a codes, (src, a) ∈ cfg ∧ Spells src codes ∧ t.part <+: codes ∧ t.part ≠ codes) :=
  C14_transparent cfg b hb buf reads hl (noFire_of_absent hb ha)

/-- With the default configuration: input without Ctrl-Space directly followed by Ctrl-q. -/
example (input : List UInt8) (h : ¬ [0, 17] <:+: input) : Absent Keys.defaultCfg (fun _ => True) input := by
  intro src a codes m _ sp hne hi
  simp only [Keys.defaultCfg, List.mem_singleton, Prod.mk.injEq] at m
  obtain ⟨rfl, -⟩ := m
  obtain ⟨toks, chords, h1, h2, h3⟩ := (Keys.spells_iff _ _).mp sp
  have e1 : Keys.tokenize "Ctrl-Space Ctrl-q".toList =
      .ok [.key Keys.ctrlWord, .dash, .key Keys.spaceWord, .key Keys.ctrlWord, .dash, .key ['q']] := by decide
  rw [e1] at h1; cases h1
  have e2 : Keys.parse [.key Keys.ctrlWord, .dash, .key Keys.spaceWord, .key Keys.ctrlWord, .dash, .key ['q']] =
      .ok [[Keys.ctrlWord, Keys.spaceWord], [Keys.ctrlWord, ['q']]] := by decide
  rw [e2] at h2; cases h2
  have e3 : [[Keys.ctrlWord, Keys.spaceWord], [Keys.ctrlWord, ['q']]].map Keys.keyCode = [(0 : UInt8), 17].map Except.ok := by decide
  rw [e3] at h3
  have : codes = [0, 17] := (List.map_inj_right (fun _ _ h => by cases h; rfl)).mp h3.symm
  exact h (this ▸ hi)

/-! ## C15: a NoOp binding removes its own bytes only -/

/-- The claim is false: "x" directly before a NoOp binding at the second byte of a read is removed with it. -/
theorem C15_false : session [("a b".toList, .noOp)] 16 [[120, 97, 98, 121]] = some ([121], false) := by decide

/-- How an input is cut up: pieces that are passed on (`true`) and pieces that are removed (`false`). -/
def passed (pieces : List (Bool × List UInt8)) : List UInt8 := (pieces.filter (·.1)).flatMap (·.2)
def whole (pieces : List (Bool × List UInt8)) : List UInt8 := pieces.flatMap (·.2)

/-- How many times a binding fires on an input. -/
def firings (b : Bindings) (input : List UInt8) : Nat :=
  ((b.run input).2.filter fun r => match r with
    | .match _ => true
    | _ => false).length

/-- The ideal filter removes complete bindings and nothing else. -/
theorem ideal_pieces (cfg : List (List Char × Action)) (b : Bindings) (hb : Bindings.new cfg = .ok b) (input : List UInt8)
    (hnd : NoDetach Bindings.transition b input) :
    ∃ pieces, input = whole pieces ++ ((Ideal.start b).run Bindings.transition input).withheld ∧
      ((Ideal.start b).run Bindings.transition input).delivered = passed pieces ∧
      (pieces.filter (!·.1)).length = firings b input ∧
      ∀ p ∈ pieces, p.1 = false → ∃ src, (src, .noOp) ∈ cfg ∧ Spells src p.2 := by
  induction input using snocInd with
  | nil => exact ⟨[], rfl, rfl, rfl, by simp⟩
  | snoc xs x ih =>
    replace hnd := (NoDetach.append (e := b) (Ideal.start b) rfl).mp hnd
    obtain ⟨ps, h1, h2, h4, h3⟩ := ih hnd.1
    have hx := hnd.2.1
    obtain ⟨e1, e2⟩ := ideal_track b xs
    rw [run_append]
    have hfir : ∀ r, (((b.run xs).1).transition x).2 = r → firings b (xs ++ [x]) = firings b xs +
        (match r with | .match _ => 1 | _ => 0) := by
      intro r hr
      unfold firings
      rw [Keys.run_append]
      simp only [Bindings.run, List.filter_append, List.length_append, hr]
      cases r <;> rfl
    rw [← Keys.track_fst, ← e1] at hfir
    generalize hid : (Ideal.start b).run Bindings.transition xs = id at h1 h2 e1 e2 hx hfir ⊢
    show ∃ pieces, _ = _ ++ (id.step _ x).withheld ∧ (id.step _ x).delivered = _ ∧ _ ∧ _
    unfold Ideal.step
    cases hr : (id.eng.transition x).2 with
    | noMatch =>
      refine ⟨ps ++ [(true, id.withheld ++ [x])], ?_, ?_, by rw [hfir _ hr]; simp [← h4], ?_⟩
      · rw [h1]; simp [whole]
      · simp [h2, passed]
      · intro p hp hf
        rcases List.mem_append.mp hp with hp | hp
        · exact h3 p hp hf
        · simp only [List.mem_singleton] at hp; rw [hp] at hf; cases hf
    | partialMatch =>
      refine ⟨ps, ?_, h2, by rw [hfir _ hr]; simp [← h4], h3⟩
      rw [h1]; simp
    | «match» a =>
      have ha : a = .noOp := by
        cases a with
        | noOp => rfl
        | detach => exact absurd hr hx
      subst ha
      refine ⟨ps ++ [(false, id.withheld ++ [x])], ?_, ?_, by rw [hfir _ hr]; simp [← h4], ?_⟩
      · rw [h1]; simp [whole]
      · simp [h2, passed]
      · intro p hp hf
        rcases List.mem_append.mp hp with hp | hp
        · exact h3 p hp hf
        · simp only [List.mem_singleton] at hp
          rw [hp]
          rw [e1, Keys.track_fst] at hr
          obtain ⟨src, m, sp, -⟩ := Keys.fired_bytes cfg b hb xs x .noOp hr
          exact ⟨src, m, by rw [e2]; exact sp⟩

/-- C15 (if no binding fires whose first byte is the second byte of a read). The received bytes can be cut into pieces such that
each removed piece is the full byte sequence of a NoOp binding, there is one removed piece for every time a binding
fires, and everything else is, in order, what the shell got or is still
withheld. -/
theorem C15_noop_strips_itself_partial (cfg : List (List Char × Action)) (b : Bindings) (hb : Bindings.new cfg = .ok b)
    (buf : List UInt8) (reads : List (List UInt8)) (hl : LegalReads buf.length reads)
    (hnd : NoDetach Bindings.transition b reads.flatten)
    (g : NoSecondByteStarts Bindings.transition (Ideal.start b) reads) :
    ∃ t w pieces, runReads Bindings.transition (Thread.start b buf) [] reads = .running t w ∧
      reads.flatten = whole pieces ++ t.part ∧ w = passed pieces ∧
      (pieces.filter (!·.1)).length = firings b reads.flatten ∧
      ∀ p ∈ pieces, p.1 = false → ∃ src, (src, .noOp) ∈ cfg ∧ Spells src p.2 := by
  obtain ⟨t1, w1, a1, a2, a3, -, -, a6⟩ := runReads_running (W := []) (G := True) (id := Ideal.start b)
    (Thread.start b buf) reads hl rfl rfl (List.Sublist.refl _) (fun _ => rfl) hnd (fun _ => g)
  obtain ⟨ps, p1, p2, p4, p3⟩ := ideal_pieces cfg b hb reads.flatten hnd
  exact ⟨t1, w1, ps, a1, by rw [a3]; exact p1, by rw [a6 trivial]; exact p2, p4, p3⟩

/-- C15 (one byte per read, as interactive typing produces). The same, without any condition on where bindings start. -/
theorem C15_typing_partial (cfg : List (List Char × Action)) (b : Bindings) (hb : Bindings.new cfg = .ok b)
    (buf input : List UInt8) (hcap : 1 ≤ buf.length) (hnd : NoDetach Bindings.transition b input) :
    ∃ t w pieces, runReads Bindings.transition (Thread.start b buf) [] (input.map fun x => [x]) = .running t w ∧
      input = whole pieces ++ t.part ∧ w = passed pieces ∧
      (pieces.filter (!·.1)).length = firings b input ∧
      ∀ p ∈ pieces, p.1 = false → ∃ src, (src, .noOp) ∈ cfg ∧ Spells src p.2 := by
  have hfl : (input.map fun x => [x]).flatten = input := by
    clear hnd
    induction input with
    | nil => rfl
    | cons x xs ih => simp only [List.map_cons, List.flatten_cons, List.singleton_append, ih]
  have hl : LegalReads buf.length (input.map fun x => [x]) := by
    intro c hc
    obtain ⟨x, -, rfl⟩ := List.mem_map.mp hc
    exact ⟨by simp, by simpa using hcap⟩
  have := C15_noop_strips_itself_partial cfg b hb buf (input.map fun x => [x]) hl (by rw [hfl]; exact hnd)
    singles_noSecond
  rwa [hfl] at this

example : session [("a b".toList, .noOp)] 16 [[120], [97], [98], [121]] = some ([120, 121], false) ∧
    session [("a b".toList, .noOp)] 16 [[120, 120, 97, 98, 121]] = some ([120, 120, 121], false) := by decide

/-! ## C16: input before the detach sequence -/

/-- The claim is false: "ls\n" and the detach sequence in one read: the shell gets nothing. -/
theorem C16_false : session Keys.defaultCfg 16 [[108, 115, 10, 0, 17]] = some ([], true) := by decide

/-- C16 (input that came in earlier reads). When byte `x` of the read `c1 ++ x :: c2` completes a detach binding, the thread stops;
later reads are not looked at; and what the shell has got (`w`) is everything that is due up to there except for
`lost`, which comes from the same read.  Nothing is lost if the read begins inside the detach sequence (or with
it). -/
theorem C16_before_detach_partial (b : Bindings) (buf : List UInt8) (before after : List (List UInt8))
    (c1 c2 : List UInt8) (x : UInt8) (hl : LegalReads buf.length before)
    (hnd : NoDetach Bindings.transition b (before.flatten ++ c1))
    (hx : (((b.run (before.flatten ++ c1)).1).transition x).2 = .match .detach)
    (g : NoSecondByteStarts Bindings.transition (Ideal.start b) (before ++ [c1])) :
    ∃ w lost, runReads Bindings.transition (Thread.start b buf) [] (before ++ (c1 ++ x :: c2) :: after) = .detached w ∧
      w ++ lost = ((Ideal.start b).run Bindings.transition (before.flatten ++ c1)).delivered ∧ lost.Sublist c1 ∧
      (c1.length ≤ (b.track (before.flatten ++ c1)).2.length → lost = []) := by
  obtain ⟨e1, e2⟩ := ideal_track b (before.flatten ++ c1)
  obtain ⟨w, lost, r1, r2, -, r4, r5⟩ := runReads_detached (W := []) (G := True) (id := Ideal.start b)
    (Thread.start b buf) before after c1 c2 x hl rfl rfl (List.Sublist.refl _) (fun _ => rfl) hnd
    (by rw [e1, Keys.track_fst]; exact hx) (fun _ => g)
  exact ⟨w, lost, r1, r4 trivial, r2, by rw [← e2]; exact r5⟩

/-- C16, with nothing but plain input before the detach sequence. If no binding fired before, and the last read starts with the
detach sequence or inside it, then the shell has got every byte sent before the detach sequence. -/
theorem C16_all_delivered_partial (b : Bindings) (buf : List UInt8) (before after : List (List UInt8))
    (c1 c2 : List UInt8) (x : UInt8) (hl : LegalReads buf.length before)
    (hf : NoFire Bindings.transition b (before.flatten ++ c1))
    (hx : (((b.run (before.flatten ++ c1)).1).transition x).2 = .match .detach)
    (hc : c1.length ≤ (b.track (before.flatten ++ c1)).2.length) :
    ∃ w, runReads Bindings.transition (Thread.start b buf) [] (before ++ (c1 ++ x :: c2) :: after) = .detached w ∧
      w ++ (b.track (before.flatten ++ c1)).2 = before.flatten ++ c1 := by
  have hns : NoSecondByteStarts Bindings.transition (Ideal.start b) (before ++ [c1]) := by
    apply NoFire.noSeconds
    simpa [Ideal.start] using hf
  obtain ⟨w, lost, r1, r2, -, r4⟩ := C16_before_detach_partial b buf before after c1 c2 x hl hf.noDetach hx hns
  have h0 := r4 hc
  subst h0
  refine ⟨w, r1, ?_⟩
  have := ideal_noFire (id := Ideal.start b) hf
  rw [(ideal_track b _).2] at this
  rw [List.append_nil] at r2
  rw [r2, this]
  simp [Ideal.start]

example : session Keys.defaultCfg 16 [[108, 115, 10], [0, 17]] = some ([108, 115, 10], true) ∧
    session Keys.defaultCfg 16 [[108, 115, 10, 0], [17]] = some ([108, 115, 10], true) := by decide
example : ∃ b, Bindings.new Keys.defaultCfg = .ok b ∧
    (((b.run ([[108, 115, 10], [0]].flatten ++ [])).1).transition 17).2 = .match .detach := ⟨_, rfl, by decide⟩

/-! ## C17: no panic, no invented bytes -/

/-- C17. For every configuration, every buffer size and every series of reads the thread neither panics nor writes anything but
bytes it has received, in the order received. -/
theorem C17_no_panic (b : Bindings) (buf : List UInt8) (reads : List (List UInt8)) (hl : LegalReads buf.length reads) :
    ∃ w, w.Sublist reads.flatten ∧ w.length ≤ reads.flatten.length ∧
      ((∃ t, runReads Bindings.transition (Thread.start b buf) [] reads = .running t w) ∨
        runReads Bindings.transition (Thread.start b buf) [] reads = .detached w) := by
  obtain ⟨w, h1, h2⟩ := runReads_total (W := []) (id := Ideal.start b) (tr := Bindings.transition) (Thread.start b buf)
    reads hl rfl rfl (List.Sublist.refl _)
  have h1 : w.Sublist reads.flatten := by simpa [Ideal.start] using h1
  exact ⟨w, h1, h1.length_le, h2⟩

/-- A read that fills the buffer to the last byte and ends inside a binding. -/
example : session [("a b".toList, .noOp)] 4 [[97, 98, 120, 97], [98, 97]] = some ([120], false) := by decide

end Shpool.Input
