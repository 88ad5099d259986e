import Verif.S2C.Props
/-!
# C136: full-screen programs are made to redraw when a client comes back
-/

namespace Shpool.S2C

/-- How often the programs of the session are sent SIGWINCH: the kernel does so when the size of a terminal is set to another one
(ioctl_tty(2), `tty_do_resize`). -/
def signals (P : Params) : St → List Label → Nat
  | _, [] => 0
  | s, l :: ls => match step P s l with
    | none => 0
    | some s' => (if s'.pty = s.pty then 0 else 1) + signals P s' ls

/-- Attaching to a session that has had a client. -/
def reattach (id : Nat) (z : TtySize) (cfg : Nat) : Label := .select (.connection (some (.new id z)) true cfg)

/-- The size with a row and a column more. -/
def bigger (z : TtySize) : TtySize := { z with rows := z.rows + 1, cols := z.cols + 1 }

/-- C136: once the terminal has got its size after a client came back, the programs in the session have been told to redraw. -/
def C136_statement : Prop := ∀ (P : Params) (ls : List Label) (s s' : St) (id : Nat) (z : TtySize) (cfg : Nat) (more : List Label),
  Run P ls s → runSteps (step P) s (reattach id z cfg :: more) = some s' → Running s' → s'.resize = none →
  1 ≤ signals P s (reattach id z cfg :: more)

private def z2480 : TtySize := ⟨24, 80, 0, 0⟩
private def z2581 : TtySize := ⟨25, 81, 0, 0⟩
private def plain : Params := ⟨false, false, false, fun _ => [], z2581, .fails⟩

/-- C136 is false: the terminal was one row and one column larger than that of the client that comes back, and this client's window
is made as large within 50 ms.  All sizes that are set are the one the terminal has. -/
theorem C136_false : ¬ C136_statement := by
  intro h
  have := h plain [.initial (some (.new 0 z2581)), .select .default, .settle, .poll .timeout, .select (.connection (some .disconnect) true 0),
      .settle, .poll .timeout] _ _ 1 z2480 0 [.settle, .poll .timeout, .select (.sizeChange (some z2581) 0), .settle] rfl rfl
    (fun e he => by cases he) rfl
  exact absurd this (by decide)

theorem signals_zero {P : Params} : ∀ {ls : List Label} {s s' : St}, runSteps (step P) s ls = some s' → signals P s ls = 0 →
    s'.pty = s.pty := by
  intro ls
  induction ls with
  | nil => intro s s' h _; cases h; rfl
  | cons l ls ih =>
    intro s s' h h0
    obtain ⟨s1, h1, h2⟩ := run_cons_some h
    rw [signals, h1] at h0
    dsimp only at h0
    split at h0
    · rename_i e
      rw [ih h2 (by omega), e]
    · omega

theorem ne_bigger (z : TtySize) : z ≠ bigger z := by
  intro h
  have h : z.rows = z.rows + 1 := congrArg TtySize.rows h
  have h2 := congrArg UInt16.toNat h
  rw [UInt16.toNat_add] at h2
  have := z.rows.toNat_lt
  simp at h2
  omega

/-- What attaching does to the size. -/
theorem reattach_step {P : Params} {s s1 : St} {id cfg : Nat} {z : TtySize} (h : step P s (reattach id z cfg) = some s1) :
    (∃ e, s1.pc = .ended e) ∨ (s1.pty = bigger z ∧ s1.resize = some (z, s.now + 50) ∧ s1.now = s.now) := by
  cases step_eff P s s1 _ h with
  | newFail => exact .inl ⟨_, rfl⟩
  | newPanic => exact .inl ⟨_, rfl⟩
  | newOk => exact .inr ⟨rfl, rfl, rfl⟩

theorem ended_stays {P : Params} {s s' : St} {l : Label} {e : End} (he : s.pc = .ended e) (h : step P s l = some s') :
    s'.pc = .ended e := by
  cases step_eff P s s' l h
  all_goals first
    | exact he
    | (rename_i hpc; rw [he] at hpc; cases hpc)
    | (rename_i hpc _; rw [he] at hpc; cases hpc)
    | (rename_i hpc _ _; rw [he] at hpc; cases hpc)
    | simp_all

/-- The state of things since a client came back, if nobody asked for another size since. -/
structure SinceBack (t0 : Nat) (z : TtySize) (s : St) (n : Nat) : Prop where
  phase : (s.resize = some (z, t0 + 50) ∧ s.pty = bigger z ∧ n = 0) ∨ (s.resize = none ∧ s.pty = z ∧ t0 + 50 ≤ s.now ∧ n = 1)

theorem sinceBack_step {P : Params} {s s' : St} {l : Label} {t0 n : Nat} {z : TtySize} (hI : SinceBack t0 z s n) (hl : request l = none)
    (h : step P s l = some s') : SinceBack t0 z s' (n + if s'.pty = s.pty then 0 else 1) := by
  obtain ⟨hI⟩ := hI
  have keep : ∀ s' : St, s'.resize = s.resize → s'.pty = s.pty → s.now ≤ s'.now →
      SinceBack t0 z s' (n + if s'.pty = s.pty then 0 else 1) := by
    intro s' h1 h2 h3
    rw [if_pos h2]
    refine ⟨?_⟩
    rw [h1, h2]
    rcases hI with ⟨a, b, c⟩ | ⟨a, b, c, d⟩
    · exact .inl ⟨a, b, c⟩
    · exact .inr ⟨a, b, by omega, d⟩
  cases step_eff P s s' l h
  case settleDue r z' due hpc hz hd =>
    rcases hI with ⟨a, b, c⟩ | ⟨a, b, c, d⟩
    · rw [a] at hz
      cases hz
      refine ⟨.inr ⟨rfl, rfl, hd, ?_⟩⟩
      dsimp only
      rw [b, if_neg (ne_bigger z), c]
    · rw [a] at hz
      cases hz
  case initNew => cases hl
  case newOk => cases hl
  case size => cases hl
  case tick ms => exact keep _ rfl rfl (Nat.le_add_right _ _)
  all_goals exact keep _ rfl rfl (Nat.le_refl _)

theorem sinceBack_run {P : Params} {t0 : Nat} {z : TtySize} : ∀ {more : List Label} {s s' : St} {n : Nat}, SinceBack t0 z s n →
    (∀ l ∈ more, request l = none) → runSteps (step P) s more = some s' → SinceBack t0 z s' (n + signals P s more) := by
  intro more
  induction more with
  | nil => intro s s' n h _ hr; cases hr; exact h
  | cons l more ih =>
    intro s s' n h hl hr
    obtain ⟨s1, h1, h2⟩ := run_cons_some hr
    have hA := sinceBack_step h (hl l (by simp)) h1
    have hB := ih hA (fun k hk => hl k (List.mem_cons_of_mem _ hk)) h2
    rw [signals, h1]
    dsimp only
    rw [← Nat.add_assoc]
    exact hB

/-- C136, exactly when it fails: the terminal had just the size that attaching makes it have for a while, and that is the size last
asked for. -/
theorem C136_exact_partial {P : Params} {ls more : List Label} {s s' : St} {id cfg : Nat} {z : TtySize} (h : Run P ls s)
    (hr : runSteps (step P) s (reattach id z cfg :: more) = some s') (hrun : Running s') (hn : s'.resize = none)
    (h0 : signals P s (reattach id z cfg :: more) = 0) :
    s.pty = bigger z ∧ lastRequested (ls ++ reattach id z cfg :: more) = some (bigger z) := by
  obtain ⟨s1, h1, h2⟩ := run_cons_some hr
  have hall := signals_zero hr h0
  rw [signals, h1] at h0
  dsimp only at h0
  split at h0
  case isFalse => omega
  rename_i e1
  rcases reattach_step h1 with ⟨e, he⟩ | ⟨a, -, -⟩
  · refine absurd ?_ (hrun e)
    exact run_inv (I := fun (s : St) => s.pc = .ended e) (fun s l s'' hi hs => ended_stays hi hs) he h2
  · have hrun' : Run P (ls ++ reattach id z cfg :: more) s' := by
      unfold Run
      rw [run_append, show runSteps (step P) (init P) ls = some s from h]
      exact hr
    refine ⟨by rw [← e1, a], ?_⟩
    obtain ⟨z', hz'⟩ : ∃ z', lastRequested (ls ++ reattach id z cfg :: more) = some z' := by
      unfold lastRequested
      rw [List.filterMap_append, List.filterMap_cons]
      simp only [reattach, request]
      rw [List.getLast?_append]
      simp [List.getLast?_eq_some_getLast]
    rw [hz', ← C23_settled P _ s' hrun' hrun hn z' hz', hall, ← e1, a]

/-- C136, proved part: as long as nobody asks for another size, the terminal is a row and a column larger for at least 50 ms and then has
the size of the client; a program is told so both times (the first time only if that is not the size it had). -/
theorem C136_jiggle_partial {P : Params} {more : List Label} {s s' : St} {id cfg : Nat} {z : TtySize}
    (hr : runSteps (step P) s (reattach id z cfg :: more) = some s') (hrun : Running s') (hm : ∀ l ∈ more, request l = none) :
    let first := if s.pty = bigger z then 0 else 1
    (s'.pty = bigger z ∧ s'.resize = some (z, s.now + 50) ∧ signals P s (reattach id z cfg :: more) = first) ∨
    (s'.pty = z ∧ s'.resize = none ∧ s.now + 50 ≤ s'.now ∧ signals P s (reattach id z cfg :: more) = first + 1) := by
  obtain ⟨s1, h1, h2⟩ := run_cons_some hr
  rcases reattach_step h1 with ⟨e, he⟩ | ⟨a, b, c⟩
  · refine absurd ?_ (hrun e)
    exact run_inv (I := fun (s : St) => s.pc = .ended e) (fun s l s'' hi hs => ended_stays hi hs) he h2
  · have hS := sinceBack_run (n := 0) (t0 := s.now) (z := z) ⟨.inl ⟨b, a, rfl⟩⟩ hm h2
    rw [signals, h1]
    dsimp only
    rw [a, show (if bigger z = s.pty then 0 else 1) = (if s.pty = bigger z then 0 else 1) by
      by_cases e : s.pty = bigger z
      · simp [e]
      · simp [e, Ne.symm e]]
    rcases hS.phase with ⟨p, q, r⟩ | ⟨p, q, r, t⟩
    · exact .inl ⟨q, p, by omega⟩
    · exact .inr ⟨q, p, r, by omega⟩

/-- C136, proved part: that happens at the first pass of the loop after 50 ms, so that the programs are told at least once (twice if the
client's terminal is as large as the one before). -/
theorem C136_soon_partial {P : Params} {more : List Label} {s s' : St} {id cfg ms : Nat} {z : TtySize} (hms : 50 ≤ ms)
    (hr : runSteps (step P) s (reattach id z cfg :: more ++ [.tick ms, .settle]) = some s')
    (hm : ∀ l ∈ more, request l = none) :
    s'.pty = z ∧ s'.resize = none ∧ 1 ≤ signals P s (reattach id z cfg :: more ++ [.tick ms, .settle]) ∧
    (s.pty = z → signals P s (reattach id z cfg :: more ++ [.tick ms, .settle]) = 2) := by
  have hm' : ∀ l ∈ more ++ [.tick ms, .settle], request l = none := by
    intro l hl
    rcases List.mem_append.mp hl with h | h
    · exact hm l h
    · simp at h
      rcases h with rfl | rfl <;> rfl
  rw [List.cons_append] at hr ⊢
  obtain ⟨sa, g1, g2⟩ := run_append_some (a := reattach id z cfg :: more) (by simpa using hr)
  obtain ⟨sb, g3, g4⟩ := run_cons_some g2
  obtain ⟨sc, g5, g6⟩ := run_cons_some g4
  cases g6
  have hset : ∃ r, sb.pc = .settle r := by
    simp only [step] at g5
    split at g5
    · rename_i r hpc; exact ⟨r, hpc⟩
    · cases g5
  have hrun : Running s' := by
    obtain ⟨r, hpc⟩ := hset
    intro e he
    cases step_eff P sb s' _ g5 <;> cases he
  have hnow : ∀ (w : List Label) (x y : St), runSteps (step P) x w = some y → x.now ≤ y.now := by
    intro w
    induction w with
    | nil => intro x y h; cases h; exact Nat.le_refl _
    | cons k w ih =>
      intro x y h
      obtain ⟨x1, e1, e2⟩ := run_cons_some h
      refine Nat.le_trans ?_ (ih x1 y e2)
      cases step_eff P x x1 k e1
      case tick => exact Nat.le_add_right _ _
      all_goals exact Nat.le_refl _
  have hlate : s.now + 50 ≤ sb.now := by
    have := hnow _ _ _ g1
    cases g3
    dsimp only
    omega
  have hJ := C136_jiggle_partial hr hrun hm'
  dsimp only at hJ
  rcases hJ with ⟨a, b, -⟩ | ⟨a, b, -, d⟩
  · exfalso
    cases step_eff P sb s' _ g5 with
    | settleLate r hpc hl =>
      have := hl z (s.now + 50) b
      omega
    | settleDue r z' due hpc hz hd => cases b
  · refine ⟨a, b, by omega, fun e => ?_⟩
    rw [d, e, if_neg (ne_bigger z)]

/-- The usual case: a client with a terminal of the same size comes back; two signals. -/
example : ∃ s s', Run plain [.initial (some (.new 0 z2480)), .select .default, .settle, .poll .timeout,
      .select (.connection (some .disconnect) true 0), .settle, .poll .timeout] s ∧ s.pty = z2480 ∧
    runSteps (step plain) s (reattach 1 z2480 0 :: [.settle, .poll .timeout, .select .default] ++ [.tick 50, .settle]) = some s' ∧
    s'.pty = z2480 ∧ signals plain s (reattach 1 z2480 0 :: [.settle, .poll .timeout, .select .default] ++ [.tick 50, .settle]) = 2 :=
  ⟨_, _, rfl, rfl, rfl, rfl, by decide⟩

end Shpool.S2C
