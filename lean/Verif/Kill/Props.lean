import Verif.Kill.Model
import Verif.Util.Lts
/-!
# Killing a shell (C66, C77)
-/

namespace Shpool.Kill

/-- **C66**: the first signal is always the hangup, and it is sent exactly once. -/
theorem C66_polite_first (e : Env) : (sessionKill e).1.head? = some .hup ∧ (sessionKill e).1.count .hup = 1 := by
  simp only [sessionKill]
  cases e.hup <;> simp
  cases e.exited <;> simp
  cases e.kill <;> simp

/-- **C66**: the kill signal is sent exactly when the hangup was delivered and the shell did not exit within the grace period
— never before the grace period. -/
theorem C66_escalates_iff (e : Env) :
    .kill ∈ (sessionKill e).1 ↔ (e.hup = .ok ∧ e.exited = false) := by
  simp only [sessionKill]
  cases e.hup <;> simp
  cases e.exited <;> simp
  cases e.kill <;> simp

/-- **C66**: and only after waiting. -/
theorem C66_waits_before_kill (e : Env) (h : .kill ∈ (sessionKill e).1) : (sessionKill e).2.1 = true := by
  have ⟨h1, h2⟩ := (C66_escalates_iff e).1 h
  simp only [sessionKill, h1, h2]
  cases e.kill <;> rfl

/-- **C66**: the result is an error exactly when a signal that was due could not be sent for another reason than the process
being gone, and the error names that signal. -/
theorem C66_errors (e : Env) (s : Signal) (n : Nat) :
    (sessionKill e).2.2 = .err s n ↔
      (s = .hup ∧ e.hup = .failed n) ∨ (s = .kill ∧ e.hup = .ok ∧ e.exited = false ∧ e.kill = .failed n) := by
  simp only [sessionKill]
  cases hh : e.hup <;> simp
  · cases hx : e.exited <;> simp
    cases hk : e.kill <;> simp
    intro _; exact eq_comm
  · intro _; exact eq_comm

/-- **C66**: success means the shell is on its way out: it was already gone, it exited in the grace period, or the kill signal
was delivered (or found it gone). -/
theorem C66_success (e : Env) (h : (sessionKill e).2.2 = .ok) :
    e.hup = .esrch ∨ (e.hup = .ok ∧ e.exited = true) ∨ (.kill ∈ (sessionKill e).1 ∧ (e.kill = .ok ∨ e.kill = .esrch)) := by
  revert h
  simp only [sessionKill]
  cases e.hup <;> simp
  cases e.exited <;> simp
  cases e.kill <;> simp

example : sessionKill ⟨.ok, false, .ok⟩ = ([.hup, .kill], true, .ok) := rfl
example : sessionKill ⟨.ok, false, .failed 1⟩ = ([.hup, .kill], true, .err .kill 1) := rfl

private theorem pagerLoop_bound (ex : Nat → Bool) : ∀ n k ms, (pagerLoop ex n k ms).2 + ms ≤ ms * 2 ^ n := by
  intro n
  induction n with
  | zero => intro k ms; simp [pagerLoop]
  | succ n ih =>
    intro k ms
    simp only [pagerLoop]
    split
    · simp; exact Nat.le_mul_of_pos_right _ (Nat.two_pow_pos _)
    · have := ih (k + 1) (ms * 2)
      have e : ms * 2 ^ (n + 1) = ms * 2 * 2 ^ n := by rw [Nat.pow_succ, Nat.mul_assoc, Nat.mul_comm 2]
      simp only
      omega

private theorem pagerLoop_none (ex : Nat → Bool) : ∀ n k ms, (pagerLoop ex n k ms).1 = none ↔ ∀ i, i < n → ex (k + i) = false := by
  intro n
  induction n with
  | zero => intro k ms; simp [pagerLoop]
  | succ n ih =>
    intro k ms
    simp only [pagerLoop]
    by_cases hx : ex k = true
    · simp only [hx, if_true]
      refine ⟨(fun h => by cases h), fun h => ?_⟩
      have := h 0 (by omega); simp [hx] at this
    · simp only [hx, if_false, Bool.false_eq_true]
      rw [ih]
      constructor
      · intro h i hi
        cases i with
        | zero => simpa using hx
        | succ i => have := h i (by omega); rw [← this]; congr 1; omega
      · intro h i hi
        have := h (i + 1) (by omega); rw [← this]; congr 1; omega

/-- **C66** (the pager): a pager left behind is asked to terminate, and killed exactly when it has not exited in any of the
seven looks over at most 1270 milliseconds; a pager that had exited is left alone. -/
theorem C66_pager (ex : Nat → Bool) :
    (ex 0 = true → pagerDrop ex true = ([], 0)) ∧
    (ex 0 = false → (pagerDrop ex true).1.head? = some .term ∧
      (.kill ∈ (pagerDrop ex true).1 ↔ ∀ i, i < 7 → ex (1 + i) = false)) ∧
    (pagerDrop ex true).2 ≤ 1270 := by
  have hb := pagerLoop_bound ex 7 1 10
  have hn := pagerLoop_none ex 7 1 10
  refine ⟨fun h => by simp [pagerDrop, h], fun h => ?_, ?_⟩
  · simp only [pagerDrop, h, Bool.false_eq_true, if_false]
    rcases hp : pagerLoop ex 7 1 10 with ⟨r, t⟩
    rw [hp] at hn
    cases r with
    | none => simp only [true_iff, reduceCtorEq, if_false] at hn ⊢; simp; exact hn
    | some k => simp only [reduceCtorEq, false_iff, if_false] at hn ⊢; simp; simpa using hn
  · simp only [pagerDrop]
    split
    · simp
    · simp only [Bool.true_eq_false, if_false]
      rcases hp : pagerLoop ex 7 1 10 with ⟨r, t⟩
      rw [hp] at hb
      cases r <;> simp only at hb ⊢ <;> omega

/-! ## C77 -/

def Run (ls : List Label) (w : World) : Prop := runSteps step init ls = some w

/-- The full property: a signal sent on behalf of a session only ever hits the shell of that session. -/
def C77_statement : Prop := ∀ ls w, Run ls w → ∀ n p, (n, p) ∈ w.signalled → ∃ alive, p = .shell n alive

/-- **C77 (defect)**: the shell of a detached session exits and is reaped, the session stays in the table, its process number is
given to another program, and `shpool kill` hangs up that program. -/
theorem C77_false : ¬ C77_statement := by
  intro h
  have hr : Run [.create 0 7, .shellExits 7, .reap 7, .otherStarts 7, .kill 0]
      { procs := _, sessions := _, signalled := _ } := rfl
  obtain ⟨a, ha⟩ := h _ _ hr 0 (.other true) (by decide)
  cases ha

/-- A session in the table whose number in the process table still is its shell's. -/
private def Fresh (w : World) : Prop :=
  ∀ n pid, (n, pid) ∈ w.sessions → ∃ a, w.procs pid = some (.shell n a)

private def SigOk (w : World) : Prop := ∀ n p, (n, p) ∈ w.signalled → ∃ alive, p = .shell n alive

private theorem lookup_mem {l : List (Nat × Nat)} {n pid : Nat} (h : l.lookup n = some pid) : (n, pid) ∈ l := by
  induction l with
  | nil => simp at h
  | cons x xs ih =>
    obtain ⟨a, b⟩ := x
    simp only [List.lookup_cons] at h
    split at h
    · rename_i he; cases h; simp only [beq_iff_eq] at he; subst he; simp
    · exact List.mem_cons_of_mem _ (ih h)

/-- **C77 (part)**: as long as the shell of a session in the table has not been reaped (the daemon still has its exit status to
collect), a kill hits the session's own shell.  Missing: a session that stays in the table after its shell was reaped. -/
theorem C77_own_shell_partial {w w' : World} {n pid : Nat} {a : Bool} (hs : w.sessions.lookup n = some pid)
    (hp : w.procs pid = some (.shell n a)) (h : step w (.kill n) = some w') :
    w'.signalled = w.signalled ++ [(n, .shell n a)] := by
  simp only [step, hs, hp] at h
  cases h; rfl

/-- **C77 (part)**: in every history in which no shell is reaped while its session is in the table, every signal hits the
right shell. -/
theorem C77_no_reap_partial {ls : List Label} {w : World} (h : Run ls w) (hn : ∀ pid, .reap pid ∉ ls) :
    ∀ n p, (n, p) ∈ w.signalled → ∃ alive, p = .shell n alive := by
  let I : List Label → World → Prop := fun ls w => (∀ pid, .reap pid ∉ ls) → Fresh w ∧ SigOk w
  have hI : I ls w := by
    refine run_hist (I := I) (fun ls w l w' hI h => ?_) (fun _ => ⟨by simp [Fresh, init], by simp [SigOk, init]⟩) h
    intro hn
    obtain ⟨hF, hS⟩ := hI (fun pid hm => hn pid (by simp [hm]))
    cases l with
    | create n pid =>
      simp only [step] at h
      split at h
      · rename_i hc
        cases h
        refine ⟨fun m q hm => ?_, hS⟩
        simp only [List.mem_append, List.mem_singleton, Prod.mk.injEq] at hm
        rcases hm with hm | ⟨rfl, rfl⟩
        · obtain ⟨a, ha⟩ := hF m q hm
          have : q ≠ pid := fun e => by subst e; rw [hc.1] at ha; cases ha
          exact ⟨a, by simp [setProc, this, ha]⟩
        · exact ⟨true, by simp [setProc]⟩
      · cases h
    | shellExits pid =>
      simp only [step] at h
      split at h
      · rename_i k hc
        cases h
        refine ⟨fun m q hm => ?_, hS⟩
        obtain ⟨a, ha⟩ := hF m q hm
        by_cases hq : q = pid
        · subst hq
          rw [hc] at ha; cases ha
          exact ⟨false, by simp [setProc]⟩
        · exact ⟨a, by simp [setProc, hq, ha]⟩
      · cases h
    | reap pid => exact absurd (by simp) (hn pid)
    | otherStarts pid =>
      simp only [step] at h
      split at h
      · rename_i hc
        cases h
        refine ⟨fun m q hm => ?_, hS⟩
        obtain ⟨a, ha⟩ := hF m q hm
        have : q ≠ pid := fun e => by subst e; rw [hc] at ha; cases ha
        exact ⟨a, by simp [setProc, this, ha]⟩
      · cases h
    | kill n =>
      simp only [step] at h
      split at h
      · cases h
      · rename_i pid hl
        split at h
        · cases h; exact ⟨hF, hS⟩
        · rename_i p hp
          cases h
          refine ⟨hF, fun m q hm => ?_⟩
          simp only [List.mem_append, List.mem_singleton, Prod.mk.injEq] at hm
          rcases hm with hm | ⟨rfl, rfl⟩
          · exact hS m q hm
          · obtain ⟨a, ha⟩ := hF _ _ (lookup_mem hl)
            rw [hp] at ha; cases ha
            exact ⟨a, rfl⟩
    | remove n =>
      simp only [step] at h
      cases h
      exact ⟨fun m q hm => hF m q (List.mem_filter.1 hm).1, hS⟩
  exact (hI hn).2

/-- **C77**: a session leaving the table takes no other session with it: each of the others is still signalled at its own
process. -/
theorem C77_remove {w w' : World} {n : Nat} (h : step w (.remove n) = some w') (m : Nat) :
    w'.sessions.lookup m = if m = n then none else w.sessions.lookup m := by
  simp only [step, Option.some.injEq] at h
  subst h
  simp only
  induction w.sessions with
  | nil => simp
  | cons x xs ih =>
    obtain ⟨a, b⟩ := x
    by_cases ha : a = n
    · subst ha
      rw [List.filter_cons_of_neg (by simp), ih, List.lookup_cons]
      by_cases hm : m = a
      · simp [hm]
      · have : (m == a) = false := by simpa using hm
        simp [hm, this]
    · rw [List.filter_cons_of_pos (by simpa using ha), List.lookup_cons, List.lookup_cons, ih]
      by_cases hm : m = a
      · subst hm; simp [ha]
      · have : (m == a) = false := by simpa using hm
        simp [this]

example : ∃ w, Run [.create 0 7, .create 1 8, .shellExits 7, .kill 1, .kill 0] w ∧
    w.signalled = [(1, .shell 1 true), (0, .shell 0 false)] := ⟨_, rfl, rfl⟩

end Shpool.Kill
