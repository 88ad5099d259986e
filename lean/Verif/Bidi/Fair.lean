import Verif.Bidi.Progress
import Verif.Util.Fair

/-! # The request of a client that is gone ends in every fair execution -/

namespace Shpool.Bidi

/-- Steps of the thread that serves the request, other than taking the mutex. -/
def mainGoes : Label → Bool
  | .mainPolls | .mainLooks | .mainJoins => true
  | _ => false

/-- Steps of the client-to-shell thread, other than taking the mutex. -/
def c2sGoes : Label → Bool
  | .c2sCompiles _ | .c2sChecks | .c2sReads _ | .c2sEof | .c2sReadFails | .c2sWriteFails => true
  | _ => false

/-- The heartbeat thread looks whether it is to stop. -/
def hbGoes : Label → Bool
  | .hbPolls => true
  | _ => false

/-- Steps of the thread that awaits the exit of the shell. -/
def supGoes : Label → Bool
  | .supChecks | .supSees | .supTimeout => true
  | _ => false

/-- A wait for the shell-to-client thread times out. -/
def timesOut : Label → Bool
  | .sendTimeout | .ackTimeout => true
  | _ => false

/-- The shell, or another program on the terminal, reads. -/
def shellReads : Label → Bool
  | .ptyTakes => true
  | _ => false

/-- The threads run, waits with a time limit end, and a thread that finds the mutex free again and again gets it. -/
structure Fair (σ : Nat → St) (lab : Nat → Option Label) : Prop where
  main : WeakFair step σ lab mainGoes
  c2s : WeakFair step σ lab c2sGoes
  hb : WeakFair step σ lab hbGoes
  sup : WeakFair step σ lab supGoes
  limits : WeakFair step σ lab timesOut
  mainLock : StrongFair step σ lab (· = .mainLock)
  c2sLock : StrongFair step σ lab (· = .c2sLock)
  hbLock : StrongFair step σ lab (· = .hbLock)

/-- Steps of the request's own threads. -/
def own : Label → Bool
  | .mainLock | .mainPolls | .mainLooks | .mainJoins | .c2sCompiles _ | .c2sChecks | .c2sReads _ | .c2sEof | .c2sReadFails
  | .c2sWriteFails | .c2sLock | .hbPolls | .hbWakes | .hbLock | .supChecks | .supSees | .supTimeout | .ptyTakes => true
  | _ => false

/-- 0 if `w` has the mutex. -/
def hold (w : Who) : Option (Who × Msg × Bool) → Nat
  | some (w', _, _) => if w' = w then 0 else 1
  | none => 1

/-- When the threads have been told to stop, the heartbeat thread goes through these in this order. -/
def Hb.left : Hb → Nat
  | .sleeping => 3
  | .beating => 2
  | .rest => 1
  | _ => 0

/-- How far the request is from its end once its threads have been told to stop. -/
def left (s : St) : Nat := 2 * s.main.rank + hold .main s.ctl + 2 * s.c2s.rank s.inq.length + hold .c2s s.ctl + 2 * s.hb.left +
  hold .hb s.ctl + s.sup.rank

theorem left_finish {s : St} {w : Who} {m : Msg} {b : Bool} (o : Out) (hI : Inv s) (hc : s.ctl = some (w, m, b))
    (h1 : s.main ≠ .connecting) (h2 : s.main ≠ .poll) : left (s.finish w o) < left s ∨
    ((s.finish w o).main = s.main ∧ (s.finish w o).c2s = s.c2s ∧ (s.finish w o).hb = s.hb ∧ (s.finish w o).sup = s.sup ∧ (s.finish w o).inq = s.inq
      ∧ left (s.finish w o) = left s) := by
  have hm := hI.ctlm
  have hh := hI.ctlh
  have hcc := hI.ctlc
  clear hI
  unfold St.finish
  dsimp only
  repeat' split
  all_goals grind [left, hold, Main.rank, C2s.rank, Hb.left, Sup.rank]

/-- The step `l` from `s` to `s'` brings the request nearer to its end, or it is not one of its threads' and leaves them as they are. -/
structure Down (s : St) (l : Label) (s' : St) : Prop where
  le : left s' < left s ∨ (left s' = left s ∧ own l = false ∧ s'.main = s.main ∧ s'.c2s = s.c2s ∧ s'.hb = s.hb ∧ s'.sup = s.sup ∧
    s'.inq = s.inq)

theorem down_same {s : St} {l : Label} {s' : St} (hl : own l = false) (h1 : s'.main = s.main) (h2 : s'.c2s = s.c2s) (h3 : s'.hb = s.hb)
    (h4 : s'.sup = s.sup) (h5 : s'.inq = s.inq) (h6 : s'.ctl = s.ctl) : Down s l s' :=
  ⟨.inr ⟨by simp only [left, h1, h2, h3, h4, h5, h6], hl, h1, h2, h3, h4, h5⟩⟩

theorem down_finish {s : St} {x : S2c} {w : Who} {m : Msg} {b : Bool} {l : Label} {o : Out} (hI : Inv s) (hc : s.ctl = some (w, m, b))
    (h1 : s.main ≠ .connecting) (h2 : s.main ≠ .poll) (hl : own l = false) : Down s l ({ s with s2c := x }.finish w o) := by
  rcases left_finish o (inv_s2c x hI) hc h1 h2 with g | ⟨g1, g2, g3, g4, g5, g6⟩
  · exact ⟨.inl g⟩
  · exact ⟨.inr ⟨g6, hl, g1, g2, g3, g4, g5⟩⟩

/-- Once the threads have been told to stop, every step of one of them brings the request nearer to its end, and nothing else takes it
away from it. -/
theorem left_step {s : St} {l : Label} {s' : St} (hI : Inv s) (hcl : s.closed = true) (h1 : s.main ≠ .connecting) (h2 : s.main ≠ .poll)
    (h : step s l = some s') : Down s l s' := by
  have hlater := hI.later h1 h2
  have hoffc := hI.offc
  have hoffh := hI.offh
  have hoffs := hI.offs
  have hm := hI.ctlm
  have hh := hI.ctlh
  have hcc := hI.ctlc
  cases l
  case ack | sendTimeout | ackTimeout | noticeGone =>
    simp only [step] at h
    repeat' split at h
    all_goals (try cases h)
    all_goals exact down_finish (x := _) hI (by assumption) h1 h2 rfl
  case s2cWorks =>
    simp only [step] at h
    split at h <;> cases h
    rw [perform_frame]
    exact down_same rfl rfl rfl rfl rfl rfl rfl
  case hangup =>
    simp only [step] at h
    repeat' split at h
    all_goals (try cases h)
    · rw [tell_frame]; exact down_same rfl rfl rfl rfl rfl rfl rfl
    · exact down_same rfl rfl rfl rfl rfl rfl rfl
  case clientSends | clientCloses | shellExits | ptyCloses | dropConn | hangupAlone | s2cFails =>
    simp only [step] at h
    repeat' split at h
    all_goals (try cases h)
    all_goals first | exact down_same rfl rfl rfl rfl rfl rfl rfl | contradiction
  case extAsks t =>
    simp only [step] at h
    split at h <;> cases h
    have : s.ctl = none := by simpa using ‹s.ctl.isNone = true›
    exact ⟨.inr ⟨by simp [left, hold, this], rfl, rfl, rfl, rfl, rfl, rfl⟩⟩
  all_goals
    clear hI
    simp only [step] at h
    repeat' split at h
    all_goals (try cases h)
    all_goals constructor
    all_goals grind [left, hold, Main.rank, C2s.rank, Hb.left, Sup.rank, own]

theorem hung_step {s : St} {l : Label} {s' : St} (hc : s.hung = true) (h : step s l = some s') : s'.hung = true := by
  have hf : ∀ (s : St) w o, (s.finish w o).hung = s.hung := by
    intro s w o; unfold St.finish; dsimp only; (repeat' split) <;> rfl
  step_cases
  all_goals first
    | exact hc
    | (rw [hf]; exact hc)
    | (rw [perform_frame]; exact hc)
    | (rw [tell_frame]; exact hc)
    | rfl

theorem quiet_step {s : St} {l : Label} {s' : St} (hc : s.closed = true) (hq : Quiet s) (h : step s l = some s') : Quiet s' := by
  have hf : ∀ (s : St) w o, Quiet s → Quiet (s.finish w o) := by
    intro s w o ⟨h1, h2⟩; unfold St.finish; dsimp only; (repeat' split) <;> exact ⟨h1, by grind⟩
  obtain ⟨h1, h2⟩ := hq
  step_cases
  all_goals first
    | exact ⟨h1, h2⟩
    | exact hf _ _ _ ⟨h1, h2⟩
    | (rw [perform_frame]; exact ⟨h1, h2⟩)
    | (rw [tell_frame]; exact ⟨h1, h2⟩)
    | (simp_all [Quiet]; done)
    | (constructor <;> grind)

/-- How far the request is from its threads being told to stop, when the client has gone. -/
def leftA (s : St) : Nat := if s.main = .poll then 2 * s.c2s.rank s.inq.length + hold .c2s s.ctl + 1 else 0

/-- The request goes nearer to its threads being told to stop, or the client-to-shell thread does nothing. -/
structure DownA (s : St) (l : Label) (s' : St) : Prop where
  le : leftA s' < leftA s ∨ (leftA s' = leftA s ∧ c2sGoes l = false ∧ l ≠ .c2sLock ∧ l ≠ .ptyTakes ∧ s'.main = s.main ∧
    s'.c2s = s.c2s ∧ s'.inq = s.inq ∧ (mainGoes l = true → s.over = false))
  next : s'.main = .poll ∨ s'.main = .stopping

theorem downA_same {s : St} {l : Label} {s' : St} (h : s.main = .poll) (hl : c2sGoes l = false ∧ l ≠ .c2sLock ∧ l ≠ .ptyTakes ∧ mainGoes l = false)
    (h1 : s'.main = s.main) (h2 : s'.c2s = s.c2s) (h5 : s'.inq = s.inq) (h6 : hold .c2s s'.ctl = hold .c2s s.ctl) : DownA s l s' :=
  ⟨.inr ⟨by simp only [leftA, h1, h2, h5, h6], hl.1, hl.2.1, hl.2.2.1, h1, h2, h5, fun h => by rw [hl.2.2.2] at h; cases h⟩, by rw [h1]; exact .inl h⟩

theorem downA_finish {s : St} {x : S2c} {w : Who} {m : Msg} {b : Bool} {l : Label} {o : Out} (hI : Inv s) (hc : s.ctl = some (w, m, b))
    (h : s.main = .poll) (hl : c2sGoes l = false ∧ l ≠ .c2sLock ∧ l ≠ .ptyTakes ∧ mainGoes l = false) :
    DownA s l ({ s with s2c := x }.finish w o) := by
  have hm := hI.ctlm
  have hcc := hI.ctlc
  clear hI
  cases w with
  | main => rcases hm _ _ hc with ⟨h', _⟩ | ⟨h', _⟩ | ⟨h', _⟩ <;> rw [h] at h' <;> cases h'
  | c2s =>
    refine ⟨.inl ?_, .inl ?_⟩
    · unfold St.finish
      dsimp only
      repeat' split
      all_goals grind [leftA, hold, C2s.rank]
    · unfold St.finish
      dsimp only
      repeat' split
      all_goals exact h
  | hb =>
    unfold St.finish
    dsimp only
    repeat' split
    all_goals exact downA_same h hl rfl rfl rfl (by simp [hold, hc])
  | ext t => exact downA_same h hl rfl rfl rfl (by simp [hold, hc, St.finish])

theorem leftA_step {s : St} {l : Label} {s' : St} (hI : Inv s) (hcl : s.closed = true) (hp : s.main = .poll)
    (h : step s l = some s') : DownA s l s' := by
  cases l
  case ack | sendTimeout | ackTimeout | noticeGone =>
    simp only [step] at h
    repeat' split at h
    all_goals (try cases h)
    all_goals exact downA_finish (x := _) hI (by assumption) hp ⟨rfl, nofun, nofun, rfl⟩
  case s2cWorks =>
    simp only [step] at h
    split at h <;> cases h
    rw [perform_frame]
    exact downA_same hp ⟨rfl, nofun, nofun, rfl⟩ rfl rfl rfl rfl
  case hangup =>
    simp only [step] at h
    repeat' split at h
    all_goals (try cases h)
    · rw [tell_frame]; exact downA_same hp ⟨rfl, nofun, nofun, rfl⟩ rfl rfl rfl rfl
    · exact downA_same hp ⟨rfl, nofun, nofun, rfl⟩ rfl rfl rfl rfl
  case clientSends | clientCloses | shellExits | ptyCloses | dropConn | hangupAlone | s2cFails | hbPolls | hbWakes | supChecks | supSees
      | supTimeout =>
    simp only [step] at h
    repeat' split at h
    all_goals (try cases h)
    all_goals first | exact downA_same hp ⟨rfl, nofun, nofun, rfl⟩ rfl rfl rfl rfl | contradiction
  case extAsks t =>
    simp only [step] at h
    split at h <;> cases h
    have : s.ctl = none := by simpa using ‹s.ctl.isNone = true›
    exact downA_same hp ⟨rfl, nofun, nofun, rfl⟩ rfl rfl rfl (by simp [hold, this])
  case hbLock =>
    simp only [step] at h
    split at h <;> cases h
    exact downA_same hp ⟨rfl, nofun, nofun, rfl⟩ rfl rfl rfl (by simp_all [hold])
  case meet =>
    simp only [step] at h
    split at h <;> cases h
    exact downA_same hp ⟨rfl, nofun, nofun, rfl⟩ rfl rfl rfl (by simp_all [hold])
  case mainLock => simp [step, hp] at h
  case mainLooks => simp [step, hp] at h
  case mainJoins => simp [step, hp] at h
  case mainPolls =>
    simp only [step, hp, if_true] at h
    split at h <;> cases h
    · exact ⟨.inl (by simp [leftA, hp]), .inr rfl⟩
    · exact ⟨.inr ⟨rfl, rfl, nofun, nofun, rfl, rfl, rfl, fun _ => by simp_all⟩, .inl hp⟩
  all_goals
    clear hI
    simp only [step] at h
    repeat' split at h
    all_goals (try cases h)
    all_goals exact ⟨.inl (by grind [leftA, hold, C2s.rank]), .inl hp⟩

/-- A request whose client is not yet connected keeps the mutex until it is, or has failed. -/
theorem hold_step {s : St} {l : Label} {s' : St} (hI : Inv s) (h1 : s.main = .connecting) (h2 : s'.main = .connecting)
    (hp : hold .main s.ctl = 0) (h : step s l = some s') : hold .main s'.ctl = 0 := by
  obtain ⟨m, b, hc⟩ : ∃ m b, s.ctl = some (.main, m, b) := by
    revert hp
    cases s.ctl with
    | none => simp [hold]
    | some x => obtain ⟨w, m, b⟩ := x; simp only [hold]; split <;> simp_all
  have hf : ∀ x o, ({ s with s2c := x }.finish .main o).main ≠ .connecting := by
    intro x o; unfold St.finish; simp only [h1]; cases o <;> nofun
  clear hI
  cases l <;> simp only [step, h1, hc] at h <;> (repeat' split at h) <;> (try cases h) <;>
    (try (simp only [Option.some.injEq] at h; subst h)) <;>
    (try (rename_i heq _; simp only [Option.some.injEq, Prod.mk.injEq] at heq; obtain ⟨rfl, _⟩ := heq)) <;>
    (try (rename_i heq _ _; simp only [Option.some.injEq, Prod.mk.injEq] at heq; obtain ⟨rfl, _⟩ := heq)) <;> first
    | exact hp
    | exact absurd h2 (hf s.s2c _)
    | exact absurd h2 (hf _ _)
    | (rw [perform_frame]; exact hp)
    | (rw [tell_frame]; exact hp)
    | grind [hold]

theorem past_step {s : St} {l : Label} {s' : St} (hp : s.main ≠ .connecting ∧ s.main ≠ .poll) (h : step s l = some s') :
    s'.main ≠ .connecting ∧ s'.main ≠ .poll := by
  have hf : ∀ (s : St) w o, s.main ≠ .connecting ∧ s.main ≠ .poll → (s.finish w o).main ≠ .connecting ∧ (s.finish w o).main ≠ .poll := by
    intro s w o hp; unfold St.finish; dsimp only; (repeat' split) <;> grind
  step_cases
  all_goals first
    | exact hp
    | exact hf _ _ _ hp
    | (rw [perform_frame]; exact hp)
    | (rw [tell_frame]; exact hp)
    | grind

theorem returned_step {s : St} {l : Label} {s' : St} {r : Option Bool} (hI : Inv s) (hp : s.main = .returned r)
    (h : step s l = some s') : s'.main = .returned r := by
  have hm := hI.ctlm
  have hf : ∀ (x : S2c) w m b o, s.ctl = some (w, m, b) → ({ s with s2c := x }.finish w o).main = .returned r := by
    intro x w m b o hc; unfold St.finish; dsimp only; (repeat' split) <;> grind
  clear hI
  step_cases
  all_goals first
    | exact hp
    | exact hf s.s2c _ _ _ _ (by assumption)
    | exact hf _ _ _ _ _ (by assumption)
    | (rw [perform_frame]; exact hp)
    | (rw [tell_frame]; exact hp)
    | grind

section Fairness

variable {σ : Nat → St} {lab : Nat → Option Label}

/-- The mutex is free again and again. -/
theorem free_often (hx : Exec step σ lab) (hw : WeakFair step σ lab timesOut) (hT : ∀ i, Timed (σ i)) (n : Nat) :
    ∃ i, n ≤ i ∧ (σ i).ctl = none := by
  refine Classical.byContradiction fun hno => ?_
  have hs : ∀ i, n ≤ i → (σ i).ctl ≠ none := fun i hi h => hno ⟨i, hi, h⟩
  have hcan : ∀ i, n ≤ i → Can step timesOut (σ i) := by
    intro i hi
    cases hc : (σ i).ctl with
    | none => exact absurd hc (hs i hi)
    | some x =>
      obtain ⟨w, m, b⟩ := x
      have ht : w.timed = true := by
        have := (hT i).ext m b
        cases w <;> grind [Who.timed]
      cases b with
      | false => exact ⟨.sendTimeout, rfl, by simp [step, hc, ht]⟩
      | true => exact ⟨.ackTimeout, rfl, by simp [step, hc, ht]⟩
  obtain ⟨i, l, hi, hl, ha⟩ := hw ⟨n, hcan⟩ n
  rcases hx i with ⟨h1, _⟩ | ⟨l', h1, h2⟩
  · rw [h1] at hl; cases hl
  rw [hl] at h1
  cases h1
  refine hs (i + 1) (by omega) ?_
  have hf : ∀ (s : St) w o, (s.finish w o).ctl = none := by
    intro s w o; unfold St.finish; dsimp only; (repeat' split) <;> rfl
  cases l <;> first | (simp [timesOut] at ha; done) | skip
  all_goals
    simp only [step] at h2
    repeat' split at h2
    all_goals (try cases h2)
    all_goals (simp only [Option.some.injEq] at h2; rw [← h2]; exact hf ..)

/-- What is performed at an instant is possible at it. -/
theorem exec_at (hx : Exec step σ lab) {i : Nat} {l : Label} (hl : lab i = some l) : step (σ i) l = some (σ (i + 1)) := by
  rcases hx i with ⟨h1, _⟩ | ⟨l', h1, h2⟩
  · rw [h1] at hl; cases hl
  · rw [hl] at h1; cases h1; exact h2

/-- The client-to-shell thread of a client that is gone does not rest. -/
theorem c2s_goes (hx : Exec step σ lab) (hf : Fair σ lab) (hT : ∀ i, Timed (σ i)) {n : Nat} {c : C2s} {q : List Nat}
    (hr : WeakFair step σ lab shellReads ∨ ∀ x, c ≠ .writing x)
    (hc : ∀ i, n ≤ i → (σ i).c2s = c ∧ (σ i).inq = q ∧ (σ i).closed = true) (h1 : c ≠ .off) (h2 : ∀ e, c ≠ .done e)
    (hno : ∀ i l, n ≤ i → lab i = some l → c2sGoes l = false ∧ l ≠ .c2sLock ∧ l ≠ .ptyTakes) : False := by
  have weak : ∀ k, n ≤ k → (∀ i, k ≤ i → Can step c2sGoes (σ i)) → False := by
    intro k hk h
    obtain ⟨i, l, hi, hl, ha⟩ := hf.c2s ⟨k, h⟩ k
    rw [(hno i l (by omega) hl).1] at ha
    cases ha
  cases c with
  | off => exact h1 rfl
  | done e => exact h2 e rfl
  | start =>
    exact weak n (Nat.le_refl _) fun i hi => ⟨.c2sCompiles true, rfl, by simp [step, (hc i hi).1]⟩
  | top =>
    exact weak n (Nat.le_refl _) fun i hi => ⟨.c2sChecks, rfl, by simp [step, (hc i hi).1]⟩
  | reading =>
    refine weak n (Nat.le_refl _) fun i hi => ?_
    obtain ⟨e1, e2, e3⟩ := hc i hi
    cases q with
    | nil => exact ⟨.c2sEof, rfl, by simp [step, e1, e2, e3]⟩
    | cons x q => exact ⟨.c2sReads false, rfl, by simp [step, e1, e2]⟩
  | writing x =>
    by_cases hh : ∃ k, n ≤ k ∧ (σ k).hung = true
    · obtain ⟨k, hk, hh⟩ := hh
      have hh' : ∀ i, k ≤ i → (σ i).hung = true := by
        refine exec_stays hx (p := fun s => s.hung = true) (fun i l _ _ hp h => ?_) hh
        exact hung_step hp h
      exact weak k hk fun i hi => ⟨.c2sWriteFails, rfl, by simp [step, (hc i (by omega)).1, hh' i hi]⟩
    · have hh' : ∀ i, n ≤ i → (σ i).hung = false := fun i hi => by
        cases h : (σ i).hung with
        | false => rfl
        | true => exact absurd ⟨i, hi, h⟩ hh
      rcases hr with hr | hr
      · obtain ⟨i, l, hi, hl, ha⟩ := hr ⟨n, fun i hi => ⟨.ptyTakes, rfl, by simp [step, (hc i hi).1, hh' i hi]⟩⟩ n
        refine (hno i l hi hl).2.2 ?_
        cases l <;> simp_all [shellReads]
      · exact hr x rfl
  | detaching =>
    obtain ⟨i, l, hi, hl, ha⟩ := hf.c2sLock (fun k => by
      obtain ⟨i, hi, he⟩ := free_often hx hf.limits hT (max k n)
      exact ⟨i, by omega, .c2sLock, by simp, by simp [step, (hc i (by omega)).1, he]⟩) n
    exact (hno i l hi hl).2.1 (by simpa using ha)

/-- A request that waits for its client to be connected does not wait for ever. -/
theorem connects (hx : Exec step σ lab) (hf : Fair σ lab) (hI : ∀ i, Inv (σ i)) (hT : ∀ i, Timed (σ i)) (m : Nat) :
    ∃ i, m ≤ i ∧ (σ i).main ≠ .connecting := by
  refine Classical.byContradiction fun hno => ?_
  have hs : ∀ i, m ≤ i → (σ i).main = .connecting := fun i hi =>
    Classical.byContradiction fun h => hno ⟨i, hi, h⟩
  obtain ⟨i, l, hi, hl, ha⟩ := hf.mainLock (fun k => by
    obtain ⟨i, hi, he⟩ := free_often hx hf.limits hT (max k m)
    exact ⟨i, by omega, .mainLock, by simp, by simp [step, hs i (by omega), he]⟩) m
  have hl' : l = .mainLock := by simpa using ha
  subst hl'
  have h2 := exec_at hx hl
  have hcm : hold .main (σ (i + 1)).ctl = 0 := by
    simp only [step, hs i hi] at h2
    split at h2
    · rw [← Option.some.inj h2]; simp [hold]
    · simp_all
    · cases h2
  have stays := exec_stays hx (m := i + 1) (p := fun s => hold .main s.ctl = 0) (fun j l hj hl hp h => by
    have hj1 := hs j (by omega)
    have hj2 := hs (j + 1) (by omega)
    exact hold_step (hI j) hj1 hj2 hp h) hcm
  obtain ⟨j, hj, he⟩ := free_often hx hf.limits hT (i + 1)
  have := stays j hj
  rw [he] at this
  cases this

/-- The threads of a request whose client is gone are told to stop. -/
theorem stops (hx : Exec step σ lab) (hf : Fair σ lab) (hI : ∀ i, Inv (σ i)) (hT : ∀ i, Timed (σ i)) {m : Nat}
    (hcl : ∀ i, m ≤ i → (σ i).closed = true) (hr : WeakFair step σ lab shellReads ∨ ∀ i, m ≤ i → Quiet (σ i))
    (hm : (σ m).main = .poll) : ∃ i, m ≤ i ∧ (σ i).main = .stopping := by
  refine Classical.byContradiction fun hno => ?_
  have hns : ∀ i, m ≤ i → (σ i).main ≠ .stopping := fun i hi h => hno ⟨i, hi, h⟩
  have hp : ∀ i, m ≤ i → (σ i).main = .poll := exec_stays hx (p := fun s => s.main = .poll) (fun i l hi _ hp h => by
    rcases (leftA_step (hI i) (hcl i hi) hp h).next with h | h
    · exact h
    · exact absurd h (hns (i + 1) (by omega))) hm
  obtain ⟨n, hn, hrest⟩ := comes_to_rest (f := fun i => leftA (σ i)) (m := m) (fun i hi => by
    rcases hx i with ⟨_, h2⟩ | ⟨l, _, h2⟩
    · show leftA _ ≤ leftA _; rw [h2]; exact Nat.le_refl _
    · rcases (leftA_step (hI i) (hcl i hi) (hp i hi) h2).le with h | ⟨h, _⟩
      · exact Nat.le_of_lt h
      · exact Nat.le_of_eq h)
  have hsame : ∀ i l, n ≤ i → lab i = some l → c2sGoes l = false ∧ l ≠ .c2sLock ∧ l ≠ .ptyTakes ∧ (σ (i + 1)).c2s = (σ i).c2s ∧
      (σ (i + 1)).inq = (σ i).inq ∧ (mainGoes l = true → (σ i).over = false) := by
    intro i l hi hl
    have e : leftA (σ (i + 1)) = leftA (σ i) := (hrest (i + 1) (by omega)).trans (hrest i hi).symm
    rcases (leftA_step (hI i) (hcl i (by omega)) (hp i (by omega)) (exec_at hx hl)).le with h | ⟨_, h1, h2, h3, _, h5, h6, h7⟩
    · omega
    · exact ⟨h1, h2, h3, h5, h6, h7⟩
  have hc := exec_stays hx (m := n) (p := fun s => s.c2s = (σ n).c2s ∧ s.inq = (σ n).inq) (fun i l hi hl hp h => by
    obtain ⟨_, _, _, h5, h6, _⟩ := hsame i l hi hl
    exact ⟨h5.trans hp.1, h6.trans hp.2⟩) ⟨rfl, rfl⟩
  by_cases hd : ∃ e, (σ n).c2s = .done e
  · obtain ⟨e, hd⟩ := hd
    have hov : ∀ i, n ≤ i → (σ i).over = true := fun i hi => by simp [St.over, (hc i hi).1, hd]
    obtain ⟨i, l, hi, hl, ha⟩ := hf.main ⟨n, fun i hi => ⟨.mainPolls, rfl, by simp [step, hp i (by omega), hov i hi]⟩⟩ n
    have := (hsame i l hi hl).2.2.2.2.2 ha
    rw [hov i hi] at this
    cases this
  · refine c2s_goes hx hf hT (n := n) (c := (σ n).c2s) (q := (σ n).inq) (hr.imp id fun hq => (hq n hn).2)
      (fun i hi => ⟨(hc i hi).1, (hc i hi).2, hcl i (by omega)⟩) ?_ (fun e he => hd ⟨e, he⟩)
      (fun i l hi hl => by obtain ⟨a, b, c, _⟩ := hsame i l hi hl; exact ⟨a, b, c⟩)
    intro ho
    rcases ((hI n).offc ho).1 with h | h <;> rw [hp n hn] at h <;> cases h

/-- A request whose threads have been told to stop ends. -/
theorem returns (hx : Exec step σ lab) (hf : Fair σ lab) (hI : ∀ i, Inv (σ i)) (hT : ∀ i, Timed (σ i)) {m : Nat}
    (hcl : ∀ i, m ≤ i → (σ i).closed = true) (hr : WeakFair step σ lab shellReads ∨ ∀ i, m ≤ i → Quiet (σ i))
    (h1 : (σ m).main ≠ .connecting) (h2 : (σ m).main ≠ .poll) : ∃ i r, m ≤ i ∧ (σ i).main = .returned r := by
  have hp : ∀ i, m ≤ i → (σ i).main ≠ .connecting ∧ (σ i).main ≠ .poll :=
    exec_stays hx (p := fun s => s.main ≠ .connecting ∧ s.main ≠ .poll) (fun i l hi _ hp h => past_step hp h) ⟨h1, h2⟩
  refine Classical.byContradiction fun hno => ?_
  have hnr : ∀ i r, m ≤ i → (σ i).main ≠ .returned r := fun i r hi h => hno ⟨i, r, hi, h⟩
  obtain ⟨n, hn, hrest⟩ := comes_to_rest (f := fun i => left (σ i)) (m := m) (fun i hi => by
    rcases hx i with ⟨_, h2⟩ | ⟨l, _, h2⟩
    · show left _ ≤ left _; rw [h2]; exact Nat.le_refl _
    · rcases (left_step (hI i) (hcl i hi) (hp i hi).1 (hp i hi).2 h2).le with h | ⟨h, _⟩
      · exact Nat.le_of_lt h
      · exact Nat.le_of_eq h)
  have hsame : ∀ i l, n ≤ i → lab i = some l → own l = false ∧ (σ (i + 1)).main = (σ i).main ∧ (σ (i + 1)).c2s = (σ i).c2s ∧
      (σ (i + 1)).hb = (σ i).hb ∧ (σ (i + 1)).sup = (σ i).sup ∧ (σ (i + 1)).inq = (σ i).inq := by
    intro i l hi hl
    have e : left (σ (i + 1)) = left (σ i) := (hrest (i + 1) (by omega)).trans (hrest i hi).symm
    rcases (left_step (hI i) (hcl i (by omega)) (hp i (by omega)).1 (hp i (by omega)).2 (exec_at hx hl)).le with h | ⟨_, h⟩
    · omega
    · exact h
  have hc := exec_stays hx (m := n) (p := fun s => s.main = (σ n).main ∧ s.c2s = (σ n).c2s ∧ s.hb = (σ n).hb ∧ s.sup = (σ n).sup ∧
      s.inq = (σ n).inq) (fun i l hi hl hp h => by
    obtain ⟨_, a, b, c, d, e⟩ := hsame i l hi hl
    obtain ⟨a', b', c', d', e'⟩ := hp
    exact ⟨a.trans a', b.trans b', c.trans c', d.trans d', e.trans e'⟩) ⟨rfl, rfl, rfl, rfl, rfl⟩
  -- no step of the request's threads is performed any more
  have hown : ∀ A : Label → Bool, (∀ l, A l = true → own l = true) → ¬ Often lab A := by
    intro A hA hof
    obtain ⟨i, l, hi, hl, ha⟩ := hof n
    have := (hsame i l hi hl).1
    rw [hA l ha] at this
    cases this
  have hmain : ∀ A : Label → Bool, A = mainGoes → ¬ ∀ i, n ≤ i → Can step A (σ i) := by
    rintro A rfl h
    exact hown mainGoes (fun l => by cases l <;> simp [mainGoes, own]) (hf.main ⟨n, h⟩)
  have hI' := hI n
  have hc2 : (σ n).c2s ≠ .off := fun h => by
    rcases (hI'.offc h).1 with h | h
    · exact (hp n hn).1 h
    · exact hnr n _ hn h
  have hh2 : (σ n).hb ≠ .off := fun h => hc2 (hI'.offh h)
  have hs2 : (σ n).sup ≠ .off := fun h => hc2 (hI'.offs h)
  have hstop : ∀ i, n ≤ i → (σ i).stop = true := fun i hi =>
    (hI i).later (hp i (by omega)).1 (hp i (by omega)).2 (by rw [(hc i hi).2.1]; exact hc2)
  have hfree := free_often hx hf.limits hT
  -- so the other threads have ended
  have hdc : ∃ e, (σ n).c2s = .done e := by
    refine Classical.byContradiction fun hd => ?_
    refine c2s_goes hx hf hT (n := n) (c := (σ n).c2s) (q := (σ n).inq) (hr.imp id fun hq => (hq n hn).2)
      (fun i hi => ⟨(hc i hi).2.1, (hc i hi).2.2.2.2, hcl i (by omega)⟩) hc2 (fun e he => hd ⟨e, he⟩) (fun i l hi hl => ?_)
    have := (hsame i l hi hl).1
    cases l <;> simp_all [own, c2sGoes]
  have hdh : ∃ e, (σ n).hb = .done e := by
    cases hh : (σ n).hb with
    | off => exact absurd hh hh2
    | done e => exact ⟨e, rfl⟩
    | beating =>
      exact absurd (hf.hbLock (fun k => by
        obtain ⟨i, hi, he⟩ := hfree (max k n)
        exact ⟨i, by omega, .hbLock, by simp, by simp [step, (hc i (by omega)).2.2.1, hh, he]⟩))
        (hown _ (fun l => by simp; rintro rfl; rfl))
    | rest =>
      exact absurd (hf.hb ⟨n, fun i hi => ⟨.hbPolls, rfl, by simp [step, (hc i hi).2.2.1, hh]⟩⟩)
        (hown _ (fun l => by cases l <;> simp [hbGoes, own]))
    | sleeping =>
      exact absurd (hf.hb ⟨n, fun i hi => ⟨.hbPolls, rfl, by simp [step, (hc i hi).2.2.1, hh, hstop i hi]⟩⟩)
        (hown _ (fun l => by cases l <;> simp [hbGoes, own]))
  have hds : (σ n).sup = .done := by
    have hsup := hown supGoes (fun l => by cases l <;> simp [supGoes, own])
    cases hh : (σ n).sup with
    | off => exact absurd hh hs2
    | done => rfl
    | top =>
      exact absurd (hf.sup ⟨n, fun i hi => ⟨.supChecks, rfl, by simp [step, (hc i hi).2.2.2.1, hh]⟩⟩) hsup
    | waiting sure =>
      refine absurd (hf.sup ⟨n, fun i hi => ?_⟩) hsup
      have e : (σ i).sup = .waiting sure := (hc i hi).2.2.2.1.trans hh
      cases sure with
      | true => exact ⟨.supSees, rfl, by simp [step, e, (hT i).sure e]⟩
      | false => exact ⟨.supTimeout, rfl, by simp [step, e]⟩
  obtain ⟨ec, hdc⟩ := hdc
  obtain ⟨eh, hdh⟩ := hdh
  have hm' := hmain _ rfl
  cases hmn : (σ n).main with
  | connecting => exact (hp n hn).1 hmn
  | poll => exact (hp n hn).2 hmn
  | returned r => exact hnr n r hn hmn
  | stopping => exact hm' fun i hi => ⟨.mainLooks, rfl, by simp [step, (hc i hi).1, hmn]⟩
  | disconnecting e =>
    exact hown _ (fun l => by simp; rintro rfl; rfl) (hf.mainLock (fun k => by
      obtain ⟨i, hi, he⟩ := hfree (max k n)
      exact ⟨i, by omega, .mainLock, by simp, by simp [step, (hc i (by omega)).1, hmn, he]⟩))
  | joinC => exact hm' fun i hi => ⟨.mainJoins, rfl, by cases ec <;> simp [step, (hc i hi).1, hmn, (hc i hi).2.1, hdc]⟩
  | joinH => exact hm' fun i hi => ⟨.mainJoins, rfl, by cases eh <;> simp [step, (hc i hi).1, hmn, (hc i hi).2.2.1, hdh]⟩
  | joinS => exact hm' fun i hi => ⟨.mainJoins, rfl, by simp [step, (hc i hi).1, hmn, (hc i hi).2.2.2.1, hds]⟩
  | leaving => exact hm' fun i hi => ⟨.mainJoins, rfl, by
      simp [step, (hc i hi).1, hmn, (hc i hi).2.1, hdc, (hc i hi).2.2.1, hdh, (hc i hi).2.2.2.1, hds]⟩
  | final => exact hm' fun i hi => ⟨.mainJoins, rfl, by simp [step, (hc i hi).1, hmn]⟩

end Fairness

/-- C107, proved part: in every execution in which the threads run, waits end at their time limits, a thread that finds the mutex free
again and again gets it, and no `shpool detach` interferes, the request of a client that is gone ends, and stays ended.  Either the shell
reads its terminal now and then, or no input of the client is on its way when it goes. -/
theorem C107_fair_partial {σ : Nat → St} {lab : Nat → Option Label} (hx : Exec step σ lab) (h0 : σ 0 = init) (hf : Fair σ lab)
    (hd : ∀ i, lab i ≠ some (.extAsks false)) {m : Nat} (hc : (σ m).closed = true)
    (hr : WeakFair step σ lab shellReads ∨ ((σ m).inq = [] ∧ ∀ x, (σ m).c2s ≠ .writing x)) :
    ∃ i r, m ≤ i ∧ ∀ j, i ≤ j → (σ j).main = .returned r := by
  have hrun : ∀ i, runSteps step init (performed lab i) = some (σ i) := fun i => h0 ▸ exec_run hx i
  have hI : ∀ i, Inv (σ i) := fun i => inv_run (hrun i)
  have hT : ∀ i, Timed (σ i) := fun i => timed_run (s := init) ⟨by simp [init], by simp [init]⟩ (fun hm => by
    obtain ⟨k, _, hk⟩ := mem_performed hm; exact hd k hk) (hrun i)
  have hcl : ∀ i, m ≤ i → (σ i).closed = true := exec_stays hx (p := fun s => s.closed = true) (fun i l _ _ hp h => closed_step hp h) hc
  have hr' : WeakFair step σ lab shellReads ∨ ∀ i, m ≤ i → Quiet (σ i) :=
    hr.imp id fun hq => exec_stays hx (p := Quiet) (fun i l hi _ hp h => quiet_step (hcl i hi) hp h) hq
  have fin : ∀ n, m ≤ n → (σ n).main ≠ .connecting → (σ n).main ≠ .poll → ∃ i r, m ≤ i ∧ ∀ j, i ≤ j → (σ j).main = .returned r := by
    intro n hn h1 h2
    obtain ⟨i, r, hi, hm⟩ := returns hx hf hI hT (m := n) (fun i hi => hcl i (by omega)) (hr'.imp id fun hq i hi => hq i (by omega)) h1 h2
    exact ⟨i, r, by omega, exec_stays hx (p := fun s => s.main = .returned r) (fun i l _ _ hp h => returned_step (hI i) hp h) hm⟩
  obtain ⟨n, hn, h1⟩ := connects hx hf hI hT m
  by_cases h2 : (σ n).main = .poll
  · obtain ⟨k, hk, hm⟩ := stops hx hf hI hT (m := n) (fun i hi => hcl i (by omega)) (hr'.imp id fun hq i hi => hq i (by omega)) h2
    exact fin k (by omega) (by rw [hm]; nofun) (by rw [hm]; nofun)
  · exact fin n hn h1 h2

/-- A client that is connected, types 5, and goes while the daemon asks whether it is still there; the heartbeat is answered late. -/
def lateRun : List Label := [.mainLock, .meet, .s2cWorks, .ack, .c2sCompiles true, .c2sChecks, .hbPolls, .supChecks, .clientSends 5, .hbWakes,
  .hbLock, .clientCloses, .meet, .ackTimeout, .s2cWorks, .c2sReads false, .mainPolls, .mainLooks, .ptyTakes, .c2sChecks, .mainLock,
  .sendTimeout, .mainJoins, .mainJoins, .supTimeout, .supChecks, .mainJoins]

/-- It meets the hypotheses of C107_fair_partial: it is an execution, the threads are treated fairly, and the client is gone at
instant 12 with input on its way. -/
example : ∃ (σ : Nat → St) (lab : Nat → Option Label), Exec step σ lab ∧ σ 0 = init ∧ Fair σ lab ∧ (∀ i, lab i ≠ some (.extAsks false)) ∧
    (σ 12).closed = true ∧ WeakFair step σ lab shellReads ∧ (σ 12).inq = [5] ∧ lab 18 = some .ptyTakes := by
  obtain ⟨s, hs, hm⟩ : ∃ s, runSteps step init lateRun = some s ∧ s.main = .returned none ∧ s.ctl = none ∧ s.c2s = .done .ok ∧
    s.hb = .done .err ∧ s.sup = .done := ⟨_, rfl, by decide⟩
  obtain ⟨hx, hr⟩ := thenRests_exec hs
  obtain ⟨h1, h2, h3, h4, h5⟩ := hm
  refine ⟨_, _, hx, rfl, ?_, ?_, by decide, (fair_at_rest hr ?_).1, by decide, rfl⟩
  · constructor
    · exact (fair_at_rest hr (fun l hl => by cases l <;> simp_all [mainGoes, step])).1
    · exact (fair_at_rest hr (fun l hl => by cases l <;> simp_all [c2sGoes, step])).1
    · exact (fair_at_rest hr (fun l hl => by cases l <;> simp_all [hbGoes, step])).1
    · exact (fair_at_rest hr (fun l hl => by cases l <;> simp_all [supGoes, step])).1
    · exact (fair_at_rest hr (fun l hl => by cases l <;> simp_all [timesOut, step])).1
    · exact (fair_at_rest hr (fun l hl => by simp_all [step])).2
    · exact (fair_at_rest hr (fun l hl => by simp_all [step])).2
    · exact (fair_at_rest hr (fun l hl => by simp_all [step])).2
  · intro i
    have : some (Label.extAsks false) ∉ lateRun.map some := by decide
    intro h
    exact this (List.mem_map.mpr ⟨_, List.mem_of_getElem? h, rfl⟩)
  · intro l hl
    cases l <;> simp_all [shellReads, step]

end Shpool.Bidi
