import Verif.Startup.Model
import Verif.Startup.Props

/-!
# Starting a daemon under a lock that is kept

A repair of the defects of starting a daemon: the lock a daemon takes is kept as long as the daemon lives (the code unlocks the pid
file as soon as the number is written, daemonize.rs 189-202, and removes the file on leaving), every daemon takes it, and a client that
finds nobody listening leaves the file to the daemon it launches (the code removes it, daemonize.rs 66-70).  The rest of a daemon's way
is the code's own (`daemonStep`).  This is not the code: it shows that the two changes are enough.
-/

namespace Shpool.Startup

/-- The state of the code with the holder of the kept lock. -/
structure RSt where
  st : St
  own : Option Nat

def rinit : RSt := ⟨init, none⟩

/-- The client of daemonize.rs 52-88 without lines 66-70. -/
def rclientStep (s : St) (c : Nat) : Option St :=
  match s.cli c with
  | .idle =>
    match connect s with
    | .ok => some (setCli s c .ready)
    | .refused | .notFound => some (setCli s c .launching)
  | .launching => some (setCli s c .ready)
  | .stale | .ready | .failed => none

/-- The lock is given up by a process that is gone. -/
def giveUp (d : Nat) (own : Option Nat) (s : St) : RSt :=
  ⟨s, if s.dae d = .gone ∧ own = some d then none else own⟩

/-- The pid file is there once an automatically started daemon has the lock, daemonize.rs 170-176 (which file it is does not matter here). -/
def withPid (d : Nat) (s : St) : St := { s with pid := if s.auto d then some (s.pid.getD s.nextPid) else s.pid }

/-- The step of the repaired program: `starting` takes the lock or ends, the pid file needs no lock of its own; everything later is
`daemonStep`. -/
def rstep (r : RSt) : Label → Option RSt
  | .client c => (rclientStep r.st c).map fun s => ⟨s, r.own⟩
  | .start d auto => (step r.st (.start d auto)).map fun s => ⟨s, r.own⟩
  | .go d =>
    if r.st.dae d = .starting then
      match r.own with
      | none => some ⟨withPid d (setDae r.st d .evCheck), some d⟩
      | some _ => some ⟨setDae r.st d .gone, r.own⟩
    else (daemonStep r.st d).map (giveUp d r.own)
  | .term d => (step r.st (.term d)).map fun s => ⟨s, r.own⟩
  | .crash d => (step r.st (.crash d)).map (giveUp d r.own)

def RRun (ls : List Label) (r : RSt) : Prop := runSteps rstep rinit ls = some r

/-- What a daemon's phase says about the files and the lock. -/
def phaseOk (r : RSt) (d : Nat) : Phase → Prop
  | .idle | .starting | .gone => r.own ≠ some d
  | .opened _ | .locked _ | .failEv | .failPid => False
  | .evCheck => r.own = some d
  | .evRemove => r.own = some d ∧ r.st.ev.isSome
  | .evBind => r.own = some d ∧ r.st.ev = none
  | .check => r.own = some d ∧ r.st.ev = some d
  | .removing => r.own = some d ∧ r.st.ev = some d ∧ r.st.sock.isSome
  | .binding => r.own = some d ∧ r.st.ev = some d ∧ r.st.sock = none
  | .serving => r.own = some d ∧ r.st.ev = some d ∧ r.st.sock = some d
  | .term1 | .term2 | .term3 => r.own = some d

def RInv (r : RSt) : Prop :=
  (∀ d, phaseOk r d (r.st.dae d)) ∧ ∀ c, r.st.cli c ≠ .failed ∧ r.st.cli c ≠ .stale

theorem rinv_init : RInv rinit := ⟨fun d => by simp [rinit, init, phaseOk], fun c => by simp [rinit, init]⟩

/-- A daemon without the lock is unaffected by what the holder of the lock does. -/
theorem phaseOk_other {r r' : RSt} {e : Nat} {p : Phase} (h : phaseOk r e p) (hne : r.own ≠ some e) (hne' : r'.own ≠ some e) :
    phaseOk r' e p := by
  cases p <;> simp_all [phaseOk]

theorem phaseOk_holder {r : RSt} {d : Nat} (h : phaseOk r d (r.st.dae d))
    (hp : r.st.dae d ≠ .idle ∧ r.st.dae d ≠ .starting ∧ r.st.dae d ≠ .gone) : r.own = some d := by
  cases hd : r.st.dae d <;> simp_all [phaseOk]

/-- Only the holder moved: it is enough to look at it. -/
theorem phases_holder {r r' : RSt} {d : Nat} (h : ∀ e, phaseOk r e (r.st.dae e)) (ho : r.own = some d)
    (ho' : r'.own = some d ∨ r'.own = none) (hd : phaseOk r' d (r'.st.dae d)) (hr : ∀ e, e ≠ d → r'.st.dae e = r.st.dae e) :
    ∀ e, phaseOk r' e (r'.st.dae e) := by
  intro e
  by_cases he : e = d
  · subst he; exact hd
  · rw [hr e he]
    refine phaseOk_other (h e) ?_ ?_
    · rw [ho]; intro hh; exact he (Option.some.inj hh).symm
    · rcases ho' with h1 | h1 <;> rw [h1]
      · intro hh; exact he (Option.some.inj hh).symm
      · simp

theorem rinv_step {r r' : RSt} {l : Label} (hi : RInv r) (h : rstep r l = some r') : RInv r' := by
  obtain ⟨hp, hc⟩ := hi
  cases l with
  | client c =>
    have key : ∀ p, p ≠ Client.failed ∧ p ≠ Client.stale → RInv ⟨setCli r.st c p, r.own⟩ := by
      intro p hpp
      refine ⟨fun d => ?_, fun c' => ?_⟩
      · have := hp d
        simp only [setCli]
        cases hd : r.st.dae d <;> simp_all [phaseOk]
      · simp only [setCli, upd]
        split
        · exact hpp
        · exact hc c'
    simp only [rstep, rclientStep] at h
    split at h
    · split at h <;> simp at h <;> subst h <;> exact key _ (by simp)
    · simp at h; subst h; exact key _ (by simp)
    all_goals simp at h
  | start d auto =>
    simp only [rstep, step] at h
    split at h
    · rename_i hd
      simp at h; subst h
      refine ⟨fun e => ?_, hc⟩
      have h1 := hp e
      by_cases he : e = d
      · subst he; simp_all [phaseOk, setDae, upd]
      · simp only [setDae, upd, he, if_false]
        cases hq : r.st.dae e <;> simp_all [phaseOk]
    · simp at h
  | term d =>
    simp only [rstep, step] at h
    split at h
    · rename_i hd
      simp at h; subst h
      have h1 := hp d
      rw [hd] at h1
      refine ⟨phases_holder (d := d) hp h1.1 (.inl h1.1) ?_ ?_, hc⟩
      · simp [setDae, upd, phaseOk, h1.1]
      · intro e he; simp [setDae, upd, he]
    · simp at h
  | crash d =>
    simp only [rstep, step] at h
    split at h
    · simp at h
    · rename_i hd
      simp at h; subst h
      refine ⟨fun e => ?_, hc⟩
      by_cases he : e = d
      · subst he
        by_cases ho : r.own = some e <;> simp [giveUp, setDae, upd, phaseOk, ho]
      · have h1 := hp e
        by_cases ho : r.own = some d
        · have hne : r.own ≠ some e := by rw [ho]; intro hh; exact he (Option.some.inj hh).symm
          simp only [giveUp, setDae, upd, he, if_false]
          exact phaseOk_other h1 hne (by simp [ho])
        · simp only [giveUp, setDae, upd, he, if_false, ho, and_false]
          cases hq : r.st.dae e <;> simp_all [phaseOk]
  | go d =>
    simp only [rstep] at h
    split at h
    · rename_i hd
      split at h
      · rename_i ho
        simp at h; subst h
        refine ⟨fun e => ?_, hc⟩
        by_cases he : e = d
        · subst he; simp [withPid, setDae, upd, phaseOk]
        · simp only [withPid, setDae, upd, he, if_false]
          exact phaseOk_other (hp e) (by simp [ho]) (by simp; intro hh; exact he hh.symm)
      · rename_i x ho
        simp at h; subst h
        refine ⟨fun e => ?_, hc⟩
        have h1 := hp e
        by_cases he : e = d
        · subst he; simp_all [setDae, upd, phaseOk]
        · simp only [setDae, upd, he, if_false]
          cases hq : r.st.dae e <;> simp_all [phaseOk]
    · rename_i hns
      have h1 := hp d
      by_cases hact : r.st.dae d = .idle ∨ r.st.dae d = .gone
      · rcases hact with ha | ha <;> simp [daemonStep, ha] at h
      · have ho := phaseOk_holder h1 ⟨fun x => hact (.inl x), hns, fun x => hact (.inr x)⟩
        have hcli : r'.st.cli = r.st.cli ∧ ∀ e, e ≠ d → r'.st.dae e = r.st.dae e := by
          simp only [daemonStep] at h
          repeat' split at h
          all_goals first
            | (simp at h; done)
            | (simp at h; subst h; exact ⟨rfl, fun e he => by simp [giveUp, setDae, upd, he]⟩)
        have hme : (r'.own = some d ∨ r'.own = none) ∧ phaseOk r' d (r'.st.dae d) := by
          cases hd : r.st.dae d with
          | check =>
            rw [hd] at h1
            simp only [daemonStep, hd] at h
            have hconn : connect r.st ≠ .ok := by
              unfold connect
              cases hs : r.st.sock with
              | none => simp
              | some x =>
                simp only
                split
                · rename_i hl
                  exfalso
                  have h2 := phaseOk_holder (hp x) ⟨by intro q; rw [q] at hl; simp [Phase.listens] at hl,
                    by intro q; rw [q] at hl; simp [Phase.listens] at hl, by intro q; rw [q] at hl; simp [Phase.listens] at hl⟩
                  rw [ho] at h2
                  have := Option.some.inj h2
                  subst this
                  rw [hd] at hl
                  simp [Phase.listens] at hl
                · simp
            simp at h; subst h
            cases hs : r.st.sock with
            | none =>
              have hcn : connect r.st = .notFound := by simp [connect, hs]
              simp [giveUp, setDae, upd, hcn, phaseOk, ho, h1.2, hs]
            | some x =>
              have hcn : connect r.st = .refused := by
                unfold connect at hconn ⊢
                rw [hs] at hconn ⊢
                simp only at hconn ⊢
                split
                · rename_i hl; simp [hl] at hconn
                · rfl
              simp [giveUp, setDae, upd, hcn, phaseOk, ho, h1.2, hs]
          | evCheck =>
            simp only [daemonStep, hd] at h
            simp at h; subst h
            cases hs : r.st.ev <;> simp [giveUp, setDae, upd, phaseOk, ho, hs]
          | evRemove =>
            rw [hd] at h1
            cases hs : r.st.ev with
            | none => simp [phaseOk, hs] at h1
            | some x =>
              simp only [daemonStep, hd, hs] at h
              simp at h; subst h
              simp [giveUp, setDae, upd, phaseOk, ho]
          | removing =>
            rw [hd] at h1
            cases hs : r.st.sock with
            | none => simp [phaseOk, hs] at h1
            | some x =>
              simp only [daemonStep, hd, hs] at h
              simp at h; subst h
              simp [giveUp, setDae, upd, phaseOk, ho, h1.2.1]
          | _ =>
            rw [hd] at h1
            simp_all [daemonStep, phaseOk]
            try (subst h; simp [giveUp, setDae, upd, phaseOk, *])
        exact ⟨phases_holder hp ho hme.1 hme.2 hcli.2, fun c => by rw [hcli.1]; exact hc c⟩

theorem rinv_run {ls : List Label} {r : RSt} (h : RRun ls r) : RInv r :=
  run_inv (I := RInv) (fun _ _ _ hi hs => rinv_step hi hs) rinv_init h

/-- **C63 (repaired)**: with the kept lock at most one daemon serves in every history, crashes included, and both socket files are its: its
sessions can be reached. -/
theorem C63_repaired {ls : List Label} {r : RSt} (h : RRun ls r) (d e : Nat) (hd : r.st.dae d = .serving) (he : r.st.dae e = .serving) :
    d = e ∧ r.st.sock = some d ∧ r.st.ev = some d ∧ connect r.st = .ok := by
  have hi := rinv_run h
  have h1 := hi.1 d
  have h2 := hi.1 e
  rw [hd] at h1
  rw [he] at h2
  refine ⟨Option.some.inj (h1.1.symm.trans h2.1), h1.2.2, h1.2.1, ?_⟩
  simp [connect, h1.2.2, hd, Phase.listens]

/-- **C84 (repaired)**: and no client is ever turned away; nor does a daemon that got the lock ever give up for finding a file missing or in
its way. -/
theorem C84_repaired {ls : List Label} {r : RSt} (h : RRun ls r) :
    (∀ c, r.st.cli c ≠ .failed) ∧ ∀ d, r.st.dae d ≠ .failEv ∧ r.st.dae d ≠ .failPid := by
  have hi := rinv_run h
  refine ⟨fun c => (hi.2 c).1, fun d => ⟨fun hq => ?_, fun hq => ?_⟩⟩ <;>
    · have h1 := hi.1 d
      rw [hq] at h1
      exact h1

/-- **C84 (repaired, recovery)**: whatever happened before, if no daemon holds the lock, a daemon that is started and runs undisturbed ends up
serving on both sockets, whatever files were left behind. -/
theorem C84_repaired_recovers {ls : List Label} {r : RSt} (h : RRun ls r) {e : Nat} (auto : Bool) (ho : r.own = none)
    (he : r.st.dae e = .idle) :
    ∃ n r', runSteps rstep r (.start e auto :: List.replicate n (.go e)) = some r' ∧
      r'.st.dae e = .serving ∧ r'.st.sock = some e ∧ r'.st.ev = some e ∧ ∀ c, r'.st.cli c = r.st.cli c := by
  have hi := rinv_run h
  have hq : ∀ x, (r.st.dae x).listens = false := by
    intro x
    have h1 := hi.1 x
    cases hx : r.st.dae x <;> simp_all [phaseOk, Phase.listens]
  cases hev : r.st.ev <;> cases hs : r.st.sock
  · exact ⟨5, by simp [runSteps, rstep, step, daemonStep, he, ho, hev, hs, setDae, upd, giveUp, withPid, connect, List.replicate]⟩
  · rename_i x
    have hx := hq x
    by_cases hxe : x = e
    · subst hxe
      exact ⟨6, by simp [runSteps, rstep, step, daemonStep, he, ho, hev, hs, setDae, upd, giveUp, withPid, connect, List.replicate, Phase.listens]⟩
    · exact ⟨6, by simp [runSteps, rstep, step, daemonStep, he, ho, hev, hs, setDae, upd, giveUp, withPid, connect, List.replicate, hx, hxe]⟩
  · exact ⟨6, by simp [runSteps, rstep, step, daemonStep, he, ho, hev, hs, setDae, upd, giveUp, withPid, connect, List.replicate]⟩
  · rename_i x
    have hx := hq x
    by_cases hxe : x = e
    · subst hxe
      exact ⟨7, by simp [runSteps, rstep, step, daemonStep, he, ho, hev, hs, setDae, upd, giveUp, withPid, connect, List.replicate, Phase.listens]⟩
    · exact ⟨7, by simp [runSteps, rstep, step, daemonStep, he, ho, hev, hs, setDae, upd, giveUp, withPid, connect, List.replicate, hx, hxe]⟩

/-- The holder of the lock has its pid file. -/
def PidInv (r : RSt) : Prop := ∀ d, r.own = some d → r.st.auto d = true → r.st.pid.isSome = true

theorem pidInv_step {r r' : RSt} {l : Label} (hi : RInv r) (hj : PidInv r) (h : rstep r l = some r') : PidInv r' := by
  cases l with
  | client c =>
    simp only [rstep, rclientStep] at h
    repeat' split at h
    all_goals first
      | (simp at h; done)
      | (simp at h; subst h; exact hj)
  | start d auto =>
    simp only [rstep, step] at h
    split at h
    · rename_i hd
      simp at h; subst h
      intro e he ha
      have h1 := hi.1 d
      rw [hd] at h1
      have hne : e ≠ d := by intro hh; subst hh; exact h1 he
      simp [upd, setDae, hne] at ha ⊢
      exact hj e he ha
    · simp at h
  | term d =>
    simp only [rstep, step] at h
    split at h
    · simp at h; subst h; exact hj
    · simp at h
  | crash d =>
    simp only [rstep, step] at h
    split at h
    · simp at h
    · simp at h; subst h
      intro e he ha
      simp only [giveUp] at he
      split at he
      · simp at he
      · exact hj e he ha
  | go d =>
    simp only [rstep] at h
    split at h
    · split at h
      · simp at h; subst h
        intro e he ha
        simp at he
        subst he
        simp [withPid, setDae] at ha ⊢
        simp [ha]
      · simp at h; subst h; exact hj
    · rename_i hns
      have h1 := hi.1 d
      intro e he ha
      by_cases hact : r.st.dae d = .idle ∨ r.st.dae d = .gone
      · rcases hact with hx | hx <;> simp [daemonStep, hx] at h
      · have ho := phaseOk_holder h1 ⟨fun x => hact (.inl x), hns, fun x => hact (.inr x)⟩
        have hj' := hj d ho
        cases hd : r.st.dae d <;> rw [hd] at h1 <;> simp only [phaseOk] at h1 <;> simp only [daemonStep, hd] at h
        all_goals first
          | exact absurd hd hns
          | exact h1.elim
          | (repeat' split at h
             all_goals first
               | (simp at h; done)
               | (simp at h; subst h
                  simp only [giveUp] at he
                  split at he
                  · simp at he
                  · rename_i hg
                    first
                      | (simp [setDae, upd, ho] at hg; done)
                      | exact hj e he ha))

/-- **C85 (repaired)**: with the same two changes the files of a serving daemon stay, whatever other daemons and clients do and whoever
crashes: both sockets, and the pid file if it was started automatically. -/
theorem C85_repaired {ls : List Label} {r : RSt} (h : RRun ls r) (d : Nat) (hd : r.st.dae d = .serving) :
    r.st.sock = some d ∧ r.st.ev = some d ∧ (r.st.auto d = true → r.st.pid.isSome = true) := by
  have hb : RInv r ∧ PidInv r :=
    run_inv (I := fun r => RInv r ∧ PidInv r) (fun _ _ _ hi hs => ⟨rinv_step hi.1 hs, pidInv_step hi.1 hi.2 hs⟩)
      ⟨rinv_init, fun d hd => by simp [rinit] at hd⟩ h
  have h1 := hb.1.1 d
  rw [hd] at h1
  exact ⟨h1.2.2, h1.2.1, hb.2 d h1.1⟩

/-- The history of a crash with two clients that both find the left-over file, and the daemons they launch. -/
def repairedHistory : List Label :=
  [.start 0 true, .go 0, .go 0, .go 0, .go 0, .go 0, .crash 0, .client 1, .client 2, .client 1, .client 2, .start 1 true, .start 2 true,
    .go 1, .go 2, .go 1, .go 1, .go 1, .go 1, .go 1, .go 1]

/-- Not vacuous: after that history daemon 1 serves, daemon 2 has ended, and both clients are served. -/
example : ∃ r, RRun repairedHistory r ∧ r.st.dae 1 = .serving ∧ r.st.dae 2 = .gone ∧ r.st.cli 1 = .ready ∧ r.st.cli 2 = .ready ∧
    connect r.st = .ok ∧ r.st.pid.isSome = true :=
  ⟨_, rfl, rfl, rfl, rfl, rfl, rfl, rfl⟩

end Shpool.Startup
