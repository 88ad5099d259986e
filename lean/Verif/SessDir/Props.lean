import Verif.SessDir.Model
/-!
# C169: a session has the agent and the variables of its client
-/

namespace Shpool.SessDir

/-- The client a shell is run for: the one it was started for, or that has it now.  A client that comes back counts from the moment it is given
the session. -/
def client (s : St) : Option Nat :=
  if s.shell then
    match s.phase with
    | .starting c | .toLink c true | .toWrite c true | .ready c true | .attached c => some c
    | _ => none
  else none

/-- The agent a shell should reach: that of its client, if it has one. -/
def Right (P : Params) (s : St) : Prop := ∀ c, client s = some c → s.env = some c ∧ s.link = if P.agent c then some c else none

/-- **C169**, as stated. -/
def C169_statement : Prop := ∀ agent ls s, Run (program agent) ls s → Right (program agent) s

/-- **C169 is false** while the start files of the shell (and the start command) run: the files are made afterwards. -/
theorem C169_false : ¬ C169_statement := by
  intro h
  have hr : ∃ s, Run (program fun _ => true) [.attach 1] s ∧ client s = some 1 ∧ s.env = none := ⟨_, rfl, rfl, rfl⟩
  obtain ⟨s, hr, hc, he⟩ := hr
  have := (h _ _ _ hr 1 hc).1
  rw [he] at this; cases this

/-- **C169** (at the start): as long as the shell of a new session is started, the files are what they were before: what the last client of that
name left, or nothing. -/
theorem C169_false_start {agent : Nat → Bool} {s s' : St} {c : Nat} {ls : List Label} (hi : s.phase = .idle) (hn : s.shell = false)
    (h : runSteps (step (program agent)) s (.attach c :: ls) = some s') (hst : .started ∉ ls) :
    client s' = some c ∧ s'.link = s.link ∧ s'.env = s.env := by
  obtain ⟨t, h1, h2⟩ := run_cons_some h
  have e : t = { s with shell := true, phase := .starting c } := by
    simp [step, hi, hn, program] at h1
    exact h1.symm
  have key := run_hist (step := step (program agent)) (s := t) (s' := s') (ls := ls) (I := fun ls u => .started ∉ ls → (u.phase = .starting c ∧ u.shell = true) ∧ u.link = s.link ∧ u.env = s.env)
    (fun ls u l u' hI hs hm => ?_) (fun _ => by rw [e]; exact ⟨⟨rfl, rfl⟩, rfl, rfl⟩) h2
  · obtain ⟨⟨a, b⟩, d⟩ := key hst
    exact ⟨by simp [client, a, b], d⟩
  · obtain ⟨⟨a, _⟩, b, d⟩ := hI fun hx => hm (by simp [hx])
    cases l <;> simp [step, a] at hs
    exact absurd (by simp) hm

/-- So the shell of a new session sees the variables and the agent of whoever had a session of that name before. -/
theorem C169_false_former : ∃ s, Run (program fun _ => true) [.attach 1, .started, .link, .write, .join, .exit, .attach 2] s ∧ client s = some 2 ∧
    s.env = some 1 ∧ s.link = some 1 := ⟨_, rfl, rfl, rfl, rfl⟩

/-- **C169 is false** for a client without an agent: the session goes on with the agent of an earlier client. -/
theorem C169_false_agent : ∃ s, Run (program (· == 1)) [.attach 1, .started, .link, .write, .join, .leave, .attach 2, .link, .write, .join] s ∧
    s.phase = .attached 2 ∧ s.link = some 1 := ⟨_, rfl, rfl, rfl⟩

/-- **C169** (what is left): the variables of a client stay in the directory for ever, or until a client comes to a session of that name. -/
theorem C169_false_left {P : Params} {s s' : St} {ls : List Label} {c : Nat} (he : s.env = some c) (h : runSteps (step P) s ls = some s')
    (hw : .write ∉ ls) : s'.env = some c := by
  have key := run_hist (step := step P) (s := s) (s' := s') (ls := ls) (I := fun ls u => .write ∉ ls → u.env = some c)
    (fun ls u l u' hI hs hm => ?_) (fun _ => he) h
  · exact key hw
  · have hI := hI fun hx => hm (by simp [hx])
    cases l <;> simp only [step] at hs
    case write => exact absurd (by simp) hm
    all_goals (repeat' split at hs)
    all_goals cases hs
    all_goals exact hI

example : ∃ s, Run (program fun _ => true) [.attach 1, .started, .link, .write, .join, .exit] s ∧ s.env = some 1 ∧ s.shell = false := ⟨_, rfl, rfl, rfl⟩

private def Inv (P : Params) (s : St) : Prop :=
  match s.phase with
  | .toWrite c _ => P.agent c = true → s.link = some c
  | .ready c _ | .attached c => s.env = some c ∧ (P.agent c = true → s.link = some c)
  | _ => True

/-- **C169** for a client that has been given the session: the file has its variables, and the link leads to its agent if it has one. -/
theorem C169_partial {agent : Nat → Bool} {ls : List Label} {s : St} (h : Run (program agent) ls s) {c : Nat} (hp : s.phase = .attached c) :
    s.env = some c ∧ (agent c = true → s.link = some c) := by
  have := run_inv (step := step (program agent)) (I := Inv (program agent)) (fun s l s' hI hs => ?_) (by trivial) h
  · simpa [Inv, hp, program] using this
  · cases l <;> simp only [step] at hs
    all_goals (repeat' split at hs)
    all_goals cases hs
    all_goals (simp_all [Inv, relink, program])

example : ∃ s, Run (program (· == 2)) [.attach 1, .started, .link, .write, .join, .leave, .attach 2, .link, .write, .join] s ∧ s.phase = .attached 2 ∧
    s.link = some 2 := ⟨_, rfl, rfl, rfl⟩

/-- **C169** (the agent): a session reaches the agent of its client, or of the last client of that name that had one. -/
theorem C169_agent {agent : Nat → Bool} {ls : List Label} {s : St} (h : Run (program agent) ls s) {c : Nat} (hl : s.link = some c) :
    agent c = true ∧ ∃ pre post u n, ls = pre ++ .link :: post ∧ Run (program agent) pre u ∧ u.phase = .toLink c n ∧
      ∀ pre' post' u' c' n', post = pre' ++ .link :: post' → Run (program agent) (pre ++ .link :: pre') u' → u'.phase = .toLink c' n' → agent c' = false := by
  have key := run_hist (step := step (program agent)) (s := init) (I := fun ls s => Run (program agent) ls s ∧ ∀ c, s.link = some c → agent c = true ∧
      ∃ pre post u n, ls = pre ++ .link :: post ∧ Run (program agent) pre u ∧ u.phase = .toLink c n ∧
      ∀ pre' post' u' c' n', post = pre' ++ .link :: post' → Run (program agent) (pre ++ .link :: pre') u' → u'.phase = .toLink c' n' → agent c' = false)
    (fun ls s l s' hI hs => ?_) ⟨rfl, fun c hc => by cases hc⟩ h
  · exact key.2 c hl
  · obtain ⟨hr, hI⟩ := hI
    refine ⟨by show runSteps _ _ _ = _; rw [run_append, show runSteps (step (program agent)) init ls = some s from hr]; simp [runSteps, hs], fun c hc => ?_⟩
    -- the link as it was
    have old : s.link = some c → (l = .link → ∀ c' n', s.phase = .toLink c' n' → agent c' = false) → agent c = true ∧
      ∃ pre post u n, ls ++ [l] = pre ++ .link :: post ∧ Run (program agent) pre u ∧ u.phase = .toLink c n ∧
      ∀ pre' post' u' c' n', post = pre' ++ .link :: post' → Run (program agent) (pre ++ .link :: pre') u' → u'.phase = .toLink c' n' → agent c' = false := by
      intro hc hlast
      obtain ⟨ha, pre, post, u, n, e, hu, hph, hno⟩ := hI c hc
      refine ⟨ha, pre, post ++ [l], u, n, by rw [e]; simp, hu, hph, fun pre' post' u' c' n' e' hu' hp' => ?_⟩
      rcases List.eq_nil_or_concat post' with rfl | ⟨post'', x, rfl⟩
      · have := List.append_inj' e' rfl
        simp at this
        obtain ⟨rfl, rfl⟩ := this
        have : u' = s := by
          have h1 : runSteps (step (program agent)) init (pre ++ .link :: post) = some u' := hu'
          rw [← e, show runSteps (step (program agent)) init ls = some s from hr] at h1
          exact (Option.some.inj h1).symm
        subst this
        exact hlast rfl c' n' hp'
      · have e2 : post ++ [l] = (pre' ++ .link :: post'') ++ [x] := by rw [e']; simp
        have := List.append_inj' e2 rfl
        exact hno pre' post'' u' c' n' this.1 hu' hp'
    cases l <;> simp only [step] at hs
    case link =>
      split at hs <;> cases hs
      rename_i c' n' hp
      by_cases ha : agent c' = true
      · have : c' = c := by simpa [relink, program, ha] using hc
        subst this
        exact ⟨ha, ls, [], s, n', rfl, hr, hp, fun pre' post' u' c' n' e' => by cases pre' <;> cases e'⟩
      · refine old (by simpa [relink, program, ha] using hc) fun _ c'' n'' hp' => ?_
        rw [hp] at hp'
        cases hp'
        simpa using ha
    all_goals (repeat' split at hs)
    all_goals cases hs
    all_goals exact old hc (fun e => by cases e)

/-- **C169**, exactly, for a client that has been given the session: file and link are right iff it has an agent, or no client of that name ever had
one. -/
theorem C169_exact {agent : Nat → Bool} {ls : List Label} {s : St} (h : Run (program agent) ls s) {c : Nat} (hp : s.phase = .attached c) :
    (s.env = some c ∧ s.link = if agent c then some c else none) ↔
      agent c = true ∨ ∀ pre post u c' n, ls = pre ++ .link :: post → Run (program agent) pre u → u.phase = .toLink c' n → agent c' = false := by
  obtain ⟨he, hl⟩ := C169_partial h hp
  by_cases ha : agent c = true
  · simp [ha, he, hl ha]
  · simp only [he, ha, if_false, true_and, false_or, Bool.false_eq_true]
    constructor
    · intro hn pre post u c' n e hu hph
      refine Classical.byContradiction fun hc => ?_
      rw [e] at h
      obtain ⟨u', hu', h2⟩ := run_append_some h
      cases (show runSteps (step (program agent)) init pre = some u from hu).symm.trans hu'
      obtain ⟨t, ht, h3⟩ := run_cons_some h2
      have key := run_inv (step := step (program agent)) (I := fun s => s.link ≠ none) (fun s l s' hI hs => ?_) ?_ h3
      · exact key hn
      · cases l <;> simp only [step] at hs
        all_goals (repeat' split at hs)
        all_goals cases hs
        all_goals first
          | exact hI
          | (rename_i c1 _ _
             by_cases h1 : agent c1 = true
             · simp [relink, program, h1]
             · simpa [relink, program, h1] using hI)
      · simp only [step, hph] at ht
        cases ht
        simp [relink, program, hc]
    · intro hno
      rcases hk : s.link with _ | c'
      · rfl
      · obtain ⟨ha', pre, post, u, n, e, hu, hph, -⟩ := C169_agent h hk
        rw [hno pre post u c' n e hu hph] at ha'
        cases ha'

/-- A client without an agent after one with: wrong; before: right. -/
example : ∃ s, Run (program (· == 1)) [.attach 2, .started, .link, .write, .join] s ∧ s.phase = .attached 2 ∧ s.link = none := ⟨_, rfl, rfl, rfl⟩

/-- **C169** for a daemon that makes the files before it starts the shell and removes the link of an earlier client. -/
theorem C169_repaired {agent : Nat → Bool} {ls : List Label} {s : St} (h : Run ⟨agent, true, true⟩ ls s) : Right ⟨agent, true, true⟩ s := by
  have := run_inv (step := step ⟨agent, true, true⟩) (I := fun s =>
    match s.phase with
    | .toLink _ n => n = true → s.shell = false
    | .toWrite c n => s.link = (if agent c then some c else none) ∧ (n = true → s.shell = false)
    | .ready c _ | .attached c | .starting c => s.env = some c ∧ s.link = (if agent c then some c else none)
    | .idle => True) (fun s l s' hI hs => ?_) (by trivial) h
  · intro c hc
    simp only [client] at hc
    split at hc
    · split at hc <;> simp_all
    · cases hc
  · cases l <;> simp only [step] at hs
    all_goals (repeat' split at hs)
    all_goals cases hs
    all_goals (simp_all [relink])

example : ∃ s, Run ⟨(· == 1), true, true⟩ [.attach 1, .link, .write, .spawn, .started, .join, .exit, .attach 2, .link, .write, .spawn] s ∧ client s = some 2 ∧
    s.env = some 2 ∧ s.link = none := ⟨_, rfl, rfl, rfl, rfl⟩

end Shpool.SessDir
