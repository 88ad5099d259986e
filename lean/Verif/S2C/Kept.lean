import Verif.S2C.Props
/-!
# C166: the picture kept for a restore has the size of the session's terminal

The restore engine is made for the size in the request that creates the session (server.rs 1146, shell.rs 290-291).  The first client is
handed over with the size its terminal has after the message of the day was shown in a pager (server.rs 309-339, shell.rs 687), and only the
terminal of the session is given that size (shell.rs 308-312).
-/

namespace Shpool.S2C

/-- The size a client is handed over with: that in its request, or the one it had when the pager ended (server.rs 309-337). -/
def handedSize (asked : TtySize) (pager : Option TtySize) : TtySize := pager.getD asked

/-- The last size the restore engine was given. -/
def lastGiven : List SpoolOp → Option TtySize
  | [] => none
  | .process _ :: r => lastGiven r
  | .resize z _ :: r => (lastGiven r).orElse fun _ => some z

/-- The size of the restore engine, made for `z`, after `ops`. -/
def keptSize (z : TtySize) (ops : List SpoolOp) : TtySize := (lastGiven ops).getD z

/-- **C166**, as stated: when no resize is pending, the restore engine has the size of the session's terminal. -/
def C166_statement : Prop := ∀ (P : Params) (asked : TtySize) (pager : Option TtySize) (id : Nat) (ls : List Label) (s : St),
  Run P (.initial (some (.new id (handedSize asked pager))) :: ls) s → Running s → s.resize = none → keptSize asked s.spool = s.pty

theorem lastGiven_append (a b : List SpoolOp) : lastGiven (a ++ b) = (lastGiven b).or (lastGiven a) := by
  induction a with
  | nil => simp [lastGiven]
  | cons o a ih =>
    cases o with
    | process x => simp only [List.cons_append, lastGiven, ih]
    | resize z c =>
      simp only [List.cons_append, lastGiven, ih]
      cases lastGiven b <;> cases lastGiven a <;> rfl

/-- The size asked for by a request other than the first. -/
def laterRequest : Label → Option TtySize
  | .initial _ => none
  | l => request l

private def KeptInv (ls : List Label) (s : St) : Prop := Running s → lastGiven s.spool = (ls.filterMap laterRequest).getLast?

private theorem kept_keep {ls : List Label} {s s' : St} {l : Label} (hI : KeptInv ls s) (hl : laterRequest l = none)
    (hr : Running s' → Running s) (hs : lastGiven s'.spool = lastGiven s.spool) : KeptInv (ls ++ [l]) s' := by
  intro hrun
  rw [hs, hI (hr hrun), List.filterMap_append]
  simp [hl]

private theorem step_kept (P : Params) (ls : List Label) (s : St) (l : Label) (s' : St) (hI : KeptInv ls s)
    (h : step P s l = some s') : KeptInv (ls ++ [l]) s' := by
  cases step_eff P s s' l h with
  | initClosed => exact fun hr => absurd rfl (hr .err)
  | connClosed => exact fun hr => absurd rfl (hr .ok)
  | newFail => exact fun hr => absurd rfl (hr .err)
  | newPanic => exact fun hr => absurd rfl (hr .panic)
  | discFail => exact fun hr => absurd rfl (hr .err)
  | dexitFail => exact fun hr => absurd rfl (hr .err)
  | dexitOk => exact fun hr => absurd rfl (hr .ok)
  | sizeClosed => exact fun hr => absurd rfl (hr .ok)
  | heartbeatErr => exact fun hr => absurd rfl (hr .err)
  | switchErr => exact fun hr => absurd rfl (hr .err)
  | pollErr => exact fun hr => absurd rfl (hr .err)
  | readErr => exact fun hr => absurd rfl (hr .err)
  | hangup => exact fun hr => absurd rfl (hr .ok)
  | motdPanic => exact fun hr => absurd rfl (hr .panic)
  | initNew id z hpc => exact kept_keep hI rfl (fun _ => running_of_pc hpc (by simp)) rfl
  | newOk id z =>
    intro _
    simp [lastGiven_append, lastGiven, List.filterMap_append, laterRequest, request]
  | size z =>
    intro _
    simp [lastGiven_append, lastGiven, List.filterMap_append, laterRequest, request]
  | initOther m hpc hm => exact kept_keep hI rfl (fun _ => running_of_pc hpc (by simp)) rfl
  | settleDue r z due hpc hz hd => exact kept_keep hI rfl (fun _ => running_of_pc hpc (by simp)) rfl
  | settleLate r hpc => exact kept_keep hI rfl (fun _ => running_of_pc hpc (by simp)) rfl
  | default hpc => exact kept_keep hI rfl (fun _ => running_of_pc hpc (by simp)) rfl
  | discOk _ _ hpc => exact kept_keep hI rfl (fun _ => running_of_pc hpc (by simp)) rfl
  | heartbeatNo hpc => exact kept_keep hI rfl (fun _ => running_of_pc hpc (by simp)) rfl
  | heartbeatOk _ hpc => exact kept_keep hI rfl (fun _ => running_of_pc hpc (by simp)) rfl
  | switchSkip _ hpc => exact kept_keep hI rfl (fun _ => running_of_pc hpc (by simp)) rfl
  | switchPipe _ _ hpc => exact kept_keep hI rfl (fun _ => running_of_pc hpc (by simp)) rfl
  | switchOk _ _ hpc => exact kept_keep hI rfl (fun _ => running_of_pc hpc (by simp)) rfl
  | timeout hpc => exact kept_keep hI rfl (fun _ => running_of_pc hpc (by simp)) rfl
  | hidden _ _ hpc => exact kept_keep hI rfl (fun _ => running_of_pc hpc (by simp)) rfl
  | noClient _ _ _ hpc => exact kept_keep hI rfl (fun _ => running_of_pc hpc (by simp)) (by simp [lastGiven_append, lastGiven])
  | relay _ _ _ _ hpc => exact kept_keep hI rfl (fun _ => running_of_pc hpc (by simp)) (by simp [lastGiven_append, lastGiven])
  | broken _ _ _ _ hpc => exact kept_keep hI rfl (fun _ => running_of_pc hpc (by simp)) (by simp [lastGiven_append, lastGiven])
  | tick ms => exact kept_keep hI rfl (fun h => h) rfl
  | write => exact kept_keep hI rfl (fun h => h) rfl
  | close => exact kept_keep hI rfl (fun h => h) rfl
  | exitKnown => exact kept_keep hI rfl (fun h => h) rfl
  | breaks => exact kept_keep hI rfl (fun h => h) rfl
  | setMotd => exact kept_keep hI rfl (fun h => h) rfl

private theorem run_kept {P : Params} {ls : List Label} {s : St} (h : Run P ls s) : KeptInv ls s :=
  run_hist (I := KeptInv) (step_kept P) (fun _ => rfl) h

/-- After the first message no other first message is handled. -/
private theorem rest_not_initial {P : Params} {ls : List Label} {s s0 : St} (h0 : s0.pc ≠ .waitInitial)
    (h : runSteps (step P) s0 ls = some s) : ∀ l ∈ ls, ∀ m, l ≠ .initial m := by
  induction ls generalizing s0 with
  | nil => simp
  | cons l ls ih =>
    obtain ⟨s1, h1, h2⟩ := run_cons_some h
    have hne : (∀ m, l ≠ .initial m) ∧ s1.pc ≠ .waitInitial := by
      cases step_eff P s0 s1 l h1 <;> first
        | (exfalso; apply h0; assumption)
        | exact ⟨(by intro m hm; cases hm), h0⟩
        | exact ⟨(by intro m hm; cases hm), by simp [finish]⟩
        | (refine ⟨(by intro m hm; cases hm), ?_⟩; simp_all)
    intro l' hm
    rcases List.mem_cons.1 hm with rfl | hm
    · exact hne.1
    · exact ih hne.2 h2 l' hm

private theorem later_eq {ls : List Label} (h : ∀ l ∈ ls, ∀ m, l ≠ .initial m) : ls.filterMap laterRequest = ls.filterMap request := by
  induction ls with
  | nil => rfl
  | cons l ls ih =>
    have e : laterRequest l = request l := by
      cases l with
      | initial m => exact absurd rfl (h _ (by simp) m)
      | _ => rfl
    rw [List.filterMap_cons, List.filterMap_cons, e, ih fun l hm => h l (by simp [hm])]

/-- **C166** (exact).  When no resize is pending the restore engine has the size of the session's terminal exactly if there has been a
request since the first (an attach or a resize), or the first client's terminal had the size it asked for when it was handed over. -/
theorem C166_exact (P : Params) (asked : TtySize) (pager : Option TtySize) (id : Nat) (ls : List Label) (s : St)
    (h : Run P (.initial (some (.new id (handedSize asked pager))) :: ls) s) (hr : Running s) (hn : s.resize = none) :
    keptSize asked s.spool = s.pty ↔ (∃ l ∈ ls, request l ≠ none) ∨ handedSize asked pager = asked := by
  have hk := run_kept h hr
  obtain ⟨s1, h1, h2⟩ := run_cons_some h
  have h1' : s1.pc ≠ .waitInitial := by
    simp only [step, init, initialStep] at h1
    simp at h1
    subst h1
    simp
  have hni := rest_not_initial h1' h2
  have hk : lastGiven s.spool = (ls.filterMap request).getLast? := by
    rw [hk, List.filterMap_cons]
    simp only [laterRequest]
    rw [later_eq hni]
  have hp : ∀ z, lastRequested (.initial (some (.new id (handedSize asked pager))) :: ls) = some z → s.pty = z :=
    fun z hz => C23_settled P _ s h hr hn z hz
  have hlr : lastRequested (.initial (some (.new id (handedSize asked pager))) :: ls) =
      some (((ls.filterMap request).getLast?).getD (handedSize asked pager)) := by
    simp [lastRequested, request, List.getLast?_cons]
  have hp := hp _ hlr
  rw [keptSize, hk, hp]
  cases hg : (ls.filterMap request).getLast? with
  | none =>
    have hnil : ls.filterMap request = [] := List.getLast?_eq_none_iff.1 hg
    have hno : ¬ ∃ l ∈ ls, request l ≠ none := by
      rintro ⟨l, hm, hl⟩
      exact hl (List.filterMap_eq_nil_iff.1 hnil l hm)
    simp only [Option.getD_none]
    exact ⟨fun e => .inr e.symm, fun e => (e.resolve_left hno).symm⟩
  | some z =>
    have hyes : ∃ l ∈ ls, request l ≠ none := by
      apply Classical.byContradiction
      intro hno
      have : ls.filterMap request = [] := List.filterMap_eq_nil_iff.2 fun l hm =>
        Classical.byContradiction fun hl => hno ⟨l, hm, hl⟩
      rw [this] at hg; cases hg
    simp [hyes]

/-- **C166**, if no pager is shown to the client that creates the session, or its terminal is as large afterwards. -/
theorem C166_partial (P : Params) (asked : TtySize) (pager : Option TtySize) (id : Nat) (ls : List Label) (s : St)
    (hp : ∀ z, pager = some z → z = asked)
    (h : Run P (.initial (some (.new id (handedSize asked pager))) :: ls) s) (hr : Running s) (hn : s.resize = none) :
    keptSize asked s.spool = s.pty := by
  refine (C166_exact P asked pager id ls s h hr hn).2 (.inr ?_)
  cases pager with
  | none => rfl
  | some z => exact hp z rfl

/-- **C166** (later): from the first resize or further attach on. -/
theorem C166_later (P : Params) (asked : TtySize) (pager : Option TtySize) (id : Nat) (ls : List Label) (s : St)
    (h : Run P (.initial (some (.new id (handedSize asked pager))) :: ls) s) (hr : Running s) (hn : s.resize = none)
    (hl : ∃ l ∈ ls, request l ≠ none) : keptSize asked s.spool = s.pty := (C166_exact P asked pager id ls s h hr hn).2 (.inl hl)

/-- **C166 is false**: the terminal was made larger while the message of the day was shown.  What the shell prints then is kept for 24
rows of 80 on a terminal that has 50 of 120. -/
theorem C166_false : ¬ C166_statement := by
  intro h
  have hr : ∃ s, Run P0 [.initial (some (.new 1 (handedSize ⟨24, 80, 0, 0⟩ (some ⟨50, 120, 0, 0⟩)))), .select .default, .settle, .shellWrite [104],
      .poll (.read 1)] s ∧ s.pc = .select ∧ s.resize = none ∧ s.pty = ⟨50, 120, 0, 0⟩ ∧ keptSize ⟨24, 80, 0, 0⟩ s.spool = ⟨24, 80, 0, 0⟩ :=
    ⟨_, rfl, by decide, by decide, by decide, by decide⟩
  obtain ⟨s, hr, hpc, hn, hp, hk⟩ := hr
  have := h P0 _ _ _ _ s hr (running_of_pc hpc (by simp)) hn
  rw [hk, hp] at this
  exact absurd this (by decide)

/-- Everything printed before the next request is kept for the wrong size: nothing but a request changes it. -/
theorem C166_false_lasts (P : Params) (asked z : TtySize) (hz : z ≠ asked) (id : Nat) (ls : List Label) (s : St)
    (h : Run P (.initial (some (.new id (handedSize asked (some z)))) :: ls) s) (hr : Running s) (hn : s.resize = none)
    (hl : ∀ l ∈ ls, request l = none) : s.pty = z ∧ keptSize asked s.spool = asked := by
  have hne : keptSize asked s.spool ≠ s.pty := by
    rw [Ne, C166_exact P asked (some z) id ls s h hr hn]
    rintro (⟨l, hm, hq⟩ | e)
    · exact hq (hl l hm)
    · exact hz e
  have hnil : ls.filterMap request = [] := List.filterMap_eq_nil_iff.2 hl
  have hp : s.pty = z := C23_settled P _ s h hr hn z (by simp [lastRequested, request, hnil, handedSize])
  refine ⟨hp, ?_⟩
  have hk := run_kept h hr
  have hla : ∀ l ∈ ls, laterRequest l = none := by
    intro l hm
    cases l with
    | initial m => rfl
    | _ => exact hl _ hm
  rw [List.filterMap_cons] at hk
  simp only [laterRequest] at hk
  rw [List.filterMap_eq_nil_iff.2 hla] at hk
  simp [keptSize, hk]

/-- **C166** for a thread that makes the restore engine for the size of the first client it is handed. -/
theorem C166_repaired (P : Params) (z : TtySize) (id : Nat) (ls : List Label) (s : St) (h : Run P (.initial (some (.new id z)) :: ls) s)
    (hr : Running s) (hn : s.resize = none) : keptSize z s.spool = s.pty := by
  have := C166_exact P z none id ls s h hr hn
  exact this.2 (.inr rfl)

/-- The demonstration history of Props: a first client that asked for what it has, a second one, a resize, a detach. -/
example : ∃ s, Run P0 (.initial (some (.new 1 (handedSize z0 none))) :: demo.drop 1) s ∧ s.resize = none ∧ s.pc = .select ∧
    keptSize z0 s.spool = ⟨31, 91, 0, 0⟩ := ⟨_, rfl, by decide, by decide, by decide⟩

end Shpool.S2C
