import Verif.Hooks.Lemmas
/-!
# Following the daemon by its hooks (C104)

hooks.rs: `on_new_session` is "triggered when a fresh session is created", `on_reattach` "when a user connects to an existing session",
`on_busy` "when a user tries connects to a session but can't because there is already a connected client", `on_client_disconnect`
"when the `shpool attach` process hangs up", `on_shell_disconnect` "when a session closes due to some event on the daemon such as the
shell exiting"; "any errors returned will simply be logged".
-/

namespace Shpool.Hooks
open Shpool.Server

/-- **C104**: what an attach request for the name `n` that is over has called, always with that name, in every interleaving: if it was
refused, `on_busy`; if it was served, an opening hook and then the closing one that fits (none only if it ended early, in the
pager); if it failed, nothing or, if the shell could not be started, `on_new_session`. -/
theorem C104_request {ls : List HLabel} {h : HSt} (hr : HRun ls h) (t : Nat) :
    (∀ c ∈ callsOf t h.log, ∃ j, .base (.select t c.name j) ∈ ls) ∧
    (h.base.thr t = .done .busy → (callsOf t h.log).map (·.hook) = [.busy]) ∧
    (h.base.thr t = .done .lost → (callsOf t h.log).map (·.hook) = [.newSession]) ∧
    (h.base.thr t = .done .error → callsOf t h.log = [] ∨
      ((callsOf t h.log).map (·.hook) = [.newSession] ∧ .base (.spawnFails t) ∈ ls)) ∧
    (h.base.thr t = .done .served → ∃ o, (o = .newSession ∨ o = .reattach) ∧
      (((callsOf t h.log).map (·.hook) = [o] ∧ .base (.abort t) ∈ ls) ∨
       ((callsOf t h.log).map (·.hook) = [o, .shellDisconnect] ∧ .base (.childDone t) ∈ ls) ∨
       ((callsOf t h.log).map (·.hook) = [o, .clientDisconnect] ∧ .base (.clientGone t) ∈ ls))) := by
  have hs := shape_of_run hr t
  have hn := named_of_run hr
  refine ⟨fun c hc => ?_, fun e => ?_, fun e => ?_, fun e => ?_, fun e => ?_⟩
  · simp only [callsOf, List.mem_filter, decide_eq_true_eq] at hc
    obtain ⟨j, hj⟩ := hn.log c hc.1
    exact ⟨j, hc.2 ▸ hj⟩
  all_goals rw [e] at hs; simp only [Shape] at hs
  · obtain ⟨-, n, h1⟩ := hs; rw [h1]; rfl
  · obtain ⟨-, n, h1⟩ := hs; rw [h1]; rfl
  · obtain ⟨-, h1 | ⟨n, h1, h2⟩⟩ := hs
    · exact .inl h1
    · exact .inr ⟨by rw [h1]; rfl, h2⟩
  · obtain ⟨-, n, o, ho, h1⟩ := hs
    refine ⟨o, ho, ?_⟩
    rcases h1 with ⟨h1, h2⟩ | ⟨h1, h2⟩ | ⟨h1, h2⟩
    · exact .inl ⟨by rw [h1]; rfl, h2⟩
    · exact .inr (.inl ⟨by rw [h1]; rfl, h2⟩)
    · exact .inr (.inr ⟨by rw [h1]; rfl, h2⟩)

/-- **C104**: the calls change nothing, whatever they return: the sessions are those of the same requests without hooks. -/
theorem C104_no_effect {ls : List HLabel} {h : HSt} (hr : HRun ls h) : Run (bases ls) h.base := base_run hr

/-- **C104**: when `on_busy` is called, another request holds the session in the table; when `on_reattach` is, the session in the table was
free and its shell running, and it is the one the request then holds. -/
theorem C104_moment {ls : List HLabel} {h h' : HSt} (hr : HRun ls h) {t n j} (e : hstep h (.base (.select t n j)) = some h') :
    (h'.log = h.log ++ [⟨t, .busy, n⟩] → ∃ x t', find n h.base.table = some x ∧ (h.base.thr t').holds x ∧ t' ≠ t) ∧
    (h'.log = h.log ++ [⟨t, .reattach, n⟩] → ∃ x, find n h.base.table = some x ∧ (h.base.sess x).alive = true ∧
      (∀ t', ¬ (h.base.thr t').holds x) ∧ h'.base.thr t = .owns n x) := by
  obtain ⟨s', hs, hb, hl, -, -⟩ := hstep_base e
  have hi := inv_of_run (base_run hr)
  have hid : h.base.thr t = .idle := by
    simp only [step] at hs
    split at hs
    · rename_i h1; exact h1.1
    · cases hs
  rw [hl]
  simp only [List.append_cancel_left_eq]
  have he := step_eff hs
  refine ⟨fun h1 => ?_, fun h1 => ?_⟩
  · simp only [now] at h1
    split at h1
    · cases h1
    · rename_i x hf
      split at h1
      · rename_i ho
        obtain ⟨o, ho⟩ := Option.isSome_iff_exists.mp ho
        refine ⟨x, o, hf, (hi.own o x).mpr ho, ?_⟩
        rintro rfl
        have := (hi.own o x).mpr ho
        rw [hid] at this
        exact this
      · split at h1 <;> cases h1
  · simp only [now] at h1
    split at h1
    · cases h1
    · rename_i x hf
      split at h1
      · cases h1
      · rename_i ho
        split at h1
        · rename_i ha
          have hno : (h.base.sess x).owner = none := by simpa using ho
          have hal : (h.base.sess x).alive = true := by simp at ha; exact ha.1
          refine ⟨x, hf, hal, fun t' ht => ?_, ?_⟩
          · have := (hi.own t' x).mp ht
            rw [hno] at this; cases this
          · rw [hb]
            cases he
            case reattach x' _ _ _ _ _ a6 =>
              rw [hf] at a6; cases a6
              simp [setThr, upd_apply]
            all_goals simp_all
        · cases h1

/-- **C104**: when `on_shell_disconnect` is called, the request serves a session of that name whose shell has ended; when `on_new_session`
is, the request is about to start a shell for that name. -/
theorem C104_moment_late {ls : List HLabel} {h h' : HSt} (hr : HRun ls h) {t ok} (e : hstep h (.call t ok) = some h') {c : Call}
    (hl : h'.log = h.log ++ [c]) :
    (c.hook = .newSession → h.base.thr t = .making c.name) ∧
    (c.hook = .shellDisconnect → ∃ x, (h.base.thr t).serves = some (c.name, x) ∧ (h.base.sess x).name = c.name ∧
      (h.base.sess x).alive = false) ∧
    (c.hook = .clientDisconnect → .base (.clientGone t) ∈ ls) := by
  obtain ⟨c', hc, hb, hl', -, -⟩ := hstep_call e
  rw [hl'] at hl
  simp only [List.append_cancel_left_eq, List.cons.injEq, and_true] at hl
  subst hl
  have hs := shape_of_run hr t
  have hi := inv_of_run (base_run hr)
  rw [hc] at hs
  unfold Shape at hs
  split at hs <;> rename_i hp
  case h_9 n x =>
    obtain ⟨h1, o, ho, ⟨h2, h3⟩ | ⟨h2, -⟩⟩ := hs
    · cases h2
      have h4 := hi.dead t _ _ hp
      have h5 := hi.ending t _ _ _ hp
      exact ⟨by simp, fun _ => ⟨_, by rw [hp]; rfl, h5.2, h4.2⟩, by simp⟩
    · cases h2
  all_goals grind

/-- The full claim: for every session name, opening and closing calls take turns. -/
def C104_statement : Prop := ∀ ls h n, HRun ls h → Alternates (callsFor n h.log)

def a : Name := ['a']

/-- **C104 fails**: `on_new_session` is called before the shell is started; if that fails there is no session, and nothing takes the
call back. -/
theorem C104_false : ¬ C104_statement := by
  intro h
  have := h [.base (.select 0 a false), .call 0 true, .base (.spawnFails 0), .base (.select 1 a false), .call 1 true] _ a rfl
  exact absurd this.2.1 (by rintro (h | h) <;> cases h)

/-- **C104 fails**: a client that hangs up while it is shown the pager: no closing call, though the session lives on and is attached
to again. -/
theorem C104_false_pager : ∃ h, HRun [.base (.select 0 a false), .call 0 true, .base (.spawn 0), .base (.insert 0), .base (.lookup 0),
    .base (.abort 0), .base (.release 0), .base (.select 1 a false)] h ∧ callsFor a h.log = [.newSession, .reattach] := ⟨_, rfl, rfl⟩

/-- **C104 fails**: a session that is killed while nobody is attached ends without a call (the same goes for one whose time is up or whose
shell exits). -/
theorem C104_false_kill : ∃ h, HRun [.base (.select 0 a false), .call 0 true, .base (.spawn 0), .base (.insert 0), .base (.lookup 0),
    .base (.start 0), .base (.clientGone 0), .base (.unlink 0), .call 0 true, .base (.release 0), .base (.kill [a] none),
    .base (.select 1 a false), .call 1 true] h ∧ callsFor a h.log = [.newSession, .clientDisconnect, .newSession] := ⟨_, rfl, rfl⟩

/-- **C104 fails**: a session killed while attached and created anew at once: the new one is announced before the old one is closed. -/
theorem C104_false_order : ∃ h, HRun [.base (.select 0 a false), .call 0 true, .base (.spawn 0), .base (.insert 0), .base (.lookup 0),
    .base (.start 0), .base (.kill [a] none), .base (.select 1 a false), .call 1 true, .base (.childDone 0), .call 0 true] h ∧
    callsFor a h.log = [.newSession, .newSession, .shellDisconnect] := ⟨_, rfl, rfl⟩

/-- **C104 (part)**: as long as no attach request fails or ends early, and one starts only while any other about that name holds the
session in the table, opening and closing calls take turns, for every name and every interleaving (also while calls are pending);
and more have been opened than closed exactly if some request has opened and not closed.  Missing: the other histories, where this
is false. -/
theorem C104_turns_partial {ls : List HLabel} {h : HSt} (hr : HRun ls h) (hq : HAlways Calm ls) (n : Name) :
    Alternates (callsFor n h.log) ∧ ((callsFor n h.log).length % 2 = 1 ↔ ∃ t o, (o = .newSession ∨ o = .reattach) ∧
      callsOf t h.log = [⟨t, o, n⟩]) :=
  ⟨(turns_of_run hr hq).alt n, (turns_of_run hr hq).odd n⟩

/-- A session created, left, taken again while another client is refused, and exited. -/
def day : List HLabel := [.base (.select 0 a false), .call 0 false, .base (.spawn 0), .base (.insert 0), .base (.lookup 0),
  .base (.start 0), .base (.select 3 a false), .base (.clientGone 0), .base (.unlink 0), .call 0 true, .base (.release 0),
  .base (.select 1 a false), .base (.start 1), .base (.exit 0), .base (.childDone 1), .call 1 true, .base (.unlink 1)]

example : ∃ h, HRun day h ∧ h.log = [⟨0, .newSession, a⟩, ⟨3, .busy, a⟩, ⟨0, .clientDisconnect, a⟩, ⟨1, .reattach, a⟩,
    ⟨1, .shellDisconnect, a⟩] ∧ callsFor a h.log = [.newSession, .clientDisconnect, .reattach, .shellDisconnect] := ⟨_, rfl, rfl, rfl⟩

/-- `HAlways` along a run, step by step. -/
def HAlwaysFrom (P : HSt → HLabel → Prop) : HSt → List HLabel → Prop
  | _, [] => True
  | s, l :: ls => P s l ∧ ∀ s', hstep s l = some s' → HAlwaysFrom P s' ls

theorem halways_of_from {P : HSt → HLabel → Prop} {ls : List HLabel} (h : HAlwaysFrom P hinit ls) : HAlways P ls := by
  have : ∀ (pre : List HLabel) (s0 s : HSt) (l : HLabel) (post : List HLabel), HAlwaysFrom P s0 (pre ++ l :: post) →
      runSteps hstep s0 pre = some s → P s l := by
    intro pre
    induction pre with
    | nil => intro s0 s l post h hr; cases hr; exact h.1
    | cons k pre ih =>
      intro s0 s l post h hr
      obtain ⟨s1, h1, h2⟩ := run_cons_some hr
      exact ih s1 s l post (h.2 s1 h1) h2
  intro pre l post s e hr
  exact this pre hinit s l post (e ▸ h) hr

/-- The conditions of the partial theorem hold along it. -/
theorem day_calm : HAlways Calm day := by
  refine halways_of_from ?_
  iterate 17
    refine ⟨?_, fun s' h => ?_⟩
    rotate_left 1
    cases h
  · trivial
  all_goals first
    | trivial
    | (intro n x h; cases h; decide)
    | (intro t' h
       rcases t' with _ | _ | _ | _ | t' <;> rcases h with h | ⟨x, h⟩ | ⟨c, h, h'⟩ <;> cases h <;> exact ⟨0, rfl, rfl⟩)

end Shpool.Hooks
