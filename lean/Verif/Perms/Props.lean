import Verif.Perms.Model
/-!
# C87, C99, C100: umask, the environment files, the events socket
-/

namespace Shpool.Perms

open Shpool

/-! ## C87: the umask -/

/-- The full property: the shells of a daemon have the umask the daemon was started with. -/
def C87_statement : Prop := ∀ how mask, shellMask how mask = mask

/-- **C87 (defect)**: a daemon launched by a client clears its umask for good.  With the usual umask 022 everything made in a session can
be changed by everybody, unless the shell's start-up files set a umask. -/
theorem C87_false : ¬ C87_statement := by
  intro h
  have := h .auto 0o022#9
  revert this
  decide

/-- **C87 (defect)**, in terms of files: everyone may write to what such shells create. -/
theorem C87_false_files (mask : Mode) (u : Other) : mayWrite u (create (shellMask .auto mask) fileReq) = true := by
  cases u with | mk g => cases g <;> simp [mayWrite, create, shellMask, daemonMask, fileReq, Other.shift]

/-- **C87 (part)**: daemons started by hand or by systemd.  Missing: those launched by a client. -/
theorem C87_plain_partial (mask req : Mode) : shellMask .plain mask = mask ∧
    ∀ i, i < 9 → (create (shellMask .plain mask) req).getLsbD i = (req.getLsbD i && !mask.getLsbD i) := by
  refine ⟨rfl, fun i hi => ?_⟩
  simp [create, shellMask, daemonMask, hi]

/-! ## C100: the events socket -/

/-- **C100**: who can subscribe, exactly: those who can reach the socket if the daemon was launched by a client, and otherwise those of
them the umask does not forbid to write. -/
theorem C100_who (u : Other) (dirs : List Mode) (how : Start) (mask : Mode) :
    canSubscribe u dirs (eventsSocket how mask) = true ↔
      (∀ d ∈ dirs, mayUse u d = true) ∧ (how = .plain → mayWrite u mask = false) := by
  cases u with | mk g => cases g <;> cases how <;>
    simp [canSubscribe, eventsSocket, create, daemonMask, mayWrite, Other.shift, dirReq]

/-- The full property: no other user can subscribe. -/
def C100_statement : Prop := ∀ u dirs how mask, mask &&& 0o022#9 = 0o022#9 → canSubscribe u dirs (eventsSocket how mask) = false

/-- **C100 (defect)**: with the usual umask and directories everyone can, if the daemon was launched by a client. -/
theorem C100_false : ¬ C100_statement := by
  intro h
  have := h ⟨false⟩ [0o755#9, 0o755#9] .auto 0o022#9 rfl
  revert this
  decide

theorem usual_mask {mask : Mode} (h : mask &&& 0o022#9 = 0o022#9) (u : Other) : mayWrite u mask = true := by
  have h1 : (mask &&& 0o022#9).getLsbD 1 = true := by rw [h]; decide
  have h4 : (mask &&& 0o022#9).getLsbD 4 = true := by rw [h]; decide
  rw [BitVec.getLsbD_and, Bool.and_eq_true] at h1 h4
  cases u with | mk g => cases g <;> first | exact h1.1 | exact h4.1

/-- **C100 (part)**: nobody can if the daemon was started by hand or by systemd, or if one of the directories shuts them out (as
XDG_RUNTIME_DIR does).  Missing: a daemon launched by a client, in directories open to all. -/
theorem C100_closed_partial (u : Other) (dirs : List Mode) (how : Start) (mask : Mode) (hm : mask &&& 0o022#9 = 0o022#9)
    (h : how = .plain ∨ ∃ d ∈ dirs, mayUse u d = false) : canSubscribe u dirs (eventsSocket how mask) = false := by
  cases hc : canSubscribe u dirs (eventsSocket how mask) with
  | false => rfl
  | true =>
    obtain ⟨h1, h2⟩ := (C100_who u dirs how mask).mp hc
    rcases h with h | ⟨d, hd, h⟩
    · rw [usual_mask hm] at h2; exact absurd (h2 h) (by simp)
    · rw [h1 d hd] at h; cases h

example : canSubscribe ⟨true⟩ [0o755#9, 0o700#9] (eventsSocket .auto 0o022#9) = false ∧
    canSubscribe ⟨true⟩ [0o755#9, 0o755#9] (eventsSocket .plain 0o022#9) = false := by decide

/-! ## C99: the environment files -/

/-- A daemon that has just started.  Nobody has attached in this runtime directory before. -/
def fresh (how : Start) (mask : Mode) (outer : List Mode) : St :=
  ⟨daemonMask how mask, outer, none, fun _ => none, fun _ => none, fun _ => []⟩

/-- The full property: no other user can read the variables forwarded to a session. -/
def C99_statement : Prop := ∀ how mask outer ls s u n, mask &&& 0o022#9 = 0o022#9 →
  runSteps step (fresh how mask outer) ls = some s → canReadEnv u s n = false

/-- **C99 (defect)**: with the usual umask and directories, an attach from a client without SSH_AUTH_SOCK leaves them open to all. -/
theorem C99_false : ¬ C99_statement := by
  intro h
  have := h .plain 0o022#9 [0o755#9, 0o755#9] [.request 0 0 false false, .step 0, .step 0] _ ⟨false⟩ 0 rfl rfl
  revert this
  decide

/-- **C99 (defect)**: the same with an agent, if the configuration says not to link it. -/
theorem C99_false_nosymlink : ∃ s, runSteps step (fresh .auto 0o077#9 [0o755#9]) [.request 0 0 true true, .step 0, .step 0] = some s ∧
    canReadEnv ⟨false⟩ s 0 = true := ⟨_, rfl, by decide⟩

theorem step_outer {s s' : St} {l : Label} (h : step s l = some s') : s'.outer = s.outer ∧ s'.mask = s.mask := by
  cases l with
  | request t n a b =>
    simp only [step] at h
    split at h <;> cases h
    exact ⟨rfl, rfl⟩
  | fail t => simp only [step] at h; cases h; exact ⟨rfl, rfl⟩
  | step t =>
    simp only [step] at h
    cases ht : s.thr t with
    | nil => simp only [ht] at h; cases h
    | cons op rest => simp only [ht] at h; cases h; cases op <;> exact ⟨rfl, rfl⟩

/-- **C99 (part)**: nobody can if one of the directories above shuts them out, whatever there was before.  (XDG_RUNTIME_DIR does.)
Missing: directories open to all; see the next ones. -/
theorem C99_outer_partial {s s' : St} {ls : List Label} (u : Other) (h : runSteps step s ls = some s')
    (ho : ∃ d ∈ s.outer, mayUse u d = false) (n : Nat) : canReadEnv u s' n = false := by
  have he : s'.outer = s.outer := run_inv (I := fun s1 => s1.outer = s.outer)
    (fun s1 l s2 hi hs => (step_outer hs).1.trans hi) rfl h
  obtain ⟨d, hd, hu⟩ := ho
  have : s'.outer.all (mayUse u) = false := by
    rw [he, List.all_eq_false]; exact ⟨d, hd, by simp [hu]⟩
  unfold canReadEnv
  split <;> simp [this]

/-- The sessions directory is closed. -/
def Locked (s : St) : Prop := s.sessions = some 0o700#9

theorem locked_closed {s : St} (h : Locked s) (u : Other) (n : Nat) : canReadEnv u s n = false := by
  have : mayUse u 0o700#9 = false := by cases u with | mk g => cases g <;> decide
  unfold canReadEnv
  rw [h]
  split <;> simp_all

theorem locked_step {s s' : St} {l : Label} (hi : Locked s) (h : step s l = some s') : Locked s' := by
  unfold Locked at *
  cases l with
  | request t n a b =>
    simp only [step] at h
    split at h <;> cases h
    exact hi
  | fail t => simp only [step] at h; cases h; exact hi
  | step t =>
    simp only [step] at h
    cases ht : s.thr t with
    | nil => simp only [ht] at h; cases h
    | cons op rest => simp only [ht] at h; cases h; cases op <;> simp [exec, hi]

/-- Requests in progress: the rest of the steps of a request, and the sessions directory exists when it is to be closed. -/
def Rest (s : St) (ops : List Op) : Prop := ∃ n,
  ops = [.mkdirs n, .lock, .mkdirs n, .write n] ∨ (ops = [.lock, .mkdirs n, .write n] ∧ s.sessions.isSome) ∨
  ops = [.mkdirs n, .write n] ∨ ops = [.write n] ∨ ops = []

/-- States without requests in progress, whatever files there are. -/
def Idle (s : St) : Prop := ∀ t, s.thr t = []

theorem some_step {s s' : St} {l : Label} (hi : s.sessions.isSome) (h : step s l = some s') : s'.sessions.isSome := by
  cases l with
  | request t n a b =>
    simp only [step] at h
    split at h <;> cases h
    exact hi
  | fail t => simp only [step] at h; cases h; exact hi
  | step t =>
    simp only [step] at h
    cases ht : s.thr t with
    | nil => simp only [ht] at h; cases h
    | cons op rest => simp only [ht] at h; cases h; cases op <;> simp [exec, hi]

theorem rest_mono {s s' : St} {ops : List Op} (h : s.sessions.isSome → s'.sessions.isSome) (hr : Rest s ops) : Rest s' ops := by
  obtain ⟨n, hr⟩ := hr
  refine ⟨n, ?_⟩
  rcases hr with e | ⟨e, f⟩ | e | e | e
  · exact .inl e
  · exact .inr (.inl ⟨e, h f⟩)
  · exact .inr (.inr (.inl e))
  · exact .inr (.inr (.inr (.inl e)))
  · exact .inr (.inr (.inr (.inr e)))

theorem rest_step {s s' : St} {l : Label} (hi : ∀ t, Rest s (s.thr t)) (h : step s l = some s') : ∀ t, Rest s' (s'.thr t) := by
  have hm : ∀ ops, Rest s ops → Rest s' ops := fun ops => rest_mono (fun e => some_step e h)
  intro t'
  cases l with
  | request t n a b =>
    simp only [step] at h
    split at h <;> cases h
    show Rest _ (upd s.thr t _ t')
    rw [upd_apply]
    split
    · refine ⟨n, ?_⟩
      cases a <;> cases b <;> simp [attachOps]
    · exact hm _ (hi t')
  | fail t =>
    simp only [step] at h; cases h
    show Rest _ (upd s.thr t _ t')
    rw [upd_apply]
    split
    · exact ⟨0, by simp⟩
    · exact hm _ (hi t')
  | step t =>
    simp only [step] at h
    have ht := hi t
    cases hc : s.thr t with
    | nil => simp only [hc] at h; cases h
    | cons op rest =>
      simp only [hc] at h; cases h
      show Rest _ (upd s.thr t _ t')
      rw [upd_apply]
      split
      · rw [hc] at ht
        obtain ⟨n, e | ⟨e, f⟩ | e | e | e⟩ := ht <;> cases e
        · exact ⟨n, .inr (.inl ⟨rfl, by simp [exec]⟩)⟩
        · exact ⟨n, by simp⟩
        · exact ⟨n, by simp⟩
        · exact ⟨n, by simp⟩
      · exact hm _ (hi t')

theorem idle_rest {s : St} (h : Idle s) : ∀ t, Rest s (s.thr t) := fun t => ⟨0, by simp [h t]⟩

/-- **C99 (part)**: once some request has come past the point where the sessions directory is closed, nobody can read any of them again:
neither new ones nor old ones, whatever modes the files had before and whatever requests follow or are in progress.  (Every attach
from a client with an agent gets there unless `nosymlink_ssh_auth_sock` is set: the next theorem.)  Missing: before that. -/
theorem C99_locked_partial {s0 s1 s2 s3 : St} {ls ls' : List Label} {t : Nat} {rest : List Op} (hi : Idle s0)
    (h1 : runSteps step s0 ls = some s1) (ht : s1.thr t = .lock :: rest) (h2 : step s1 (.step t) = some s2)
    (h3 : runSteps step s2 ls' = some s3) (u : Other) (n : Nat) : canReadEnv u s3 n = false := by
  have hr := run_inv (I := fun s => ∀ t, Rest s (s.thr t)) (fun _ _ _ hi hs => rest_step hi hs) (idle_rest hi) h1 t
  have hs : s1.sessions.isSome := by
    rw [ht] at hr
    obtain ⟨m, e | ⟨e, f⟩ | e | e | e⟩ := hr <;> cases e
    exact f
  have hl : Locked s2 := by
    simp only [step, ht] at h2
    cases h2
    obtain ⟨m, hm⟩ := Option.isSome_iff_exists.mp hs
    simp [Locked, exec, hm]
  exact locked_closed (run_inv (I := Locked) (fun _ _ _ hi hs => locked_step hi hs) hl h3) u n

/-- Requests that close the sessions directory. -/
def Closes : Label → Prop
  | .request _ _ ssh nosymlink => ssh = true ∧ nosymlink = false
  | _ => True

/-- With only such requests, a request that is past closing the directory finds it closed, and there are files only in a closed one. -/
structure Safe (s : St) : Prop where
  env : ∀ n, (s.env n).isSome → Locked s
  thr : ∀ t, ∃ n, s.thr t = [.mkdirs n, .lock, .mkdirs n, .write n] ∨ (s.thr t = [.lock, .mkdirs n, .write n] ∧ s.sessions.isSome) ∨
    (s.thr t = [.mkdirs n, .write n] ∧ Locked s) ∨ (s.thr t = [.write n] ∧ Locked s) ∨ s.thr t = []

theorem safe_step {s s' : St} {l : Label} (hc : Closes l) (hi : Safe s) (h : step s l = some s') : Safe s' := by
  have hm : Locked s → Locked s' := fun e => locked_step e h
  have hm2 : s.sessions.isSome → s'.sessions.isSome := fun e => some_step e h
  have keep : ∀ t', (∃ n, s.thr t' = [.mkdirs n, .lock, .mkdirs n, .write n] ∨ (s.thr t' = [.lock, .mkdirs n, .write n] ∧ s'.sessions.isSome) ∨
      (s.thr t' = [.mkdirs n, .write n] ∧ Locked s') ∨ (s.thr t' = [.write n] ∧ Locked s') ∨ s.thr t' = []) := by
    intro t'
    obtain ⟨n, e | ⟨e, f⟩ | ⟨e, f⟩ | ⟨e, f⟩ | e⟩ := hi.thr t'
    · exact ⟨n, .inl e⟩
    · exact ⟨n, .inr (.inl ⟨e, hm2 f⟩)⟩
    · exact ⟨n, .inr (.inr (.inl ⟨e, hm f⟩))⟩
    · exact ⟨n, .inr (.inr (.inr (.inl ⟨e, hm f⟩)))⟩
    · exact ⟨n, .inr (.inr (.inr (.inr e)))⟩
  cases l with
  | request t n a b =>
    obtain ⟨rfl, rfl⟩ := hc
    simp only [step] at h
    split at h <;> cases h
    refine ⟨hi.env, fun t' => ?_⟩
    show ∃ m, upd s.thr t _ t' = _ ∨ (upd s.thr t _ t' = _ ∧ _) ∨ (upd s.thr t _ t' = _ ∧ _) ∨ (upd s.thr t _ t' = _ ∧ _) ∨ upd s.thr t _ t' = _
    rw [upd_apply]
    split
    · exact ⟨n, .inl (by simp [attachOps])⟩
    · exact keep t'
  | fail t =>
    simp only [step] at h; cases h
    refine ⟨hi.env, fun t' => ?_⟩
    show ∃ m, upd s.thr t _ t' = _ ∨ (upd s.thr t _ t' = _ ∧ _) ∨ (upd s.thr t _ t' = _ ∧ _) ∨ (upd s.thr t _ t' = _ ∧ _) ∨ upd s.thr t _ t' = _
    rw [upd_apply]
    split
    · exact ⟨0, by simp⟩
    · exact keep t'
  | step t =>
    have ht := hi.thr t
    simp only [step] at h
    cases hc : s.thr t with
    | nil => simp only [hc] at h; cases h
    | cons op rest =>
      simp only [hc] at h; cases h
      rw [hc] at ht
      constructor
      · intro m he
        obtain ⟨n, e | ⟨e, f⟩ | ⟨e, f⟩ | ⟨e, f⟩ | e⟩ := ht <;> cases e
        · exact hm (hi.env m he)
        · exact hm (hi.env m he)
        · exact hm f
        · exact hm f
      · intro t'
        show ∃ m, upd s.thr t _ t' = _ ∨ (upd s.thr t _ t' = _ ∧ _) ∨ (upd s.thr t _ t' = _ ∧ _) ∨ (upd s.thr t _ t' = _ ∧ _) ∨
          upd s.thr t _ t' = _
        rw [upd_apply]
        split
        · obtain ⟨n, e | ⟨e, f⟩ | ⟨e, f⟩ | ⟨e, f⟩ | e⟩ := ht <;> cases e
          · exact ⟨n, .inr (.inl ⟨rfl, by simp [exec]⟩)⟩
          · refine ⟨n, .inr (.inr (.inl ⟨rfl, ?_⟩))⟩
            obtain ⟨m, hm⟩ := Option.isSome_iff_exists.mp f
            simp [Locked, exec, hm]
          · exact ⟨n, .inr (.inr (.inr (.inl ⟨rfl, hm f⟩)))⟩
          · exact ⟨n, by simp⟩
        · exact keep t'

/-- **C99 (part)**: if all clients have an agent, and `nosymlink_ssh_auth_sock` is not set, nobody can ever read any of them, however the
requests run together and wherever they fail, if there were no environment files before.  Missing: other clients. -/
theorem C99_agent_partial {s s' : St} {ls : List Label} (hi : Idle s) (he : ∀ n, s.env n = none) (hc : ∀ l ∈ ls, Closes l)
    (h : runSteps step s ls = some s') (u : Other) (n : Nat) : canReadEnv u s' n = false := by
  have hs : Safe s := ⟨fun n e => by simp [he n] at e, fun t => ⟨0, by simp [hi t]⟩⟩
  have key : ∀ (ls : List Label) (s : St), Safe s → (∀ l ∈ ls, Closes l) → runSteps step s ls = some s' → Safe s' := by
    intro ls
    induction ls with
    | nil => intro s hs _ h; cases h; exact hs
    | cons l ls ih =>
      intro s hs hc h
      obtain ⟨s1, h1, h2⟩ := run_cons_some h
      exact ih s1 (safe_step (hc l (by simp)) hs h1) (fun l hl => hc l (by simp [hl])) h2
  have hs' := key ls s hs hc h
  cases hv : s'.env n with
  | none => unfold canReadEnv; rw [hv]; split <;> simp_all
  | some m => exact locked_closed (hs'.env n (by simp [hv])) u n

/-- **C99 (part)**: a daemon not launched by a client with a umask that takes the permission to read from others.  Missing: the usual umask,
and daemons launched by a client. -/
theorem C99_umask_partial {ls : List Label} {s' : St} (mask : Mode) (outer : List Mode) (u : Other) (hm : mayRead u mask = true)
    (h : runSteps step (fresh .plain mask outer) ls = some s') (n : Nat) : canReadEnv u s' n = false := by
  have hu : u.shift + 2 < 9 := by unfold Other.shift; split <;> omega
  have hI : s'.mask = mask ∧ ∀ n m, s'.env n = some m → mayRead u m = false := by
    refine run_inv (step := step) (I := fun s => s.mask = mask ∧ ∀ n m, s.env n = some m → mayRead u m = false) ?_ ⟨rfl, by simp [fresh]⟩ h
    intro s l s2 ⟨h1, h2⟩ hs
    refine ⟨(step_outer hs).2.trans h1, ?_⟩
    cases l with
    | request t n a b =>
      simp only [step] at hs
      split at hs <;> cases hs
      exact h2
    | fail t => simp only [step] at hs; cases hs; exact h2
    | step t =>
      simp only [step] at hs
      cases ht : s.thr t with
      | nil => simp only [ht] at hs; cases hs
      | cons op rest =>
        simp only [ht] at hs; cases hs
        cases op with
        | mkdirs k => exact h2
        | lock => exact h2
        | write k =>
          intro n m e
          simp only [exec, upd_apply] at e
          split at e
          · cases e
            cases hk : s.env k with
            | some m' => exact h2 k m' hk
            | none =>
              have : mask.getLsbD (u.shift + 2) = true := hm
              simp [mayRead, create, h1, this, hu]
          · exact h2 n m e
  unfold canReadEnv
  split
  · rename_i c _ _ hc
    simp [hI.2 n _ hc]
  · rfl

/-- A file that was open to all before is closed by the first attach with an agent. -/
example : ∃ s, runSteps step (fresh .auto 0o022#9 [0o755#9]) [.request 0 0 false false, .step 0, .step 0] = some s ∧
    canReadEnv ⟨false⟩ s 0 = true ∧ Idle s ∧
    ∃ s1 s2, runSteps step s [.request 1 1 true false, .step 1] = some s1 ∧ s1.thr 1 = [.lock, .mkdirs 1, .write 1] ∧
      step s1 (.step 1) = some s2 ∧ canReadEnv ⟨false⟩ s1 0 = true ∧ canReadEnv ⟨false⟩ s2 0 = false := by
  refine ⟨_, rfl, by decide, fun t => ?_, _, _, rfl, rfl, rfl, by decide, by decide⟩
  show upd _ 0 _ t = _
  cases t <;> rfl

/-- `C99_agent_partial`: two requests that both have an agent. -/
example : Idle (fresh .auto 0o022#9 [0o755#9]) ∧ (∀ n, (fresh .auto 0o022#9 [0o755#9]).env n = none) ∧
    (∀ l ∈ [Label.request 0 0 true false, .request 1 1 true false, .step 0, .step 1, .step 0, .step 0], Closes l) ∧
    (runSteps step (fresh .auto 0o022#9 [0o755#9])
      [.request 0 0 true false, .request 1 1 true false, .step 0, .step 1, .step 0, .step 0, .step 0]).isSome :=
  ⟨fun _ => rfl, fun _ => rfl, by simp [Closes], by decide⟩

/-- `C99_umask_partial`, `C99_outer_partial`, `C100_closed_partial`: a strict mask, a directory others may not use. -/
example : mayRead ⟨true⟩ 0o077#9 = true ∧ mayRead ⟨false⟩ 0o077#9 = true ∧ mayUse ⟨true⟩ 0o700#9 = false ∧
    0o077#9 &&& 0o022#9 = 0o022#9 := by decide

/-- **C100** (repaired, exactly).  If `daemonize` set the umask instead of clearing it, nobody else could subscribe, whatever the directories,
exactly if that umask forbids the group and others to write. -/
theorem C100_repaired (mask : Mode) : (∀ u dirs, canSubscribe u dirs (create mask dirReq) = false) ↔ mask &&& 0o022#9 = 0o022#9 := by
  constructor
  · intro h
    have h1 := h ⟨false⟩ []
    have h4 := h ⟨true⟩ []
    simp [canSubscribe, mayWrite, create, Other.shift, dirReq] at h1 h4
    apply BitVec.eq_of_getLsbD_eq
    intro i hi
    match i, hi with
    | 0, _ | 2, _ | 3, _ | 5, _ | 6, _ | 7, _ | 8, _ => simp
    | 1, _ => simpa using h1
    | 4, _ => simpa using h4
  · intro h u dirs
    exact C100_closed_partial u dirs .plain mask h (.inl rfl)

example : (0o077#9 : Mode) &&& 0o022#9 = 0o022#9 ∧ ¬ (0 : Mode) &&& 0o022#9 = 0o022#9 := by decide

end Shpool.Perms
