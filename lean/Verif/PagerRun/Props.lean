import Verif.PagerRun.Model

/-!
# C138–C141: the message pager while it runs
-/

namespace Shpool.PagerRun

/-- What the user sees of what they are sent. -/
def shown : List Frame → Bytes
  | [] => []
  | .heartbeat :: fs => shown fs
  | .data b :: fs => b ++ shown fs

theorem shown_append (a b : List Frame) : shown (a ++ b) = shown a ++ shown b := by
  induction a with
  | nil => rfl
  | cons f a ih => cases f <;> simp [shown, ih]

/-- `display` is on its way out. -/
def Main.ended : Main → Bool
  | .guard _ | .killing _ _ | .returned _ => true
  | _ => false

/-- With which result. -/
def Main.res : Main → Option Res
  | .guard r | .killing _ r | .returned r => some r
  | _ => none

/-- What the thread has in its hands. -/
def Main.outHand : Main → Bytes
  | .show b _ => b
  | _ => []

def Main.inHand : Main → Bytes
  | .feed b => b
  | _ => []

/-- Where everything is. -/
structure Inv (s : St) : Prop where
  out : s.printed = shown s.sent ++ (s.lostOut ++ s.main.outHand) ++ s.pty
  inp : s.typed = s.keys ++ s.input ++ (s.lostIn ++ s.main.inHand) ++ s.sock
  lostOut : s.lostOut ≠ [] → s.main.res = some .hangup ∨ s.main.res = some .error
  lostIn : s.lostIn ≠ [] → s.main.res = some .ok ∧ s.proc ≠ .running
  hang : s.main.res = some .hangup → s.closed = true

theorem signal_eq {s s' : St} {g : Sig} (h : s.signal g = some s') :
    ∃ p sg, s' = { s with proc := p, signals := sg } ∧ (s.proc ≠ .running → p = s.proc) ∧ (g = .kill → p ≠ .running) ∧
      (p ≠ s.proc → s.proc = .running ∧ p = .exited ∧ g = .kill) ∧ sg = s.signals ++ [(g, s.proc)] ∧ s.proc ≠ .reaped := by
  unfold St.signal at h
  split at h
  · rename_i hp
    cases h
    refine ⟨_, _, rfl, fun h => absurd hp h, ?_, ?_, by rw [hp], by rw [hp]; simp⟩
    · rintro rfl; simp
    · cases g <;> simp [hp]
  · rename_i hp
    cases h
    exact ⟨.exited, _, by rw [← hp], fun _ => hp.symm, by simp, by simp [hp], by rw [hp], by rw [hp]; simp⟩
  · cases h
  · rename_i hp
    cases h
    exact ⟨.reused, _, by rw [← hp], fun _ => hp.symm, by simp, by simp [hp], by rw [hp], by rw [hp]; simp⟩

theorem inv_step (s : St) (l : Label) (s' : St) (hI : Inv s) (h : step s l = some s') : Inv s' := by
  obtain ⟨h1, h2, h3, h4, h5⟩ := hI
  cases l with
  | print b =>
    simp only [step] at h
    split at h <;> cases h
    exact ⟨by simp [h1], h2, h3, h4, h5⟩
  | press n =>
    simp only [step] at h
    split at h <;> cases h
    exact ⟨h1, by simp [h2], h3, h4, h5⟩
  | exit =>
    simp only [step] at h
    split at h <;> cases h
    exact ⟨h1, h2, h3, fun h => ⟨(h4 h).1, by simp⟩, h5⟩
  | reap =>
    simp only [step] at h
    split at h <;> cases h
    exact ⟨h1, h2, h3, fun h => ⟨(h4 h).1, by simp⟩, h5⟩
  | setFlag =>
    simp only [step] at h
    split at h <;> cases h
    exact ⟨h1, h2, h3, h4, h5⟩
  | reuse =>
    simp only [step] at h
    split at h <;> cases h
    exact ⟨h1, h2, h3, fun h => ⟨(h4 h).1, by simp⟩, h5⟩
  | type b =>
    simp only [step] at h
    split at h <;> cases h
    exact ⟨h1, by simp [h2], h3, h4, h5⟩
  | close =>
    simp only [step] at h
    split at h <;> cases h
    exact ⟨h1, h2, h3, h4, fun _ => rfl⟩
  | wake beat =>
    simp only [step] at h
    split at h
    · rename_i hm
      simp only [hm, Main.outHand, Main.inHand, Main.res] at h1 h2 h3 h4 h5
      have ho : s.lostOut = [] := Classical.byContradiction fun hc => by simpa using h3 hc
      have hi : s.lostIn = [] := Classical.byContradiction fun hc => by simpa using h4 hc
      split at h
      · cases h
        exact ⟨h1, h2, fun hc => absurd ho hc, fun hc => absurd hi hc, by simp [Main.res]⟩
      · split at h
        · cases h
          exact ⟨h1, h2, fun hc => absurd ho hc, fun hc => absurd hi hc, by simp [Main.res]⟩
        · split at h
          · cases h
            exact ⟨h1, h2, fun hc => absurd ho hc, fun hc => absurd hi hc, by simp [Main.res]⟩
          · cases h
            cases beat
            · exact ⟨h1, h2, fun hc => absurd ho hc, fun hc => absurd hi hc, by simp [Main.res]⟩
            · exact ⟨h1, h2, fun hc => absurd ho hc, fun hc => absurd hi hc, by simp [Main.res]⟩
    · cases h
  | pollFails =>
    simp only [step] at h
    split at h <;> cases h
    rename_i hm
    simp only [hm, Main.outHand, Main.inHand, Main.res] at h1 h2 h3 h4 h5
    have hi : s.lostIn = [] := Classical.byContradiction fun hc => by simpa using h4 hc
    exact ⟨h1, h2, fun _ => .inr rfl, fun hc => absurd hi hc, by simp [Main.res]⟩
  | beatDone r =>
    simp only [step] at h
    split at h
    · rename_i hm
      simp only [hm, Main.outHand, Main.inHand, Main.res] at h1 h2 h3 h4 h5
      have ho : s.lostOut = [] := Classical.byContradiction fun hc => by simpa using h3 hc
      have hi : s.lostIn = [] := Classical.byContradiction fun hc => by simpa using h4 hc
      split at h
      · split at h <;> cases h
        exact ⟨by rw [shown_append]; simpa [shown, ho, Main.outHand] using h1, h2, fun hc => absurd ho hc, fun hc => absurd hi hc, by simp [Main.res]⟩
      · cases h
      · split at h <;> cases h
        rename_i hc
        exact ⟨h1, h2, fun hc => absurd ho hc, fun hc => absurd hi hc, fun _ => hc⟩
      · cases h
        exact ⟨h1, h2, fun hc => absurd ho hc, fun hc => absurd hi hc, by simp [Main.res]⟩
    · cases h
  | readPty n =>
    simp only [step] at h
    split at h
    · rename_i c hm
      simp only [hm, Main.outHand, Main.inHand, Main.res] at h1 h2 h3 h4 h5
      have ho : s.lostOut = [] := Classical.byContradiction fun hc => by simpa using h3 hc
      have hi : s.lostIn = [] := Classical.byContradiction fun hc => by simpa using h4 hc
      split at h
      · split at h <;> cases h
        exact ⟨h1, h2, fun hc => absurd ho hc, fun hc => absurd hi hc, by simp [Main.res]⟩
      · split at h <;> cases h
        exact ⟨by simp [h1, ho, Main.outHand], h2, fun hc => absurd ho hc, fun hc => absurd hi hc, by simp [Main.res]⟩
    · cases h
  | readPtyFails =>
    simp only [step] at h
    split at h <;> cases h
    rename_i c hm
    simp only [hm, Main.outHand, Main.inHand, Main.res] at h1 h2 h3 h4 h5
    have hi : s.lostIn = [] := Classical.byContradiction fun hc => by simpa using h4 hc
    exact ⟨h1, h2, fun _ => .inr rfl, fun hc => absurd hi hc, by simp [Main.res]⟩
  | showDone r =>
    simp only [step] at h
    split at h
    · rename_i b c hm
      simp only [hm, Main.outHand, Main.inHand, Main.res] at h1 h2 h3 h4 h5
      have ho : s.lostOut = [] := Classical.byContradiction fun hc => by simpa using h3 hc
      have hi : s.lostIn = [] := Classical.byContradiction fun hc => by simpa using h4 hc
      split at h
      · split at h <;> cases h
        have hr : (if c = true then Main.readClient else Main.poll).res = none := by split <;> rfl
        have hoh : (if c = true then Main.readClient else Main.poll).outHand = [] := by split <;> rfl
        have hih : (if c = true then Main.readClient else Main.poll).inHand = [] := by split <;> rfl
        refine ⟨?_, ?_, fun hc => absurd ho hc, fun hc => absurd hi hc, ?_⟩
        · simp only [shown_append, shown, hoh]; simp [h1, ho]
        · simp only [hih]; exact h2
        · simp only [hr]; nofun
      · cases h
      · split at h <;> cases h
        rename_i hc
        exact ⟨by simpa [Main.outHand, ho] using h1, h2, fun _ => .inl rfl, fun hc => absurd hi hc, fun _ => hc⟩
      · cases h
        exact ⟨by simpa [Main.outHand, ho] using h1, h2, fun _ => .inr rfl, fun hc => absurd hi hc, by simp [Main.res]⟩
    · cases h
  | readClient n =>
    simp only [step] at h
    split at h
    · rename_i hm
      simp only [hm, Main.outHand, Main.inHand, Main.res] at h1 h2 h3 h4 h5
      have ho : s.lostOut = [] := Classical.byContradiction fun hc => by simpa using h3 hc
      have hi : s.lostIn = [] := Classical.byContradiction fun hc => by simpa using h4 hc
      split at h
      · split at h <;> cases h
        exact ⟨h1, h2, fun hc => absurd ho hc, fun hc => absurd hi hc, by simp [Main.res]⟩
      · split at h <;> cases h
        exact ⟨h1, by simp [h2, hi, Main.inHand], fun hc => absurd ho hc, fun hc => absurd hi hc, by simp [Main.res]⟩
    · cases h
  | readClientFails =>
    simp only [step] at h
    split at h <;> cases h
    rename_i hm
    simp only [hm, Main.outHand, Main.inHand, Main.res] at h1 h2 h3 h4 h5
    have hi : s.lostIn = [] := Classical.byContradiction fun hc => by simpa using h4 hc
    exact ⟨h1, h2, fun _ => .inr rfl, fun hc => absurd hi hc, by simp [Main.res]⟩
  | feedDone =>
    simp only [step] at h
    split at h <;> cases h
    rename_i b hm
    simp only [hm, Main.outHand, Main.inHand, Main.res] at h1 h2 h3 h4 h5
    have ho : s.lostOut = [] := Classical.byContradiction fun hc => by simpa using h3 hc
    have hi : s.lostIn = [] := Classical.byContradiction fun hc => by simpa using h4 hc
    exact ⟨h1, by simp [h2, hi, Main.inHand], fun hc => absurd ho hc, fun hc => absurd hi hc, by simp [Main.res]⟩
  | feedFails n =>
    simp only [step] at h
    split at h
    · rename_i b hm
      simp only [hm, Main.outHand, Main.inHand, Main.res] at h1 h2 h3 h4 h5
      have ho : s.lostOut = [] := Classical.byContradiction fun hc => by simpa using h3 hc
      have hi : s.lostIn = [] := Classical.byContradiction fun hc => by simpa using h4 hc
      split at h <;> cases h
      rename_i hp
      refine ⟨h1, ?_, fun hc => absurd ho hc, fun _ => ⟨rfl, hp⟩, by simp [Main.res]⟩
      simp only [h2, hi, Main.inHand, List.nil_append, List.append_nil, List.append_assoc]
      rw [← List.append_assoc (b.take n), List.take_append_drop]
    · cases h
  | guard =>
    simp only [step] at h
    split at h
    · rename_i r hm
      simp only [hm, Main.outHand, Main.inHand, Main.res] at h1 h2 h3 h4 h5
      split at h
      · cases h; exact ⟨h1, h2, h3, h4, h5⟩
      · split at h
        · cases h; exact ⟨h1, h2, h3, h4, h5⟩
        · rename_i s1 hs
          obtain ⟨p, sg, rfl, hp, hk, hne, _⟩ := signal_eq hs
          cases h
          exact ⟨h1, h2, h3, fun hc => ⟨(h4 hc).1, by rw [hp (h4 hc).2]; exact (h4 hc).2⟩, h5⟩
    · cases h
  | look =>
    simp only [step] at h
    split at h
    · rename_i r hm
      simp only [hm, Main.outHand, Main.inHand, Main.res] at h1 h2 h3 h4 h5
      split at h
      · cases h; exact ⟨h1, h2, h3, h4, h5⟩
      · rename_i s1 hs
        obtain ⟨p, sg, rfl, hp, hk, hne, _⟩ := signal_eq hs
        cases h
        exact ⟨h1, h2, h3, fun hc => ⟨(h4 hc).1, hk rfl⟩, h5⟩
    · rename_i n r hm
      simp only [hm, Main.outHand, Main.inHand, Main.res] at h1 h2 h3 h4 h5
      split at h <;> cases h
      · exact ⟨h1, h2, h3, h4, h5⟩
      · exact ⟨h1, h2, h3, h4, h5⟩
    · cases h

theorem inv_run {ls : List Label} {s : St} (h : Run ls s) : Inv s :=
  run_inv inv_step ⟨rfl, rfl, by simp [init], by simp [init], by simp [init, Main.res]⟩ h

/-! ## C138 -/

/-- C138: what the pager prints reaches the client, in order and unaltered: it is what the client was sent, then at most one piece that is being
written to the client, or could not be written to it, then what was not read yet. -/
theorem C138_output {ls : List Label} {s : St} (h : Run ls s) : ∃ w, s.printed = shown s.sent ++ w ++ s.pty ∧
    (w ≠ [] → (∃ c, s.main = .show w c) ∨ s.main.res = some .hangup ∨ s.main.res = some .error) := by
  have hI := inv_run h
  refine ⟨_, hI.out, fun hw => ?_⟩
  by_cases ho : s.lostOut = []
  · cases hm : s.main <;> simp [ho, hm, Main.outHand] at hw ⊢
  · exact .inr (hI.lostOut ho)

/-- C138: what the user types reaches the pager, in order and unaltered: it is what the pager has read, what waits for it in its terminal, then
at most one piece that is being written to the terminal, or could not be because the pager was gone, then what was not read yet. -/
theorem C138_input {ls : List Label} {s : St} (h : Run ls s) : ∃ w, s.typed = s.keys ++ s.input ++ w ++ s.sock ∧
    (w ≠ [] → s.main = .feed w ∨ (s.main.res = some .ok ∧ s.proc ≠ .running)) := by
  have hI := inv_run h
  refine ⟨_, hI.inp, fun hw => ?_⟩
  by_cases ho : s.lostIn = []
  · cases hm : s.main <;> simp [ho, hm, Main.inHand] at hw ⊢
  · exact .inr (hI.lostIn ho)

/-- C138: the client is told that it hung up only if it did. -/
theorem C138_hangup {ls : List Label} {s : St} (h : Run ls s) (hr : s.main.res = some .hangup) : s.closed = true := (inv_run h).hang hr

/-- A pager shows two pages and takes a key. -/
def reading : List Label :=
  [.print [65, 66], .wake false, .readPty 16384, .showDone none, .type [32, 113], .wake false, .readClient 16384, .feedDone, .press 1,
    .print [67], .wake true, .readPty 1, .showDone none, .wake true, .beatDone none, .press 1]

example : ∃ s, Run reading s ∧ shown s.sent = [65, 66, 67] ∧ s.sent = [.data [65, 66], .data [67], .heartbeat] ∧ s.keys = [32, 113] ∧ s.main = .poll :=
  ⟨_, rfl, rfl, rfl, rfl, rfl⟩

/-! ## C139 -/

/-- C139: when the attach goes on after the pager, with a client that is still there, everything the pager printed has been shown, and
everything typed after the pager exited is left for the shell. -/
def C139_statement : Prop := ∀ pre post s1 s, Run pre s1 → step s1 .exit ≠ none → runSteps step s1 (.exit :: post) = some s →
  s.main = .returned .ok → s.closed = false → shown s.sent = s.printed ∧ s.typed.drop s1.typed.length <:+ s.sock

/-- C139 is false: the last thing the pager prints, with which it gives back the screen, is not shown if its end is noticed before it is read. -/
theorem C139_false : ¬ C139_statement := by
  intro h
  have := (h [.print [27]] [.reap, .setFlag, .wake false, .guard] _ _ rfl (by decide) rfl rfl rfl).1
  exact absurd this (by decide)

/-- The pager prints something and exits; the user types `ls`; both are found ready together. -/
def typedLate : List Label :=
  [.type [108, 115, 10], .wake false, .readPty 16384, .showDone none, .readClient 16384, .feedDone, .wake false, .readPty 16384, .guard, .reap,
    .setFlag, .look]

/-- C139: also what is typed when the pager has exited may still go to it. -/
theorem C139_false_input : ∃ s1 s, Run [.print [27]] s1 ∧ runSteps step s1 (.exit :: typedLate) = some s ∧ s.main = .returned .ok ∧
    s.closed = false ∧ shown s.sent = s.printed ∧ s.typed.drop s1.typed.length = [108, 115, 10] ∧ s.sock = [] ∧ s.keys = [] :=
  ⟨_, _, rfl, rfl, rfl, rfl, rfl, rfl, rfl, rfl⟩

/-- C139, exactly: with a client that is still there and was shown everything that was read, what is not shown is what had not been read from the
pager's terminal when its exit was noticed.  Missing: that there is nothing of that. -/
theorem C139_not_shown_partial {ls : List Label} {s : St} (h : Run ls s) (hr : s.main = .returned .ok) :
    s.printed = shown s.sent ++ s.pty := by
  have hI := inv_run h
  have ho : s.lostOut = [] := Classical.byContradiction fun hc => by simpa [hr, Main.res] using hI.lostOut hc
  simpa [ho, hr, Main.outHand] using hI.out

theorem ended_step {s s' : St} {l : Label} (he : s.main.ended = true) (h : step s l = some s') : s'.main.ended = true ∧ s'.main.res = s.main.res ∧
    s'.sent = s.sent ∧ s'.sock.length ≥ s.sock.length ∧ (s.proc ≠ .running → s'.printed = s.printed ∧ s'.pty = s.pty ∧ s'.proc ≠ .running) := by
  cases l with
  | print b | exit | reap | setFlag | reuse | type b | close | press n =>
    simp only [step] at h
    split at h <;> cases h
    simp [he] <;> (intro h1; simp_all)
  | wake _ | pollFails | beatDone _ | readClient _ | readClientFails =>
    simp only [step] at h
    split at h
    · rename_i hm; rw [hm] at he; cases he
    · cases h
  | readPty _ | readPtyFails | showDone _ | feedDone | feedFails _ =>
    simp only [step] at h
    split at h
    · rename_i hm; rw [hm] at he; cases he
    · cases h
  | guard =>
    simp only [step] at h
    split at h
    · rename_i r hm
      split at h
      · cases h; simp [hm, Main.ended, Main.res]
      · split at h
        · cases h; simp [hm, Main.ended, Main.res]
        · rename_i s1 hs
          obtain ⟨p, sg, rfl, hp, _⟩ := signal_eq hs
          cases h
          simp only [hm, Main.ended, Main.res, Nat.le_refl, ge_iff_le, true_and]
          intro hpr; rw [hp hpr]; exact hpr
    · cases h
  | look =>
    simp only [step] at h
    split at h
    · rename_i r hm
      split at h
      · cases h; simp [hm, Main.ended, Main.res]
      · rename_i s1 hs
        obtain ⟨p, sg, rfl, hp, _⟩ := signal_eq hs
        cases h
        simp only [hm, Main.ended, Main.res, Nat.le_refl, ge_iff_le, true_and]
        intro hpr; rw [hp hpr]; exact hpr
    · rename_i n r hm
      split at h <;> cases h
      · simp [hm, Main.ended, Main.res]
      · simp [hm, Main.ended, Main.res]
    · cases h

theorem ended_run {s s' : St} {ls : List Label} (he : s.main.ended = true) (hp : s.proc ≠ .running) (h : runSteps step s ls = some s') :
    s'.main.ended = true ∧ s'.main.res = s.main.res ∧ s'.sent = s.sent ∧ s'.printed = s.printed ∧ s'.proc ≠ .running := by
  refine run_inv (I := fun s' => s'.main.ended = true ∧ s'.main.res = s.main.res ∧ s'.sent = s.sent ∧ s'.printed = s.printed ∧ s'.proc ≠ .running)
    (fun a l b ⟨h1, h2, h3, h4, h5⟩ hs => ?_) ⟨he, rfl, rfl, rfl, hp⟩ h
  obtain ⟨k1, k2, k3, _, k4⟩ := ended_step h1 hs
  exact ⟨k1, k2.trans h2, k3.trans h3, (k4 h5).1.trans h4, (k4 h5).2.2⟩

/-- C139 (output), when the end of the pager is noticed by the end of its terminal: everything it printed has been shown.  Missing: when the other
thread tells first that it has exited. -/
theorem C139_shown_partial {pre post : List Label} {n : Nat} {s1 s2 s : St} (h1 : Run pre s1) (h2 : step s1 (.readPty n) = some s2)
    (h3 : s2.main = .guard .ok) (h : runSteps step s2 post = some s) : shown s.sent = s.printed := by
  simp only [step] at h2
  split at h2
  · rename_i c hm
    have hI := inv_run h1
    have ho : s1.lostOut = [] := Classical.byContradiction fun hc => by simpa [hm, Main.res] using hI.lostOut hc
    split at h2
    · rename_i hp
      split at h2
      · cases h2
      · rename_i hpr
        cases h2
        obtain ⟨_, _, h4, h5, _⟩ := ended_run (s := { s1 with main := .guard .ok }) rfl hpr h
        rw [h4, h5]
        simpa [ho, hm, Main.outHand, hp] using hI.out.symm
    · split at h2 <;> cases h2
      cases h3
  · cases h2

/-- C139 (input): what is typed once the thread does not read from the client any more is left for the shell, whole and in order.  Missing: what was
read from the client after the pager exited. -/
theorem C139_left_partial {post : List Label} {s1 s : St} (h : runSteps step s1 post = some s)
    (hn : ∀ l ∈ post, ∀ n, l ≠ .readClient n) : s.sock = s1.sock ++ s.typed.drop s1.typed.length := by
  have key : ∀ (ls : List Label) (a b : St), runSteps step a ls = some b → (∀ l ∈ ls, ∀ n, l ≠ .readClient n) →
      ∃ w, b.typed = a.typed ++ w ∧ b.sock = a.sock ++ w := by
    intro ls
    induction ls with
    | nil => intro a b h _; cases h; exact ⟨[], by simp, by simp⟩
    | cons l ls ih =>
      intro a b h hn
      obtain ⟨c, hc, h⟩ := run_cons_some h
      obtain ⟨w2, h3, h4⟩ := ih c b h (fun l hl => hn l (List.mem_cons_of_mem _ hl))
      have hl := hn l List.mem_cons_self
      suffices hw : ∃ w, c.typed = a.typed ++ w ∧ c.sock = a.sock ++ w by
        obtain ⟨w, h5, h6⟩ := hw
        exact ⟨w ++ w2, by rw [h3, h5, List.append_assoc], by rw [h4, h6, List.append_assoc]⟩
      cases l with
      | type b =>
        simp only [step] at hc
        split at hc <;> cases hc
        exact ⟨b, rfl, rfl⟩
      | readClient n => exact absurd rfl (hl n)
      | print b | exit | reap | setFlag | reuse | close | press n =>
        simp only [step] at hc
        split at hc <;> cases hc
        exact ⟨[], by simp, by simp⟩
      | wake _ | pollFails | beatDone _ | readClientFails | readPty _ | readPtyFails | showDone _ | feedDone | feedFails _ =>
        simp only [step] at hc
        repeat' split at hc
        all_goals cases hc
        all_goals exact ⟨[], by simp, by simp⟩
      | guard =>
        simp only [step] at hc
        split at hc
        · split at hc
          · cases hc; exact ⟨[], by simp, by simp⟩
          · split at hc
            · cases hc; exact ⟨[], by simp, by simp⟩
            · rename_i s1 hs
              obtain ⟨p, sg, rfl, _⟩ := signal_eq hs
              cases hc
              exact ⟨[], by simp, by simp⟩
        · cases hc
      | look =>
        simp only [step] at hc
        split at hc
        · split at hc
          · cases hc; exact ⟨[], by simp, by simp⟩
          · rename_i s1 hs
            obtain ⟨p, sg, rfl, _⟩ := signal_eq hs
            cases hc
            exact ⟨[], by simp, by simp⟩
        · split at hc <;> cases hc
          · exact ⟨[], by simp, by simp⟩
          · exact ⟨[], by simp, by simp⟩
        · cases hc
  obtain ⟨w, h3, h4⟩ := key post s1 s h hn
  rw [h4, h3]; simp

/-- The pager ends as it should: its last output is read before its end, and what is typed then is for the shell. -/
example : ∃ s1 s2 s, Run [.print [27], .exit, .wake false, .readPty 9, .showDone none, .wake false] s1 ∧ step s1 (.readPty 9) = some s2 ∧
    s2.main = .guard .ok ∧ runSteps step s2 [.type [108], .reap, .setFlag, .guard] = some s ∧ s.main = .returned .ok ∧
    shown s.sent = [27] ∧ s.sock = [108] := ⟨_, _, _, rfl, rfl, rfl, rfl, rfl, rfl, rfl⟩

/-! ## C140 -/

/-- C140: when `display` has returned the pager has ended, and no other process was sent a signal. -/
def C140_statement : Prop := ∀ ls s r, Run ls s → s.main = .returned r → s.proc ≠ .running ∧ ∀ g p, (g, p) ∈ s.signals → p ≠ .reused

/-- The pager does not react to SIGTERM for a while, but exits and is reaped during the last wait; its number is given to another process. -/
def lateExit : List Label :=
  [.close, .wake false, .readClient 1, .guard] ++ List.replicate 7 .look ++ [.exit, .reap, .setFlag, .reuse, .look]

/-- C140 is false: after the last wait there is no look whether the pager has exited. -/
theorem C140_false : ¬ C140_statement := by
  intro h
  exact (h lateExit _ .ok rfl rfl).2 .kill .reused (by decide) rfl

/-- What has been sent, and how long the thread has slept. -/
def SigsAt (s : St) : Main → Prop
  | .killing n _ => n ≤ 7 ∧ s.slept + 10 = 10 * 2 ^ (7 - n) ∧ ∃ p, s.signals = [(.term, p)]
  | .returned _ => s.proc ≠ .running ∧ s.slept ≤ 1270 ∧
      (s.signals = [] ∨ (∃ p, s.signals = [(.term, p)]) ∨ (∃ p q, s.signals = [(.term, p), (.kill, q)] ∧ s.slept = 1270))
  | _ => s.signals = [] ∧ s.slept = 0

def Sigs (s : St) : Prop := SigsAt s s.main ∧ (s.flag = true → s.proc = .reaped ∨ s.proc = .reused)

theorem sigs_step (s : St) (l : Label) (s' : St) (hI : Sigs s) (h : step s l = some s') : Sigs s' := by
  obtain ⟨h1, h2⟩ := hI
  have env : ∀ (p : Proc) (s' : St), s'.main = s.main → s'.signals = s.signals → s'.slept = s.slept → s'.proc = p →
      (s.proc ≠ .running → p ≠ .running) → SigsAt s' s'.main := by
    intro p s' e1 e2 e3 e4 e5
    rw [e1]
    cases hm : s.main <;> rw [hm] at h1 <;> simp only [SigsAt, e2, e3, e4] at h1 ⊢ <;> try exact h1
    exact ⟨e5 h1.1, h1.2⟩
  cases l with
  | print b | type b | close | press n =>
    simp only [step] at h
    split at h <;> cases h
    exact ⟨env s.proc _ rfl rfl rfl rfl (fun h => h), h2⟩
  | exit =>
    simp only [step] at h
    split at h <;> cases h
    rename_i hp
    exact ⟨env .exited _ rfl rfl rfl rfl (by simp), fun hf => by simpa [hp] using h2 hf⟩
  | reap =>
    simp only [step] at h
    split at h <;> cases h
    exact ⟨env .reaped _ rfl rfl rfl rfl (by simp), fun _ => .inl rfl⟩
  | setFlag =>
    simp only [step] at h
    split at h <;> cases h
    rename_i hp
    exact ⟨env s.proc _ rfl rfl rfl rfl (fun h => h), fun _ => hp.1⟩
  | reuse =>
    simp only [step] at h
    split at h <;> cases h
    exact ⟨env .reused _ rfl rfl rfl rfl (by simp), fun _ => .inr rfl⟩
  | wake beat =>
    simp only [step] at h
    split at h
    · rename_i hm
      simp only [hm, SigsAt] at h1
      repeat' split at h
      all_goals cases h
      all_goals exact ⟨h1, h2⟩
    · cases h
  | pollFails | readClientFails =>
    simp only [step] at h
    split at h <;> cases h
    rename_i hm
    simp only [hm, SigsAt] at h1
    exact ⟨h1, h2⟩
  | beatDone r =>
    simp only [step] at h
    split at h
    · rename_i hm
      simp only [hm, SigsAt] at h1
      repeat' split at h
      all_goals cases h
      all_goals exact ⟨h1, h2⟩
    · cases h
  | readPty n =>
    simp only [step] at h
    split at h
    · rename_i hm
      simp only [hm, SigsAt] at h1
      repeat' split at h
      all_goals cases h
      all_goals exact ⟨h1, h2⟩
    · cases h
  | readPtyFails | feedDone =>
    simp only [step] at h
    split at h <;> cases h
    rename_i hm
    simp only [hm, SigsAt] at h1
    exact ⟨h1, h2⟩
  | showDone r =>
    simp only [step] at h
    split at h
    · rename_i b c hm
      simp only [hm, SigsAt] at h1
      split at h
      · split at h <;> cases h
        refine ⟨?_, h2⟩
        cases c <;> exact h1
      · cases h
      · split at h <;> cases h
        exact ⟨h1, h2⟩
      · cases h
        exact ⟨h1, h2⟩
    · cases h
  | readClient n =>
    simp only [step] at h
    split at h
    · rename_i hm
      simp only [hm, SigsAt] at h1
      repeat' split at h
      all_goals cases h
      all_goals exact ⟨h1, h2⟩
    · cases h
  | feedFails n =>
    simp only [step] at h
    split at h
    · rename_i b hm
      simp only [hm, SigsAt] at h1
      split at h <;> cases h
      exact ⟨h1, h2⟩
    · cases h
  | guard =>
    simp only [step] at h
    split at h
    · rename_i r hm
      simp only [hm, SigsAt] at h1
      split at h
      · rename_i hf
        cases h
        exact ⟨⟨by rcases h2 hf with h | h <;> simp [h], by simp [h1.2], .inl h1.1⟩, h2⟩
      · rename_i hf
        split at h
        · rename_i hs
          cases h
          have hp : s.proc = .reaped := by
            cases hp : s.proc <;> simp [St.signal, hp] at hs
            rfl
          exact ⟨⟨by simp [hp], by simp [h1.2], .inl h1.1⟩, h2⟩
        · rename_i s1 hs
          obtain ⟨p, sg, rfl, _, _, _, rfl, _⟩ := signal_eq hs
          cases h
          exact ⟨⟨Nat.le_refl _, by simp [h1.2], s.proc, by simp [h1.1]⟩, fun h => absurd h hf⟩
    · cases h
  | look =>
    simp only [step] at h
    split at h
    · rename_i r hm
      simp only [hm, SigsAt] at h1
      obtain ⟨_, h3, p, h4⟩ := h1
      split at h
      · rename_i hs
        cases h
        have hp : s.proc = .reaped := by
          cases hp : s.proc <;> simp [St.signal, hp] at hs
          rfl
        exact ⟨⟨by simp [hp], by simp at h3 ⊢; omega, .inr (.inl ⟨p, h4⟩)⟩, h2⟩
      · rename_i s1 hs
        obtain ⟨q, sg, rfl, hp, hk, _, rfl, _⟩ := signal_eq hs
        cases h
        refine ⟨⟨hk rfl, by simp at h3 ⊢; omega, .inr (.inr ⟨p, s.proc, by simp [h4], by simp at h3 ⊢; omega⟩)⟩, fun hf => ?_⟩
        have := h2 hf
        rw [← hp (by rcases this with h | h <;> simp [h])] at this
        exact this
    · rename_i n r hm
      simp only [hm, SigsAt] at h1
      obtain ⟨hn, h3, p, h4⟩ := h1
      have hsucc : 7 - n.succ = 7 - (n + 1) := rfl
      rw [hsucc] at h3
      have hpow : 10 * 2 ^ (7 - n) = 20 * 2 ^ (7 - (n + 1)) := by
        have : 7 - n = 7 - (n + 1) + 1 := by omega
        rw [this, Nat.pow_succ]; omega
      split at h <;> cases h
      · rename_i hf
        have hle : 2 ^ (7 - (n + 1)) ≤ 2 ^ 6 := Nat.pow_le_pow_right (by omega) (by omega)
        have : (2 : Nat) ^ 6 = 64 := rfl
        rw [this] at hle
        exact ⟨⟨by rcases h2 hf with h | h <;> simp [h], by show s.slept ≤ 1270; omega, .inr (.inl ⟨p, h4⟩)⟩, h2⟩
      · exact ⟨⟨by omega, by simp only [sleepMs]; omega, p, h4⟩, h2⟩
    · cases h

theorem sigs_run {ls : List Label} {s : St} (h : Run ls s) : Sigs s := run_inv sigs_step (s := init) ⟨⟨rfl, rfl⟩, nofun⟩ h

/-- C140: when `display` has returned the pager has ended. -/
theorem C140_gone {ls : List Label} {s : St} {r : Res} (h : Run ls s) (hr : s.main = .returned r) : s.proc ≠ .running := by
  have := (sigs_run h).1
  rw [hr] at this
  exact this.1

/-- C140: as long as the pager is displayed no signal is sent; then at most SIGTERM and, 1270 ms later, SIGKILL; this takes no longer. -/
theorem C140_escalates {ls : List Label} {s : St} (h : Run ls s) :
    (s.main.ended = false → s.signals = []) ∧ s.slept ≤ 1270 ∧
      (s.signals = [] ∨ (∃ p, s.signals = [(.term, p)]) ∨ (∃ p q, s.signals = [(.term, p), (.kill, q)] ∧ s.slept = 1270)) := by
  have hS := (sigs_run h).1
  cases hm : s.main with
  | killing n r =>
    rw [hm] at hS
    obtain ⟨_, h2, p, h3⟩ := hS
    have hle : 2 ^ (7 - n) ≤ 2 ^ 7 := Nat.pow_le_pow_right (by omega) (by omega)
    exact ⟨by simp [Main.ended], by simp at hle; omega, .inr (.inl ⟨p, h3⟩)⟩
  | returned r => rw [hm] at hS; exact ⟨by simp [Main.ended], hS.2⟩
  | _ => rw [hm] at hS; exact ⟨fun _ => hS.1, by rw [hS.2]; omega, .inl hS.1⟩

/-- C140: a pager known to have exited when `display` returns is not sent a signal. -/
theorem C140_spared {s s' : St} (hf : s.flag = true) (h : step s .guard = some s') : s'.signals = s.signals ∧ ∃ r, s'.main = .returned r := by
  simp only [step] at h
  split at h
  · rw [if_pos hf] at h; cases h; exact ⟨rfl, _, rfl⟩
  · cases h

/-- C140: all signals go to the pager as long as its process number is not given to another process.  Missing: that it is not. -/
theorem C140_own_partial {ls : List Label} {s : St} (h : Run ls s) (hn : .reuse ∉ ls) {g : Sig} {p : Proc} (hp : (g, p) ∈ s.signals) :
    p = .running ∨ p = .exited := by
  have key : ∀ ls a b, runSteps step a ls = some b → .reuse ∉ ls → (a.proc ≠ .reused ∧ ∀ x ∈ a.signals, x.2 = .running ∨ x.2 = .exited) →
      (b.proc ≠ .reused ∧ ∀ x ∈ b.signals, x.2 = .running ∨ x.2 = .exited) := by
    intro ls
    induction ls with
    | nil => intro a b h _ hh; cases h; exact hh
    | cons l ls ih =>
      intro a b h hn ⟨h1, h2⟩
      obtain ⟨c, hc, h⟩ := run_cons_some h
      refine ih c b h (fun hl => hn (List.mem_cons_of_mem _ hl)) ?_
      have sig : ∀ g s1, a.signal g = some s1 → s1.proc ≠ .reused ∧ ∀ x ∈ s1.signals, x.2 = .running ∨ x.2 = .exited := by
        intro g s1 hs
        obtain ⟨p, sg, rfl, _, _, hne, rfl, hre⟩ := signal_eq hs
        refine ⟨?_, fun x hx => ?_⟩
        · by_cases hq : p = a.proc
          · rw [hq]; exact h1
          · rw [(hne hq).2.1]; simp
        · rcases List.mem_append.mp hx with hx | hx
          · exact h2 x hx
          · cases List.mem_singleton.mp hx
            cases hp : a.proc <;> simp_all
      cases l with
      | reuse => simp at hn
      | exit | reap =>
        simp only [step] at hc
        split at hc <;> cases hc
        exact ⟨by simp, h2⟩
      | print _ | type _ | close | press _ | setFlag =>
        simp only [step] at hc
        split at hc <;> cases hc
        exact ⟨h1, h2⟩
      | wake _ | pollFails | beatDone _ | readClientFails | readPty _ | readPtyFails | showDone _ | feedDone | feedFails _ | readClient _ =>
        simp only [step] at hc
        repeat' split at hc
        all_goals cases hc
        all_goals exact ⟨h1, h2⟩
      | guard =>
        simp only [step] at hc
        split at hc
        · split at hc
          · cases hc; exact ⟨h1, h2⟩
          · split at hc
            · cases hc; exact ⟨h1, h2⟩
            · rename_i s1 hs
              have := sig _ _ hs
              cases hc; exact this
        · cases hc
      | look =>
        simp only [step] at hc
        split at hc
        · split at hc
          · cases hc; exact ⟨h1, h2⟩
          · rename_i s1 hs
            have := sig _ _ hs
            cases hc; exact this
        · split at hc <;> cases hc
          · exact ⟨h1, h2⟩
          · exact ⟨h1, h2⟩
        · cases hc
  exact (key ls init s h hn ⟨by simp [init], by simp [init]⟩).2 _ hp

/-- A pager that ignores SIGTERM when the client has gone. -/
example : ∃ s, Run ([.close, .wake false, .readClient 1, .guard] ++ List.replicate 8 .look) s ∧ s.main = .returned .ok ∧
    s.signals = [(.term, .running), (.kill, .running)] ∧ s.slept = 1270 ∧ s.proc = .exited := ⟨_, rfl, rfl, rfl, rfl, rfl⟩

/-- One that obeys. -/
example : ∃ s, Run [.close, .wake false, .readClient 1, .guard, .look, .exit, .reap, .setFlag, .look] s ∧ s.main = .returned .ok ∧
    s.signals = [(.term, .running)] ∧ s.slept = 10 := ⟨_, rfl, rfl, rfl, rfl⟩

/-! ## C141 -/

/-- Steps that end the display: the pager exits, the client goes, or an operation fails. -/
def disturbs : Label → Bool
  | .exit | .close | .pollFails | .beatDone (some _) | .readPtyFails | .showDone (some _) | .readClientFails | .feedFails _ => true
  | _ => false

/-- C141: the message stays as long as the pager runs, the client is there and nothing fails. -/
theorem C141_stays {ls : List Label} {s : St} (h : Run ls s) (hq : ∀ l ∈ ls, disturbs l = false) :
    s.main.ended = false ∧ s.proc = .running ∧ s.closed = false := by
  have key : ∀ ls a b, runSteps step a ls = some b → (∀ l ∈ ls, disturbs l = false) →
      (a.main.ended = false ∧ a.proc = .running ∧ a.closed = false ∧ a.flag = false) →
      (b.main.ended = false ∧ b.proc = .running ∧ b.closed = false ∧ b.flag = false) := by
    intro ls
    induction ls with
    | nil => intro a b h _ hh; cases h; exact hh
    | cons l ls ih =>
      intro a b h hn ⟨h1, h2, h3, h4⟩
      obtain ⟨c, hc, h⟩ := run_cons_some h
      have hl := hn l List.mem_cons_self
      refine ih c b h (fun l hl => hn l (List.mem_cons_of_mem _ hl)) ?_
      cases l with
      | reuse | reap | setFlag => simp [step, h2] at hc
      | exit | close | pollFails | readPtyFails | readClientFails | feedFails _ => simp [disturbs] at hl
      | print _ | type _ | press _ =>
        simp only [step, h2, h3, if_true] at hc
        cases hc
        exact ⟨h1, by first | rfl | exact h2, by first | rfl | exact h3, h4⟩
      | wake beat =>
        simp only [step, h4, Bool.false_eq_true, if_false] at hc
        split at hc
        · split at hc
          · cases hc; refine ⟨rfl, ?_, ?_, ?_⟩ <;> first | assumption | rfl
          · split at hc
            · cases hc; refine ⟨rfl, ?_, ?_, ?_⟩ <;> first | assumption | rfl
            · cases hc; refine ⟨by cases beat <;> rfl, ?_, ?_, ?_⟩ <;> first | assumption | rfl
        · cases hc
      | beatDone r =>
        cases r with
        | some r => simp [disturbs] at hl
        | none =>
          simp only [step, h3, Bool.false_eq_true, if_false] at hc
          split at hc <;> cases hc
          refine ⟨rfl, ?_, ?_, ?_⟩ <;> first | assumption | rfl
      | showDone r =>
        cases r with
        | some r => simp [disturbs] at hl
        | none =>
          simp only [step, h3, Bool.false_eq_true, if_false] at hc
          split at hc
          · rename_i x c _
            cases hc
            refine ⟨by cases c <;> rfl, ?_, ?_, ?_⟩ <;> first | assumption | rfl
          · cases hc
      | readPty n =>
        simp only [step, h2] at hc
        split at hc
        · split at hc
          · simp at hc
          · split at hc <;> cases hc
            refine ⟨rfl, ?_, ?_, ?_⟩ <;> first | assumption | rfl
        · cases hc
      | readClient n =>
        simp only [step, h3] at hc
        split at hc
        · split at hc
          · simp at hc
          · split at hc <;> cases hc
            refine ⟨rfl, ?_, ?_, ?_⟩ <;> first | assumption | rfl
        · cases hc
      | feedDone =>
        simp only [step] at hc
        split at hc <;> cases hc
        refine ⟨rfl, ?_, ?_, ?_⟩ <;> first | assumption | rfl
      | guard =>
        simp only [step] at hc
        split at hc
        · rename_i hm; rw [hm] at h1; cases h1
        · cases hc
      | look =>
        simp only [step] at hc
        split at hc
        · rename_i hm; rw [hm] at h1; cases h1
        · rename_i hm; rw [hm] at h1; cases h1
        · cases hc
  obtain ⟨h1, h2, h3, _⟩ := key ls init s h hq ⟨rfl, rfl, rfl, rfl⟩
  exact ⟨h1, h2, h3⟩

example : ∃ s, Run reading s ∧ (∀ l ∈ reading, disturbs l = false) ∧ s.sent ≠ [] := ⟨_, rfl, by decide, by decide⟩

end Shpool.PagerRun
