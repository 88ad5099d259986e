import Verif.StartCmd.Model
import Verif.Util.Fair
/-!
# C167: at a prompt the user sees the session
-/

namespace Shpool.StartCmd

/-- The shell waits for the user: nothing runs, nothing is typed ahead, and the daemon is done with the setup. -/
def AtPrompt (s : St) : Prop := s.phase ≠ .waiting ∧ s.running = none ∧ s.queue = []

/-- **C167**, as stated: whatever the start files and the start command do, when the shell waits for the user its output is shown. -/
def C167_statement : Prop := ∀ rc startCmd ls s, Run (program rc startCmd) ls s → AtPrompt s → s.shown = true

/-- The command leaves alone what was typed ahead. -/
def Cmd.harmless (c : Cmd) : Prop := c.reads = false ∧ c.flushes = false

/-- What the commands typed before the marker, and the start files, are known to do. -/
private structure Good (P : Params) (G : Cmd → Prop) : Prop where
  rc : G P.rc
  before : ∀ c ∈ P.before, G c

/-- A line before the marker. -/
private def Line.ok (G : Cmd → Prop) : Line → Prop
  | .cmd c => G c
  | .setup => True
  | _ => False

private def StInv (P : Params) (G : Cmd → Prop) (s : St) : Prop :=
  s.shown = true ∨
  (s.phase = .waiting ∧ s.noticed = false ∧ s.queue = [.startup] ∧ (∀ c, s.running = some c → c = P.rc)) ∨
  (s.phase = .waiting ∧ s.noticed = true ∧ s.queue = [] ∧ s.running = none) ∨
  (s.phase = .typed ∧ (∀ c, s.running = some c → G c) ∧ ∃ pre post, s.queue = pre ++ .marker :: post ∧ ∀ l ∈ pre, l.ok G)

private theorem script_ok {P : Params} {G : Cmd → Prop} (hP : Good P G) : ∃ pre post, scriptOf P = pre ++ .marker :: post ∧ ∀ l ∈ pre, l.ok G := by
  refine ⟨.setup :: P.before.map .cmd, P.after.map .cmd, rfl, fun l hl => ?_⟩
  rcases List.mem_cons.1 hl with rfl | hl
  · trivial
  · obtain ⟨c, hc, rfl⟩ := List.mem_map.1 hl
    exact hP.before c hc

private theorem step_inv {P : Params} {G : Cmd → Prop} (hP : Good P G) (hG : ∀ c, G c → c.harmless) {s s' : St} {l : Label} (hl : l ≠ .giveUp)
    (hI : StInv P G s) (h : step P s l = some s') : StInv P G s' := by
  have keep : s'.shown = true → StInv P G s' := .inl
  rcases hI with hI | ⟨h1, h2, h3, h4⟩ | ⟨h1, h2, h3, h4⟩ | ⟨h1, h2, pre, post, h3, h4⟩
  · apply keep
    cases l <;> simp only [step] at h <;> (repeat' split at h) <;> cases h <;> first | exact hI | rfl
  · -- waiting for the start
    cases l with
    | giveUp => exact absurd rfl hl
    | script => simp [step, h2] at h
    | type c => simp [step, h1] at h
    | print x =>
      simp only [step] at h
      cases h
      split
      · exact .inl (by assumption)
      · exact .inr (.inl ⟨h1, h2, h3, h4⟩)
    | finish =>
      simp only [step] at h
      repeat' split at h
      all_goals cases h
      exact .inr (.inl ⟨h1, h2, h3, fun c hc => by cases hc⟩)
    | flush =>
      simp only [step] at h
      repeat' split at h
      all_goals cases h
      rename_i c hc hf
      have := (hG _ (h4 c hc ▸ hP.rc)).2
      rw [hf] at this; cases this
    | take =>
      simp only [step] at h
      repeat' split at h
      all_goals cases h
      rename_i c _ _ hc hq hf
      have := (hG _ (h4 c hc ▸ hP.rc)).1
      rw [hf] at this; cases this
    | shell =>
      simp only [step, h3] at h
      split at h <;> try cases h
      · rename_i hr hq
        cases hq
        exact .inr (.inr (.inl ⟨h1, rfl, rfl, hr⟩))
      all_goals (rename_i hr hq; cases hq)
  · -- the start was noticed
    cases l with
    | giveUp => exact absurd rfl hl
    | script =>
      simp only [step, h1, h2, h3] at h
      simp at h
      subst h
      obtain ⟨pre, post, e, ho⟩ := script_ok hP
      exact .inr (.inr (.inr ⟨rfl, (fun c hc => by rw [show s.running = some c from hc] at h4; cases h4), pre, post, e, ho⟩))
    | type c => simp [step, h1] at h
    | print x =>
      simp only [step] at h
      cases h
      split
      · exact .inl (by assumption)
      · exact .inr (.inr (.inl ⟨h1, h2, h3, h4⟩))
    | finish => simp [step, h4] at h
    | flush => simp [step, h4] at h
    | take => simp [step, h4] at h
    | shell => simp [step, h4, h3] at h
  · -- the script was typed
    cases l with
    | giveUp => exact absurd rfl hl
    | script => simp [step, h1] at h
    | type c =>
      simp only [step, h1] at h
      simp at h
      subst h
      exact .inr (.inr (.inr ⟨rfl, h2, pre, post ++ [.cmd c], by simp [h3], h4⟩))
    | print x =>
      simp only [step] at h
      cases h
      split
      · exact .inl (by assumption)
      · exact .inr (.inr (.inr ⟨h1, h2, pre, post, h3, h4⟩))
    | finish =>
      simp only [step] at h
      repeat' split at h
      all_goals cases h
      exact .inr (.inr (.inr ⟨h1, (fun c hc => by cases hc), pre, post, h3, h4⟩))
    | flush =>
      simp only [step] at h
      repeat' split at h
      all_goals cases h
      rename_i c hc hf
      have := (hG _ (h2 c hc)).2
      rw [hf] at this; cases this
    | take =>
      simp only [step] at h
      repeat' split at h
      all_goals cases h
      rename_i c _ _ hc hq hf
      have := (hG _ (h2 c hc)).1
      rw [hf] at this; cases this
    | shell =>
      simp only [step, h3] at h
      cases pre with
      | nil =>
        simp only [List.nil_append] at h
        split at h <;> try cases h
        all_goals (rename_i hr hq; cases hq)
        exact .inl rfl
      | cons x pre =>
        have hx := h4 x (by simp)
        have hpre : ∀ l ∈ pre, l.ok G := fun l hm => h4 l (by simp [hm])
        simp only [List.cons_append] at h
        split at h <;> try cases h
        all_goals (rename_i hr hq; cases hq)
        · exact absurd hx (by simp [Line.ok])
        · exact .inr (.inr (.inr ⟨h1, (fun c hc => by rw [hr] at hc; cases hc), pre, post, rfl, hpre⟩))
        · exact .inr (.inr (.inr ⟨h1, (fun c hc => by cases hc; exact hx), pre, post, rfl, hpre⟩))
        · exact absurd hx (by simp [Line.ok])

private theorem run_inv' {P : Params} {G : Cmd → Prop} (hP : Good P G) (hG : ∀ c, G c → c.harmless) {ls : List Label} {s : St} (h : Run P ls s)
    (hn : .giveUp ∉ ls) : StInv P G s := by
  have := run_hist (step := step P) (s := init P) (I := fun ls s => .giveUp ∉ ls → StInv P G s)
    (fun ls s l s' hI hs hn => step_inv hP hG (fun e => hn (by simp [e])) (hI fun hm => hn (by simp [hm])) hs)
    (fun _ => .inr (.inl ⟨rfl, rfl, rfl, fun c hc => by cases hc; rfl⟩)) h
  exact this hn

private theorem shown_at_prompt {P : Params} {G : Cmd → Prop} {s : St} (hI : StInv P G s) (hp : AtPrompt s) : s.shown = true := by
  obtain ⟨h1, h2, h3⟩ := hp
  rcases hI with hI | ⟨e, _⟩ | ⟨e, _⟩ | ⟨_, _, pre, post, e, _⟩
  · exact hI
  · exact absurd e h1
  · exact absurd e h1
  · rw [h3] at e; cases pre <;> cases e

/-- **C167**, if neither the start files nor the start command read from the terminal or throw away what was typed ahead, and the daemon does
not give up waiting for the shell's start.  What the user types later is not restricted. -/
theorem C167_partial {rc : Cmd} {startCmd : List Cmd} (hrc : rc.harmless) (hs : ∀ c ∈ startCmd, c.harmless) {ls : List Label} {s : St}
    (h : Run (program rc startCmd) ls s) (hn : .giveUp ∉ ls) (hp : AtPrompt s) : s.shown = true :=
  shown_at_prompt (run_inv' (G := Cmd.harmless) ⟨hrc, hs⟩ (fun _ h => h) h hn) hp

/-- A command such as `cd`, and one such as `cat` or `ssh`. -/
def cd : Cmd := ⟨false, false, true⟩
def cat : Cmd := ⟨true, false, true⟩
def sudo : Cmd := ⟨true, true, true⟩
def execTop : Cmd := ⟨false, false, false⟩

/-- A session with a start command, in which the user then runs a program that reads. -/
example : ∃ s, Run (program cd [cd]) [.finish, .shell, .script, .type cat, .shell, .shell, .finish, .print 1, .shell, .shell, .print 2, .finish] s ∧
    AtPrompt s ∧ s.seen = [2] ∧ s.hidden = [1] := ⟨_, rfl, ⟨by decide, rfl, rfl⟩, rfl, rfl⟩

/-! ## Where it is false -/

/-- **C167 is false**: a start command that reads from the terminal takes the command that prints the marker for its input. -/
theorem C167_false : ¬ C167_statement := by
  intro h
  have hr : ∃ s, Run (program cd [cat]) [.finish, .shell, .script, .shell, .shell, .take, .finish] s ∧ AtPrompt s ∧ s.shown = false :=
    ⟨_, rfl, ⟨by decide, rfl, rfl⟩, rfl⟩
  obtain ⟨s, hr, hp, hs⟩ := hr
  have := h _ _ _ s hr hp
  rw [hs] at this; cases this

/-- Likewise if the start command throws away what was typed ahead, if the start files do either, and if the daemon gives up. -/
theorem C167_false_others :
    (∃ s, Run (program cd [⟨false, true, true⟩]) [.finish, .shell, .script, .shell, .shell, .flush, .finish] s ∧ AtPrompt s ∧ s.shown = false) ∧
    (∃ s, Run (program cat [cd]) [.take, .finish, .giveUp] s ∧ AtPrompt s ∧ s.shown = false) ∧
    (∃ s, Run (program ⟨false, true, true⟩ [cd]) [.flush, .finish, .giveUp] s ∧ AtPrompt s ∧ s.shown = false) ∧
    (∃ s, Run (program cd [cd]) [.finish, .giveUp, .shell] s ∧ AtPrompt s ∧ s.shown = false) :=
  ⟨⟨_, rfl, ⟨by decide, rfl, rfl⟩, rfl⟩, ⟨_, rfl, ⟨by decide, rfl, rfl⟩, rfl⟩, ⟨_, rfl, ⟨by decide, rfl, rfl⟩, rfl⟩,
    ⟨_, rfl, ⟨by decide, rfl, rfl⟩, rfl⟩⟩

/-- **C167** (cause): if the shell waits for the user and its output is hidden, then the daemon gave up, or a program took or threw away one of
the two commands that print a marker. -/
theorem C167_cause {P : Params} {ls : List Label} {s : St} (h : Run P ls s) (hp : AtPrompt s) (hs : s.shown = false) :
    .giveUp ∈ ls ∨ ∃ pre l post u, ls = pre ++ l :: post ∧ Run P pre u ∧
      ((l = .take ∧ (u.queue.head? = some .startup ∨ u.queue.head? = some .marker)) ∨ (l = .flush ∧ (.startup ∈ u.queue ∨ .marker ∈ u.queue))) := by
  apply Classical.byContradiction
  intro hno
  have hng : .giveUp ∉ ls := fun hm => hno (.inl hm)
  -- the two commands are where they should be
  have key := run_hist (step := step P) (s := init P) (I := fun ls s => Run P ls s ∧ (.giveUp ∉ ls →
      (∀ pre l post u, ls = pre ++ l :: post → Run P pre u →
        ¬ ((l = .take ∧ (u.queue.head? = some .startup ∨ u.queue.head? = some .marker)) ∨ (l = .flush ∧ (.startup ∈ u.queue ∨ .marker ∈ u.queue)))) →
      (s.shown = true ∨ (s.phase = .waiting ∧ (s.noticed = true ∨ .startup ∈ s.queue)) ∨ (s.phase = .typed ∧ .marker ∈ s.queue))))
    (fun ls s l s' hI hst => ?_) ⟨rfl, fun _ _ => .inr (.inl ⟨rfl, .inr (by simp [init])⟩)⟩ h
  · have := key.2 hng fun pre l post u e hr hc => hno (.inr ⟨pre, l, post, u, e, hr, hc⟩)
    obtain ⟨h1, h2, h3⟩ := hp
    rcases this with h | ⟨h, _⟩ | ⟨_, h⟩
    · rw [hs] at h; cases h
    · exact h1 h
    · rw [h3] at h; cases h
  · obtain ⟨hr, hI⟩ := hI
    refine ⟨by show runSteps _ _ _ = _; rw [run_append, show runSteps (step P) (init P) ls = some s from hr]; simp [runSteps, hst], fun hn hq => ?_⟩
    have hI := hI (fun hm => hn (by simp [hm])) fun pre l' post u e => hq pre l' (post ++ [l]) u (by rw [e]; simp)
    have hl := hq ls l [] s rfl hr
    have hg : l ≠ .giveUp := fun e => hn (by simp [e])
    clear hq
    cases l with
    | giveUp => exact absurd rfl hg
    | script =>
      simp only [step] at hst
      split at hst <;> cases hst
      exact .inr (.inr ⟨rfl, by simp [scriptOf]⟩)
    | type c =>
      simp only [step] at hst
      split at hst <;> cases hst
      rcases hI with h | ⟨h, _⟩ | ⟨h, h'⟩
      · exact .inl h
      · exact absurd h (by assumption)
      · exact .inr (.inr ⟨h, by simp [h']⟩)
    | print x =>
      simp only [step] at hst
      cases hst
      split
      · exact .inl (by assumption)
      · exact hI
    | finish =>
      simp only [step] at hst
      repeat' split at hst
      all_goals cases hst
      exact hI
    | flush =>
      simp only [step] at hst
      repeat' split at hst
      all_goals cases hst
      rcases hI with h | ⟨h, h' | h'⟩ | ⟨h, h'⟩
      · exact .inl h
      · exact .inr (.inl ⟨h, .inl h'⟩)
      · exact absurd (.inr ⟨rfl, .inl h'⟩) hl
      · exact absurd (.inr ⟨rfl, .inr h'⟩) hl
    | take =>
      simp only [step] at hst
      repeat' split at hst
      all_goals cases hst
      rename_i c x q hc hq hf
      rw [hq] at hI hl
      have hx : x ≠ .startup ∧ x ≠ .marker := ⟨fun e => hl (.inl ⟨rfl, .inl (by simp [e])⟩), fun e => hl (.inl ⟨rfl, .inr (by simp [e])⟩)⟩
      rcases hI with h | ⟨h, h' | h'⟩ | ⟨h, h'⟩
      · exact .inl h
      · exact .inr (.inl ⟨h, .inl h'⟩)
      · exact .inr (.inl ⟨h, .inr ((List.mem_cons.1 h').resolve_left fun e => hx.1 e.symm)⟩)
      · exact .inr (.inr ⟨h, (List.mem_cons.1 h').resolve_left fun e => hx.2 e.symm⟩)
    | shell =>
      simp only [step] at hst
      split at hst <;> (try cases hst) <;> rename_i hrn hq <;> rw [hq] at hI
      · rcases hI with h | ⟨h, _⟩ | ⟨h, h'⟩
        · exact .inl h
        · exact .inr (.inl ⟨h, .inl rfl⟩)
        · exact .inr (.inr ⟨h, by simpa using h'⟩)
      · rcases hI with h | ⟨h, h'⟩ | ⟨h, h'⟩
        · exact .inl h
        · exact .inr (.inl ⟨h, by simpa using h'⟩)
        · exact .inr (.inr ⟨h, by simpa using h'⟩)
      · rcases hI with h | ⟨h, h'⟩ | ⟨h, h'⟩
        · exact .inl h
        · exact .inr (.inl ⟨h, by simpa using h'⟩)
        · exact .inr (.inr ⟨h, by simpa using h'⟩)
      · exact .inl rfl

/-- **C167** (for ever): once the marker is lost nothing is shown any more, whatever is done in the session. -/
theorem C167_for_ever {P : Params} {s s' : St} {ls : List Label} (hph : s.phase ≠ .waiting) (hq : .marker ∉ s.queue) (hs : s.shown = false)
    (h : runSteps (step P) s ls = some s') : s'.shown = false ∧ s'.seen = s.seen := by
  have := run_inv (step := step P) (I := fun t => t.phase ≠ .waiting ∧ .marker ∉ t.queue ∧ t.shown = false ∧ t.seen = s.seen) (s := s) (s' := s') (ls := ls)
    (fun t l t' hI ht => ?_) ⟨hph, hq, hs, rfl⟩ h
  · exact this.2.2
  · obtain ⟨h1, h2, h3, h4⟩ := hI
    cases l <;> simp only [step] at ht
    case print => cases ht; rw [h3]; exact ⟨h1, h2, by simp [h3], by simp [h4]⟩
    all_goals (repeat' split at ht)
    all_goals cases ht
    all_goals first
      | (exfalso; simp_all; done)
      | (refine ⟨?_, ?_, ?_, ?_⟩ <;> simp_all; done)

/-- **C167** (never back): as long as a start command runs that does not come back to the prompt, nothing it prints is shown. -/
theorem C167_false_runs {P : Params} {s s' : St} {ls : List Label} {c : Cmd} (hr : s.running = some c) (he : c.ends = false) (hs : s.shown = false)
    (h : runSteps (step P) s ls = some s') : s'.shown = false ∧ s'.seen = s.seen := by
  have := run_inv (step := step P) (I := fun t => t.running = some c ∧ t.shown = false ∧ t.seen = s.seen) (s := s) (s' := s') (ls := ls)
    (fun t l t' hI ht => ?_) ⟨hr, hs, rfl⟩ h
  · exact this.2
  · obtain ⟨h1, h2, h3⟩ := hI
    cases l <;> simp only [step] at ht
    case print => cases ht; simp [h2, h3, h1]
    case finish => simp [h1, he] at ht
    case shell => simp [h1] at ht
    all_goals (repeat' split at ht)
    all_goals cases ht
    all_goals exact ⟨h1, h2, h3⟩

/-- Such a session: the start command `exec top` runs and prints. -/
example : ∃ s, Run (program cd [execTop]) [.finish, .shell, .script, .shell, .shell, .print 1, .print 2] s ∧ s.running = some execTop ∧
    s.shown = false ∧ s.hidden = [1, 2] := ⟨_, rfl, rfl, rfl, rfl⟩

/-! ## It is shown in the end -/

/-- What the shell, the programs that end and the daemon do. -/
def works : Label → Bool
  | .shell | .finish | .script => true
  | _ => false

private def rank (P : Params) (s : St) : Nat :=
  match s.phase with
  | .waiting => 2 * (scriptOf P).length + 3 + (if s.noticed then 0 else 2 + (if s.running.isSome then 1 else 0))
  | _ => 2 * (s.queue.takeWhile fun x => !decide (x = Line.marker)).length + (if s.running.isSome then 1 else 0)

private theorem take_len {pre post : List Line} {G : Cmd → Prop} (h : ∀ l ∈ pre, l.ok G) :
    (List.takeWhile (fun x => !decide (x = Line.marker)) (pre ++ .marker :: post)).length = pre.length := by
  induction pre with
  | nil => simp
  | cons x pre ih =>
    have hx : x ≠ .marker := by rintro rfl; exact h .marker (by simp)
    have := ih fun l hm => h l (by simp [hm])
    simp only [List.cons_append, List.takeWhile_cons]
    simp [hx, this]

/-- The command leaves alone what was typed ahead and comes back. -/
def Cmd.good (c : Cmd) : Prop := c.harmless ∧ c.ends = true

/-- **C167** (in the end): if the start files and the start command leave alone what was typed ahead and come back to the prompt, and the daemon
does not give up, the session is shown in the end. -/
theorem C167_fair_partial {rc : Cmd} {startCmd : List Cmd} (hrc : rc.good) (hsc : ∀ c ∈ startCmd, c.good) {σ : Nat → St} {lab : Nat → Option Label}
    (hx : Exec (step (program rc startCmd)) σ lab) (h0 : σ 0 = init (program rc startCmd))
    (hf : WeakFair (step (program rc startCmd)) σ lab works) (hg : ∀ i, lab i ≠ some .giveUp) : ∃ i, (σ i).shown = true := by
  have hP : Good (program rc startCmd) Cmd.good := ⟨hrc, hsc⟩
  have hG : ∀ c : Cmd, c.good → c.harmless := fun c h => h.1
  have := fair_reaches (m := 0) hx hf (B := fun s => StInv (program rc startCmd) Cmd.good s ∧ s.shown = false) (G := fun s => s.shown = true)
    (rank (program rc startCmd)) (by rw [h0]; exact ⟨.inr (.inl ⟨rfl, rfl, rfl, fun c hc => by cases hc; rfl⟩), rfl⟩) ?_ ?_
  · obtain ⟨i, _, hi⟩ := this; exact ⟨i, hi⟩
  · rintro i - ⟨hI, hs⟩
    rcases hI with hI | ⟨h1, h2, h3, h4⟩ | ⟨h1, h2, h3, h4⟩ | ⟨h1, h2, pre, post, h3, h4⟩
    · rw [hs] at hI; cases hI
    · cases hr : (σ i).running with
      | none => exact ⟨.shell, rfl, by simp [step, hr, h3]⟩
      | some c => exact ⟨.finish, rfl, by simp [step, hr, h4 c hr, show (program rc startCmd).rc.ends = true from hrc.2]⟩
    · exact ⟨.script, rfl, by simp [step, h1, h2]⟩
    · cases hr : (σ i).running with
      | none =>
        refine ⟨.shell, rfl, ?_⟩
        cases pre with
        | nil => simp [step, hr, h3]
        | cons x pre => cases x <;> simp [step, hr, h3]
      | some c => exact ⟨.finish, rfl, by simp [step, hr, (h2 c hr).2]⟩
  · rintro i l - hl ⟨hI, hs⟩ hst
    by_cases hs' : (σ (i + 1)).shown = true
    · exact .inl hs'
    refine .inr ⟨⟨step_inv hP hG (fun e => hg i (by rw [hl, e])) hI hst, by simpa using hs'⟩, ?_⟩
    generalize σ (i + 1) = s' at *
    generalize σ i = s at *
    rcases hI with hI | ⟨h1, h2, h3, h4⟩ | ⟨h1, h2, h3, h4⟩ | ⟨h1, h2, pre, post, h3, h4⟩
    · rw [hs] at hI; cases hI
    · -- waiting for the start
      cases l <;> simp only [step, h1, h3, hs] at hst
      case print x => cases hst; simp [rank, h1, works]
      case giveUp => exact absurd hl (hg i)
      all_goals (repeat' split at hst)
      all_goals cases hst
      all_goals simp_all [rank, works]
      all_goals (have := (hrc.1); simp_all [Cmd.harmless, program])
    · cases l <;> simp only [step, h1, h3, h4, hs] at hst
      case print x => cases hst; simp [rank, h1, h2, works]
      case script =>
        simp [h2] at hst
        subst hst
        obtain ⟨pre, post, e, ho⟩ := script_ok hP
        have hlen : pre.length ≤ (scriptOf (program rc startCmd)).length := by rw [e]; simp
        have ht := take_len (post := post) ho
        rw [← e] at ht
        simp only [rank, h1, h2, works, h4]
        simp [ht]
        omega
      all_goals (repeat' split at hst)
      all_goals (try cases hst)
      all_goals simp_all
    · have hrk : rank (program rc startCmd) s = 2 * pre.length + (if s.running.isSome then 1 else 0) := by
        simp only [rank, h1, h3, take_len h4]
      cases l with
      | giveUp => exact absurd hl (hg i)
      | script => simp [step, h1] at hst
      | type c =>
        simp only [step, h1] at hst
        simp at hst
        subst hst
        have e : s.queue ++ [.cmd c] = pre ++ .marker :: (post ++ [.cmd c]) := by simp [h3]
        rw [hrk]
        simp only [rank, h1, e, take_len h4, works]
        simp
      | print x => simp only [step, hs] at hst; cases hst; simp [rank, h1, works]
      | finish =>
        simp only [step] at hst
        repeat' split at hst
        all_goals cases hst
        rename_i c hc _
        rw [hrk]
        simp [rank, h1, h3, take_len h4, hc]
      | flush =>
        simp only [step] at hst
        repeat' split at hst
        all_goals cases hst
        rename_i c hc hfl
        have := (h2 c hc).1.2
        rw [hfl] at this; cases this
      | take =>
        simp only [step] at hst
        repeat' split at hst
        all_goals cases hst
        rename_i c _ _ hc hq hfl
        have := (h2 c hc).1.1
        rw [hfl] at this; cases this
      | shell =>
        simp only [step, h3] at hst
        cases pre with
        | nil =>
          simp only [List.nil_append] at hst
          split at hst <;> try cases hst
          all_goals (rename_i hr hq; cases hq)
          exact absurd rfl hs'
        | cons x pre =>
          have hx := h4 x (by simp)
          have hpre : ∀ l ∈ pre, l.ok Cmd.good := fun l hm => h4 l (by simp [hm])
          simp only [List.cons_append] at hst
          split at hst <;> try cases hst
          all_goals (rename_i hr hq; cases hq)
          · exact absurd hx (by simp [Line.ok])
          · rw [hrk]
            simp [rank, h1, take_len hpre, hr, works]
            omega
          · rw [hrk]
            simp [rank, h1, take_len hpre, hr, works]
            omega
          · exact absurd hx (by simp [Line.ok])

/-- Such an execution. -/
example : ∃ σ lab, Exec (step (program cd [cd])) σ lab ∧ σ 0 = init (program cd [cd]) ∧ WeakFair (step (program cd [cd])) σ lab works ∧
    (∀ i, lab i ≠ some .giveUp) ∧ cd.good := by
  have hr : ∃ s, Run (program cd [cd]) [.finish, .shell, .script, .shell, .shell, .finish, .shell, .print 1] s ∧ s.running = none ∧ s.queue = [] ∧
      s.phase = .typed := ⟨_, rfl, rfl, rfl, rfl⟩
  obtain ⟨s, hr, h1, h2, h3⟩ := hr
  obtain ⟨hx, hrest⟩ := thenRests_exec hr
  refine ⟨_, _, hx, rfl, (fair_at_rest (n := 8) hrest fun l hl => ?_).1, fun i hi => ?_, ⟨rfl, rfl⟩, rfl⟩
  · cases l <;> simp [works] at hl <;> simp [step, h1, h2, h3]
  · have := List.mem_of_getElem? hi
    simp at this

/-! ## What the daemon could do -/

/-- **C167** for a daemon that types the marker's command before the start command: whatever the start command does, the session is shown. -/
theorem C167_repaired {rc : Cmd} {startCmd : List Cmd} (hrc : rc.harmless) {ls : List Label} {s : St}
    (h : Run (markerFirst rc startCmd) ls s) (hn : .giveUp ∉ ls) : (AtPrompt s → s.shown = true) ∧
      (∀ c, s.phase = .typed → s.running = some c → s.shown = true) := by
  have hI := run_inv' (P := markerFirst rc startCmd) (G := Cmd.harmless) ⟨hrc, fun c hc => by cases hc⟩ (fun _ h => h) h hn
  refine ⟨shown_at_prompt hI, fun c hph hr => ?_⟩
  -- nothing runs before the marker
  have key := run_hist (step := step (markerFirst rc startCmd)) (s := init (markerFirst rc startCmd)) (I := fun ls s => Run (markerFirst rc startCmd) ls s ∧
    (.giveUp ∉ ls → s.phase = .typed → s.shown = true ∨ (s.running = none ∧ ∃ pre post, s.queue = pre ++ .marker :: post ∧ ∀ l ∈ pre, l = .setup)))
    (fun ls s l s' hI hst => ?_) ⟨rfl, fun _ h => by cases h⟩ h
  · rcases key.2 hn hph with h | ⟨h, _⟩
    · exact h
    · rw [h] at hr; cases hr
  · obtain ⟨hrun, hI⟩ := hI
    refine ⟨by show runSteps _ _ _ = _; rw [run_append, show runSteps (step (markerFirst rc startCmd)) (init (markerFirst rc startCmd)) ls = some s from hrun]; simp [runSteps, hst], fun hn' hph' => ?_⟩
    have hn0 : .giveUp ∉ ls := fun hm => hn' (by simp [hm])
    have hI := hI hn0
    by_cases hw : s.phase = .typed
    · rcases hI hw with hsh | ⟨hrn, pre, post, hq, hpre⟩
      · left
        cases l <;> simp only [step] at hst <;> (repeat' split at hst) <;> cases hst <;> first | exact hsh | rfl
      · cases l <;> simp only [step, hw, hrn, hq] at hst
        case print x =>
          cases hst
          split
          · exact .inl (by assumption)
          · exact .inr ⟨rfl, pre, post, rfl, hpre⟩
        case type c =>
          simp at hst
          subst hst
          exact .inr ⟨rfl, pre, post ++ [.cmd c], by simp, hpre⟩
        case shell =>
          cases pre with
          | nil =>
            simp only [List.nil_append] at hst
            cases hst
            exact .inl rfl
          | cons x pre =>
            have hx := hpre x (by simp)
            subst hx
            simp only [List.cons_append] at hst
            cases hst
            exact .inr ⟨rfl, pre, post, rfl, fun l hm => hpre l (by simp [hm])⟩
        all_goals simp at hst
    · have hinv := run_inv' (P := markerFirst rc startCmd) (G := Cmd.harmless) ⟨hrc, fun c hc => by cases hc⟩ (fun _ h => h) hrun hn0
      cases l <;> simp only [step] at hst
      case script =>
        split at hst <;> cases hst
        rename_i hc
        rcases hinv with h | ⟨_, h, _⟩ | ⟨_, _, h3, h4⟩ | ⟨h, _⟩
        · exact .inl h
        · rw [hc.2] at h; cases h
        · exact .inr ⟨h4, [.setup], startCmd.map .cmd, by simp [h3, scriptOf, markerFirst], by simp⟩
        · exact absurd h hw
      all_goals (repeat' split at hst)
      all_goals cases hst
      all_goals first
        | exact absurd hph' hw
        | (exfalso; revert hph'; (try split) <;> simp_all; done)
        | simp_all

/-- `sudo` as a start command, shown from its first output on. -/
example : ∃ s, Run (markerFirst cd [sudo]) [.finish, .shell, .script, .shell, .shell, .shell, .print 1, .flush, .type cd, .take, .finish] s ∧
    s.seen = [1] ∧ AtPrompt s := ⟨_, rfl, rfl, ⟨by decide, rfl, rfl⟩⟩

end Shpool.StartCmd
