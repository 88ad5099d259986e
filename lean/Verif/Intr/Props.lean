import Verif.Intr.Model
import Verif.Util.Fair
/-!
# C163: resizing the terminal does not end the attach
-/

namespace Shpool.Intr

/-! ## Nothing ends the attach but signals -/

/-- A step of the main loop with which nothing ends: no end of input, no error, no exit status and no hint to switch. -/
def ordinary : Pipe.Label → Bool
  | .inCheck | .inTimeout | .inData _ none | .outCheck | .outTimeout => true
  | .outRecv f => f.kind = .data ∨ f.kind = .heartbeat
  | .outHandle _ none false => true
  | .mainWake | .graceEnd _ | .stamp | .wait2End _ => true
  | .inData _ (some _) | .inEof | .inError | .outError | .outHandle .. => false

/-- All steps of the main loop are ordinary. -/
def Ordinary (ls : List Label) : Prop := ∀ l, Label.pipe l ∈ ls → ordinary l = true

/-- **C163**, as stated: whenever the terminal is resized, the client stays attached. -/
def C163_statement : Prop := ∀ ls s, Run ls s → Ordinary ls → s.pipe.main = .waiting

/-- The main loop goes on. -/
structure Goes (p : Pipe.St) : Prop where
  slot : p.slot = none
  inp : p.inp ≠ .finished
  out : p.out ≠ .finished
  main : p.main = .waiting
  frame : ∀ f, p.out = .got f → f.kind = .data ∨ f.kind = .heartbeat

theorem goes_init : Goes Pipe.init := ⟨rfl, by simp [Pipe.init], by simp [Pipe.init], rfl, by simp [Pipe.init]⟩

theorem goes_step {p p' : Pipe.St} {l : Pipe.Label} (hg : Goes p) (ho : ordinary l = true) (hs : Pipe.step p l = some p') : Goes p' := by
  obtain ⟨h1, h2, h3, h4, h5⟩ := hg
  cases l with
  | inCheck =>
    simp only [Pipe.step, h1] at hs
    split at hs <;> cases hs
    exact ⟨rfl, by simp, h3, h4, h5⟩
  | inTimeout =>
    simp only [Pipe.step] at hs
    split at hs <;> cases hs
    exact ⟨h1, by simp, h3, h4, h5⟩
  | inData b acc =>
    cases acc with
    | some k => cases ho
    | none =>
      simp only [Pipe.step] at hs
      split at hs <;> cases hs
      exact ⟨h1, by simp, h3, h4, h5⟩
  | inEof => cases ho
  | inError => cases ho
  | outCheck =>
    simp only [Pipe.step, h1] at hs
    split at hs <;> cases hs
    exact ⟨rfl, h2, by simp, h4, by simp⟩
  | outTimeout =>
    simp only [Pipe.step] at hs
    split at hs <;> cases hs
    exact ⟨h1, h2, by simp, h4, by simp⟩
  | outRecv f =>
    simp only [Pipe.step] at hs
    split at hs <;> cases hs
    simp only [ordinary, decide_eq_true_eq] at ho
    exact ⟨h1, h2, by simp, h4, fun g hg => by cases hg; exact ho⟩
  | outError => cases ho
  | outHandle a w b =>
    cases w with
    | some k => cases ho
    | none =>
      cases b with
      | true => cases ho
      | false =>
        simp only [Pipe.step] at hs
        split at hs <;> cases hs
        rename_i f hf
        rcases h5 f hf with hk | hk <;> simp only [Pipe.handle, hk] <;> exact ⟨h1, h2, by simp, h4, by simp⟩
  | mainWake => simp only [Pipe.step, h2, h3, or_self, and_false] at hs; cases hs
  | graceEnd t => simp only [Pipe.step, h4, reduceCtorEq, false_and] at hs; cases hs
  | stamp => simp only [Pipe.step, h4, reduceCtorEq] at hs; cases hs
  | wait2End t => simp only [Pipe.step, h4, reduceCtorEq] at hs; cases hs

/-- What a step does. -/
inductive Eff (P : Params) (s s' : St) : Label → Prop
  | resize : s'.pipe = s.pipe → s'.pending = true → s'.handler = s.handler → s'.flag = s.flag → s'.telling = s.telling →
      s'.size = s.size + 1 → s'.told = s.told → Eff P s s' .resize
  | deliver (t b) : s.pending = true → s.handler t = none → (b = true → canPoll s.pipe t = true) →
      (P.linux = true → t = .main ∨ s.handler .main ≠ none) → s'.pipe = s.pipe → s'.pending = false →
      s'.handler = upd s.handler t (some b) → s'.flag = s.flag → s'.telling = s.telling → s'.size = s.size → s'.told = s.told →
      Eff P s s' (.deliver t b)
  | ret (t b) : s.handler t = some b → ((b = false ∨ P.again = true) ∧ s'.pipe = s.pipe ∨ b = true ∧ P.again = false ∧ pollFails s.pipe t = some s'.pipe) →
      s'.pending = s.pending → s'.handler = upd s.handler t none → s'.flag = true → s'.telling = s.telling → s'.size = s.size →
      s'.told = s.told → Eff P s s' (.ret t)
  | take : s.flag = true → s.telling = false → s'.pipe = s.pipe → s'.pending = s.pending → s'.handler = s.handler → s'.flag = false →
      s'.telling = true → s'.size = s.size → s'.told = s.told → Eff P s s' .take
  | tell : s.telling = true → s'.pipe = s.pipe → s'.pending = s.pending → s'.handler = s.handler → s'.flag = s.flag →
      s'.telling = false → s'.size = s.size → s'.told = s.size → Eff P s s' .tell
  | pipe (l) : s.handler (who l) = none → Pipe.step s.pipe l = some s'.pipe → s'.pending = s.pending → s'.handler = s.handler →
      s'.flag = s.flag → s'.telling = s.telling → s'.size = s.size → s'.told = s.told → Eff P s s' (.pipe l)

theorem step_eff {P : Params} {s s' : St} {l : Label} (h : stepOf P s l = some s') : Eff P s s' l := by
  cases l with
  | resize =>
    simp only [stepOf] at h
    split at h <;> cases h
    exact .resize rfl rfl rfl rfl rfl rfl rfl
  | deliver t b =>
    simp only [stepOf] at h
    split at h <;> cases h
    rename_i hc
    exact .deliver t b hc.2.1 hc.2.2.1 hc.2.2.2.2.1 hc.2.2.2.2.2 rfl rfl rfl rfl rfl rfl rfl
  | ret t =>
    simp only [stepOf] at h
    split at h
    · cases h
    split at h
    · cases h
    rename_i b hb
    split at h
    · cases h
    rename_i p hp
    cases h
    refine .ret t b hb ?_ rfl rfl rfl rfl rfl rfl
    split at hp
    · rename_i hc; simp only [Bool.and_eq_true, Bool.not_eq_true'] at hc; exact .inr ⟨hc.1, hc.2, hp⟩
    · rename_i hc
      cases hp
      refine .inl ⟨?_, rfl⟩
      cases b <;> simp_all
  | take =>
    simp only [stepOf] at h
    split at h <;> cases h
    rename_i hc
    exact .take hc.2.1 hc.2.2.1 rfl rfl rfl rfl rfl rfl rfl
  | tell =>
    simp only [stepOf] at h
    split at h <;> cases h
    rename_i hc
    exact .tell hc.2.1 rfl rfl rfl rfl rfl rfl rfl
  | pipe l =>
    simp only [stepOf] at h
    split at h
    · rename_i hc
      split at h
      · cases h
      · rename_i p hp; cases h; exact .pipe l hc.2 hp rfl rfl rfl rfl rfl rfl
    · cases h

theorem upd_at (f : Thr → Option Bool) (t : Thr) (v : Option Bool) (u : Thr) : upd f t v u = if u = t then v else f u := rfl

/-- **C163** (cause).  If the client's loop ends without an end of input, an error, an exit status or a switch, then a thread other
than the main one was interrupted by a resize while it waited for input. -/
theorem C163_cause {ls : List Label} {s : St} (h : Run ls s) (ho : Ordinary ls) (he : s.pipe.main ≠ .waiting) :
    Label.deliver .inp true ∈ ls ∨ Label.deliver .out true ∈ ls := by
  have key : Ordinary ls → (Label.deliver .inp true ∈ ls ∨ Label.deliver .out true ∈ ls) ∨ (Goes s.pipe ∧ ∀ t, s.handler t ≠ some true) := by
    refine run_hist (I := fun ls s => Ordinary ls →
      (Label.deliver .inp true ∈ ls ∨ Label.deliver .out true ∈ ls) ∨ (Goes s.pipe ∧ ∀ t, s.handler t ≠ some true))
      (fun ls s l s' hI hs ho => ?_) (fun _ => .inr ⟨goes_init, fun t => by simp [init]⟩) h
    rcases hI (fun l hl => ho l (by simp [hl])) with hd | ⟨hg, hh⟩
    · left; simp only [List.mem_append]; rcases hd with hd | hd
      · exact .inl (.inl hd)
      · exact .inr (.inl hd)
    cases step_eff hs with
    | resize h1 _ h3 => exact .inr ⟨h1 ▸ hg, h3 ▸ hh⟩
    | deliver t b _ _ hb _ h1 _ h3 =>
      cases b with
      | false =>
        refine .inr ⟨h1 ▸ hg, fun u => ?_⟩
        rw [h3, upd_at]; split
        · simp
        · exact hh u
      | true =>
        cases t with
        | inp => simp
        | out => simp
        | main => exact absurd (hb rfl) (by simp [canPoll])
        | iter => exact absurd (hb rfl) (by simp [canPoll])
    | ret t b h1 h2 _ h4 =>
      rcases h2 with ⟨-, h2⟩ | ⟨h2, -⟩
      · refine .inr ⟨h2 ▸ hg, fun u => ?_⟩
        rw [h4, upd_at]; split
        · simp
        · exact hh u
      · subst h2; exact absurd h1 (hh t)
    | take _ _ h1 _ h3 => exact .inr ⟨h1 ▸ hg, h3 ▸ hh⟩
    | tell _ h1 _ h3 => exact .inr ⟨h1 ▸ hg, h3 ▸ hh⟩
    | pipe l _ h1 _ h3 => exact .inr ⟨goes_step hg (ho l (by simp)) h1, h3 ▸ hh⟩
  rcases key ho with h | ⟨hg, -⟩
  · exact h
  · exact absurd hg.main he

/-- One resize after the other: the terminal is not resized while the main thread is in the handler for the last resize. -/
def Spaced (ls : List Label) : Prop := ∀ pre post u, ls = pre ++ Label.resize :: post → Run pre u → u.handler .main = none

/-- **C163**, if the resizes do not come too fast: the client stays attached. -/
theorem C163_partial {ls : List Label} {s : St} (h : Run ls s) (ho : Ordinary ls) (hsp : Spaced ls) : s.pipe.main = .waiting := by
  have hno : Spaced ls → Run ls s ∧ (s.pending = true → s.handler .main = none) ∧ (∀ t b, Label.deliver t b ∈ ls → t = .main) := by
    refine run_hist (I := fun ls s => Spaced ls → Run ls s ∧ (s.pending = true → s.handler .main = none) ∧
        (∀ t b, Label.deliver t b ∈ ls → t = .main))
      (fun ls s l s' hI hs hsp => ?_) (fun _ => ⟨rfl, by simp [init], by simp⟩) h
    obtain ⟨hr, hp, hd⟩ := hI (fun pre post u e => hsp pre (post ++ [l]) u (by rw [e]; simp))
    have hr' : Run (ls ++ [l]) s' := by
      show runSteps _ _ _ = _
      rw [run_append, show runSteps (stepOf real) init ls = some s from hr]
      simp only [Option.bind, runSteps, hs]
    have hd' : (∀ t b, l = .deliver t b → t = .main) → ∀ t b, Label.deliver t b ∈ ls ++ [l] → t = .main := by
      intro h1 t b hm
      rcases List.mem_append.mp hm with hm | hm
      · exact hd t b hm
      · simp only [List.mem_singleton] at hm; exact h1 t b hm.symm
    cases step_eff hs with
    | resize _ _ h3 => exact ⟨hr', fun _ => by rw [h3]; exact hsp ls [] s (by simp) hr, hd' (by simp)⟩
    | deliver t b h1 h2 hb hl h5 h6 h7 =>
      have ht : t = .main := (hl rfl).resolve_right (fun hc => hc (hp h1))
      exact ⟨hr', (fun hc => by rw [h6] at hc; cases hc), hd' (fun t' b' e => by cases e; exact ht)⟩
    | ret t b h1 h2 h3 h4 =>
      refine ⟨hr', fun hc => ?_, hd' (by simp)⟩
      rw [h4, upd_at]; split
      · rfl
      · exact hp (h3 ▸ hc)
    | take _ _ _ h2 h3 => exact ⟨hr', fun hc => h3 ▸ hp (h2 ▸ hc), hd' (by simp)⟩
    | tell _ _ h2 h3 => exact ⟨hr', fun hc => h3 ▸ hp (h2 ▸ hc), hd' (by simp)⟩
    | pipe l _ _ h2 h3 => exact ⟨hr', fun hc => h3 ▸ hp (h2 ▸ hc), hd' (by simp)⟩
  obtain ⟨-, -, hd⟩ := hno hsp
  refine Classical.byContradiction fun hne => ?_
  rcases C163_cause h ho hne with hc | hc
  · exact absurd (hd _ _ hc) (by simp)
  · exact absurd (hd _ _ hc) (by simp)

/-- The terminal is resized twice; the main thread takes the signal each time. -/
def twice : List Label :=
  [.pipe .inCheck, .pipe .outCheck, .resize, .deliver .main false, .ret .main, .take, .tell, .resize, .deliver .main false, .ret .main]

example : ∃ s, Run twice s ∧ Ordinary twice ∧ Spaced twice ∧ s.pipe.main = .waiting ∧ s.size = 2 ∧ s.told = 1 ∧ s.flag = true := by
  refine ⟨_, rfl, by intro l hl; simp [twice] at hl; rcases hl with rfl | rfl <;> rfl, ?_, rfl, rfl, rfl, rfl⟩
  intro pre post u h hr
  have e : pre = twice.take pre.length := by rw [h]; simp
  have g : twice[pre.length]? = some .resize := by rw [h]; simp
  rw [e] at hr
  generalize pre.length = n at hr g
  match n with
  | 0 | 1 | 3 | 4 | 5 | 6 | 8 | 9 => cases g
  | 2 => cases hr; rfl
  | 7 => cases hr; rfl
  | k + 10 => simp [twice] at g

/-- The second resize comes while the main thread handles the first; the thread that reads what is typed is interrupted, and the
client exits with status 1. -/
def drag : List Label :=
  [.pipe .inCheck, .pipe .outCheck, .resize, .deliver .main false, .resize, .deliver .inp true, .ret .inp, .ret .main, .pipe .mainWake,
   .pipe (.graceEnd true), .pipe .stamp, .pipe .outTimeout, .pipe .outCheck, .pipe (.wait2End false)]

theorem C163_false_exit : ∃ s, Run drag s ∧ Ordinary drag ∧ s.pipe.main = .done (.exit 1) := by
  refine ⟨_, rfl, ?_, rfl⟩
  intro l hl
  simp [drag] at hl
  rcases hl with rfl | rfl | rfl | rfl | rfl | rfl | rfl | rfl <;> rfl

/-- **C163 is false**: resizing the terminal twice in quick succession can end the attach. -/
theorem C163_false : ¬ C163_statement := by
  intro hC
  obtain ⟨s, hr, ho, hm⟩ := C163_false_exit
  have := hC drag s hr ho
  rw [hm] at this; cases this

/-- With what POSIX promises, a single resize can. -/
theorem C163_false_posix : ∃ ls s, RunOf ⟨false, false⟩ ls s ∧ Ordinary ls ∧ ls.count .resize = 1 ∧ s.pipe.main = .done (.exit 1) := by
  refine ⟨[.pipe .inCheck, .pipe .outCheck, .resize, .deliver .inp true, .ret .inp, .pipe .mainWake,
    .pipe (.graceEnd true), .pipe .stamp, .pipe .outTimeout, .pipe .outCheck, .pipe (.wait2End false)], _, rfl, ?_, by decide, rfl⟩
  intro l hl
  simp at hl
  rcases hl with rfl | rfl | rfl | rfl | rfl | rfl | rfl | rfl <;> rfl

/-- **C163** (status).  When resizes end the attach, the exit status is 1, whatever the shell does. -/
theorem C163_status {P : Params} {ls : List Label} {s : St} (h : RunOf P ls s) (ho : Ordinary ls) :
    (∀ r, s.pipe.main = .done r → r = .exit 1) ∧ (∀ n, s.pipe.main = .hardExit n → n = 1) := by
  have key : Ordinary ls → ((s.pipe.slot = none ∨ s.pipe.slot = some (.exit 1)) ∧
      (∀ f, s.pipe.out = .got f → f.kind = .data ∨ f.kind = .heartbeat) ∧
      (∀ r, s.pipe.main = .done r → r = .exit 1) ∧ (∀ n, s.pipe.main = .hardExit n → n = 1)) := by
    refine run_hist (I := fun ls s => Ordinary ls → ((s.pipe.slot = none ∨ s.pipe.slot = some (.exit 1)) ∧
      (∀ f, s.pipe.out = .got f → f.kind = .data ∨ f.kind = .heartbeat) ∧
      (∀ r, s.pipe.main = .done r → r = .exit 1) ∧ (∀ n, s.pipe.main = .hardExit n → n = 1)))
      (fun ls s l s' hI hs ho => ?_) (fun _ => ⟨.inl rfl, by simp [init, Pipe.init], by simp [init, Pipe.init], by simp [init, Pipe.init]⟩) h
    have hI := hI (fun l hl => ho l (by simp [hl]))
    cases step_eff hs with
    | resize h1 => rw [h1]; exact hI
    | deliver _ _ _ _ _ _ h1 => rw [h1]; exact hI
    | take _ _ h1 => rw [h1]; exact hI
    | tell _ h1 => rw [h1]; exact hI
    | ret t b _ h2 =>
      rcases h2 with ⟨-, h2⟩ | ⟨-, -, h2⟩
      · rw [h2]; exact hI
      · generalize s'.pipe = p' at *
        cases t <;> simp only [pollFails, Pipe.step] at h2
        · cases h2; exact hI
        · split at h2 <;> cases h2; exact hI
        · split at h2 <;> cases h2; exact ⟨hI.1, by simp, hI.2.2⟩
        · cases h2; exact hI
    | pipe l _ h1 =>
      have hol := ho l (by simp)
      obtain ⟨i1, i2, i3, i4⟩ := hI
      generalize s'.pipe = p' at *
      generalize s.pipe = p at *
      cases l with
      | inCheck | inTimeout | inEof | inError | outCheck | outTimeout | outError =>
        simp only [Pipe.step] at h1
        split at h1 <;> cases h1
        refine ⟨i1, ?_, i3, i4⟩
        first | exact i2 | (intro f hf; cases hf; done) | (intro f hf; simp only at hf; split at hf <;> cases hf)
      | inData b acc =>
        cases acc <;> simp only [Pipe.step] at h1 <;> split at h1 <;> cases h1 <;> exact ⟨i1, i2, i3, i4⟩
      | outRecv f =>
        simp only [Pipe.step] at h1
        split at h1 <;> cases h1
        simp only [ordinary, decide_eq_true_eq] at hol
        exact ⟨i1, fun g hg => by cases hg; exact hol, i3, i4⟩
      | outHandle a w b =>
        cases w with
        | some k => cases hol
        | none =>
          cases b with
          | true => cases hol
          | false =>
            simp only [Pipe.step] at h1
            split at h1 <;> cases h1
            rename_i f hf
            rcases i2 f hf with hk | hk <;> simp only [Pipe.handle, hk] <;> exact ⟨i1, by simp, i3, i4⟩
      | mainWake =>
        simp only [Pipe.step] at h1
        split at h1 <;> cases h1
        refine ⟨i1, i2, ?_, ?_⟩ <;> intro r <;> simp only <;> split <;> simp
      | graceEnd t =>
        simp only [Pipe.step] at h1
        split at h1 <;> cases h1
        exact ⟨i1, i2, by simp, by simp⟩
      | stamp =>
        simp only [Pipe.step] at h1
        split at h1 <;> cases h1
        exact ⟨.inr (by rcases i1 with h | h <;> simp [h]), i2, by simp, by simp⟩
      | wait2End t =>
        simp only [Pipe.step] at h1
        repeat' split at h1
        all_goals cases h1
        · exact ⟨i1, i2, fun r hr => by
            simp only [Pipe.MainPC.done.injEq] at hr; subst hr; rcases i1 with h | h <;> simp [Pipe.final, h], by simp⟩
        · exact ⟨i1, i2, by simp, fun n hn => by
            simp only [Pipe.MainPC.hardExit.injEq] at hn; subst hn; rcases i1 with h | h <;> simp [Pipe.hardCode, h]⟩
  exact (key ho).2.2

/-- **C163** for a client that calls `poll` again when it was interrupted: however fast the terminal is resized and whichever threads
are interrupted, it stays attached. -/
theorem C163_repaired {linux : Bool} {ls : List Label} {s : St} (h : RunOf ⟨linux, true⟩ ls s) (ho : Ordinary ls) :
    s.pipe.main = .waiting := by
  have key : Ordinary ls → Goes s.pipe := by
    refine run_hist (I := fun ls s => Ordinary ls → Goes s.pipe) (fun ls s l s' hI hs ho => ?_) (fun _ => goes_init) h
    have hg := hI (fun l hl => ho l (by simp [hl]))
    cases l with
    | ret t => cases step_eff hs with
      | ret _ _ _ h2 => rcases h2 with ⟨-, h2⟩ | ⟨-, h2, -⟩
                        · exact h2 ▸ hg
                        · cases h2
    | resize => cases step_eff hs with | resize h1 => exact h1 ▸ hg
    | deliver => cases step_eff hs with | deliver _ _ _ _ _ _ h1 => exact h1 ▸ hg
    | take => cases step_eff hs with | take _ _ h1 => exact h1 ▸ hg
    | tell => cases step_eff hs with | tell _ h1 => exact h1 ▸ hg
    | pipe l => cases step_eff hs with | pipe _ _ h1 => exact goes_step hg (ho l (by simp)) h1
  exact (key ho).main

/-- The same schedule, with that repair. -/
example : ∃ s, RunOf ⟨true, true⟩ (drag.take 8) s ∧ s.pipe.main = .waiting ∧ s.pipe.inp = .reading ∧ s.flag = true := ⟨_, rfl, rfl, rfl, rfl⟩

/-! ## No resize is forgotten -/

/-- Somebody is still to notice a resize. -/
def Noticed (s : St) : Prop := s.pending = true ∨ (∃ t, s.handler t ≠ none) ∨ s.flag = true ∨ s.telling = true

structure Ok (s : St) : Prop where
  notice : s.told ≠ s.size → Noticed s
  poll : ∀ t, s.handler t = some true → canPoll s.pipe t = true

theorem ok_init : Ok init := ⟨by simp [init], by simp [init]⟩

theorem handle_inp (p : Pipe.St) (f : Chunk.Chunk) (a : Bool) (w : Option Nat) (b : Bool) : (Pipe.handle p f a w b).inp = p.inp := by
  unfold Pipe.handle
  repeat' split
  all_goals rfl

theorem poll_kept {p p' : Pipe.St} {l : Pipe.Label} {t : Thr} (hw : who l ≠ t) (hs : Pipe.step p l = some p') (hc : canPoll p t = true) :
    canPoll p' t = true := by
  cases t <;> simp only [canPoll, decide_eq_true_eq, Bool.false_eq_true] at hc ⊢
  all_goals
    cases l <;> simp only [who, ne_eq, not_true_eq_false, reduceCtorEq, not_false_eq_true] at hw <;> simp only [Pipe.step] at hs <;>
      (repeat' split at hs) <;> cases hs <;> first | exact hc | (rw [handle_inp]; exact hc)

theorem ok_step {P : Params} {s s' : St} {l : Label} (hi : Ok s) (hs : stepOf P s l = some s') : Ok s' := by
  obtain ⟨hn, hp⟩ := hi
  cases step_eff hs with
  | resize h1 h2 h3 h4 h5 => exact ⟨fun _ => .inl h2, by rw [h1, h3]; exact hp⟩
  | deliver t b h1 h2 hb _ h5 h6 h7 =>
    refine ⟨fun _ => .inr (.inl ⟨t, by simp [h7, upd_at]⟩), fun u hu => ?_⟩
    rw [h7, upd_at] at hu; rw [h5]
    split at hu
    · rename_i e; subst e; cases hu; exact hb rfl
    · exact hp u hu
  | ret t b h1 h2 h3 h4 h5 =>
    refine ⟨fun _ => .inr (.inr (.inl h5)), fun u hu => ?_⟩
    rw [h4, upd_at] at hu
    split at hu
    · cases hu
    · rename_i hne
      have hc := hp u hu
      rcases h2 with ⟨-, h2⟩ | ⟨-, -, h2⟩
      · rw [h2]; exact hc
      · cases t with
        | main => simp only [pollFails, Option.some.injEq] at h2; rw [← h2]; exact hc
        | iter => simp only [pollFails, Option.some.injEq] at h2; rw [← h2]; exact hc
        | inp => exact poll_kept (l := .inError) (by simp only [who]; exact Ne.symm hne) h2 hc
        | out => exact poll_kept (l := .outError) (by simp only [who]; exact Ne.symm hne) h2 hc
  | take h1 h2 h3 h4 h5 h6 h7 => exact ⟨fun _ => .inr (.inr (.inr h7)), by rw [h3, h5]; exact hp⟩
  | tell h1 h2 h3 h4 h5 h6 h7 h8 => exact ⟨fun h => absurd (by rw [h8, h7]) h, by rw [h2, h4]; exact hp⟩
  | pipe l h1 h2 h3 h4 h5 h6 h7 h8 =>
    refine ⟨fun h => ?_, fun u hu => ?_⟩
    · rw [h7, h8] at h; unfold Noticed; rw [h3, h4, h5, h6]; exact hn h
    · rw [h4] at hu
      exact poll_kept (by intro e; rw [e, hu] at h1; cases h1) h2 (hp u hu)

/-- **C163** (told).  Whichever thread is interrupted and whichever signals are merged: when nothing of a resize is left to be done, the
daemon has been told the size the terminal has. -/
theorem C163_told {P : Params} {ls : List Label} {s : St} (h : RunOf P ls s) (h1 : s.pending = false) (h2 : ∀ t, s.handler t = none)
    (h3 : s.flag = false) (h4 : s.telling = false) : s.told = s.size := by
  have hi : Ok s := run_inv (I := Ok) (fun _ _ _ => ok_step) ok_init h
  refine Classical.byContradiction fun hne => ?_
  rcases hi.notice hne with h | ⟨t, h⟩ | h | h
  · rw [h1] at h; cases h
  · exact h (h2 t)
  · rw [h3] at h; cases h
  · rw [h4] at h; cases h

example : ∃ s, Run (twice ++ [.take, .tell]) s ∧ s.pending = false ∧ s.flag = false ∧ s.telling = false ∧ s.told = 2 := ⟨_, rfl, rfl, rfl, rfl, rfl⟩

/-- The steps by which a resize is noticed. -/
def noticing : Label → Bool
  | .deliver .. | .ret _ | .take | .tell => true
  | .resize | .pipe _ => false

/-- How much is left of noticing. -/
def left (s : St) : Nat :=
  (if s.pending then 12 else 0) + (if s.handler .main ≠ none then 5 else 0) + (if s.handler .inp ≠ none then 5 else 0) +
    (if s.handler .out ≠ none then 5 else 0) + (if s.handler .iter ≠ none then 5 else 0) + (if s.flag then 3 else 0) + (if s.telling then 1 else 0)

/-- **C163** (fair).  If the terminal is not resized any more and the client goes on, the daemon is told its size. -/
theorem C163_told_fair {P : Params} {σ : Nat → St} {lab : Nat → Option Label} (hx : Exec (stepOf P) σ lab) (h0 : σ 0 = init)
    (hf : WeakFair (stepOf P) σ lab noticing) {m : Nat} (hno : ∀ i, m ≤ i → lab i ≠ some .resize) (hov : ∀ i, m ≤ i → over (σ i).pipe = false) :
    ∃ i, m ≤ i ∧ (σ i).told = (σ i).size := by
  have hok : ∀ i, Ok (σ i) := fun i => exec_stays hx (p := Ok) (m := 0) (fun _ _ _ _ hi hs => ok_step hi hs) (h0 ▸ ok_init) i (by omega)
  by_cases hd : (σ m).told = (σ m).size
  · exact ⟨m, Nat.le_refl _, hd⟩
  refine fair_reaches hx hf (B := fun s => s.told ≠ s.size) (G := fun s => s.told = s.size) left hd ?_ ?_
  · intro i hi hB
    have ho := hok i
    have hv := hov i hi
    generalize σ i = s at *
    by_cases hh : ∃ t, s.handler t ≠ none
    · obtain ⟨t, ht⟩ := hh
      refine ⟨.ret t, rfl, ?_⟩
      cases hb : s.handler t with
      | none => exact absurd hb ht
      | some b =>
        simp only [stepOf, hv, hb, Bool.false_eq_true, if_false]
        split
        · rename_i e
          split at e
          · rename_i hc
            simp only [Bool.and_eq_true] at hc
            have := ho.poll t (by rw [hb, hc.1])
            cases t <;> simp only [canPoll, decide_eq_true_eq, Bool.false_eq_true] at this <;> simp [pollFails, Pipe.step, this] at e
          · cases e
        · rfl
    · have hh : ∀ t, s.handler t = none := fun t => Classical.byContradiction fun h => hh ⟨t, h⟩
      rcases ho.notice hB with h | ⟨t, h⟩ | h | h
      · exact ⟨.deliver .main false, rfl, by simp [stepOf, hv, h, hh, alive]⟩
      · exact absurd (hh t) h
      · cases ht : s.telling with
        | false => exact ⟨.take, rfl, by simp [stepOf, hv, h, hh, ht]⟩
        | true => exact ⟨.tell, rfl, by simp [stepOf, hv, hh, ht]⟩
      · exact ⟨.tell, rfl, by simp [stepOf, hv, hh, h]⟩
  · intro i l hi hl hB hs
    have hr := hno i hi
    rw [hl] at hr
    generalize σ i = s at *
    generalize σ (i + 1) = s' at *
    cases step_eff hs with
    | resize => exact absurd rfl hr
    | deliver t b h1 h2 _ _ h5 h6 h7 h8 h9 h10 h11 =>
      right
      refine ⟨by rw [h10, h11]; exact hB, ?_⟩
      have : left s' < left s := by
        simp only [left, h1, h6, h7, h8, h9, upd_at]
        cases t <;> simp [h2] <;> omega
      exact ⟨by omega, fun _ => this⟩
    | ret t b h1 h2 h3 h4 h5 h6 h7 h8 =>
      right
      refine ⟨by rw [h7, h8]; exact hB, ?_⟩
      have : left s' < left s := by
        simp only [left, h3, h4, h5, h6, upd_at]
        cases t <;> simp [h1] <;> (repeat' split) <;> omega
      exact ⟨by omega, fun _ => this⟩
    | take h1 h2 h3 h4 h5 h6 h7 h8 h9 =>
      right
      refine ⟨by rw [h8, h9]; exact hB, ?_⟩
      have : left s' < left s := by simp only [left, h1, h2, h4, h5, h6, h7]; simp
      exact ⟨by omega, fun _ => this⟩
    | tell h1 h2 h3 h4 h5 h6 h7 h8 => left; rw [h7, h8]
    | pipe l h1 h2 h3 h4 h5 h6 h7 h8 =>
      right
      have : left s' = left s := by simp only [left, h3, h4, h5, h6]
      exact ⟨by rw [h7, h8]; exact hB, by omega, fun h => by cases h⟩

/-- The two resizes, noticed; then nothing happens. -/
example : ∃ σ lab, Exec step σ lab ∧ σ 0 = init ∧ WeakFair step σ lab noticing ∧ (∀ i, 12 ≤ i → lab i ≠ some .resize) ∧
    (∀ i, 12 ≤ i → over (σ i).pipe = false) ∧ (σ 12).told = 2 ∧ (σ 10).told = 1 := by
  have hr : ∃ s, runSteps step init (twice ++ [.take, .tell]) = some s ∧ over s.pipe = false ∧ s.told = 2 ∧
      ∀ l, noticing l = true → step s l = none := by
    refine ⟨_, rfl, rfl, rfl, fun l hl => ?_⟩
    cases l with
    | resize => cases hl
    | pipe => cases hl
    | deliver t b => rfl
    | ret t => cases t <;> rfl
    | take => rfl
    | tell => rfl
  obtain ⟨s, hr, hv, ht, hno⟩ := hr
  obtain ⟨hx, hrest⟩ := thenRests_exec hr
  refine ⟨_, _, hx, rfl, (fair_at_rest (n := 12) hrest hno).1, fun i hi => ?_, fun i hi => by rw [hrest i hi]; exact hv, by rw [hrest 12 (by decide)]; exact ht, rfl⟩
  rw [List.getElem?_eq_none (by simpa [twice] using hi)]
  simp

end Shpool.Intr
