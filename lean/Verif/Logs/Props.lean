import Verif.Logs.Model
/-!
# Properties C148 and C149: the log file and the log level
-/

namespace Shpool.Logs

/-! ## Specification -/

/-- The levels of messages a user sees who asked for a level. -/
def seenWith : Asked → List Level
  | .off => []
  | .error => [.error]
  | .warn => [.error, .warn]
  | .info => [.error, .warn, .info]
  | .debug => [.error, .warn, .info, .debug]
  | .trace => [.error, .warn, .info, .debug, .trace]

/-- The level that `-v`, given so often, asks for. -/
def askedByFlag : Nat → Asked
  | 0 => .info
  | 1 => .debug
  | _ + 2 => .trace

/-- What process `p` is to write, if level `a` is asked for at first and `ls` happens: the text of each of its messages whose
level is seen with the level last asked for. -/
def saidBy (p : Nat) : Asked → List Label → List UInt8
  | _, [] => []
  | a, .log q l text :: ls => (if q = p ∧ l ∈ seenWith a then text else []) ++ saidBy p a ls
  | a, .setLevel q b :: ls => saidBy p (if q = p then b else a) ls
  | a, .start _ _ _ _ :: ls => saidBy p a ls
  | a, .exit _ :: ls => saidBy p a ls

/-- Process `q` starts with the log file among the steps `ls`. -/
def OpensLog (q : Nat) (ls : List Label) : Prop := ∃ v d, Label.start q v d true ∈ ls

/-- Process `q` starts among the steps `ls`. -/
def Starts (q : Nat) (ls : List Label) : Prop := ∃ v d f, Label.start q v d f ∈ ls

/-! ## Lemmas -/

theorem upd_same {α : Type} (f : Nat → α) (p : Nat) (a : α) : upd f p a p = a := if_pos rfl

theorem upd_other {α : Type} (f : Nat → α) {p q : Nat} (a : α) (h : q ≠ p) : upd f p a q = f q := if_neg h

theorem lets_iff (a : Asked) (l : Level) : a.filter.lets l = true ↔ l ∈ seenWith a := by
  cases a <;> cases l <;> decide

theorem startFilter_asked (v : Nat) : startFilter v = (askedByFlag v).filter := by
  match v with
  | 0 => rfl
  | 1 => rfl
  | n + 2 => simp [startFilter, askedByFlag, Asked.filter]

theorem writeAt_end (file text : List UInt8) : writeAt file file.length text = file ++ text := by
  simp [writeAt]

/-- Does process `p` have the log file open? -/
def HasLog (s : St) (p : Nat) : Prop := ∃ r n, s.proc p = some r ∧ r.dest = .file n

/-- A process opens the file only when it starts. -/
theorem step_hasLog {s s' : St} {l : Label} {q : Nat} (hst : step s l = some s') (hq : HasLog s' q) :
    HasLog s q ∨ ∃ v d, l = .start q v d true := by
  obtain ⟨r, n, hr, hn⟩ := hq
  cases l with
  | start p v d f =>
    simp only [step] at hst
    split at hst
    · cases hst
    · cases hst
      by_cases e : q = p
      · subst e
        simp only [upd_same] at hr
        cases hr
        cases f with
        | true => exact .inr ⟨v, d, rfl⟩
        | false => simp only [dest] at hn; cases d <;> simp at hn
      · simp only [upd_other _ _ e] at hr; exact .inl ⟨r, n, hr, hn⟩
  | log p l t =>
    simp only [step] at hst
    split at hst
    · cases hst
    · next r' hr' =>
      split at hst
      · split at hst
        · next pos hpos =>
          cases hst
          by_cases e : q = p
          · subst e; exact .inl ⟨r', pos, hr', hpos⟩
          · simp only [upd_other _ _ e] at hr; exact .inl ⟨r, n, hr, hn⟩
        · cases hst; exact .inl ⟨r, n, hr, hn⟩
        · cases hst; exact .inl ⟨r, n, hr, hn⟩
      · cases hst; exact .inl ⟨r, n, hr, hn⟩
  | setLevel p a =>
    simp only [step] at hst
    split at hst
    · cases hst
    · next r' hr' =>
      split at hst
      · cases hst
        by_cases e : q = p
        · subst e
          simp only [upd_same] at hr
          cases hr
          exact .inl ⟨r', n, hr', hn⟩
        · simp only [upd_other _ _ e] at hr; exact .inl ⟨r, n, hr, hn⟩
      · cases hst
  | exit p =>
    simp only [step] at hst
    split at hst
    · cases hst
    · cases hst
      by_cases e : q = p
      · subst e; simp only [upd_same] at hr; cases hr
      · simp only [upd_other _ _ e] at hr; exact .inl ⟨r, n, hr, hn⟩

/-- Where `p` alone has the file open, either it writes at the end of it, or it is gone. -/
structure Alone (p : Nat) (a : Asked) (s : St) : Prop where
  only : ∀ q, HasLog s q → q = p
  mine : ∀ r, s.proc p = some r → r.filter = a.filter ∧ r.dest = .file s.file.length

theorem alone_run {p : Nat} {ls : List Label} : ∀ {a : Asked} {s s' : St}, Alone p a s → runSteps step s ls = some s' →
    (∀ q, ¬ OpensLog q ls) → ¬ Starts p ls → s'.file = s.file ++ saidBy p a ls := by
  induction ls with
  | nil => intro a s s' _ h _ _; cases h; simp [saidBy]
  | cons l ls ih =>
    intro a s s' hA h ho hs
    obtain ⟨s1, hst, hr⟩ := run_cons_some h
    have ho' : ∀ q, ¬ OpensLog q ls := fun q ⟨v, d, hm⟩ => ho q ⟨v, d, List.mem_cons_of_mem _ hm⟩
    have hs' : ¬ Starts p ls := fun ⟨v, d, f, hm⟩ => hs ⟨v, d, f, List.mem_cons_of_mem _ hm⟩
    have hOnly : ∀ q, HasLog s1 q → q = p := fun q hq => by
      rcases step_hasLog hst hq with hq | ⟨v, d, rfl⟩
      · exact hA.only q hq
      · exact absurd ⟨v, d, List.mem_cons_self⟩ (ho q)
    cases l with
    | start q v d f =>
      have hqp : p ≠ q := fun e => hs ⟨v, d, f, e ▸ List.mem_cons_self⟩
      have hf : f = false := by
        cases f with
        | false => rfl
        | true => exact absurd ⟨v, d, List.mem_cons_self⟩ (ho q)
      subst hf
      simp only [step] at hst
      split at hst
      · cases hst
      · cases hst
        have := ih (a := a) ⟨hOnly, by intro r hr; simp only [upd_other _ _ hqp] at hr; exact hA.mine r hr⟩ hr ho' hs'
        simpa [saidBy] using this
    | log q l t =>
      simp only [step] at hst
      split at hst
      · cases hst
      · next r' hr' =>
        split at hst
        · next hl =>
          split at hst
          · next pos hpos =>
            have hqp : q = p := hA.only q ⟨r', pos, hr', hpos⟩
            subst hqp
            obtain ⟨hfl, hd⟩ := hA.mine r' hr'
            have hpos' : pos = s.file.length := by rw [hpos] at hd; cases hd; rfl
            subst hpos'
            cases hst
            rw [writeAt_end] at *
            have := ih (a := a) ⟨hOnly, by
              intro r hr; simp only [upd_same] at hr; cases hr; exact ⟨hfl, by simp⟩⟩ hr ho' hs'
            rw [this]
            have hseen : l ∈ seenWith a := by rw [← lets_iff, ← hfl]; exact hl
            simp [saidBy, hseen]
          · next hd =>
            cases hst
            have hqp : q ≠ p := fun e => by
              subst e; have := (hA.mine r' hr').2; rw [hd] at this; cases this
            have := ih (a := a) ⟨hOnly, hA.mine⟩ hr ho' hs'
            simpa [saidBy, hqp] using this
          · next hd =>
            cases hst
            have hqp : q ≠ p := fun e => by
              subst e; have := (hA.mine r' hr').2; rw [hd] at this; cases this
            have := ih (a := a) ⟨hOnly, hA.mine⟩ hr ho' hs'
            simpa [saidBy, hqp] using this
        · next hl =>
          cases hst
          have hno : ¬ (q = p ∧ l ∈ seenWith a) := fun ⟨e, hm⟩ => by
            subst e; rw [← lets_iff, ← (hA.mine r' hr').1] at hm; exact hl hm
          have := ih (a := a) ⟨hOnly, hA.mine⟩ hr ho' hs'
          simp only [saidBy, if_neg hno, List.nil_append]
          exact this
    | setLevel q b =>
      simp only [step] at hst
      split at hst
      · cases hst
      · next r' hr' =>
        split at hst
        · cases hst
          by_cases e : q = p
          · subst e
            have := ih (a := b) ⟨hOnly, by
              intro r hr; simp only [upd_same] at hr; cases hr; exact ⟨rfl, (hA.mine r' hr').2⟩⟩ hr ho' hs'
            simpa [saidBy] using this
          · have := ih (a := a) ⟨hOnly, by
              intro r hr; simp only [upd_other _ _ (Ne.symm e)] at hr; exact hA.mine r hr⟩ hr ho' hs'
            simpa [saidBy, e] using this
        · cases hst
    | exit q =>
      simp only [step] at hst
      split at hst
      · cases hst
      · cases hst
        have := ih (a := a) ⟨hOnly, by
          intro r hr
          by_cases e : p = q
          · subst e; simp only [upd_same] at hr; cases hr
          · simp only [upd_other _ _ e] at hr; exact hA.mine r hr⟩ hr ho' hs'
        simpa [saidBy] using this

/-! ## C148 -/

/-- C148 in full: whatever happens, the messages a running process was to write since it started are in its log file. -/
def C148_statement : Prop :=
  ∀ (old : List UInt8) (pre mid : List Label) (p v : Nat) (d : Bool) (s : St),
    Run old (pre ++ .start p v d true :: mid) s → ¬ Starts p mid →
    saidBy p (askedByFlag v) mid <:+: s.file

/-- C148. As long as no other process opens the log file, it consists of just the messages of the process that has it, all of
them, in the order they were said, none below the level asked for; what other processes do, that have no log file or another
one, makes no difference, and when the process ends they remain.  Missing: another process may open the same file
(`C148_false`). -/
theorem C148_own_file_partial (old : List UInt8) (pre mid : List Label) (p v : Nat) (d : Bool) (s : St)
    (h : Run old (pre ++ .start p v d true :: mid) s) (hp : ¬ Starts p mid)
    (hpre : ∀ s0, Run old pre s0 → ∀ q, ¬ HasLog s0 q) (hmid : ∀ q, ¬ OpensLog q mid) :
    s.file = saidBy p (askedByFlag v) mid := by
  obtain ⟨s0, h0, h1⟩ := run_append_some h
  obtain ⟨s1, hst, hr⟩ := run_cons_some h1
  have hno := hpre s0 h0
  have hA : Alone p (askedByFlag v) s1 ∧ s1.file = [] := by
    have hOnly : ∀ q, HasLog s1 q → q = p := fun q hq => by
      rcases step_hasLog hst hq with hq | ⟨v', d', e⟩
      · exact absurd hq (hno q)
      · cases e; rfl
    simp only [step] at hst
    split at hst
    · cases hst
    · cases hst
      refine ⟨⟨hOnly, ?_⟩, rfl⟩
      intro r hr
      simp only [upd_same] at hr
      cases hr
      exact ⟨startFilter_asked v, by simp [dest]⟩
  have := alone_run hA.1 hr hmid hp
  rw [this, hA.2]; rfl

/-- C148. What another process does to the file by starting with it: all that was in it is gone, whoever wrote it; and a
process that still has the file writes its next message where its last one ended, after as many bytes of value 0 as were
there before. -/
theorem C148_emptied_partial (s : St) (p q v : Nat) (d : Bool) (r : Proc) (n : Nat) (l : Level) (text : List UInt8)
    (hp : s.proc p = some r) (hd : r.dest = .file n) (hl : r.filter.lets l = true) (hq : s.proc q = none) :
    ∃ s1 s2, step s (.start q v d true) = some s1 ∧ s1.file = [] ∧ step s1 (.log p l text) = some s2 ∧
      s2.file = List.replicate n 0 ++ text := by
  have hne : p ≠ q := fun e => by subst e; rw [hp] at hq; cases hq
  refine ⟨{ file := [], proc := upd s.proc q (some { filter := startFilter v, daemon := d, dest := dest d true })
            err := upd s.err q [] }, ?_⟩
  refine ⟨{ file := writeAt [] n text
            proc := upd (upd s.proc q (some { filter := startFilter v, daemon := d, dest := dest d true })) p
              (some { r with dest := .file (n + text.length) })
            err := upd s.err q [] }, ?_, rfl, ?_, ?_⟩
  · simp only [step, hq, if_true]
  · simp only [step, upd_other _ _ hne, hp, hl, if_true, hd]
  · simp [writeAt]

/-- C148 does not hold: a client given the daemon's log file, or a second daemon launched while the first is about to come up,
empties it. -/
theorem C148_false : ¬ C148_statement := by
  intro h
  have := h [] [] [.log 1 .info [65, 10], .start 2 0 false true] 1 0 true
    (match runSteps step (init []) [.start 1 0 true true, .log 1 .info [65, 10], .start 2 0 false true] with
      | some s => s | none => init []) (by rfl) (by rintro ⟨v, d, f, hm⟩; simp at hm)
  have h1 := this.length_le
  revert h1
  decide

/-- C148 does not hold even while both write: the second writer's messages go over those of the first. -/
theorem C148_false_overwritten : ∃ s, Run [] [.start 1 0 true true, .start 2 0 true true, .log 1 .info [65, 65, 10],
    .log 2 .info [66, 10]] s ∧ saidBy 1 .info [.log 1 .info [65, 65, 10], .log 2 .info [66, 10]] = [65, 65, 10] ∧
    s.file = [66, 10, 10] := ⟨_, rfl, rfl, rfl⟩

/-! ## C149 -/

/-- How things stand with a process without log file. -/
structure NoLog (p : Nat) (a : Asked) (d : Bool) (s : St) : Prop where
  mine : ∀ r, s.proc p = some r → r.filter = a.filter ∧ r.dest = (if d then .stderr else .nowhere)

theorem noLog_run {p : Nat} {d : Bool} {ls : List Label} : ∀ {a : Asked} {s s' : St}, NoLog p a d s →
    runSteps step s ls = some s' → ¬ Starts p ls → s'.err p = s.err p ++ (if d then saidBy p a ls else []) := by
  induction ls with
  | nil => intro a s s' _ h _; cases h; cases d <;> simp [saidBy]
  | cons l ls ih =>
    intro a s s' hA h hs
    obtain ⟨s1, hst, hr⟩ := run_cons_some h
    have hs' : ¬ Starts p ls := fun ⟨v, d, f, hm⟩ => hs ⟨v, d, f, List.mem_cons_of_mem _ hm⟩
    cases l with
    | start q v d' f =>
      have hqp : p ≠ q := fun e => hs ⟨v, d', f, e ▸ List.mem_cons_self⟩
      simp only [step] at hst
      split at hst
      · cases hst
      · cases hst
        have := ih (a := a) ⟨by intro r hr; simp only [upd_other _ _ hqp] at hr; exact hA.mine r hr⟩ hr hs'
        simpa [saidBy, upd_other _ _ hqp] using this
    | log q l t =>
      simp only [step] at hst
      split at hst
      · cases hst
      · next r' hr' =>
        split at hst
        · next hl =>
          split at hst
          · next pos hpos =>
            have hqp : q ≠ p := fun e => by
              subst e; have := (hA.mine r' hr').2; rw [hpos] at this; cases d <;> cases this
            cases hst
            have := ih (a := a) ⟨by
              intro r hr; simp only [upd_other _ _ (Ne.symm hqp)] at hr; exact hA.mine r hr⟩ hr hs'
            simpa [saidBy, hqp] using this
          · next hd =>
            cases hst
            have := ih (a := a) (s := { s with err := upd s.err q (s.err q ++ t) }) ⟨hA.mine⟩ hr hs'
            rw [this]
            by_cases e : q = p
            · subst e
              obtain ⟨hfl, hd'⟩ := hA.mine r' hr'
              have hseen : l ∈ seenWith a := by rw [← lets_iff, ← hfl]; exact hl
              have hdt : d = true := by
                rw [hd] at hd'
                cases d with
                | true => rfl
                | false => cases hd'
              subst hdt
              simp [saidBy, hseen, upd_same]
            · simp [saidBy, e, upd_other _ _ (Ne.symm e)]
          · next hd =>
            cases hst
            have := ih (a := a) ⟨hA.mine⟩ hr hs'
            rw [this]
            by_cases e : q = p
            · subst e
              have hd' := (hA.mine r' hr').2
              have hdf : d = false := by
                rw [hd] at hd'
                cases d with
                | false => rfl
                | true => cases hd'
              subst hdf
              simp
            · simp [saidBy, e]
        · next hl =>
          cases hst
          have hno : ¬ (q = p ∧ l ∈ seenWith a) := fun ⟨e, hm⟩ => by
            subst e; rw [← lets_iff, ← (hA.mine r' hr').1] at hm; exact hl hm
          have := ih (a := a) ⟨hA.mine⟩ hr hs'
          simp only [saidBy, if_neg hno, List.nil_append]
          exact this
    | setLevel q b =>
      simp only [step] at hst
      split at hst
      · cases hst
      · next r' hr' =>
        split at hst
        · cases hst
          by_cases e : q = p
          · subst e
            have := ih (a := b) ⟨by
              intro r hr; simp only [upd_same] at hr; cases hr; exact ⟨rfl, (hA.mine r' hr').2⟩⟩ hr hs'
            simpa [saidBy] using this
          · have := ih (a := a) ⟨by
              intro r hr; simp only [upd_other _ _ (Ne.symm e)] at hr; exact hA.mine r hr⟩ hr hs'
            simpa [saidBy, e] using this
        · cases hst
    | exit q =>
      simp only [step] at hst
      split at hst
      · cases hst
      · cases hst
        have := ih (a := a) ⟨by
          intro r hr
          by_cases e : p = q
          · subst e; simp only [upd_same] at hr; cases hr
          · simp only [upd_other _ _ e] at hr; exact hA.mine r hr⟩ hr hs'
        simpa [saidBy] using this

/-- C149. A daemon without log file writes to its standard error just the messages of the levels seen with the level last asked
for: by a request since it started, else by the count of `-v` it was started with.  A client without log file writes none of
its messages anywhere, so none gets into the user's terminal.  This holds however many other processes run, with or without
log files. -/
theorem C149_stderr (old : List UInt8) (pre mid : List Label) (p v : Nat) (d : Bool) (s : St)
    (h : Run old (pre ++ .start p v d false :: mid) s) (hp : ¬ Starts p mid) :
    s.err p = if d then saidBy p (askedByFlag v) mid else [] := by
  obtain ⟨s0, h0, h1⟩ := run_append_some h
  obtain ⟨s1, hst, hr⟩ := run_cons_some h1
  have hA : NoLog p (askedByFlag v) d s1 ∧ s1.err p = [] := by
    simp only [step] at hst
    split at hst
    · cases hst
    · cases hst
      refine ⟨⟨?_⟩, by simp only [upd_same]⟩
      intro r hr
      simp only [upd_same] at hr
      cases hr
      exact ⟨startFilter_asked v, by simp [dest]⟩
  rw [noLog_run hA.1 hr hp, hA.2]; rfl

/-- C149. A message that the level asked for hides leaves no trace, in whatever state things are: not in any file, not on any
standard error, not in where later messages go. -/
theorem C149_hidden (s : St) (p : Nat) (r : Proc) (a : Asked) (l : Level) (text : List UInt8) (hp : s.proc p = some r)
    (ha : r.filter = a.filter) (hl : l ∉ seenWith a) : step s (.log p l text) = some s := by
  have : r.filter.lets l = false := by
    cases hb : r.filter.lets l with
    | false => rfl
    | true => exact absurd ((lets_iff a l).mp (ha ▸ hb)) hl
  simp [step, hp, this]

/-- C149. Whatever daemon is asked, and whatever its level was, it then has the level asked for; no other process is touched. -/
theorem C149_set (s : St) (p : Nat) (r : Proc) (a : Asked) (hp : s.proc p = some r) (hd : r.daemon = true) :
    ∃ s', step s (.setLevel p a) = some s' ∧ s'.proc p = some { r with filter := a.filter } ∧
      (∀ q, q ≠ p → s'.proc q = s.proc q) ∧ s'.file = s.file ∧ s'.err = s.err :=
  ⟨{ s with proc := upd s.proc p (some { r with filter := a.filter }) }, by simp [step, hp, hd], upd_same _ _ _,
    fun _ hq => upd_other _ _ hq, rfl, rfl⟩

/-- C149. More is seen with a more talkative level: what a level shows is shown by each level after it. -/
theorem C149_monotone (a b : Asked) (h : (seenWith a).length ≤ (seenWith b).length) (l : Level) (hl : l ∈ seenWith a) :
    l ∈ seenWith b := by
  revert h hl
  cases a <;> cases b <;> cases l <;> decide

/-! ## Cases that meet the hypotheses -/

/-- A daemon with the file, a client without, a request for less and one for more. -/
example : ∃ s, Run [9, 9] [.start 7 2 false false, .start 1 0 true true, .log 1 .debug [1], .log 1 .info [65], .log 7 .error [2],
    .setLevel 1 .error, .log 1 .info [66], .log 1 .error [67], .setLevel 1 .trace, .start 8 0 true false, .log 1 .trace [68],
    .log 8 .info [3], .exit 1] s ∧ s.file = [65, 67, 68] ∧ s.err 8 = [3] ∧ s.err 7 = [] := ⟨_, rfl, rfl, rfl, rfl⟩

example : (∀ s0, Run [9, 9] [.start 7 2 false false] s0 → ∀ q, ¬ HasLog s0 q) ∧
    (∀ q, ¬ OpensLog q [.log 1 .debug [1], .log 1 .info [65], .start 8 0 true false]) := by
  refine ⟨?_, ?_⟩
  · intro s0 h q ⟨r, n, hr, hn⟩
    cases h
    by_cases e : q = 7
    · subst e; cases hr; cases hn
    · simp [upd_other _ _ e, init] at hr
  · rintro q ⟨v, d, hm⟩; simp at hm

/-- A daemon has written 3 bytes when a client is given its log file. -/
example : ∃ s r, Run [] [.start 1 0 true true, .log 1 .info [65, 66, 10]] s ∧ s.proc 1 = some r ∧ r.dest = .file 3 ∧
    r.filter.lets .warn = true ∧ s.proc 2 = none := ⟨_, _, rfl, rfl, rfl, rfl, rfl⟩

end Shpool.Logs
