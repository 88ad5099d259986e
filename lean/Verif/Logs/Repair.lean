import Verif.Logs.Props
/-!
# A repair of the log file

* C148: what was logged stays, if the file were opened for appending and not emptied.

What it would take is not in /repo; the steps below are those of the code but for this.
-/

namespace Shpool.Logs

/-- The steps of `step`, but for the opening of the log file, lib.rs 396-401: it is not emptied, and opened for appending, so that each
write goes to the end of the file. -/
def stepR (s : St) : Label → Option St
  | .start p v d f => (step s (.start p v d f)).map fun s' => { s' with file := s.file }
  | .log p l text =>
    match s.proc p with
    | none => none
    | some r =>
      match r.dest with
      | .file _ => some (if r.filter.lets l then { s with file := s.file ++ text } else s)
      | _ => step s (.log p l text)
  | l => step s l

/-- A process with the log file, from its start on. -/
structure Mine (p : Nat) (a : Asked) (s : St) : Prop where
  filter : ∀ r, s.proc p = some r → r.filter = a.filter
  dest : ∀ r, s.proc p = some r → ∃ n, r.dest = .file n

theorem mine_run {p : Nat} {ls : List Label} : ∀ {a : Asked} {s s' : St}, Mine p a s → runSteps stepR s ls = some s' → ¬ Starts p ls →
    ∃ E : List (Nat × List UInt8), s'.file = s.file ++ E.flatMap (·.2) ∧ (E.filter (·.1 == p)).flatMap (·.2) = saidBy p a ls ∧
      ∀ q t, (q, t) ∈ E → ∃ l, Label.log q l t ∈ ls := by
  induction ls with
  | nil => intro a s s' _ h _; cases h; exact ⟨[], by simp, rfl, by simp⟩
  | cons l ls ih =>
    intro a s s' hA h hs
    obtain ⟨s1, hst, hr⟩ := run_cons_some h
    have hs' : ¬ Starts p ls := fun ⟨v, d, f, hm⟩ => hs ⟨v, d, f, List.mem_cons_of_mem _ hm⟩
    have same : ∀ b, Mine p b s1 → s1.file = s.file → saidBy p a (l :: ls) = saidBy p b ls →
        ∃ E : List (Nat × List UInt8), s'.file = s.file ++ E.flatMap (·.2) ∧ (E.filter (·.1 == p)).flatMap (·.2) = saidBy p a (l :: ls) ∧
          ∀ q t, (q, t) ∈ E → ∃ l', Label.log q l' t ∈ l :: ls := fun b hb hf he => by
      obtain ⟨E, e1, e2, e3⟩ := ih hb hr hs'
      exact ⟨E, by rw [e1, hf], by rw [e2, he], fun q t hq => (e3 q t hq).imp fun _ => List.mem_cons_of_mem _⟩
    cases l with
    | start q v d f =>
      have hqp : p ≠ q := fun e => hs ⟨v, d, f, e ▸ List.mem_cons_self⟩
      simp only [stepR, step, Option.map_eq_some_iff] at hst
      obtain ⟨s2, h2, rfl⟩ := hst
      split at h2
      · cases h2
      · cases h2
        refine same a ⟨fun r hr => hA.filter r ?_, fun r hr => hA.dest r ?_⟩ rfl rfl <;> simpa [upd_other _ _ hqp] using hr
    | log q l t =>
      simp only [stepR] at hst
      split at hst
      · cases hst
      · next r' hr' =>
        split at hst
        · next n hn =>
          simp only [Option.some.injEq] at hst
          subst hst
          by_cases hl : r'.filter.lets l = true
          · simp only [hl, if_true] at hr
            obtain ⟨E, e1, e2, e3⟩ := ih (a := a) (s := { s with file := s.file ++ t }) ⟨hA.filter, hA.dest⟩ hr hs'
            refine ⟨(q, t) :: E, by simp [e1], ?_, ?_⟩
            · by_cases e : q = p
              · subst e
                have hm : l ∈ seenWith a := by rw [← lets_iff, ← hA.filter r' hr']; exact hl
                simp [saidBy, hm, e2]
              · simp [saidBy, e, e2]
            · intro q' t' hm
              rcases List.mem_cons.mp hm with e | hm
              · cases e; exact ⟨l, List.mem_cons_self⟩
              · exact (e3 q' t' hm).imp fun _ => List.mem_cons_of_mem _
          · simp only [hl] at hr same
            refine same a hA rfl ?_
            have hno : ¬ (q = p ∧ l ∈ seenWith a) := fun ⟨e, hm⟩ => by
              subst e; rw [← lets_iff, ← hA.filter r' hr'] at hm; exact hl hm
            simp only [saidBy, if_neg hno, List.nil_append]
        · next hn =>
          have hqp : q ≠ p := fun e => by
            subst e; obtain ⟨n, hd⟩ := hA.dest r' hr'; exact hn n hd
          have hp : s1.file = s.file ∧ s1.proc = s.proc := by
            simp only [step, hr'] at hst
            split at hst
            · split at hst
              · next hd => exact absurd hd (hn _)
              · cases hst; exact ⟨rfl, rfl⟩
              · cases hst; exact ⟨rfl, rfl⟩
            · cases hst; exact ⟨rfl, rfl⟩
          refine same a ⟨by rw [hp.2]; exact hA.filter, by rw [hp.2]; exact hA.dest⟩ hp.1 ?_
          simp [saidBy, hqp]
    | setLevel q b =>
      simp only [stepR, step] at hst
      split at hst
      · cases hst
      · next r' hr' =>
        split at hst
        · cases hst
          by_cases e : q = p
          · subst e
            refine same b ⟨fun r hr => ?_, fun r hr => ?_⟩ rfl (by simp [saidBy]) <;>
              (simp only [upd_same] at hr; cases hr)
            · rfl
            · exact hA.dest r' hr'
          · refine same a ⟨fun r hr => hA.filter r ?_, fun r hr => hA.dest r ?_⟩ rfl (by simp [saidBy, e]) <;>
              simpa [upd_other _ _ (Ne.symm e)] using hr
        · cases hst
    | exit q =>
      simp only [stepR, step] at hst
      split at hst
      · cases hst
      · cases hst
        refine same a ⟨fun r hr => ?_, fun r hr => ?_⟩ rfl rfl <;>
        · by_cases e : p = q
          · subst e; simp only [upd_same] at hr; cases hr
          · simp only [upd_other _ _ e] at hr
            first | exact hA.filter r hr | exact hA.dest r hr

/-- **C148** (repaired).  If log files were opened for appending and not emptied: what was in the file when a process starts with it stays; after it
come whole messages of the processes that have it, and among them are all that this process was to write, in order, whoever else opens or
writes the file. -/
theorem C148_repaired {old : List UInt8} {pre mid : List Label} {p v : Nat} {d : Bool} {s0 s : St}
    (h0 : runSteps stepR (init old) pre = some s0) (h : runSteps stepR s0 (.start p v d true :: mid) = some s) (hp : ¬ Starts p mid) :
    ∃ E : List (Nat × List UInt8), s.file = s0.file ++ E.flatMap (·.2) ∧ (E.filter (·.1 == p)).flatMap (·.2) = saidBy p (askedByFlag v) mid ∧
      ∀ q t, (q, t) ∈ E → ∃ l, Label.log q l t ∈ mid := by
  obtain ⟨s1, hst, hr⟩ := run_cons_some h
  simp only [stepR, step, Option.map_eq_some_iff] at hst
  obtain ⟨s2, h2, rfl⟩ := hst
  split at h2
  · cases h2
  · cases h2
    have hM : Mine p (askedByFlag v) { s0 with
        proc := upd s0.proc p (some { filter := startFilter v, daemon := d, dest := dest d true }), err := upd s0.err p [] } := by
      constructor <;> intro r hr <;> simp only [upd_same, Option.some.injEq] at hr <;> subst hr
      · exact startFilter_asked v
      · exact ⟨0, by simp [dest]⟩
    have := mine_run hM hr hp
    exact this

-- Two daemons with one file, the second after the first has written: as in `C148_false` and `C148_false_overwritten`, but nothing is lost.
example : ∃ s, runSteps stepR (init [79, 10]) [.start 1 0 true true, .log 1 .info [65, 65, 10], .start 2 0 true true, .log 2 .info [66, 10],
    .log 1 .info [67, 10], .log 1 .debug [68, 10]] = some s ∧ s.file = [79, 10, 65, 65, 10, 66, 10, 67, 10] := ⟨_, rfl, rfl⟩

end Shpool.Logs
