import Verif.Kill.Props
/-! # Exactly whose process a kill hits (C77) -/

namespace Shpool.Kill

/-- Whose a process is, alive or not. -/
inductive Owner where
  | session (n : Nat)
  | stranger
  deriving DecidableEq, Repr

/-- The process number the daemon has for a session, read off the history: that of its last creation, if it was not removed since. -/
def numberOf (ls : List Label) (n : Nat) : Option Nat :=
  (ls.reverse.findSome? fun
    | .create m pid => if m = n then some (some pid) else none
    | .remove m => if m = n then some none else none
    | _ => none).getD none

/-- Who has a process number, read off the history: who was given it last, if it was not freed since. -/
def holderOf (ls : List Label) (pid : Nat) : Option Owner :=
  (ls.reverse.findSome? fun
    | .create m q => if q = pid then some (some (.session m)) else none
    | .otherStarts q => if q = pid then some (some .stranger) else none
    | .reap q => if q = pid then some none else none
    | _ => none).getD none

/-- Whose a process of the table is. -/
def Proc.owner : Proc → Owner
  | .shell n _ => .session n
  | .other _ => .stranger

private structure Reads (ls : List Label) (w : World) : Prop where
  number : ∀ n, w.sessions.lookup n = numberOf ls n
  holder : ∀ pid, (w.procs pid).map Proc.owner = holderOf ls pid
  since : ∀ n pid, numberOf ls n = some pid → ∃ a b, ls = a ++ .create n pid :: b ∧ .remove n ∉ b ∧
    (.reap pid ∉ b → holderOf ls pid = some (.session n))

private theorem lookup_none {l : List (Nat × Nat)} {n : Nat} (h : n ∉ l.map Prod.fst) : l.lookup n = none := by
  induction l with
  | nil => rfl
  | cons x xs ih =>
    obtain ⟨a, b⟩ := x
    simp only [List.map_cons, List.mem_cons, not_or] at h
    rw [List.lookup_cons, show (n == a) = false by simpa using h.1]
    exact ih h.2

private theorem lookup_snoc {l : List (Nat × Nat)} {n pid m : Nat} (h : n ∉ l.map Prod.fst) :
    (l ++ [(n, pid)]).lookup m = if n = m then some pid else l.lookup m := by
  rw [List.lookup_append]
  by_cases hm : n = m
  · subst hm
    simp [lookup_none h]
  · have : (m == n) = false := by simpa using Ne.symm hm
    simp [List.lookup_cons, this, hm]

private theorem numberOf_snoc (ls : List Label) (l : Label) (n : Nat) : numberOf (ls ++ [l]) n =
    match l with
    | .create m pid => if m = n then some pid else numberOf ls n
    | .remove m => if m = n then none else numberOf ls n
    | _ => numberOf ls n := by
  unfold numberOf
  rw [List.reverse_append]
  cases l <;> simp [List.findSome?_cons]
  all_goals (split <;> simp_all)

private theorem holderOf_snoc (ls : List Label) (l : Label) (pid : Nat) : holderOf (ls ++ [l]) pid =
    match l with
    | .create m q => if q = pid then some (.session m) else holderOf ls pid
    | .otherStarts q => if q = pid then some .stranger else holderOf ls pid
    | .reap q => if q = pid then none else holderOf ls pid
    | _ => holderOf ls pid := by
  unfold holderOf
  rw [List.reverse_append]
  cases l <;> simp [List.findSome?_cons]
  all_goals (split <;> simp_all)

private theorem reads_run {ls : List Label} {w : World} (h : Run ls w) : Reads ls w := by
  refine run_hist (I := Reads) (fun ls w l w' hI h => ?_) ⟨fun _ => rfl, fun _ => rfl, nofun⟩ h
  -- a number given keeps its place in the history
  have keep : ∀ n pid, numberOf ls n = some pid → l ≠ .remove n →
      (.reap pid ≠ l → holderOf ls pid = some (.session n) → holderOf (ls ++ [l]) pid = some (.session n)) →
      ∃ a b, ls ++ [l] = a ++ .create n pid :: b ∧ .remove n ∉ b ∧ (.reap pid ∉ b → holderOf (ls ++ [l]) pid = some (.session n)) := by
    intro n pid hn hl hk
    obtain ⟨a, b, h1, h2, h3⟩ := hI.since n pid hn
    refine ⟨a, b ++ [l], by rw [h1]; simp, ?_, fun hr => ?_⟩
    · intro hm
      rcases List.mem_append.mp hm with hm | hm
      · exact h2 hm
      · exact hl (List.mem_singleton.mp hm).symm
    · exact hk (fun e => hr (by simp [e])) (h3 fun hm => hr (List.mem_append_left _ hm))
  cases l with
  | create n pid =>
    simp only [step] at h
    split at h
    · rename_i hc
      cases h
      have hfree : holderOf ls pid = none := by rw [← hI.holder, hc.1]; rfl
      refine ⟨fun m => ?_, fun q => ?_, fun m q hm => ?_⟩
      · rw [numberOf_snoc, lookup_snoc hc.2, hI.number]
      · rw [holderOf_snoc]
        by_cases hq : pid = q
        · subst hq; simp [setProc, Proc.owner]
        · simp [setProc, hq, Ne.symm hq, hI.holder]
      · rw [numberOf_snoc] at hm
        by_cases hmn : n = m
        · subst hmn
          simp only [if_true, Option.some.injEq] at hm
          subst hm
          exact ⟨ls, [], rfl, by simp, fun _ => by rw [holderOf_snoc]; simp⟩
        · simp only [if_neg hmn] at hm
          refine keep m q hm nofun fun _ hh => ?_
          rw [holderOf_snoc]
          have : pid ≠ q := by rintro rfl; rw [hfree] at hh; cases hh
          simp [this, hh]
    · cases h
  | shellExits pid =>
    simp only [step] at h
    split at h
    · rename_i k hc
      cases h
      refine ⟨fun m => ?_, fun q => ?_, fun m q hm => ?_⟩
      · rw [numberOf_snoc]; exact hI.number m
      · rw [holderOf_snoc]
        by_cases hq : q = pid
        · subst hq
          rw [← hI.holder, hc]; simp [setProc, Proc.owner]
        · simp [setProc, hq, hI.holder]
      · rw [numberOf_snoc] at hm
        exact keep m q hm nofun fun _ hh => by rw [holderOf_snoc]; exact hh
    · cases h
  | reap pid =>
    simp only [step] at h
    split at h
    · cases h
      refine ⟨fun m => ?_, fun q => ?_, fun m q hm => ?_⟩
      · rw [numberOf_snoc]; exact hI.number m
      · rw [holderOf_snoc]
        by_cases hq : pid = q
        · subst hq; simp [setProc]
        · simp [setProc, hq, Ne.symm hq, hI.holder]
      · rw [numberOf_snoc] at hm
        refine keep m q hm nofun fun hne hh => ?_
        rw [holderOf_snoc]
        have : pid ≠ q := fun e => hne (by rw [e])
        simp [this, hh]
    · cases h
  | otherStarts pid =>
    simp only [step] at h
    split at h
    · rename_i hc
      cases h
      have hfree : holderOf ls pid = none := by rw [← hI.holder, hc]; rfl
      refine ⟨fun m => ?_, fun q => ?_, fun m q hm => ?_⟩
      · rw [numberOf_snoc]; exact hI.number m
      · rw [holderOf_snoc]
        by_cases hq : pid = q
        · subst hq; simp [setProc, Proc.owner]
        · simp [setProc, hq, Ne.symm hq, hI.holder]
      · rw [numberOf_snoc] at hm
        refine keep m q hm nofun fun _ hh => ?_
        rw [holderOf_snoc]
        have : pid ≠ q := by rintro rfl; rw [hfree] at hh; cases hh
        simp [this, hh]
    · cases h
  | kill n =>
    have hsame : w'.sessions = w.sessions ∧ w'.procs = w.procs := by
      simp only [step] at h
      (repeat' split at h) <;> cases h <;> exact ⟨rfl, rfl⟩
    refine ⟨fun m => ?_, fun q => ?_, fun m q hm => ?_⟩
    · rw [numberOf_snoc, hsame.1]; exact hI.number m
    · rw [holderOf_snoc, hsame.2]; exact hI.holder q
    · rw [numberOf_snoc] at hm
      exact keep m q hm nofun fun _ hh => by rw [holderOf_snoc]; exact hh
  | remove n =>
    have hl := C77_remove h
    cases h
    refine ⟨fun m => ?_, fun q => ?_, fun m q hm => ?_⟩
    · rw [numberOf_snoc, hl m, hI.number]
      by_cases hm : n = m
      · simp [hm]
      · simp [hm, Ne.symm hm]
    · rw [holderOf_snoc]; exact hI.holder q
    · rw [numberOf_snoc] at hm
      by_cases hmn : n = m
      · simp [hmn] at hm
      · simp only [if_neg hmn] at hm
        exact keep m q hm (fun e => by cases e; exact hmn rfl) fun _ hh => by rw [holderOf_snoc]; exact hh

/-- **C77** (exactly whose): killing a session after any history signals whoever has, after that history, the process number the
session was created with — nobody if the number is free —, and nothing else happens. -/
theorem C77_exact (ls : List Label) (w w' : World) (h : Run ls w) (n : Nat) (hs : step w (.kill n) = some w') :
    ∃ pid, numberOf ls n = some pid ∧
      ((holderOf ls pid = none ∧ w'.signalled = w.signalled) ∨
       ∃ p, holderOf ls pid = some p.owner ∧ w'.signalled = w.signalled ++ [(n, p)]) := by
  have hR := reads_run h
  simp only [step] at hs
  split at hs
  · cases hs
  · rename_i pid hl
    refine ⟨pid, by rw [← hR.number, hl], ?_⟩
    split at hs
    · rename_i hp
      cases hs
      exact .inl ⟨by rw [← hR.holder, hp]; rfl, rfl⟩
    · rename_i p hp
      cases hs
      exact .inr ⟨p, by rw [← hR.holder, hp]; rfl, rfl⟩

/-- **C77** (why): a kill that hits another process than the session's own shell was preceded by the end of that shell being collected
while the session stayed in the table, and by somebody else getting its process number. -/
theorem C77_cause (ls : List Label) (w w' : World) (h : Run ls w) (n : Nat) (hs : step w (.kill n) = some w') (p : Proc)
    (hp : w'.signalled = w.signalled ++ [(n, p)]) (hne : ∀ alive, p ≠ .shell n alive) :
    ∃ pid a b, ls = a ++ .create n pid :: b ∧ .remove n ∉ b ∧ .reap pid ∈ b ∧ holderOf ls pid = some p.owner := by
  have hR := reads_run h
  obtain ⟨pid, h1, h2⟩ := C77_exact ls w w' h n hs
  rcases h2 with ⟨_, h2⟩ | ⟨q, h2, h3⟩
  · rw [hp] at h2
    have := congrArg List.length h2
    simp at this
  · rw [hp] at h3
    have hq : p = q := by simpa using h3
    subst hq
    obtain ⟨a, b, e, hb, hr⟩ := hR.since n pid h1
    refine ⟨pid, a, b, e, hb, Classical.byContradiction fun hnr => ?_, h2⟩
    rw [hr hnr] at h2
    cases p with
    | shell m alive =>
      have : n = m := by simpa [Proc.owner] using h2
      exact hne alive (by rw [this])
    | other alive => simp [Proc.owner] at h2

example : ∃ w w', Run [.create 0 7, .shellExits 7, .reap 7, .create 1 7] w ∧ step w (.kill 0) = some w' ∧
    w'.signalled = w.signalled ++ [(0, .shell 1 true)] ∧ numberOf [.create 0 7, .shellExits 7, .reap 7, .create 1 7] 0 = some 7 ∧
    holderOf [.create 0 7, .shellExits 7, .reap 7, .create 1 7] 7 = some (.session 1) := ⟨_, _, rfl, rfl, rfl, rfl, rfl⟩

end Shpool.Kill
