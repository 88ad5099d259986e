import Verif.Hangup.Model
import Verif.Util.Fair
/-!
# C168: what runs in a session is told when the session ends
-/

namespace Shpool.Hangup

/-- The terminal is hung up or can be at any moment. -/
def Hung (P : Params) (s : St) (x : Nat) : Prop := x ∈ s.told ∨ (step P s (.hangup x)).isSome = true

/-- **C168**, as stated: once the daemon has closed a session's terminal, or has ended, the terminal is hung up. -/
def C168_statement : Prop := ∀ cloexec ls s, Run (program cloexec) ls s → ∀ x, x < s.next → x ∉ s.masters.map (·.term) → Hung (program cloexec) s x

/-- Two sessions; the first is killed. -/
def killed : List Label := [.start 5, .start 6, .drop 0]

/-- **C168 is false** if master sides are not opened close-on-exec: the shell of a session that was started while the first was there has the
master side of its terminal. -/
theorem C168_false : ¬ C168_statement := by
  intro h
  have hr : ∃ s, Run (program false) killed s ∧ 0 < s.next ∧ 0 ∉ s.masters.map (·.term) ∧ 0 ∉ s.told ∧ step (program false) s (.hangup 0) = none :=
    ⟨_, rfl, by decide, by decide, by decide, by decide⟩
  obtain ⟨s, hr, h1, h2, h3, h4⟩ := hr
  rcases h false killed s hr 0 h1 h2 with h | h
  · exact h3 h
  · rw [h4] at h; cases h

private theorem not_passed {P : Params} {ms : List Master} (h : P.cloexec = true ∨ ∀ m ∈ ms, 3 ≤ m.num ∧ m.num < P.bound) : passedOn P ms = [] := by
  simp only [passedOn, List.map_eq_nil_iff, List.filter_eq_nil_iff]
  intro m hm
  rcases h with h | h
  · simp [Fds.inherited, Fds.exec, Fds.closeLoop, h, List.filter_cons]
  · simp [Fds.inherited, Fds.exec, Fds.closeLoop, h m hm]

/-- Nobody but the daemon has a master side. -/
private theorem nobody {P : Params} {ls : List Label} {s : St} (h : Run P ls s)
    (hp : P.cloexec = true ∨ ∀ n, .start n ∈ ls → n < P.bound) : ∀ p ∈ s.procs, p.has = [] := by
  have := run_hist (step := step P) (s := init) (I := fun ls s => (P.cloexec = true ∨ ∀ n, .start n ∈ ls → n < P.bound) →
    (∀ p ∈ s.procs, p.has = []) ∧ ∀ m ∈ s.masters, 3 ≤ m.num ∧ Label.start m.num ∈ ls) (fun ls s l s' hI hs hp => ?_)
    (fun _ => ⟨by simp [init], by simp [init]⟩) h
  · exact (this hp).1
  · have hp' : P.cloexec = true ∨ ∀ n, .start n ∈ ls → n < P.bound := hp.imp id fun h n hn => h n (by simp [hn])
    obtain ⟨h1, h2⟩ := hI hp'
    have h2' : ∀ m ∈ s.masters, 3 ≤ m.num ∧ Label.start m.num ∈ ls ++ [l] := fun m hm => ⟨(h2 m hm).1, by simp [(h2 m hm).2]⟩
    cases l <;> simp only [step] at hs
    case start n =>
      split at hs <;> cases hs
      rename_i hc
      refine ⟨fun p hm => ?_, fun m hm => ?_⟩
      · rcases List.mem_append.1 hm with hm | hm
        · exact h1 p hm
        · simp at hm
          subst hm
          exact not_passed (hp'.imp id fun h m hm => ⟨(h2 m hm).1, h _ (h2 m hm).2⟩)
      · rcases List.mem_append.1 hm with hm | hm
        · exact h2' m hm
        · simp at hm
          subst hm
          exact ⟨hc.2.1, by simp⟩
    case drop x =>
      split at hs <;> cases hs
      exact ⟨h1, fun m hm => h2' m (List.mem_filter.1 hm).1⟩
    case ends =>
      split at hs <;> cases hs
      exact ⟨h1, by simp⟩
    case fork i =>
      split at hs <;> cases hs
      rename_i p hpi
      refine ⟨fun q hq => ?_, h2'⟩
      rcases List.mem_append.1 hq with hq | hq
      · exact h1 q hq
      · simp at hq; subst hq; exact h1 _ (List.mem_of_getElem? hpi)
    case leave i =>
      split at hs <;> cases hs
      rename_i p hpi
      refine ⟨fun q hq => ?_, h2'⟩
      rcases List.mem_or_eq_of_mem_set hq with hq | rfl
      · exact h1 q hq
      · exact h1 p (List.mem_of_getElem? hpi)
    case ignore i =>
      split at hs <;> cases hs
      rename_i p hpi
      refine ⟨fun q hq => ?_, h2'⟩
      rcases List.mem_or_eq_of_mem_set hq with hq | rfl
      · exact h1 q hq
      · exact h1 p (List.mem_of_getElem? hpi)
    case exit i =>
      split at hs <;> cases hs
      exact ⟨fun q hq => h1 q (List.mem_of_mem_eraseIdx hq), h2'⟩
    case hangup x =>
      split at hs <;> cases hs
      exact ⟨fun q hq => h1 q (List.mem_filter.1 hq).1, h2'⟩

private theorem hung_of_nobody {P : Params} {s : St} {x : Nat} (h : ∀ p ∈ s.procs, p.has = []) (hx : x < s.next) (hm : x ∉ s.masters.map (·.term)) :
    Hung P s x := by
  by_cases ht : x ∈ s.told
  · exact .inl ht
  · refine .inr ?_
    simp only [step]
    rw [if_pos ⟨hx, ht, hm, fun p hp => by simp [h p hp]⟩]
    rfl

/-- **C168** if master sides are opened close-on-exec. -/
theorem C168_partial {ls : List Label} {s : St} (h : Run (program true) ls s) {x : Nat} (hx : x < s.next) (hm : x ∉ s.masters.map (·.term)) :
    Hung (program true) s x := hung_of_nobody (nobody h (.inl rfl)) hx hm

example : ∃ s, Run (program true) (killed ++ [.hangup 0]) s ∧ 0 ∈ s.told ∧ s.procs.length = 1 := ⟨_, rfl, by decide, rfl⟩

/-- **C168** for a loop that closes all descriptors in use (as the one of the program seems meant to). -/
theorem C168_repaired {cloexec : Bool} {bound : Nat} {ls : List Label} {s : St} (h : Run ⟨cloexec, bound⟩ ls s)
    (hb : ∀ n, .start n ∈ ls → n < bound) {x : Nat} (hx : x < s.next) (hm : x ∉ s.masters.map (·.term)) :
    Hung ⟨cloexec, bound⟩ s x := hung_of_nobody (nobody h (.inr hb)) hx hm

example : ∃ s, Run ⟨false, 1024⟩ (killed ++ [.hangup 0]) s ∧ ∀ n, .start n ∈ killed ++ [Label.hangup 0] → n < 1024 :=
  ⟨_, rfl, by intro n hn; simp [killed] at hn; omega⟩

/-- **C168** (who has it): the shell of a new session has the master sides of exactly the terminals the daemon has at that moment, except the one
with the descriptor 3, if they are not close-on-exec. -/
theorem C168_exact {cloexec : Bool} {s s' : St} {n : Nat} (h : step (program cloexec) s (.start n) = some s') :
    ∃ p, s'.procs = s.procs ++ [p] ∧ p.term = some s.next ∧
      ∀ x, x ∈ p.has ↔ cloexec = false ∧ ∃ m ∈ s.masters, m.term = x ∧ m.num ≠ 3 := by
  simp only [step] at h
  split at h <;> cases h
  refine ⟨_, rfl, rfl, fun x => ?_⟩
  simp only [passedOn, program, List.mem_map, List.mem_filter]
  have key : ∀ k : Nat, (!(Fds.inherited Fds.scOpenMax [⟨k, cloexec⟩]).isEmpty) = true ↔ cloexec = false ∧ k ≠ 3 := by
    intro k
    by_cases h3 : k = 3
    · subst h3; cases cloexec <;> decide
    · have hd : (!(decide (3 ≤ k) && decide (k < Fds.scOpenMax))) = true := by
        rw [show Fds.scOpenMax = 4 from rfl]
        by_cases h4 : 3 ≤ k
        · have : ¬ k < 4 := by omega
          simp [this]
        · simp [h4]
      have e : Fds.inherited Fds.scOpenMax [⟨k, cloexec⟩] = Fds.exec [⟨k, cloexec⟩] := by
        simp only [Fds.inherited, Fds.closeLoop, List.filter_cons, hd, if_true, List.filter_nil]
      rw [e]
      cases cloexec <;> simp [Fds.exec, h3]
  constructor
  · rintro ⟨m, ⟨hm, hk⟩, rfl⟩
    exact ⟨((key _).1 hk).1, m, hm, rfl, ((key _).1 hk).2⟩
  · rintro ⟨hc, m, hm, rfl, h3⟩
    exact ⟨m, ⟨hm, (key _).2 ⟨hc, h3⟩⟩, rfl⟩

/-- **C168** (not before): a terminal that the daemon has is not hung up, and nothing that runs at it is ended by a hang-up. -/
theorem C168_not_before {P : Params} {ls : List Label} {s : St} (h : Run P ls s) {m : Master} (hm : m ∈ s.masters) : m.term ∉ s.told := by
  have := run_inv (step := step P) (s := init) (I := fun s => (∀ m ∈ s.masters, m.term < s.next ∧ m.term ∉ s.told) ∧ ∀ x ∈ s.told, x < s.next)
    (fun s l s' hI hs => ?_) ⟨by simp [init], by simp [init]⟩ h
  · exact (this.1 m hm).2
  · obtain ⟨h1, h2⟩ := hI
    cases l <;> simp only [step] at hs
    case start n =>
      split at hs <;> cases hs
      refine ⟨fun m hm => ?_, fun x hx => Nat.lt_succ_of_lt (h2 x hx)⟩
      rcases List.mem_append.1 hm with hm | hm
      · exact ⟨Nat.lt_succ_of_lt (h1 m hm).1, (h1 m hm).2⟩
      · simp at hm
        subst hm
        exact ⟨Nat.lt_succ_self _, fun hx => absurd (h2 _ hx) (Nat.lt_irrefl _)⟩
    case drop x =>
      split at hs <;> cases hs
      exact ⟨fun m hm => h1 m (List.mem_filter.1 hm).1, h2⟩
    case ends =>
      split at hs <;> cases hs
      exact ⟨by simp, h2⟩
    case hangup x =>
      split at hs <;> cases hs
      rename_i hc
      refine ⟨fun m hm => ⟨(h1 m hm).1, fun ht => ?_⟩, fun y hy => ?_⟩
      · rcases List.mem_append.1 ht with ht | ht
        · exact (h1 m hm).2 ht
        · simp at ht
          exact hc.2.2.1 (List.mem_map.2 ⟨m, hm, ht⟩)
      · rcases List.mem_append.1 hy with hy | hy
        · exact h2 y hy
        · simp at hy; subst hy; exact hc.1
    all_goals (split at hs <;> cases hs; exact ⟨h1, h2⟩)

/-- **C168** (as long as): as long as a process that has the master side does not end, the terminal is not hung up. -/
theorem C168_false_for_ever {P : Params} {s s' : St} {ls : List Label} {x : Nat} {p : Proc} (hp : p ∈ s.procs) (hx : x ∈ p.has) (hi : p.ignores = true)
    (ht : x ∉ s.told) (hne : ∀ i, .exit i ∉ ls) (h : runSteps (step P) s ls = some s') : x ∉ s'.told ∧ ∃ q ∈ s'.procs, x ∈ q.has := by
  have key := run_hist (step := step P) (s := s) (s' := s') (ls := ls)
    (I := fun ls t => (∀ i, .exit i ∉ ls) → x ∉ t.told ∧ ∃ q ∈ t.procs, x ∈ q.has ∧ q.ignores = true)
    (fun ls t l t' hI hs hn => ?_) (fun _ => ⟨ht, p, hp, hx, hi⟩) h
  · obtain ⟨h1, q, h2, h3, _⟩ := key hne
    exact ⟨h1, q, h2, h3⟩
  · obtain ⟨h1, q, h2, h3, h4⟩ := hI fun i hm => hn i (by simp [hm])
    have change : ∀ i r, t.procs[i]? = some r → ∀ r', r'.has = r.has → (r.ignores = true → r'.ignores = true) →
        ∃ q ∈ t.procs.set i r', x ∈ q.has ∧ q.ignores = true := by
      intro i r hr r' hh hig
      obtain ⟨j, hj⟩ := List.mem_iff_getElem?.1 h2
      by_cases e : i = j
      · subst e
        rw [hr] at hj
        cases hj
        refine ⟨r', List.mem_iff_getElem?.2 ⟨i, ?_⟩, hh ▸ h3, hig h4⟩
        have := (List.getElem?_eq_some_iff.1 hr).1
        simp [this]
      · exact ⟨q, List.mem_iff_getElem?.2 ⟨j, by rw [List.getElem?_set_ne e]; exact hj⟩, h3, h4⟩
    cases l <;> simp only [step] at hs
    case start n =>
      split at hs <;> cases hs
      exact ⟨h1, q, by simp [h2], h3, h4⟩
    case drop y => split at hs <;> cases hs; exact ⟨h1, q, h2, h3, h4⟩
    case ends => split at hs <;> cases hs; exact ⟨h1, q, h2, h3, h4⟩
    case fork i => split at hs <;> cases hs; exact ⟨h1, q, by simp [h2], h3, h4⟩
    case leave i =>
      split at hs <;> cases hs
      rename_i r hr
      exact ⟨h1, change i r hr _ rfl id⟩
    case ignore i =>
      split at hs <;> cases hs
      rename_i r hr
      exact ⟨h1, change i r hr _ rfl fun _ => rfl⟩
    case exit i => exact absurd (by simp) (hn i)
    case hangup y =>
      split at hs <;> cases hs
      rename_i hc
      refine ⟨?_, q, List.mem_filter.2 ⟨h2, by simp [h4]⟩, h3, h4⟩
      intro hm
      rcases List.mem_append.1 hm with hm | hm
      · exact h1 hm
      · simp at hm
        subst hm
        exact hc.2.2.2 q h2 h3

/-- **C168 is false** also when the daemon ends: a program under `nohup` in the second session keeps the shell of the first running, at a terminal
nobody can reach any more. -/
theorem C168_false_daemon : ∃ s, Run (program false) [.start 5, .start 6, .fork 1, .ignore 2, .ends, .hangup 1] s ∧ s.daemon = false ∧
    (∃ p ∈ s.procs, p.term = some 0) ∧ (∃ p ∈ s.procs, 0 ∈ p.has ∧ p.ignores = true) ∧ 0 ∉ s.told :=
  ⟨_, rfl, rfl, by decide, by decide, by decide⟩

/-! ## When the daemon has ended -/

/-- A process has only master sides of terminals older than its own. -/
private def Older (s : St) : Prop :=
  (∀ p ∈ s.procs, p.ignores = false ∧ ∃ y, p.term = some y ∧ y < s.next ∧ y ∉ s.told ∧ ∀ x ∈ p.has, x < y) ∧
  (∀ m ∈ s.masters, m.term < s.next ∧ m.term ∉ s.told) ∧ (∀ x ∈ s.told, x < s.next) ∧ (s.daemon = false → s.masters = [])

/-- What processes do that neither ignore hang-ups nor leave their terminal. -/
def orderly : Label → Bool
  | .leave _ | .ignore _ => false
  | _ => true

private theorem older_step {P : Params} {s s' : St} {l : Label} (hl : orderly l = true) (hI : Older s) (h : step P s l = some s') : Older s' := by
  obtain ⟨h1, h2, h3, h4⟩ := hI
  cases l <;> simp only [step] at h
  case leave => cases hl
  case ignore => cases hl
  case start n =>
    split at h <;> cases h
    rename_i hc
    refine ⟨fun p hp => ?_, fun m hm => ?_, fun x hx => Nat.lt_succ_of_lt (h3 x hx), fun hd => ?_⟩
    · rcases List.mem_append.1 hp with hp | hp
      · obtain ⟨hi, y, hy, hlt, ht, ho⟩ := h1 p hp
        exact ⟨hi, y, hy, Nat.lt_succ_of_lt hlt, ht, ho⟩
      · simp at hp
        subst hp
        refine ⟨rfl, s.next, rfl, Nat.lt_succ_self _, fun hm => absurd (h3 _ hm) (Nat.lt_irrefl _), fun x hx => ?_⟩
        simp only [passedOn, List.mem_map, List.mem_filter] at hx
        obtain ⟨m, ⟨hm, _⟩, rfl⟩ := hx
        exact (h2 m hm).1
    · rcases List.mem_append.1 hm with hm | hm
      · exact ⟨Nat.lt_succ_of_lt (h2 m hm).1, (h2 m hm).2⟩
      · simp at hm
        subst hm
        exact ⟨Nat.lt_succ_self _, fun hm => absurd (h3 _ hm) (Nat.lt_irrefl _)⟩
    · rw [show s.daemon = false from hd] at hc
      cases hc.1
  case drop x =>
    split at h <;> cases h
    exact ⟨h1, fun m hm => h2 m (List.mem_filter.1 hm).1, h3, fun hd => by simp [h4 hd]⟩
  case ends => split at h <;> cases h; exact ⟨h1, by simp, h3, fun _ => rfl⟩
  case fork i =>
    split at h <;> cases h
    rename_i p hp
    refine ⟨fun q hq => ?_, h2, h3, h4⟩
    rcases List.mem_append.1 hq with hq | hq
    · exact h1 q hq
    · simp at hq; subst hq; exact h1 _ (List.mem_of_getElem? hp)
  case exit i => split at h <;> cases h; exact ⟨fun q hq => h1 q (List.mem_of_mem_eraseIdx hq), h2, h3, h4⟩
  case hangup x =>
    split at h <;> cases h
    rename_i hc
    refine ⟨fun q hq => ?_, fun m hm => ⟨(h2 m hm).1, fun ht => ?_⟩, fun y hy => ?_, h4⟩
    · obtain ⟨hq, hk⟩ := List.mem_filter.1 hq
      obtain ⟨hi, y, hy, hlt, ht, ho⟩ := h1 q hq
      refine ⟨hi, y, hy, hlt, fun hm => ?_, ho⟩
      rcases List.mem_append.1 hm with hm | hm
      · exact ht hm
      · simp at hm
        subst hm
        simp [hi, hy] at hk
    · rcases List.mem_append.1 ht with ht | ht
      · exact (h2 m hm).2 ht
      · simp at ht
        exact hc.2.2.1 (List.mem_map.2 ⟨m, hm, ht⟩)
    · rcases List.mem_append.1 hy with hy | hy
      · exact h3 y hy
      · simp at hy; subst hy; exact hc.1

private theorem greatest {l : List Proc} (hne : l ≠ []) (t : Proc → Nat) : ∃ p ∈ l, ∀ q ∈ l, t q ≤ t p := by
  induction l with
  | nil => exact absurd rfl hne
  | cons a l ih =>
    by_cases hl : l = []
    · subst hl; exact ⟨a, by simp, by simp⟩
    · obtain ⟨p, hp, hg⟩ := ih hl
      by_cases hc : t p ≤ t a
      · refine ⟨a, by simp, fun q hq => ?_⟩
        rcases List.mem_cons.1 hq with rfl | hq
        · exact Nat.le_refl _
        · exact Nat.le_trans (hg q hq) hc
      · refine ⟨p, by simp [hp], fun q hq => ?_⟩
        rcases List.mem_cons.1 hq with rfl | hq
        · omega
        · exact hg q hq

/-- The system hangs up terminals. -/
def system : Label → Bool
  | .hangup _ => true
  | _ => false

private def rank (s : St) : Nat := ((List.range s.next).filter fun x => decide (x ∉ s.told)).length

private theorem filter_lt {l : List Nat} {told : List Nat} {x : Nat} (hx : x ∈ l) (ht : x ∉ told) :
    (l.filter fun y => decide (y ∉ told ++ [x])).length < (l.filter fun y => decide (y ∉ told)).length := by
  have mono : ∀ l : List Nat, (l.filter fun y => decide (y ∉ told ++ [x])).length ≤ (l.filter fun y => decide (y ∉ told)).length := by
    intro l
    induction l with
    | nil => simp
    | cons a l ih =>
      simp only [List.filter_cons]
      by_cases h1 : a ∈ told
      · simp [h1]; simpa using ih
      · by_cases h2 : a = x
        · subst h2; simp [h1]; simp at ih; omega
        · simp [h1, h2]; simpa using ih
  induction l with
  | nil => cases hx
  | cons a l ih =>
    simp only [List.filter_cons]
    have hm := mono l
    by_cases h2 : a = x
    · subst h2
      simp [ht]
      simp at hm
      omega
    · have hx' : x ∈ l := (List.mem_cons.1 hx).resolve_left fun e => h2 e.symm
      have := ih hx'
      by_cases h1 : a ∈ told
      · simp [h1]; simpa using this
      · simp [h1, h2]; simpa using this

/-- **C168** (the daemon's end): if no process ignores hang-ups or has left its terminal, then once the daemon has ended everything that runs in
sessions ends too, the newest session first, whoever has whose master side. -/
theorem C168_fair_partial {cloexec : Bool} {σ : Nat → St} {lab : Nat → Option Label} (hx : Exec (step (program cloexec)) σ lab) (h0 : σ 0 = init)
    (hf : WeakFair (step (program cloexec)) σ lab system) (ho : ∀ i l, lab i = some l → orderly l = true) {m : Nat} (hd : (σ m).daemon = false) :
    ∃ i, m ≤ i ∧ (σ i).procs = [] := by
  have hI : ∀ i, Older (σ i) := by
    intro i
    induction i with
    | zero => rw [h0]; exact ⟨by simp [init], by simp [init], by simp [init], by simp [init]⟩
    | succ i ih =>
      rcases hx i with ⟨_, e⟩ | ⟨l, hl, hs⟩
      · rw [e]; exact ih
      · exact older_step (ho i l hl) ih hs
  have hdead : ∀ s l s', s.daemon = false → step (program cloexec) s l = some s' → s'.daemon = false ∧ s'.next = s.next ∧
      (system l = false → s'.told = s.told) := by
    intro s l s' hd h
    cases l <;> simp only [step] at h <;> split at h <;> cases h
    case start => rename_i hc; rw [hd] at hc; cases hc.1
    case drop => exact ⟨hd, rfl, fun _ => rfl⟩
    case ends => rename_i hc; rw [hd] at hc; cases hc
    case hangup => exact ⟨hd, rfl, fun h => by cases h⟩
    all_goals exact ⟨hd, rfl, fun _ => rfl⟩
  by_cases hm : (σ m).procs = []
  · exact ⟨m, Nat.le_refl _, hm⟩
  refine fair_reaches (m := m) hx hf (B := fun s => Older s ∧ s.daemon = false ∧ s.procs ≠ []) (G := fun s => s.procs = []) rank ⟨hI m, hd, hm⟩ ?_ ?_
  · rintro i - ⟨⟨h1, _, _, h4⟩, hd, hne⟩
    obtain ⟨p, hp, hg⟩ := greatest hne (fun p => p.term.getD 0)
    obtain ⟨_, y, hy, hlt, ht, _⟩ := h1 p hp
    refine ⟨.hangup y, rfl, ?_⟩
    simp only [step]
    have hno : ∀ q ∈ (σ i).procs, y ∉ q.has := by
      intro q hq hh
      obtain ⟨_, z, hz, _, _, ho⟩ := h1 q hq
      have h5 := hg q hq
      have h6 := ho y hh
      simp [hy, hz] at h5
      omega
    rw [if_pos ⟨hlt, ht, by rw [h4 hd]; simp, hno⟩]
    rfl
  · rintro i l - hl ⟨hB, hd, hne⟩ hs
    by_cases hn : (σ (i + 1)).procs = []
    · exact .inl hn
    obtain ⟨h1, h2, h3⟩ := hdead _ _ _ hd hs
    refine .inr ⟨⟨older_step (ho i l hl) hB hs, h1, hn⟩, ?_⟩
    cases hsys : system l with
    | false =>
      have : rank (σ (i + 1)) = rank (σ i) := by simp only [rank, h2, h3 hsys]
      exact ⟨by omega, fun h => by cases h⟩
    | true =>
      cases l <;> simp only [system] at hsys <;> try cases hsys
      rename_i x
      have : rank (σ (i + 1)) < rank (σ i) := by
        simp only [step] at hs
        split at hs
        · rename_i hc
          have e := Option.some.inj hs
          simp only [rank, ← e]
          exact filter_lt (List.mem_range.2 hc.1) hc.2.1
        · cases hs
      exact ⟨by omega, fun _ => this⟩

/-- Such an execution: three sessions, each with the master sides of the earlier ones; the daemon ends. -/
example : ∃ σ lab, Exec (step (program false)) σ lab ∧ σ 0 = init ∧ WeakFair (step (program false)) σ lab system ∧
    (∀ i l, lab i = some l → orderly l = true) ∧ (σ 4).daemon = false ∧ (σ 4).procs.map (·.has) = [[], [0], [0, 1]] := by
  have hr : ∃ s, Run (program false) [.start 5, .start 6, .start 7, .ends, .hangup 2, .hangup 1, .hangup 0] s ∧ s.told = [2, 1, 0] ∧ s.next = 3 :=
    ⟨_, rfl, rfl, rfl⟩
  obtain ⟨s, hr, ht, hn⟩ := hr
  obtain ⟨hx, hrest⟩ := thenRests_exec hr
  refine ⟨_, _, hx, rfl, (fair_at_rest (n := 7) hrest fun l hl => ?_).1, fun i l hi => ?_, rfl, rfl⟩
  · cases l <;> simp only [system] at hl <;> try cases hl
    simp only [step, ht, hn]
    rw [if_neg]
    rintro ⟨h1, h2, _⟩
    simp at h2
    omega
  · have := List.mem_of_getElem? hi
    simp at this
    rcases this with rfl | rfl | rfl | rfl | rfl | rfl | rfl <;> rfl

end Shpool.Hangup
