import Verif.Reaper.Model
/-!
# Properties C55-C57: the ttl reaper
-/

namespace Shpool.Reaper
variable {N : Type} [DecidableEq N]

/-- The registrations of one name. -/
def of (n : N) (l : List (N × Nat)) : List (N × Nat) := l.filter (fun m => decide (m.1 = n))

theorem of_append (n : N) (a b : List (N × Nat)) : of n (a ++ b) = of n a ++ of n b := List.filter_append ..
theorem countOf_eq (n : N) (l : List (N × Nat)) : countOf n l = (of n l).length := rfl
theorem of_self (n : N) (t : Nat) : of n [(n, t)] = [(n, t)] := by simp [of]
theorem of_other {n m : N} (t : Nat) (h : m ≠ n) : of n [(m, t)] = [] := by simp [of, h]

/-- What the invariant says of a session (in the table or on its way there) with a deadline. -/
def RegOk (sent : List (N × Nat)) (n : N) (deadline : Option Nat) (regNo : Nat) : Prop :=
  ∀ d, deadline = some d → 0 < regNo ∧ (of n sent)[regNo - 1]? = some (n, d)

structure Inv (s : St N) : Prop where
  gens : ∀ n, s.gens n = countOf n s.received
  heap : ∀ e ∈ s.heap, 0 < e.gen ∧ (of e.name s.received)[e.gen - 1]? = some (e.name, e.at_)
  creating : ∀ c ∈ s.creating, RegOk s.sent c.name c.deadline c.regNo
  table : ∀ n sess, s.table n = some sess → RegOk s.sent n sess.deadline sess.regNo
  /-- every received registration whose deadline has not passed is in the heap -/
  waiting : ∀ n g d, 0 < g → (of n s.received)[g - 1]? = some (n, d) → s.now < d → ⟨n, g, d⟩ ∈ s.heap
  /-- as is the registration of any session that entered the table before its deadline -/
  timely : ∀ n sess d, s.table n = some sess → sess.deadline = some d → sess.insertedAt < d →
    sess.regNo = countOf n s.sent → sess.regNo ≤ countOf n s.received → ⟨n, sess.regNo, d⟩ ∈ s.heap

theorem RegOk.mono {sent : List (N × Nat)} {n : N} {dl : Option Nat} {r : Nat} (h : RegOk sent n dl r) (x : N × Nat) :
    RegOk (sent ++ [x]) n dl r := by
  intro d hd
  obtain ⟨h1, h2⟩ := h d hd
  refine ⟨h1, ?_⟩
  rw [of_append, List.getElem?_append_left]
  · exact h2
  · exact (List.getElem?_eq_some_iff.mp h2).1

theorem inv_init : Inv (init : St N) := by
  refine ⟨fun _ => rfl, by simp [init], by simp [init], by simp [init], ?_, by simp [init]⟩
  intro n g d _ h
  simp [init, of] at h

theorem isTop_mem {heap : List (Reapable N)} {e : Reapable N} (h : isTop heap e = true) :
    e ∈ heap ∧ ∀ x ∈ heap, e.at_ ≤ x.at_ := by
  simp only [isTop, Bool.and_eq_true, decide_eq_true_eq, List.all_eq_true] at h
  refine ⟨h.1, fun x hx => ?_⟩
  have := h.2 x hx
  unfold Reapable.cmp at this
  rcases Nat.lt_trichotomy e.at_ x.at_ with h1 | h1 | h1
  · omega
  · omega
  · exact absurd (Nat.compare_eq_gt.mpr h1) this

theorem countOf_append (n : N) (a b : List (N × Nat)) : countOf n (a ++ b) = countOf n a + countOf n b := by
  simp [countOf]

theorem inv_step (s : St N) (l : Label N) (s' : St N) (h : Inv s) (hs : step s l = some s') : Inv s' := by
  cases l with
  | tick =>
    cases hs
    exact ⟨h.gens, h.heap, h.creating, h.table, fun n g d h0 h1 h2 => h.waiting n g d h0 h1 (by
      have : s.now + 1 < d := h2
      omega), h.timely⟩
  | spawn n ttl =>
    cases ttl with
    | none =>
      cases hs
      refine ⟨h.gens, h.heap, ?_, h.table, h.waiting, h.timely⟩
      intro c hc
      rcases List.mem_append.mp hc with hc | hc
      · exact h.creating c hc
      · rw [List.mem_singleton.mp hc]; intro d hd; cases hd
    | some t =>
      simp only [step] at hs
      split at hs
      · cases hs
      · cases hs
        have hsent : ∀ {x : St N}, x.received = s.received → x.mail = s.mail ++ [(n, s.now + t)] →
            x.sent = s.sent ++ [(n, s.now + t)] := by
          intro x h1 h2; simp [St.sent, h1, h2]
        have hse := @hsent ⟨s.now, s.received, s.mail ++ [(n, s.now + t)], s.gens, s.heap, s.table,
          s.creating ++ [⟨n, s.nextSid, some (s.now + t), countOf n s.sent + 1⟩], s.nextSid + 1⟩ rfl rfl
        refine ⟨h.gens, h.heap, ?_, ?_, h.waiting, ?_⟩
        · intro c hc
          rw [hse]
          rcases List.mem_append.mp hc with hc | hc
          · exact (h.creating c hc).mono _
          · rw [List.mem_singleton.mp hc]
            intro d hd
            simp only [Option.some.injEq] at hd
            subst hd
            refine ⟨by simp, ?_⟩
            rw [of_append, of_self, countOf_eq]
            simp
        · intro m sess hm
          rw [hse]
          exact (h.table m sess hm).mono _
        · intro m sess d hm hd hin hcnt hle
          rw [hse] at hcnt
          have hm' : s.table m = some sess := hm
          by_cases hnm : n = m
          · subst hnm
            -- the new registration makes the old one not the latest
            obtain ⟨-, h2⟩ := h.table n sess hm' d hd
            have h3 := (List.getElem?_eq_some_iff.mp h2).1
            rw [← countOf_eq] at h3
            rw [countOf_append, countOf_eq n [(n, s.now + t)], of_self] at hcnt
            simp at hcnt
            obtain ⟨h1, -⟩ := h.table n sess hm' d hd
            omega
          · rw [countOf_append, countOf_eq m [(n, s.now + t)], of_other _ hnm] at hcnt
            exact h.timely m sess d hm' hd hin (by simpa using hcnt) hle
  | insert c =>
    simp only [step] at hs
    split at hs
    · next hc =>
      cases hs
      refine ⟨h.gens, h.heap, fun c' hc' => h.creating c' (List.mem_of_mem_erase hc'), ?_, h.waiting, ?_⟩
      · intro n sess hn
        simp only at hn
        split at hn
        · next he => subst he; cases hn; exact h.creating c hc
        · exact h.table n sess hn
      · intro n sess d hn hd hin hcnt hle
        simp only at hn
        split at hn
        · next he =>
          subst he; cases hn
          obtain ⟨h1, h2⟩ := h.creating c hc d hd
          apply h.waiting c.name c.regNo d h1 _ hin
          have hle' : c.regNo ≤ (of c.name s.received).length := hle
          rw [St.sent, of_append, List.getElem?_append_left (by omega)] at h2
          exact h2
        · exact h.timely n sess d hn hd hin hcnt hle
    · cases hs
  | remove n =>
    cases hs
    refine ⟨h.gens, h.heap, h.creating, ?_, h.waiting, ?_⟩
    · intro m sess hm
      simp only at hm
      split at hm
      · cases hm
      · exact h.table m sess hm
    · intro m sess d hm
      simp only at hm
      split at hm
      · cases hm
      · exact h.timely m sess d hm
  | recv =>
    simp only [step] at hs
    split at hs
    · cases hs
    · next n t rest hmail =>
      cases hs
      have hse : (⟨s.now, s.received ++ [(n, t)], rest, fun m => if m = n then s.gens n + 1 else s.gens m,
          s.heap ++ [⟨n, s.gens n + 1, t⟩], s.table, s.creating, s.nextSid⟩ : St N).sent = s.sent := by
        simp [St.sent, hmail]
      have hgrow : ∀ (m : N) (k : Nat) (x : N × Nat), (of m (s.received ++ [(n, t)]))[k]? = some x →
          (of m s.received)[k]? = some x ∨ (m = n ∧ k = s.gens n ∧ x = (n, t)) := by
        intro m k x hx
        rw [of_append] at hx
        by_cases hlt : k < (of m s.received).length
        · left; rwa [List.getElem?_append_left hlt] at hx
        · right
          rw [List.getElem?_append_right (by omega)] at hx
          by_cases hmn : n = m
          · subst hmn
            rw [of_self] at hx
            have hk : k - (of n s.received).length = 0 := by
              have := (List.getElem?_eq_some_iff.mp hx).1
              simp at this; omega
            rw [hk] at hx
            refine ⟨rfl, ?_, by simpa using hx.symm⟩
            rw [h.gens, countOf_eq]; omega
          · rw [of_other _ hmn] at hx; simp at hx
      refine ⟨?_, ?_, ?_, ?_, ?_, ?_⟩
      · intro m
        show (if m = n then s.gens n + 1 else s.gens m) = countOf m (s.received ++ [(n, t)])
        rw [countOf_append]
        by_cases hm : m = n
        · subst hm; rw [if_pos rfl, h.gens, countOf_eq m [(m, t)], of_self]; rfl
        · rw [if_neg hm, h.gens, countOf_eq m [(n, t)], of_other _ (Ne.symm hm)]; rfl
      · intro e he
        rcases List.mem_append.mp he with he | he
        · obtain ⟨h1, h2⟩ := h.heap e he
          refine ⟨h1, ?_⟩
          show (of e.name (s.received ++ [(n, t)]))[e.gen - 1]? = _
          rw [of_append, List.getElem?_append_left (List.getElem?_eq_some_iff.mp h2).1]
          exact h2
        · rw [List.mem_singleton.mp he]
          refine ⟨by simp, ?_⟩
          show (of n (s.received ++ [(n, t)]))[s.gens n + 1 - 1]? = some (n, t)
          rw [of_append, of_self, h.gens, countOf_eq]
          simp
      · intro c hc; rw [hse]; exact h.creating c hc
      · intro m sess hm; rw [hse]; exact h.table m sess hm
      · intro m g d hg hx hlt
        rcases hgrow m (g - 1) (m, d) hx with hx | ⟨rfl, hk, hx⟩
        · exact List.mem_append_left _ (h.waiting m g d hg hx hlt)
        · apply List.mem_append_right
          have hdt : d = t := by simpa using hx
          subst hdt
          rw [show s.gens m + 1 = g by omega]
          simp
      · intro m sess d hm hd hin hcnt hle
        rw [hse] at hcnt
        have hle' : sess.regNo ≤ countOf m (s.received ++ [(n, t)]) := hle
        by_cases hold : sess.regNo ≤ countOf m s.received
        · exact List.mem_append_left _ (h.timely m sess d hm hd hin hcnt hold)
        · apply List.mem_append_right
          obtain ⟨h1, h2⟩ := h.table m sess hm d hd
          rw [countOf_append] at hle'
          by_cases hmn : n = m
          · subst hmn
            rw [countOf_eq n [(n, t)], of_self] at hle'
            have hr : sess.regNo = s.gens n + 1 := by
              rw [h.gens]; simp at hle'; omega
            have hsent : s.sent = (s.received ++ [(n, t)]) ++ rest := by simp [St.sent, hmail]
            rw [hsent, of_append, List.getElem?_append_left] at h2
            · rcases hgrow n _ _ h2 with h2 | ⟨-, -, hx⟩
              · have := (List.getElem?_eq_some_iff.mp h2).1
                rw [← countOf_eq] at this
                omega
              · have : d = t := by simpa using hx
                subst this
                rw [hr]; simp
            · rw [of_append, of_self, List.length_append, ← countOf_eq, ← h.gens]; simp; omega
          · rw [countOf_eq m [(n, t)], of_other _ hmn] at hle'
            simp at hle'; omega
  | reap e =>
    simp only [step] at hs
    split at hs
    · next hcond =>
      obtain ⟨htop, hdue⟩ := hcond
      have hmem := (isTop_mem htop).1
      have hheap : ∀ x ∈ s.heap.erase e, 0 < x.gen ∧ (of x.name s.received)[x.gen - 1]? = some (x.name, x.at_) :=
        fun x hx => h.heap x (List.mem_of_mem_erase hx)
      have hwait : ∀ n g d, 0 < g → (of n s.received)[g - 1]? = some (n, d) → s.now < d →
          (⟨n, g, d⟩ : Reapable N) ∈ s.heap.erase e := by
        intro n g d h0 h1 h2
        have := h.waiting n g d h0 h1 h2
        rw [List.mem_erase_of_ne]
        · exact this
        · intro he; rw [← he] at hdue; simp at hdue; omega
      split at hs
      · next hgen =>
        cases hs
        refine ⟨h.gens, hheap, h.creating, h.table, hwait, ?_⟩
        intro n sess d hn hd hin hcnt hle
        have := h.timely n sess d hn hd hin hcnt hle
        show (⟨n, sess.regNo, d⟩ : Reapable N) ∈ s.heap.erase e
        rw [List.mem_erase_of_ne]
        · exact this
        · intro he
          apply hgen
          rw [← he, h.gens]
          dsimp only
          have : countOf n s.received ≤ countOf n s.sent := by
            rw [St.sent, countOf_append]; omega
          have hle' : sess.regNo ≤ countOf n s.received := hle
          have hcnt' : sess.regNo = countOf n s.sent := hcnt
          omega
      · next hgen =>
        split at hs
        · next htab =>
          cases hs
          refine ⟨h.gens, hheap, h.creating, h.table, hwait, ?_⟩
          intro n sess d hn hd hin hcnt hle
          have := h.timely n sess d hn hd hin hcnt hle
          show (⟨n, sess.regNo, d⟩ : Reapable N) ∈ s.heap.erase e
          rw [List.mem_erase_of_ne]
          · exact this
          · intro he
            have hn' : s.table n = some sess := hn
            rw [← he] at htab
            rw [htab] at hn'; cases hn'
        · next sess0 htab =>
          cases hs
          refine ⟨h.gens, hheap, h.creating, ?_, hwait, ?_⟩
          · intro m sess hm
            simp only at hm
            split at hm
            · cases hm
            · exact h.table m sess hm
          · intro n sess d hn hd hin hcnt hle
            simp only at hn
            split at hn
            · cases hn
            · next hne =>
              have := h.timely n sess d hn hd hin hcnt hle
              show (⟨n, sess.regNo, d⟩ : Reapable N) ∈ s.heap.erase e
              rw [List.mem_erase_of_ne]
              · exact this
              · intro he; apply hne; rw [← he]
    · cases hs

theorem inv_run {ls : List (Label N)} {s : St N} (h : Run ls s) : Inv s := Shpool.run_inv inv_step inv_init h

/-! ## C55 -/

/-- C55. In every history, when the reaper takes a session away, that name was registered with a deadline that has passed, and
everything it still has scheduled is due no earlier.  Sessions of other names are untouched. -/
theorem C55_not_before_deadline (ls : List (Label N)) (s s' : St N) (h : Run ls s) (e : Reapable N)
    (hs : step s (.reap e) = some s') (n : N) (hn : s'.table n ≠ s.table n) :
    n = e.name ∧ s'.table n = none ∧ (n, e.at_) ∈ s.sent ∧ e.at_ ≤ s.now ∧ ∀ x ∈ s'.heap, e.at_ ≤ x.at_ := by
  have hi := inv_run h
  simp only [step] at hs
  split at hs
  · next hcond =>
    obtain ⟨htop, hdue⟩ := hcond
    obtain ⟨hmem, hmin⟩ := isTop_mem htop
    split at hs
    · cases hs; exact absurd rfl hn
    · split at hs
      · cases hs; exact absurd rfl hn
      · cases hs
        have hne : n = e.name := by
          rcases Classical.em (n = e.name) with h | h
          · exact h
          · exact absurd (if_neg h) hn
        subst hne
        refine ⟨rfl, if_pos rfl, ?_, hdue, fun x hx => hmin x (List.mem_of_mem_erase hx)⟩
        have := List.mem_of_getElem? (hi.heap e hmem).2
        exact List.mem_append_left _ (List.mem_filter.mp this).1
  · cases hs

/-- The reaper's other steps never touch the table. -/
theorem C55_only_reaping_removes (s s' : St N) (hs : step s .recv = some s') : s'.table = s.table := by
  simp only [step] at hs
  split at hs
  · cases hs
  · cases hs; rfl

/-! ## C56 -/

/-- C56 (from the moment the reaper has taken the newer registration). When the reaper takes a session away, it does so for the
latest registration of that name it has received. -/
theorem C56_newest_registration_partial (ls : List (Label N)) (s s' : St N) (h : Run ls s) (e : Reapable N)
    (hs : step s (.reap e) = some s') (n : N) (hn : s'.table n ≠ s.table n) :
    ∃ older, of n s.received = older ++ [(n, e.at_)] := by
  have hi := inv_run h
  obtain ⟨rfl, -, -⟩ := C55_not_before_deadline ls s s' h e hs n hn
  simp only [step] at hs
  split at hs
  · next hcond =>
    obtain ⟨hmem, -⟩ := isTop_mem hcond.1
    split at hs
    · cases hs; exact absurd rfl hn
    · next hgen =>
      obtain ⟨h1, h2⟩ := hi.heap e hmem
      have hg : s.gens e.name = e.gen := by
        rcases Classical.em (s.gens e.name = e.gen) with h | h
        · exact h
        · exact absurd h hgen
      rw [hi.gens, countOf_eq] at hg
      rcases List.eq_nil_or_concat (of e.name s.received) with h0 | ⟨a, x, hx⟩
      · rw [h0] at h2; simp at h2
      · rw [List.concat_eq_append] at hx
        rw [hx] at h2 hg
        simp only [List.length_append, List.length_singleton] at hg
        rw [← hg, Nat.add_sub_cancel, List.getElem?_append_right (Nat.le_refl _)] at h2
        simp at h2
        exact ⟨a, by rw [hx, h2]⟩
  · cases hs

/-- The claim with "registered" in place of "received" is false: while the newer registration is still in the channel, the reaper
may serve its timer first and kill the *new* session for the *old* deadline. -/
theorem C56_false : ∃ (ls : List (Label Nat)) (s s' : St Nat) (e : Reapable Nat), Run ls s ∧ step s (.reap e) = some s' ∧
    s.table 0 = some ⟨1, some 101, 2, 1⟩ ∧ s.sent = [(0, 1), (0, 101)] ∧ e = ⟨0, 1, 1⟩ ∧ s.now = 1 ∧ s'.table 0 = none :=
  ⟨[.spawn 0 (some 1), .insert ⟨0, 0, some 1, 1⟩, .recv, .remove 0, .tick, .spawn 0 (some 100), .insert ⟨0, 1, some 101, 2⟩],
    _, _, ⟨0, 1, 1⟩, rfl, rfl, rfl, rfl, rfl, rfl, rfl⟩

/-! ## C57 -/

/-- The first half is false: a session without ttl that has the name of an earlier session with ttl is killed at the earlier
session's deadline. -/
theorem C57_false_ttlless_killed : ∃ (ls : List (Label Nat)) (s s' : St Nat), Run ls s ∧
    step s (.reap ⟨0, 1, 1⟩) = some s' ∧ s.table 0 = some ⟨1, none, 0, 0⟩ ∧ s'.table 0 = none :=
  ⟨[.spawn 0 (some 1), .insert ⟨0, 0, some 1, 1⟩, .recv, .remove 0, .spawn 0 none, .insert ⟨0, 1, none, 0⟩, .tick],
    _, _, rfl, rfl, rfl, rfl⟩

/-- The second half is false: if the deadline passes before the session is in the table, its only registration is used up on
nothing and the session stays forever. -/
theorem C57_false_never_reaped : ∃ (ls : List (Label Nat)) (s : St Nat), Run ls s ∧
    s.table 0 = some ⟨0, some 0, 1, 0⟩ ∧ s.mail = [] ∧ s.heap = [] :=
  ⟨[.spawn 0 (some 0), .recv, .reap ⟨0, 1, 0⟩, .insert ⟨0, 0, some 0, 1⟩], _, rfl, rfl, rfl, rfl⟩

/-- C57, first half (for names that were never used with a ttl): such a session is never taken away by the reaper. -/
theorem C57_ttlless_safe_partial (ls : List (Label N)) (s s' : St N) (h : Run ls s) (e : Reapable N)
    (hs : step s (.reap e) = some s') (n : N) (hn : ∀ d, (n, d) ∉ s.sent) : s'.table n = s.table n := by
  rcases Classical.em (s'.table n = s.table n) with h0 | h0
  · exact h0
  · obtain ⟨-, -, hm, -⟩ := C55_not_before_deadline ls s s' h e hs n h0
    exact absurd hm (hn _)

/-- The steps of the reaper thread. -/
def Label.ofReaper : Label N → Bool
  | .recv | .reap _ => true
  | _ => false

theorem recv_all (s : St N) : ∃ ls s', runSteps step s ls = some s' ∧ s'.mail = [] ∧ s'.now = s.now ∧
    s'.table = s.table ∧ s'.sent = s.sent ∧ ∀ l ∈ ls, l.ofReaper = true := by
  generalize hk : s.mail.length = k
  induction k generalizing s with
  | zero => exact ⟨[], s, rfl, List.length_eq_zero_iff.mp hk, rfl, rfl, rfl, by simp⟩
  | succ k ih =>
    cases hm : s.mail with
    | nil => rw [hm] at hk; simp at hk
    | cons x rest =>
      obtain ⟨n, t⟩ := x
      obtain ⟨ls, s', h1, h2, h3, h4, h5, h6⟩ := ih
        { s with
          mail := rest
          received := s.received ++ [(n, t)]
          gens := fun m => if m = n then s.gens n + 1 else s.gens m
          heap := s.heap ++ [⟨n, s.gens n + 1, t⟩] } (by rw [hm] at hk; simpa using hk)
      refine ⟨.recv :: ls, s', ?_, h2, h3, h4, ?_, ?_⟩
      · simp only [runSteps, step, hm]; exact h1
      · rw [h5]; simp [St.sent, hm]
      · intro l hl
        rcases List.mem_cons.mp hl with rfl | hl
        · rfl
        · exact h6 l hl

/-- A non-empty list has a least element. -/
theorem exists_top (heap : List (Reapable N)) (hne : heap ≠ []) : ∃ e, isTop heap e = true := by
  have : ∃ e ∈ heap, ∀ x ∈ heap, e.at_ ≤ x.at_ := by
    induction heap with
    | nil => exact absurd rfl hne
    | cons y ys ih =>
      by_cases hy : ys = []
      · subst hy; exact ⟨y, by simp, by simp⟩
      · obtain ⟨e, he, hmin⟩ := ih hy
        by_cases hle : y.at_ ≤ e.at_
        · refine ⟨y, by simp, ?_⟩
          intro x hx
          rcases List.mem_cons.mp hx with rfl | hx
          · exact Nat.le_refl _
          · exact Nat.le_trans hle (hmin x hx)
        · refine ⟨e, List.mem_cons_of_mem _ he, ?_⟩
          intro x hx
          rcases List.mem_cons.mp hx with rfl | hx
          · omega
          · exact hmin x hx
  obtain ⟨e, he, hmin⟩ := this
  refine ⟨e, ?_⟩
  simp only [isTop, Bool.and_eq_true, decide_eq_true_eq, List.all_eq_true]
  refine ⟨he, fun x hx => ?_⟩
  unfold Reapable.cmp
  intro hgt
  have := Nat.compare_eq_gt.mp hgt
  have := hmin x hx
  omega

theorem reap_all (s : St N) : ∃ ls s', runSteps step s ls = some s' ∧ s'.mail = s.mail ∧ s'.now = s.now ∧
    (∀ e ∈ s'.heap, s.now < e.at_) ∧ (∀ n, s'.table n = s.table n ∨ s'.table n = none) ∧ s'.sent = s.sent ∧
    ∀ l ∈ ls, l.ofReaper = true := by
  generalize hk : s.heap.length = k
  induction k generalizing s with
  | zero =>
    have hh := List.length_eq_zero_iff.mp hk
    exact ⟨[], s, rfl, rfl, rfl, by rw [hh]; simp, fun _ => .inl rfl, rfl, by simp⟩
  | succ k ih =>
    obtain ⟨e, he⟩ := exists_top s.heap (by intro h0; rw [h0] at hk; simp at hk)
    obtain ⟨hmem, hmin⟩ := isTop_mem he
    by_cases hdue : e.at_ ≤ s.now
    · have hlen : (s.heap.erase e).length = k := by rw [List.length_erase_of_mem hmem, hk]; rfl
      have hstep : ∃ s1, step s (.reap e) = some s1 ∧ s1.mail = s.mail ∧ s1.now = s.now ∧ s1.heap = s.heap.erase e ∧
          (∀ n, s1.table n = s.table n ∨ s1.table n = none) ∧ s1.sent = s.sent := by
        simp only [step, if_pos (And.intro he hdue)]
        split
        · exact ⟨_, rfl, rfl, rfl, rfl, fun _ => .inl rfl, rfl⟩
        · split
          · exact ⟨_, rfl, rfl, rfl, rfl, fun _ => .inl rfl, rfl⟩
          · refine ⟨_, rfl, rfl, rfl, rfl, ?_, rfl⟩
            intro n
            by_cases hn : n = e.name
            · exact .inr (if_pos hn)
            · exact .inl (if_neg hn)
      obtain ⟨s1, t1, t2, t3, t4, t5, t6⟩ := hstep
      obtain ⟨ls, s', r1, r2, r3, r4, r5, r6, r7⟩ := ih s1 (by rw [t4, hlen])
      refine ⟨.reap e :: ls, s', ?_, by rw [r2, t2], by rw [r3, t3], by rw [← t3]; exact r4, ?_, by rw [r6, t6], ?_⟩
      · simp only [runSteps, t1]; exact r1
      · intro n
        rcases r5 n with h | h
        · rw [h]; exact t5 n
        · exact .inr h
      · intro l hl
        rcases List.mem_cons.mp hl with rfl | hl
        · rfl
        · exact r7 l hl
    · refine ⟨[], s, rfl, rfl, rfl, ?_, fun _ => .inl rfl, rfl, by simp⟩
      intro x hx
      have := hmin x hx
      omega

/-- C57, second half (for a session that entered the table before its deadline and whose name was not registered again). Once its
deadline has passed, the reaper, left to itself, gets through its channel and its due entries, and then the session is gone. -/
theorem C57_reaped_partial (ls : List (Label N)) (s : St N) (h : Run ls s) (n : N) (sess : Sess) (d : Nat)
    (hn : s.table n = some sess) (hd : sess.deadline = some d) (hin : sess.insertedAt < d)
    (hlast : sess.regNo = countOf n s.sent) (hdue : d ≤ s.now) :
    ∃ ls' s', runSteps step s ls' = some s' ∧ (∀ l ∈ ls', l.ofReaper = true) ∧ s'.table n = none := by
  obtain ⟨l1, s1, a1, a2, a3, a4, a5, a6⟩ := recv_all s
  obtain ⟨l2, s2, b1, b2, b3, b4, b5, b6, b7⟩ := reap_all s1
  refine ⟨l1 ++ l2, s2, ?_, ?_, ?_⟩
  · rw [Shpool.run_append, a1]; exact b1
  · intro l hl
    rcases List.mem_append.mp hl with hl | hl
    · exact a6 l hl
    · exact b7 l hl
  · have hrun : Run (ls ++ (l1 ++ l2)) s2 := by
      show runSteps _ _ _ = _
      rw [Shpool.run_append, show runSteps step init ls = some s from h]
      show runSteps _ s _ = _
      rw [Shpool.run_append, a1]; exact b1
    have hi := inv_run hrun
    rcases b5 n with h0 | h0
    · exfalso
      rw [a4, hn] at h0
      have hrec : s2.sent = s2.received := by simp [St.sent, b2, a2]
      have hs2 : s2.sent = s.sent := by rw [b6, a5]
      have := hi.timely n sess d h0 hd hin (by rw [hs2]; exact hlast) (by rw [← hrec, hs2, hlast]; exact Nat.le_refl _)
      have := b4 _ this
      dsimp only at this
      rw [a3] at this
      omega
    · exact h0

/-- A session with ttl 2 on its way to being reaped: the hypotheses hold, and it is. -/
example : ∃ (s : St Nat), Run [.spawn 0 (some 2), .insert ⟨0, 0, some 2, 1⟩, .tick, .tick] s ∧
    s.table 0 = some ⟨0, some 2, 1, 0⟩ ∧ countOf 0 s.sent = 1 ∧ s.now = 2 := ⟨_, rfl, rfl, rfl, rfl⟩
example : ∃ (s s' : St Nat), Run [.spawn 0 (some 2), .insert ⟨0, 0, some 2, 1⟩, .tick, .recv, .tick] s ∧
    step s (.reap ⟨0, 1, 2⟩) = some s' ∧ s'.table 0 ≠ s.table 0 := ⟨_, _, rfl, rfl, by decide⟩

end Shpool.Reaper
