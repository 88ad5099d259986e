import Verif.Nest.Props
/-!
# C164: what is on its way comes out, in order

As long as the clients stay where they are.
-/

namespace Shpool.Nest

/-- What terminal `n` has shown. -/
def shownAt (s : St) (n : Nat) : List UInt8 := (s.shown.filter fun e => e.1 = n).map (·.2)

/-- `w` is what is on its way from here to terminal `n`, the next byte to be shown first. -/
inductive OnWay (s : St) (n : Nat) : Place → List UInt8 → Prop
  | outside : OnWay s n (.outside n) []
  | via (a : Nat) (p : Place) (w : List UInt8) : s.client a = some p → OnWay s n p w → OnWay s n (.inside a) (w ++ s.queue a)

theorem onWay_ends {s : St} {n : Nat} {p : Place} {w : List UInt8} (h : OnWay s n p w) : Ends s.client p := by
  induction h with
  | outside => exact .outside n
  | via a p w hp _ ih => exact .via a p hp ih

theorem quiet_client {s s' : St} {l : Label} (hs : step s l = some s') (hl : quiet l = true) : s'.client = s.client := by
  cases l <;> simp only [quiet, Bool.false_eq_true] at hl <;> simp only [step, stepOf] at hs <;> (repeat' split at hs) <;> cases hs <;> rfl

/-- What a relay does. -/
theorem relay_eff {s s' : St} {b : Nat} (hs : step s (.relay b) = some s') : ∃ x q, s.queue b = x :: q ∧ s'.client = s.client ∧
    (∀ a, s'.queue a = (if a = b then q else s.queue a) ++ (if s.client b = some (.inside a) then [x] else [])) ∧
    (∀ n, shownAt s' n = shownAt s n ++ (if s.client b = some (.outside n) then [x] else [])) := by
  simp only [step, stepOf] at hs
  split at hs
  · cases hs
  rename_i x q hq
  refine ⟨x, q, hq, ?_⟩
  split at hs <;> cases hs <;> rename_i hc
  · refine ⟨rfl, fun a => ?_, fun n => ?_⟩
    · rw [hc]; simp [upd_at]
    · rw [hc]; simp [shownAt]
  · rename_i m
    refine ⟨rfl, fun a => ?_, fun n => ?_⟩
    · rw [hc]; simp [upd_at]
    · rw [hc]; simp only [shownAt, List.filter_append, List.map_append]
      by_cases e : m = n <;> simp [e]
  · rename_i d
    refine ⟨rfl, fun a => ?_, fun n => ?_⟩
    · rw [hc]
      by_cases e : a = d
      · subst e; simp [upd_at]
      · have e' : ¬ d = a := fun h => e h.symm
        simp [upd_at, e, e']
    · rw [hc]; simp [shownAt]

theorem relay_order {s s' : St} {b n : Nat} {p : Place} {w : List UInt8} (hs : step s (.relay b) = some s') (h : OnWay s n p w) :
    ∃ w', OnWay s' n p w' ∧ (shownAt s n ++ w).Sublist (shownAt s' n ++ w') ∧
      (s.client b = some p → ∀ x ∈ (s.queue b).head?, (shownAt s n ++ w ++ [x]).Sublist (shownAt s' n ++ w')) := by
  obtain ⟨x, q, hq, hcl, hqu, hsh⟩ := relay_eff hs
  induction h with
  | outside =>
    refine ⟨[], .outside, ?_, fun hc y hy => ?_⟩
    · rw [hsh]; simp
    · rw [hq] at hy; simp at hy; subst hy
      rw [hsh, if_pos hc]; simp
  | via a p w hp hw ih =>
    obtain ⟨w', h1, h2, h3⟩ := ih
    refine ⟨w' ++ s'.queue a, .via a p w' (by rw [hcl]; exact hp) h1, ?_, fun hc y hy => ?_⟩
    · rw [← List.append_assoc, ← List.append_assoc, hqu]
      by_cases e : a = b
      · subst e
        have := h3 hp x (by rw [hq]; simp)
        rw [hq, if_pos rfl]
        have e2 : shownAt s n ++ w ++ x :: q = (shownAt s n ++ w ++ [x]) ++ q := by simp
        rw [e2, ← List.append_assoc]
        exact List.Sublist.trans (List.Sublist.append this (List.Sublist.refl q)) (List.sublist_append_left _ _)
      · rw [if_neg e]
        exact List.Sublist.append h2 (List.sublist_append_left _ _)
    · rw [hq] at hy; simp at hy; subst hy
      have hab : a ≠ b := by
        rintro rfl
        exact not_ends (onWay_ends (.via a p w hp hw)) a _ rfl hc .here
      rw [hqu, if_neg hab, if_pos hc, ← List.append_assoc, ← List.append_assoc, ← List.append_assoc]
      exact List.Sublist.append (List.Sublist.append h2 (List.Sublist.refl _)) (List.Sublist.refl _)

theorem print_order {s s' : St} {b n : Nat} {x : List UInt8} {p : Place} {w : List UInt8} (hs : step s (.print b x) = some s')
    (h : OnWay s n p w) : ∃ w', OnWay s' n p w' ∧ (shownAt s n ++ w).Sublist (shownAt s' n ++ w') := by
  simp only [step, stepOf] at hs
  split at hs <;> cases hs
  have : ∃ w', OnWay { s with queue := upd s.queue b (s.queue b ++ x) } n p w' ∧ w.Sublist w' := by
    induction h with
    | outside => exact ⟨[], .outside, .slnil⟩
    | via a p w hp hw ih =>
      obtain ⟨w', h1, h2⟩ := ih
      refine ⟨_, .via a p w' hp h1, List.Sublist.append h2 ?_⟩
      simp only [upd_at]; split
      · rename_i e; subst e; exact List.sublist_append_left _ _
      · exact List.Sublist.refl _
  obtain ⟨w', h1, h2⟩ := this
  exact ⟨w', h1, List.Sublist.append (List.Sublist.refl _) h2⟩

/-- **C164** (in order).  As long as nobody attaches or leaves, whatever is on its way from a session to a terminal outside stays on it, in
order, until it has been shown there: nothing of it is lost, overtaken or turned around. -/
theorem C164_in_order {n a : Nat} {w : List UInt8} {s s' : St} {ls : List Label} (h : runSteps step s ls = some s')
    (hl : ∀ l ∈ ls, quiet l = true) (hw : OnWay s n (.inside a) w) :
    ∃ w', OnWay s' n (.inside a) w' ∧ (shownAt s n ++ w).Sublist (shownAt s' n ++ w') := by
  induction ls generalizing s w with
  | nil => cases h; exact ⟨w, hw, List.Sublist.refl _⟩
  | cons l ls ih =>
    obtain ⟨s1, h1, h2⟩ := run_cons_some h
    have hq := hl l (by simp)
    have : ∃ w1, OnWay s1 n (.inside a) w1 ∧ (shownAt s n ++ w).Sublist (shownAt s1 n ++ w1) := by
      cases l with
      | attach => cases hq
      | leave => cases hq
      | ended => cases hq
      | print b x => exact print_order h1 hw
      | relay b => obtain ⟨w1, e1, e2, _⟩ := relay_order h1 hw; exact ⟨w1, e1, e2⟩
    obtain ⟨w1, hw1, hs1⟩ := this
    obtain ⟨w', hw', hs'⟩ := ih h2 (fun l hm => hl l (by simp [hm])) hw1
    exact ⟨w', hw', List.Sublist.trans hs1 hs'⟩

/-! ## It can all come out -/

/-- All of a session's queue goes to its client. -/
theorem relay_all {n a : Nat} {p : Place} (q : List UInt8) : ∀ {s : St} {w : List UInt8}, s.queue a = q → s.client a = some p → OnWay s n p w →
    ¬ Leads s.client a p →
    ∃ ls s' w', (∀ l ∈ ls, l = .relay a) ∧ runSteps step s ls = some s' ∧ s'.client = s.client ∧ OnWay s' n p w' ∧
      shownAt s' n ++ w' = shownAt s n ++ w ++ q := by
  induction q with
  | nil => intro s w _ _ hw _; exact ⟨[], s, w, by simp, rfl, rfl, hw, by simp⟩
  | cons x q ih =>
    intro s w hq hc hw hl
    have hen : ∃ s1, step s (.relay a) = some s1 := by
      simp only [step, stepOf, hq, hc]
      cases p <;> exact ⟨_, rfl⟩
    obtain ⟨s1, h1⟩ := hen
    obtain ⟨y, q', hq', hcl, hqu, hsh⟩ := relay_eff h1
    rw [hq] at hq'; cases hq'
    have hq1 : s1.queue a = q := by
      rw [hqu, if_pos rfl, if_neg]
      · simp
      · intro h
        rw [hc] at h; cases h
        exact hl .here
    -- further out than the client, the queues are as they were
    have same : ∀ {r : Place} {v : List UInt8}, OnWay s n r v → ¬ Leads s.client a r → (∀ e, Leads s.client e r → p ≠ .inside e) → OnWay s1 n r v := by
      intro r v hv
      induction hv with
      | outside => intro _ _; exact .outside
      | via e r v hr hv ihv =>
        intro h1 h2
        have : s.queue e = s1.queue e := by
          rw [hqu, if_neg (by rintro rfl; exact h1 .here), if_neg (by rw [hc]; intro h; exact h2 e .here (by cases h; rfl))]; simp
        rw [this]
        exact .via e r v (by rw [hcl]; exact hr) (ihv (fun h => h1 (.via e r hr h)) fun d hd => h2 d (.via e r hr hd))
    have : ∃ w1, OnWay s1 n p w1 ∧ shownAt s1 n ++ w1 = shownAt s n ++ w ++ [x] := by
      cases hw with
      | outside => exact ⟨[], .outside, by rw [hsh, if_pos hc]; simp⟩
      | via e r v hr hv =>
        have hea : e ≠ a := by rintro rfl; exact hl .here
        have hv1 : OnWay s1 n r v := by
          refine same hv (fun h => hl (.via e r hr h)) fun d hd he => ?_
          cases he
          exact not_ends (onWay_ends (.via e r v hr hv)) e r rfl hr hd
        refine ⟨v ++ s1.queue e, .via e r v (by rw [hcl]; exact hr) hv1, ?_⟩
        rw [hqu, if_neg hea, if_pos hc, hsh, if_neg (by rw [hc]; intro h; cases h)]
        simp
    obtain ⟨w1, hw1, he1⟩ := this
    obtain ⟨ls, s', w', k1, k2, k3, k4, k5⟩ := ih hq1 (by rw [hcl]; exact hc) hw1 (by rw [hcl]; exact hl)
    refine ⟨.relay a :: ls, s', w', ?_, by simp only [runSteps, h1]; exact k2, by rw [k3, hcl], k4, by rw [k5, he1]; simp⟩
    intro l hm
    rcases List.mem_cons.1 hm with rfl | hm
    · rfl
    · exact k1 l hm

/-- **C164** (comes out).  What is on its way from a session to a terminal outside can be shown there by relaying alone, all of it, in
order, and nothing else. -/
theorem C164_comes_out {n a : Nat} {w : List UInt8} {s : St} (hw : OnWay s n (.inside a) w) :
    ∃ ls s', (∀ l ∈ ls, ∃ b, l = .relay b) ∧ runSteps step s ls = some s' ∧ shownAt s' n = shownAt s n ++ w := by
  have key : ∀ {c : Nat → Option Place} {p : Place}, Ends c p → ∀ {s : St} {w : List UInt8}, s.client = c → OnWay s n p w →
      ∃ ls s', (∀ l ∈ ls, ∃ b, l = .relay b) ∧ runSteps step s ls = some s' ∧ shownAt s' n = shownAt s n ++ w := by
    intro c p he
    induction he with
    | outside m => intro s w _ hw; cases hw; exact ⟨[], s, by simp, rfl, by simp⟩
    | free a ha => intro s w hc hw; cases hw with | via _ p w hp _ => rw [hc, ha] at hp; cases hp
    | via a p hp he ih =>
      intro s w hc hw
      cases hw with
      | via _ p' w hp' hw =>
        rw [hc, hp] at hp'; cases hp'
        have hl : ¬ Leads s.client a p := by rw [hc]; exact not_ends (.via a p hp he) a p rfl hp
        obtain ⟨ls, s1, w1, k1, k2, k3, k4, k5⟩ := relay_all (n := n) (s.queue a) rfl (by rw [hc]; exact hp) hw hl
        obtain ⟨ls2, s2, m1, m2, m3⟩ := ih (by rw [k3]; exact hc) k4
        refine ⟨ls ++ ls2, s2, ?_, by rw [run_append, k2]; exact m2, by rw [m3, k5]; simp⟩
        intro l hm
        rcases List.mem_append.1 hm with hm | hm
        · exact ⟨a, k1 l hm⟩
        · exact m1 l hm
  exact key (onWay_ends hw) rfl hw

/-- Session 2 is attached to inside session 1, which terminal 0 shows; both have printed. -/
example : ∃ s, Run [.attach (.outside 0) 1 false, .attach (.inside 1) 2 false, .print 2 [65, 66], .relay 2, .print 1 [67]] s ∧
    OnWay s 0 (.inside 2) [65, 67, 66] :=
  ⟨_, rfl, .via 2 (.inside 1) [65, 67] rfl (.via 1 (.outside 0) [] rfl .outside)⟩

end Shpool.Nest
