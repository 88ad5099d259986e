import Verif.Listing.Model
import Verif.Server.Inv
/-!
# C153: what the list of sessions tells is of one moment
-/

namespace Shpool.Listing
open Server (Name Row)

/-- A list request begins after the steps `ls0`, the steps `ls` happen until it is done (its own and those of others), and its answer
is `r`. -/
def Request (ls0 ls : List Label) (r : List Row) : Prop :=
  .finish ∉ ls ∧ ∃ s s', Run (ls0 ++ .begin :: ls) s ∧ step s .finish = some s' ∧ s'.answers = s.answers ++ [r]

/-- The daemon is in the state `v` at some moment of the request. -/
def Moment (ls0 ls : List Label) (v : Server.St) : Prop :=
  ∃ pre suf s, ls = pre ++ suf ∧ Run (ls0 ++ .begin :: pre) s ∧ s.srv = v

/-- The full claim: the answer is what was the case at one moment of the request. -/
def C153_statement : Prop :=
  ∀ ls0 ls r, Request ls0 ls r → ∃ v, Moment ls0 ls v ∧ r = Server.list v

/-! ## The daemon alone -/

theorem step_srv {s s' : St} {l : Server.Label} (h : step s (.srv l) = some s') :
    (needsTable l = true → s.todo = none) ∧ Server.step s.srv l = some s'.srv ∧ s'.todo = s.todo ∧ s'.rows = s.rows ∧
      s'.answers = s.answers := by
  simp only [step] at h
  split at h
  · cases h
  · rename_i hc
    split at h
    · rename_i v hv
      cases h
      refine ⟨fun hn => ?_, hv, rfl, rfl, rfl⟩
      cases ht : s.todo with
      | none => rfl
      | some td => exact absurd ⟨hn, by rw [ht]; rfl⟩ hc
    · cases h

theorem step_begin {s s' : St} (h : step s .begin = some s') :
    s.srv.lock = none ∧ s' = { s with todo := some s.srv.table, rows := [] } := by
  simp only [step] at h
  split at h
  · rename_i hc; cases h; exact ⟨hc.1, rfl⟩
  · cases h

theorem step_look {s s' : St} (h : step s .look = some s') :
    ∃ p ps, s.todo = some (p :: ps) ∧ s' = { s with todo := some ps, rows := s.rows ++ [row s.srv p] } := by
  simp only [step] at h
  split at h
  · rename_i p ps e; cases h; exact ⟨p, ps, e, rfl⟩
  · cases h

theorem step_finish {s s' : St} (h : step s .finish = some s') :
    s.todo = some [] ∧ s' = { s with todo := none, answers := s.answers ++ [s.rows] } := by
  simp only [step] at h
  split at h
  · rename_i e; cases h; exact ⟨e, rfl⟩
  · cases h

theorem inv_run {ls : List Label} {s : St} (h : Run ls s) : Server.Inv s.srv := by
  refine run_inv (I := fun s : St => Server.Inv s.srv) ?_ Server.inv_init h
  intro s l s' hi hs
  cases l with
  | begin => rw [(step_begin hs).2]; exact hi
  | look => obtain ⟨p, ps, -, e⟩ := step_look hs; rw [e]; exact hi
  | finish => rw [(step_finish hs).2]; exact hi
  | srv l => exact Server.inv_step hi (Server.step_eff (step_srv hs).2.1)

/-- What can happen to the sessions in the table while a list request has it locked. -/
structure Kept (v v' : Server.St) : Prop where
  table : v'.table = v.table
  lock : v'.lock = none
  next : v.next ≤ v'.next
  conn : ∀ x, x < v.next → (v'.sess x).lastConn = (v.sess x).lastConn
  disc : ∀ x, x < v.next → (v'.sess x).lastDisc = (v.sess x).lastDisc
  attachment : ∀ x, x < v.next → (v'.sess x).attachment = (v.sess x).attachment
  owner : ∀ x, x < v.next → (v'.sess x).owner = (v.sess x).owner ∨ (v'.sess x).owner = none

theorem Kept.refl {v : Server.St} (h : v.lock = none) : Kept v v :=
  ⟨rfl, h, Nat.le_refl _, fun _ _ => rfl, fun _ _ => rfl, fun _ _ => rfl, fun _ _ => .inl rfl⟩

theorem Kept.trans {a b c : Server.St} (h : Kept a b) (k : Kept b c) : Kept a c where
  table := k.table.trans h.table
  lock := k.lock
  next := Nat.le_trans h.next k.next
  conn := fun x hx => (k.conn x (Nat.lt_of_lt_of_le hx h.next)).trans (h.conn x hx)
  disc := fun x hx => (k.disc x (Nat.lt_of_lt_of_le hx h.next)).trans (h.disc x hx)
  attachment := fun x hx => (k.attachment x (Nat.lt_of_lt_of_le hx h.next)).trans (h.attachment x hx)
  owner := fun x hx => by
    rcases k.owner x (Nat.lt_of_lt_of_le hx h.next) with e | e
    · rw [e]; exact h.owner x hx
    · exact .inr e

theorem kept_step {v v' : Server.St} {l : Server.Label} (hi : Server.Inv v) (hl : v.lock = none) (hn : needsTable l = false)
    (h : Server.step v l = some v') : Kept v v' := by
  have he := Server.step_eff h
  have hblk := hi.blk
  cases he
  case acquire t n y ht ho =>
    rw [(hblk t n y ht).1] at hl; cases hl
  all_goals first | (simp only [needsTable] at hn; cases hn; done) | skip
  all_goals
    constructor
    · rfl
    · exact hl
    all_goals
      simp only [Server.setThr, Server.setSess, Server.upd_apply]
      grind

/-- Only an attach request that lets go of its session makes one free. -/
theorem kept_owner {v v' : Server.St} {l : Server.Label} (hi : Server.Inv v) (hl : v.lock = none) (hn : needsTable l = false)
    (h : Server.step v l = some v') {x : Nat} (hx : x < v.next) (ho : (v'.sess x).owner ≠ (v.sess x).owner) :
    ∃ t, l = .release t ∧ v.thr t = .leaving x ∧ v'.sess = Server.upd v.sess x { v.sess x with owner := none } := by
  have he := Server.step_eff h
  have hblk := hi.blk
  cases he
  case acquire t n y ht ho =>
    rw [(hblk t n y ht).1] at hl; cases hl
  case release t y ht =>
    refine ⟨t, rfl, ?_⟩
    simp only [Server.setThr, Server.setSess, Server.upd_apply] at ho ⊢
    by_cases e : x = y
    · subst e; exact ⟨ht, rfl⟩
    · simp [e] at ho
  all_goals first | (simp only [needsTable] at hn; cases hn; done) | skip
  all_goals
    exfalso
    simp only [Server.setThr, Server.setSess, Server.upd_apply] at ho
    grind

/-! ## The course of a request -/

theorem run_snoc {s s' : St} {ls : List Label} {l : Label} (h : runSteps step s (ls ++ [l]) = some s') :
    ∃ s1, runSteps step s ls = some s1 ∧ step s1 l = some s' := by
  obtain ⟨s1, h1, h2⟩ := run_append_some h
  obtain ⟨s2, h3, h4⟩ := run_cons_some h2
  cases h4
  exact ⟨s1, h1, h3⟩

theorem snoc_induction {α : Type} {P : List α → Prop} (ls : List α) (nil : P []) (snoc : ∀ ls l, P ls → P (ls ++ [l])) : P ls := by
  have : ∀ (a b : List α), P a → P (a ++ b) := by
    intro a b
    induction b generalizing a with
    | nil => intro h; simpa using h
    | cons x b ih => intro h; simpa using ih (a ++ [x]) (snoc a x h)
  exact this [] ls nil

/-- While the request is at work: `s0` is the state it begins in, `s` the one after the steps `pre`. -/
structure Course (s0 : St) (pre : List Label) (s : St) : Prop where
  kept : Kept s0.srv s.srv
  looked : ∃ dn td : List (Name × Nat), s.todo = some td ∧ s0.srv.table = dn ++ td ∧ s.rows.length = dn.length ∧
    ∀ (i : Nat) (p : Name × Nat), dn[i]? = some p → ∃ pre' suf' σ, pre = pre' ++ suf' ∧ runSteps step s0 (.begin :: pre') = some σ ∧
      s.rows[i]? = some (row σ.srv p)
  grown : s.answers = s0.answers

theorem course {ls0 pre : List Label} {s0 s : St} (h0 : Run ls0 s0) (hf : Label.finish ∉ pre)
    (h : runSteps step s0 (.begin :: pre) = some s) : Course s0 pre s := by
  induction pre using snoc_induction generalizing s with
  | nil =>
    obtain ⟨s1, h1, h2⟩ := run_cons_some h
    cases h2
    obtain ⟨hl, e⟩ := step_begin h1
    subst e
    exact ⟨Kept.refl hl, ⟨[], s0.srv.table, rfl, rfl, rfl, by simp⟩, rfl⟩
  | snoc pre l ih =>
    obtain ⟨s1, h1, h2⟩ := run_snoc (ls := .begin :: pre) h
    have hc := ih (fun hm => hf (by simp [hm])) h1
    obtain ⟨dn, td, ht, htb, hlen, hrow⟩ := hc.looked
    have more : ∀ {i : Nat} {p : Name × Nat} {r : Option Row}, (∃ pre' suf' σ, pre = pre' ++ suf' ∧
        runSteps step s0 (.begin :: pre') = some σ ∧ r = some (row σ.srv p)) →
        ∃ pre' suf' σ, pre ++ [l] = pre' ++ suf' ∧ runSteps step s0 (.begin :: pre') = some σ ∧ r = some (row σ.srv p) := by
      rintro i p r ⟨a, b, σ, e, hr, hw⟩
      exact ⟨a, b ++ [l], σ, by rw [e, List.append_assoc], hr, hw⟩
    cases l with
    | begin =>
      obtain ⟨-, e⟩ := step_begin h2
      simp only [step, ht] at h2
      simp at h2
    | finish => exact absurd (List.mem_append_right _ (List.mem_singleton.mpr rfl)) hf
    | look =>
      obtain ⟨p, ps, ht', e⟩ := step_look h2
      rw [ht] at ht'
      cases ht'
      subst e
      refine ⟨hc.kept, ⟨dn ++ [p], ps, rfl, by rw [htb]; simp, by simp [hlen], fun i q hi => ?_⟩, hc.grown⟩
      by_cases hlt : i < dn.length
      · rw [List.getElem?_append_left hlt] at hi
        show ∃ pre' suf' σ, _ ∧ _ ∧ (s1.rows ++ _)[i]? = _
        rw [List.getElem?_append_left (hlen ▸ hlt)]
        exact more (i := i) (hrow i q hi)
      · have hi' : i = dn.length := by
          have := (List.getElem?_eq_some_iff.mp hi).1
          simp at this; omega
        subst hi'
        rw [List.getElem?_concat_length] at hi
        cases hi
        refine ⟨pre, [.look], s1, rfl, h1, ?_⟩
        show (s1.rows ++ _)[_]? = _
        rw [← hlen, List.getElem?_concat_length]
    | srv m =>
      obtain ⟨hn, hs, e1, e2, e3⟩ := step_srv h2
      have hn' : needsTable m = false := by
        cases hm : needsTable m with
        | false => rfl
        | true => rw [hn hm] at ht; cases ht
      have hi : Server.Inv s1.srv := inv_run (ls := ls0 ++ .begin :: pre) (by rw [Run, run_append, h0]; exact h1)
      refine ⟨hc.kept.trans (kept_step hi hc.kept.lock hn' hs), ⟨dn, td, by rw [e1, ht], htb, by rw [e2, hlen], fun i p hp => ?_⟩,
        by rw [e3, hc.grown]⟩
      rw [e2]
      exact more (i := i) (hrow i p hp)

/-- The states the daemon goes through during the request, in order. -/
def at' (s0 : St) (ls : List Label) (k : Nat) : St := (runSteps step s0 (.begin :: ls.take k)).getD s0

theorem request_run {ls0 ls : List Label} {r : List Row} (h : Request ls0 ls r) : Label.finish ∉ ls ∧ ∃ s0 s, Run ls0 s0 ∧
    runSteps step s0 (.begin :: ls) = some s ∧ s.todo = some [] ∧ s.rows = r := by
  obtain ⟨hf, s, s', hr, hs, ha⟩ := h
  obtain ⟨s0, h0, h1⟩ := run_append_some hr
  obtain ⟨e1, e2⟩ := step_finish hs
  subst e2
  exact ⟨hf, s0, s, h0, h1, e1, by simpa using ha⟩

theorem at_run {s0 s : St} {ls : List Label} (h : runSteps step s0 (.begin :: ls) = some s) (k : Nat) :
    runSteps step s0 (.begin :: ls.take k) = some (at' s0 ls k) := by
  have : (Label.begin :: ls) = (.begin :: ls.take k) ++ ls.drop k := by simp
  rw [this] at h
  obtain ⟨s1, h1, -⟩ := run_append_some h
  rw [at', h1]; rfl

theorem at_course {ls0 ls : List Label} {s0 s : St} (h0 : Run ls0 s0) (hf : Label.finish ∉ ls)
    (h : runSteps step s0 (.begin :: ls) = some s) (k : Nat) : Course s0 (ls.take k) (at' s0 ls k) :=
  course h0 (fun hm => hf (List.mem_of_mem_take hm)) (at_run h k)

theorem at_moment {ls0 ls : List Label} {s0 s : St} (h0 : Run ls0 s0) (h : runSteps step s0 (.begin :: ls) = some s) (k : Nat) :
    Moment ls0 ls (at' s0 ls k).srv :=
  ⟨ls.take k, ls.drop k, _, (List.take_append_drop k ls).symm, by rw [Run, run_append, h0]; exact at_run h k, rfl⟩

theorem moment_at {ls0 ls : List Label} {s0 : St} {v : Server.St} (h0 : Run ls0 s0) (h : Moment ls0 ls v) :
    ∃ k, k ≤ ls.length ∧ (at' s0 ls k).srv = v := by
  obtain ⟨pre, suf, s, e, hr, hv⟩ := h
  refine ⟨pre.length, by rw [e]; simp, ?_⟩
  rw [Run, run_append, h0] at hr
  rw [at', e, List.take_left' rfl]
  show ((runSteps step s0 (.begin :: pre)).getD s0).srv = v
  rw [show runSteps step s0 (.begin :: pre) = some s from hr]
  exact hv

/-- From one moment to a later one. -/
theorem later {ls0 ls : List Label} {s0 s : St} (h0 : Run ls0 s0) (hf : Label.finish ∉ ls)
    (h : runSteps step s0 (.begin :: ls) = some s) {j k : Nat} (hjk : j ≤ k) : Kept (at' s0 ls j).srv (at' s0 ls k).srv := by
  induction k with
  | zero =>
    have : j = 0 := by omega
    subst this
    exact Kept.refl (at_course h0 hf h 0).kept.lock
  | succ k ih =>
    by_cases e : j = k + 1
    · subst e; exact Kept.refl (at_course h0 hf h _).kept.lock
    · refine (ih (by omega)).trans ?_
      by_cases hk : k < ls.length
      · have h2 := at_run h (k + 1)
        rw [List.take_succ_eq_append_getElem hk] at h2
        obtain ⟨s1, h3, h4⟩ := run_snoc (ls := .begin :: ls.take k) h2
        rw [at_run h k] at h3
        cases h3
        have hc := at_course h0 hf h k
        cases hl : ls[k] with
        | begin =>
          rw [hl] at h4
          rw [(step_begin h4).2]
          exact Kept.refl hc.kept.lock
        | look =>
          rw [hl] at h4
          obtain ⟨p, ps, -, e⟩ := step_look h4
          rw [e]
          exact Kept.refl hc.kept.lock
        | finish => exact absurd (hl ▸ List.getElem_mem hk) hf
        | srv m =>
          rw [hl] at h4
          obtain ⟨hn, hs, -⟩ := step_srv h4
          have hn' : needsTable m = false := by
            cases hm : needsTable m with
            | false => rfl
            | true =>
              obtain ⟨dn, td, ht, -⟩ := hc.looked
              rw [hn hm] at ht; cases ht
          have hi : Server.Inv (at' s0 ls k).srv := inv_run (ls := ls0 ++ .begin :: ls.take k) (by
            rw [Run, run_append, h0]; exact at_run h k)
          exact kept_step hi hc.kept.lock hn' hs
      · have : ls.take (k + 1) = ls.take k := by rw [List.take_of_length_le (by omega), List.take_of_length_le (by omega)]
        rw [at', at', this]
        exact Kept.refl (at_course h0 hf h k).kept.lock

/-! ## Pairs of lines -/

theorem exists_first {P : Nat → Prop} (h : ∃ k, P k) : ∃ k, P k ∧ ∀ j, P j → k ≤ j := by
  obtain ⟨k, hk⟩ := h
  induction k using Nat.strongRecOn with
  | _ k ih =>
    by_cases he : ∃ j, j < k ∧ P j
    · obtain ⟨j, hj, hp⟩ := he
      exact ih j hj hp
    · refine ⟨k, hk, fun j hj => ?_⟩
      by_cases hlt : j < k
      · exact absurd ⟨j, hlt, hj⟩ he
      · omega

/-- Things that can only stop: if any two of them were as told at some moment, all of them were at one moment. -/
theorem pairs (att : Nat → Nat → Bool) (rep : Nat → Bool) (N n : Nat)
    (hanti : ∀ i j k, j ≤ k → att k i = true → att j i = true)
    (hpair : ∀ i j, i < n → j < n → ∃ k, k ≤ N ∧ att k i = rep i ∧ att k j = rep j) :
    ∃ k, k ≤ N ∧ ∀ i, i < n → att k i = rep i := by
  suffices ∀ m, m ≤ n → ∃ k, k ≤ N ∧ (∀ i, i < m → att k i = rep i) ∧
      (k = 0 ∨ ∃ j, j < m ∧ rep j = false ∧ ∀ k', k' ≤ N → att k' j = false → k ≤ k') by
    obtain ⟨k, hk, h, -⟩ := this n (Nat.le_refl n)
    exact ⟨k, hk, h⟩
  intro m
  induction m with
  | zero => intro _; exact ⟨0, Nat.zero_le _, fun i hi => absurd hi (by omega), .inl rfl⟩
  | succ m ih =>
    intro hm
    obtain ⟨k, hk, hall, hmin⟩ := ih (by omega)
    have keep : att k m = rep m → ∃ k, k ≤ N ∧ (∀ i, i < m + 1 → att k i = rep i) ∧
        (k = 0 ∨ ∃ j, j < m + 1 ∧ rep j = false ∧ ∀ k', k' ≤ N → att k' j = false → k ≤ k') := by
      intro e
      refine ⟨k, hk, fun i hi => ?_, ?_⟩
      · by_cases he : i = m
        · subst he; exact e
        · exact hall i (by omega)
      · rcases hmin with h | ⟨j, hj, h⟩
        · exact .inl h
        · exact .inr ⟨j, by omega, h⟩
    cases hr : rep m with
    | true =>
      apply keep
      rw [hr]
      rcases hmin with h | ⟨j, hj, hrj, hmin⟩
      · obtain ⟨k', hk', e, -⟩ := hpair m m (by omega) (by omega)
        exact hanti m k k' (by omega) (by rw [e, hr])
      · obtain ⟨k', hk', e1, e2⟩ := hpair m j (by omega) (by omega)
        exact hanti m k k' (hmin k' hk' (by rw [e2, hrj])) (by rw [e1, hr])
    | false =>
      cases hc : att k m with
      | false => exact keep (by rw [hc, hr])
      | true =>
        obtain ⟨k1, hk1, e1, -⟩ := hpair m m (by omega) (by omega)
        obtain ⟨b, ⟨hb, hbm⟩, hfirst⟩ := exists_first (P := fun k => k ≤ N ∧ att k m = false) ⟨k1, hk1, by rw [e1, hr]⟩
        have hkb : k ≤ b := by
          by_cases h : k ≤ b
          · exact h
          · rw [hanti m b k (by omega) hc] at hbm; cases hbm
        refine ⟨b, hb, fun i hi => ?_, .inr ⟨m, by omega, hr, fun k' h1 h2 => hfirst k' ⟨h1, h2⟩⟩⟩
        by_cases he : i = m
        · subst he; rw [hbm, hr]
        · cases hri : rep i with
          | false =>
            cases hbi : att b i with
            | false => rfl
            | true =>
              have := hanti i k b hkb hbi
              rw [hall i (by omega), hri] at this
              cases this
          | true =>
            obtain ⟨k', hk', e1, e2⟩ := hpair i m (by omega) (by omega)
            exact hanti i b k' (hfirst k' ⟨hk', by rw [e2, hr]⟩) (by rw [e1, hri])

theorem kept_row {v v' : Server.St} (h : Kept v v') {p : Name × Nat} (hp : p.2 < v.next) :
    row v' p = { row v p with attached := (v'.sess p.2).owner.isSome } := by
  simp only [row, h.conn _ hp, h.disc _ hp, h.attachment _ hp]

theorem kept_list {v v' : Server.St} (h : Kept v v') : ∀ i : Nat, (Server.list v')[i]? = (v.table[i]?).map (row v') := by
  intro i
  show (v'.table.map (row v'))[i]? = _
  rw [h.table, List.getElem?_map]

/-- What is known about a request, by moments. -/
structure Facts (ls0 ls : List Label) (r : List Row) (s0 s : St) : Prop where
  begun : Run ls0 s0
  ran : runSteps step s0 (.begin :: ls) = some s
  fin : Label.finish ∉ ls
  len : r.length = s0.srv.table.length
  lt : ∀ (i : Nat) p, s0.srv.table[i]? = some p → p.2 < s0.srv.next
  row : ∀ (i : Nat) p, s0.srv.table[i]? = some p → ∃ k, k ≤ ls.length ∧ r[i]? = some (row (at' s0 ls k).srv p)

theorem facts {ls0 ls : List Label} {r : List Row} (h : Request ls0 ls r) : ∃ s0 s, Facts ls0 ls r s0 s := by
  obtain ⟨hf, s0, s, h0, h1, ht, hr⟩ := request_run h
  have hc := course h0 hf h1
  obtain ⟨dn, td, ht', htb, hlen, hrow⟩ := hc.looked
  rw [ht] at ht'
  cases ht'
  rw [List.append_nil] at htb
  refine ⟨s0, s, h0, h1, hf, by rw [← hr, hlen, htb], fun i p hp => ?_, fun i p hp => ?_⟩
  · have hi := inv_run h0
    exact (hi.tbl p.1 p.2 (Server.mem_find hi.nodup (List.mem_of_getElem? hp))).1
  · obtain ⟨pre, suf, σ, e, hσ, hw⟩ := hrow i p (htb ▸ hp)
    refine ⟨pre.length, by rw [e]; simp, ?_⟩
    rw [at', e, List.take_left' rfl, hσ]
    rw [← hr]
    exact hw

/-- The session of line `i` is attached at moment `k`. -/
def att (s0 : St) (ls : List Label) (k i : Nat) : Bool :=
  match s0.srv.table[i]? with
  | some p => ((at' s0 ls k).srv.sess p.2).owner.isSome
  | none => false

theorem att_anti {ls0 ls : List Label} {r : List Row} {s0 s : St} (h : Facts ls0 ls r s0 s) {i j k : Nat} (hjk : j ≤ k)
    (ha : att s0 ls k i = true) : att s0 ls j i = true := by
  unfold att at ha ⊢
  split at ha
  · rename_i p hp
    try simp only [hp]
    have hl := later h.begun h.fin h.ran hjk
    have hlt := Nat.lt_of_lt_of_le (h.lt i p hp) (at_course h.begun h.fin h.ran j).kept.next
    rcases hl.owner p.2 hlt with e | e
    · rw [← e]; exact ha
    · rw [e] at ha; cases ha
  · cases ha

/-- Line `i` of the answer is right at moment `k` if the status is. -/
theorem right_iff {ls0 ls : List Label} {r : List Row} {s0 s : St} (h : Facts ls0 ls r s0 s) {i k : Nat} {w : Row}
    (hw : r[i]? = some w) : r[i]? = (Server.list (at' s0 ls k).srv)[i]? ↔ att s0 ls k i = w.attached := by
  have hc := fun k => (at_course h.begun h.fin h.ran k).kept
  have hi : i < s0.srv.table.length := by rw [← h.len]; exact (List.getElem?_eq_some_iff.mp hw).1
  obtain ⟨p, hp⟩ : ∃ p, s0.srv.table[i]? = some p := ⟨_, List.getElem?_eq_getElem hi⟩
  obtain ⟨k', hk', hr⟩ := h.row i p hp
  rw [hw] at hr
  cases hr
  rw [kept_list (hc k), hw, hp]
  simp only [Option.map_some, Option.some.injEq, att, hp]
  rw [kept_row (hc k) (h.lt i p hp), kept_row (hc k') (h.lt i p hp)]
  constructor
  · intro e; exact (congrArg Row.attached e).symm
  · intro e; rw [e]

theorem reported {ls0 ls : List Label} {r : List Row} {s0 s : St} (h : Facts ls0 ls r s0 s) {i : Nat} {w : Row}
    (hw : r[i]? = some w) : ∃ k, k ≤ ls.length ∧ att s0 ls k i = w.attached := by
  have hi : i < s0.srv.table.length := by rw [← h.len]; exact (List.getElem?_eq_some_iff.mp hw).1
  obtain ⟨k, hk, hr⟩ := h.row i _ (List.getElem?_eq_getElem hi)
  refine ⟨k, hk, (right_iff h hw).mp ?_⟩
  rw [kept_list (at_course h.begun h.fin h.ran k).kept, hr, List.getElem?_eq_getElem hi]
  rfl

theorem list_length {ls0 ls : List Label} {r : List Row} {s0 s : St} (h : Facts ls0 ls r s0 s) (k : Nat) :
    (Server.list (at' s0 ls k).srv).length = r.length := by
  show (List.map _ _).length = _
  rw [List.length_map, (at_course h.begun h.fin h.ran k).kept.table, h.len]

theorem right_none {ls0 ls : List Label} {r : List Row} {s0 s : St} (h : Facts ls0 ls r s0 s) {i k : Nat} (hw : r[i]? = none) :
    r[i]? = (Server.list (at' s0 ls k).srv)[i]? := by
  rw [hw]
  exact (List.getElem?_eq_none (by rw [list_length h]; exact List.getElem?_eq_none_iff.mp hw)).symm

/-! ## C153 -/

/-- **C153** (each line).  Every line of the answer was right at some moment of the request. -/
theorem C153_each {ls0 ls : List Label} {r : List Row} (h : Request ls0 ls r) (i : Nat) :
    ∃ v, Moment ls0 ls v ∧ r[i]? = (Server.list v)[i]? := by
  obtain ⟨s0, s, hf⟩ := facts h
  cases hw : r[i]? with
  | none =>
    refine ⟨_, at_moment hf.begun hf.ran 0, ?_⟩
    rw [← hw]
    exact right_none hf hw
  | some w =>
    obtain ⟨k, -, hk⟩ := reported hf hw
    refine ⟨_, at_moment hf.begun hf.ran k, ?_⟩
    rw [← hw]
    exact (right_iff hf hw).mpr hk

/-- **C153** (all but the status).  The sessions listed, their times and their attachments are what they were at every moment of the
request. -/
theorem C153_fixed {ls0 ls : List Label} {r : List Row} (h : Request ls0 ls r) {v : Server.St} (hv : Moment ls0 ls v) :
    r.map (fun w => { w with attached := false }) = (Server.list v).map (fun w => { w with attached := false }) := by
  obtain ⟨s0, s, hf⟩ := facts h
  obtain ⟨k, -, e⟩ := moment_at hf.begun hv
  subst e
  apply List.ext_getElem?
  intro i
  rw [List.getElem?_map, List.getElem?_map, kept_list (at_course hf.begun hf.fin hf.ran k).kept]
  by_cases hi : i < s0.srv.table.length
  · obtain ⟨k', -, hr⟩ := hf.row i _ (List.getElem?_eq_getElem hi)
    have hlt := hf.lt i _ (List.getElem?_eq_getElem hi)
    rw [hr, List.getElem?_eq_getElem hi]
    simp only [Option.map_some]
    rw [kept_row (at_course hf.begun hf.fin hf.ran k).kept hlt, kept_row (at_course hf.begun hf.fin hf.ran k').kept hlt]
  · rw [List.getElem?_eq_none (by rw [hf.len]; omega), List.getElem?_eq_none (by omega)]
    rfl

/-- **C153** (the direction of the error).  A line that says attached was right when the request began to look, one that says disconnected
is right when it has finished. -/
theorem C153_between {ls0 ls : List Label} {r : List Row} (h : Request ls0 ls r) {s0 s : St} (h0 : Run ls0 s0)
    (hs : Run (ls0 ++ .begin :: ls) s) {i : Nat} {w : Row} (hw : r[i]? = some w) :
    (w.attached = true → (Server.list s0.srv)[i]? = some w) ∧ (w.attached = false → (Server.list s.srv)[i]? = some w) := by
  obtain ⟨s0', s', hf⟩ := facts h
  have e0 : s0' = s0 := Option.some.inj (hf.begun.symm.trans h0)
  subst e0
  have e1 : s' = s := by
    rw [Run, run_append, hf.begun] at hs
    exact Option.some.inj (hf.ran.symm.trans hs)
  subst e1
  obtain ⟨k, hk, ha⟩ := reported hf hw
  constructor
  · intro hat
    have hb : (at' s0' ls 0).srv = s0'.srv := by
      have := at_run hf.ran 0
      rw [List.take_zero] at this
      obtain ⟨s1, h1, h2⟩ := run_cons_some this
      cases h2
      rw [(step_begin h1).2]
    have := (right_iff hf hw (k := 0)).mpr (by rw [hat]; exact att_anti hf (Nat.zero_le k) (by rw [ha, hat]))
    rw [hb] at this
    rw [← this, hw]
  · intro hat
    have he : at' s0' ls ls.length = s' := by
      have := at_run hf.ran ls.length
      rw [List.take_length, hf.ran] at this
      exact (Option.some.inj this).symm
    have := (right_iff hf hw (k := ls.length)).mpr (by
      cases hx : att s0' ls ls.length i with
      | false => exact hat.symm
      | true => rw [att_anti hf hk hx, hat] at ha; cases ha)
    rw [he] at this
    rw [← this, hw]

/-- **C153**, exactly: the answer is what was the case at one moment if and only if that is so for any two of its lines. -/
theorem C153_exact_partial {ls0 ls : List Label} {r : List Row} (h : Request ls0 ls r) :
    (∃ v, Moment ls0 ls v ∧ r = Server.list v) ↔
      ∀ i j : Nat, ∃ v, Moment ls0 ls v ∧ r[i]? = (Server.list v)[i]? ∧ r[j]? = (Server.list v)[j]? := by
  constructor
  · rintro ⟨v, hv, e⟩ i j
    exact ⟨v, hv, by rw [e], by rw [e]⟩
  · intro hp
    obtain ⟨s0, s, hf⟩ := facts h
    obtain ⟨k, hk, ha⟩ := pairs (att s0 ls) (fun i => ((r[i]?).map Row.attached).getD false) ls.length r.length
      (fun i j k hjk ha => att_anti hf hjk ha) (fun i j hi hj => by
        obtain ⟨v, hv, e1, e2⟩ := hp i j
        obtain ⟨k, hk, e⟩ := moment_at hf.begun hv
        subst e
        rw [List.getElem?_eq_getElem hi, List.getElem?_eq_getElem hj]
        exact ⟨k, hk, (right_iff hf (List.getElem?_eq_getElem hi)).mp e1, (right_iff hf (List.getElem?_eq_getElem hj)).mp e2⟩)
    refine ⟨_, at_moment hf.begun hf.ran k, ?_⟩
    apply List.ext_getElem?
    intro i
    cases hw : r[i]? with
    | none => rw [← hw]; exact right_none hf hw
    | some w =>
      rw [← hw]
      refine (right_iff hf hw).mpr ?_
      rw [ha i (List.getElem?_eq_some_iff.mp hw).1, hw]
      rfl

/-- An attach request lets go of its session. -/
def Label.lets : Label → Bool
  | .srv (.release _) => true
  | _ => false

theorem at_step {ls0 ls : List Label} {r : List Row} {s0 s : St} (h : Facts ls0 ls r s0 s) {k : Nat} (hk : k < ls.length) :
    step (at' s0 ls k) ls[k] = some (at' s0 ls (k + 1)) := by
  have h2 := at_run h.ran (k + 1)
  rw [List.take_succ_eq_append_getElem hk] at h2
  obtain ⟨s1, h3, h4⟩ := run_snoc (ls := .begin :: ls.take k) h2
  rw [at_run h.ran k] at h3
  cases h3
  exact h4

/-- A step after which the status of a session is another one. -/
theorem changed {ls0 ls : List Label} {r : List Row} {s0 s : St} (h : Facts ls0 ls r s0 s) {k : Nat} (hk : k < ls.length) {x : Nat}
    (hx : x < s0.srv.next) (hne : ((at' s0 ls (k + 1)).srv.sess x).owner ≠ ((at' s0 ls k).srv.sess x).owner) :
    ls[k].lets = true ∧ ∀ y, y ≠ x → (at' s0 ls (k + 1)).srv.sess y = (at' s0 ls k).srv.sess y := by
  have h4 := at_step h hk
  have hc := at_course h.begun h.fin h.ran k
  cases hl : ls[k] with
  | begin => rw [hl] at h4; rw [(step_begin h4).2] at hne; exact absurd rfl hne
  | look =>
    rw [hl] at h4
    obtain ⟨p, ps, -, e⟩ := step_look h4
    rw [e] at hne; exact absurd rfl hne
  | finish => exact absurd (hl ▸ List.getElem_mem hk) h.fin
  | srv m =>
    rw [hl] at h4
    obtain ⟨hn, hs, -⟩ := step_srv h4
    have hn' : needsTable m = false := by
      cases hm : needsTable m with
      | false => rfl
      | true =>
        obtain ⟨dn, td, ht, -⟩ := hc.looked
        rw [hn hm] at ht; cases ht
    have hi : Server.Inv (at' s0 ls k).srv := inv_run (ls := ls0 ++ .begin :: ls.take k) (by
      rw [Run, run_append, h.begun]; exact at_run h.ran k)
    obtain ⟨t, e, -, e2⟩ := kept_owner hi hc.kept.lock hn' hs (Nat.lt_of_lt_of_le hx hc.kept.next) hne
    subst e
    refine ⟨rfl, fun y hy => ?_⟩
    rw [e2, Server.upd_apply, if_neg hy]

/-- How often a session has been let go of, by how many have. -/
theorem lets_count {ls0 ls : List Label} {r : List Row} {s0 s : St} (h : Facts ls0 ls r s0 s) {x y : Nat} (hx : x < s0.srv.next)
    (hy : y < s0.srv.next) (hxy : x ≠ y) (k : Nat) (hk : k ≤ ls.length) :
    (((at' s0 ls k).srv.sess x).owner ≠ (s0.srv.sess x).owner → 1 ≤ (ls.take k).countP Label.lets) ∧
    (((at' s0 ls k).srv.sess y).owner ≠ (s0.srv.sess y).owner → 1 ≤ (ls.take k).countP Label.lets) ∧
    (((at' s0 ls k).srv.sess x).owner ≠ (s0.srv.sess x).owner → ((at' s0 ls k).srv.sess y).owner ≠ (s0.srv.sess y).owner →
      2 ≤ (ls.take k).countP Label.lets) := by
  induction k with
  | zero =>
    have hb : (at' s0 ls 0).srv = s0.srv := by
      have := at_run h.ran 0
      rw [List.take_zero] at this
      obtain ⟨s1, h1, h2⟩ := run_cons_some this
      cases h2
      rw [(step_begin h1).2]
    rw [hb]
    exact ⟨fun e => absurd rfl e, fun e => absurd rfl e, fun e => absurd rfl e⟩
  | succ k ih =>
    have hk' : k < ls.length := by omega
    obtain ⟨i1, i2, i3⟩ := ih (by omega)
    have cx := changed h hk' hx
    have cy := changed h hk' hy
    rw [List.take_succ_eq_append_getElem hk', List.countP_append, List.countP_singleton]
    by_cases e1 : ((at' s0 ls (k + 1)).srv.sess x).owner = ((at' s0 ls k).srv.sess x).owner
    · rw [e1]
      by_cases e2 : ((at' s0 ls (k + 1)).srv.sess y).owner = ((at' s0 ls k).srv.sess y).owner
      · rw [e2]
        exact ⟨fun a => by have := i1 a; omega, fun a => by have := i2 a; omega, fun a b => by have := i3 a b; omega⟩
      · obtain ⟨c1, c2⟩ := cy e2
        rw [c1, if_pos rfl]
        exact ⟨fun a => by omega, fun a => by omega, fun a b => by have := i1 a; omega⟩
    · obtain ⟨c1, c2⟩ := cx e1
      rw [c1, if_pos rfl, c2 y (Ne.symm hxy)]
      exact ⟨fun a => by omega, fun a => by omega, fun a b => by have := i2 b; omega⟩

/-- **C153**, as long as at most one client leaves during the request. -/
theorem C153_one_leaves_partial {ls0 ls : List Label} {r : List Row} (h : Request ls0 ls r) (h1 : ls.countP Label.lets ≤ 1) :
    ∃ v, Moment ls0 ls v ∧ r = Server.list v := by
  rw [C153_exact_partial h]
  intro i j
  obtain ⟨s0, s, hf⟩ := facts h
  have hb : (at' s0 ls 0).srv = s0.srv := by
    have := at_run hf.ran 0
    rw [List.take_zero] at this
    obtain ⟨s1, h1, h2⟩ := run_cons_some this
    cases h2
    rw [(step_begin h1).2]
  -- the moment at the beginning or the one at the end will do
  suffices hs : ∀ (i j : Nat) wi wj, r[i]? = some wi → r[j]? = some wj →
      (∃ k, att s0 ls k i = wi.attached ∧ att s0 ls k j = wj.attached) by
    cases hi : r[i]? with
    | none =>
      obtain ⟨v, hv, e⟩ := C153_each h j
      obtain ⟨k, -, e'⟩ := moment_at hf.begun hv
      subst e'
      exact ⟨_, hv, by rw [← hi]; exact right_none hf hi, e⟩
    | some wi =>
      cases hj : r[j]? with
      | none =>
        obtain ⟨v, hv, e⟩ := C153_each h i
        obtain ⟨k, -, e'⟩ := moment_at hf.begun hv
        subst e'
        exact ⟨_, hv, by rw [← hi]; exact e, by rw [← hj]; exact right_none hf hj⟩
      | some wj =>
        obtain ⟨k, e1, e2⟩ := hs i j wi wj hi hj
        refine ⟨_, at_moment hf.begun hf.ran k, ?_, ?_⟩
        · rw [← hi]; exact (right_iff hf hi).mpr e1
        · rw [← hj]; exact (right_iff hf hj).mpr e2
  intro i j wi wj hi hj
  have early : ∀ {i : Nat} {w}, r[i]? = some w → w.attached = true → att s0 ls 0 i = w.attached := fun {i w} hw ht => by
    obtain ⟨k, -, e⟩ := reported hf hw
    rw [ht]
    exact att_anti hf (Nat.zero_le k) (by rw [e, ht])
  have late : ∀ {i : Nat} {w}, r[i]? = some w → w.attached = false → att s0 ls ls.length i = w.attached := fun {i w} hw ht => by
    obtain ⟨k, hk, e⟩ := reported hf hw
    rw [ht]
    cases hx : att s0 ls ls.length i with
    | false => rfl
    | true => rw [att_anti hf hk hx, ht] at e; cases e
  -- the mixed case
  have mixed : ∀ (i j : Nat) wi wj, r[i]? = some wi → r[j]? = some wj → wi.attached = true → wj.attached = false →
      ∃ k, att s0 ls k i = wi.attached ∧ att s0 ls k j = wj.attached := by
    intro i j wi wj hi hj ti tj
    by_cases hj0 : att s0 ls 0 j = false
    · exact ⟨0, early hi ti, by rw [hj0, tj]⟩
    · by_cases hi1 : att s0 ls ls.length i = true
      · exact ⟨ls.length, by rw [hi1, ti], late hj tj⟩
      · exfalso
        have il : i < s0.srv.table.length := by rw [← hf.len]; exact (List.getElem?_eq_some_iff.mp hi).1
        have jl : j < s0.srv.table.length := by rw [← hf.len]; exact (List.getElem?_eq_some_iff.mp hj).1
        have hi0 := early hi ti
        have hj1 := late hj tj
        rw [ti] at hi0
        rw [tj] at hj1
        simp only [att, List.getElem?_eq_getElem il] at hi0 hi1
        simp only [att, List.getElem?_eq_getElem jl] at hj0 hj1
        have hinv := inv_run hf.begun
        have hne : s0.srv.table[i].2 ≠ s0.srv.table[j].2 := by
          intro e
          have f1 := hinv.tbl _ _ (Server.mem_find hinv.nodup (List.getElem_mem il))
          have f2 := hinv.tbl _ _ (Server.mem_find hinv.nodup (List.getElem_mem jl))
          have hn : (s0.srv.table.map (·.1))[i]'(by simpa using il) = (s0.srv.table.map (·.1))[j]'(by simpa using jl) := by
            rw [List.getElem_map, List.getElem_map]
            exact f1.2.symm.trans ((congrArg (fun x => (s0.srv.sess x).name) e).trans f2.2)
          have hij := (List.getElem_inj hinv.nodup).mp hn
          subst hij
          rw [hi] at hj
          cases hj
          rw [ti] at tj
          cases tj
        have := (lets_count hf (hf.lt i _ (List.getElem?_eq_getElem il)) (hf.lt j _ (List.getElem?_eq_getElem jl)) hne ls.length
          (Nat.le_refl _)).2.2 (fun e => by
            rw [hb] at hi0
            rw [e] at hi1
            exact hi1 hi0) (fun e => by
            rw [hb] at hj0
            rw [e] at hj1
            exact hj0 hj1)
        rw [List.take_length] at this
        omega
  cases ti : wi.attached with
  | true =>
    cases tj : wj.attached with
    | true => exact ⟨0, by rw [early hi ti, ti], by rw [early hj tj, tj]⟩
    | false => rw [← ti, ← tj]; exact mixed i j wi wj hi hj ti tj
  | false =>
    cases tj : wj.attached with
    | false => exact ⟨ls.length, by rw [late hi ti, ti], by rw [late hj tj, tj]⟩
    | true =>
      obtain ⟨k, e1, e2⟩ := mixed j i wj wi hj hi tj ti
      exact ⟨k, by rw [e2, ti], by rw [e1, tj]⟩

/-! ## The claim is false -/

def nameA : Name := ['a']
def nameB : Name := ['b']

/-- Two clients attach to two sessions and leave again, but their requests have not yet let go of the sessions. -/
def twoLeave : List Label := List.map .srv
  [.select 0 nameA false, .spawn 0, .insert 0, .lookup 0, .start 0, .select 1 nameB false, .spawn 1, .insert 1, .lookup 1, .start 1,
   .tick 5, .clientGone 0, .clientGone 1, .unlink 0, .unlink 1]

/-- The request looks at one session, both are let go of, and it looks at the other one. -/
def between : List Label := [.look, .srv (.release 1), .srv (.release 0), .look]

/-- What is answered: `b` is attached and `a` is not. -/
def told : List Row := [⟨nameB, true, some 0, some 5, none⟩, ⟨nameA, false, some 0, some 5, none⟩]

theorem told_request : Request twoLeave between told := by
  refine ⟨by decide, _, _, rfl, rfl, rfl⟩

/-- The claim is false: `b` was let go of before `a`, and the list says that `b` is attached and `a` is not.  There is no such moment, in
the whole history of the daemon. -/
theorem C153_false : ¬ C153_statement := by
  intro h
  obtain ⟨v, ⟨pre, suf, s, e, hr, hv⟩, hl⟩ := h _ _ _ told_request
  have hk : pre = between.take pre.length := by rw [e]; simp
  have hle : pre.length ≤ 4 := by
    have := congrArg List.length e
    simp [between] at this
    omega
  subst hv
  revert hr
  rw [hk]
  generalize pre.length = k at hle
  intro hr
  have : k = 0 ∨ k = 1 ∨ k = 2 ∨ k = 3 ∨ k = 4 := by omega
  rcases this with e | e | e | e | e <;> subst e <;> (cases hr; exact absurd hl (by decide))

/-- At no moment since the daemon was started was it so. -/
theorem C153_false_ever : ∀ pre suf s, twoLeave ++ .begin :: between = pre ++ suf → Run pre s → told ≠ Server.list s.srv := by
  intro pre suf s e hr hl
  have hk : pre = (twoLeave ++ .begin :: between).take pre.length := by rw [e]; simp
  have hle : pre.length < 21 := by
    have := congrArg List.length e
    simp [between, twoLeave] at this
    omega
  have key : ∀ k, k < 21 → ((runSteps step init ((twoLeave ++ .begin :: between).take k)).map fun s => Server.list s.srv) ≠ some told := by
    decide
  apply key pre.length hle
  rw [← hk, show runSteps step init pre = some s from hr, hl]
  rfl

/-- One of the two has gone before: the answer is right at the moment in between, and not at the beginning nor at the end. -/
def oneGone : List Label := twoLeave
def one : List Label := [.srv (.release 0), .look, .srv (.tick 1), .look]

example : Request oneGone one [⟨nameB, true, some 0, some 5, none⟩, ⟨nameA, false, some 0, some 5, none⟩] ∧ one.countP Label.lets ≤ 1 :=
  ⟨⟨by decide, _, _, rfl, rfl, rfl⟩, by decide⟩

end Shpool.Listing
