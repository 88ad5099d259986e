import Verif.Reaper.Props
import Verif.Util.Fair

/-! # A session whose time is over is taken away in every fair execution -/

namespace Shpool.Reaper

variable {N : Type} [DecidableEq N]

def isTick : Label N → Bool
  | .tick => true
  | _ => false

def isRecv : Label N → Bool
  | .recv => true
  | _ => false

def isReap : Label N → Bool
  | .reap _ => true
  | _ => false

/-- Time goes on, and the reaper, which waits for registrations and for the next deadline at once (ttl_reaper.rs 78-97), leaves neither
that stays ready unserved for ever. -/
structure Fair (σ : Nat → St N) (lab : Nat → Option (Label N)) : Prop where
  time : Often lab isTick
  recv : WeakFair step σ lab isRecv
  reap : WeakFair step σ lab isReap

/-- How many deadlines up to `d` are registered and not dealt with. -/
def due (d : Nat) (s : St N) : Nat := (s.heap.filter (fun e => decide (e.at_ ≤ d))).length + (s.mail.filter (fun m => decide (m.2 ≤ d))).length

theorem sent_step {s s' : St N} {l : Label N} (hs : step s l = some s') : (∃ n t, l = .spawn n (some t) ∧ s'.sent = s.sent ++ [(n, s.now + t)]) ∨
    ((∀ n t, l ≠ .spawn n (some t)) ∧ s'.sent = s.sent) := by
  cases l with
  | tick => cases hs; exact .inr ⟨nofun, rfl⟩
  | spawn n ttl =>
    cases ttl with
    | none => cases hs; exact .inr ⟨nofun, rfl⟩
    | some t =>
      simp only [step] at hs
      split at hs
      · cases hs
      · cases hs; exact .inl ⟨n, t, rfl, by simp [St.sent]⟩
  | insert c => simp only [step] at hs; split at hs <;> cases hs; exact .inr ⟨nofun, rfl⟩
  | remove n => cases hs; exact .inr ⟨nofun, rfl⟩
  | recv => simp only [step] at hs; split at hs <;> cases hs; exact .inr ⟨nofun, by simp_all [St.sent]⟩
  | reap e =>
    simp only [step] at hs
    (repeat' split at hs) <;> cases hs <;> exact .inr ⟨nofun, rfl⟩

theorem received_step {s s' : St N} {l : Label N} (hs : step s l = some s') :
    s'.received.length = s.received.length + (if isRecv l then 1 else 0) ∧ s'.now = s.now + (if isTick l then 1 else 0) := by
  cases l with
  | tick => cases hs; exact ⟨rfl, rfl⟩
  | spawn n ttl =>
    cases ttl with
    | none => cases hs; exact ⟨rfl, rfl⟩
    | some t => simp only [step] at hs; split at hs <;> cases hs; exact ⟨rfl, rfl⟩
  | insert c => simp only [step] at hs; split at hs <;> cases hs; exact ⟨rfl, rfl⟩
  | remove n => cases hs; exact ⟨rfl, rfl⟩
  | recv => simp only [step] at hs; split at hs <;> cases hs; exact ⟨by simp [isRecv], rfl⟩
  | reap e =>
    simp only [step] at hs
    (repeat' split at hs) <;> cases hs <;> exact ⟨rfl, rfl⟩

/-- Once `d` is over no more deadlines up to `d` are registered, and reaping deals with one if there is one in the heap. -/
theorem due_step {s s' : St N} {l : Label N} {d : Nat} (hd : d < s.now) (hs : step s l = some s') :
    due d s' ≤ due d s ∧ (isReap l = true → (∃ e ∈ s.heap, e.at_ ≤ d) → due d s' < due d s) := by
  cases l with
  | tick => cases hs; exact ⟨Nat.le_refl _, nofun⟩
  | spawn n ttl =>
    cases ttl with
    | none => cases hs; exact ⟨Nat.le_refl _, nofun⟩
    | some t =>
      simp only [step] at hs
      split at hs <;> cases hs
      refine ⟨?_, nofun⟩
      simp only [due, List.filter_append, List.length_append]
      have : ¬ s.now + t ≤ d := by omega
      simp [this]
  | insert c => simp only [step] at hs; split at hs <;> cases hs; exact ⟨Nat.le_refl _, nofun⟩
  | remove n => cases hs; exact ⟨Nat.le_refl _, nofun⟩
  | recv =>
    simp only [step] at hs
    split at hs <;> cases hs
    rename_i n t rest hm
    refine ⟨?_, nofun⟩
    simp only [due, List.filter_append, List.length_append, hm, List.filter_cons]
    by_cases h : t ≤ d <;> simp [h] <;> omega
  | reap e =>
    have key : isTop s.heap e = true → (s.heap.erase e).filter (fun e => decide (e.at_ ≤ d)) =
        (s.heap.filter (fun e => decide (e.at_ ≤ d))).erase e := fun _ => by rw [List.erase_filter]
    have main : isTop s.heap e = true → s'.heap = s.heap.erase e → s'.mail = s.mail → due d s' ≤ due d s ∧
        (isReap (.reap e) = true → (∃ e ∈ s.heap, e.at_ ≤ d) → due d s' < due d s) := by
      intro ht hh hm
      obtain ⟨hmem, hmin⟩ := isTop_mem ht
      unfold due
      rw [hh, hm, key ht]
      refine ⟨Nat.add_le_add_right (List.length_erase_le ..) _, fun _ ⟨x, hx, hxd⟩ => ?_⟩
      have he : e ∈ s.heap.filter (fun e => decide (e.at_ ≤ d)) := by
        refine List.mem_filter.mpr ⟨hmem, ?_⟩
        have := hmin x hx
        simp only [decide_eq_true_eq]; omega
      rw [List.length_erase_of_mem he]
      have := List.length_pos_of_mem he
      omega
    simp only [step] at hs
    split at hs
    · rename_i hc
      (repeat' split at hs) <;> cases hs <;> exact main hc.1 rfl rfl
    · cases hs

/-- C57, second half, over time: in every execution in which time goes on and the reaper is not starved, a session that entered the table
before its deadline leaves it, unless its name is registered again. -/
theorem C57_fair_partial {σ : Nat → St N} {lab : Nat → Option (Label N)} (hx : Exec step σ lab) (h0 : σ 0 = init) (hf : Fair σ lab)
    {m : Nat} {n : N} {sess : Sess} {d : Nat} (hn : (σ m).table n = some sess) (hd : sess.deadline = some d) (hin : sess.insertedAt < d)
    (hlast : sess.regNo = countOf n (σ m).sent) (hno : ∀ i t, m ≤ i → lab i ≠ some (.spawn n (some t))) :
    ∃ i, m ≤ i ∧ (σ i).table n ≠ some sess := by
  refine Classical.byContradiction fun hnot => ?_
  have htab : ∀ i, m ≤ i → (σ i).table n = some sess := fun i hi => Classical.byContradiction fun h => hnot ⟨i, hi, h⟩
  have hI : ∀ i, Inv (σ i) := fun i => inv_run (ls := performed lab i) (by
    have h := exec_run hx i
    rw [h0] at h
    exact h)
  have hat : ∀ {i l}, lab i = some l → step (σ i) l = some (σ (i + 1)) := fun {i l} hl => by
    rcases hx i with ⟨h1, _⟩ | ⟨l', h1, h2⟩
    · rw [h1] at hl; cases hl
    · rw [hl] at h1; cases h1; exact h2
  -- the name is not registered again
  have hcnt : ∀ i, m ≤ i → sess.regNo = countOf n (σ i).sent := exec_stays hx (p := fun s => sess.regNo = countOf n s.sent)
    (fun i l hi hl hp h => by
      rcases sent_step h with ⟨n', t, rfl, e⟩ | ⟨_, e⟩
      · have : n' ≠ n := by rintro rfl; exact hno i t hi hl
        rw [e, countOf_append, countOf_eq n [(n', _)], of_other _ this]
        simpa using hp
      · rw [e]; exact hp) hlast
  have hmono : ∀ i, m ≤ i → (σ m).sent.length ≤ (σ i).sent.length ∧ (∃ x, (σ i).sent = (σ m).sent ++ x) :=
    exec_stays hx (p := fun s => (σ m).sent.length ≤ s.sent.length ∧ ∃ x, s.sent = (σ m).sent ++ x)
      (fun i l hi hl hp h => by
        obtain ⟨hp1, x, hp2⟩ := hp
        rcases sent_step h with ⟨n', t, rfl, e⟩ | ⟨_, e⟩
        · rw [e]; exact ⟨by simp; omega, x ++ [(n', _)], by rw [hp2, List.append_assoc]⟩
        · rw [e]; exact ⟨hp1, x, hp2⟩) ⟨Nat.le_refl _, [], by simp⟩
  -- everything registered before is received
  obtain ⟨k, hk, hrec⟩ : ∃ k, m ≤ k ∧ (σ m).sent.length ≤ (σ k).received.length := by
    refine reaches (σ := σ) (Goal := fun s => (σ m).sent.length ≤ s.received.length) (fun s => (σ m).sent.length - s.received.length) (fun i hi _ => ?_) (fun k hk hrest => ?_)
    · rcases hx i with ⟨_, h2⟩ | ⟨l, _, h2⟩
      · rw [h2]; exact Nat.le_refl _
      · have := (received_step h2).1
        omega
    · obtain ⟨i, l, hi, hl, ha⟩ := hf.recv ⟨k, fun i hi => ⟨.recv, rfl, by
        have h1 := (hrest i hi).1
        have h2 := (hmono i (by omega)).1
        simp only [St.sent, List.length_append] at h1 h2
        cases hm : (σ i).mail with
        | nil => rw [hm] at h2; simp at h2; omega
        | cons a b => simp [step, hm]⟩⟩ k
      have h1 := hrest i hi
      have h2 := hrest (i + 1) (by omega)
      have := (received_step (hat hl)).1
      rw [ha] at this
      simp only [if_true] at this
      omega
  have hrec' : ∀ i, k ≤ i → (σ m).sent.length ≤ (σ i).received.length :=
    exec_stays hx (p := fun s => (σ m).sent.length ≤ s.received.length) (fun i l _ _ hp h => by
      have := (received_step h).1; omega) hrec
  -- so the deadline is in the heap
  have hheap : ∀ i, k ≤ i → (⟨n, sess.regNo, d⟩ : Reapable N) ∈ (σ i).heap := by
    intro i hi
    refine (hI i).timely n sess d (htab i (by omega)) hd hin (hcnt i (by omega)) ?_
    obtain ⟨_, x, hxs⟩ := hmono i (by omega)
    have hp : (σ m).sent <+: (σ i).received := by
      refine List.prefix_of_prefix_length_le ⟨x, hxs.symm⟩ ⟨(σ i).mail, rfl⟩ (hrec' i hi)
    obtain ⟨y, hy⟩ := hp
    rw [← hy, countOf_append, hlast]
    omega
  -- the deadline passes
  obtain ⟨j, hj, hnow⟩ : ∃ j, k ≤ j ∧ d < (σ j).now := by
    refine reaches (σ := σ) (Goal := fun s => d < s.now) (fun s => d + 1 - s.now) (fun i hi _ => ?_) (fun j hj hrest => ?_)
    · rcases hx i with ⟨_, h2⟩ | ⟨l, _, h2⟩
      · rw [h2]; exact Nat.le_refl _
      · have := (received_step h2).2
        omega
    · obtain ⟨i, l, hi, hl, ha⟩ := hf.time j
      have h1 := hrest i hi
      have h2 := hrest (i + 1) (by omega)
      have := (received_step (hat hl)).2
      rw [ha] at this
      simp only [if_true] at this
      omega
  have hnow' : ∀ i, j ≤ i → d < (σ i).now := exec_stays hx (p := fun s => d < s.now) (fun i l _ _ hp h => by
    have := (received_step h).2; omega) hnow
  -- the reaper deals with the deadlines up to it, one by one
  obtain ⟨i, _, hi⟩ : ∃ i, j ≤ i ∧ False := by
    refine reaches (σ := σ) (Goal := fun _ => False) (due d) (fun i hi _ => ?_) (fun q hq hrest => ?_)
    · rcases hx i with ⟨_, h2⟩ | ⟨l, _, h2⟩
      · rw [h2]; exact Nat.le_refl _
      · exact (due_step (hnow' i hi) h2).1
    · obtain ⟨i, l, hi, hl, ha⟩ := hf.reap ⟨q, fun i hi => by
        have hmem := hheap i (by omega)
        obtain ⟨e, he⟩ := exists_top (σ i).heap (List.ne_nil_of_mem hmem)
        refine ⟨.reap e, rfl, ?_⟩
        have h1 := (isTop_mem he).2 _ hmem
        have h2 := hnow' i (by omega)
        have hc : isTop (σ i).heap e = true ∧ e.at_ ≤ (σ i).now := ⟨he, by dsimp only at h1; omega⟩
        simp only [step, if_pos hc]
        (repeat' split) <;> rfl⟩ q
      have h1 := (due_step (hnow' i (by omega)) (hat hl)).2 ha ⟨_, hheap i (by omega), Nat.le_refl d⟩
      have h2 := (hrest i hi).2
      have h3 := (hrest (i + 1) (by omega)).2
      omega
  exact hi

/-- A session is made with two units of time to live; time passes, the reaper takes it away, and time goes on. -/
def lab1 : Nat → Label Nat
  | 0 => .spawn 0 (some 2)
  | 1 => .insert ⟨0, 0, some 2, 1⟩
  | 2 => .tick
  | 3 => .recv
  | 4 => .tick
  | 5 => .tick
  | 6 => .reap ⟨0, 1, 2⟩
  | _ => .tick

theorem lab1_later (i : Nat) : (follow step init lab1 (7 + i)).mail = [] ∧ (follow step init lab1 (7 + i)).heap = [] := by
  induction i with
  | zero => exact ⟨rfl, rfl⟩
  | succ i ih =>
    have : lab1 (7 + i) = .tick := by rw [Nat.add_comm]; rfl
    rw [show 7 + (i + 1) = (7 + i) + 1 by omega]
    simp only [follow, this, step, Option.getD_some]
    exact ih

example : Exec step (follow step init lab1) (fun i => some (lab1 i)) ∧ Fair (follow step init lab1) (fun i => some (lab1 i)) ∧
    (follow step init lab1 2).table 0 = some ⟨0, some 2, 1, 0⟩ ∧ countOf 0 (follow step init lab1 2).sent = 1 ∧
    ∀ i t, 2 ≤ i → some (lab1 i) ≠ some (.spawn 0 (some t)) := by
  refine ⟨follow_exec fun i => ?_, ⟨fun n => ⟨n + 7, .tick, by omega, rfl, rfl⟩, fun ⟨k, hk⟩ => ?_, fun ⟨k, hk⟩ => ?_⟩, rfl, rfl, fun i t hi h => ?_⟩
  · match i with
    | 0 | 1 | 2 | 3 | 4 | 5 | 6 | _ + 7 => rfl
  · obtain ⟨l, hl, h⟩ := hk (7 + k) (by omega)
    cases l <;> simp only [isRecv, Bool.false_eq_true] at hl
    simp [step, (lab1_later k).1] at h
  · obtain ⟨l, hl, h⟩ := hk (7 + k) (by omega)
    cases l <;> simp only [isReap, Bool.false_eq_true] at hl
    simp [step, (lab1_later k).2, isTop] at h
  · match i, hi with
    | 2, _ | 3, _ | 4, _ | 5, _ | 6, _ | _ + 7, _ => simp [lab1] at h

end Shpool.Reaper
