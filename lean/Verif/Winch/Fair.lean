import Verif.Winch.Props
import Verif.Util.Fair
/-! # C89 over time: a new size gets to the session -/

namespace Shpool.Winch
open Shpool

/-- The steps of the thread that handles the signal. -/
def handles : Label → Bool
  | .take | .read | .send => true
  | _ => false

private def Aims (s : St) : Prop :=
  (∀ n, s.main = .attached n → s.slot = n ∧ s.sess n ≠ none) ∧ (∀ n, s.main = .start n → s.slot = n) ∧ (∀ n z, s.main = .sized n z → s.slot = n)

private theorem aims_step {s s' : St} {l : Label} (hI : Aims s) (h : step s l = some s') : Aims s' := by
  obtain ⟨h1, h2, h3⟩ := hI
  unfold Aims
  cases l <;> simp only [step] at h
  all_goals (repeat' split at h) <;> first | (cases h; done) | (cases h; simp only [upd_apply]; grind)

private def rank (s : St) : Nat :=
  (if s.pending then 3 else 0) + match s.hand with
    | .idle => 0
    | .reading => 2
    | .sending _ => 1

/-- The signal is waiting or being handled. -/
private def Under (k t : Nat) (s : St) : Prop :=
  Aims s ∧ s.main = .attached k ∧ s.term = t ∧ (s.pending = true ∨ s.hand = .reading ∨ s.hand = .sending t)

/-- It has been handled. -/
private def There (k t : Nat) (s : St) : Prop := s.main = .attached k ∧ s.term = t ∧ Quiet s ∧ s.sess k = some t

private def Calm (l : Label) : Prop := (∀ z, l ≠ .resize z) ∧ (∀ n, l ≠ .switchTo n) ∧ l ≠ .fail

private theorem under_step {k t : Nat} {s s' : St} {l : Label} (hc : Calm l) (hu : Under k t s) (h : step s l = some s') :
    There k t s' ∨ Under k t s' ∧ rank s' ≤ rank s ∧ (handles l = true → rank s' < rank s) := by
  have hA := aims_step hu.1 h
  obtain ⟨⟨a1, -, -⟩, hm, ht, hp⟩ := hu
  obtain ⟨hsl, hne⟩ := a1 k hm
  obtain ⟨c1, c2, c3⟩ := hc
  cases l with
  | resize z => exact absurd rfl (c1 z)
  | switchTo n => exact absurd rfl (c2 n)
  | fail => exact absurd rfl c3
  | take =>
    simp only [step] at h; split at h <;> cases h
    next hq =>
    simp only [Bool.and_eq_true, decide_eq_true_eq] at hq
    exact .inr ⟨⟨hA, hm, ht, .inr (.inl rfl)⟩, by simp [rank, hq.1, hq.2], fun _ => by simp [rank, hq.1, hq.2]⟩
  | read =>
    simp only [step] at h; split at h <;> cases h
    next hq =>
    refine .inr ⟨⟨hA, hm, ht, .inr (.inr (by simp [ht]))⟩, by simp [rank, hq], fun _ => by simp [rank, hq]⟩
  | send =>
    simp only [step] at h
    split at h
    · next z hq =>
      rw [hsl] at h
      split at h
      · next hn => exact absurd hn hne
      · cases h
        by_cases hpe : s.pending = true
        · exact .inr ⟨⟨hA, hm, ht, .inl hpe⟩, by simp [rank, hq], fun _ => by simp [rank, hq]⟩
        · have hz : z = t := by simpa [hpe, hq] using hp
          have hpe : s.pending = false := Bool.eq_false_iff.mpr hpe
          exact .inl ⟨hm, ht, ⟨hpe, rfl⟩, by simp [hz]⟩
    · cases h
  | readSize => simp [step, hm] at h
  | attach => simp [step, hm] at h
  | setSlot => simp [step, hm] at h
  | other n z =>
    simp only [step] at h; split at h <;> cases h
    exact .inr ⟨⟨hA, hm, ht, hp⟩, Nat.le_refl _, by simp [handles]⟩

private theorem there_step {k t : Nat} {s s' : St} {l : Label} (hc : Calm l) (hu : There k t s) (h : step s l = some s') : There k t s' := by
  obtain ⟨hm, ht, ⟨hp, hh⟩, hk⟩ := hu
  obtain ⟨c1, c2, c3⟩ := hc
  cases l with
  | resize z => exact absurd rfl (c1 z)
  | switchTo n => exact absurd rfl (c2 n)
  | fail => exact absurd rfl c3
  | take => simp [step, hp] at h
  | read => simp [step, hh] at h
  | send => simp [step, hh] at h
  | readSize => simp [step, hm] at h
  | attach => simp [step, hm] at h
  | setSlot => simp [step, hm] at h
  | other n z =>
    simp only [step] at h; split at h <;> cases h
    next hn =>
    have : k ≠ n := fun e => hn (e ▸ hm)
    exact ⟨hm, ht, ⟨hp, hh⟩, by simp [this, hk]⟩

/-- **C89** (over time): a client is attached to a session, a signal of its terminal is waiting, and from then on the terminal is not resized again, the client
stays, and no request fails: in every execution weakly fair to the thread that handles the signal, the session gets the size of the terminal and
keeps it, whatever others do. -/
theorem C89_fair {n z k m : Nat} {sess : Nat → Option Nat} {σ : Nat → St} {lab : Nat → Option Label} (hx : Exec step σ lab) (h0 : σ 0 = init n z sess)
    (hf : WeakFair step σ lab handles) (hm : (σ m).main = .attached k) (hp : (σ m).pending = true)
    (hr : ∀ i, m ≤ i → (∀ z, lab i ≠ some (.resize z)) ∧ (∀ n, lab i ≠ some (.switchTo n)) ∧ lab i ≠ some .fail) :
    ∃ i, m ≤ i ∧ ∀ j, i ≤ j → (σ j).sess k = some (σ j).term ∧ (σ j).term = (σ m).term := by
  have hA : ∀ i, Aims (σ i) := fun i => exec_stays hx (m := 0) (fun _ _ _ _ => aims_step)
    (by rw [h0]; simp [Aims, init]) i (Nat.zero_le _)
  have calm : ∀ i l, m ≤ i → lab i = some l → Calm l := fun i l hi hl =>
    ⟨fun z e => (hr i hi).1 z (e ▸ hl), fun n e => (hr i hi).2.1 n (e ▸ hl), fun e => (hr i hi).2.2 (e ▸ hl)⟩
  obtain ⟨i, hi, hg⟩ := fair_reaches hx hf (B := Under k (σ m).term) (G := There k (σ m).term) rank (m := m)
    ⟨hA m, hm, rfl, .inl hp⟩ (fun i _ hB => by
      obtain ⟨⟨a1, -, -⟩, hm, ht, hp⟩ := hB
      cases hh : (σ i).hand with
      | idle =>
        have : (σ i).pending = true := by simpa [hh] using hp
        exact ⟨.take, rfl, by simp [step, hh, this]⟩
      | reading => exact ⟨.read, rfl, by simp [step, hh]⟩
      | sending z =>
        refine ⟨.send, rfl, ?_⟩
        simp only [step, hh]
        split <;> rfl)
    (fun i l hi hl hB hs => under_step (calm i l hi hl) hB hs)
  have := exec_stays hx (p := There k (σ m).term) (m := i) (fun j l hj hl hT hs => there_step (calm j l (by omega) hl) hT hs) hg
  exact ⟨i, hi, fun j hj => ⟨by rw [(this j hj).2.2.2, (this j hj).2.1], (this j hj).2.1⟩⟩

/-- A terminal resized twice, the second time while the first signal is handled. -/
example : ∃ σ lab, Exec step σ lab ∧ σ 0 = init 0 80 (fun _ => none) ∧ WeakFair step σ lab handles ∧ (σ 7).main = .attached 0 ∧ (σ 7).pending = true ∧
    ∀ i, 7 ≤ i → (∀ z, lab i ≠ some (.resize z)) ∧ (∀ n, lab i ≠ some (.switchTo n)) ∧ lab i ≠ some .fail := by
  have h := thenRests_exec (step := step) (s := init 0 80 fun _ => none)
    (ls := [.readSize, .attach, .resize 120, .take, .read, .resize 100, .other 1 none, .send, .take, .read, .send]) (s' := _) rfl
  refine ⟨_, _, h.1, rfl, (fair_at_rest h.2 (fun l hl => ?_)).1, rfl, rfl, fun i hi => ?_⟩
  · cases l <;> simp [handles] at hl <;> rfl
  · match i, hi with
    | 7, _ | 8, _ | 9, _ | 10, _ => simp
    | i + 11, _ => simp

end Shpool.Winch
