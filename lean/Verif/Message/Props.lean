import Verif.Message.Model
/-! # C172: the answer to a session message -/

namespace Shpool.Message
open Shpool

/-- Spec: at some moment from `s0` on, in the course of `ls`. -/
def Moment (s0 : St) (ls : List Label) (P : St → Prop) : Prop := ∃ pre post s1, ls = pre ++ post ∧ runSteps step s0 pre = some s1 ∧ P s1

/-- Spec: request `r` asks `m` of the session `n` in the state `s0`, and then `ls` happens. -/
def Asked (before : List Label) (s0 : St) (r n : Nat) (m : Msg) (ls : List Label) (s : St) : Prop :=
  ∃ b, Run before b ∧ step b (.ask r n m) = some s0 ∧ runSteps step s0 ls = some s

/-- The full claim: a message for a session that has, from the request to the answer, no client, is answered with `NotAttached`, as the
protocol says. -/
def C172_statement : Prop := ∀ before s0 r n m ls s a, Asked before s0 r n m ls s → s.req r = .done (some a) →
  (∀ pre post s1, ls = pre ++ post → runSteps step s0 pre = some s1 → ∃ x, s1.table n = some x ∧ (s1.sess x).conn = none) → a = .notAttached

/-- **C172 fails**: a session without a client is "detached". -/
theorem C172_false : ¬ C172_statement := by
  intro h
  have h1 : Asked [.create 0 80 7, .gone 0] _ 0 0 .detach [.go 0 true, .go 0 true] _ := ⟨_, rfl, rfl, rfl⟩
  have := h _ _ _ _ _ _ _ .detachOk h1 rfl (by
    intro pre post s1 e hr
    match pre, e with
    | [], _ => cases hr; exact ⟨0, rfl, rfl⟩
    | [_], e => cases e; cases hr; exact ⟨0, rfl, rfl⟩
    | [_, _], e => cases e; cases hr; exact ⟨0, rfl, rfl⟩
    | _ :: _ :: _ :: _, e => simp at e)
  cases this

/-- **C172 fails** (replaced): a resize request is answered with "ok", the session that has the name has another size, and nobody else has given
it one: the size went to the session that had the name before. -/
theorem C172_false_replaced : ∃ s0 s, Asked [.create 0 80 7] s0 0 0 (.resize 100) [.go 0 true, .go 0 true, .go 0 true, .create 0 80 8, .go 0 true] s ∧
    s.req 0 = .done (some .resizeOk) ∧ s.table 0 = some 1 ∧ (s.sess 1).size = 80 := ⟨_, _, ⟨_, rfl, rfl, rfl⟩, rfl, rfl, rfl⟩

theorem moment_now {s0 s : St} {ls : List Label} {P : St → Prop} (h : runSteps step s0 ls = some s) (hp : P s) : Moment s0 ls P :=
  ⟨ls, [], s, by simp, h, hp⟩

theorem moment_later {s0 : St} {ls ls' : List Label} {P : St → Prop} (h : Moment s0 ls P) : Moment s0 (ls ++ ls') P := by
  obtain ⟨pre, post, s1, rfl, h1, h2⟩ := h
  exact ⟨pre, post ++ ls', s1, by simp, h1, h2⟩

/-- What is known of a request in each of its phases. -/
def Known (s0 : St) (ls : List Label) (r n : Nat) (m : Msg) (s : St) : Req → Prop
  | .idle => False
  | .asked n' m' => n' = n ∧ m' = m
  | .found n' z x => n' = n ∧ m = .resize z ∧ Moment s0 ls (fun s => s.table n = some x)
  | .pager n' z x => n' = n ∧ m = .resize z ∧ Moment s0 ls (fun s => s.table n = some x) ∧ (s.sess x).slot = some r ∧ (s.sess x).pager ≠ none
  | .again n' z x => n' = n ∧ m = .resize z ∧ Moment s0 ls (fun s => s.table n = some x)
  | .shell n' z _ y => n' = n ∧ m = .resize z ∧ Moment s0 ls (fun s => s.table n = some y)
  | .leave n' y => n' = n ∧ m = .detach ∧ Moment s0 ls (fun s => s.table n = some y)
  | .done none => True
  | .done (some .notFound) => Moment s0 ls (fun s => s.table n = none)
  | .done (some .notAttached) => False
  | .done (some .resizeOk) => ∃ z y, m = .resize z ∧ Moment s0 ls (fun s => s.table n = some y) ∧
      Moment s0 ls (fun s => (s.sess y).size = z ∨ (s.sess y).pager = some z)
  | .done (some .detachOk) => m = .detach ∧ ∃ y, Moment s0 ls (fun s => s.table n = some y) ∧ Moment s0 ls (fun s => (s.sess y).conn = none)

/-- The same phase, a step later; only what is said of the pager depends on the state. -/
theorem known_later {s0 s s' : St} {ls : List Label} {r n : Nat} {m : Msg} {l : Label} {p : Req} (h : Known s0 ls r n m s p)
    (hs : ∀ n' z x, p = .pager n' z x → (s.sess x).slot = some r → (s.sess x).pager ≠ none → (s'.sess x).slot = some r ∧ (s'.sess x).pager ≠ none) :
    Known s0 (ls ++ [l]) r n m s' p := by
  unfold Known at h ⊢
  split at h
  · exact h
  · exact h
  · exact ⟨h.1, h.2.1, moment_later h.2.2⟩
  · obtain ⟨h1, h2, h3, h4, h5⟩ := h
    exact ⟨h1, h2, moment_later h3, hs _ _ _ rfl h4 h5⟩
  · exact ⟨h.1, h.2.1, moment_later h.2.2⟩
  · exact ⟨h.1, h.2.1, moment_later h.2.2⟩
  · exact ⟨h.1, h.2.1, moment_later h.2.2⟩
  · trivial
  · exact moment_later h
  · exact h
  · obtain ⟨z, y, h1, h2, h3⟩ := h
    exact ⟨z, y, h1, moment_later h2, moment_later h3⟩
  · obtain ⟨h1, y, h2, h3⟩ := h
    exact ⟨h1, y, moment_later h2, moment_later h3⟩

/-- The request has locked the slot of the pager of this session. -/
def Req.locks : Req → Option Nat
  | .pager _ _ x | .again _ _ x | .shell _ _ x _ => some x
  | _ => none

structure Inv (s : St) : Prop where
  tbl : ∀ n x, s.table n = some x → x < s.next
  found : ∀ r n z x, s.req r = .found n z x → x < s.next
  held : ∀ r x, (s.req r).locks = some x → x < s.next ∧ (s.sess x).slot = some r

theorem inv_step {s s' : St} {l : Label} (h : Inv s) (hs : step s l = some s') : Inv s' := by
  obtain ⟨h1, h2, h3⟩ := h
  cases l with
  | go r ok =>
    simp only [step, go] at hs
    (repeat' split at hs) <;> first | (cases hs; done) | (cases hs; constructor <;> simp only [answer, setReq, setSess, upd_apply] <;> grind [Req.locks])
  | _ =>
    simp only [step] at hs
    (repeat' split at hs) <;> first | (cases hs; done) | (cases hs; constructor <;> simp only [setReq, setSess, upd_apply] <;> grind [Req.locks])

theorem inv_run {ls : List Label} {s : St} (h : Run ls s) : Inv s :=
  run_inv (I := Inv) (fun _ _ _ hi hs => inv_step hi hs) ⟨fun _ _ h => (by cases h), fun _ _ _ _ h => (by cases h), fun _ _ h => (by cases h)⟩ h

/-- Steps of others leave the request where it is, and keep the pager of a slot it has locked. -/
theorem other_step {s s' : St} {r : Nat} {l : Label} (hi : Inv s) (hr : s.req r ≠ .idle) (hl : ∀ ok, l ≠ .go r ok) (hs : step s l = some s') :
    s'.req r = s.req r ∧ ∀ n z x, s.req r = .pager n z x → (s.sess x).pager ≠ none → (s'.sess x).pager ≠ none := by
  obtain ⟨h1, h2, h3⟩ := hi
  have h4 : ∀ n z x, s.req r = .pager n z x → x < s.next ∧ (s.sess x).slot = some r := fun n z x e => h3 r x (by rw [e]; rfl)
  cases l with
  | go r' ok =>
    have hne : r ≠ r' := fun e => hl ok (by rw [e])
    simp only [step, go] at hs
    (repeat' split at hs) <;> first | (cases hs; done) | (cases hs; simp only [answer, setReq, setSess, upd_apply, if_neg hne]; grind [Req.locks])
  | _ =>
    simp only [step] at hs
    (repeat' split at hs) <;> first | (cases hs; done) | (cases hs; simp only [setReq, setSess, upd_apply]; grind [Req.locks])

private theorem known_step {s0 s s' : St} {ls : List Label} {r n : Nat} {m : Msg} {l : Label}
    (h : Inv s ∧ runSteps step s0 ls = some s ∧ Known s0 ls r n m s (s.req r)) (hs : step s l = some s') :
    Inv s' ∧ runSteps step s0 (ls ++ [l]) = some s' ∧ Known s0 (ls ++ [l]) r n m s' (s'.req r) := by
  obtain ⟨hi, hrun, hk⟩ := h
  have hi' := inv_step hi hs
  have hrun' : runSteps step s0 (ls ++ [l]) = some s' := by
    rw [run_append, hrun]
    show runSteps step s [l] = _
    simp only [runSteps, hs]
  refine ⟨hi', hrun', ?_⟩
  by_cases hl : ∃ ok, l = .go r ok
  · obtain ⟨ok, rfl⟩ := hl
    have here : ∀ P : St → Prop, P s' → Moment s0 (ls ++ [.go r ok]) P := fun P hp => moment_now hrun' hp
    have now : ∀ P : St → Prop, P s → Moment s0 (ls ++ [.go r ok]) P := fun P hp => moment_later (moment_now hrun hp)
    simp only [step, go] at hs
    cases hq : s.req r with
    | idle => rw [hq] at hs; cases hs
    | done a => rw [hq] at hs; cases hs
    | asked n' m' =>
      rw [hq] at hs hk
      obtain ⟨rfl, rfl⟩ := hk
      cases m' with
      | resize z =>
        dsimp only at hs
        split at hs <;> cases hs <;> simp only [setReq, upd_apply, if_pos]
        · exact now _ ‹_›
        · exact ⟨rfl, rfl, now _ ‹_›⟩
      | detach =>
        dsimp only at hs
        split at hs <;> cases hs <;> simp only [setReq, upd_apply, if_pos]
        · exact now _ ‹_›
        · exact ⟨rfl, rfl, now _ ‹_›⟩
    | found n' z x =>
      rw [hq] at hs hk
      obtain ⟨rfl, rfl, h3⟩ := hk
      dsimp only at hs
      split at hs
      · cases hs
      · split at hs <;> cases hs <;> simp only [setReq, setSess, upd_apply, if_pos]
        · next hp => exact ⟨rfl, rfl, moment_later h3, by simp [upd_apply], by simp [upd_apply, hp]⟩
        · exact ⟨rfl, rfl, moment_later h3⟩
    | pager n' z x =>
      rw [hq] at hs hk
      obtain ⟨rfl, rfl, h3, _⟩ := hk
      dsimp only at hs
      split at hs <;> cases hs
      · simp only [answer, setReq, upd_apply, if_pos]
        exact ⟨z, x, rfl, moment_later h3, here _ (.inr (by simp [answer, setReq, setSess, upd_apply]))⟩
      · simp only [answer, setReq, upd_apply, if_pos]
        trivial
    | again n' z x =>
      rw [hq] at hs hk
      obtain ⟨rfl, rfl, h3⟩ := hk
      dsimp only at hs
      split at hs <;> cases hs <;> simp only [answer, setReq, upd_apply, if_pos]
      · exact now _ ‹_›
      · exact ⟨rfl, rfl, now _ ‹_›⟩
    | shell n' z x y =>
      rw [hq] at hs hk
      obtain ⟨rfl, rfl, h3⟩ := hk
      dsimp only at hs
      split at hs <;> cases hs
      · simp only [answer, setReq, upd_apply, if_pos]
        refine ⟨z, y, rfl, moment_later h3, here _ (.inl ?_)⟩
        simp only [answer, setReq, setSess, upd_apply, if_pos]
        split <;> simp_all
      · simp only [answer, setReq, upd_apply, if_pos]
        trivial
    | leave n' y =>
      rw [hq] at hs hk
      obtain ⟨rfl, rfl, h3⟩ := hk
      dsimp only at hs
      split at hs <;> cases hs
      · simp only [setReq, upd_apply, if_pos]
        exact ⟨rfl, y, moment_later h3, here _ (by simp [setReq, setSess, upd_apply])⟩
      · simp only [setReq, upd_apply, if_pos]
        trivial
  · have hr : s.req r ≠ .idle := fun e => by rw [e] at hk; exact hk
    obtain ⟨o1, o2⟩ := other_step hi hr (fun ok e => hl ⟨ok, e⟩) hs
    rw [o1]
    refine known_later hk (fun n' z x e _ h5 => ?_)
    have := hi'.held r x (by rw [o1, e]; rfl)
    exact ⟨this.2, o2 n' z x e h5⟩

theorem known_run {before : List Label} {s0 s : St} {r n : Nat} {m : Msg} {ls : List Label} (h : Asked before s0 r n m ls s) :
    Inv s ∧ Known s0 ls r n m s (s.req r) := by
  obtain ⟨b, hb, h0, h1⟩ := h
  have hi := inv_step (inv_run hb) h0
  have := run_hist (I := fun ls s => Inv s ∧ runSteps step s0 ls = some s ∧ Known s0 ls r n m s (s.req r))
    (fun _ _ _ _ hi hs => known_step hi hs) (s := s0) (by
      refine ⟨hi, rfl, ?_⟩
      simp only [step] at h0
      split at h0 <;> cases h0
      simp only [setReq, upd_apply, if_pos]
      exact ⟨rfl, rfl⟩) h1
  exact ⟨this.1, this.2.2⟩

/-- **C172 (part)**: the other answers are true, however requests, sessions and clients come and go meanwhile: `NotFound` is said only if at some
moment since the request no session had the name; `Ok` to a resize request only if a session that had the name, or the pager shown for it, has
been given the size; `Ok` to a detach request only if a session that had the name has been without a client.  Missing: `NotAttached`, which is
never said. -/
theorem C172_true_partial {before : List Label} {s0 s : St} {r n : Nat} {m : Msg} {ls : List Label} {a : Reply} (h : Asked before s0 r n m ls s)
    (ha : s.req r = .done (some a)) :
    a ≠ .notAttached ∧
    (a = .notFound → Moment s0 ls (fun s => s.table n = none)) ∧
    (a = .resizeOk → ∃ z y, m = .resize z ∧ Moment s0 ls (fun s => s.table n = some y) ∧
      Moment s0 ls (fun s => (s.sess y).size = z ∨ (s.sess y).pager = some z)) ∧
    (a = .detachOk → m = .detach ∧ ∃ y, Moment s0 ls (fun s => s.table n = some y) ∧ Moment s0 ls (fun s => (s.sess y).conn = none)) := by
  have hk := (known_run h).2
  rw [ha] at hk
  cases a
  · exact ⟨nofun, fun _ => hk, nofun, nofun⟩
  · exact hk.elim
  · exact ⟨nofun, nofun, fun _ => hk, nofun⟩
  · exact ⟨nofun, nofun, nofun, fun _ => hk⟩

/-- **C172 (part)**: if the name stands for the same session all the time and no pager is shown for it when the answer comes, `Ok` means that the
session has the size asked for at that moment, and `Ok` to a detach request that it has no client. -/
theorem C172_same_partial {before : List Label} {s0 s s' : St} {r n x : Nat} {m : Msg} {ls : List Label} {ok : Bool} {a : Reply}
    (h : Asked before s0 r n m ls s) (hs : step s (.go r ok) = some s') (ha : s'.req r = .done (some a))
    (hx : ∀ pre post s1, ls = pre ++ post → runSteps step s0 pre = some s1 → s1.table n = some x) (hp : (s.sess x).pager = none) :
    (a = .resizeOk → ∃ z, m = .resize z ∧ (s'.sess x).size = z) ∧ (a = .detachOk → m = .detach ∧ (s'.sess x).conn = none) ∧ a ≠ .notFound := by
  have hm : ∀ y, Moment s0 ls (fun s => s.table n = some y) → y = x := by
    rintro y ⟨pre, post, s1, e, h1, h2⟩
    rw [hx pre post s1 e h1] at h2
    exact (Option.some.inj h2).symm
  have hk := (known_run h).2
  obtain ⟨b, _, _, hrun⟩ := h
  have hnow : s.table n = some x := hx ls [] s (by simp) hrun
  simp only [step, go] at hs
  cases hq : s.req r with
  | idle => rw [hq] at hs; cases hs
  | done a => rw [hq] at hs; cases hs
  | asked n' m' =>
    rw [hq] at hs hk
    obtain ⟨rfl, rfl⟩ := hk
    cases m' <;> dsimp only at hs <;> rw [hnow] at hs <;> cases hs <;> simp [setReq, upd_apply] at ha
  | found n' z x' =>
    rw [hq] at hs
    dsimp only at hs
    split at hs
    · cases hs
    · split at hs <;> cases hs <;> simp [setReq, upd_apply] at ha
  | pager n' z x' =>
    rw [hq] at hk
    obtain ⟨_, _, h3, _, h5⟩ := hk
    have := hm x' h3
    subst this
    exact absurd hp h5
  | again n' z x' =>
    rw [hq] at hs hk
    obtain ⟨rfl, _⟩ := hk
    dsimp only at hs
    rw [hnow] at hs
    cases hs
    simp [setReq, upd_apply] at ha
  | shell n' z x' y =>
    rw [hq] at hs hk
    obtain ⟨rfl, rfl, h3⟩ := hk
    have := hm y h3
    subst this
    dsimp only at hs
    split at hs <;> cases hs <;> simp only [answer, setReq, upd_apply, if_pos, Req.done.injEq, Option.some.injEq, reduceCtorEq] at ha
    subst ha
    refine ⟨fun _ => ⟨z, rfl, ?_⟩, nofun, nofun⟩
    simp only [answer, setReq, setSess, upd_apply]
    by_cases e : y = x'
    · subst e; simp only [if_pos]
    · simp only [if_neg e, if_pos]
  | leave n' y =>
    rw [hq] at hs hk
    obtain ⟨rfl, rfl, h3⟩ := hk
    have := hm y h3
    subst this
    dsimp only at hs
    split at hs <;> cases hs <;> simp only [setReq, upd_apply, if_pos, Req.done.injEq, Option.some.injEq, reduceCtorEq] at ha
    subst ha
    exact ⟨nofun, fun _ => ⟨rfl, by simp [setReq, setSess, upd_apply]⟩, nofun⟩

/-- **C172** (others): a step of the request changes the size, the pager's size or the client only of a session that has had the name since the
request came. -/
theorem C172_others {before : List Label} {s0 s s' : St} {r n x : Nat} {m : Msg} {ls : List Label} {ok : Bool}
    (h : Asked before s0 r n m ls s) (hs : step s (.go r ok) = some s')
    (hc : (s'.sess x).size ≠ (s.sess x).size ∨ (s'.sess x).pager ≠ (s.sess x).pager ∨ (s'.sess x).conn ≠ (s.sess x).conn) :
    Moment s0 ls (fun s => s.table n = some x) := by
  have hk := (known_run h).2
  simp only [step, go] at hs
  cases hq : s.req r with
  | idle => rw [hq] at hs; cases hs
  | done a => rw [hq] at hs; cases hs
  | asked n' m' =>
    rw [hq] at hs
    cases m' <;> dsimp only at hs <;> split at hs <;> cases hs <;> simp [setReq] at hc
  | found n' z x' =>
    rw [hq] at hs
    dsimp only at hs
    split at hs
    · cases hs
    · split at hs <;> cases hs <;> simp only [setReq, setSess, upd_apply] at hc <;> split at hc <;> simp_all
  | pager n' z x' =>
    rw [hq] at hs hk
    dsimp only at hs
    by_cases e : x = x'
    · exact e ▸ hk.2.2.1
    · split at hs <;> cases hs <;> simp [answer, setReq, setSess, upd_apply, e] at hc
  | again n' z x' =>
    rw [hq] at hs
    dsimp only at hs
    split at hs <;> cases hs <;> simp only [answer, setReq, setSess, upd_apply] at hc
    · by_cases e : x = x'
      · subst e; simp only [if_pos, ne_eq, not_true_eq_false, or_false] at hc
      · simp only [if_neg e, ne_eq, not_true_eq_false, or_false] at hc
    · simp only [ne_eq, not_true_eq_false, or_false] at hc
  | shell n' z x' y =>
    rw [hq] at hs hk
    dsimp only at hs
    by_cases e : x = y
    · exact e ▸ hk.2.2
    · split at hs <;> cases hs <;> simp only [answer, setReq, setSess, upd_apply] at hc <;> split at hc <;> simp_all
  | leave n' y =>
    rw [hq] at hs hk
    dsimp only at hs
    by_cases e : x = y
    · exact e ▸ hk.2.2
    · split at hs <;> cases hs <;> simp [setReq, setSess, upd_apply, e] at hc

/-- A resize request that is answered while another session takes a second name, one for a session with a pager, and one for a session that goes. -/
example : (∃ s0 s, Asked [.create 0 80 7] s0 0 0 (.resize 100) [.go 0 true, .go 0 true, .create 1 80 8, .go 0 true, .go 0 true] s ∧
      s.req 0 = .done (some .resizeOk) ∧ (s.sess 0).size = 100) ∧
    (∃ s0 s, Asked [.create 0 80 7, .showPager 0 80] s0 0 0 (.resize 100) [.go 0 true, .go 0 true, .go 0 true] s ∧
      s.req 0 = .done (some .resizeOk) ∧ (s.sess 0).size = 80 ∧ (s.sess 0).pager = some 100) ∧
    (∃ s0 s, Asked [.create 0 80 7] s0 0 0 (.resize 100) [.go 0 true, .go 0 true, .remove 0, .go 0 true] s ∧ s.req 0 = .done (some .notFound)) ∧
    (∃ s0 s, Asked [.create 0 80 7] s0 0 0 .detach [.go 0 true, .go 0 true] s ∧ s.req 0 = .done (some .detachOk)) :=
  ⟨⟨_, _, ⟨_, rfl, rfl, rfl⟩, rfl, rfl⟩, ⟨_, _, ⟨_, rfl, rfl, rfl⟩, rfl, rfl, rfl⟩, ⟨_, _, ⟨_, rfl, rfl, rfl⟩, rfl⟩, ⟨_, _, ⟨_, rfl, rfl, rfl⟩, rfl⟩⟩

end Shpool.Message
