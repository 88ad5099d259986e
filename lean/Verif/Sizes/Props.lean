import Verif.Sizes.Model
/-!
# C154: who changes the size of a session
-/

namespace Shpool.Sizes

@[simp] theorem upd_apply {α : Type} (f : Nat → α) (i : Nat) (x : α) (j : Nat) : upd f i x j = if j = i then x else f j := rfl

/-- No signal is waiting or being handled in this client. -/
def Client.quiet (c : Client) : Prop := c.pending = false ∧ c.hand = .idle

/-- The full claim: as long as a client is attached to a session, the size of the session changes only by a request of that client. -/
def C154_statement : Prop := ∀ term ls s l s' n c, Run term ls s → step s l = some s' → s.owner n = some c → s'.owner n = some c →
  s'.size n ≠ s.size n → l = .send c

/-- Client 0 has a terminal 80 columns wide, client 1 one of 100. -/
def terms : Nat → Nat := fun c => if c = 0 then 80 else 100

/-- Client 0 is attached; in another terminal an attach to the same session is refused, and that terminal is resized before the process has
ended. -/
def refusedOne : List Label :=
  [.begin 0 7, .readSize 0, .ask 0, .begin 1 7, .readSize 1, .ask 1, .resize 1 120, .take 1, .read 1]

/-- The claim is false: a client that was refused resizes the session of the one that is attached. -/
theorem C154_false : ¬ C154_statement := by
  intro h
  have := h terms refusedOne _ (.send 1) _ 7 0 rfl rfl rfl rfl (by decide)
  cases this

/-- Afterwards the session has the size of the refused client's terminal, with nothing left to be handled, and keeps it. -/
theorem C154_false_size : ∃ s, Run terms (refusedOne ++ [.send 1, .quit 1]) s ∧ s.owner 7 = some 0 ∧ (s.cl 0).main = .attached 7 ∧
    (∀ c, (s.cl c).quiet) ∧ (s.cl 0).term = 80 ∧ s.size 7 = some 120 := by
  refine ⟨_, rfl, rfl, rfl, fun c => ?_, rfl, rfl⟩
  by_cases h0 : c = 0
  · subst h0; exact ⟨rfl, rfl⟩
  · by_cases h1 : c = 1
    · subst h1; exact ⟨rfl, rfl⟩
    · simp [Client.quiet, setCl, init, h0, h1]

/-- A client that has been detached so that another one could attach, and whose terminal was resized just before, still does it. -/
theorem C154_false_former : ∃ s s', Run terms [.begin 0 7, .readSize 0, .ask 0, .resize 0 120, .take 0, .read 0, .lose 7, .begin 1 7,
    .readSize 1, .ask 1] s ∧ step s (.send 0) = some s' ∧ s.owner 7 = some 1 ∧ s.size 7 = some 100 ∧ s'.owner 7 = some 1 ∧
    s'.size 7 = some 120 := ⟨_, _, rfl, rfl, rfl, rfl, rfl, rfl⟩

/-- A client that follows its template to a session that somebody else has already does it. -/
theorem C154_false_switch : ∃ s s', Run terms [.begin 0 7, .readSize 0, .ask 0, .begin 1 8, .readSize 1, .ask 1, .switchTo 1 7, .setSlot 1,
    .resize 1 120, .take 1, .read 1] s ∧ step s (.send 1) = some s' ∧ s.owner 7 = some 0 ∧ s.size 7 = some 80 ∧ s'.owner 7 = some 0 ∧
    s'.size 7 = some 120 := ⟨_, _, rfl, rfl, rfl, rfl, rfl, rfl⟩

/-! ## Exactly who does it -/

/-- What is so in every state. -/
structure Ok (s : St) : Prop where
  resized : ∀ c, (s.cl c).pending = true ∨ (s.cl c).hand ≠ .idle → (s.cl c).resized = true ∧ (s.cl c).main ≠ .off
  sending : ∀ c z, (s.cl c).hand = .sending z → z = (s.cl c).term ∨ (s.cl c).pending = true
  aims : ∀ c n, (∃ z, (s.cl c).main = .sized n z) ∨ (s.cl c).main = .start n ∨ (s.cl c).main = .attached n ∨
    (s.cl c).main = .refused n → (s.cl c).slot = n
  there : ∀ n c, s.owner n = some c → s.size n ≠ none

theorem ok_step {s s' : St} {l : Label} (hI : Ok s) (h : step s l = some s') : Ok s' := by
  obtain ⟨h1, h2, h3, h4⟩ := hI
  cases l <;> simp only [step] at h
  all_goals
    (repeat' split at h) <;> first
      | (cases h; done)
      | (cases h
         refine ⟨?_, ?_, ?_, ?_⟩
         all_goals
           simp only [setCl, upd_apply]
           grind)

theorem ok_run {term : Nat → Nat} {ls : List Label} {s : St} (h : Run term ls s) : Ok s :=
  run_inv (I := Ok) (fun _ _ _ hi hs => ok_step hi hs)
    ⟨by simp [init], by simp [init], by simp [init], by simp [init]⟩ h

/-- **C154**, exactly: the size of a session somebody has changes only by a resize request of a client, attached or not, that was started
for this session or is on its way to it, whose terminal has been resized since it was started; the new size is the one its terminal had
when the signal was handled. -/
theorem C154_who_partial {term : Nat → Nat} {ls : List Label} {s s' : St} {l : Label} {n c : Nat} (hr : Run term ls s)
    (hs : step s l = some s') (h0 : s.owner n = some c) (h1 : s'.owner n = some c) (hne : s'.size n ≠ s.size n) :
    ∃ c', l = .send c' ∧ (s.cl c').slot = n ∧ (s.cl c').resized = true ∧ (s.cl c').main ≠ .off ∧
      ∃ z, (s.cl c').hand = .sending z ∧ s'.size n = some z := by
  have hok := ok_run hr
  cases l with
  | send c' =>
    simp only [step] at hs
    split at hs
    · rename_i z hz
      have hx := hok.resized c' (.inr (by rw [hz]; exact Hand.noConfusion))
      split at hs
      · cases hs; exact absurd rfl hne
      · cases hs
        simp only [upd_apply] at hne
        by_cases e : n = (s.cl c').slot
        · exact ⟨c', rfl, e.symm, hx.1, hx.2, z, hz, by simp [e]⟩
        · rw [if_neg e] at hne; exact absurd rfl hne
    · cases hs
  | _ =>
    exfalso
    simp only [step] at hs
    (repeat' split at hs) <;> first
      | (cases hs; done)
      | (cases hs; simp only [setCl, upd_apply] at h0 h1 hne; grind)

/-- The user resizes the terminal of client `c`, and its signal thread runs. -/
def ofHand (c : Nat) : Label → Bool
  | .resize d _ | .take d | .read d | .send d | .fail d => d == c
  | _ => false

/-- **C154**, exactly: whoever has a session, resizing the terminal of a client can resize the session, with nothing else happening, iff that client runs and
was started for this session or is on its way to it. -/
theorem C154_exact {term : Nat → Nat} {ls : List Label} {s : St} {n c : Nat} (hr : Run term ls s) (h0 : s.owner n = some c) (c' : Nat) :
    (∃ ls' s', (∀ l ∈ ls', ofHand c' l = true) ∧ runSteps step s ls' = some s' ∧ s'.size n ≠ s.size n) ↔
      (s.cl c').main ≠ .off ∧ (s.cl c').slot = n := by
  obtain ⟨h1, h2, h3, h4⟩ := ok_run hr
  constructor
  · rintro ⟨ls', s', hl, hrun, hne⟩
    refine Classical.byContradiction fun hno => hne ?_
    have key : ∀ (ls' : List Label) (u u' : St), (∀ l ∈ ls', ofHand c' l = true) → runSteps step u ls' = some u' →
        (((u.cl c').main = .off ∧ (u.cl c').hand = .idle ∧ (u.cl c').pending = false) ∨ (u.cl c').slot ≠ n) → u'.size n = u.size n := by
      intro ls'
      induction ls' with
      | nil => intro u u' _ h _; cases h; rfl
      | cons l ls' ih =>
        intro u u' hl h hu
        obtain ⟨t, ht, h⟩ := run_cons_some h
        have hl1 := hl l List.mem_cons_self
        have step1 : (((t.cl c').main = .off ∧ (t.cl c').hand = .idle ∧ (t.cl c').pending = false) ∨ (t.cl c').slot ≠ n) ∧ t.size n = u.size n := by
          cases l <;> simp [ofHand] at hl1
          all_goals
            subst hl1
            simp only [step] at ht
            (repeat' split at ht) <;> cases ht
          all_goals first
            | (simp_all [setCl]; done)
            | (rcases hu with hu | hu
               · simp_all [setCl]
               · refine ⟨.inr (by simpa [setCl] using hu), ?_⟩
                 simp [setCl, Ne.symm hu])
        exact (ih t u' (fun l hl' => hl l (List.mem_cons_of_mem _ hl')) h step1.1).trans step1.2
    refine key ls' s s' hl hrun ?_
    by_cases hm : (s.cl c').main = .off
    · exact .inl ⟨hm, Classical.byContradiction fun h => (h1 c' (.inr h)).2 hm, by
        refine Bool.eq_false_iff.mpr fun h => (h1 c' (.inl h)).2 hm⟩
    · exact .inr fun e => hno ⟨hm, e⟩
  · rintro ⟨hm, hsl⟩
    obtain ⟨z, hz⟩ := Option.ne_none_iff_exists'.mp (h4 n c h0)
    by_cases hh : (s.cl c').hand = .idle
    · refine ⟨[.resize c' (z + 1), .take c', .read c', .send c'], _, by simp [ofHand], by simp [runSteps, step, setCl, hm, hh, hsl, hz]; rfl, ?_⟩
      simp [hz]
    · refine ⟨[.fail c', .resize c' (z + 1), .take c', .read c', .send c'], _, by simp [ofHand], by simp [runSteps, step, setCl, hm, hh, hsl, hz]; rfl, ?_⟩
      simp [hz]

/-- The client that is refused in `C154_false`. -/
example : ∃ s, Run terms [.begin 0 7, .readSize 0, .ask 0, .begin 1 7, .readSize 1, .ask 1] s ∧ s.owner 7 = some 0 ∧ (s.cl 1).main = .refused 7 ∧ (s.cl 1).slot = 7 :=
  ⟨_, rfl, rfl, rfl, rfl⟩

/-- Nobody else is aimed at the session with a terminal that has been resized: then it is its own client. -/
theorem C154_alone_partial {term : Nat → Nat} {ls : List Label} {s s' : St} {l : Label} {n c : Nat} (hr : Run term ls s)
    (hs : step s l = some s') (h0 : s.owner n = some c) (h1 : s'.owner n = some c) (hne : s'.size n ≠ s.size n)
    (hc : ∀ c', (s.cl c').slot = n → (s.cl c').resized = true → (s.cl c').main = .off ∨ c' = c) : l = .send c := by
  obtain ⟨c', e, h2, h3, h4, -⟩ := C154_who_partial hr hs h0 h1 hne
  rcases hc c' h2 h3 with h | h
  · exact absurd h h4
  · rw [e, h]

/-- The condition is met: others may be resized, if they are elsewhere. -/
example : ∃ s s', Run terms [.begin 0 7, .readSize 0, .ask 0, .begin 1 8, .resize 1 120, .resize 0 90, .take 0, .read 0] s ∧
    step s (.send 0) = some s' ∧ s.owner 7 = some 0 ∧ s'.owner 7 = some 0 ∧ s'.size 7 ≠ s.size 7 ∧
    (∀ c', (s.cl c').slot = 7 → (s.cl c').resized = true → (s.cl c').main = .off ∨ c' = 0) := by
  refine ⟨_, _, rfl, rfl, rfl, rfl, by decide, fun c' => ?_⟩
  by_cases h0 : c' = 0
  · intro _ _; exact .inr h0
  · by_cases h1 : c' = 1
    · subst h1; intro e; exact absurd e (by decide)
    · simp [setCl, init, h0, h1]

/-! ## The size follows the terminal of the client -/

/-- A condition on all steps, with the states they are taken in. -/
def Always (P : St → Label → Prop) : St → List Label → Prop
  | _, [] => True
  | s, l :: ls => P s l ∧ ∀ s', step s l = some s' → Always P s' ls

/-- A resize request is sent by a client that has the session it names, and none fails. -/
def Own (s : St) : Label → Prop
  | .send c => (s.cl c).main = .attached (s.cl c).slot ∧ s.owner (s.cl c).slot = some c
  | .fail _ => False
  | _ => True

instance (s : St) (l : Label) : Decidable (Own s l) := by
  cases l <;> simp only [Own] <;> infer_instance

def decideAlways {P : St → Label → Prop} [∀ s l, Decidable (P s l)] : ∀ (ls : List Label) (s : St), Decidable (Always P s ls)
  | [], _ => .isTrue trivial
  | l :: ls, s =>
    match h : step s l with
    | none => if hp : P s l then .isTrue ⟨hp, fun s' e => by rw [h] at e; cases e⟩ else .isFalse fun hf => hp hf.1
    | some s1 =>
      if hp : P s l then
        match decideAlways ls s1 with
        | .isTrue ht => .isTrue ⟨hp, fun s' e => by rw [h] at e; cases e; exact ht⟩
        | .isFalse hf => .isFalse fun ha => hf (ha.2 s1 h)
      else .isFalse fun hf => hp hf.1

instance {P : St → Label → Prop} [∀ s l, Decidable (P s l)] (s : St) (ls : List Label) : Decidable (Always P s ls) := decideAlways ls s

/-- The size is that of the terminal or will be. -/
def Due (x : Client) (z : Nat) : Prop := z = x.term ∨ x.pending = true ∨ x.hand = .reading ∨ x.hand = .sending x.term

structure Fits (s : St) : Prop where
  ok : Ok s
  sized : ∀ c n z, (s.cl c).main = .sized n z → Due (s.cl c) z
  attached : ∀ c n, (s.cl c).main = .attached n → s.owner n = some c → ∃ z, s.size n = some z ∧ Due (s.cl c) z

set_option maxHeartbeats 1000000 in
theorem fits_step {s s' : St} {l : Label} (hI : Fits s) (hp : Own s l) (h : step s l = some s') : Fits s' := by
  obtain ⟨hok, h1, h2⟩ := hI
  have hok' := ok_step hok h
  obtain ⟨o1, o2, o3, o4⟩ := hok
  refine ⟨hok', ?_, ?_⟩
  all_goals unfold Due at *
  all_goals cases l <;> simp only [step] at h <;> simp only [Own] at hp
  all_goals
    (repeat' split at h) <;> first
      | (cases h; done)
      | (cases h
         simp only [setCl, upd_apply]
         grind)

/-- **C154** (part): if every resize request comes from the client that has the session, and none fails, every session has the size of the
terminal of the client attached to it whenever no signal is waiting or being handled there — whatever other clients do. -/
theorem C154_follows_partial {term : Nat → Nat} {ls : List Label} {s : St} (h : Run term ls s) (hp : Always Own (init term) ls) {c n : Nat}
    (hm : (s.cl c).main = .attached n) (ho : s.owner n = some c) (hq : (s.cl c).quiet) : s.size n = some (s.cl c).term := by
  have key : ∀ (ls : List Label) (s0 : St), Fits s0 → Always Own s0 ls → runSteps step s0 ls = some s → Fits s := by
    intro ls
    induction ls with
    | nil => intro s0 hi _ hr; cases hr; exact hi
    | cons l ls ih =>
      intro s0 hi ha hr
      obtain ⟨s1, e1, e2⟩ := run_cons_some hr
      exact ih s1 (fits_step hi ha.1 e1) (ha.2 s1 e1) e2
  have hf := key ls (init term) ⟨ok_run (ls := []) rfl, by simp [init], by simp [init]⟩ hp h
  obtain ⟨z, hz, hd⟩ := hf.attached c n hm ho
  rw [hz]
  rcases hd with e | e | e | e
  · rw [e]
  · rw [hq.1] at e; cases e
  · rw [hq.2] at e; cases e
  · rw [hq.2] at e; cases e

/-- Two clients take turns in one session, and a third one is refused there; both are resized while they have it. -/
def turns : List Label :=
  [.begin 0 7, .readSize 0, .ask 0, .resize 0 90, .take 0, .resize 0 95, .read 0, .send 0, .take 0, .read 0, .send 0, .begin 2 7, .readSize 2,
   .ask 2, .quit 2, .lose 7, .begin 1 7, .readSize 1, .ask 1, .resize 1 120, .notice 0, .take 1, .read 1, .send 1, .quit 0]

example : ∃ s, Run terms turns s ∧ Always Own (init terms) turns ∧ (s.cl 1).main = .attached 7 ∧ s.owner 7 = some 1 ∧ (s.cl 1).quiet ∧
    s.size 7 = some 120 := by
  refine ⟨_, rfl, ?_, rfl, rfl, ⟨rfl, rfl⟩, rfl⟩
  decide

end Shpool.Sizes
