import Verif.Server.Inv
/-!
# Sessions of different names do not touch each other
-/

namespace Shpool.Server

/-- The name a client asked for when it sent its attach request. -/
def asked : List Label → Nat → Option Name
  | [], _ => none
  | .select t' n _ :: ls, t => if t' = t then some n else asked ls t
  | _ :: ls, t => asked ls t

/-- The names a step is about, after the history `ls` ending in `s`: for the steps of an attach request the name its client asked
for, for the other requests the names in them, for the end of a shell or of its thread the name of its session. -/
def about (ls : List Label) (s : St) : Label → List Name
  | .select _ n _ => [n]
  | .spawn t | .spawnFails t | .insert t | .lookup t | .acquire t | .start t | .abort t | .clientGone t | .childDone t | .unlink t
  | .release t => (asked ls t).toList
  | .exit x | .s2cEnds x => [(s.sess x).name]
  | .kill names _ | .detach names => names
  | .reap n _ => [n]
  | .tick _ => []

/-- The name a request works under, as far as its state still has it. -/
def Phase.name : Phase → Option Name
  | .making n | .spawned n _ | .inserted n _ | .blocked n _ | .owns n _ | .streaming n _ | .ending n _ _ => some n
  | _ => none

theorem asked_append (ls : List Label) (l : Label) (t : Nat) :
    asked (ls ++ [l]) t = (asked ls t).or (asked [l] t) := by
  induction ls with
  | nil => cases l <;> simp [asked]
  | cons k ls ih =>
    cases k <;> simp only [List.cons_append, asked] <;> try exact ih
    split
    · rfl
    · exact ih

structure Named (ls : List Label) (s : St) : Prop where
  inv : Inv s
  idle : ∀ t, s.thr t = .idle → asked ls t = none
  name : ∀ t n, (s.thr t).name = some n → asked ls t = some n
  leaving : ∀ t x, s.thr t = .leaving x → asked ls t = some (s.sess x).name

set_option maxHeartbeats 2000000 in
theorem named_step {ls : List Label} {s s' : St} {l : Label} (h : Named ls s) (he : Eff s l s') : Named (ls ++ [l]) s' := by
  have hi := inv_step h.inv he
  obtain ⟨⟨-, -, -, a4, a5, a6, a7, a8, a9, a10, -, -⟩, b1, b2, b3⟩ := h
  cases he
  case kill names fail _ =>
    have k1 := kill_fields s names fail
    have k3 := kill_thr s names fail
    refine ⟨hi, ?_, ?_, ?_⟩ <;> intro t <;> simp only [asked_append, asked, k3, k1] <;> grind
  case detach names _ =>
    have k1 := detach_fields s names
    have k3 : (detach s names).1.thr = s.thr := rfl
    refine ⟨hi, ?_, ?_, ?_⟩ <;> intro t <;> simp only [asked_append, asked, k3, k1] <;> grind
  all_goals
    refine ⟨hi, ?_, ?_, ?_⟩
    all_goals
      intro t
      try simp only [asked_append, asked, setThr, setSess, upd_apply, Sess.recordAttached, Sess.recordDetached]
      have c1 := b1 t
      have c2 := b2 t
      have c3 := b3 t
      clear hi
      grind [Phase.name]

theorem named_of_run {ls : List Label} {s : St} (h : Run ls s) : Named ls s :=
  run_hist (I := fun (ls : List Label) (s : St) => Named ls s) (fun _ _ _ _ hi hs => named_step hi (step_eff hs))
    ⟨inv_init, fun _ _ => rfl, by simp [init, Phase.name], by simp [init]⟩ h

/-- A client is only ever connected to a session created under the name it asked for, from selecting the session to the end. -/
theorem C135_own_name {ls : List Label} {s : St} (h : Run ls s) {t x : Nat} (hx : (s.thr t).holds x) :
    asked ls t = some (s.sess x).name := by
  have hn := named_of_run h
  have h2 := hn.name t
  cases e : s.thr t with
  | owns n y => rw [e] at hx h2; cases hx; rw [(hn.inv.owns t n x e).2]; exact h2 n rfl
  | streaming n y => rw [e] at hx h2; cases hx; rw [(hn.inv.streaming t n x e).2]; exact h2 n rfl
  | ending n y b => rw [e] at hx h2; cases hx; rw [(hn.inv.ending t n x b e).2]; exact h2 n rfl
  | leaving y => rw [e] at hx; cases hx; exact hn.leaving t x e
  | _ => rw [e] at hx; exact hx.elim

/-- The table shows every session under the name it was created with. -/
theorem C135_table {ls : List Label} {s : St} (h : Run ls s) {n : Name} {x : Nat} (hx : find n s.table = some x) :
    (s.sess x).name = n := ((inv_of_run h).tbl n x hx).2

/-- What there is of the sessions called `m` in a state: the entry of the table, the sessions with that name and the requests of
the clients that asked for it. -/
structure Same (m : Name) (ls : List Label) (s s' : St) : Prop where
  table : find m s'.table = find m s.table
  sess : ∀ x, x < s.next → (s.sess x).name = m → s'.sess x = s.sess x
  fresh : ∀ x, s.next ≤ x → x < s'.next → (s'.sess x).name ≠ m
  thr : ∀ t, asked ls t = some m → s'.thr t = s.thr t

theorem next_le {s s' : St} {l : Label} (h : step s l = some s') : s.next ≤ s'.next := by
  have he := step_eff h
  cases he
  case kill names fail _ => rw [kill_next]; exact Nat.le_refl _
  all_goals first | exact Nat.le_refl _ | exact Nat.le_succ _

theorem name_step {s s' : St} {l : Label} (h : step s l = some s') {x : Nat} (hx : x < s.next) :
    (s'.sess x).name = (s.sess x).name := by
  have he := step_eff h
  cases he
  case kill names fail _ => exact (kill_fields s names fail x).1
  case detach names _ => exact (detach_fields s names x).1
  all_goals
    try simp only [setThr, setSess, upd_apply, Sess.recordAttached, Sess.recordDetached]
    try grind

theorem name_steps : ∀ {more : List Label} {s s' : St}, runSteps step s more = some s' → ∀ {x : Nat}, x < s.next →
    x < s'.next ∧ (s'.sess x).name = (s.sess x).name := by
  intro more
  induction more with
  | nil => intro s s' h x hx; cases h; exact ⟨hx, rfl⟩
  | cons l more ih =>
    intro s s' h x hx
    obtain ⟨s1, h1, h2⟩ := run_cons_some h
    have := ih h2 (Nat.lt_of_lt_of_le hx (next_le h1))
    exact ⟨this.1, this.2.trans (name_step h1 hx)⟩

/-- A session keeps the name it was created with for ever. -/
theorem C135_name_stays {ls more : List Label} {s s' : St} (h : Run ls s) (h' : Run (ls ++ more) s') {x : Nat} (hx : x < s.next) :
    (s'.sess x).name = (s.sess x).name := by
  obtain ⟨s0, g1, g2⟩ := run_append_some h'
  have : s0 = s := Option.some.inj (g1.symm.trans h)
  subst this
  exact (name_steps g2 hx).2

theorem list_find (s : St) (m : Name) : (list s).find? (fun r => r.name = m) =
    (find m s.table).map (fun x => ⟨m, (s.sess x).owner.isSome, (s.sess x).lastConn, (s.sess x).lastDisc, (s.sess x).attachment⟩) := by
  unfold list find
  induction s.table with
  | nil => rfl
  | cons p tb ih =>
    rw [List.map_cons, List.find?_cons, List.find?_cons]
    by_cases e : p.1 = m
    · simp [e]
    · simp only [e, decide_false]
      exact ih

set_option maxHeartbeats 2000000 in
/-- A step that is not about a name changes nothing of the sessions with that name. -/
theorem C135_separate {ls : List Label} {s s' : St} (h : Run ls s) {l : Label} (hs : step s l = some s') {m : Name}
    (hm : m ∉ about ls s l) : Same m ls s s' := by
  have hn := named_of_run h
  have he := step_eff hs
  obtain ⟨⟨-, -, -, a4, a5, a6, a7, a8, a9, a10, -, -⟩, b1, b2, b3⟩ := hn
  cases he
  case kill names fail _ =>
    simp only [about] at hm
    refine ⟨?_, ?_, ?_, ?_⟩
    · rcases kill_find s names fail m with e | ⟨-, e⟩
      · exact e
      · exact absurd e hm
    · intro x hx e
      have := killLoop_sess s.table names s.sess fail x
      rw [kill]
      split <;> grind
    · intro x h1 h2
      rw [kill_next] at h2
      omega
    · intro t _
      rw [kill_thr]
  case detach names _ =>
    simp only [about] at hm
    refine ⟨rfl, ?_, ?_, fun _ _ => rfl⟩
    · intro x hx e
      rcases detach_sess s names x with e | ⟨-, -, n, hn, hf⟩
      · exact e
      · have := a4 n x hf
        grind
    · intro x (h1 : s.next ≤ x) (h2 : x < s.next)
      omega
  all_goals
    simp only [about] at hm
    have c2 := fun t' n' => b2 t' n'
    refine ⟨?_, ?_, ?_, ?_⟩
    all_goals
      try simp only [setThr, setSess, upd_apply, Sess.recordAttached, Sess.recordDetached, find_insert, find_erase]
      try grind [Phase.name]

/-- Along a whole stretch of history none of whose steps is about a name, nothing of the sessions with that name changes, and the
list shows the same line for it. -/
theorem C135_stretch {m : Name} : ∀ {more ls : List Label} {s s' : St}, Run ls s → Run (ls ++ more) s' →
    (∀ pre l post s1, more = pre ++ l :: post → Run (ls ++ pre) s1 → m ∉ about (ls ++ pre) s1 l) →
    Same m ls s s' ∧ (list s').find? (fun r => r.name = m) = (list s).find? (fun r => r.name = m) := by
  have key : ∀ {more ls : List Label} {s s' : St}, Run ls s → Run (ls ++ more) s' →
    (∀ pre l post s1, more = pre ++ l :: post → Run (ls ++ pre) s1 → m ∉ about (ls ++ pre) s1 l) →
    s.next ≤ s'.next ∧ Same m ls s s' := by
    intro more
    induction more with
    | nil =>
      intro ls s s' h h' _
      rw [List.append_nil] at h'
      have : s' = s := Option.some.inj (h'.symm.trans h)
      subst this
      exact ⟨Nat.le_refl _, rfl, fun _ _ _ => rfl, fun x h1 h2 => absurd h2 (by omega), fun _ _ => rfl⟩
    | cons l more ih =>
      intro ls s s' h h' hq
      have e : ls ++ l :: more = (ls ++ [l]) ++ more := by simp
      rw [e] at h'
      obtain ⟨s1, h1, h2⟩ := run_append_some h'
      have hstep : step s l = some s1 := by
        obtain ⟨s0, g1, g2⟩ := run_append_some h1
        have : s0 = s := Option.some.inj (g1.symm.trans h)
        subst this
        obtain ⟨s2, g3, g4⟩ := run_cons_some g2
        cases g4
        exact g3
      have hA := C135_separate h hstep (by simpa using hq [] l more s rfl (by simpa using h))
      have hB := ih (ls := ls ++ [l]) h1 h' (fun pre k post s3 e3 h3 => by
        have := hq (l :: pre) k post s3 (by simp [e3]) (by simpa using h3)
        simpa using this)
      have hle := next_le hstep
      refine ⟨Nat.le_trans hle hB.1, hB.2.table.trans hA.table, fun x hx hn => ?_, fun x hx hx' => ?_, fun t ht => ?_⟩
      · have e1 := hA.sess x hx hn
        rw [← e1]
        exact hB.2.sess x (by omega) (by rw [e1]; exact hn)
      · by_cases hlt : x < s1.next
        · intro hn
          have hne := hA.fresh x hx hlt
          have := (name_steps h2 hlt).2
          rw [this] at hn
          exact hne hn
        · exact hB.2.fresh x (by omega) hx'
      · rw [hB.2.thr t (by rw [asked_append, ht]; rfl), hA.thr t ht]
  intro more ls s s' h h' hq
  obtain ⟨-, hS⟩ := key h h' hq
  refine ⟨hS, ?_⟩
  rw [list_find, list_find, hS.table]
  cases e : find m s.table with
  | none => rfl
  | some x =>
    obtain ⟨hx, hn⟩ := (inv_of_run h).tbl m x e
    rw [Option.map_some, Option.map_some, hS.sess x hx hn]

/-- Two histories agree about the name `m`: the same sessions with that name and the same requests for it; and the locks and clocks
are the same. -/
structure Agree (m : Name) (ls1 : List Label) (s1 : St) (ls2 : List Label) (s2 : St) : Prop where
  table : find m s2.table = find m s1.table
  next : s2.next = s1.next
  sess : ∀ x, x < s1.next → ((s1.sess x).name = m ∨ (s2.sess x).name = m) → s2.sess x = s1.sess x
  asks : ∀ t, asked ls1 t = some m ↔ asked ls2 t = some m
  thr : ∀ t, asked ls1 t = some m → s2.thr t = s1.thr t
  lock : s2.lock = s1.lock
  now : s2.now = s1.now

theorem killLoop_agree {m : Name} {tb1 tb2 : Table} (ht : find m tb2 = find m tb1) (names : List Name) :
    ∀ (σ1 σ2 : Nat → Sess) (fail : Option Nat), (∀ n ∈ names, n = m) → (∀ x, find m tb1 = some x → σ2 x = σ1 x) →
    (killLoop tb2 σ2 names fail).toRemove = (killLoop tb1 σ1 names fail).toRemove ∧
    (killLoop tb2 σ2 names fail).notFound = (killLoop tb1 σ1 names fail).notFound ∧
    (killLoop tb2 σ2 names fail).ok = (killLoop tb1 σ1 names fail).ok ∧
    ∀ x, σ2 x = σ1 x → (killLoop tb2 σ2 names fail).sess x = (killLoop tb1 σ1 names fail).sess x := by
  induction names with
  | nil => intro σ1 σ2 fail _ _; exact ⟨rfl, rfl, rfl, fun _ h => h⟩
  | cons n ns ih =>
    intro σ1 σ2 fail hn hx
    have en := hn n (by simp)
    subst en
    have hn' := fun k hk => hn k (List.mem_cons_of_mem _ hk)
    rw [killLoop, killLoop, ht]
    cases e : find n tb1 with
    | none =>
      obtain ⟨a, b, c, d⟩ := ih σ1 σ2 fail hn' hx
      exact ⟨a, by simp [b], c, d⟩
    | some x =>
      have hxx := hx x e
      have h1 : ∀ y, find n tb1 = some y →
          upd σ2 x { σ2 x with alive := false } y = upd σ1 x { σ1 x with alive := false } y := by
        intro y hy
        rw [e] at hy
        cases hy
        simp [hxx]
      cases fail with
      | none =>
        obtain ⟨a, b, c, d⟩ := ih _ _ none hn' h1
        refine ⟨by simpa using a, b, c, fun y hy => d y ?_⟩
        simp only [upd_apply, hy, hxx]
      | some k =>
        cases k with
        | zero => exact ⟨rfl, rfl, rfl, fun _ h => h⟩
        | succ k =>
          obtain ⟨a, b, c, d⟩ := ih _ _ (some k) hn' h1
          refine ⟨by simpa using a, b, c, fun y hy => d y ?_⟩
          simp only [upd_apply, hy, hxx]

theorem detachLoop_agree {m : Name} {tb1 tb2 : Table} (now : Nat) (ht : find m tb2 = find m tb1) (names : List Name) :
    ∀ (σ1 σ2 : Nat → Sess), (∀ n ∈ names, n = m) → (∀ x, find m tb1 = some x → σ2 x = σ1 x) →
    (detachLoop tb2 now σ2 names).notFound = (detachLoop tb1 now σ1 names).notFound ∧
    (detachLoop tb2 now σ2 names).notAttached = (detachLoop tb1 now σ1 names).notAttached ∧
    (detachLoop tb2 now σ2 names).ok = (detachLoop tb1 now σ1 names).ok ∧
    ∀ x, σ2 x = σ1 x → (detachLoop tb2 now σ2 names).sess x = (detachLoop tb1 now σ1 names).sess x := by
  induction names with
  | nil => intro σ1 σ2 _ _; exact ⟨rfl, rfl, rfl, fun _ h => h⟩
  | cons n ns ih =>
    intro σ1 σ2 hn hx
    have en := hn n (by simp)
    subst en
    have hn' := fun k hk => hn k (List.mem_cons_of_mem _ hk)
    rw [detachLoop, detachLoop, ht]
    cases e : find n tb1 with
    | none =>
      obtain ⟨a, b, c, d⟩ := ih σ1 σ2 hn' hx
      exact ⟨by simp [a], b, c, d⟩
    | some x =>
      have hxx := hx x e
      dsimp only
      rw [hxx]
      split
      · exact ⟨rfl, rfl, rfl, fun _ h => h⟩
      · split
        · obtain ⟨a, b, c, d⟩ := ih (upd σ1 x { (σ1 x).recordDetached now with conn := false })
            (upd σ2 x { (σ1 x).recordDetached now with conn := false }) hn' (by
              intro y hy
              rw [e] at hy
              cases hy
              simp)
          refine ⟨a, b, c, fun y hy => d y ?_⟩
          simp only [upd_apply, hy]
        · obtain ⟨a, b, c, d⟩ := ih σ1 σ2 hn' hx
          exact ⟨a, by simp [b], c, d⟩

set_option hygiene false in
local macro "agree" : tactic => `(tactic| (
  refine ⟨?_, ?_, ?_, ?_, ?_, ?_, ?_⟩
  all_goals
    clear hs hs2 h1 h2 n2 i1 i2 hnew ph pl sl fs b2 b3
    try simp only [setThr, setSess, upd_apply, Sess.recordAttached, Sess.recordDetached, find_insert, find_erase, asked_append,
      asked, Option.or_none]
    try grind))

set_option maxHeartbeats 4000000 in
theorem depends_select {m : Name} {ls1 ls2 : List Label} {s1 s2 : St} (i1 : Inv s1) (A : Agree m ls1 s1 ls2 s2) {t : Nat} {j : Bool}
    (n1 : asked ls1 t = none) (n2 : asked ls2 t = none) :
    Agree m (ls1 ++ [.select t m j]) (select s1 t m j) (ls2 ++ [.select t m j]) (select s2 t m j) := by
  obtain ⟨A1, A2, A3, A4, A5, A6, A7⟩ := A
  unfold select
  rw [A1, A7]
  cases e : find m s1.table with
  | none =>
    dsimp only
    refine ⟨?_, ?_, ?_, ?_, ?_, ?_, ?_⟩
    all_goals
      try simp only [setThr, setSess, upd_apply, asked_append, asked]
      try grind
  | some x =>
    have hx := i1.tbl m x e
    have hv := A3 x hx.1 (.inl hx.2)
    dsimp only
    rw [hv]
    cases eo : (s1.sess x).owner with
    | some o =>
      dsimp only
      refine ⟨?_, ?_, ?_, ?_, ?_, ?_, ?_⟩
      all_goals
        try simp only [setThr, setSess, upd_apply, asked_append, asked]
        try grind
    | none =>
      dsimp only
      split <;> split
      all_goals
        refine ⟨?_, ?_, ?_, ?_, ?_, ?_, ?_⟩
        all_goals
          try simp only [setThr, setSess, upd_apply, asked_append, asked, Sess.recordAttached]
          try grind

set_option maxHeartbeats 4000000 in
theorem depends_other {m : Name} {ls1 ls2 : List Label} {s1 s2 s1' : St} (h1 : Run ls1 s1) (h2 : Run ls2 s2)
    (A : Agree m ls1 s1 ls2 s2) {l : Label} (hs : step s1 l = some s1') (hm : ∀ n ∈ about ls1 s1 l, n = m)
    (hnew : ∀ t n j, l ≠ .select t n j) :
    ∃ s2', step s2 l = some s2' ∧ Agree m (ls1 ++ [l]) s1' (ls2 ++ [l]) s2' := by
  have n1 := named_of_run h1
  have n2 := named_of_run h2
  obtain ⟨i1, -, b2, b3⟩ := n1
  have i2 := n2.inv
  have he := step_eff hs
  obtain ⟨A1, A2, A3, A4, A5, A6, A7⟩ := A
  have ph : ∀ t n, (s1.thr t).name = some n → (∀ k ∈ (asked ls1 t).toList, k = m) → n = m ∧ s2.thr t = s1.thr t := by
    intro t n e hk
    have := b2 t n e
    have en := hk n (by simp [this])
    subst en
    exact ⟨rfl, A5 t this⟩
  have pl : ∀ t x, s1.thr t = .leaving x → (∀ k ∈ (asked ls1 t).toList, k = m) → (s1.sess x).name = m ∧ s2.thr t = s1.thr t := by
    intro t x e hk
    have := b3 t x e
    have en := hk (s1.sess x).name (by simp [this])
    exact ⟨en, A5 t (en ▸ this)⟩
  have sl : ∀ t n x, s1.thr t = .owns n x ∨ s1.thr t = .streaming n x ∨ (∃ b, s1.thr t = .ending n x b) ∨
      s1.thr t = .spawned n x ∨ s1.thr t = .blocked n x → n = m → s2.sess x = s1.sess x := by
    intro t n x e en
    subst en
    rcases e with e | e | ⟨b, e⟩ | e | e
    · exact A3 x (i1.owns t _ x e).1 (.inl (i1.owns t _ x e).2)
    · exact A3 x (i1.streaming t _ x e).1 (.inl (i1.streaming t _ x e).2)
    · exact A3 x (i1.ending t _ x b e).1 (.inl (i1.ending t _ x b e).2)
    · exact A3 x (i1.spawned t _ x e).1 (.inl (i1.spawned t _ x e).2.1)
    · have := i1.tbl _ x (i1.blk t _ x e).2
      exact A3 x this.1 (.inl this.2)
  have fs : ∀ x, find m s1.table = some x → s2.sess x = s1.sess x := by
    intro x hx
    have := i1.tbl _ x hx
    exact A3 x this.1 (.inl this.2)
  have ex : ∃ s2', step s2 l = some s2' := by
    cases he
    case fresh => exact absurd rfl (hnew _ _ _)
    case busy => exact absurd rfl (hnew _ _ _)
    case reattach => exact absurd rfl (hnew _ _ _)
    case clobber => exact absurd rfl (hnew _ _ _)
    case stale => exact absurd rfl (hnew _ _ _)
    case kill names fail hl => exact ⟨_, by simp only [step]; rw [if_pos (A6 ▸ hl)]⟩
    case detach names hl => exact ⟨_, by simp only [step]; rw [if_pos (A6 ▸ hl)]⟩
    case tick d => exact ⟨_, rfl⟩
    case exit x hx => exact ⟨_, by simp only [step]; rw [if_pos (A2 ▸ hx)]⟩
    case s2cEnds x hx => exact ⟨_, by simp only [step]; rw [if_pos (A2 ▸ hx)]⟩
    case reapNone n fails hl hf =>
      have := hm n (by simp [about])
      subst this
      exact ⟨s2, by simp [step, A6, hl, A1, hf]⟩
    case reap n fails x hl hf =>
      have := hm n (by simp [about])
      subst this
      simp only [step, A6, hl, A1, hf, if_true]
      exact ⟨_, rfl⟩
    all_goals simp only [about] at hm
    case spawn t n e =>
      obtain ⟨-, r⟩ := ph t n (by rw [e]; rfl) hm
      exact ⟨_, by simp only [step, r, e]; rfl⟩
    case spawnFails t n e =>
      obtain ⟨-, r⟩ := ph t n (by rw [e]; rfl) hm
      exact ⟨_, by simp only [step, r, e]; rfl⟩
    case insert t n x e hl =>
      obtain ⟨-, r⟩ := ph t n (by rw [e]; rfl) hm
      exact ⟨_, by simp only [step, r, e, A6, hl, if_true]; rfl⟩
    case lost t n x e hl hf =>
      obtain ⟨q, r⟩ := ph t n (by rw [e]; rfl) hm
      subst q
      exact ⟨_, by simp only [step, r, e, A6, hl, if_true, A1, hf]; rfl⟩
    case lookup t n x y e hl hf ho =>
      obtain ⟨q, r⟩ := ph t n (by rw [e]; rfl) hm
      subst q
      exact ⟨_, by simp only [step, r, e, A6, hl, if_true, A1, hf, fs y hf, ho]; rfl⟩
    case block t n x y o e hl hf ho =>
      obtain ⟨q, r⟩ := ph t n (by rw [e]; rfl) hm
      subst q
      exact ⟨_, by simp only [step, r, e, A6, hl, if_true, A1, hf, fs y hf, ho]; rfl⟩
    case acquire t n y e ho =>
      obtain ⟨q, r⟩ := ph t n (by rw [e]; rfl) hm
      have := sl t n y (.inr (.inr (.inr (.inr e)))) q
      exact ⟨_, by simp only [step, r, e, this, ho]; rfl⟩
    case start t n x e =>
      obtain ⟨-, r⟩ := ph t n (by rw [e]; rfl) hm
      exact ⟨_, by simp only [step, r, e]; rfl⟩
    case abort t n x e =>
      obtain ⟨-, r⟩ := ph t n (by rw [e]; rfl) hm
      exact ⟨_, by simp only [step, r, e]; rfl⟩
    case clientGone t n x e =>
      obtain ⟨-, r⟩ := ph t n (by rw [e]; rfl) hm
      exact ⟨_, by simp only [step, r, e]; rfl⟩
    case childDone t n x e ha =>
      obtain ⟨q, r⟩ := ph t n (by rw [e]; rfl) hm
      have := sl t n x (.inr (.inl e)) q
      exact ⟨_, by simp only [step, r, e, this, ha]; rfl⟩
    case unlinkDone t n x e hl =>
      obtain ⟨-, r⟩ := ph t n (by rw [e]; rfl) hm
      exact ⟨_, by simp only [step, r, e, A6, hl, if_true]; rfl⟩
    case unlinkGone t n x y e hl hf =>
      obtain ⟨q, r⟩ := ph t n (by rw [e]; rfl) hm
      subst q
      exact ⟨_, by simp only [step, r, e, A6, hl, if_true, A1, hf]; rfl⟩
    case unlinkNone t n x e hl hf =>
      obtain ⟨q, r⟩ := ph t n (by rw [e]; rfl) hm
      subst q
      exact ⟨_, by simp only [step, r, e, A6, hl, if_true, A1, hf]; rfl⟩
    case release t x e =>
      obtain ⟨-, r⟩ := pl t x e hm
      exact ⟨_, by simp only [step, r, e]; rfl⟩
  obtain ⟨s2', hs2⟩ := ex
  refine ⟨s2', hs2, ?_⟩
  have he2 := step_eff hs2
  have q1 := i1.tbl m
  cases he
  case kill names fail hl =>
    simp only [about] at hm
    have k := killLoop_agree A1 names s1.sess s2.sess fail hm fs
    cases he2
    have N1 := fun x => (kill_fields s1 names fail x).1
    have N2 := fun x => (kill_fields s2 names fail x).1
    have kt : find m (kill s2 names fail).1.table = find m (kill s1 names fail).1.table := by
      unfold kill
      dsimp only
      rw [k.1, k.2.2.1]
      split
      · have := find_eraseAll m (killLoop s1.table s1.sess names fail).toRemove
        unfold eraseAll at this
        dsimp only
        rw [this, this, A1]
      · exact A1
    have ks : ∀ x, s2.sess x = s1.sess x → (kill s2 names fail).1.sess x = (kill s1 names fail).1.sess x := by
      intro x hx
      unfold kill
      dsimp only
      rw [k.2.2.1]
      split <;> exact k.2.2.2 x hx
    refine ⟨kt, ?_, fun x hx hn => ks x ?_, ?_, ?_, ?_, ?_⟩
    · rw [kill_next, kill_next]; exact A2
    · rw [N1, N2] at hn
      rw [kill_next] at hx
      exact A3 x hx hn
    · simpa [asked_append, asked] using A4
    · simpa [asked_append, asked, kill_thr] using A5
    · rw [kill_lock, kill_lock]; exact A6
    · rw [kill_now, kill_now]; exact A7
  case detach names hl =>
    simp only [about] at hm
    have k := detachLoop_agree s1.now A1 names s1.sess s2.sess hm fs
    cases he2
    have N1 := fun x => (detach_fields s1 names x).1
    have N2 := fun x => (detach_fields s2 names x).1
    refine ⟨A1, A2, fun x hx hn => ?_, ?_, ?_, A6, A7⟩
    · rw [N1, N2] at hn
      have := k.2.2.2 x (A3 x hx hn)
      unfold detach
      dsimp only
      rw [A7]
      exact this
    · simpa [asked_append, asked] using A4
    · simpa [asked_append, asked, detach] using A5
  case fresh => exact absurd rfl (hnew _ _ _)
  case busy => exact absurd rfl (hnew _ _ _)
  case reattach => exact absurd rfl (hnew _ _ _)
  case clobber => exact absurd rfl (hnew _ _ _)
  case stale => exact absurd rfl (hnew _ _ _)
  case reapNone n fails hl hf =>
    have := hm n (by simp [about])
    subst this
    cases he2 <;> agree
  case reap n fails x hl hf =>
    have := hm n (by simp [about])
    subst this
    cases he2 <;> agree
  case exit x hx =>
    have := hm _ (by simp [about]; rfl)
    cases he2 <;> agree
  case s2cEnds x hx =>
    have := hm _ (by simp [about]; rfl)
    cases he2 <;> agree
  case tick d => cases he2 <;> agree
  all_goals simp only [about] at hm
  case release t x e =>
    have q2 := i1.leaving t x e
    obtain ⟨q, r⟩ := pl t x e hm
    cases he2 <;> agree
  case spawn t n e =>
    obtain ⟨q, r⟩ := ph t n (by rw [e]; rfl) hm
    subst q
    cases he2 <;> agree
  case spawnFails t n e =>
    obtain ⟨q, r⟩ := ph t n (by rw [e]; rfl) hm
    subst q
    cases he2 <;> agree
  case insert t n x e hl =>
    obtain ⟨q, r⟩ := ph t n (by rw [e]; rfl) hm
    subst q
    cases he2 <;> agree
  case lost t n x e hl hf =>
    obtain ⟨q, r⟩ := ph t n (by rw [e]; rfl) hm
    subst q
    cases he2 <;> agree
  case lookup t n x y e hl hf ho =>
    obtain ⟨q, r⟩ := ph t n (by rw [e]; rfl) hm
    subst q
    cases he2 <;> agree
  case block t n x y o e hl hf ho =>
    obtain ⟨q, r⟩ := ph t n (by rw [e]; rfl) hm
    subst q
    cases he2 <;> agree
  case acquire t n y e ho =>
    obtain ⟨q, r⟩ := ph t n (by rw [e]; rfl) hm
    have := sl t n y (.inr (.inr (.inr (.inr e)))) q
    subst q
    cases he2 <;> agree
  case start t n x e =>
    obtain ⟨q, r⟩ := ph t n (by rw [e]; rfl) hm
    have := sl t n x (.inl e) q
    subst q
    cases he2 <;> agree
  case abort t n x e =>
    obtain ⟨q, r⟩ := ph t n (by rw [e]; rfl) hm
    subst q
    cases he2 <;> agree
  case clientGone t n x e =>
    obtain ⟨q, r⟩ := ph t n (by rw [e]; rfl) hm
    have := sl t n x (.inr (.inl e)) q
    subst q
    cases he2 <;> agree
  case childDone t n x e ha =>
    obtain ⟨q, r⟩ := ph t n (by rw [e]; rfl) hm
    have := sl t n x (.inr (.inl e)) q
    subst q
    cases he2 <;> agree
  case unlinkDone t n x e hl =>
    obtain ⟨q, r⟩ := ph t n (by rw [e]; rfl) hm
    subst q
    cases he2 <;> agree
  case unlinkGone t n x y e hl hf =>
    obtain ⟨q, r⟩ := ph t n (by rw [e]; rfl) hm
    subst q
    have q3 := fs y hf
    cases he2 <;> agree
  case unlinkNone t n x e hl hf =>
    obtain ⟨q, r⟩ := ph t n (by rw [e]; rfl) hm
    subst q
    cases he2 <;> agree

/-- What a step about one name does depends on nothing but the sessions with that name and the requests for it: if two histories
agree about them, it is possible after the one if it is after the other (by a client that has not asked for anything before) and
they agree afterwards. -/
theorem C135_depends {m : Name} {ls1 ls2 : List Label} {s1 s2 s1' : St} (h1 : Run ls1 s1) (h2 : Run ls2 s2)
    (A : Agree m ls1 s1 ls2 s2) {l : Label} (hs : step s1 l = some s1') (hm : ∀ n ∈ about ls1 s1 l, n = m)
    (hnew : ∀ t n j, l = .select t n j → s2.thr t = .idle) :
    ∃ s2', step s2 l = some s2' ∧ Agree m (ls1 ++ [l]) s1' (ls2 ++ [l]) s2' := by
  have other := depends_other h1 h2 A hs hm
  cases l
  case select t n j =>
    have := hm n (by simp [about])
    subst this
    simp only [step] at hs ⊢
    split at hs
    · rename_i hc
      cases hs
      have e2 := hnew t n j rfl
      have l2 := A.lock.trans hc.2
      refine ⟨select s2 t n j, by rw [if_pos ⟨e2, l2⟩], ?_⟩
      exact depends_select (inv_of_run h1) A ((named_of_run h1).idle t hc.1) ((named_of_run h2).idle t e2)
    · cases hs
  all_goals exact other (fun _ _ _ h => by cases h)

/-- So do the replies to kill and detach requests about that name. -/
theorem C135_replies {m : Name} {ls1 ls2 : List Label} {s1 s2 : St} (h1 : Run ls1 s1) (A : Agree m ls1 s1 ls2 s2)
    {names : List Name} (hm : ∀ n ∈ names, n = m) (fail : Option Nat) :
    (kill s2 names fail).2 = (kill s1 names fail).2 ∧ (detach s2 names).2 = (detach s1 names).2 := by
  have fs : ∀ x, find m s1.table = some x → s2.sess x = s1.sess x := by
    intro x hx
    have := (inv_of_run h1).tbl _ x hx
    exact A.sess x this.1 (.inl this.2)
  have k := killLoop_agree A.table names s1.sess s2.sess fail hm fs
  have d := detachLoop_agree s1.now A.table names s1.sess s2.sess hm fs
  constructor
  · unfold kill
    dsimp only
    rw [k.2.2.1, k.2.1]
    split <;> rfl
  · unfold detach
    dsimp only
    rw [A.now, d.2.2.1, d.1, d.2.1]

private def na : Name := "a".toList
private def nb : Name := "b".toList

/-- A client makes session `a`, another one session `b`; `b` is then detached, its client leaves, and it is killed. -/
private def two : List Label :=
  [.select 0 na false, .spawn 0, .select 1 nb false, .insert 0, .spawn 1, .lookup 0, .insert 1, .lookup 1, .start 0, .start 1]
private def others : List Label := [.detach [nb], .clientGone 1, .unlink 1, .kill [nb] none, .release 1]

/-- The second stretch is not about `a`, the first ends with both clients connected. -/
example : ∃ s s', Run two s ∧ Run (two ++ others) s' ∧ s.thr 0 = .streaming na 0 ∧ s.thr 1 = .streaming nb 1 ∧
    asked two 0 = some na ∧ asked two 1 = some nb ∧ find nb s.table = some 1 ∧ find nb s'.table = none ∧
    find na s'.table = some 0 ∧ (others.map (about two s)).flatten = [nb, nb, nb, nb, nb] := ⟨_, _, rfl, rfl, by decide⟩

/-- Two different histories that agree about `a`: in the one a session `b` is made after it and killed, in the other another
session of the name `c`. -/
example : ∃ s1 s2, Run (two ++ others) s1 ∧
    Run ([.select 0 na false, .spawn 0, .select 2 ['c'] false, .insert 0, .spawn 2, .lookup 0, .start 0]) s2 ∧
    find na s2.table = find na s1.table ∧ s2.next = s1.next ∧ s2.sess 0 = s1.sess 0 ∧ s2.thr 0 = s1.thr 0 ∧
    s2.lock = s1.lock ∧ s2.now = s1.now ∧ (s1.sess 1).name = nb ∧ (s2.sess 1).name = ['c'] := ⟨_, _, rfl, rfl, by decide⟩

end Shpool.Server
