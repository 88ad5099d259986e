import Verif.Server.Life
/-!
# Properties of the session table and the requests working on it: C44 … C50
-/

namespace Shpool.Server

/-! ## C44: one client per session -/

/-- **C44** (one at a time).  At any time at most one attach request has a session. -/
theorem C44_at_most_one {ls : List Label} {s : St} (h : Run ls s) {t t' x : Nat} (h1 : (s.thr t).holds x)
    (h2 : (s.thr t').holds x) : t = t' := by
  have hi := (inv_of_run h).own
  have e1 := (hi t x).mp h1
  rw [(hi t' x).mp h2] at e1
  exact (Option.some.inj e1).symm

/-- **C44** (busy).  Attaching to a session another request has is answered with busy, and nothing else changes: not the table, not the
sessions, not the other requests, and no event is published. -/
theorem C44_busy {ls : List Label} {s s' : St} (h : Run ls s) {t n j x o} (hf : find n s.table = some x) (ho : (s.thr o).holds x)
    (hs : step s (.select t n j) = some s') :
    s'.thr t = .done .busy ∧ (∀ t', t' ≠ t → s'.thr t' = s.thr t') ∧ s'.table = s.table ∧ s'.sess = s.sess ∧
      s'.events = s.events ∧ s'.lock = s.lock := by
  have ho' := ((inv_of_run h).own o x).mp ho
  have he := step_eff hs
  cases he
  case busy => exact ⟨by simp [setThr], fun t' ht => by simp [setThr, upd_ne _ _ ht], rfl, rfl, rfl, rfl⟩
  all_goals grind

/-- **C44** (free).  Attaching to a session nobody has, whose shell and threads run, gives the session to the request. -/
theorem C44_free {s s' : St} {t n j x} (hf : find n s.table = some x) (ho : (s.sess x).owner = none) (ha : (s.sess x).alive = true)
    (hc : (s.sess x).s2c = true) (hs : step s (.select t n j) = some s') :
    s'.thr t = .owns n x ∧ (s'.sess x).owner = some t ∧ (s'.sess x).stream = some t ∧ s'.events = s.events ++ [.attached] ∧
      s'.table = s.table := by
  have he := step_eff hs
  cases he
  case reattach x' _ _ _ _ _ hf' =>
    rw [hf] at hf'
    cases hf'
    exact ⟨by simp [setThr], by simp [setThr, setSess], by simp [setThr, setSess], rfl, rfl⟩
  all_goals grind

/-- The full claim: a request that streams a session's output streams it to its own client. -/
def C44_statement : Prop := ∀ ls s, Run ls s → ∀ t n x, s.thr t = .streaming n x → (s.sess x).stream = some t

def a : Name := ['a']

/-- Two clients create a session of the same name at the same time. -/
def race : List Label :=
  [.select 0 a false, .select 1 a false, .spawn 0, .insert 0, .spawn 1, .insert 1, .lookup 0, .start 0]

/-- **C44 fails**: when two clients create a session of one name at the same time, the first request finds the second one's session and
serves the second client; its own client is never served. -/
theorem C44_false : ¬ C44_statement := by
  intro h
  have := h race _ rfl 0 a 1 rfl
  revert this
  decide

/-- **C44** (own client), as long as an attach request starts only while no other request is creating a session of that name. -/
theorem C44_own_client_partial {ls : List Label} {s : St} (h : Run ls s) (hq : Always Quiet1 ls) {t n x}
    (ht : s.thr t = .streaming n x) : (s.sess x).stream = some t :=
  (ord1_of_run h hq).stream t n x (by rw [ht]; rfl)

/-- One request creates the session and streams, a second one is told it is busy; the first detaches and the second comes back. -/
def calm : List Label :=
  [.select 0 a false, .spawn 0, .insert 0, .lookup 0, .start 0, .select 1 a false, .tick 5, .clientGone 0, .unlink 0, .release 0,
   .tick 5, .select 2 a false, .start 2]

example : ∃ s, Run calm s ∧ s.thr 1 = .done .busy ∧ s.thr 2 = .streaming a 0 ∧ (s.sess 0).stream = some 2 := ⟨_, rfl, rfl, rfl, rfl⟩

/-! ## C45: replies of kill and detach -/

/-- **C45** (kill).  If killing works, the reply names exactly the requested names without a session, the requested ones are gone from the
list and the rest of the list is as it was. -/
theorem C45_kill {ls : List Label} {s : St} (h : Run ls s) (names : List Name) :
    (kill s names none).2 = some (names.filter fun n => (find n s.table).isNone) ∧
    list (kill s names none).1 = (list s).filter (fun r => decide (r.name ∉ names)) ∧
    (∀ n ∈ names, find n (kill s names none).1.table = none) ∧
    ∀ n x, n ∉ names → find n s.table = some x →
      find n (kill s names none).1.table = some x ∧ (kill s names none).1.sess x = s.sess x := by
  have hok := killLoop_ok_of_none s.table names s.sess
  obtain ⟨h1, h2, -⟩ := killLoop_ok s.table names s.sess none hok
  have hi := inv_of_run h
  have hsess : ∀ n x, n ∉ names → find n s.table = some x → (killLoop s.table s.sess names none).sess x = s.sess x := by
    intro n x hn hf
    rcases killLoop_sess s.table names s.sess none x with e | ⟨-, m, hm, hf'⟩
    · exact e
    · exact absurd ((hi.tbl n x hf).2.symm.trans (hi.tbl m x hf').2) (fun e => hn (e ▸ hm))
  have hkill : kill s names none = ({ s with
        sess := (killLoop s.table s.sess names none).sess
        table := eraseAll (names.filter fun n => (find n s.table).isSome) s.table
        events := s.events ++ (names.filter fun n => (find n s.table).isSome).map (fun _ => .removed) },
        some (names.filter fun n => (find n s.table).isNone)) := by
    unfold kill
    dsimp only
    rw [if_pos hok, h1, h2]
  have hall : ∀ (ns : List Name) (tb : Table), eraseAll ns tb = tb.filter (fun p => decide (p.1 ∉ ns)) := by
    intro ns
    induction ns with
    | nil => intro tb; exact (List.filter_eq_self.mpr (by simp)).symm
    | cons m ns ih =>
      intro tb
      show eraseAll ns (erase m tb) = _
      rw [ih, erase, List.filter_filter]
      apply List.filter_congr
      intro p _
      by_cases e : p.1 = m <;> simp [e]
  rw [hkill]
  refine ⟨rfl, ?_, ?_, ?_⟩
  · show (eraseAll _ s.table).map _ = _
    rw [hall, list, List.filter_map]
    have hflt : s.table.filter (fun p => decide (p.1 ∉ names.filter fun n => (find n s.table).isSome)) =
        s.table.filter ((fun r : Row => decide (r.name ∉ names)) ∘ fun p : Name × Nat =>
          (⟨p.1, (s.sess p.2).owner.isSome, (s.sess p.2).lastConn, (s.sess p.2).lastDisc, (s.sess p.2).attachment⟩ : Row)) := by
      apply List.filter_congr
      intro p hp
      have hsome : (find p.1 s.table).isSome := (find_isSome _ _).mpr (List.mem_map.mpr ⟨p, hp, rfl⟩)
      simp [List.mem_filter, hsome]
    rw [hflt]
    apply List.map_congr_left
    intro p hp
    obtain ⟨hp1, hp2⟩ := List.mem_filter.mp hp
    have hn : p.1 ∉ names := by simpa using hp2
    have := hsess p.1 p.2 hn (mem_find hi.nodup hp1)
    simp only [this]
  · intro n hn
    show find n (eraseAll _ s.table) = none
    rw [find_eraseAll]
    by_cases hs : (find n s.table).isSome
    · rw [if_pos (List.mem_filter.mpr ⟨hn, hs⟩)]
    · have hnm : ¬ n ∈ names.filter (fun n => (find n s.table).isSome) := fun hm => hs (List.mem_filter.mp hm).2
      rw [if_neg hnm]
      simpa using hs
  · intro n x hn hf
    refine ⟨?_, hsess n x hn hf⟩
    show find n (eraseAll _ s.table) = some x
    rw [find_eraseAll, if_neg (fun hm => hn (List.mem_filter.mp hm).1), hf]

theorem detachLoop_ok (tb : Table) (now : Nat) (names : List Name) : ∀ (σ : Nat → Sess), names.Nodup →
    (∀ n m x, find n tb = some x → find m tb = some x → n = m) →
    (∀ n ∈ names, ∀ x, find n tb = some x → (σ x).s2c = true) →
    (detachLoop tb now σ names).ok = true ∧
    (detachLoop tb now σ names).notFound = names.filter (fun n => (find n tb).isNone) ∧
    (detachLoop tb now σ names).notAttached = names.filter (fun n => (find n tb).any fun x => !(σ x).conn) ∧
    ∀ x, (detachLoop tb now σ names).sess x =
      if (σ x).conn = true ∧ ∃ n ∈ names, find n tb = some x then { (σ x).recordDetached now with conn := false } else σ x := by
  induction names with
  | nil => intro σ _ _ _; exact ⟨rfl, rfl, rfl, by simp [detachLoop]⟩
  | cons n ns ih =>
    intro σ hd hinj hs
    rw [List.nodup_cons] at hd
    rw [detachLoop]
    cases hf : find n tb with
    | none =>
      obtain ⟨h1, h2, h3, h4⟩ := ih σ hd.2 hinj (fun m hm => hs m (List.mem_cons_of_mem _ hm))
      refine ⟨h1, by simp [hf, h2], by simp [hf, h3], ?_⟩
      intro x
      have := h4 x
      simp only [List.mem_cons, exists_eq_or_imp, hf]
      simpa using this
    | some y =>
      have hy := hs n List.mem_cons_self y hf
      dsimp only
      rw [if_neg (by simp [hy])]
      by_cases hc : (σ y).conn = true
      · rw [if_pos hc]
        have hne : ∀ m ∈ ns, ∀ x, find m tb = some x → x ≠ y := by
          intro m hm x hfm e
          subst e
          exact hd.1 (hinj n m x hf hfm ▸ hm)
        obtain ⟨h1, h2, h3, h4⟩ := ih (upd σ y { (σ y).recordDetached now with conn := false }) hd.2 hinj (by
          intro m hm x hfm
          rw [upd_ne _ _ (hne m hm x hfm)]
          exact hs m (List.mem_cons_of_mem _ hm) x hfm)
        refine ⟨h1, by simp [hf, h2], ?_, ?_⟩
        · rw [h3]
          simp only [List.filter_cons, hf, Option.any_some, hc, Bool.not_true]
          apply List.filter_congr
          intro m hm
          cases hfm : find m tb with
          | none => rfl
          | some x => simp [upd_ne _ _ (hne m hm x hfm)]
        · intro x
          rw [h4 x]
          by_cases hx : x = y
          · subst hx
            simp [hc, hf]
          · rw [upd_ne _ _ hx]
            simp [hf, Ne.symm hx]
      · rw [if_neg hc]
        obtain ⟨h1, h2, h3, h4⟩ := ih σ hd.2 hinj (fun m hm => hs m (List.mem_cons_of_mem _ hm))
        have hc' : (σ y).conn = false := by simpa using hc
        refine ⟨h1, by simp [hf, h2], by simp [hf, h3, hc'], ?_⟩
        intro x
        show (detachLoop tb now σ ns).sess x = _
        rw [h4 x]
        by_cases hx : x = y
        · subst hx
          simp [hc]
        · simp [hf, Ne.symm hx]

/-- **C45** (detach).  If the shell-to-client threads of the sessions named run and no name is given twice, the reply names exactly the
requested names without a session and, separately, those whose session has no client; the others lose their client and get a new
time of disconnection; nothing else changes. -/
theorem C45_detach {ls : List Label} {s : St} (h : Run ls s) (names : List Name) (hd : names.Nodup)
    (hs : ∀ n ∈ names, ∀ x, find n s.table = some x → (s.sess x).s2c = true) :
    (detach s names).2 = some (names.filter (fun n => (find n s.table).isNone),
      names.filter (fun n => (find n s.table).any fun x => !(s.sess x).conn)) ∧
    (∀ n ∈ names, ∀ x, find n s.table = some x → ((detach s names).1.sess x).conn = false) ∧
    (∀ n ∈ names, ∀ x, find n s.table = some x → (s.sess x).conn = true →
      ((detach s names).1.sess x).attachment = none ∧ ((detach s names).1.sess x).lastDisc = some s.now) ∧
    (∀ x, (∀ n ∈ names, find n s.table ≠ some x) → (detach s names).1.sess x = s.sess x) ∧
    (detach s names).1.table = s.table ∧ (detach s names).1.thr = s.thr ∧ (detach s names).1.events = s.events := by
  have hi := inv_of_run h
  obtain ⟨h1, h2, h3, h4⟩ := detachLoop_ok s.table s.now names s.sess hd
    (fun n m x e1 e2 => (hi.tbl n x e1).2.symm.trans (hi.tbl m x e2).2) hs
  have h4' : ∀ x, (detach s names).1.sess x = _ := h4
  refine ⟨?_, ?_, ?_, ?_, rfl, rfl, rfl⟩
  · unfold detach
    dsimp only
    rw [h1, h2, h3]
    rfl
  · intro n hn x hf
    rw [h4' x]
    split
    · rfl
    · rename_i hc
      by_cases hcn : (s.sess x).conn = true
      · exact absurd ⟨hcn, n, hn, hf⟩ hc
      · simpa using hcn
  · intro n hn x hf hc
    rw [h4' x, if_pos ⟨hc, n, hn, hf⟩]
    exact ⟨rfl, rfl⟩
  · intro x hx
    rw [h4' x, if_neg]
    rintro ⟨-, n, hn, hf⟩
    exact hx n hn hf

/-- The full claim: kill and detach requests are always answered. -/
def C45_statement : Prop :=
  ∀ ls s, Run ls s → ∀ names, (∀ fail, (kill s names fail).2 ≠ none) ∧ (detach s names).2 ≠ none

def b : Name := ['b']

/-- Two sessions; the shell-to-client thread of the second one ends. -/
def two : List Label :=
  [.select 0 a false, .spawn 0, .insert 0, .lookup 0, .start 0, .select 1 b false, .spawn 1, .insert 1, .lookup 1, .start 1, .s2cEnds 1]

/-- **C45 fails** (kill): if a shell cannot be killed (it may belong to somebody else), the request gets no reply, and the sessions killed
before it stay in the list. -/
theorem C45_false_kill : ∃ s, Run two s ∧ (kill s [a, b] (some 1)).2 = none ∧
    find a (kill s [a, b] (some 1)).1.table = some 0 ∧ ((kill s [a, b] (some 1)).1.sess 0).alive = false := ⟨_, rfl, rfl, rfl, rfl⟩

/-- **C45 fails** (detach): if the shell-to-client thread of a session has ended, the request gets no reply, although the client of a
session named before it was detached. -/
theorem C45_false_detach : ∃ s, Run two s ∧ (detach s [a, b]).2 = none ∧ (s.sess 0).conn = true ∧
    ((detach s [a, b]).1.sess 0).conn = false := ⟨_, rfl, rfl, rfl, rfl⟩

theorem C45_false : ¬ C45_statement := fun h => (h two _ rfl [a, b]).2 rfl

example : ∃ s, Run two s ∧ (kill s [b, ['c'], b] none).2 = some [['c']] ∧ (list (kill s [b, ['c'], b] none).1).map (·.name) = [a] :=
  ⟨_, rfl, rfl, rfl⟩

/-! ## C46: events account for the table -/

/-- The full claim: the number of sessions is that of the created events less that of the removed events. -/
def C46_statement : Prop :=
  ∀ ls s, Run ls s → s.table.length + s.events.count .removed = s.events.count .created

/-- **C46 fails**: a kill request naming a session twice publishes two removed events. -/
theorem C46_false : ¬ C46_statement := by
  intro h
  have := h [.select 0 a false, .spawn 0, .insert 0, .kill [a, a] none] _ rfl
  revert this
  decide

/-- No kill request names a session twice. -/
def NoTwice (_ : St) : Label → Prop
  | .kill names _ => names.Nodup
  | _ => True

/-- **C46** (as long as no kill request names a session twice). -/
theorem C46_count_partial {ls : List Label} {s : St} (h : Run ls s) (hp : Always NoTwice ls) :
    s.table.length + s.events.count .removed = s.events.count .created := by
  refine hist_inv (I := fun s => s.table.length + s.events.count .removed = s.events.count .created) rfl ?_ h hp
  intro ls s l s' hr _ hI hq hs
  have hi := inv_of_run hr
  have he := step_eff hs
  cases he
  case kill names fail _ =>
    have hok := killLoop_ok s.table names s.sess fail
    unfold kill
    dsimp only
    split
    · rename_i hk
      have h1 := (hok hk).1
      have hnd : (killLoop s.table s.sess names fail).toRemove.Nodup := by
        rw [h1]; exact List.Nodup.sublist List.filter_sublist hq
      have hlen := eraseAll_length (tb := s.table) hi.nodup hnd (by
        intro n hn
        rw [h1] at hn
        exact (List.mem_filter.mp hn).2)
      have hc1 : ∀ ns : List Name, (ns.map (fun _ => Event.removed)).count .removed = ns.length := by
        intro ns; induction ns <;> simp_all
      have hc2 : ∀ ns : List Name, (ns.map (fun _ => Event.removed)).count .created = 0 := by
        intro ns; induction ns <;> simp_all
      simp only [List.count_append, hc1, hc2]
      simp only [eraseAll] at hlen
      omega
    · exact hI
  case insert t n x h1 h2 =>
    by_cases hf : (find n s.table).isSome
    · have := erase_length hi.nodup hf
      simp only [if_pos hf, List.count_append, Server.insert, List.length_cons]
      simp
      omega
    · have : erase n s.table = s.table := erase_none (by simpa using hf)
      simp only [if_neg hf, List.count_append, Server.insert, List.length_cons, this]
      simp
      omega
  case unlinkDone t n x h1 h2 =>
    by_cases hf : (find n s.table).isSome
    · have := erase_length hi.nodup hf
      simp only [if_pos hf, List.count_append]
      simp
      omega
    · have : erase n s.table = s.table := erase_none (by simpa using hf)
      simp only [if_neg hf, this]
      simpa using hI
  case reap n fails x h1 h2 =>
    have := erase_length hi.nodup (n := n) (by rw [h2]; rfl)
    simp only [List.count_append]
    simp
    omega
  case reattach =>
    simpa [List.count_append, List.count_cons, setThr, setSess] using hI
  case unlinkGone =>
    simpa [List.count_append, List.count_cons, setThr, setSess] using hI
  all_goals exact hI

example : ∃ s, Run (calm ++ [.kill [a, b] none]) s ∧ s.events = [.created, .attached, .detached, .attached, .removed] ∧
    s.table = [] := ⟨_, rfl, rfl, rfl⟩

/-! ## C47: why a session leaves the table -/

/-- The full claim: a session whose shell runs leaves the table only because it is killed or its time is over. -/
def C47_statement : Prop :=
  ∀ ls s l s', Run ls s → step s l = some s' → ∀ n x, find n s.table = some x → find n s'.table ≠ some x →
    (s.sess x).alive = true → (∃ names fail, l = .kill names fail ∧ n ∈ names) ∨ ∃ fails, l = .reap n fails

/-- A session is killed and created anew by another client before the request of its first client is over. -/
def recreated : List Label :=
  [.select 0 a false, .spawn 0, .insert 0, .lookup 0, .start 0, .kill [a] none, .childDone 0,
   .select 1 a false, .spawn 1, .insert 1, .lookup 1, .start 1]

/-- **C47 fails**: the request of the first client, on finding the old shell gone, removes the new session, which has a running shell and a
client. -/
theorem C47_false : ¬ C47_statement := by
  intro h
  have := h recreated _ (.unlink 0) _ rfl rfl a 1 rfl (by decide) rfl
  simp at this

/-- **C47 fails** (race): two clients creating a session of one name at the same time: the second one's replaces the first one's. -/
theorem C47_false_race : ∃ s s', Run (race.take 5) s ∧ step s (.insert 1) = some s' ∧ find a s.table = some 0 ∧
    find a s'.table = some 1 ∧ (s.sess 0).alive = true := ⟨_, _, rfl, rfl, rfl, rfl, rfl⟩

/-- **C47 fails** (thread): when the shell-to-client thread of a session has ended although its shell runs, attaching replaces it. -/
theorem C47_false_thread : ∃ s s', Run [.select 0 a false, .spawn 0, .insert 0, .lookup 0, .start 0, .s2cEnds 0, .clientGone 0,
      .unlink 0, .release 0, .select 1 a false, .spawn 1] s ∧ step s (.insert 1) = some s' ∧ find a s.table = some 0 ∧
    find a s'.table = some 1 ∧ (s.sess 0).alive = true := ⟨_, _, rfl, rfl, rfl, rfl, rfl⟩

/-- **C47** as long as attach requests of one name do not race (none starts while another creates a session of the name or serves a
session of that name that is no longer in the table) and shell-to-client threads do not end before their shells. -/
theorem C47_leaves_partial {ls : List Label} {s s' : St} {l : Label} (h : Run ls s)
    (hp : Always (fun s l => Quiet s l ∧ Healthy s l) ls) (hs : step s l = some s') {n x} (hf : find n s.table = some x)
    (hg : find n s'.table ≠ some x) (ha : (s.sess x).alive = true) :
    (∃ names fail, l = .kill names fail ∧ n ∈ names) ∨ ∃ fails, l = .reap n fails := by
  have hi := inv_of_run h
  have h2 := ord2_of_run h (hp.mono fun _ _ h => h.1)
  have h3 := live_of_run h (hp.mono fun _ _ h => ⟨h.1.1, h.2⟩)
  have he := step_eff hs
  cases he
  case kill names fail _ =>
    rcases kill_find s names fail n with e | ⟨-, e⟩
    · exact absurd (e.trans hf) hg
    · exact .inl ⟨names, fail, rfl, e⟩
  case insert t m y g1 g2 =>
    exfalso
    simp only [find_insert] at hg
    by_cases e : n = m
    · subst e
      have := h3.spawned t n y g1 x hf
      rw [this] at ha
      cases ha
    · rw [if_neg e] at hg
      exact hg hf
  case unlinkDone t m y g1 g2 =>
    exfalso
    simp only [find_erase] at hg
    by_cases e : n = m
    · subst e
      have := h2.same t n y (by rw [g1]; rfl) x hf
      subst this
      rw [(hi.dead t n x g1).2] at ha
      cases ha
    · rw [if_neg e] at hg
      exact hg hf
  case reap m fails y g1 g2 =>
    simp only [find_erase] at hg
    by_cases e : n = m
    · subst e; exact .inr ⟨fails, rfl⟩
    · rw [if_neg e] at hg
      exact absurd hf hg
  all_goals exact absurd hf hg

/-! ## C48: nobody waits forever -/

/-- The full claim: whenever a request holds the table's lock, it can still come to be released. -/
def C48_statement : Prop :=
  ∀ ls s t, Run ls s → s.lock = some t → ∃ ls' s', runSteps step s ls' = some s' ∧ s'.lock = none

/-- A second client attaches to a session just created, before the request creating it looks it up again; then it goes away. -/
def stuck : List Label :=
  [.select 0 a false, .spawn 0, .insert 0, .select 1 a false, .lookup 0, .start 1, .clientGone 1]

/-- A request waits for a session's lock holding the table's, and the request having the session waits for the table's. -/
def Dead (s : St) : Prop :=
  s.lock = some 0 ∧ s.thr 0 = .blocked a 0 ∧ s.thr 1 = .ending a 0 false ∧ (s.sess 0).owner = some 1 ∧ 0 < s.next

theorem dead_step {s s' : St} {l : Label} (hi : Inv s) (hd : Dead s) (hs : step s l = some s') : Dead s' := by
  obtain ⟨h1, h2, h3, h4, h5⟩ := hd
  have he := step_eff hs
  have hb := hi.blk
  have hown : ∀ t x, s.thr t = .leaving x → (s.sess x).owner = some t := fun t x e => (hi.own t x).mp (by rw [e]; rfl)
  clear hs hi
  cases he
  all_goals
    first
      | (exfalso; grind)
      | (refine ⟨?_, ?_, ?_, ?_, ?_⟩
         all_goals
           (try simp only [setThr, setSess, upd_apply]) <;> grind)

theorem dead_run {s s' : St} {ls : List Label} (hi : Inv s) (hd : Dead s) (hr : runSteps step s ls = some s') : Dead s' :=
  (run_inv (I := fun s => Inv s ∧ Dead s) (fun _ _ _ h hs => ⟨inv_step h.1 (step_eff hs), dead_step h.1 h.2 hs⟩) ⟨hi, hd⟩ hr).2

/-- **C48 fails**: the two requests wait for each other forever, whatever else happens, and with them every request using the table. -/
theorem C48_false : ¬ C48_statement := by
  intro h
  obtain ⟨ls', s', hr, hl⟩ := h stuck _ 0 rfl rfl
  have : Dead s' := dead_run (inv_of_run (ls := stuck) rfl) ⟨rfl, rfl, rfl, rfl, by decide⟩ hr
  rw [this.1] at hl
  cases hl

/-- In that state no kill, list, detach or attach request can get at the table, ever. -/
theorem C48_false_all : ∃ s, Run stuck s ∧ ∀ ls' s', runSteps step s ls' = some s' →
    ∀ names fail t n j, step s' (.kill names fail) = none ∧ step s' (.detach names) = none ∧ step s' (.select t n j) = none := by
  refine ⟨_, rfl, ?_⟩
  intro ls' s' hr names fail t n j
  have : Dead s' := dead_run (inv_of_run (ls := stuck) rfl) ⟨rfl, rfl, rfl, rfl, by decide⟩ hr
  simp [step, this.1]

/-- The request is neither over nor waiting to begin. -/
def Phase.busyWith : Phase → Bool
  | .idle | .done _ => false
  | _ => true

/-- **C48** (progress).  While nobody holds the table's lock, every request under way can make its next step. -/
theorem C48_progress {s : St} (hl : s.lock = none) (t : Nat) (ht : (s.thr t).busyWith = true) (hb : ∀ n x, s.thr t ≠ .blocked n x) :
    ∃ l s', step s l = some s' ∧ s'.thr t ≠ s.thr t := by
  cases hp : s.thr t with
  | idle => rw [hp] at ht; cases ht
  | done r => rw [hp] at ht; cases ht
  | making n => exact ⟨.spawn t, _, by simp [step, hp]; rfl, by simp [setThr]⟩
  | spawned n x => exact ⟨.insert t, _, by simp [step, hp, hl]; rfl, by simp [setThr]⟩
  | inserted n x =>
    refine ⟨.lookup t, ?_⟩
    simp only [step, hp, hl, if_true]
    cases hf : find n s.table with
    | none => exact ⟨_, rfl, by simp [setThr]⟩
    | some y =>
      dsimp only
      cases ho : (s.sess y).owner with
      | none => exact ⟨_, rfl, by simp [setThr]⟩
      | some o => exact ⟨_, rfl, by simp [setThr]⟩
  | blocked n x => exact absurd hp (hb n x)
  | owns n x => exact ⟨.start t, _, by simp [step, hp]; rfl, by simp [setThr]⟩
  | streaming n x => exact ⟨.clientGone t, _, by simp [step, hp]; rfl, by simp [setThr]⟩
  | ending n x d =>
    cases d with
    | true => exact ⟨.unlink t, _, by simp [step, hp, hl]; rfl, by simp [setThr]⟩
    | false =>
      refine ⟨.unlink t, ?_⟩
      simp only [step, hp, hl, if_true]
      cases hf : find n s.table with
      | none => exact ⟨_, rfl, by simp [setThr]⟩
      | some y => exact ⟨_, rfl, by simp [setThr]⟩
  | leaving x => exact ⟨.release t, _, by simp [step, hp]; rfl, by simp [setThr]⟩

/-- **C48** as long as an attach request starts only while no other request is creating a session of that name: no request ever waits
for a session while holding the table's lock, and every request under way can make its next step. -/
theorem C48_free_partial {ls : List Label} {s : St} (h : Run ls s) (hp : Always Quiet1 ls) :
    s.lock = none ∧ ∀ t, (s.thr t).busyWith = true → ∃ l s', step s l = some s' ∧ s'.thr t ≠ s.thr t := by
  have hl := (ord1_of_run h hp).lock
  refine ⟨hl, fun t ht => C48_progress hl t ht ?_⟩
  intro n x e
  have := ((inv_of_run h).blk t n x e).1
  rw [hl] at this
  cases this

/-! ## C49: the list -/

/-- **C49** (once).  Every session is listed exactly once. -/
theorem C49_once {ls : List Label} {s : St} (h : Run ls s) : ((list s).map (·.name)).Nodup ∧
    ∀ n, n ∈ (list s).map (·.name) ↔ ∃ x, find n s.table = some x := by
  have e : (list s).map (·.name) = s.table.map (·.1) := by simp [list, Function.comp_def]
  rw [e]
  refine ⟨(inv_of_run h).nodup, fun n => ?_⟩
  rw [← find_isSome, Option.isSome_iff_exists]

/-- **C49** (status).  A session is listed as attached exactly if some attach request has it. -/
theorem C49_status {ls : List Label} {s : St} (h : Run ls s) {n x} (hf : find n s.table = some x) :
    ∃ r ∈ list s, r.name = n ∧ (r.attached = true ↔ ∃ t, (s.thr t).holds x) := by
  refine ⟨_, List.mem_map.mpr ⟨(n, x), find_mem hf, rfl⟩, rfl, ?_⟩
  simp only [Option.isSome_iff_exists]
  constructor
  · rintro ⟨t, ht⟩; exact ⟨t, ((inv_of_run h).own t x).mpr ht⟩
  · rintro ⟨t, ht⟩; exact ⟨t, ((inv_of_run h).own t x).mp ht⟩

example : ∃ s, Run two s ∧ list s = [⟨b, true, some 0, none, some 1⟩, ⟨a, true, some 0, none, some 0⟩] := ⟨_, rfl, rfl⟩

/-! ## C50: recorded times -/

/-- **C50** (order).  In every line of the list: with an attachment the last connection is not older than the last disconnection, without
one it is not newer. -/
theorem C50_order {ls : List Label} {s : St} (h : Run ls s) {r : Row} (hr : r ∈ list s) :
    ∃ c, r.lastConn = some c ∧ c ≤ s.now ∧ (∀ d, r.lastDisc = some d → d ≤ s.now) ∧
      (∀ t d, r.attachment = some t → r.lastDisc = some d → d ≤ c) ∧
      (r.attachment = none → ∃ d, r.lastDisc = some d ∧ c ≤ d) := by
  obtain ⟨p, hp, rfl⟩ := List.mem_map.mp hr
  have hi := inv_of_run h
  have hx := (hi.tbl p.1 p.2 (mem_find hi.nodup hp)).1
  have ht := times_of_run h
  obtain ⟨c, hc⟩ := ht.conn_some p.2 hx
  exact ⟨c, hc, ht.conn p.2 c hx hc, fun d hd => ht.disc p.2 d hx hd, fun t d ha hd => ht.attached p.2 t c d hx ha hc hd,
    fun ha => ht.detached p.2 c hx ha hc⟩

/-- **C50** (when).  The last connection of a session changes only by an attach request for its name finding its shell running, the last
disconnection only by a request ending for that name or a detach request naming it; both then become the present time. -/
theorem C50_changes {s s' : St} {l : Label} (hs : step s l = some s') {x : Nat} (hx : x < s.next) :
    ((s'.sess x).lastConn ≠ (s.sess x).lastConn →
      (s'.sess x).lastConn = some s.now ∧ (s.sess x).alive = true ∧ ∃ t n j, l = .select t n j ∧ find n s.table = some x) ∧
    ((s'.sess x).lastDisc ≠ (s.sess x).lastDisc → (s'.sess x).lastDisc = some s.now ∧
      ((∃ t n y, l = .unlink t ∧ s.thr t = .ending n y false ∧ find n s.table = some x) ∨
        ∃ names, l = .detach names ∧ ∃ n ∈ names, find n s.table = some x)) := by
  have he := step_eff hs
  have hx' : x < s'.next := by
    cases he
    case spawn => exact Nat.lt_succ_of_lt hx
    case kill names fail _ => rw [kill_next]; exact hx
    all_goals exact hx
  rcases rec_step he x hx' with ⟨h0, h1, h2, h3⟩ | ⟨t, n, j, h0, hl, hf, ha, h1, h2, h3⟩ | ⟨t, hl, h0, h1, h2, h3⟩ |
    ⟨h0, hw, h1, h2, h3⟩
  · exact ⟨fun e => absurd h1 e, fun e => absurd h2 e⟩
  · exact ⟨fun _ => ⟨h1, ha, t, n, j, hl, hf⟩, fun e => absurd h2 e⟩
  · omega
  · refine ⟨fun e => absurd h1 e, fun _ => ⟨h2, ?_⟩⟩
    rcases hw with e | ⟨names, e1, -, e2⟩
    · exact .inl e
    · exact .inr ⟨names, e1, e2⟩

/-- The full claim: a session in the table whose client is connected has it as its attachment, and a session nobody has and nobody is
creating has none. -/
def C50_statement : Prop :=
  ∀ ls s, Run ls s → ∀ n x, find n s.table = some x →
    (∀ t, s.thr t = .streaming n x → (s.sess x).conn = true → (s.sess x).attachment = some t) ∧
    ((∀ t, ¬ (s.thr t).holds x ∧ s.thr t ≠ .inserted n x) → (s.sess x).attachment = none)

/-- **C50 fails** (early end): a request that ends between attaching and streaming (its client hung up on the pager, or a file could not be
written) leaves its attachment behind, and the last disconnection is not recorded. -/
theorem C50_false : ¬ C50_statement := by
  intro h
  have := (h [.select 0 a false, .spawn 0, .insert 0, .lookup 0, .abort 0, .release 0] _ rfl a 0 rfl).2 (by
    intro t
    cases t with
    | zero => exact ⟨(fun h => by cases h), (fun h => by cases h)⟩
    | succ t => exact ⟨(fun h => h), (fun h => Phase.noConfusion h)⟩)
  revert this
  decide

/-- **C50 fails** (by name): the request of the client of a killed session, coming to its end, records the disconnection at the new session
of that name, whose client is connected. -/
theorem C50_false_name : ∃ s, Run [.select 0 a false, .spawn 0, .insert 0, .lookup 0, .start 0, .kill [a] none, .clientGone 0,
      .select 1 a false, .spawn 1, .insert 1, .lookup 1, .start 1, .tick 1, .unlink 0] s ∧
    find a s.table = some 1 ∧ s.thr 1 = .streaming a 1 ∧ (s.sess 1).conn = true ∧ (s.sess 1).attachment = none ∧
    (s.sess 1).lastConn = some 0 ∧ (s.sess 1).lastDisc = some 1 := ⟨_, rfl, rfl, rfl, rfl, rfl, rfl, rfl⟩

/-- **C50** as long as attach requests of one name do not race, shell-to-client threads do not end before their shells and no request ends
between attaching and streaming: a connected client is the session's attachment, connected last not before the last
disconnection; an attachment is that of a request serving or creating the session; a session nobody has and nobody creates has
none. -/
theorem C50_attachment_partial {ls : List Label} {s : St} (h : Run ls s) (hp : Always Orderly ls) {n x}
    (hf : find n s.table = some x) :
    (∀ t, s.thr t = .streaming n x → (s.sess x).conn = true → (s.sess x).attachment = some t ∧
      ∀ c d, (s.sess x).lastConn = some c → (s.sess x).lastDisc = some d → d ≤ c) ∧
    (∀ t, (s.sess x).attachment = some t → (s.thr t).serves = some (n, x) ∨ s.thr t = .inserted n x) ∧
    ((∀ t, ¬ (s.thr t).holds x ∧ s.thr t ≠ .inserted n x) → (s.sess x).attachment = none ∧
      ∀ c, (s.sess x).lastConn = some c → ∃ d, (s.sess x).lastDisc = some d ∧ c ≤ d) := by
  have ht := tidy_of_run h hp
  have hx := ((inv_of_run h).tbl n x hf).1
  have htm := times_of_run h
  refine ⟨fun t e hc => ?_, fun t e => ht.attachment n x t hf e, fun hn => ?_⟩
  · have ha := ht.streaming t n x e hc
    exact ⟨ha, fun c d h1 h2 => htm.attached x t c d hx ha h1 h2⟩
  · have : (s.sess x).attachment = none := by
      cases e : (s.sess x).attachment with
      | none => rfl
      | some t =>
        rcases ht.attachment n x t hf e with h1 | h1
        · exact absurd (holds_of_serves h1) (hn t).1
        · exact absurd h1 (hn t).2
    exact ⟨this, fun c hc => htm.detached x c hx this hc⟩

example : ∃ s, Run calm s ∧ list s = [⟨a, true, some 10, some 5, some 2⟩] := ⟨_, rfl, rfl⟩

/-- `Always` along a run, step by step. -/
def AlwaysFrom (P : St → Label → Prop) : St → List Label → Prop
  | _, [] => True
  | s, l :: ls => P s l ∧ ∀ s', step s l = some s' → AlwaysFrom P s' ls

theorem always_of_from {P : St → Label → Prop} {ls : List Label} (h : AlwaysFrom P init ls) : Always P ls := by
  have : ∀ (pre : List Label) (s0 s : St) (l : Label) (post : List Label), AlwaysFrom P s0 (pre ++ l :: post) →
      runSteps step s0 pre = some s → P s l := by
    intro pre
    induction pre with
    | nil => intro s0 s l post h hr; cases hr; exact h.1
    | cons k pre ih =>
      intro s0 s l post h hr
      obtain ⟨s1, h1, h2⟩ := run_cons_some hr
      exact ih s1 s l post (h.2 s1 h1) h2
  intro pre l post s e hr
  exact this pre init s l post (e ▸ h) hr

/-- The conditions of the partial theorems hold along the history above. -/
theorem calm_orderly : Always Orderly calm := by
  refine always_of_from ?_
  iterate 13
    refine ⟨⟨?_, ?_, ?_, ?_⟩, fun s' h => ?_⟩
    rotate_left 4
    cases h
  · trivial
  all_goals first
    | trivial
    | (intro t' x h
       rcases t' with _ | _ | _ | t' <;> cases h <;> rfl)
    | (intro t' h
       rcases t' with _ | _ | _ | t' <;> cases h)

end Shpool.Server
