import Verif.LetGo.Model
/-!
# C134: an automatically started daemon lets go of what launched it
-/

namespace Shpool.LetGo

/-- New numbers: none of the numbers around. -/
def Fresh (c : Proc) (pid0 : Nat) (a : Answers) : Prop :=
  (pid0 ≠ c.pid ∧ pid0 ≠ c.group ∧ pid0 ≠ c.session) ∧
  (∀ n, a.fork1 = some n → n ≠ pid0 ∧ n ≠ c.pid ∧ n ≠ c.group ∧ n ≠ c.session) ∧
  (∀ n m, a.fork1 = some n → a.fork2 = some m → m ≠ n ∧ m ≠ pid0 ∧ m ≠ c.pid ∧ m ≠ c.group ∧ m ≠ c.session)

/-- The daemon that a client `c` comes to have launched: command, opens before `daemonize`, `daemonize`. -/
def Launched (c : Proc) (pid0 n : Nat) (before : List (Desc × Bool)) (a : Answers) (d : Proc) : Prop :=
  Fresh c pid0 a ∧ daemonize n a (opens n (launch c pid0) before) = some d

/-- C134: it has nothing of what launched it: another session and group, no terminal, not its directory, none of its open files. -/
def C134_statement : Prop := ∀ c pid0 n before a d, Launched c pid0 n before a d →
  d.session ≠ c.session ∧ d.group ≠ c.group ∧ d.ctty = none ∧ d.cwd = 0 ∧
  ∀ i e, d.fd i = some e → e.file ≠ .null → ∀ j e', c.fd j = some e' → e'.file ≠ e.file

/-- A user's shell with a terminal on the first three descriptors, and a pipe on descriptor 5. -/
def client : Proc where
  pid := 100
  group := 100
  session := 90
  ctty := some 7
  cwd := 42
  fd := fun i => if i < 3 then some ⟨.tty 7, true, false⟩ else if i = 5 then some ⟨.other 55, true, false⟩ else none

/-- All goes well. -/
def good : Answers := ⟨true, some 102, true, some 103, true, true, true⟩

/-- C134 is false: a descriptor above 2 that the launching command was given stays open as long as the daemon runs: who waits for the end
of that pipe waits for the daemon. -/
theorem C134_false : ¬ C134_statement := by
  intro h
  obtain ⟨d, hd, h5⟩ : ∃ d, Launched client 101 64 [] good d ∧ d.fd 5 = some ⟨.other 55, true, false⟩ :=
    ⟨_, ⟨by simp [Fresh, client, good], rfl⟩, by decide⟩
  exact (h _ _ _ _ _ _ hd).2.2.2.2 5 _ h5 (by decide) 5 _ rfl rfl

theorem opens_frame (n : Nat) (p : Proc) (ds : List (Desc × Bool)) : (opens n p ds).pid = p.pid ∧ (opens n p ds).group = p.group ∧
    (opens n p ds).session = p.session := by
  induction ds generalizing p with
  | nil => exact ⟨rfl, rfl, rfl⟩
  | cons x ds ih =>
    obtain ⟨d, free⟩ := x
    exact ih _

theorem lowest_free {f : Nat → Option Desc} {n i : Nat} (hi : i < n) (hf : (f i).isSome) : lowest f n ≠ i := by
  unfold lowest
  cases h : (List.range n).find? fun i => (f i).isNone with
  | none => simp only [Option.getD_none]; omega
  | some j =>
    have := List.find?_some h
    simp only [Option.getD_some]
    rintro rfl
    cases hj : f j <;> simp_all

theorem opens_fd {n i : Nat} (hi : i < n) {p : Proc} {d : Desc} (h : p.fd i = some d) (ds : List (Desc × Bool)) :
    (opens n p ds).fd i = some d := by
  induction ds generalizing p with
  | nil => exact h
  | cons x ds ih =>
    obtain ⟨e, free⟩ := x
    refine ih ?_
    have := lowest_free (f := p.fd) hi (by simp [h])
    simp only [openAt, put]
    rw [if_neg (fun he => this he.symm)]
    exact h

theorem fd_redirect (n : Nat) (p : Proc) (h0 : ∀ i, i < 3 → (p.fd i).isSome) (hn : 3 ≤ n) :
    (∀ i, i < 3 → (redirect n p).fd i = some ⟨.null, false, false⟩) ∧
    (∀ i, 3 ≤ i → i ≠ lowest p.fd n → (redirect n p).fd i = p.fd i) := by
  have hl : ∀ i, i < 3 → lowest p.fd n ≠ i := fun i hi => lowest_free (by omega) (h0 i hi)
  have l0 := hl 0 (by omega)
  have l1 := hl 1 (by omega)
  have l2 := hl 2 (by omega)
  constructor
  · intro i hi
    have : i = 0 ∨ i = 1 ∨ i = 2 := by omega
    rcases this with rfl | rfl | rfl <;>
      simp [redirect, close, dup2, openAt, put, l0, l1, l2, Ne.symm l0, Ne.symm l1, Ne.symm l2]
  · intro i hi hne
    simp [redirect, close, dup2, openAt, put, l0, l1, l2, hne, show i ≠ 0 by omega, show i ≠ 1 by omega, show i ≠ 2 by omega]

theorem setsid_some {p q : Proc} (h : setsid p = some q) :
    p.pid ≠ p.group ∧ q = ⟨p.pid, p.pid, p.pid, none, p.cwd, p.fd⟩ := by
  unfold setsid at h
  split at h
  · cases h
  · rename_i hne; cases h; exact ⟨hne, rfl⟩

/-- What `daemonize` comes down to. -/
theorem daemonize_some {n : Nat} {a : Answers} {p d : Proc} (h : daemonize n a p = some d) :
    ∃ pid1 pid2, a.fork1 = some pid1 ∧ a.fork2 = some pid2 ∧ pid1 ≠ p.group ∧ d.pid = pid2 ∧ d.group = pid1 ∧ d.session = pid1 ∧
      d.ctty = none ∧ d.cwd = 0 ∧
      d.fd = (close (redirect n (fork (openAt ⟨pid1, pid1, pid1, none, 0, p.fd⟩ (lowest p.fd n) ⟨.other 0, true, true⟩ true) pid2))
        (lowest p.fd n)).fd := by
  unfold daemonize at h
  split at h
  · cases h
  · simp only at h
    split at h
    · cases h
    · rename_i pid1 h1
      split at h
      · cases h
      · rename_i q hq
        · obtain ⟨hne, rfl⟩ := setsid_some hq
          split at h
          · cases h
          · split at h
            · cases h
            · rename_i pid2 h2
              split at h
              · cases h
              · cases h
                refine ⟨pid1, pid2, h1, h2, hne, ?_, ?_, ?_, ?_, ?_, rfl⟩ <;>
                  (simp only [close, redirect, dup2]; repeat' split) <;> rfl

/-- C134, proved part: it is in a session and a group of its own, which a signal to those of the client or its terminal does not reach; it
has no controlling terminal, and is not the leader of its session; its working directory is the root. -/
theorem C134_session_partial {c d : Proc} {pid0 n : Nat} {before : List (Desc × Bool)} {a : Answers} (h : Launched c pid0 n before a d) :
    d.session ≠ c.session ∧ d.group ≠ c.group ∧ d.pid ≠ c.pid ∧ d.ctty = none ∧ d.pid ≠ d.session ∧ d.cwd = 0 := by
  obtain ⟨⟨f0, f1, f2⟩, h⟩ := h
  obtain ⟨pid1, pid2, h1, h2, hne, e1, e2, e3, e4, e5, -⟩ := daemonize_some h
  obtain ⟨g1, g2, g3, g4⟩ := f1 pid1 h1
  obtain ⟨k1, k2, k3, k4, k5⟩ := f2 pid1 pid2 h1 h2
  rw [e1, e2, e3]
  exact ⟨g4, g3, k3, e4, k1, e5⟩

theorem act_frame (p : Proc) (x : Act) (hs : p.pid ≠ p.session) : (act p x).pid = p.pid ∧ (act p x).session = p.session ∧
    (act p x).ctty = p.ctty := by
  cases x with
  | «open» i d free =>
    refine ⟨rfl, rfl, ?_⟩
    simp only [act, openAt]
    cases d.file <;> simp [hs]
  | close i => exact ⟨rfl, rfl, rfl⟩
  | dup2 i j => simp only [act, dup2]; split <;> exact ⟨rfl, rfl, rfl⟩

/-- C134, proved part: it never gets a controlling terminal, whatever it opens later (the pseudo-terminals of its sessions, say). -/
theorem C134_no_terminal_partial {c d : Proc} {pid0 n : Nat} {before : List (Desc × Bool)} {a : Answers}
    (h : Launched c pid0 n before a d) (later : List Act) : (later.foldl act d).ctty = none := by
  obtain ⟨-, -, -, h1, h2, -⟩ := C134_session_partial h
  clear h
  induction later generalizing d with
  | nil => exact h1
  | cons x xs ih =>
    obtain ⟨e1, e2, e3⟩ := act_frame d x h2
    exact ih (by rw [e3]; exact h1) (by rw [e1, e2]; exact h2)

/-- The second fork is needed: the leader of the session gets the terminal it opens. -/
example : (act ⟨102, 102, 102, none, 0, fun _ => none⟩ (.open 0 ⟨.tty 9, true, false⟩ true)).ctty = some 9 := by decide

private theorem launch_std (c : Proc) (pid0 : Nat) : ∀ i, i < 3 → ((launch c pid0).fd i).isSome := by
  intro i hi
  have : i = 0 ∨ i = 1 ∨ i = 2 := by omega
  rcases this with rfl | rfl | rfl <;> simp [launch]

/-- C134, proved part: its standard input, output and error are /dev/null (for reading only), whatever the client's were. -/
theorem C134_std_partial {c d : Proc} {pid0 n : Nat} {before : List (Desc × Bool)} {a : Answers} (hn : 3 ≤ n)
    (h : Launched c pid0 n before a d) : ∀ i, i < 3 → d.fd i = some ⟨.null, false, false⟩ := by
  intro i hi
  obtain ⟨pid1, pid2, h1, h2, hne, -, -, -, -, -, e⟩ := daemonize_some h.2
  have hstd : ∀ i, i < 3 → ((opens n (launch c pid0) before).fd i).isSome := by
    intro i hi
    obtain ⟨x, hx⟩ := Option.isSome_iff_exists.mp (launch_std c pid0 i hi)
    rw [opens_fd (by omega) hx]; rfl
  have hl := lowest_free (f := (opens n (launch c pid0) before).fd) (n := n) (i := i) (by omega) (hstd i hi)
  rw [e]
  simp only [close, put]
  rw [if_neg (fun he => hl he.symm)]
  refine (fd_redirect n _ (fun j hj => ?_) hn).1 i hi
  have hl := lowest_free (f := (opens n (launch c pid0) before).fd) (n := n) (i := j) (by omega) (hstd j hj)
  simp only [fork, openAt, put]
  rw [if_neg (fun he => hl he.symm)]
  exact hstd j hj

theorem lowest_isNone (f : Nat → Option Desc) (n : Nat) (h : lowest f n < n) : f (lowest f n) = none := by
  unfold lowest at h ⊢
  cases hf : (List.range n).find? fun i => (f i).isNone with
  | none => rw [hf] at h; simp at h
  | some j =>
    have := List.find?_some hf
    simpa using this

/-- C134, proved part, and what is false about it: apart from these, exactly the descriptors of the client that are not marked
close-on-exec are still open in the daemon, and nothing else is but what it opened itself. -/
theorem C134_rest_partial {c d : Proc} {pid0 n : Nat} {a : Answers} (hn : 3 ≤ n) (h : Launched c pid0 n [] a d)
    (i : Nat) (hi : 3 ≤ i) (hi' : i < n) : d.fd i = (c.fd i).filter (fun e => !e.cloexec) := by
  obtain ⟨pid1, pid2, h1, h2, hne, -, -, -, -, -, e⟩ := daemonize_some h.2
  have hlaunch : (launch c pid0).fd i = (c.fd i).filter (fun e => !e.cloexec) := by
    simp only [launch]
    rw [if_neg (by omega), if_neg (by omega)]
    cases c.fd i with
    | none => rfl
    | some x => cases hx : x.cloexec <;> simp [Option.filter, hx]
  simp only [opens] at e
  have hstd : ∀ j, j < 3 → ((fork (openAt ⟨pid1, pid1, pid1, none, 0, (launch c pid0).fd⟩ (lowest (launch c pid0).fd n)
      ⟨.other 0, true, true⟩ true) pid2).fd j).isSome := by
    intro j hj
    have hl := lowest_free (f := (launch c pid0).fd) (n := n) (i := j) (by omega) (launch_std c pid0 j hj)
    simp only [fork, openAt, put]
    rw [if_neg (fun he => hl he.symm)]
    exact launch_std c pid0 j hj
  rw [e, ← hlaunch]
  simp only [close, put]
  by_cases hil : i = lowest (launch c pid0).fd n
  · rw [if_pos hil]
    rw [hil]
    exact (lowest_isNone _ _ (hil ▸ hi')).symm
  · rw [if_neg hil]
    by_cases hir : i = lowest (fork (openAt ⟨pid1, pid1, pid1, none, 0, (launch c pid0).fd⟩ (lowest (launch c pid0).fd n)
      ⟨.other 0, true, true⟩ true) pid2).fd n
    · have hnone := lowest_isNone _ n (hir ▸ hi')
      rw [← hir] at hnone
      have : (redirect n (fork (openAt ⟨pid1, pid1, pid1, none, 0, (launch c pid0).fd⟩ (lowest (launch c pid0).fd n)
          ⟨.other 0, true, true⟩ true) pid2)).fd i = none := by
        simp only [redirect, close, put]
        rw [if_pos hir]
      rw [this]
      simp only [fork, openAt, put] at hnone
      rw [if_neg hil] at hnone
      exact hnone.symm
    · rw [(fd_redirect n _ hstd hn).2 i hi hir]
      simp only [fork, openAt, put]
      rw [if_neg hil]

/-- C134: with good answers from the system it comes up; `setsid` does not fail, as the process that calls it leads no group. -/
theorem C134_comes_up {c : Proc} {pid0 n : Nat} {before : List (Desc × Bool)} {a : Answers} (hf : Fresh c pid0 a)
    (h : a.cd = true ∧ a.fork1.isSome ∧ a.pidFile = true ∧ a.fork2.isSome ∧ a.writePid = true ∧ a.null = true ∧ a.dups = true) :
    ∃ d, Launched c pid0 n before a d := by
  obtain ⟨h1, h2, h3, h4, h5, h6, h7⟩ := h
  obtain ⟨pid1, e1⟩ := Option.isSome_iff_exists.mp h2
  obtain ⟨pid2, e2⟩ := Option.isSome_iff_exists.mp h4
  have hg : pid1 ≠ (opens n (launch c pid0) before).group := by
    rw [(opens_frame _ _ _).2.1]
    exact (hf.2.1 pid1 e1).2.2.1
  have hex : (daemonize n a (opens n (launch c pid0) before)).isSome := by
    simp [daemonize, h1, h3, h5, h6, h7, e1, e2, setsid, fork, hg]
  obtain ⟨d, hd⟩ := Option.isSome_iff_exists.mp hex
  exact ⟨d, hf, hd⟩

/-- Without the first fork it could fail: a command launched as the leader of its group. -/
example : setsid { client with pid := 100 } = none := rfl

example : Fresh client 101 good := by simp [Fresh, client, good]

end Shpool.LetGo
