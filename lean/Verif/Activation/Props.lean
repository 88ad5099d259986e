import Verif.Activation.Model

/-!
# Property C105: the daemon listens on the socket it was passed
-/

namespace Shpool.Activation

/-- The test for a socket is exact: of all types of files, with any permissions, only sockets pass it. -/
theorem C105_socket_test (k : Kind) (perm : BitVec 12) : isSock (mode k perm) = true ↔ k = .sock := by
  have h : mode k perm &&& 0xC000#16 = (k.bits &&& 0xC#4) ++ 0#12 := by
    have : (0xC000#16) = (0xC#4) ++ (0#12) := by decide
    rw [this, mode, BitVec.and_append]
    simp
  have e : isSock (mode k perm) = (((k.bits &&& 0xC#4) ++ 0#12) == 0xC000#16) := by rw [← h]; rfl
  rw [e]
  cases k <;> decide

/-- The value of `LISTEN_FDS` asks for one socket: `1`, with any zeros or a plus sign before it. -/
def AsksForOne (s : List Char) : Prop := ∃ sign zeros : List Char, (sign = [] ∨ sign = ['+']) ∧ (∀ c ∈ zeros, c = '0') ∧ s = sign ++ zeros ++ ['1']

def digitStep (acc : Option Nat) (c : Char) : Option Nat :=
  match acc with
  | none => none
  | some n => if '0' ≤ c ∧ c ≤ '9' then some (n * 10 + (c.toNat - 48)) else none

theorem fold_none (cs : List Char) : cs.foldl digitStep none = none := by
  induction cs with
  | nil => rfl
  | cons c cs ih => simpa [digitStep] using ih

theorem fold_ge (cs : List Char) : ∀ a n, cs.foldl digitStep (some a) = some n → a ≤ n := by
  induction cs with
  | nil => intro a n h; simp at h; omega
  | cons c cs ih =>
    intro a n h
    simp only [List.foldl_cons, digitStep] at h
    split at h
    · have := ih _ _ h; omega
    · rw [fold_none] at h; cases h

theorem char_digit {c : Char} (h : '0' ≤ c ∧ c ≤ '9') : 48 ≤ c.toNat ∧ c.toNat ≤ 57 := ⟨h.1, h.2⟩

theorem fold_one (cs : List Char) : ∀ a, cs.foldl digitStep (some a) = some 1 ↔
    (a = 1 ∧ cs = []) ∨ (a = 0 ∧ ∃ zeros : List Char, (∀ c ∈ zeros, c = '0') ∧ cs = zeros ++ ['1']) := by
  induction cs with
  | nil => intro a; simp
  | cons c cs ih =>
    intro a
    simp only [List.foldl_cons, digitStep]
    split
    · next h =>
      have hc := char_digit h
      rw [ih]
      constructor
      · rintro (⟨h1, rfl⟩ | ⟨h1, zeros, hz, rfl⟩)
        · have h49 : c.toNat = 49 := by omega
          have hc1 : c = '1' := Char.toNat_inj.1 h49
          subst hc1
          exact .inr ⟨by omega, [], by simp, rfl⟩
        · have h48 : c.toNat = 48 := by omega
          have hc0 : c = '0' := Char.toNat_inj.1 h48
          subst hc0
          refine .inr ⟨by omega, '0' :: zeros, ?_, rfl⟩
          intro d hd
          rcases List.mem_cons.1 hd with rfl | hd
          · rfl
          · exact hz d hd
      · rintro (⟨_, h2⟩ | ⟨rfl, zeros, hz, he⟩)
        · cases h2
        · cases zeros with
          | nil =>
            simp only [List.nil_append, List.cons.injEq] at he
            obtain ⟨rfl, rfl⟩ := he
            exact .inl ⟨by decide, rfl⟩
          | cons z zeros =>
            simp only [List.cons_append, List.cons.injEq] at he
            obtain ⟨rfl, rfl⟩ := he
            have : c = '0' := hz c (by simp)
            subst this
            exact .inr ⟨by decide, zeros, fun d hd => hz d (by simp [hd]), rfl⟩
    · next h =>
      rw [fold_none]
      constructor
      · intro h; cases h
      · rintro (⟨_, h2⟩ | ⟨rfl, zeros, hz, he⟩)
        · cases h2
        · exfalso
          apply h
          cases zeros with
          | nil =>
            simp only [List.nil_append, List.cons.injEq] at he
            obtain ⟨rfl, rfl⟩ := he
            decide
          | cons z zeros =>
            simp only [List.cons_append, List.cons.injEq] at he
            obtain ⟨rfl, rfl⟩ := he
            have : c = '0' := hz c (by simp)
            subst this
            decide

theorem digits_one (cs : List Char) : digits cs = some 1 ↔ ∃ zeros : List Char, (∀ c ∈ zeros, c = '0') ∧ cs = zeros ++ ['1'] := by
  cases cs with
  | nil => simp [digits]
  | cons c cs =>
    have := fold_one (c :: cs) 0
    simp only [digits]
    refine this.trans ?_
    simp

theorem parse_one (s : List Char) : parseIsize s = some 1 ↔ AsksForOne s := by
  have pos (cs : List Char) : (match digits cs with
      | some n => if n < 9223372036854775808 then some (n : Int) else none
      | none => none) = some 1 ↔ digits cs = some 1 := by
    cases h : digits cs with
    | none => simp
    | some n =>
      dsimp only
      split
      · simp; omega
      · simp; omega
  unfold parseIsize
  split
  · next cs =>
    refine (pos cs).trans ?_
    rw [digits_one]
    constructor
    · rintro ⟨zeros, hz, rfl⟩; exact ⟨['+'], zeros, .inr rfl, hz, rfl⟩
    · rintro ⟨sign, zeros, hs, hz, he⟩
      rcases hs with rfl | rfl
      · exfalso
        cases zeros with
        | nil => simp at he
        | cons z zeros =>
          simp only [List.nil_append, List.cons_append, List.cons.injEq] at he
          have := hz z (by simp)
          rw [← he.1] at this
          exact absurd this (by decide)
      · simp only [List.cons_append, List.nil_append, List.cons.injEq, true_and] at he
        exact ⟨zeros, hz, he⟩
  · next cs =>
    constructor
    · intro h
      exfalso
      split at h
      · split at h
        · simp at h; omega
        · cases h
      · cases h
    · rintro ⟨sign, zeros, hs, hz, he⟩
      exfalso
      rcases hs with rfl | rfl
      · cases zeros with
        | nil => simp at he
        | cons z zeros =>
          simp only [List.nil_append, List.cons_append, List.cons.injEq] at he
          have := hz z (by simp)
          rw [← he.1] at this
          exact absurd this (by decide)
      · simp at he
  · next h1 h2 =>
    refine (pos s).trans ?_
    rw [digits_one]
    constructor
    · rintro ⟨zeros, hz, rfl⟩; exact ⟨[], zeros, .inl rfl, hz, rfl⟩
    · rintro ⟨sign, zeros, hs, hz, he⟩
      rcases hs with rfl | rfl
      · exact ⟨zeros, hz, by simpa using he⟩
      · exact absurd he (h1 (zeros ++ ['1']))

/-- C105.  A daemon that was passed one socket listens on it, whatever it opened itself in the meantime; it touches none of its
descriptors, and leaves the socket's file alone when it ends. -/
theorem C105_activated_partial (t0 t : Table) (own : List File) (f : File) (s : List Char) (h3 : t0 3 = some f) (hk : f.kind = .sock)
    (ho : Opens t0 own t) (hs : AsksForOne s) : activate (some s) t = (.activation f, t) ∧ cleansUp (activate (some s) t).1 = false := by
  have ht : t 3 = some f := by
    clear hs
    induction ho with
    | nil t => exact h3
    | cons t fd g gs t' hfree _ _ ih =>
      apply ih
      have : 3 ≠ fd := by rintro rfl; rw [hfree] at h3; cases h3
      simp [this, h3]
  have hm : isSock (mode f.kind f.perm) = true := (C105_socket_test f.kind f.perm).2 hk
  have : activate (some s) t = (.activation f, t) := by
    simp [activate, (parse_one s).2 hs, ht, hm]
  exact ⟨this, by rw [this]; rfl⟩

/-- C105.  Without a request to take exactly one socket, the daemon listens on its own path, touches no descriptor, and removes its
socket file at the end. -/
theorem C105_not_asked (listenFds : Option (List Char)) (t : Table) (h : ∀ s, listenFds = some s → ¬ AsksForOne s) :
    activate listenFds t = (.ownPath, t) ∧ cleansUp (activate listenFds t).1 = true := by
  have : activate listenFds t = (.ownPath, t) := by
    cases listenFds with
    | none => rfl
    | some s =>
      have hn : parseIsize s ≠ some 1 := fun hp => h s rfl ((parse_one s).1 hp)
      simp only [activate]
      cases hp : parseIsize s with
      | none => rfl
      | some n =>
        have : n ≠ 1 := by rintro rfl; exact hn hp
        simp [this]
  exact ⟨this, by rw [this]; rfl⟩

/-- C105.  Whatever it listens on instead of its own path is a socket, and was its descriptor 3. -/
theorem C105_only_a_socket (listenFds : Option (List Char)) (t t' : Table) (f : File) (h : activate listenFds t = (.activation f, t')) :
    t 3 = some f ∧ f.kind = .sock ∧ t' = t := by
  unfold activate at h
  split at h
  · cases h
  · split at h
    · cases h
    · split at h
      · cases h
      · split at h
        · cases h
        · next f' h3 =>
          split at h
          · next hm =>
            cases h
            exact ⟨h3, (C105_socket_test _ _).1 hm, rfl⟩
          · cases h

/-- C105 in full: a daemon listens on a socket other than its own only if that was passed to it, and keeps what it opened. -/
def C105_statement : Prop :=
  ∀ (t0 t t' : Table) (own : List File) (listenFds : Option (List Char)) (l : Listen), Opens t0 own t → (∀ f ∈ own, f.owner = .own) →
    activate listenFds t = (l, t') →
    (∀ f, l = .activation f → f.owner = .passed) ∧ ∀ fd f, t fd = some f → f.owner = .own → t' fd = some f

/-- With `LISTEN_FDS=1` left over in its environment from another process (`LISTEN_PID`, which would tell, is not looked at) and only the
standard descriptors inherited, the daemon takes the first thing it opened itself for the activation socket: it listens on it if it
is a socket, and closes it if it is not. -/
theorem C105_false_stale (t0 t : Table) (f : File) (own : List File) (s : List Char) (hstd : t0 0 ≠ none ∧ t0 1 ≠ none ∧ t0 2 ≠ none)
    (h3 : t0 3 = none) (ho : Opens t0 (f :: own) t) (hs : AsksForOne s) :
    (f.kind = .sock → activate (some s) t = (.activation f, t)) ∧
    (f.kind ≠ .sock → (activate (some s) t).1 = .ownPath ∧ t 3 = some f ∧ (activate (some s) t).2 3 = none) := by
  have ht : t 3 = some f := by
    cases ho with
    | cons _ fd _ _ _ hfree hlow hrest =>
      have hfd : fd = 3 := by
        have h1 : ¬ 3 < fd := fun h => hlow 3 h h3
        have h2 : fd ≠ 0 := by rintro rfl; exact hstd.1 hfree
        have h4 : fd ≠ 1 := by rintro rfl; exact hstd.2.1 hfree
        have h5 : fd ≠ 2 := by rintro rfl; exact hstd.2.2 hfree
        omega
      subst hfd
      have keep : ∀ (a b : Table) (gs : List File), Opens a gs b → a 3 = some f → b 3 = some f := by
        intro a b gs h
        induction h with
        | nil _ => exact id
        | cons a fd g gs b hfree _ _ ih =>
          intro ha
          apply ih
          have : 3 ≠ fd := by rintro rfl; rw [hfree] at ha; cases ha
          simp [this, ha]
      exact keep _ _ _ hrest (by simp)
  constructor
  · intro hk
    have hm := (C105_socket_test f.kind f.perm).2 hk
    simp [activate, (parse_one s).2 hs, ht, hm]
  · intro hk
    have hm : isSock (mode f.kind f.perm) = false := by
      cases h : isSock (mode f.kind f.perm) with
      | false => rfl
      | true => exact absurd ((C105_socket_test _ _).1 h) hk
    simp [activate, (parse_one s).2 hs, ht, hm, close]

/-! ### Concrete cases -/

def std : Table := fun i => if i < 3 then some ⟨.chr, 0o620, .inherited, i⟩ else none
/-- The daemon's log, the watcher of its configuration and the listener of its events. -/
def logFile : File := ⟨.reg, 0o644, .own, 10⟩
def watcher : File := ⟨.anon, 0o600, .own, 11⟩
def events : File := ⟨.sock, 0o755, .own, 12⟩

theorem asks : AsksForOne ['1'] := ⟨[], [], .inl rfl, by simp, rfl⟩

/-- The descriptors of a daemon started with a log file from a shell. -/
def running : Table := fun i => if i = 5 then some events else if i = 4 then some watcher else if i = 3 then some logFile else std i

theorem running_opens : Opens std [logFile, watcher, events] running := by
  refine .cons _ 3 _ _ _ rfl ?_ (.cons _ 4 _ _ _ rfl ?_ (.cons _ 5 _ _ _ rfl ?_ ?_))
  · intro j hj; simp [std, hj]
  · intro j hj
    by_cases h : j = 3
    · simp [h]
    · simp [h, std, show j < 3 by omega]
  · intro j hj
    by_cases h : j = 4
    · simp [h]
    · by_cases h' : j = 3
      · simp [h']
      · simp [h, h', std, show j < 3 by omega]
  · exact .nil _

/-- C105 is false: a daemon started by hand, in an environment that still has `LISTEN_FDS=1`, closes its own log file. -/
theorem C105_false : ¬ C105_statement := by
  intro h
  have := (h std running (activate (some ['1']) running).2 [logFile, watcher, events] (some ['1']) (activate (some ['1']) running).1
    running_opens (by simp [logFile, watcher, events]) rfl).2 3 logFile rfl rfl
  have h3 := (C105_false_stale std running logFile [watcher, events] ['1'] (by simp [std]) rfl running_opens asks).2 (by decide)
  rw [h3.2.2] at this
  cases this

/-- `C105_activated_partial`: a daemon started through its socket. -/
example : Opens (fun i => if i = 3 then some ⟨.sock, 0o600, .passed, 7⟩ else std i) [events]
    (fun i => if i = 4 then some events else if i = 3 then some ⟨.sock, 0o600, .passed, 7⟩ else std i) ∧ AsksForOne ['1'] := by
  refine ⟨.cons _ 4 _ _ _ rfl ?_ (.nil _), asks⟩
  intro j hj
  by_cases h : j = 3
  · simp [h]
  · simp [h, std, show j < 3 by omega]

/-- `C105_not_asked`: two sockets, or none. -/
example : ¬ AsksForOne ['2'] ∧ ¬ AsksForOne [] := by
  constructor <;> (rw [← parse_one]; decide)

/-- C105, exactly: the daemon takes a socket that was not passed to it or loses something of its own if and only if `LISTEN_FDS` asks for one
socket and descriptor 3 is a socket that was not passed to it, or is the daemon's own and no socket. -/
theorem C105_exact (t : Table) (listenFds : Option (List Char)) :
    ((∀ f, (activate listenFds t).1 = .activation f → f.owner = .passed) ∧
      ∀ fd f, t fd = some f → f.owner = .own → (activate listenFds t).2 fd = some f) ↔
    ¬ ((∃ s, listenFds = some s ∧ AsksForOne s) ∧ ∃ f, t 3 = some f ∧ if f.kind = .sock then f.owner ≠ .passed else f.owner = .own) := by
  by_cases ha : ∃ s, listenFds = some s ∧ AsksForOne s
  · obtain ⟨s, rfl, hs⟩ := ha
    have hp := (parse_one s).2 hs
    cases h3 : t 3 with
    | none =>
      have e : activate (some s) t = (.ownPath, t) := by simp [activate, hp, h3]
      rw [e]
      simp
      exact fun _ _ h _ => h
    | some g =>
      by_cases hk : g.kind = .sock
      · have e : activate (some s) t = (.activation g, t) := by simp [activate, hp, h3, (C105_socket_test g.kind g.perm).2 hk]
        rw [e]
        constructor
        · rintro ⟨h1, _⟩ ⟨_, f, hf, h⟩
          cases hf
          rw [if_pos hk] at h
          exact h (h1 g rfl)
        · intro h
          refine ⟨fun f hf => ?_, fun _ _ h _ => h⟩
          cases hf
          exact Classical.byContradiction fun hn => h ⟨⟨s, rfl, hs⟩, g, rfl, by rw [if_pos hk]; exact hn⟩
      · have hm : isSock (mode g.kind g.perm) = false := by
          rw [Bool.eq_false_iff]; exact fun h => hk ((C105_socket_test g.kind g.perm).1 h)
        have e : activate (some s) t = (.ownPath, close t 3) := by simp [activate, hp, h3, hm]
        rw [e]
        constructor
        · rintro ⟨_, h2⟩ ⟨_, f, hf, h⟩
          cases hf
          rw [if_neg hk] at h
          have := h2 3 g h3 h
          simp [close] at this
        · intro h
          refine ⟨fun f hf => (by cases hf), fun fd f hf ho => ?_⟩
          dsimp only [close]
          rw [if_neg]
          · exact hf
          · rintro rfl
            rw [h3] at hf
            cases hf
            exact h ⟨⟨s, rfl, hs⟩, g, rfl, by rw [if_neg hk]; exact ho⟩
  · have e := (C105_not_asked listenFds t (fun s h1 h2 => ha ⟨s, h1, h2⟩)).1
    rw [e]
    constructor
    · rintro _ ⟨h, _⟩; exact ha h
    · intro _
      exact ⟨fun f hf => (by cases hf), fun _ _ h _ => h⟩

/-- Both sides have cases: a daemon that was passed a socket, and one that closes its log. -/
example : (activate (some ['1']) (fun i => if i = 3 then some ⟨.sock, 0, .passed, 0⟩ else none)).1 = .activation ⟨.sock, 0, .passed, 0⟩ ∧
    (activate (some ['1']) (fun i => if i = 3 then some ⟨.reg, 0, .own, 0⟩ else none)).2 3 = none := by decide

end Shpool.Activation
