import Verif.Spawn.Model
import Verif.Env.Props
import Verif.Duration.Props
import Verif.Chunk.Props
/-!
# Starting a shell, its command and environment (C93, C95-C98) and its exit status (C94)
-/

namespace Shpool.Spawn

open Shpool.Str Shpool.Env

/-! ## C93: every accepted ttl is honoured -/

/-- Everything works but possibly the ttl. -/
def Fine (words : Str → Option (List Str)) (w : World) (i : Input) : Prop :=
  w.terminfo = true ∧ w.fork = true ∧ w.thread = true ∧ w.reaper = true ∧ (execOf words i).isSome

/-- The full property: a ttl the client accepts gives a session with that lifetime. -/
def C93_statement : Prop := ∀ (t : CharTables) (b : Duration.Build) (src : List Char) (secs : Nat) (words : Str → Option (List Str))
  (w : World) (i : Input), requestTtl t b (some src) = some (some secs) → Fine words w { i with ttl := some secs } →
  (spawnSubshell words w { i with ttl := some secs }).outcome = .created ∧
  (spawnSubshell words w { i with ttl := some secs }).registered = some (i.name, w.now + secs)

private def bashIn : Input := ⟨none, "/bin/bash".toList, none, none, none, "/home/u".toList, [], "main".toList, none⟩
private def goodWorld : World := ⟨true, true, true, true, 5000⟩

/-- **C93 (defect)**: a ttl such as 9999999999999999999 seconds is accepted by the client and makes the daemon's thread panic. -/
theorem C93_false : ¬ C93_statement := by
  intro h
  have := (h asciiTables .checked "9999999999999999999s".toList 9999999999999999999 (fun _ => none) goodWorld bashIn
    (by decide) ⟨rfl, rfl, rfl, rfl, by decide⟩).1
  revert this
  decide

/-- **C93 (part)**: a ttl of less than 2^63 seconds from the boot of the machine is registered with exactly the right deadline, and without
a ttl nothing is registered.  Missing: longer ones, which must panic (also proved). -/
theorem C93_deadline_partial (words : Str → Option (List Str)) (w : World) (i : Input) (hf : Fine words w i) :
    (i.ttl = none → (spawnSubshell words w i).outcome = .created ∧ (spawnSubshell words w i).registered = none) ∧
    (∀ secs, i.ttl = some secs → w.now + secs < 2 ^ 63 → (spawnSubshell words w i).outcome = .created ∧
      (spawnSubshell words w i).registered = some (i.name, w.now + secs)) ∧
    (∀ secs, i.ttl = some secs → 2 ^ 63 ≤ w.now + secs → (spawnSubshell words w i).outcome = .panic) := by
  obtain ⟨h1, h2, h3, h4, h5⟩ := hf
  obtain ⟨e, he⟩ := Option.isSome_iff_exists.mp h5
  refine ⟨fun ht => ?_, fun secs ht hs => ?_, fun secs ht hs => ?_⟩
  · simp [spawnSubshell, he, h1, h2, h3, ht]
  · simp [spawnSubshell, he, h1, h2, h3, h4, ht, instantAdd, hs]
  · simp [spawnSubshell, he, h1, h2, h3, ht, instantAdd, Nat.not_lt.mpr hs]

/-- **C93** (exactly).  The thread panics if and only if the shell has been started and the deadline is 2^63 seconds or more from the boot of the
machine. -/
theorem C93_exact (words : Str → Option (List Str)) (w : World) (i : Input) :
    ((spawnSubshell words w i).outcome = .panic ↔ ((execOf words i).isSome = true ∧ w.terminfo = true ∧ w.fork = true ∧ w.thread = true) ∧
      ∃ secs, i.ttl = some secs ∧ 2 ^ 63 ≤ w.now + secs) := by
  cases he : execOf words i with
  | none => simp [spawnSubshell, he]
  | some e =>
    cases h1 : w.terminfo <;> cases h2 : w.fork <;> cases h3 : w.thread <;> cases ht : i.ttl <;>
      simp [spawnSubshell, he, h1, h2, h3, ht]
    rename_i secs
    by_cases hs : w.now + secs < 2 ^ 63
    · simp only [instantAdd, if_pos hs]
      constructor
      · intro h; split at h <;> cases h
      · intro h; omega
    · simp only [instantAdd, if_neg hs, true_iff]
      omega

/-- **C93** (repaired).  If a ttl whose deadline cannot be represented were taken for none, no request would make the thread panic, and the shell would
be the same. -/
theorem C93_repaired (words : Str → Option (List Str)) (w : World) (i : Input) :
    (spawnSubshell words w { i with ttl := i.ttl.filter fun secs => decide (w.now + secs < 2 ^ 63) }).outcome ≠ .panic ∧
    (spawnSubshell words w { i with ttl := i.ttl.filter fun secs => decide (w.now + secs < 2 ^ 63) }).child = (spawnSubshell words w i).child := by
  constructor
  · intro h
    obtain ⟨_, secs, h1, h2⟩ := (C93_exact words w _).mp h
    have := Option.eq_some_of_filter_eq_some h1
    have h3 : (i.ttl.filter fun secs => decide (w.now + secs < 2 ^ 63)) = some secs := h1
    rw [this] at h3
    simp [Option.filter] at h3
    omega
  · have e : execOf words { i with ttl := i.ttl.filter fun secs => decide (w.now + secs < 2 ^ 63) } = execOf words i := rfl
    simp only [spawnSubshell, e]
    split
    · rfl
    · repeat' split
      all_goals first | rfl | simp_all

/-- **C93**: whatever the system does, a session that is created has the deadline of its ttl, and none without one; if the reaper is gone
a session with a ttl is not created. -/
theorem C93_created (words : Str → Option (List Str)) (w : World) (i : Input) (ho : (spawnSubshell words w i).outcome = .created) :
    (spawnSubshell words w i).registered = i.ttl.map (fun secs => (i.name, w.now + secs)) ∧ (i.ttl.isSome → w.reaper = true) := by
  revert ho
  unfold spawnSubshell
  cases hx : execOf words i with
  | none => simp
  | some e =>
    dsimp only
    cases w.terminfo <;> cases w.fork <;> cases w.thread <;> simp
    cases i.ttl with
    | none => simp
    | some secs =>
      dsimp only [instantAdd]
      split
      · simp
      · rename_i at_ ha
        split at ha <;> cases ha
        cases w.reaper <;> simp

/-- **C93** (client): the request carries a ttl exactly if one was asked for, and it is the one the text stands for. -/
theorem C93_request (t : CharTables) (b : Duration.Build) : requestTtl t b none = some none ∧
    ∀ src o, requestTtl t b (some src) = some o ↔ ∃ secs, o = some secs ∧ Duration.parse t b src = .ok secs := by
  refine ⟨rfl, fun src o => ?_⟩
  unfold requestTtl
  dsimp only
  cases Duration.parse t b src <;> simp [eq_comm]

example : Fine (fun _ => none) goodWorld { bashIn with ttl := some 3600 } ∧
    (spawnSubshell (fun _ => none) goodWorld { bashIn with ttl := some 3600 }).registered = some ("main".toList, 8600) :=
  ⟨⟨rfl, rfl, rfl, rfl, by decide⟩, by decide⟩

/-! ## C97: a failed start leaves no shell behind -/

/-- The full property: if the session is not created, no shell was started. -/
def C97_statement : Prop := ∀ words w i, (spawnSubshell words w i).outcome ≠ .created → (spawnSubshell words w i).child = none

/-- **C97 (defect)**: the ttl is only looked at after the shell was started. -/
theorem C97_false : ¬ C97_statement := by
  intro h
  have := h (fun _ => none) goodWorld { bashIn with ttl := some (2 ^ 63) } (by decide)
  revert this
  decide

/-- **C97 (part)**: unless the ttl is out of range, or the shell-to-client thread cannot be started, or the reaper is gone.  In
particular a command that cannot be split, an empty command, a shell without a name, a missing terminal database or a
failing fork leave nothing behind.  Missing: those three cases. -/
theorem C97_nothing_partial (words : Str → Option (List Str)) (w : World) (i : Input) (ht : w.thread = true) (hr : w.reaper = true)
    (hs : ∀ secs, i.ttl = some secs → w.now + secs < 2 ^ 63) (ho : (spawnSubshell words w i).outcome ≠ .created) :
    (spawnSubshell words w i).child = none ∧ (spawnSubshell words w i).registered = none := by
  revert ho
  unfold spawnSubshell
  split
  · simp
  · split
    · simp
    · split
      · simp
      · rw [ht]
        simp only [Bool.not_true, Bool.false_eq_true, if_false]
        cases htt : i.ttl with
        | none => simp
        | some secs => simp [instantAdd, hs secs htt, hr]

/-- **C97**: and when the session is created its shell runs exactly the command built. -/
theorem C97_created (words : Str → Option (List Str)) (w : World) (i : Input) (ho : (spawnSubshell words w i).outcome = .created) :
    (spawnSubshell words w i).child = execOf words i ∧ (execOf words i).isSome := by
  revert ho
  unfold spawnSubshell
  split
  · simp
  · rename_i e he
    split
    · simp
    · split
      · simp
      · split
        · simp
        · cases i.ttl with
          | none => simp [he]
          | some secs =>
            dsimp only
            split
            · simp
            · split <;> simp [he]

example : (spawnSubshell (fun _ => some []) goodWorld { bashIn with cmd := some [' '] }).outcome = .error := by decide

/-! ## C95: the command -/

/-- Spec: `b` is the last part of the path `p`: `p` is `b`, or something ending in a slash and then `b`. -/
def LastPart (p b : Str) : Prop := (p = b ∨ ∃ d, p = d ++ '/' :: b) ∧ b ≠ [] ∧ '/' ∉ b ∧ b ≠ ['.'] ∧ b ≠ ['.', '.']

private theorem split_last {d b : Str} (hb : '/' ∉ b) : ∃ xs, split '/' (d ++ '/' :: b) = xs ++ [b] := by
  induction d with
  | nil => exact ⟨[[]], by simp [split, split_of_not_mem hb]⟩
  | cons c d ih =>
    obtain ⟨xs, hx⟩ := ih
    simp only [List.cons_append, split, hx]
    by_cases hc : c = '/'
    · exact ⟨[] :: xs, by simp [hc]⟩
    · cases xs with
      | nil =>
        exfalso
        have h1 := (join_split '/' (d ++ '/' :: b)).1
        rw [hx] at h1
        simp only [List.nil_append, join] at h1
        rw [h1] at hb
        simp at hb
      | cons x xs => exact ⟨(c :: x) :: xs, by simp [hc]⟩

theorem fileName_lastPart {p b : Str} (h : LastPart p b) : fileName p = some b := by
  obtain ⟨hp, hne, hs, h1, h2⟩ := h
  have hkeep : (!b.isEmpty && b != ['.']) = true := by
    cases b with
    | nil => exact absurd rfl hne
    | cons c b => simpa using h1
  have hc : ∃ xs, components p = xs ++ [b] := by
    rcases hp with rfl | ⟨d, rfl⟩
    · exact ⟨[], by simp [components, split_of_not_mem hs, hkeep]⟩
    · obtain ⟨xs, hx⟩ := split_last (d := d) hs
      refine ⟨xs.filter (fun c => !c.isEmpty && c != ['.']), ?_⟩
      simp only [components, hx, List.filter_append, List.filter_cons, hkeep, if_true, List.filter_nil]
  obtain ⟨xs, hx⟩ := hc
  simp [fileName, hx, h2]

/-- **C95**: without a command a new session runs the configured shell, or else the user's, as a login shell: its argument 0 is a dash and
the last part of its path; it starts in the directory of the request, or else at home; and its only arguments are those
against start-up files, if the configuration asks for that. -/
theorem C95_login (words : Str → Option (List Str)) (i : Input) (hc : i.cmd = none) (b : Str)
    (hb : LastPart (i.configShell.getD i.defaultShell) b) : ∃ e, execOf words i = some e ∧
      e.program = i.configShell.getD i.defaultShell ∧ e.arg0 = '-' :: b ∧ e.dir = i.dir.getD i.home ∧ e.env = i.env ∧
      (i.norc.getD false = false → e.args = []) := by
  have hs : shellOf i = i.configShell.getD i.defaultShell := by unfold shellOf; cases i.configShell <;> rfl
  refine ⟨_, by simp [execOf, commandOf, hc, hs, fileName_lastPart hb]; rfl, rfl, rfl, rfl, rfl, fun hn => ?_⟩
  simp [norcArgs, hn]

/-- **C95**: a shell whose path ends in `..`, or is only slashes, has no name and is an error. -/
theorem C95_no_name (words : Str → Option (List Str)) (i : Input) (hc : i.cmd = none)
    (hb : (∃ d, i.configShell.getD i.defaultShell = d ++ "/..".toList) ∨ ∀ c ∈ i.configShell.getD i.defaultShell, c = '/') :
    execOf words i = none := by
  have hs : shellOf i = i.configShell.getD i.defaultShell := by unfold shellOf; cases i.configShell <;> rfl
  have hf : fileName (shellOf i) = none := by
    rw [hs]
    rcases hb with ⟨d, hd⟩ | hb
    · rw [hd]
      obtain ⟨xs, hx⟩ := split_last (d := d) (b := ['.', '.']) (by decide)
      have : components (d ++ "/..".toList) = xs.filter (fun c => !c.isEmpty && c != ['.']) ++ [['.', '.']] := by
        show (split '/' (d ++ ['/', '.', '.'])).filter _ = _
        rw [hx, List.filter_append]; rfl
      rw [fileName, this]; simp
    · have : ∀ p : Str, (∀ c ∈ p, c = '/') → components p = [] := by
        intro p
        induction p with
        | nil => intro; rfl
        | cons c p ih =>
          intro h
          obtain rfl := h c (by simp)
          have := ih (fun c hc => h c (by simp [hc]))
          simpa [components, split] using this
      simp [fileName, this _ hb]
  simp [execOf, commandOf, hc, hf]

/-- **C95**: start-up files are switched off for shells named bash, zsh and fish, with the options of these shells. -/
theorem C95_norc (words : Str → Option (List Str)) (i : Input) (hc : i.cmd = none) (hn : i.norc = some true) (d : Str) :
    (i.configShell.getD i.defaultShell = d ++ "/bash".toList →
      ∃ e, execOf words i = some e ∧ e.arg0 = "-bash".toList ∧ e.args = ["--norc".toList, "--noprofile".toList]) ∧
    (i.configShell.getD i.defaultShell = d ++ "/zsh".toList →
      ∃ e, execOf words i = some e ∧ e.arg0 = "-zsh".toList ∧ e.args = ["--no-rcs".toList]) ∧
    (i.configShell.getD i.defaultShell = d ++ "/fish".toList →
      ∃ e, execOf words i = some e ∧ e.arg0 = "-fish".toList ∧ e.args = ["--no-config".toList]) := by
  have hs : shellOf i = i.configShell.getD i.defaultShell := by unfold shellOf; cases i.configShell <;> rfl
  have suf : ∀ x : Str, endsWith (d ++ '/' :: x) x = true := by
    intro x
    unfold endsWith
    rw [List.isSuffixOf_iff_suffix]
    exact ⟨d ++ ['/'], by simp⟩
  have nsuf : ∀ x y : Str, '/' ∉ x → x.isSuffixOf y = false → endsWith (d ++ '/' :: y) x = false := by
    intro x y hx hxy
    cases he : endsWith (d ++ '/' :: y) x with
    | false => rfl
    | true =>
      exfalso
      unfold endsWith at he
      rw [List.isSuffixOf_iff_suffix] at he
      obtain ⟨r, hr⟩ := he
      rcases List.append_eq_append_iff.mp hr with ⟨a, h1, h2⟩ | ⟨c, h1, h2⟩
      · exact hx (h2 ▸ by simp)
      · cases c with
        | nil => exact hx ((show '/' :: y = x from h2) ▸ by simp)
        | cons c cs =>
          have : x <:+ y := ⟨cs, by simp at h2; exact h2.2.symm⟩
          rw [List.isSuffixOf_iff_suffix.mpr this] at hxy
          cases hxy
  refine ⟨fun h => ?_, fun h => ?_, fun h => ?_⟩
  · have hl : LastPart (i.configShell.getD i.defaultShell) "bash".toList := ⟨.inr ⟨d, h⟩, by decide, by decide, by decide, by decide⟩
    refine ⟨_, by simp [execOf, commandOf, hc, hs, fileName_lastPart hl]; rfl, rfl, ?_⟩
    have := suf "bash".toList
    simp only [norcArgs, hn, hs, h, Option.getD_some, if_true]
    rw [show d ++ "/bash".toList = d ++ '/' :: "bash".toList from rfl, this]; rfl
  · have hl : LastPart (i.configShell.getD i.defaultShell) "zsh".toList := ⟨.inr ⟨d, h⟩, by decide, by decide, by decide, by decide⟩
    refine ⟨_, by simp [execOf, commandOf, hc, hs, fileName_lastPart hl]; rfl, rfl, ?_⟩
    have h1 := nsuf "bash".toList "zsh".toList (by decide) (by decide)
    have := suf "zsh".toList
    simp only [norcArgs, hn, hs, h, Option.getD_some, if_true]
    rw [show d ++ "/zsh".toList = d ++ '/' :: "zsh".toList from rfl, h1, this]; rfl
  · have hl : LastPart (i.configShell.getD i.defaultShell) "fish".toList := ⟨.inr ⟨d, h⟩, by decide, by decide, by decide, by decide⟩
    refine ⟨_, by simp [execOf, commandOf, hc, hs, fileName_lastPart hl]; rfl, rfl, ?_⟩
    have h1 := nsuf "bash".toList "fish".toList (by decide) (by decide)
    have h2 := nsuf "zsh".toList "fish".toList (by decide) (by decide)
    have := suf "fish".toList
    simp only [norcArgs, hn, hs, h, Option.getD_some, if_true]
    rw [show d ++ "/fish".toList = d ++ '/' :: "fish".toList from rfl, h1, h2, this]; rfl

/-- **C95**: with a command exactly its words are run, not as a login shell, whatever the shells and `norc` are; a command that cannot be
split or has no words is an error. -/
theorem C95_command (words : Str → Option (List Str)) (i : Input) (c : Str) (hc : i.cmd = some c) :
    (∀ p args, words c = some (p :: args) → execOf words i = some ⟨p, p, args, i.dir.getD i.home, i.env⟩) ∧
    (words c = some [] ∨ words c = none → execOf words i = none) := by
  refine ⟨fun p args h => ?_, fun h => ?_⟩
  · simp [execOf, commandOf, hc, h, startDir]
  · rcases h with h | h <;> simp [execOf, commandOf, hc, h]

example : LastPart "/usr/local/bin/bash".toList "bash".toList := ⟨.inr ⟨"/usr/local/bin".toList, rfl⟩, by decide, by decide, by decide, by decide⟩
example : execOf (fun _ => none) { bashIn with norc := some true, dir := some "/tmp".toList } =
    some ⟨"/bin/bash".toList, "-bash".toList, ["--norc".toList, "--noprofile".toList], "/tmp".toList, []⟩ := by decide

/-! ## C96: SHELL -/

/-- The full property: in a session without a command, and unless the user sets the variable in the configuration, in the forwarded
environment or in /etc/environment, SHELL is the shell that runs. -/
def C96_statement : Prop := ∀ (c : Ctx) (h : Header) (i : Input) (words : Str → Option (List Str)) (env : Pairs) (e : Exec),
  i.defaultShell = c.defaultShell → i.cmd = none → buildShellEnv c h = some env → i.env = env → execOf words i = some e →
  (∀ p ∈ env, p.1 = kSHELL → p.2 = c.defaultShell) → getenv e.env kSHELL = some e.program

private def plainCtx : Ctx := ⟨"/home/u".toList, "u".toList, "/bin/bash".toList, "/run".toList, none, none, none, none, none⟩
private def plainHeader : Header := ⟨"main".toList, [], none⟩

/-- **C96 (defect)**: with `shell` set in the configuration SHELL still is the user's default shell. -/
theorem C96_false : ¬ C96_statement := by
  intro h
  obtain ⟨env, e, h1, h2, h3, h4⟩ : ∃ env e, buildShellEnv plainCtx plainHeader = some env ∧
      execOf (fun _ => none) { bashIn with configShell := some "/bin/zsh".toList, env := env } = some e ∧
      (∀ p ∈ env, p.1 = kSHELL → p.2 = plainCtx.defaultShell) ∧ getenv e.env kSHELL ≠ some e.program :=
    ⟨_, _, rfl, rfl, by decide, by decide⟩
  exact h4 (h plainCtx plainHeader _ _ env e rfl rfl h1 rfl h2 h3)

theorem env_cases {c : Ctx} {h : Header} {env : Pairs} (hb : buildShellEnv c h = some env) : ∃ ps,
    env = baseEnv c h ++ extraEnv c h ++ (match termOf c h with | some t => [(kTERM, t)] | none => []) ++
      h.localEnv.filter (fun p => !(p.1 == kTERM || p.1 == kSSH_AUTH_SOCK)) ++ ps ∧
    (ps = [] ∨ ∃ f, c.etcFile = some f ∧ EtcEnv.parseCompat f = some ps) := by
  unfold buildShellEnv at hb
  cases hx : c.noreadEtc.getD false with
  | true => simp only [hx, if_true, Option.some.injEq] at hb; exact ⟨[], by simp only [List.append_nil]; exact hb.symm, .inl rfl⟩
  | false =>
    simp only [hx, Bool.false_eq_true, if_false] at hb
    cases hf : c.etcFile with
    | none => simp only [hf, Option.some.injEq] at hb; exact ⟨[], by simp only [List.append_nil]; exact hb.symm, .inl rfl⟩
    | some f =>
      cases hp : EtcEnv.parseCompat f with
      | none => simp only [hf, hp] at hb; cases hb
      | some ps => simp only [hf, hp, Option.some.injEq] at hb; exact ⟨ps, hb.symm, .inr ⟨f, rfl, hp⟩⟩

theorem env_base {c : Ctx} {h : Header} {env : Pairs} (hb : buildShellEnv c h = some env) : ∃ r, env = baseEnv c h ++ r := by
  obtain ⟨ps, e, -⟩ := env_cases hb
  simp only [List.append_assoc] at e
  exact ⟨_, e⟩

/-- **C96 (part)**: without `shell` in the configuration.  Missing: with it. -/
theorem C96_shell_partial (c : Ctx) (h : Header) (i : Input) (words : Str → Option (List Str)) (env : Pairs) (e : Exec)
    (h1 : i.defaultShell = c.defaultShell) (hc : i.cmd = none) (hb : buildShellEnv c h = some env) (he : i.env = env)
    (hx : execOf words i = some e) (hs : ∀ p ∈ env, p.1 = kSHELL → p.2 = c.defaultShell) (hn : i.configShell = none) :
    getenv e.env kSHELL = some e.program := by
  have hprog : e.program = c.defaultShell ∧ e.env = env := by
    simp only [execOf, commandOf, hc, shellOf, hn] at hx
    split at hx
    · cases hx
    · cases hx; exact ⟨h1, he⟩
  have hmem : (kSHELL, c.defaultShell) ∈ env := by
    obtain ⟨r, rfl⟩ := env_base hb
    simp [baseEnv]
  rw [hprog.1, hprog.2]
  unfold getenv
  cases hf : env.reverse.find? (fun p => p.1 == kSHELL) with
  | none =>
    have := List.find?_eq_none.mp hf (kSHELL, c.defaultShell) (by simpa using hmem)
    simp at this
  | some p =>
    have hk : p.1 = kSHELL := by simpa using List.find?_some hf
    have hm : p ∈ env := by simpa using List.mem_of_find?_eq_some hf
    obtain ⟨k, v⟩ := p
    simp only at hk
    subst hk
    simpa using hs _ hm rfl

example : ∃ env, buildShellEnv plainCtx plainHeader = some env ∧ ∀ p ∈ env, p.1 = kSHELL → p.2 = plainCtx.defaultShell :=
  ⟨_, rfl, by decide⟩

/-! ## C98: the terminal type -/

/-- The full property: the terminal database used for a session is that of the terminal type the shell is told. -/
def C98_statement : Prop := ∀ (c : Ctx) (h : Header) (env : Pairs), buildShellEnv c h = some env → termUsed env = getenv env kTERM

/-- `TERM=dumb` in /etc/environment. -/
private def etcTerm : List EtcEnv.Sym := "TERM=dumb\n".toList.map EtcEnv.Sym.ch

/-- **C98 (defect)**: if /etc/environment sets TERM the shell gets that, but the database is that of the client's terminal. -/
theorem C98_false : ¬ C98_statement := by
  intro h
  obtain ⟨env, h1, h2⟩ : ∃ env, buildShellEnv { plainCtx with etcFile := some etcTerm }
      { plainHeader with localEnv := [(kTERM, "xterm".toList)] } = some env ∧ termUsed env ≠ getenv env kTERM :=
    ⟨_, rfl, by decide⟩
  exact h2 (h _ _ env h1)

theorem uniform {env : Pairs} {k : Str} {o : Option Str} (h1 : ∀ p ∈ env, p.1 = k → o = some p.2)
    (h2 : ∀ t, o = some t → (k, t) ∈ env) : ((env.filter (fun p => p.1 == k)).map (·.2)).head? = o ∧ getenv env k = o := by
  constructor
  · cases hf : env.filter (fun p => p.1 == k) with
    | nil =>
      cases o with
      | none => rfl
      | some t =>
        have : (k, t) ∈ env.filter (fun p => p.1 == k) := by simp [h2 t rfl]
        rw [hf] at this; cases this
    | cons p ps =>
      have hm : p ∈ env.filter (fun p => p.1 == k) := by rw [hf]; simp
      simp only [List.mem_filter, beq_iff_eq] at hm
      simp [h1 p hm.1 hm.2]
  · unfold getenv
    cases hf : env.reverse.find? (fun p => p.1 == k) with
    | none =>
      cases o with
      | none => rfl
      | some t =>
        have := List.find?_eq_none.mp hf (k, t) (by simpa using h2 t rfl)
        simp at this
    | some p =>
      have hk : p.1 = k := by simpa using List.find?_some hf
      have hm : p ∈ env := by simpa using List.mem_of_find?_eq_some hf
      simp [h1 p hm hk]

theorem assocGet_mem {m : Pairs} (hd : (m.map (·.1)).Nodup) {p : Str × Str} (hp : p ∈ m) : assocGet m p.1 = some p.2 := by
  unfold assocGet
  induction m with
  | nil => cases hp
  | cons q m ih =>
    simp only [List.map_cons, List.nodup_cons] at hd
    simp only [List.find?_cons]
    rcases List.mem_cons.mp hp with rfl | hp
    · simp
    · have : ¬ q.1 = p.1 := fun e => hd.1 (e ▸ List.mem_map_of_mem hp)
      rw [beq_false_of_ne this]
      exact ih hd.2 hp

/-- **C98 (part)**: if /etc/environment is not read or does not set TERM, both are the terminal type of the configuration, or else of the
client (none if the configuration says it is empty).  (The configured variables are a hash map: no name occurs twice.)  Missing: a
TERM in /etc/environment. -/
theorem C98_term_partial (c : Ctx) (h : Header) (env : Pairs) (hb : buildShellEnv c h = some env)
    (hd : ∀ m, c.configEnv = some m → (m.map (·.1)).Nodup)
    (he : ∀ f ps, c.etcFile = some f → EtcEnv.parseCompat f = some ps → ∀ p ∈ ps, p.1 ≠ kTERM) :
    termUsed env = getenv env kTERM ∧
    (∀ m t, c.configEnv = some m → (kTERM, t) ∈ m → t ≠ [] → getenv env kTERM = some t) ∧
    (∀ m, c.configEnv = some m → (kTERM, []) ∈ m → getenv env kTERM = none) ∧
    ((∀ m, c.configEnv = some m → ∀ p ∈ m, p.1 ≠ kTERM) → getenv env kTERM = h.localEnvGet kTERM) := by
  obtain ⟨ps, e, hps⟩ := env_cases hb
  have hps' : ∀ p ∈ ps, p.1 ≠ kTERM := by
    rcases hps with rfl | ⟨f, hf, hp⟩
    · simp
    · exact he f ps hf hp
  have hbase : ∀ p ∈ baseEnv c h, p.1 ≠ kTERM := by
    intro p hp
    simp only [baseEnv, List.mem_append, List.mem_cons, List.not_mem_nil, or_false] at hp
    rcases hp with (rfl | rfl | rfl | rfl | rfl | rfl | rfl) | hp
    all_goals first
      | decide
      | skip
    · exact (by decide : kHOME ≠ kTERM)
    · exact (by decide : kPATH ≠ kTERM)
    · exact (by decide : kSHPOOL_SESSION_NAME ≠ kTERM)
    · exact (by decide : kSHPOOL_SESSION_DIR ≠ kTERM)
    · exact (by decide : kSHELL ≠ kTERM)
    · exact (by decide : kUSER ≠ kTERM)
    · exact (by decide : kSSH_AUTH_SOCK ≠ kTERM)
    · split at hp
      · simp only [List.mem_singleton] at hp; subst hp; exact (by decide : kXDG_RUNTIME_DIR ≠ kTERM)
      · cases hp
  have hterm : ∀ m, c.configEnv = some m → termOf c h = match assocGet m kTERM with
      | none => h.localEnvGet kTERM
      | some t => if t.isEmpty then none else some t := by
    intro m hm; simp only [termOf, hm]; rfl
  have hextra : ∀ p ∈ extraEnv c h, p.1 = kTERM → termOf c h = some p.2 := by
    intro p hp hk
    cases hm : c.configEnv with
    | none => simp [extraEnv, hm] at hp
    | some m =>
      cases ht : termOf c h with
      | none => simp [extraEnv, hm, ht, hk] at hp
      | some t =>
        have hp' : p ∈ m := by simpa [extraEnv, hm, ht] using hp
        have ha := assocGet_mem (hd m hm) hp'
        rw [hk] at ha
        rw [hterm m hm, ha] at ht
        simp only at ht
        split at ht
        · cases ht
        · exact ht.symm
  have h1 : ∀ p ∈ env, p.1 = kTERM → termOf c h = some p.2 := by
    intro p hp hk
    rw [e] at hp
    simp only [List.mem_append] at hp
    rcases hp with (((hp | hp) | hp) | hp) | hp
    · exact absurd hk (hbase p hp)
    · exact hextra p hp hk
    · split at hp
      · rename_i t ht
        simp only [List.mem_singleton] at hp; subst hp; exact ht
      · cases hp
    · simp [hk] at hp
    · exact absurd hk (hps' p hp)
  have h2 : ∀ t, termOf c h = some t → (kTERM, t) ∈ env := by
    intro t ht
    rw [e]; simp [ht]
  obtain ⟨u1, u2⟩ := uniform h1 h2
  refine ⟨by rw [u2]; exact u1, fun m t hm ht hne => ?_, fun m hm ht => ?_, fun hn => ?_⟩
  · rw [u2, hterm m hm, assocGet_mem (hd m hm) ht]
    cases t with
    | nil => exact absurd rfl hne
    | cons => rfl
  · rw [u2, hterm m hm, assocGet_mem (hd m hm) ht]; rfl
  · rw [u2]
    cases hm : c.configEnv with
    | none => simp [termOf, hm]
    | some m =>
      have : assocGet m kTERM = none := by
        unfold assocGet
        rw [List.find?_eq_none.mpr (fun p hp => by simpa using hn m hm p hp)]; rfl
      rw [hterm m hm, this]

example : ∃ env, buildShellEnv { plainCtx with configEnv := some [(kTERM, "screen".toList)] }
    { plainHeader with localEnv := [(kTERM, "xterm".toList)] } = some env ∧ termUsed env = some "screen".toList := ⟨_, rfl, by decide⟩

/-! ## C94: the exit status -/

/-- Spec: how a process ended and the status word the kernel reports for it (wait(2)): with a code of 0 to 255, or by signal 1 to 126, with
or without a core dump. -/
inductive Death where
  | exited (code : Nat)
  | signaled (sig : Nat) (core : Bool)

def Death.Valid : Death → Prop
  | .exited c => c < 256
  | .signaled g _ => 1 ≤ g ∧ g < 127

def Death.word : Death → Nat
  | .exited c => c * 256
  | .signaled g core => g + (if core then 128 else 0)

/-- Spec: the status a client should report. -/
def Death.status : Death → Nat
  | .exited c => c
  | .signaled _ _ => 1

/-- **C94** (daemon): the watcher reports the exit code of the shell, and 1 for a shell ended by a signal. -/
theorem C94_watch (d : Death) (h : d.Valid) (spins : List Nat) (pid : Int) (hp : 0 < pid) (rest : List (Int × Nat)) :
    watch (spins.map (fun st => (0, st)) ++ (pid, d.word) :: rest) = some d.status := by
  induction spins with
  | cons st spins ih => simpa [watch] using ih
  | nil =>
    have h127 : ∀ n, n &&& 0x7f = n % 128 := fun n => Nat.and_two_pow_sub_one_eq_mod n 7
    have h255 : ∀ n, n &&& 0xff = n % 256 := fun n => Nat.and_two_pow_sub_one_eq_mod n 8
    simp only [List.map_nil, List.nil_append, watch, h127, h255, Nat.shiftRight_eq_div_pow]
    rw [if_neg (by omega), if_neg (by omega)]
    cases d with
    | exited c =>
      simp only [Death.Valid] at h
      rw [if_pos (by show c * 256 % 128 = 0; omega)]
      show some (c * 256 / 2 ^ 8 % 256) = some c
      congr 1; omega
    | signaled g core =>
      simp only [Death.Valid] at h
      rw [if_neg]
      · rfl
      · cases core <;> simp [Death.word] <;> omega

/-- **C94** (daemon): a failing wait is reported as 1, and nothing is reported before the shell has ended. -/
theorem C94_waiting (spins : List Nat) (st : Nat) (rest : List (Int × Nat)) :
    watch (spins.map (fun st => (0, st))) = none ∧ watch (spins.map (fun st => (0, st)) ++ (-1, st) :: rest) = some 1 := by
  induction spins with
  | cons st spins ih => simpa [watch] using ih
  | nil => exact ⟨rfl, rfl⟩

/-- **C94** (all the way): the frame the daemon sends for the status its watcher found, written to the wire and read back by the client
however the bytes are cut into segments, makes exactly that status the client's result. -/
theorem C94_end_to_end (d : Death) (h : d.Valid) (cap : Nat) (hcap : 4 ≤ cap) (s : Pipe.St) (acc : Bool) (wr : Option Nat) (bad : Bool) :
    ∃ bs, Chunk.writeAll [S2C.exitFrame (UInt32.ofNat d.status)] = .ok bs ∧
      ∀ segs : List (List UInt8), ∀ rest, segs.flatten = bs ++ rest →
        ∃ f segs', Chunk.readN Chunk.segmented cap 1 segs = .ok ([f], segs') ∧ segs'.flatten = rest ∧
        (Pipe.handle s f acc wr bad).slot = some (.exit d.status) := by
  have hs : d.status < 256 := by cases d <;> simp_all [Death.status, Death.Valid]
  have hleg : ∀ c ∈ [S2C.exitFrame (UInt32.ofNat d.status)], Chunk.Legal c ∧ c.buf.length ≤ cap := by
    intro c hc
    simp only [List.mem_singleton] at hc
    subst hc
    exact ⟨⟨fun _ => rfl, by simp [S2C.exitFrame, Chunk.le32]⟩, hcap⟩
  obtain ⟨bs, hw, -⟩ := Chunk.C02_stream_round_trip [S2C.exitFrame (UInt32.ofNat d.status)] cap [] hleg
  refine ⟨bs, hw, fun segs rest he => ?_⟩
  obtain ⟨bs', hw', hr⟩ := Chunk.C02_stream_round_trip [S2C.exitFrame (UInt32.ofNat d.status)] cap rest hleg
  rw [hw] at hw'
  cases hw'
  obtain ⟨segs', h1, h2⟩ := hr segs he
  refine ⟨_, segs', h1, h2, ?_⟩
  have e : (UInt32.ofNat d.status).toNat = d.status := by simp; omega
  have : Chunk.ofLe32 (List.take 4 (Chunk.le32 d.status)) = some d.status := by
    rw [List.take_of_length_le (by simp [Chunk.le32]), Chunk.ofLe32_le32 _ (by omega)]
  simp only [Pipe.handle, S2C.exitFrame, e, this]

example : (Death.signaled 9 false).Valid ∧ (Death.exited 42).Valid ∧ (Death.exited 42).word = 10752 := by
  simp [Death.Valid, Death.word]

end Shpool.Spawn
