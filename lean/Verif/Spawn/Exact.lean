import Verif.Spawn.Props
import Verif.Env.Exact
/-! # Exactly when SHELL is the shell that runs (C96) and the terminal database is the right one (C98) -/

namespace Shpool.Spawn

open Shpool.Str Shpool.Env

/-- **C96** (exactly when): unless the user sets the variable otherwise, SHELL is the shell that runs exactly if the configuration names no shell or
the user's default one. -/
theorem C96_exact (c : Ctx) (h : Header) (i : Input) (words : Str → Option (List Str)) (env : Pairs) (e : Exec)
    (h1 : i.defaultShell = c.defaultShell) (hc : i.cmd = none) (hb : buildShellEnv c h = some env) (he : i.env = env)
    (hx : execOf words i = some e) (hs : ∀ p ∈ env, p.1 = kSHELL → p.2 = c.defaultShell) :
    getenv e.env kSHELL = some e.program ↔ ∀ sh, i.configShell = some sh → sh = c.defaultShell := by
  have hprog : e.program = i.configShell.getD c.defaultShell ∧ e.env = env := by
    simp only [execOf, commandOf, hc, shellOf] at hx
    split at hx
    · cases hx
    · cases hx
      refine ⟨?_, he⟩
      cases i.configShell
      · exact h1
      · rfl
  have key : getenv e.env kSHELL = some c.defaultShell := by
    have hmem : (kSHELL, c.defaultShell) ∈ env := by
      obtain ⟨r, rfl⟩ := env_base hb
      simp [baseEnv]
    rw [hprog.2]
    refine (uniform (o := some c.defaultShell) (fun p hp hk => ?_) (fun t ht => ?_)).2
    · rw [hs p hp hk]
    · cases ht; exact hmem
  rw [hprog.1, key, Option.some.injEq]
  cases i.configShell with
  | none => simp
  | some sh => simp [eq_comm]

private def plainCtx : Ctx := ⟨"/home/u".toList, "u".toList, "/bin/bash".toList, "/run".toList, none, none, none, none, none⟩
private def plainHeader : Header := ⟨"main".toList, [], none⟩
private def bashIn : Input := ⟨none, "/bin/bash".toList, none, none, none, "/home/u".toList, [], "main".toList, none⟩

example : ∃ env e, buildShellEnv plainCtx plainHeader = some env ∧
    execOf (fun _ => none) { bashIn with configShell := some "/bin/zsh".toList, env := env } = some e ∧
    (∀ p ∈ env, p.1 = kSHELL → p.2 = plainCtx.defaultShell) ∧ bashIn.defaultShell = plainCtx.defaultShell ∧ bashIn.cmd = none :=
  ⟨_, _, rfl, rfl, by decide, rfl, rfl⟩

theorem head_or (xs ys : List Str) : (xs ++ ys).head? = xs.head?.or ys.head? := by cases xs <;> rfl

theorem termUsed_append (e1 e2 : Pairs) : termUsed (e1 ++ e2) = (termUsed e1).or (termUsed e2) := by
  simp only [termUsed, List.filter_append, List.map_append, head_or]

/-- **C98** (the rule in full): the terminal database is that of the terminal type asked for (`wantedTerm`), and only if none is asked for that of the first
TERM in /etc/environment. -/
theorem C98_rule (c : Ctx) (h : Header) (env : Pairs) (hb : buildShellEnv c h = some env) (hd : ((c.configEnv.getD []).map (·.1)).Nodup) :
    termUsed env = (wantedTerm c h).or (((etcVars c).filter (fun p => p.1 == "TERM".toList)).map (·.2)).head? := by
  obtain ⟨env0, h0, rfl⟩ := without_etc hb
  have e1 : termUsed env0 = getenv env0 kTERM := by
    refine (C98_term_partial { c with noreadEtc := some true, etcFile := none } h env0 h0 (fun m hm => ?_) (fun f ps hf => ?_)).1
    · have : c.configEnv = some m := hm
      rw [this] at hd
      exact hd
    · cases hf
  rw [termUsed_append, e1]
  have := C39_term_partial _ h env0 h0 hd (by simp [etcVars, getenv_nil])
  rw [show kTERM = "TERM".toList from rfl, this]
  rfl

/-- **C98** (exactly when): the database is that of the terminal type the shell is told exactly if /etc/environment does not set TERM, or sets it
(in the end) to the type asked for, or none is asked for and it sets it once, or first and last to the same. -/
theorem C98_exact (c : Ctx) (h : Header) (env : Pairs) (hb : buildShellEnv c h = some env) (hd : ((c.configEnv.getD []).map (·.1)).Nodup) :
    termUsed env = getenv env kTERM ↔
      ∀ v, getenv (etcVars c) "TERM".toList = some v →
        (wantedTerm c h).or (((etcVars c).filter (fun p => p.1 == "TERM".toList)).map (·.2)).head? = some v := by
  rw [C98_rule c h env hb hd, show kTERM = "TERM".toList from rfl, C39_rule c h env hb hd]
  cases hg : getenv (etcVars c) "TERM".toList with
  | none =>
    have : ((etcVars c).filter (fun p => p.1 == "TERM".toList)) = [] := by
      rw [List.filter_eq_nil_iff]
      intro p hp hk
      unfold getenv at hg
      have := List.find?_eq_none.mp (Option.map_eq_none_iff.mp hg) p (by simpa using hp)
      exact this hk
    rw [this]
    simp
  | some v => simp

/-- The conditions are met with a TERM in /etc/environment. -/
example : ∃ env, buildShellEnv { plainCtx with etcFile := some ("TERM=dumb\n".toList.map EtcEnv.Sym.ch) } { plainHeader with localEnv := [(kTERM, "xterm".toList)] } =
    some env ∧ termUsed env = some "xterm".toList ∧ getenv env kTERM = some "dumb".toList := ⟨_, rfl, by decide, by decide⟩

/-- **C97** (exactly when): a shell is started for a session that is not created exactly if the command can be built, the terminal database is found, the
fork works, and then the thread cannot be started, or there is a ttl and it is out of range or nobody takes its registration. -/
theorem C97_exact (words : Str → Option (List Str)) (w : World) (i : Input) :
    ((spawnSubshell words w i).child ≠ none ∧ (spawnSubshell words w i).outcome ≠ .created) ↔
      execOf words i ≠ none ∧ w.terminfo = true ∧ w.fork = true ∧
        (w.thread = false ∨ ∃ secs, i.ttl = some secs ∧ (2 ^ 63 ≤ w.now + secs ∨ w.reaper = false)) := by
  unfold spawnSubshell instantAdd
  cases execOf words i with
  | none => simp
  | some e =>
    cases w.terminfo <;> cases w.fork <;> cases w.thread <;> cases i.ttl with
    | none => simp
    | some ttl =>
      by_cases h : w.now + ttl < 2 ^ 63 <;> cases w.reaper <;> simp [h, Nat.not_le] <;> omega

end Shpool.Spawn
