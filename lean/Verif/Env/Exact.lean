import Verif.Env.Props
/-! # Exactly when TERM is as configured (C39) and forward.env can be read back (C72) -/

namespace Shpool.Env

open Shpool.Str

/-- Spec: the TERM that is asked for: that of the configured table (unset if it is empty there), else the client's. -/
def wantedTerm (c : Ctx) (h : Header) : Option Str :=
  match getenv (c.configEnv.getD []) "TERM".toList with
  | some t => if t = [] then none else some t
  | none => h.localEnvGet "TERM".toList

/-- The environment without /etc/environment, and what that adds. -/
theorem without_etc {c : Ctx} {h : Header} {env : Pairs} (hb : buildShellEnv c h = some env) :
    ∃ env0, buildShellEnv { c with noreadEtc := some true } h = some env0 ∧ env = env0 ++ etcVars c := by
  refine ⟨_, rfl, ?_⟩
  rw [build_eq hb]
  rfl

/-- **C39** (the rule in full): what /etc/environment says about TERM comes first. -/
theorem C39_rule (c : Ctx) (h : Header) (env : Pairs) (hb : buildShellEnv c h = some env) (hm : ((c.configEnv.getD []).map (·.1)).Nodup) :
    getenv env "TERM".toList = (getenv (etcVars c) "TERM".toList).or (wantedTerm c h) := by
  obtain ⟨env0, h0, rfl⟩ := without_etc hb
  rw [getenv_append, C39_term_partial _ h env0 h0 hm (by simp [etcVars, getenv_nil])]
  rfl

/-- **C39** (exactly when): the session's TERM is the one asked for exactly if /etc/environment does not set it to anything else. -/
theorem C39_exact (c : Ctx) (h : Header) (env : Pairs) (hb : buildShellEnv c h = some env) (hm : ((c.configEnv.getD []).map (·.1)).Nodup) :
    getenv env "TERM".toList = wantedTerm c h ↔ ∀ v, getenv (etcVars c) "TERM".toList = some v → wantedTerm c h = some v := by
  rw [C39_rule c h env hb hm]
  cases getenv (etcVars c) "TERM".toList with
  | none => simp
  | some v => simp [eq_comm]

/-- The conditions are met, with and without TERM in /etc/environment. -/
example : ((demoCtx.configEnv.getD []).map (·.1)).Nodup ∧ getenv (etcVars demoCtx) kTERM = none ∧
    getenv (etcVars { demoCtx with etcFile := some ("TERM=vt100\n".toList.map EtcEnv.Sym.ch), noreadEtc := none }) kTERM = some "vt100".toList := by decide

theorem split_length (t : Str) : (split '\n' t).length = t.count '\n' + 1 := by
  induction t with
  | nil => rfl
  | cons c t ih =>
    simp only [split]
    split
    · next h => subst h; simp [ih]
    · next h =>
      rw [List.count_cons_of_ne h]
      cases hs : split '\n' t with
      | nil => rw [hs] at ih; simp at ih
      | cons x xs => rw [hs] at ih; simpa using ih

theorem join_count (ls : List Str) (hne : ls ≠ []) : (join '\n' ls).count '\n' + 1 = (ls.map (·.count '\n')).sum + ls.length := by
  induction ls with
  | nil => exact absurd rfl hne
  | cons l ls ih =>
    cases ls with
    | nil => simp [join]
    | cons m ls =>
      have := ih (by simp)
      simp only [join, List.count_append, List.count_cons_self, List.map_cons, List.sum_cons, List.length_cons] at this ⊢
      omega

theorem sum_zero {ns : List Nat} (h : ns.sum = 0) : ∀ n ∈ ns, n = 0 := by
  induction ns with
  | nil => simp
  | cons a ns ih =>
    simp only [List.sum_cons] at h
    intro n hn
    rcases List.mem_cons.mp hn with rfl | hn
    · omega
    · exact ih (by omega) n hn

theorem splitEq_name {t k v : Str} (h : EtcEnv.splitEq t = some (k, v)) : '=' ∉ k := by
  induction t generalizing k with
  | nil => cases h
  | cons c t ih =>
    simp only [EtcEnv.splitEq] at h
    split at h
    · cases h; simp
    · next hc =>
      cases hs : EtcEnv.splitEq t with
      | none => rw [hs] at h; cases h
      | some p =>
        rw [hs] at h
        cases h
        have := ih (k := p.1) hs
        simp [this, Ne.symm hc]

/-- **C72** (exactly when): the file read line by line gives back the forwarded variables exactly if no name has an equals sign and no name and no value a
line feed. -/
theorem C72_exact (l : Pairs) (hne : l ≠ []) :
    readBack (forwardEnvText l) = l.map some ↔ ∀ p ∈ l, '=' ∉ p.1 ∧ '\n' ∉ p.1 ∧ '\n' ∉ p.2 := by
  refine ⟨fun h => ?_, C72_forward_env_partial l hne⟩
  have hne' : l.map (fun p => p.1 ++ '=' :: p.2) ≠ [] := by simpa using hne
  have hlen := congrArg List.length h
  simp only [readBack, forwardEnvText, joinLines_eq, List.length_map, split_length] at hlen
  rw [join_count _ hne'] at hlen
  simp only [List.length_map] at hlen
  have hz := sum_zero (Nat.add_eq_right.mp hlen)
  have hno : ∀ p ∈ l, '\n' ∉ p.1 ++ '=' :: p.2 := fun p hp => by
    have := hz _ (List.mem_map.mpr ⟨_, List.mem_map.mpr ⟨p, hp, rfl⟩, rfl⟩)
    exact List.count_eq_zero.mp this
  have hs : split '\n' (join '\n' (l.map (fun p => p.1 ++ '=' :: p.2))) = l.map (fun p => p.1 ++ '=' :: p.2) := by
    refine split_join hne' (fun x hx => ?_)
    obtain ⟨p, hp, rfl⟩ := List.mem_map.mp hx
    exact hno p hp
  simp only [readBack, forwardEnvText, joinLines_eq, hs, List.map_map] at h
  intro p hp
  have h1 := List.map_inj_left.mp h p hp
  have h2 := hno p hp
  simp only [List.mem_append, List.mem_cons, not_or] at h2
  exact ⟨splitEq_name h1, h2.1, h2.2.2⟩

example : [("A".toList, "b".toList), ("C".toList, "d\ne".toList)] ≠ ([] : Pairs) := by decide

end Shpool.Env
