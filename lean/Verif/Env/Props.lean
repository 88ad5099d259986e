import Verif.Env.Model
import Verif.Util.NumSpec
import Verif.Util.List
/-!
# Properties C36-C41, C71, C72: names, directories and environments of sessions
-/

namespace Shpool.Env
open Shpool.Str

/-! ## C36, C37: names -/

/-- An acceptable session name, in words: not empty, not `.` or `..`, no slash, no white space. -/
def GoodName (n : Str) : Prop := n ≠ [] ∧ n ≠ ".".toList ∧ n ≠ "..".toList ∧ '/' ∉ n ∧ ∀ c ∈ n, isWhitespace c = false

theorem daemonAccepts_iff (n : Str) : daemonRejects n = false ↔ GoodName n := by
  unfold daemonRejects GoodName
  simp only [Bool.or_eq_false_iff, List.any_eq_false, beq_eq_false_iff_ne, ne_eq, Bool.or_eq_true, beq_iff_eq, not_or,
    Bool.not_eq_true, List.isEmpty_eq_false_iff]
  constructor
  · rintro ⟨⟨⟨h1, h2⟩, h3⟩, h4⟩
    exact ⟨h4, h2, h3, fun hm => (h1 _ hm).1 rfl, fun c hc => (h1 c hc).2⟩
  · rintro ⟨h1, h2, h3, h4, h5⟩
    exact ⟨⟨⟨fun c hc => ⟨fun e => h4 (e ▸ hc), h5 c hc⟩, h2⟩, h3⟩, h1⟩

theorem clientAccepts_iff (n : Str) : clientRejects n = none ↔ GoodName n := by
  unfold clientRejects GoodName
  constructor
  · intro h
    split at h
    · cases h
    · next h1 =>
      split at h
      · cases h
      · next h2 =>
        split at h
        · cases h
        · next h3 =>
          split at h
          · cases h
          · next h4 =>
            simp only [Bool.or_eq_true, beq_iff_eq, not_or] at h4
            refine ⟨by simpa using h1, h4.1, h4.2, ?_, ?_⟩
            · intro hm; apply h3; rw [List.any_eq_true]; exact ⟨_, hm, by simp⟩
            · intro c hc
              cases hw : isWhitespace c with
              | false => rfl
              | true => exact absurd (List.any_eq_true.mpr ⟨c, hc, hw⟩) h2
  · rintro ⟨h1, h2, h3, h4, h5⟩
    rw [if_neg (by simpa using h1), if_neg, if_neg, if_neg]
    · simp only [Bool.or_eq_true, beq_iff_eq, not_or]; exact ⟨h2, h3⟩
    · rw [List.any_eq_true]; rintro ⟨c, hc, e⟩; simp at e; exact h4 (e ▸ hc)
    · rw [List.any_eq_true]; rintro ⟨c, hc, e⟩; rw [h5 c hc] at e; cases e

/-- C37. The client refuses a name exactly when the daemon would. -/
theorem C37_agree (n : Str) : (clientRejects n).isSome = daemonRejects n := by
  cases hc : clientRejects n with
  | none =>
    have := (daemonAccepts_iff n).mpr ((clientAccepts_iff n).mp hc)
    rw [this]; rfl
  | some m =>
    cases hd : daemonRejects n with
    | true => rfl
    | false =>
      have := (clientAccepts_iff n).mpr ((daemonAccepts_iff n).mp hd)
      rw [hc] at this; cases this

/-- C37. What both accept. -/
theorem C37_accepted (n : Str) : daemonRejects n = false ↔ GoodName n := daemonAccepts_iff n

example : clientRejects "a b".toList = some .whitespace ∧ clientRejects "..".toList = some .special ∧
    clientRejects "main".toList = none ∧ daemonRejects "x/../y".toList = true := by decide

/-- The components of a path: the pieces between slashes that are neither empty nor `.`. -/
def comps (p : Str) : List Str := (split '/' p).filter (fun x => !(x == []) && !(x == ".".toList))

theorem joinPath_sessions (r : Str) : ∃ b, joinPath r "sessions".toList = b ++ "sessions".toList := by
  unfold joinPath
  rw [if_neg (by decide)]
  split
  · exact ⟨r, rfl⟩
  · exact ⟨r ++ ['/'], by simp⟩

theorem sessionDir_eq {r n : Str} (h : '/' ∉ n) : sessionDir r n = joinPath r "sessions".toList ++ '/' :: n := by
  unfold sessionDir
  obtain ⟨b, hb⟩ := joinPath_sessions r
  generalize joinPath r "sessions".toList = d at hb
  unfold joinPath
  rw [if_neg, if_neg]
  · rw [hb]
    have : (b ++ "sessions".toList).getLast? = some 's' := by
      have : b ++ "sessions".toList = (b ++ "session".toList) ++ ['s'] := by simp
      rw [this]; simp
    simp [this]
  · intro hh
    cases n with
    | nil => cases hh
    | cons c n => simp at hh; subst hh; simp at h

theorem split_mid (sep : Char) (a b : Str) : split sep (a ++ sep :: b) = split sep a ++ split sep b := by
  induction a with
  | nil => simp [split]
  | cons c a ih =>
    simp only [List.cons_append, split]
    by_cases hc : c = sep
    · rw [if_pos hc, if_pos hc, ih]; rfl
    · rw [if_neg hc, if_neg hc, ih]
      cases hs : split sep a with
      | nil => exact absurd hs (split_ne_nil sep a)
      | cons h t => rfl

/-- C36 (containment). The directory of every accepted session is a direct child of `<runtime dir>/sessions`: one more path
component, and that component is the name. -/
theorem C36_direct_child (r n : Str) (h : daemonRejects n = false) :
    comps (sessionDir r n) = comps (joinPath r "sessions".toList) ++ [n] ∧ n ≠ "..".toList := by
  obtain ⟨h1, h2, h3, h4, -⟩ := (daemonAccepts_iff n).mp h
  refine ⟨?_, h3⟩
  rw [sessionDir_eq h4]
  unfold comps
  rw [split_mid, List.filter_append, split_of_not_mem h4]
  congr 1
  rw [List.filter_cons, if_pos]
  · rfl
  · rw [Bool.and_eq_true, Bool.not_eq_true', Bool.not_eq_true', beq_eq_false_iff_ne, beq_eq_false_iff_ne]
    exact ⟨h1, h2⟩

/-- C36 (separation). Different accepted names have different directories, links and files. -/
theorem C36_injective (r n m : Str) (hn : daemonRejects n = false) (hm : daemonRejects m = false)
    (h : sessionDir r n = sessionDir r m) : n = m := by
  obtain ⟨-, -, -, h4, -⟩ := (daemonAccepts_iff n).mp hn
  obtain ⟨-, -, -, h4', -⟩ := (daemonAccepts_iff m).mp hm
  rw [sessionDir_eq h4, sessionDir_eq h4'] at h
  have := List.append_cancel_left h
  exact (List.cons.inj this).2

example : comps (sessionDir "/run/user/1000/shpool".toList "main".toList) =
    ["run".toList, "user".toList, "1000".toList, "shpool".toList, "sessions".toList, "main".toList] ∧
    daemonRejects "main".toList = false := by decide
/-- The check is what makes it so. -/
example : comps (sessionDir "/r".toList "../x".toList) = ["r".toList, "sessions".toList, "..".toList, "x".toList] := by decide

theorem child_eq {r n f : Str} (hn : daemonRejects n = false) (hf : '/' ∉ f) :
    joinPath (sessionDir r n) f = joinPath r "sessions".toList ++ '/' :: (n ++ '/' :: f) := by
  obtain ⟨h1, -, -, h4, -⟩ := (daemonAccepts_iff n).mp hn
  rw [sessionDir_eq h4]
  generalize joinPath r "sessions".toList = d
  unfold joinPath
  rw [if_neg, if_neg]
  · simp
  · rcases List.eq_nil_or_concat n with rfl | ⟨a, c, rfl⟩
    · exact absurd rfl h1
    · rw [List.concat_eq_append] at h4 ⊢
      have hc : c ≠ '/' := by intro e; apply h4; rw [e]; simp
      have : ∀ d : Str, (d ++ '/' :: (a ++ [c])).getLast? = some c := by
        intro d
        have : d ++ '/' :: (a ++ [c]) = (d ++ '/' :: a) ++ [c] := by simp
        rw [this]; exact List.getLast?_concat
      rw [this]
      simp [hc]
  · intro hh
    cases f with
    | nil => cases hh
    | cons c n => simp at hh; subst hh; simp at hf

theorem child_injective {r n m f : Str} (hn : daemonRejects n = false) (hm : daemonRejects m = false) (hf : '/' ∉ f)
    (h : joinPath (sessionDir r n) f = joinPath (sessionDir r m) f) : n = m := by
  rw [child_eq hn hf, child_eq hm hf] at h
  have := (List.cons.inj (List.append_cancel_left h)).2
  exact List.append_cancel_right this

/-! ## C38: environment precedence -/

/-- The variables `/etc/environment` contributes. -/
def etcVars (c : Ctx) : Pairs :=
  if c.noreadEtc = some true then []
  else match c.etcFile with
    | none => []
    | some f => (EtcEnv.parseCompat f).getD []

/-- The daemon's base variables, as a table. -/
def baseVar (c : Ctx) (name : Str) (k : Str) : Option Str :=
  if k = "HOME".toList then some c.home
  else if k = "PATH".toList then some (c.initialPath.getD "/usr/bin:/bin:/usr/sbin:/sbin".toList)
  else if k = "SHPOOL_SESSION_NAME".toList then some name
  else if k = "SHPOOL_SESSION_DIR".toList then some (sessionDir c.runtimeDir name)
  else if k = "SHELL".toList then some c.defaultShell
  else if k = "USER".toList then some c.user
  else if k = "SSH_AUTH_SOCK".toList then some (sshAuthSockSymlink c.runtimeDir name)
  else if k = "XDG_RUNTIME_DIR".toList then c.xdgRuntimeDir
  else none

theorem getenv_append (a b : Pairs) (k : Str) : getenv (a ++ b) k = (getenv b k).or (getenv a k) := by
  unfold getenv
  rw [List.reverse_append, List.find?_append]
  cases List.find? (fun p => p.1 == k) b.reverse <;> rfl

theorem getenv_nil (k : Str) : getenv [] k = none := rfl

theorem getenv_single (j v k : Str) : getenv [(j, v)] k = if j = k then some v else none := by
  unfold getenv
  by_cases h : j = k
  · simp [h]
  · simp [h]

theorem getenv_filter (env : Pairs) (q : Str → Bool) (k : Str) (h : q k = true) :
    getenv (env.filter (fun p => q p.1)) k = getenv env k := by
  unfold getenv
  rw [← List.filter_reverse, List.find?_filter]
  congr 1
  congr 1
  funext p
  by_cases hp : p.1 = k
  · simp [hp, h]
  · simp [hp]

theorem getenv_filter_out (env : Pairs) (q : Str → Bool) (k : Str) (h : q k = false) :
    getenv (env.filter (fun p => q p.1)) k = none := by
  unfold getenv
  rw [← List.filter_reverse, List.find?_filter]
  rw [List.find?_eq_none.mpr]
  · rfl
  · intro p _
    by_cases hp : p.1 = k
    · simp [hp, h]
    · simp [hp]

theorem assocGet_eq_getenv {m : Pairs} (hm : (m.map (·.1)).Nodup) (k : Str) : assocGet m k = getenv m k := by
  induction m with
  | nil => rfl
  | cons p m ih =>
    rw [List.map_cons, List.nodup_cons] at hm
    rw [show p :: m = [p] ++ m from rfl, getenv_append, ← ih hm.2, show p = (p.1, p.2) from rfl, getenv_single]
    unfold assocGet
    by_cases hp : p.1 = k
    · rw [if_pos hp]
      have hnone : List.find? (fun q => q.1 == k) m = none := by
        rw [List.find?_eq_none]
        intro q hq he
        apply hm.1
        rw [hp, ← eq_of_beq he]
        exact List.mem_map_of_mem (f := (·.1)) hq
      rw [hnone]
      simp [List.find?, hp]
    · rw [if_neg hp, Option.or_none]
      simp [List.find?, hp]

theorem assocGet_cons (j v k : Str) (l : Pairs) : assocGet ((j, v) :: l) k = if k = j then some v else assocGet l k := by
  unfold assocGet
  by_cases h : k = j
  · subst h; simp
  · have h' : ¬ j = k := fun e => h e.symm
    simp [h, h']

theorem baseEnv_get (c : Ctx) (h : Header) (k : Str) : getenv (baseEnv c h) k = baseVar c h.name k := by
  unfold baseEnv
  cases hx : c.xdgRuntimeDir with
  | none =>
    dsimp only
    rw [← assocGet_eq_getenv (by simp only [List.map_append, List.map_cons, List.map_nil]; decide)]
    simp only [List.append_nil, assocGet_cons]
    unfold baseVar
    rw [hx]
    have : assocGet [] k = (if k = kXDG_RUNTIME_DIR then none else none : Option Str) := by split <;> rfl
    rw [this]; rfl
  | some x =>
    dsimp only
    rw [← assocGet_eq_getenv (by simp only [List.map_append, List.map_cons, List.map_nil]; decide)]
    simp only [List.cons_append, List.nil_append, assocGet_cons]
    unfold baseVar
    rw [hx]; rfl

theorem build_eq {c : Ctx} {h : Header} {env : Pairs} (hb : buildShellEnv c h = some env) :
    env = baseEnv c h ++ extraEnv c h ++ (match termOf c h with | some t => [(kTERM, t)] | none => []) ++
      h.localEnv.filter (fun p => !(p.1 == kTERM || p.1 == kSSH_AUTH_SOCK)) ++ etcVars c := by
  unfold buildShellEnv at hb
  dsimp only at hb
  unfold etcVars
  split at hb
  · next hn =>
    cases hb
    have : c.noreadEtc = some true := by
      cases hc : c.noreadEtc with
      | none => rw [hc] at hn; cases hn
      | some b => rw [hc] at hn; cases b <;> simp_all
    rw [if_pos this, List.append_nil]
    cases termOf c h <;> rfl
  · next hn =>
    have : ¬ c.noreadEtc = some true := by intro e; rw [e] at hn; exact hn rfl
    rw [if_neg this]
    split at hb
    · next hf => cases hb; rw [hf]; cases termOf c h <;> simp
    · next f hf =>
      rw [hf]
      split at hb
      · cases hb
      · next ps hp => cases hb; dsimp only; rw [hp]; cases termOf c h <;> rfl

/-- C38. In a new session every variable other than TERM has the value from the first of these sources that defines it, and is
unset if none does: `/etc/environment`, the variables forwarded by the client (except SSH_AUTH_SOCK), the configured `env` table,
the daemon's base variables.  (TERM is the subject of C39.) -/
theorem C38_precedence (c : Ctx) (h : Header) (env : Pairs) (hb : buildShellEnv c h = some env) (k : Str)
    (hk : k ≠ "TERM".toList) :
    getenv env k =
      (getenv (etcVars c) k).or
        ((if k = "SSH_AUTH_SOCK".toList then none else getenv h.localEnv k).or
          ((getenv (c.configEnv.getD []) k).or (baseVar c h.name k))) := by
  have hk : k ≠ kTERM := hk
  show getenv env k = (getenv (etcVars c) k).or ((if k = kSSH_AUTH_SOCK then none else getenv h.localEnv k).or
    ((getenv (c.configEnv.getD []) k).or (baseVar c h.name k)))
  rw [build_eq hb, getenv_append, getenv_append, getenv_append, getenv_append, baseEnv_get]
  have hloc : getenv (h.localEnv.filter (fun p => !(p.1 == kTERM || p.1 == kSSH_AUTH_SOCK))) k =
      if k = kSSH_AUTH_SOCK then none else getenv h.localEnv k := by
    by_cases hs : k = kSSH_AUTH_SOCK
    · rw [if_pos hs]
      exact getenv_filter_out h.localEnv (fun k => !(k == kTERM || k == kSSH_AUTH_SOCK)) k (by rw [hs]; decide)
    · rw [if_neg hs]
      exact getenv_filter h.localEnv (fun k => !(k == kTERM || k == kSSH_AUTH_SOCK)) k (by simp [hk, hs])
  have hterm : getenv (match termOf c h with | some t => [(kTERM, t)] | none => []) k = none := by
    cases termOf c h with
    | none => rfl
    | some t =>
      show getenv [(kTERM, t)] k = none
      rw [getenv_single]; exact if_neg (fun e => hk e.symm)
  have hextra : getenv (extraEnv c h) k = getenv (c.configEnv.getD []) k := by
    unfold extraEnv
    cases c.configEnv with
    | none => rfl
    | some m =>
      simp only [Option.getD_some]
      split
      · exact getenv_filter m (fun k => !(k == kTERM)) k (by simp [hk])
      · rfl
  rw [hloc, hterm, hextra, Option.none_or]

/-- The environment can be built unless `/etc/environment` is to be read and cannot be parsed. -/
theorem C38_succeeds (c : Ctx) (h : Header) :
    (∃ env, buildShellEnv c h = some env) ↔
      c.noreadEtc = some true ∨ ∀ f, c.etcFile = some f → ∃ ps, EtcEnv.parseCompat f = some ps := by
  unfold buildShellEnv
  dsimp only
  cases hn : c.noreadEtc with
  | none =>
    simp only [Option.getD_none, Bool.false_eq_true, if_false, reduceCtorEq, false_or]
    cases hf : c.etcFile with
    | none => simp
    | some f => cases hp : EtcEnv.parseCompat f <;> simp [hp]
  | some b =>
    cases b with
    | true => simp
    | false =>
      simp only [Option.getD_some, Bool.false_eq_true, if_false, Option.some.injEq, false_or]
      cases hf : c.etcFile with
      | none => simp
      | some f => cases hp : EtcEnv.parseCompat f <;> simp [hp]

def text (t : Str) : List EtcEnv.Sym := t.map .ch
def demoCtx : Ctx :=
  { home := "/home/u".toList, user := ['u'], defaultShell := "/bin/bash".toList, runtimeDir := "/run".toList, xdgRuntimeDir := none,
    initialPath := none, configEnv := some [(kLANG, ['C']), ("X".toList, ['1']), (kTERM, "dumb".toList)],
    noreadEtc := none, etcFile := some (text "Y=2\n".toList) }
def demoHeader : Header :=
  ⟨"main".toList, [(kTERM, "xterm".toList), (kLANG, "de".toList), (kSSH_AUTH_SOCK, "/tmp/a".toList)], none⟩
example : (buildShellEnv demoCtx demoHeader).map (fun e => (getenv e kLANG, getenv e ['X'], getenv e ['Y'],
    getenv e kTERM, getenv e ['Z']) == (some "de".toList, some ['1'], some ['2'], some "dumb".toList, none)) = some true := by decide

/-! ## C39: TERM -/

/-- C39 as stated is false: `/etc/environment` can override the configured TERM. -/
theorem C39_false : ∃ (c : Ctx) (h : Header) (env : Pairs), buildShellEnv c h = some env ∧
    c.configEnv = some [(kTERM, "dumb".toList)] ∧ getenv env kTERM = some "vt100".toList :=
  ⟨{ demoCtx with configEnv := some [(kTERM, "dumb".toList)], etcFile := some (text "TERM=vt100".toList) },
    demoHeader, _, rfl, rfl, by decide⟩

/-- C39 (if `/etc/environment` does not set TERM). The session's TERM is the one in the configured env table, unset if that is
empty, and the client's if the table has none. -/
theorem C39_term_partial (c : Ctx) (h : Header) (env : Pairs) (hb : buildShellEnv c h = some env)
    (hm : ((c.configEnv.getD []).map (·.1)).Nodup) (hetc : getenv (etcVars c) "TERM".toList = none) :
    getenv env "TERM".toList =
      match getenv (c.configEnv.getD []) "TERM".toList with
      | some t => if t = [] then none else some t
      | none => h.localEnvGet "TERM".toList := by
  show getenv env kTERM =
      match getenv (c.configEnv.getD []) kTERM with
      | some t => if t = [] then none else some t
      | none => h.localEnvGet kTERM
  rw [build_eq hb, getenv_append, getenv_append, getenv_append, getenv_append, baseEnv_get,
    show getenv (etcVars c) kTERM = none from hetc, Option.none_or,
    getenv_filter_out h.localEnv (fun k => !(k == kTERM || k == kSSH_AUTH_SOCK)) _ (by decide), Option.none_or,
    show baseVar c h.name kTERM = none from rfl, Option.or_none]
  cases hc : c.configEnv with
  | none =>
    have ht : termOf c h = h.localEnvGet kTERM := by unfold termOf; rw [hc]
    have he : extraEnv c h = [] := by unfold extraEnv; rw [hc]
    rw [ht, he]
    cases h.localEnvGet kTERM with
    | none => rfl
    | some t => simp [getenv_single, getenv_nil]
  | some m =>
    rw [hc] at hm
    simp only [Option.getD_some] at hm ⊢
    have ht : termOf c h = match assocGet m kTERM with
      | none => h.localEnvGet kTERM
      | some t => if t.isEmpty then none else some t := by unfold termOf; rw [hc]; dsimp only; cases assocGet m kTERM <;> rfl
    rw [assocGet_eq_getenv hm] at ht
    have he : extraEnv c h = if (termOf c h).isNone then m.filter (fun p => !(p.1 == kTERM)) else m := by
      unfold extraEnv; rw [hc]
    have hfo : getenv (m.filter (fun p => !(p.1 == kTERM))) kTERM = none :=
      getenv_filter_out m (fun k => !(k == kTERM)) _ (by decide)
    cases hg : getenv m kTERM with
    | none =>
      rw [hg] at ht
      dsimp only at ht
      cases hl : h.localEnvGet kTERM with
      | none => rw [hl] at ht; rw [he, ht]; simp [getenv_nil, hfo]
      | some t => rw [hl] at ht; rw [he, ht]; simp [getenv_single]
    | some t =>
      rw [hg] at ht
      dsimp only at ht
      by_cases h0 : t = []
      · subst h0
        simp at ht
        rw [he, ht]; simp [getenv_nil, hfo]
      · rw [if_neg (by simpa using h0)] at ht
        rw [he, ht]; simp [getenv_single, h0]

example : getenv (etcVars demoCtx) kTERM = none ∧ ((demoCtx.configEnv.getD []).map (·.1)).Nodup := by decide

/-! ## C40: the ssh agent socket -/

/-- C40 (in the session). Unless the configured env table or `/etc/environment` sets it, SSH_AUTH_SOCK is a path determined by
the session's name and the runtime directory alone, whatever the client's own value. -/
theorem C40_stable_path (c : Ctx) (h : Header) (env : Pairs) (hb : buildShellEnv c h = some env)
    (h1 : getenv (etcVars c) "SSH_AUTH_SOCK".toList = none)
    (h2 : getenv (c.configEnv.getD []) "SSH_AUTH_SOCK".toList = none) :
    getenv env "SSH_AUTH_SOCK".toList = some (sshAuthSockSymlink c.runtimeDir h.name) := by
  rw [C38_precedence c h env hb _ (by decide), h1, h2]
  rfl

/-- C40, C38, C36. Where a session's files are, in full, for a runtime directory given without a slash at its end. -/
theorem C40_spelled (r n : Str) (hr : r ≠ []) (hs : r.getLast? ≠ some '/') (hn : daemonRejects n = false) :
    sessionDir r n = r ++ "/sessions/".toList ++ n ∧
    sessionEnvFile r n = r ++ "/sessions/".toList ++ n ++ "/forward.env".toList ∧
    sshAuthSockSymlink r n = r ++ "/sessions/".toList ++ n ++ "/ssh-auth-sock.socket".toList := by
  have hj : joinPath r "sessions".toList = r ++ "/sessions".toList := by
    unfold joinPath
    rw [if_neg (by decide), if_neg]
    · rfl
    · simp [hr, hs]
  have h4 : '/' ∉ n := ((daemonAccepts_iff n).mp hn).2.2.2.1
  refine ⟨?_, ?_, ?_⟩
  · rw [sessionDir_eq h4, hj]; simp
  · unfold sessionEnvFile; rw [child_eq hn (by decide), hj]; simp
  · unfold sshAuthSockSymlink; rw [child_eq hn (by decide), hj]; simp

example : "/run/user/1000/shpool".toList.getLast? ≠ some '/' ∧ daemonRejects "main".toList = false := by decide

/-- The client sockets announced by the attaches to session `n`. -/
def socketsFor (n : Str) (hs : List Header) : List Str :=
  (hs.filter (fun h => h.name == n)).filterMap (fun h => h.localEnvGet "SSH_AUTH_SOCK".toList)

/-- C40 (on disk). After any sequence of attaches to any sessions, the path seen in session `n` is a link to the agent socket of the
most recent attach to `n` that had one. -/
theorem C40_link_follows_last_attach (runtimeDir : Str) (hs : List Header) (hn : ∀ h ∈ hs, daemonRejects h.name = false) (n : Str)
    (hv : daemonRejects n = false) :
    (hs.foldl (onAttach runtimeDir none) Fs.empty).link (sshAuthSockSymlink runtimeDir n) = (socketsFor n hs).getLast? := by
  have hsf : ∀ hs, socketsFor n hs = (hs.filter (fun h => h.name == n)).filterMap (fun h => h.localEnvGet kSSH_AUTH_SOCK) :=
    fun _ => rfl
  induction hs using snocInd with
  | nil => rfl
  | snoc hs h ih =>
    have ih' := ih (fun x hx => hn x (List.mem_append_left _ hx))
    rw [List.foldl_append, List.foldl_cons, List.foldl_nil]
    have hso : socketsFor n (hs ++ [h]) = socketsFor n hs ++ socketsFor n [h] := by simp [hsf]
    rw [hso]
    generalize hs.foldl (onAttach runtimeDir none) Fs.empty = fs at *
    unfold onAttach
    dsimp only [Option.getD_none]
    simp only [Bool.false_eq_true, if_false]
    cases hg : h.localEnvGet kSSH_AUTH_SOCK with
    | none =>
      dsimp only
      have : socketsFor n [h] = [] := by
        rw [hsf]
        by_cases hx : h.name = n <;> simp [hx, hg]
      rw [this, List.append_nil]; exact ih'
    | some t =>
      dsimp only
      by_cases hx : h.name = n
      · have : socketsFor n [h] = [t] := by simp [hsf, hx, hg]
        rw [this, hx, if_pos rfl]; simp
      · have : socketsFor n [h] = [] := by simp [hsf, hx]
        rw [this, List.append_nil, if_neg, ih']
        intro e
        apply hx
        exact (child_injective hv (hn h (by simp)) (by decide) e).symm

example : socketsFor "main".toList [demoHeader, { demoHeader with localEnv := [] }] = ["/tmp/a".toList] ∧
    daemonRejects "main".toList = false := by decide

/-! ## C41: the start directory -/

/-- Where a session is meant to start. -/
inductive StartsIn (home cwd : Str) : Option Str → Option Str → Str → Prop where
  | flagDot (d) : StartsIn home cwd d (some ".".toList) cwd
  | flag (d f) (h : f ≠ ".".toList) : StartsIn home cwd d (some f) f
  | defaultNothing : StartsIn home cwd none none home
  | defaultHome : StartsIn home cwd (some "$HOME".toList) none home
  | defaultDot : StartsIn home cwd (some ".".toList) none cwd
  | default (d) (h1 : d ≠ ".".toList) (h2 : d ≠ "$HOME".toList) : StartsIn home cwd (some d) none d

/-- C41. The session starts in `--dir` (`.` meaning the client's directory), else in the configured default (`.` meaning the client's
directory; `$HOME` or nothing meaning the home directory), and in no other place. -/
theorem C41_start_dir (home cwd : Str) (defaultDir dirFlag : Option Str) (d : Str) :
    StartsIn home cwd defaultDir dirFlag d ↔ startDir home (headerDir cwd defaultDir dirFlag) = d := by
  constructor
  · intro h
    cases h with
    | flagDot => rfl
    | flag _ _ h => unfold headerDir; dsimp only; rw [if_neg h]; rfl
    | defaultNothing => rfl
    | defaultHome => rfl
    | defaultDot => rfl
    | default _ h1 h2 =>
      unfold headerDir
      simp only [Option.getD_some]
      rw [if_neg h1, if_neg h2]; rfl
  · rintro rfl
    cases dirFlag with
    | some f =>
      by_cases h : f = ".".toList
      · subst h; exact .flagDot _
      · unfold headerDir; dsimp only; rw [if_neg h]; exact .flag _ _ h
    | none =>
      cases defaultDir with
      | none => exact .defaultNothing
      | some d =>
        by_cases h1 : d = ".".toList
        · subst h1; exact .defaultDot
        · by_cases h2 : d = "$HOME".toList
          · subst h2; exact .defaultHome
          · unfold headerDir
            simp only [Option.getD_some]
            rw [if_neg h1, if_neg h2]; exact .default d h1 h2

/-! ## C71: what leaves the client -/

/-- C71. The attach header carries exactly the variables TERM, DISPLAY, LANG, SSH_AUTH_SOCK and those listed in `forward_env` that
are set in the client, with the client's values; nothing else of its environment is sent. -/
theorem C71_forwarded (fwd : Option (List Str)) (env : ProcEnv) (k v : Str) :
    (k, v) ∈ localEnvOf fwd env ↔
      (k = "TERM".toList ∨ k = "DISPLAY".toList ∨ k = "LANG".toList ∨ k = "SSH_AUTH_SOCK".toList ∨ ∃ l, fwd = some l ∧ k ∈ l) ∧
      env k = some v := by
  show (k, v) ∈ localEnvOf fwd env ↔
    (k = kTERM ∨ k = kDISPLAY ∨ k = kLANG ∨ k = kSSH_AUTH_SOCK ∨ ∃ l, fwd = some l ∧ k ∈ l) ∧ env k = some v
  unfold localEnvOf localEnvKeys
  rw [List.mem_filterMap]
  constructor
  · rintro ⟨x, hx, he⟩
    cases hv : env x with
    | none => rw [hv] at he; cases he
    | some w =>
      rw [hv] at he
      simp only [Option.map_some, Option.some.injEq, Prod.mk.injEq] at he
      obtain ⟨rfl, rfl⟩ := he
      refine ⟨?_, hv⟩
      simp only [List.cons_append, List.nil_append, List.mem_cons] at hx
      rcases hx with h | h | h | h | h
      · exact .inl h
      · exact .inr (.inl h)
      · exact .inr (.inr (.inl h))
      · exact .inr (.inr (.inr (.inl h)))
      · refine .inr (.inr (.inr (.inr ?_)))
        cases fwd with
        | none => cases h
        | some l => exact ⟨l, rfl, h⟩
  · rintro ⟨hk, hv⟩
    refine ⟨k, ?_, by rw [hv]; rfl⟩
    simp only [List.cons_append, List.nil_append, List.mem_cons]
    rcases hk with h | h | h | h | ⟨l, rfl, h⟩
    · exact .inl h
    · exact .inr (.inl h)
    · exact .inr (.inr (.inl h))
    · exact .inr (.inr (.inr (.inl h)))
    · exact .inr (.inr (.inr (.inr h)))

theorem getenv_mem {l : Pairs} {k v : Str} (h : getenv l k = some v) : (k, v) ∈ l := by
  unfold getenv at h
  cases hf : l.reverse.find? (fun p => p.1 == k) with
  | none => rw [hf] at h; cases h
  | some p =>
    rw [hf] at h
    have h1 := List.find?_some hf
    have h2 := List.mem_of_find?_eq_some hf
    simp only [Option.map_some, Option.some.injEq] at h
    have : p = (k, v) := by rw [← h, ← eq_of_beq h1]
    rw [← this]; exact List.mem_reverse.mp h2

theorem getenv_isSome {l : Pairs} {k v : Str} (h : (k, v) ∈ l) : ∃ w, getenv l k = some w := by
  unfold getenv
  cases hf : l.reverse.find? (fun p => p.1 == k) with
  | none =>
    have := List.find?_eq_none.mp hf (k, v) (List.mem_reverse.mpr h)
    simp at this
  | some p => exact ⟨p.2, rfl⟩

/-- C71, end to end. A variable listed in `forward_env` (or DISPLAY, LANG) that is set in the client is set in the session to the
client's value, unless `/etc/environment` sets it. -/
theorem C71_reaches_session (c : Ctx) (name : Str) (dir : Option Str) (fwd : Option (List Str)) (penv : ProcEnv) (env : Pairs)
    (hb : buildShellEnv c ⟨name, localEnvOf fwd penv, dir⟩ = some env) (k v : Str)
    (hk : k = "DISPLAY".toList ∨ k = "LANG".toList ∨ ∃ l, fwd = some l ∧ k ∈ l)
    (h1 : k ≠ "TERM".toList) (h2 : k ≠ "SSH_AUTH_SOCK".toList) (hv : penv k = some v)
    (hetc : getenv (etcVars c) k = none) : getenv env k = some v := by
  rw [C38_precedence c _ env hb k h1, hetc, if_neg h2, Option.none_or]
  have hm : (k, v) ∈ localEnvOf fwd penv := (C71_forwarded fwd penv k v).mpr
    ⟨by rcases hk with h | h | h
        · exact .inr (.inl h)
        · exact .inr (.inr (.inl h))
        · exact .inr (.inr (.inr (.inr h))), hv⟩
  obtain ⟨w, hw⟩ := getenv_isSome hm
  have := (C71_forwarded fwd penv k w).mp (getenv_mem hw)
  rw [hv] at this
  have hvw : v = w := Option.some.inj this.2
  show (getenv (localEnvOf fwd penv) k).or _ = _
  rw [hw, hvw]; rfl

example : ("FOO".toList, ['1']) ∈ localEnvOf (some ["FOO".toList]) (fun k => if k = "FOO".toList then some ['1'] else some ['0']) ∧
    ("BAR".toList, ['0']) ∉ localEnvOf (some ["FOO".toList]) (fun k => if k = "FOO".toList then some ['1'] else some ['0']) := by
  decide

/-! ## C72: forward.env -/

/-- Reading the file back line by line. -/
def readBack (t : Str) : List (Option (Str × Str)) := (split '\n' t).map EtcEnv.splitEq

theorem joinLines_eq (ls : List Str) : joinLines ls = join '\n' ls := by
  induction ls with
  | nil => rfl
  | cons l ls ih =>
    cases ls with
    | nil => rfl
    | cons m ls => show l ++ '\n' :: joinLines (m :: ls) = _; rw [ih]; rfl

theorem splitEq_append' {k v : Str} (h : '=' ∉ k) : EtcEnv.splitEq (k ++ '=' :: v) = some (k, v) := by
  induction k with
  | nil => simp [EtcEnv.splitEq]
  | cons c k ih =>
    simp only [List.mem_cons, not_or] at h
    simp only [List.cons_append, EtcEnv.splitEq, if_neg (Ne.symm h.1), ih h.2, Option.map_some]

/-- C72 as stated is false: a value with a line feed cannot be told from two variables. -/
theorem C72_false : ∃ a b : Pairs, a ≠ b ∧ (∀ p ∈ a ++ b, p.1 ≠ [] ∧ '=' ∉ p.1) ∧ forwardEnvText a = forwardEnvText b :=
  ⟨[(['A'], "1\nB=2".toList)], [(['A'], ['1']), (['B'], ['2'])], by decide, by decide, by decide⟩

/-- C72 (if no name or value contains a line feed). The file `forward.env` read line by line gives back exactly the forwarded
variables, in order. -/
theorem C72_forward_env_partial (l : Pairs) (hne : l ≠ []) (hk : ∀ p ∈ l, '=' ∉ p.1 ∧ '\n' ∉ p.1 ∧ '\n' ∉ p.2) :
    readBack (forwardEnvText l) = l.map some := by
  unfold readBack forwardEnvText
  rw [joinLines_eq, split_join]
  · rw [List.map_map]
    apply List.map_congr_left
    intro p hp
    exact splitEq_append' (hk p hp).1
  · simpa using hne
  · intro x hx
    obtain ⟨p, hp, rfl⟩ := List.mem_map.mp hx
    obtain ⟨-, h2, h3⟩ := hk p hp
    intro hm
    rcases List.mem_append.mp hm with hm | hm
    · exact h2 hm
    · rcases List.mem_cons.mp hm with hm | hm
      · exact absurd hm (by decide)
      · exact h3 hm

/-- C72. After any sequence of attaches, the file of session `n` is that of the last attach to `n`. -/
theorem C72_last_attach (runtimeDir : Str) (ns : Option Bool) (hs : List Header) (hn : ∀ h ∈ hs, daemonRejects h.name = false) (n : Str)
    (hv : daemonRejects n = false) :
    (hs.foldl (onAttach runtimeDir ns) Fs.empty).file (sessionEnvFile runtimeDir n) =
      ((hs.filter (fun h => h.name == n)).getLast?).map (fun h => forwardEnvText h.localEnv) := by
  induction hs using snocInd with
  | nil => rfl
  | snoc hs h ih =>
    have ih' := ih (fun x hx => hn x (List.mem_append_left _ hx))
    rw [List.foldl_append, List.foldl_cons, List.foldl_nil, List.filter_append]
    generalize hs.foldl (onAttach runtimeDir ns) Fs.empty = fs at *
    have hfile : (onAttach runtimeDir ns fs h).file (sessionEnvFile runtimeDir n) =
        if sessionEnvFile runtimeDir n = sessionEnvFile runtimeDir h.name then some (forwardEnvText h.localEnv)
        else fs.file (sessionEnvFile runtimeDir n) := by
      unfold onAttach
      dsimp only
      congr 1
      split
      · rfl
      · cases h.localEnvGet kSSH_AUTH_SOCK <;> rfl
    rw [hfile]
    by_cases hx : h.name = n
    · rw [hx, if_pos rfl]; simp [hx]
    · rw [if_neg]
      · have : List.filter (fun h : Header => h.name == n) [h] = [] := by simp [hx]
        rw [this, List.append_nil]; exact ih'
      · intro e
        apply hx
        exact (child_injective hv (hn h (by simp)) (by decide) e).symm

example : forwardEnvText demoHeader.localEnv = "TERM=xterm\nLANG=de\nSSH_AUTH_SOCK=/tmp/a".toList := by decide

end Shpool.Env
