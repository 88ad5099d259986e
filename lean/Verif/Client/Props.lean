import Verif.Client.Model
import Verif.Template.Props
import Verif.Env.Props
/-!
# Properties C42, C59-C62: client subcommands and the peer check
-/

namespace Shpool.Client

/-! ## C42 -/

/-- C42 (targets). What a kill or detach acts on: the named sessions if any are named, otherwise the session it runs in, otherwise
nothing; in that last case no request is sent and the command fails. -/
theorem C42_targets (args : List Str) (envName : Option Str) (d : Dial KillReply) (d' : Dial DetachReply)
    (hd : d ≠ .refused) (hd' : d' ≠ .refused) :
    (args ≠ [] → (killRun args envName d).1 = some (.kill args) ∧ (detachRun args envName d').1 = some (.detach args)) ∧
    (args = [] → ∀ n, envName = some n →
      (killRun args envName d).1 = some (.kill [n]) ∧ (detachRun args envName d').1 = some (.detach [n])) ∧
    (args = [] → envName = none → killRun args envName d = (none, false) ∧ detachRun args envName d' = (none, false)) := by
  have key : ∀ ss, resolveSessions args envName = some ss →
      (killRun args envName d).1 = some (.kill ss) ∧ (detachRun args envName d').1 = some (.detach ss) := by
    intro ss hs
    unfold killRun detachRun
    constructor
    · cases d with
      | refused => exact absurd rfl hd
      | broken => simp [hs]
      | replied r => simp [hs]
    · cases d' with
      | refused => exact absurd rfl hd'
      | broken => simp [hs]
      | replied r =>
        simp only [hs]
        split
        · rfl
        · split <;> rfl
  refine ⟨fun ha => key args ?_, fun ha n hn => key [n] ?_, fun ha hn => ?_⟩
  · cases args with
    | nil => exact absurd rfl ha
    | cons x xs => rfl
  · subst ha; subst hn; rfl
  · subst ha; subst hn
    constructor
    · unfold killRun; cases d <;> rfl
    · unfold detachRun; cases d' <;> rfl

/-- C42 (exit status). Success means: a request was sent, the daemon replied, and the reply names no session as not found (or, for
detach, as not attached). -/
theorem C42_exit_status (args : List Str) (envName : Option Str) (d : Dial KillReply) (d' : Dial DetachReply) :
    ((killRun args envName d).2 = true ↔ (args ≠ [] ∨ envName.isSome) ∧ d = .replied ⟨[]⟩) ∧
    ((detachRun args envName d').2 = true ↔ (args ≠ [] ∨ envName.isSome) ∧ d' = .replied ⟨[], []⟩) := by
  have hres : (∃ ss, resolveSessions args envName = some ss) ↔ (args ≠ [] ∨ envName.isSome) := by
    cases args with
    | nil => cases envName <;> simp [resolveSessions]
    | cons x xs => simp [resolveSessions]
  constructor
  · rw [← hres]
    unfold killRun
    cases d with
    | refused => simp
    | broken => cases hs : resolveSessions args envName <;> simp
    | replied r =>
      cases hs : resolveSessions args envName with
      | none => simp
      | some ss =>
        obtain ⟨nf⟩ := r
        cases nf <;> simp
  · rw [← hres]
    unfold detachRun
    cases d' with
    | refused => simp
    | broken => cases hs : resolveSessions args envName <;> simp
    | replied r =>
      cases hs : resolveSessions args envName with
      | none => simp
      | some ss =>
        obtain ⟨nf, na⟩ := r
        cases nf <;> cases na <;> simp

example : killRun [] (some ['a']) (.replied ⟨[]⟩) = (some (.kill [['a']]), true) ∧
    detachRun [['b'], ['c']] (some ['a']) (.replied ⟨[], [['c']]⟩) = (some (.detach [['b'], ['c']]), false) := by decide

/-! ## C59 -/

def detachCount (as : List Act) : Nat := as.countP (fun a => match a with | .detachRequest _ => true | _ => false)
def dialCount (as : List Act) : Nat := as.countP (fun a => a == .dialAttach)

theorem busyLoop_facts (force ok : Bool) (name : Str) (ds : List DialAttach) (detached : Bool) (tries : Nat)
    (ht : tries ≤ maxForceRetries + 1) :
    detachCount (busyLoop force ok name ds detached tries).1 ≤ (if detached then 0 else 1) ∧
    dialCount (busyLoop force ok name ds detached tries).1 ≤ maxForceRetries + 2 - tries ∧
    (ds.length ≥ maxForceRetries + 2 - tries → (busyLoop force ok name ds detached tries).2 ≠ .waiting) ∧
    (∀ n, Act.detachRequest n ∈ (busyLoop force ok name ds detached tries).1 → n = name) := by
  induction ds generalizing detached tries with
  | nil =>
    simp only [busyLoop]
    refine ⟨by simp [detachCount], ?_, ?_, by simp⟩
    · simp [dialCount]; omega
    · intro hl; simp at hl; omega
  | cons d ds ih =>
    cases d with
    | client =>
      simp only [busyLoop]
      refine ⟨by simp [detachCount], ?_, by simp, by simp⟩
      simp [dialCount]; omega
    | err =>
      simp only [busyLoop]
      refine ⟨by simp [detachCount], ?_, by simp, by simp⟩
      simp [dialCount]; omega
    | busy =>
      simp only [busyLoop]
      split
      · refine ⟨by simp [detachCount], ?_, by simp, by simp⟩
        simp [dialCount]; omega
      · split
        · next hdet =>
          simp only [Bool.and_eq_true, Bool.not_eq_true'] at hdet
          rw [hdet.1]
          refine ⟨by simp [detachCount], ?_, by simp, by simp⟩
          simp [dialCount]; omega
        · split
          · next hmax =>
            cases detached <;> refine ⟨by simp [detachCount], ?_, by simp, by simp⟩ <;> simp [dialCount] <;> omega
          · next hmax =>
            obtain ⟨i1, i2, i3, i4⟩ := ih true (tries + 1) (by omega)
            simp only [if_true] at i1
            refine ⟨?_, ?_, ?_, ?_⟩
            · have : detachCount (busyLoop force ok name ds true (tries + 1)).1 = 0 := by omega
              unfold detachCount at this ⊢
              cases detached <;> simp [List.countP_append, this]
            · unfold dialCount at i2 ⊢
              cases detached <;> simp [List.countP_append] <;> omega
            · intro hl
              apply i3
              simp at hl; omega
            · intro n hn
              rcases List.mem_append.mp hn with hn | hn
              · cases detached <;> simp at hn
                exact hn
              · exact i4 n hn

/-- C59. Whatever the daemon answers to a (forced or plain) attach: at most one detach request is sent, for that very session; at most
22 attach requests are sent; and after 22 answers at the latest the client has attached, reported the session busy or failed. -/
theorem C59_bounded (force ok : Bool) (name : Str) (ds : List DialAttach) :
    detachCount (attachResolved force ok name ds).1 ≤ 1 ∧
    (∀ n, Act.detachRequest n ∈ (attachResolved force ok name ds).1 → n = name) ∧
    dialCount (attachResolved force ok name ds).1 ≤ 22 ∧
    (22 ≤ ds.length → (attachResolved force ok name ds).2 ≠ .waiting) := by
  unfold attachResolved
  split
  · exact ⟨by simp [detachCount], by simp, by simp [dialCount], by simp⟩
  · obtain ⟨h1, h2, h3, h4⟩ := busyLoop_facts force ok name ds false 0 (by omega)
    exact ⟨h1, h4, h2, h3⟩

/-- C59. Without force a busy session is reported after one attach request and nothing else is sent. -/
theorem C59_no_force (ok : Bool) (name : Str) (ds : List DialAttach) (hn : Env.GoodName name) :
    attachResolved false ok name (.busy :: ds) = ([.dialAttach], .reportedBusy) := by
  unfold attachResolved
  rw [(Env.clientAccepts_iff name).mpr hn]
  simp [busyLoop]

/-- C59. With force, a session that stays busy makes the attach fail; one that becomes free within the first 21 retries is attached to. -/
theorem C59_force (name : Str) (hn : Env.GoodName name) (k : Nat) (ds : List DialAttach) :
    (k ≥ 22 → (attachResolved true true name (List.replicate k .busy ++ ds)).2 = .failed) ∧
    (k ≤ 21 → (attachResolved true true name (List.replicate k .busy ++ .client :: ds)).2 = .attached) := by
  have main : ∀ k det tries,
      (tries + k ≥ 22 → tries ≤ 21 → (busyLoop true true name (List.replicate k .busy ++ ds) det tries).2 = .failed) ∧
      (tries + k ≤ 21 → (busyLoop true true name (List.replicate k .busy ++ .client :: ds) det tries).2 = .attached) := by
    intro k
    induction k with
    | zero =>
      intro det tries
      exact ⟨fun h1 h2 => absurd h1 (by omega), fun _ => rfl⟩
    | succ k ih =>
      intro det tries
      obtain ⟨i1, i2⟩ := ih true (tries + 1)
      rw [List.replicate_succ, List.cons_append, List.cons_append]
      constructor
      · intro h1 h2
        simp only [busyLoop]
        have : (!det && !true) = false := by cases det <;> rfl
        rw [if_neg (by simp), if_neg (by simp)]
        split
        · rfl
        · next hm =>
          unfold maxForceRetries at hm
          exact i1 (by omega) (by omega)
      · intro h1
        simp only [busyLoop]
        rw [if_neg (by simp), if_neg (by simp), if_neg (by unfold maxForceRetries; omega)]
        exact i2 (by omega)
  unfold attachResolved
  rw [(Env.clientAccepts_iff name).mpr hn]
  obtain ⟨m1, m2⟩ := main k false 0
  exact ⟨fun h => m1 (by omega) (by omega), fun h => m2 (by omega)⟩

example : attachResolved true true "main".toList [.busy, .busy, .client] =
    ([.dialAttach, .detachRequest "main".toList, .sleep100ms, .dialAttach, .sleep100ms, .dialAttach], .attached) := by decide
example : Env.GoodName "main".toList := (Env.daemonAccepts_iff _).mp (by decide)

/-! ## C60 -/

/-- Leaving out immediate repetitions. -/
def noRepeats : List Str → List Str
  | [] => []
  | [x] => [x]
  | x :: y :: r => if x = y then noRepeats (y :: r) else x :: noRepeats (y :: r)

open Template in
theorem follow_eq (tm : Template) (current : Str) (us : List Vars)
    (hg : ∀ n ∈ current :: us.map tm.apply, Env.GoodName n) :
    follow tm current us = noRepeats (current :: us.map tm.apply) := by
  induction us generalizing current with
  | nil =>
    unfold follow
    rw [(Env.clientAccepts_iff current).mpr (hg current (by simp))]
    rfl
  | cons u us ih =>
    unfold follow
    rw [(Env.clientAccepts_iff current).mpr (hg current (by simp))]
    simp only [Option.isSome_none, Bool.false_eq_true, if_false, List.map_cons]
    by_cases hs : tm.apply u = current
    · rw [if_neg (by simp [wantsSwitch, hs])]
      rw [ih current (by
        intro n hn
        apply hg
        rcases List.mem_cons.mp hn with rfl | hn
        · simp
        · simp only [List.map_cons, List.mem_cons]; exact .inr (.inr hn))]
      show _ = if current = tm.apply u then noRepeats (tm.apply u :: us.map tm.apply) else _
      rw [if_pos hs.symm, hs]
    · rw [if_pos (by simpa [wantsSwitch] using hs)]
      rw [ih (tm.apply u) (fun n hn => hg n (List.mem_cons_of_mem _ hn))]
      show _ = if current = tm.apply u then noRepeats (tm.apply u :: us.map tm.apply) else _
      rw [if_neg (fun e => hs e.symm)]

open Template in
/-- C60. The sessions attached to, in order, are the names the template has under the initial variables and under each update, without
immediate repetitions: the client switches exactly when an update changes the name. -/
theorem C60_switches (tm : Template) (initial : Vars) (us : List Vars)
    (hg : ∀ n ∈ (initial :: us).map tm.apply, Env.GoodName n) :
    attachRun tm initial us = noRepeats ((initial :: us).map tm.apply) := follow_eq tm _ us hg

theorem noRepeats_getLast (l : List Str) : (noRepeats l).getLast? = l.getLast? := by
  induction l with
  | nil => rfl
  | cons x l ih =>
    cases l with
    | nil => rfl
    | cons y r =>
      simp only [noRepeats]
      split
      · rw [ih, List.getLast?_cons_cons]
      · rw [List.getLast?_cons_cons]
        cases hn : noRepeats (y :: r) with
        | nil =>
          rw [hn] at ih
          cases hl : (y :: r).getLast? with
          | none => simp at hl
          | some z => rw [hl] at ih; cases ih
        | cons z zs => rw [List.getLast?_cons_cons, ← hn, ih]

open Template in
/-- C60. The session it is attached to in the end is the one named by the template under the latest variables it was told about. -/
theorem C60_current (tm : Template) (initial : Vars) (us : List Vars)
    (hg : ∀ n ∈ (initial :: us).map tm.apply, Env.GoodName n) :
    (attachRun tm initial us).getLast? = ((initial :: us).getLast?).map tm.apply := by
  rw [C60_switches tm initial us hg, noRepeats_getLast, List.getLast?_map]

open Template in
/-- C60. An update to an unacceptable name makes the client leave: no further session is attached to. -/
theorem C60_leaves (tm : Template) (current : Str) (u : Vars) (us : List Vars) (hc : Env.GoodName current)
    (hb : ¬ Env.GoodName (tm.apply u)) : follow tm current (u :: us) = [current] := by
  have hne : tm.apply u ≠ current := fun e => hb (e ▸ hc)
  have hbad : (Env.clientRejects (tm.apply u)).isSome := by
    cases h : Env.clientRejects (tm.apply u) with
    | none => exact absurd ((Env.clientAccepts_iff _).mp h) hb
    | some _ => rfl
  unfold follow
  rw [(Env.clientAccepts_iff current).mpr hc]
  simp only [Option.isSome_none, Bool.false_eq_true, if_false]
  rw [if_pos (by simpa [wantsSwitch] using hne)]
  unfold follow
  rw [if_pos hbad]

section
open Template
def demoT : Template := ⟨"{ws}-x".toList, [.var "ws".toList, .raw "-x".toList]⟩
def demoV (v : Str) : Vars := fun k => if k = "ws".toList then some v else none
example : attachRun demoT (demoV ['a']) [demoV ['a'], demoV ['b'], demoV ['b'], demoV ['a']] =
    ["a-x".toList, "b-x".toList, "a-x".toList] := by decide
end

/-! ## C61 -/

/-- C61. A request is acted on only if the peer runs as the daemon's own user. -/
theorem C61_same_user (selfUid : Nat) (w : WriteVersion) (header : Option Header) (p : Peer) (h : Header)
    (hm : Effect.handled h ∈ handleConn selfUid w header p) : p.uid = some selfUid ∧ header = some h := by
  unfold handleConn at hm
  cases w with
  | brokenPipe => cases hm
  | otherErr => cases hm
  | ok =>
    cases header with
    | none => simp at hm
    | some h' =>
      dsimp only at hm
      cases hc : checkPeer selfUid p with
      | mk ok warn =>
        rw [hc] at hm
        dsimp only at hm
        cases ok with
        | false =>
          rw [if_neg (by simp)] at hm
          by_cases ha : h' = .attach
          · simp [ha] at hm
          · simp [ha] at hm
        | true =>
          have hu : p.uid = some selfUid ∧ Effect.handled h ∉ warn := by
            unfold checkPeer at hc
            cases hpu : p.uid with
            | none => rw [hpu] at hc; cases hc
            | some u =>
              rw [hpu] at hc
              dsimp only at hc
              split at hc
              · cases hc
              · next hne =>
                split at hc
                · cases hc
                · simp only [Prod.mk.injEq, true_and] at hc
                  refine ⟨by rw [Classical.not_not.mp hne], ?_⟩
                  rw [← hc]; split <;> simp
          refine ⟨hu.1, ?_⟩
          rw [if_pos rfl] at hm
          simp [hu.2] at hm
          rw [hm]

/-- C61. A peer of another user gets the version, a `forbidden` reply if it asked to attach, and the connection is closed; nothing
else happens. -/
theorem C61_rejected (selfUid : Nat) (h : Header) (p : Peer) (hu : p.uid ≠ some selfUid) :
    handleConn selfUid .ok (some h) p =
      if h = .attach then [.sentVersion, .sentForbidden, .shutdown] else [.sentVersion, .shutdown] := by
  have hc : checkPeer selfUid p = (false, []) := by
    unfold checkPeer
    cases hpu : p.uid with
    | none => rfl
    | some u =>
      dsimp only
      rw [if_pos]
      intro e; apply hu; rw [hpu, e]
  unfold handleConn
  dsimp only
  rw [hc]
  dsimp only
  by_cases ha : h = .attach
  · simp [ha]
  · simp [ha]

/-- C61. A peer of the same user is served, with a warning only if its binary differs. -/
theorem C61_served (selfUid : Nat) (h : Header) (p : Peer) (hu : p.uid = some selfUid) (he : p.exeReadable = true) :
    handleConn selfUid .ok (some h) p =
      if p.sameExe then [.sentVersion, .handled h] else [.sentVersion, .warnedBinary, .handled h] := by
  have hc : checkPeer selfUid p = (true, if p.sameExe then [] else [.warnedBinary]) := by
    unfold checkPeer
    rw [hu]
    simp [he]
  unfold handleConn
  dsimp only
  rw [hc]
  cases p.sameExe <;> simp

example : handleConn 1000 .ok (some .kill) ⟨some 0, true, true⟩ = [.sentVersion, .shutdown] ∧
    handleConn 1000 .ok (some .list) ⟨some 1000, true, true⟩ = [.sentVersion, .handled .list] := by decide

/-! ## C62 -/

theorem pad_spec (longest : Nat) (name : Str) :
    ∃ k, pad longest name = name ++ List.replicate k ' ' ∧ byteLen (pad longest name) = max longest (byteLen name) := by
  generalize hm : longest - byteLen name = m
  induction m generalizing name with
  | zero =>
    unfold pad
    rw [if_neg (by omega)]
    exact ⟨0, by simp, by omega⟩
  | succ m ih =>
    have h1 : byteLen (name ++ [' ']) = byteLen name + 1 := by
      rw [byteLen_append]; have : byteLen [' '] = 1 := by decide
      omega
    obtain ⟨k, h2, h3⟩ := ih (name ++ [' ']) (by omega)
    unfold pad
    rw [if_pos (by omega)]
    refine ⟨k + 1, ?_, ?_⟩
    · rw [h2, List.replicate_succ]; simp
    · rw [h3, h1]; omega

theorem le_foldl_max (l : List Nat) (a : Nat) : a ≤ l.foldl max a ∧ ∀ x ∈ l, x ≤ l.foldl max a := by
  induction l generalizing a with
  | nil => exact ⟨Nat.le_refl _, by simp⟩
  | cons y l ih =>
    obtain ⟨h1, h2⟩ := ih (max a y)
    refine ⟨by rw [List.foldl_cons]; omega, ?_⟩
    intro x hx
    rw [List.foldl_cons]
    rcases List.mem_cons.mp hx with rfl | hx
    · omega
    · exact h2 x hx

theorem foldl_max_attained (l : List Nat) (a : Nat) : l.foldl max a = a ∨ l.foldl max a ∈ l := by
  induction l generalizing a with
  | nil => exact .inl rfl
  | cons y l ih =>
    rw [List.foldl_cons]
    rcases ih (max a y) with h | h
    · rw [h]
      by_cases hay : y ≤ a
      · left; omega
      · right; rw [show max a y = y by omega]; simp
    · exact .inr (List.mem_cons_of_mem _ h)

/-- C62 (alignment). After the heading there is one line per session, in order.  Each is the session's name, blanks, a tab and the
status, and the tab is at the same byte offset in all of them: the length of the longest name. -/
theorem C62_aligned (sessions : List (Str × Status)) :
    ∃ rows : List Str, listLines sessions = "NAME\tSTATUS".toList :: rows ∧ rows.length = sessions.length ∧
      ∃ w, (sessions ≠ [] → ∃ s ∈ sessions, byteLen s.1 = w) ∧
        ∀ i (hi : i < sessions.length), ∃ k row, rows[i]? = some row ∧
          row = sessions[i].1 ++ List.replicate k ' ' ++ ['\t'] ++
            (match sessions[i].2 with | .attached => "attached".toList | .disconnected => "disconnected".toList) ∧
          byteLen (sessions[i].1 ++ List.replicate k ' ') = w := by
  refine ⟨_, rfl, by simp, longestLen sessions, ?_, ?_⟩
  · intro hne
    unfold longestLen
    rcases foldl_max_attained (sessions.map (fun s => byteLen s.1)) 0 with h | h
    · cases sessions with
      | nil => exact absurd rfl hne
      | cons s ss =>
        refine ⟨s, by simp, ?_⟩
        have := (le_foldl_max ((s :: ss).map (fun s => byteLen s.1)) 0).2 (byteLen s.1) (by simp)
        omega
    · obtain ⟨s, hs, he⟩ := List.mem_map.mp h
      exact ⟨s, hs, he⟩
  · intro i hi
    obtain ⟨k, h1, h2⟩ := pad_spec (longestLen sessions) sessions[i].1
    refine ⟨k, sessions[i].1 ++ List.replicate k ' ' ++ ['\t'] ++ sessions[i].2.text, ?_, by cases sessions[i].2 <;> rfl, ?_⟩
    · rw [List.getElem?_map, List.getElem?_eq_getElem hi]
      simp [h1]
    · rw [← h1, h2]
      have := (le_foldl_max (sessions.map (fun s => byteLen s.1)) 0).2 (byteLen sessions[i].1)
        (List.mem_map_of_mem (f := fun s : Str × Status => byteLen s.1) (List.getElem_mem hi))
      unfold longestLen
      omega

/-- Reading a row back: the text before the first blank or tab, and the text after the tab. -/
def readRow (row : Str) : Str × Str :=
  (row.takeWhile (fun c => !(c == ' ') && !(c == '\t')), ((row.dropWhile (fun c => !(c == '\t'))).drop 1))

/-- C62 (reading back). If the names contain no white space (as the daemon ensures), the rows determine the sessions. -/
theorem C62_readable (sessions : List (Str × Status)) (hn : ∀ s ∈ sessions, Env.GoodName s.1) :
    (listLines sessions).tail.map readRow = sessions.map (fun s => (s.1, match s.2 with | .attached => "attached".toList | .disconnected => "disconnected".toList)) := by
  have ht : (fun s : Str × Status => (s.1, match s.2 with | .attached => "attached".toList | .disconnected => "disconnected".toList)) =
      fun s => (s.1, s.2.text) := by
    funext s
    cases s.2 <;> rfl
  rw [ht]
  unfold listLines
  rw [List.tail_cons, List.map_map]
  apply List.map_congr_left
  intro s hs
  obtain ⟨k, h1, -⟩ := pad_spec (longestLen sessions) s.1
  obtain ⟨-, -, -, -, hw⟩ := hn s hs
  have hsp : ∀ c ∈ s.1, (!(c == ' ') && !(c == '\t')) = true := by
    intro c hc
    have := hw c hc
    rw [Bool.and_eq_true]
    constructor
    · by_cases h : c = ' '
      · subst h; exact absurd this (by decide)
      · simpa using h
    · by_cases h : c = '\t'
      · subst h; exact absurd this (by decide)
      · simpa using h
  have htw : ∀ (n rest : Str), (∀ c ∈ n, (!(c == ' ') && !(c == '\t')) = true) →
      (∃ r, rest = ' ' :: r ∨ rest = '\t' :: r) →
      (n ++ rest).takeWhile (fun c => !(c == ' ') && !(c == '\t')) = n := by
    intro n rest hn hr
    induction n with
    | nil => obtain ⟨r, rfl | rfl⟩ := hr <;> rfl
    | cons c n ih =>
      rw [List.cons_append, List.takeWhile_cons, if_pos (hn c (by simp)), ih (fun d hd => hn d (List.mem_cons_of_mem _ hd))]
  have hdw : ∀ (n rest : Str), (∀ c ∈ n, c ≠ '\t') → (n ++ '\t' :: rest).dropWhile (fun c => !(c == '\t')) = '\t' :: rest := by
    intro n rest hn
    induction n with
    | nil => rfl
    | cons c n ih =>
      rw [List.cons_append, List.dropWhile_cons_of_pos (by simpa using hn c (by simp)), ih (fun d hd => hn d (List.mem_cons_of_mem _ hd))]
  show readRow (pad (longestLen sessions) s.1 ++ '\t' :: s.2.text) = _
  rw [h1]
  unfold readRow
  rw [hdw _ _ (by
    intro c hc e
    subst e
    rcases List.mem_append.mp hc with hc | hc
    · have := hsp _ hc; simp at this
    · have := List.eq_of_mem_replicate hc; exact absurd this (by decide))]
  rw [List.append_assoc, htw s.1 _ hsp]
  · rfl
  · cases k with
    | zero => exact ⟨_, .inr rfl⟩
    | succ k => exact ⟨_, .inl rfl⟩

example : pad 3 "a".toList = "a  ".toList := by
  rw [pad, if_pos (by decide), pad, if_pos (by decide), pad, if_neg (by decide)]
  rfl
example : longestLen [("a".toList, .attached), ("bö".toList, .disconnected)] = 3 ∧ Env.GoodName "bö".toList :=
  ⟨by decide, (Env.daemonAccepts_iff _).mp (by decide)⟩

end Shpool.Client
