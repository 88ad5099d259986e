import Verif.Json.Lemmas
import Verif.Events.Props

/-!
# Properties of the output meant for programs

* C111: `shpool list --json` tells a program everything about the sessions.
* C112: `shpool var list` and `shpool var get` tell a program the variables.
* C113: each line of `shpool events` is an event.
-/

namespace Shpool.Json

/-! ## C111 -/

/-- How a program reads an attachment. -/
def readAttachment (v : Json) : Option Attachment := do
  return ⟨← (← v.get "session_name_template").text, ← (← v.get "pid").num⟩

/-- The two words for the state of a session. -/
def readStatus (s : Str) : Option Bool :=
  if s = "Attached".toList then some true else if s = "Disconnected".toList then some false else none

/-- How a program reads a session. -/
def readSession (v : Json) : Option Session := do
  return ⟨← (← v.get "name").text, ← (← v.get "started_at_unix_ms").num, ← (← v.get "last_connected_at_unix_ms").numOpt,
    ← (← v.get "last_disconnected_at_unix_ms").numOpt, ← readStatus (← (← v.get "status").text),
    ← (← (← v.get "attachments").items).mapM readAttachment⟩

/-- How a program reads the whole output. -/
def readList (out : Str) : Option (List Session) := do
  (← (← (← parse out).get "sessions").items).mapM readSession

theorem mapM_map {α β : Type} {f : β → Option α} {g : α → β} (h : ∀ a, f (g a) = some a) (l : List α) : (l.map g).mapM f = some l := by
  induction l with
  | nil => rfl
  | cons a l ih => simp [List.map_cons, List.mapM_cons, h, ih]

theorem get_cons_eq (k : String) (v : Json) (l : List (Str × Json)) : Json.get k (.obj ((k.toList, v) :: l)) = some v := by
  simp [Json.get]

theorem get_cons_ne {k : String} {k' : Str} (h : k' ≠ k.toList) (v : Json) (l : List (Str × Json)) :
    Json.get k (.obj ((k', v) :: l)) = Json.get k (.obj l) := by
  simp [Json.get, h]

theorem readAttachment_json (a : Attachment) : readAttachment (attachmentJson a) = some a := by
  unfold readAttachment attachmentJson
  rw [get_cons_eq, get_cons_ne (by decide), get_cons_eq]
  rfl

theorem readSession_json (s : Session) : readSession (sessionJson s) = some s := by
  unfold readSession sessionJson
  rw [get_cons_eq]
  rw [get_cons_ne (by decide), get_cons_eq]
  rw [get_cons_ne (by decide), get_cons_ne (by decide), get_cons_eq]
  rw [get_cons_ne (by decide), get_cons_ne (by decide), get_cons_ne (by decide), get_cons_eq]
  rw [get_cons_ne (by decide), get_cons_ne (by decide), get_cons_ne (by decide), get_cons_ne (by decide), get_cons_eq]
  rw [get_cons_ne (by decide), get_cons_ne (by decide), get_cons_ne (by decide), get_cons_ne (by decide), get_cons_ne (by decide),
    get_cons_eq]
  have hs : readStatus (if s.attached then "Attached".toList else "Disconnected".toList) = some s.attached := by
    cases s.attached <;> decide
  have h1 : (optInt s.lastConnectedAt).numOpt = some s.lastConnectedAt := by cases s.lastConnectedAt <;> rfl
  have h2 : (optInt s.lastDisconnectedAt).numOpt = some s.lastDisconnectedAt := by cases s.lastDisconnectedAt <;> rfl
  simp only [Json.text, Json.num, Json.items, Option.bind_eq_bind, Option.bind_some, hs, h1, h2, mapM_map readAttachment_json]
  rfl

/-- C111: a program that reads the output of `shpool list --json` gets exactly the sessions in the daemon's reply, in their order, with
everything that is said about them; whatever their names are. -/
theorem C111_list (l : List Session) : readList (listJson l) = some l := by
  unfold readList listJson
  rw [parse_pretty]
  simp only [Option.bind_eq_bind, Option.bind_some]
  rw [get_cons_eq]
  simp only [Json.items, Option.bind_some, mapM_map readSession_json]

/-- C111: in particular different sessions give different output. -/
theorem C111_injective (l l' : List Session) (h : listJson l = listJson l') : l = l' := by
  have := C111_list l
  rw [h, C111_list] at this
  exact (Option.some.inj this).symm

set_option maxRecDepth 100000 in
/-- A session whose name has a quote, a newline, an escape character and a letter outside ASCII. -/
example : listJson [⟨"a\"\n\x1bé".toList, -5, some 10, none, true, [⟨"{x}".toList, 42⟩]⟩] =
    "{\n  \"sessions\": [\n    {\n      \"name\": \"a\\\"\\n\\u001bé\",\n      \"started_at_unix_ms\": -5,\n      \"last_connected_at_unix_ms\": 10,\n      \"last_disconnected_at_unix_ms\": null,\n      \"status\": \"Attached\",\n      \"attachments\": [\n        {\n          \"session_name_template\": \"{x}\",\n          \"pid\": 42\n        }\n      ]\n    }\n  ]\n}\n".toList := by
  decide

example : listJson [] = "{\n  \"sessions\": []\n}\n".toList := by decide

/-! ## C112 -/

/-- The value of a variable. -/
def lookup (k : Str) (vars : List (Str × Str)) : Option Str := (vars.find? (fun p => p.1 = k)).map (·.2)

/-- The names are different. -/
def Distinct (vars : List (Str × Str)) : Prop := (vars.map (·.1)).Nodup

instance (vars : List (Str × Str)) : Decidable (Distinct vars) := inferInstanceAs (Decidable (List.Nodup _))

/-- How a program reads the members of the object printed by `shpool var list --json`: all of them. -/
def readVars (out : Str) : Option (List (Str × Str)) :=
  match parse out with
  | some (.obj l) => l.mapM fun p => p.2.text.map fun t => (p.1, t)
  | _ => none

/-- The table that is printed: sorted insertion of texts. -/
def ins (k v : Str) : List (Str × Str) → List (Str × Str)
  | [] => [(k, v)]
  | (k', v') :: m => if k' = k then (k, v) :: m else if strLt k' k then (k', v') :: ins k v m else (k, v) :: (k', v') :: m

theorem insertSorted_ins (k v : Str) (m : List (Str × Str)) :
    insertSorted k (.str v) (m.map fun p => (p.1, .str p.2)) = (ins k v m).map fun p => (p.1, .str p.2) := by
  induction m with
  | nil => rfl
  | cons p m ih =>
    simp only [List.map_cons, insertSorted, ins]
    split
    · rfl
    · split
      · rw [ih]; rfl
      · rfl

theorem fold_ins (vars m : List (Str × Str)) :
    vars.foldl (fun m p => insertSorted p.1 (.str p.2) m) (m.map fun p => (p.1, Json.str p.2)) =
    (vars.foldl (fun m p => ins p.1 p.2 m) m).map fun p => (p.1, Json.str p.2) := by
  induction vars generalizing m with
  | nil => rfl
  | cons p vars ih => rw [List.foldl_cons, List.foldl_cons, insertSorted_ins, ih]

theorem ins_perm (k v : Str) (m : List (Str × Str)) (h : k ∉ m.map (·.1)) : (ins k v m).Perm ((k, v) :: m) := by
  induction m with
  | nil => exact .refl _
  | cons p m ih =>
    simp only [List.map_cons, List.mem_cons, not_or] at h
    rw [ins]
    rw [if_neg (fun e => h.1 e.symm)]
    split
    · exact ((ih h.2).cons _).trans (.swap _ _ _)
    · exact .refl _

theorem fold_perm (vars m : List (Str × Str)) (h : ((m ++ vars).map (·.1)).Nodup) :
    (vars.foldl (fun m p => ins p.1 p.2 m) m).Perm (m ++ vars) := by
  induction vars generalizing m with
  | nil => simp
  | cons p vars ih =>
    rw [List.foldl_cons]
    have hp : p.1 ∉ m.map (·.1) := by
      rw [List.map_append, List.map_cons, List.nodup_append] at h
      intro hm
      exact h.2.2 p.1 hm p.1 (by simp) rfl
    have h1 := ins_perm p.1 p.2 m hp
    have h2 : (ins p.1 p.2 m ++ vars).Perm (m ++ p :: vars) :=
      (h1.append_right vars).trans (by simpa using (List.perm_middle (a := p) (l₁ := m) (l₂ := vars)).symm)
    exact (ih _ ((h2.map _).nodup_iff.mpr h)).trans h2

/-- C112: a program that reads the output of `shpool var list --json` gets exactly the variables with their values, in some order. -/
theorem C112_json (vars : List (Str × Str)) (h : Distinct vars) : ∃ l, readVars (varsJson vars) = some l ∧ l.Perm vars := by
  refine ⟨vars.foldl (fun m p => ins p.1 p.2 m) [], ?_, by simpa using fold_perm vars [] (by simpa [Distinct] using h)⟩
  unfold readVars varsJson
  rw [parse_pretty]
  have := fold_ins vars []
  simp only [List.map_nil] at this
  simp only
  rw [this]
  exact mapM_map (f := fun p : Str × Json => p.2.text.map fun t => (p.1, t)) (g := fun p : Str × Str => (p.1, Json.str p.2))
    (fun a => rfl) _

example : Distinct [("b".toList, "1".toList), ("a".toList, "x\ny".toList)] := by decide
example : varsJson [("b".toList, "1".toList), ("a".toList, "x\ny".toList)] = "{\n  \"a\": \"x\\ny\",\n  \"b\": \"1\"\n}\n".toList := by decide

/-- C112: `shpool var get` prints the value of the variable and a newline, and nothing at all if there is no such variable. -/
theorem C112_get (k : Str) (vars : List (Str × Str)) (h : Distinct vars) :
    varGet k vars = match lookup k vars with
      | some v => v ++ ['\n']
      | none => [] := by
  induction vars with
  | nil => rfl
  | cons p vars ih =>
    unfold Distinct at h ih
    rw [List.map_cons, List.nodup_cons] at h
    have ih := ih h.2
    unfold varGet lookup at *
    rw [List.flatMap_cons, ih]
    by_cases hk : p.1 = k
    · have hn : vars.find? (fun p => decide (p.1 = k)) = none := by
        rw [List.find?_eq_none]
        intro q hq
        simp only [decide_eq_true_eq]
        intro e
        exact h.1 (by rw [hk, ← e]; exact List.mem_map_of_mem hq)
      rw [List.find?_cons_of_pos (by simpa using hk), hn, if_pos hk]
      simp
    · rw [List.find?_cons_of_neg (by simpa using hk), if_neg hk, List.nil_append]

/-- C112: so its output tells whether the variable is set and what it is, even if the value is empty or ends in newlines. -/
theorem C112_get_tells (k : Str) (vars vars' : List (Str × Str)) (h : Distinct vars) (h' : Distinct vars')
    (he : varGet k vars = varGet k vars') : lookup k vars = lookup k vars' := by
  rw [C112_get k vars h, C112_get k vars' h'] at he
  cases h1 : lookup k vars <;> cases h2 : lookup k vars' <;> simp_all

example : varGet "a".toList [("a".toList, []), ("b".toList, [])] = ['\n'] ∧ varGet "c".toList [("a".toList, [])] = [] := by decide

/-- `shpool var list` without `--json` tells the variables apart. -/
def C112_text_statement : Prop := ∀ vars vars', Distinct vars → Distinct vars' → varsText vars = varsText vars' → vars = vars'

/-- It does not: a value may contain a newline and look like another variable. -/
theorem C112_false : ¬ C112_text_statement := by
  intro h
  have := h [("a".toList, "1\nb\t2".toList)] [("a".toList, "1".toList), ("b".toList, "2".toList)] (by decide) (by decide) (by decide)
  revert this; decide

/-- How a program reads the lines of `shpool var list`: the name is what is before the first tab. -/
def readText : Nat → Str → List (Str × Str)
  | 0, _ => []
  | _ + 1, [] => []
  | f + 1, s =>
    let line := s.takeWhile (· ≠ '\n')
    (line.takeWhile (· ≠ '\t'), (line.dropWhile (· ≠ '\t')).drop 1) :: readText f ((s.dropWhile (· ≠ '\n')).drop 1)

theorem varsText_cons (p : Str × Str) (vars : List (Str × Str)) : varsText (p :: vars) = (p.1 ++ '\t' :: p.2) ++ '\n' :: varsText vars := by
  simp [varsText]

/-- C112, the part that holds for the text: if no name contains a tab or newline and no value a newline, the lines can be read back. -/
theorem C112_text_partial (vars : List (Str × Str)) (hn : ∀ p ∈ vars, '\t' ∉ p.1 ∧ '\n' ∉ p.1 ∧ '\n' ∉ p.2) :
    readText (vars.length + 1) (varsText vars) = vars := by
  induction vars with
  | nil => rfl
  | cons p vars ih =>
    have hp := hn p (by simp)
    have ih := ih (fun q hq => hn q (by simp [hq]))
    have hl : ∀ c ∈ p.1 ++ '\t' :: p.2, decide (c ≠ '\n') = true := by
      intro c hc
      simp only [List.mem_append, List.mem_cons] at hc
      simp only [decide_eq_true_eq]
      rintro rfl
      rcases hc with h | h | h
      · exact hp.2.1 h
      · cases h
      · exact hp.2.2 h
    have hk : ∀ c ∈ p.1, decide (c ≠ '\t') = true := by
      intro c hc
      simp only [decide_eq_true_eq]
      rintro rfl
      exact hp.1 hc
    have h1 := takeWhile_all (p := fun c => decide (c ≠ '\n')) hl (r := '\n' :: varsText vars) (by intro c h; simp at h; subst h; decide)
    have h2 := takeWhile_all (p := fun c => decide (c ≠ '\t')) hk (r := '\t' :: p.2) (by intro c h; simp at h; subst h; decide)
    rw [varsText_cons, List.length_cons, readText]
    · rw [h1.1, h1.2, h2.1, h2.2, List.drop_one, List.tail_cons, List.drop_one, List.tail_cons, ih]
    · simp

example : readText 3 (varsText [("a".toList, "1\t2".toList), ([], "x".toList)]) = [("a".toList, "1\t2".toList), ([], "x".toList)] := by decide

/-! ## C113 -/

open Events in
/-- The line of an event is the JSON object with its type. -/
theorem C113_event_text (e : Event) : compact (eventJson e) ++ ['\n'] = e.line ∧ parse e.line = some (eventJson e) := by
  have h : compact (eventJson e) ++ ['\n'] = e.line := by cases e <;> decide
  exact ⟨h, h ▸ parse_compact _⟩

/-- The lines of a text: what is between newlines, and what is left after the last one, if anything. -/
def linesOf : Str → List Str
  | [] => []
  | c :: s =>
    if c = '\n' then [] :: linesOf s
    else match linesOf s with
      | [] => [[c]]
      | l :: ls => (c :: l) :: ls

theorem linesOf_line (l s : Str) (h : '\n' ∉ l) : linesOf (l ++ '\n' :: s) = l :: linesOf s := by
  induction l with
  | nil => rw [List.nil_append, linesOf, if_pos rfl]
  | cons c l ih =>
    simp only [List.mem_cons, not_or] at h
    rw [List.cons_append, linesOf, if_neg (fun e => h.1 e.symm), ih h.2]

theorem eventsOut_line (f : Nat) (l s : Str) (h : '\n' ∉ l) (hr : l.getLast? ≠ some '\r') :
    eventsOut (f + 1) (l ++ '\n' :: s) = l ++ '\n' :: eventsOut f s := by
  have hl : ∀ c ∈ l, decide (c ≠ '\n') = true := by
    intro c hc
    simp only [decide_eq_true_eq]
    rintro rfl
    exact h hc
  have h1 := takeWhile_all (p := fun c => decide (c ≠ '\n')) hl (r := '\n' :: s) (by intro c h; simp at h; subst h; decide)
  have : nextLine (l ++ '\n' :: s) = some (l, s) := by
    unfold nextLine
    split
    · rename_i heq; simp at heq
    · rw [h1.1, h1.2]
      simp [hr]
  rw [eventsOut, this]

theorem eventsOut_rest (f : Nat) (p : Str) (h : '\n' ∉ p) (hp : p ≠ []) : eventsOut (f + 1) p = p ++ ['\n'] := by
  have hl : ∀ c ∈ p, decide (c ≠ '\n') = true := by
    intro c hc
    simp only [decide_eq_true_eq]
    rintro rfl
    exact h hc
  have h1 := takeWhile_all (p := fun c => decide (c ≠ '\n')) hl (r := []) (by simp)
  rw [List.append_nil] at h1
  have : nextLine p = some (p, []) := by
    unfold nextLine
    split
    · exact absurd rfl hp
    · rw [h1.1, h1.2]
  rw [eventsOut, this]
  cases f <;> rfl

open Events in
/-- The text of an event without its newline. -/
def bodyOf (e : Event) : Str := e.line.dropLast

open Events in
theorem body_facts (e : Event) : e.line = bodyOf e ++ ['\n'] ∧ '\n' ∉ bodyOf e ∧ (bodyOf e).getLast? ≠ some '\r' := by
  cases e <;> exact ⟨by decide, by decide, by decide⟩

open Events in
theorem eventsOut_events (es : List Event) (p : Str) (h : '\n' ∉ p) (f : Nat) (hf : es.length < f) :
    eventsOut f (es.flatMap Event.line ++ p) = es.flatMap Event.line ++ (if p = [] then [] else p ++ ['\n']) := by
  induction es generalizing f with
  | nil =>
    cases f with
    | zero => simp at hf
    | succ f =>
      simp only [List.flatMap_nil, List.nil_append]
      split
      · subst_vars; rfl
      · rename_i hp; exact eventsOut_rest f p h hp
  | cons e es ih =>
    cases f with
    | zero => simp at hf
    | succ f =>
      obtain ⟨h1, h2, h3⟩ := body_facts e
      rw [List.flatMap_cons, List.append_assoc, h1, List.append_assoc]
      simp only [List.cons_append, List.nil_append]
      rw [eventsOut_line f _ _ h2 h3, ih f (by simpa using hf)]
      simp

open Events in
/-- Whenever the daemon or the connection ends, every line that `shpool events` has printed is a whole event. -/
def C113_statement : Prop := ∀ (wakeCap : Nat) (ls : List Label) (s : St), 0 < wakeCap → Run wakeCap ls s → ∀ u ∈ s.subs ++ s.gone,
  ∀ line ∈ linesOf (eventsPrint u.recv), ∃ e : Event, line ++ ['\n'] = e.line

open Events in
/-- A subscriber gets ten bytes of an event before its connection fails. -/
def cutRun : List Label := [.connect 7, .send .created, .wakeWrite, .poll, .accept, .drain, .recv (fun _ => [.wrote 10, .err])]

open Events in
/-- C113 is false: an event that was cut off is printed as a line. -/
theorem C113_false : ¬ C113_statement := by
  intro h
  obtain ⟨s, hs, u, hu, hr⟩ : ∃ s, Run 1 cutRun s ∧ ∃ u ∈ s.subs ++ s.gone, u.recv = "{\"type\":\"s".toList :=
    ⟨_, rfl, _, List.mem_append_left _ (List.Mem.head _), by decide⟩
  obtain ⟨e, he⟩ := h 1 cutRun s (by decide) hs u hu "{\"type\":\"s".toList (by rw [hr]; decide)
  revert he
  cases e <;> decide

open Events in
theorem linesOf_events (es : List Event) (p : Str) : linesOf (es.flatMap Event.line ++ p) = es.map bodyOf ++ linesOf p := by
  induction es with
  | nil => rfl
  | cons e es ih =>
    obtain ⟨h1, h2, h3⟩ := body_facts e
    rw [List.flatMap_cons, List.append_assoc, h1, List.append_assoc]
    simp only [List.cons_append, List.nil_append]
    rw [linesOf_line _ _ h2, ih]
    rfl

open Events in
/-- C113, proved part: the lines printed are the events published since the subscriber was accepted, in their order and from the first
on; only after the last of them a piece of one more may be printed, and only if the connection was cut within it. -/
theorem C113_lines_partial (wakeCap : Nat) (hc : 0 < wakeCap) (ls : List Label) (s : St) (h : Run wakeCap ls s)
    (u : Sub) (hu : u ∈ s.subs ++ s.gone) :
    ∃ es p, es <+: s.published.drop u.start ∧ u.recv = es.flatMap Event.line ++ p ∧
      linesOf (eventsPrint u.recv) = es.map bodyOf ++ (if p = [] then [] else [p]) ∧
      (p = [] → eventsPrint u.recv = u.recv) := by
  obtain ⟨_, es, p, h1, h2, h3⟩ := C51_whole_events_in_order wakeCap hc ls s h u hu
  refine ⟨es, p, h1, h2, ?_, ?_⟩
  · have hlen : es.length < u.recv.length + 1 := by
      have : ∀ es : List Event, es.length ≤ (es.flatMap Event.line).length := by
        intro es
        induction es with
        | nil => simp
        | cons e es ih =>
          have : 0 < e.line.length := by cases e <;> decide
          rw [List.flatMap_cons, List.length_append, List.length_cons]; omega
      have := this es
      rw [h2, List.length_append]; omega
    unfold eventsPrint
    rw [h2] at hlen ⊢
    rw [eventsOut_events es p h3 _ hlen, linesOf_events]
    split
    · rfl
    · have := linesOf_line p [] h3
      rw [show p ++ ['\n'] = p ++ '\n' :: [] from rfl, this]
      rfl
  · rintro rfl
    have hlen : es.length < u.recv.length + 1 := by
      have : ∀ es : List Event, es.length ≤ (es.flatMap Event.line).length := by
        intro es
        induction es with
        | nil => simp
        | cons e es ih =>
          have : 0 < e.line.length := by cases e <;> decide
          rw [List.flatMap_cons, List.length_append, List.length_cons]; omega
      have := this es
      rw [h2, List.length_append]; omega
    unfold eventsPrint
    rw [h2] at hlen ⊢
    rw [eventsOut_events es [] h3 _ hlen]
    simp

open Events in
example : ∃ s, Run 1 demoRun s ∧ ∃ u ∈ s.subs ++ s.gone, ∃ p, u.recv = [Event.created].flatMap Event.line ++ p ∧ p.length = 3 := by
  exact ⟨_, rfl, _, List.mem_append_left _ (List.Mem.head _), _, rfl, by decide⟩

open Events in
private theorem lines_print (es : List Event) (p : Str) (h : '\n' ∉ p) :
    linesOf (eventsPrint (es.flatMap Event.line ++ p)) = es.map bodyOf ++ (if p = [] then [] else [p]) := by
  have hlen : es.length < (es.flatMap Event.line ++ p).length + 1 := by
    have : ∀ es : List Event, es.length ≤ (es.flatMap Event.line).length := by
      intro es
      induction es with
      | nil => simp
      | cons e es ih =>
        have : 0 < e.line.length := by cases e <;> decide
        rw [List.flatMap_cons, List.length_append, List.length_cons]; omega
    have := this es
    rw [List.length_append]; omega
  unfold eventsPrint
  rw [eventsOut_events es p h _ hlen, linesOf_events]
  split
  · rfl
  · have := linesOf_line p [] h
    rw [show p ++ ['\n'] = p ++ '\n' :: [] from rfl, this]
    rfl

open Events in
/-- **C113, exactly**: all lines printed are events if and only if what the subscriber got is a row of whole events, but for perhaps the newline
after the last one. -/
theorem C113_exact (wakeCap : Nat) (hc : 0 < wakeCap) (ls : List Label) (s : St) (h : Run wakeCap ls s) (u : Sub) (hu : u ∈ s.subs ++ s.gone) :
    (∀ line ∈ linesOf (eventsPrint u.recv), ∃ e : Event, line ++ ['\n'] = e.line) ↔
      ∃ es : List Event, u.recv = es.flatMap Event.line ∨ u.recv ++ ['\n'] = es.flatMap Event.line := by
  have hbody : ∀ es : List Event, ∀ l ∈ es.map bodyOf, ∃ e : Event, l ++ ['\n'] = e.line := by
    intro es l hl
    obtain ⟨e, _, rfl⟩ := List.mem_map.mp hl
    exact ⟨e, (body_facts e).1.symm⟩
  constructor
  · intro hl
    obtain ⟨es, p, _, h2, h3, _⟩ := C113_lines_partial wakeCap hc ls s h u hu
    by_cases hp : p = []
    · subst hp
      exact ⟨es, .inl (by simpa using h2)⟩
    · obtain ⟨e, he⟩ := hl p (by rw [h3, if_neg hp]; simp)
      exact ⟨es ++ [e], .inr (by rw [h2, List.append_assoc, he]; simp)⟩
  · rintro ⟨es, he | he⟩
    · have := lines_print es [] (by simp)
      rw [List.append_nil, ← he, if_pos rfl, List.append_nil] at this
      rw [this]
      exact hbody es
    · rcases List.eq_nil_or_concat es with rfl | ⟨es', e, rfl⟩
      · simp at he
      · obtain ⟨h1, h2, _⟩ := body_facts e
        rw [List.concat_eq_append, List.flatMap_append, List.flatMap_singleton, h1, ← List.append_assoc] at he
        have hr := (List.append_inj' he rfl).1
        rw [hr, lines_print es' (bodyOf e) h2]
        intro l hl
        rcases List.mem_append.mp hl with hl | hl
        · exact hbody es' l hl
        · split at hl
          · cases hl
          · cases List.mem_singleton.mp hl
            exact ⟨e, h1.symm⟩

open Events in
/-- A subscriber whose connection fails just before the newline: the line is an event all the same. -/
example : ∃ s, Run 1 [.connect 7, .send .created, .wakeWrite, .poll, .accept, .drain, .recv (fun _ => [.wrote 26, .err])] s ∧
    ∃ u ∈ s.subs ++ s.gone, u.recv ++ ['\n'] = [Event.created].flatMap Event.line :=
  ⟨_, rfl, _, List.mem_append_left _ (List.Mem.head _), by decide⟩

end Shpool.Json
