import Verif.ShellStart.Model
import Verif.Sentinel.Props

/-!
# C142: a shell that does not come up does not hold up the attach for ever
-/

namespace Shpool.ShellStart

open Sentinel (Scanner startupSentinel startupSeen)

/-- What the shell prints in some rounds. -/
def outputs (rs : List Round) : List UInt8 := rs.flatMap fun r => match r.met with
  | .output b => b
  | _ => []

/-- How long some rounds take. -/
def duration (rs : List Round) : Nat := (rs.map fun r => r.pause + r.rest).sum

theorem loop_time (d w : Nat) (rs : List Round) : ∀ (now : Nat) (sc : Scanner) (acc : List UInt8), (∀ r ∈ rs, r.Ok ∧ r.rest ≤ w) → now ≤ d + pollMs + w →
    (loop d now sc acc rs).now ≤ d + pollMs + w ∧ now ≤ (loop d now sc acc rs).now ∧
    ((loop d now sc acc rs).res = .waiting → (loop d now sc acc rs).now = now + duration rs ∧ now + duration rs ≤ d) := by
  induction rs with
  | nil =>
    intro now sc acc _ hn
    unfold loop
    split
    · exact ⟨hn, Nat.le_refl _, nofun⟩
    · exact ⟨hn, Nat.le_refl _, fun _ => ⟨by simp [duration], by simp [duration]; omega⟩⟩
  | cons r rs ih =>
    intro now sc acc hr hn
    obtain ⟨⟨h1, _⟩, h2⟩ := hr r List.mem_cons_self
    have hrs : ∀ r ∈ rs, r.Ok ∧ r.rest ≤ w := fun r h => hr r (List.mem_cons_of_mem _ h)
    unfold loop
    split
    · exact ⟨hn, Nat.le_refl _, nofun⟩
    · rename_i hle
      have hd : duration (r :: rs) = r.pause + r.rest + duration rs := by simp [duration]
      have step : ∀ sc acc, let o := loop d (now + r.pause + r.rest) sc acc rs
          o.now ≤ d + pollMs + w ∧ now ≤ o.now ∧ (o.res = .waiting → o.now = now + duration (r :: rs) ∧ now + duration (r :: rs) ≤ d) := by
        intro sc acc
        obtain ⟨h3, h4, h5⟩ := ih (now + r.pause + r.rest) sc acc hrs (by omega)
        refine ⟨h3, by omega, fun h => ?_⟩
        obtain ⟨h6, h7⟩ := h5 h
        omega
      have stop : ∀ res acc, res ≠ .waiting → let o : Out := ⟨res, now + r.pause + r.rest, acc⟩
          o.now ≤ d + pollMs + w ∧ now ≤ o.now ∧ (o.res = .waiting → o.now = now + duration (r :: rs) ∧ now + duration (r :: rs) ≤ d) := by
        intro res acc hne
        exact ⟨by show now + r.pause + r.rest ≤ _; omega, by show now ≤ now + r.pause + r.rest; omega, fun h => absurd h hne⟩
      split
      · exact step _ _
      · exact stop _ _ nofun
      · exact stop _ _ nofun
      · exact stop _ _ nofun
      · split
        · exact stop _ _ nofun
        · exact step _ _

/-- C142: whatever the shell prints, or does not print, the wait is over 90.5 seconds after it began, but for the time that the last round takes
besides `poll`. -/
theorem C142_bounded (t w : Nat) (rs : List Round) (h : ∀ r ∈ rs, r.Ok ∧ r.rest ≤ w) : (waitForStartup t rs).now ≤ t + 90500 + w := by
  have := (loop_time (t + timeoutMs) w rs t (Scanner.new startupSentinel) [] h (by simp [timeoutMs]; omega)).1
  have e : t + timeoutMs + pollMs + w = t + 90500 + w := by simp [timeoutMs, pollMs]
  rw [e] at this
  exact this

/-- C142: it does end: when 90 seconds have passed it does not go on. -/
theorem C142_ends (t w : Nat) (rs : List Round) (h : ∀ r ∈ rs, r.Ok ∧ r.rest ≤ w) (hd : 90000 < duration rs) : (waitForStartup t rs).res ≠ .waiting := by
  intro hw
  have := ((loop_time (t + timeoutMs) w rs t (Scanner.new startupSentinel) [] h (by simp [timeoutMs]; omega)).2.2 hw).2
  simp only [timeoutMs] at this
  omega

/-- C142: a shell that prints nothing, and does not end, is waited for exactly so long. -/
theorem C142_silent (t : Nat) (rs : List Round) (h : ∀ r ∈ rs, r = ⟨500, 0, .nothing⟩) (hn : 180 < rs.length) :
    waitForStartup t rs = ⟨.timedOut, t + 90500, []⟩ := by
  have key : ∀ k (rs : List Round), (∀ r ∈ rs, r = ⟨500, 0, .nothing⟩) → k ≤ 181 → 181 - k ≤ rs.length → ∀ sc,
      loop (t + timeoutMs) (t + 500 * k) sc [] rs = ⟨.timedOut, t + 90500, []⟩ := by
    intro k rs
    induction rs generalizing k with
    | nil =>
      intro _ hk hl sc
      have : k = 181 := by simp at hl; omega
      subst this
      unfold loop
      rw [if_pos (by simp [timeoutMs])]
    | cons r rs ih =>
      intro h hk hl sc
      unfold loop
      by_cases hk' : k = 181
      · subst hk'; rw [if_pos (by simp [timeoutMs])]
      · rw [if_neg (by simp only [timeoutMs]; omega), h r List.mem_cons_self]
        have := ih (k + 1) (fun r hr => h r (List.mem_cons_of_mem _ hr)) (by omega) (by simp at hl; omega) sc
        have e : t + 500 * k + 500 + 0 = t + 500 * (k + 1) := by omega
        rw [e]; exact this
  have := key 0 rs h (by omega) (by omega) (Scanner.new startupSentinel)
  simpa [waitForStartup] using this

/-- The scanner's view of two pieces. -/
theorem scanPiece_append (sc : Scanner) (a b : List UInt8) : scanPiece sc (a ++ b) = (scanPiece sc a).bind fun sc => scanPiece sc b := by
  induction a generalizing sc with
  | nil => rfl
  | cons x a ih =>
    simp only [List.cons_append, scanPiece]
    split
    · rfl
    · exact ih _

theorem scanPiece_seen (sc : Scanner) (a : List UInt8) : startupSeen sc a = (scanPiece sc a).isNone := by
  induction a generalizing sc with
  | nil => rfl
  | cons x a ih =>
    rcases ht : sc.transition x with ⟨sc', _ | _⟩
    · simp only [startupSeen, scanPiece, ht]; exact ih _
    · simp [startupSeen, scanPiece, ht]

theorem loop_read (d : Nat) (rs : List Round) : ∀ (now : Nat) (sc : Scanner) (acc : List UInt8), scanPiece (Scanner.new startupSentinel) acc = some sc →
    ((loop d now sc acc rs).res = .started ↔ startupSeen (Scanner.new startupSentinel) (loop d now sc acc rs).read = true) ∧
    ∃ pre post, rs = pre ++ post ∧ (loop d now sc acc rs).read = acc ++ outputs pre := by
  induction rs with
  | nil =>
    intro now sc acc h
    unfold loop
    split
    · exact ⟨by simp [scanPiece_seen, h], [], [], rfl, by simp [outputs]⟩
    · exact ⟨by simp [scanPiece_seen, h], [], [], rfl, by simp [outputs]⟩
  | cons r rs ih =>
    intro now sc acc h
    have hno : ∀ (res : Res), res ≠ .started → (res = .started ↔ startupSeen (Scanner.new startupSentinel) acc = true) := by
      intro res hr; simp [scanPiece_seen, h, hr]
    unfold loop
    split
    · exact ⟨hno _ nofun, [], r :: rs, rfl, by simp [outputs]⟩
    · split
      · rename_i hm
        obtain ⟨h1, pre, post, h2, h3⟩ := ih (now + r.pause + r.rest) sc acc h
        exact ⟨h1, r :: pre, post, by rw [h2]; rfl, by rw [h3]; simp [outputs, hm]⟩
      · exact ⟨hno _ nofun, [], r :: rs, rfl, by simp [outputs]⟩
      · exact ⟨hno _ nofun, [], r :: rs, rfl, by simp [outputs]⟩
      · exact ⟨hno _ nofun, [], r :: rs, rfl, by simp [outputs]⟩
      · rename_i b hm
        split
        · rename_i hs
          refine ⟨?_, [r], rs, rfl, by simp [outputs, hm]⟩
          simp [scanPiece_seen, scanPiece_append, h, hs]
        · rename_i sc' hs
          obtain ⟨h1, pre, post, h2, h3⟩ := ih (now + r.pause + r.rest) sc' (acc ++ b) (by rw [scanPiece_append, h]; exact hs)
          exact ⟨h1, r :: pre, post, by rw [h2]; rfl, by rw [h3]; simp [outputs, hm]⟩

/-- C142: the wait ends well only if the shell has printed the marker. -/
theorem C142_sound (t : Nat) (rs : List Round) (h : (waitForStartup t rs).res = .started) : startupSentinel <:+: outputs rs := by
  obtain ⟨h1, pre, post, h2, h3⟩ := loop_read (t + timeoutMs) rs t (Scanner.new startupSentinel) [] rfl
  have := Sentinel.C20_startup_sound _ (h1.mp h)
  rw [h3, List.nil_append] at this
  obtain ⟨a, b, hab⟩ := this
  refine ⟨a, b ++ outputs post, ?_⟩
  rw [h2]
  simp only [outputs, List.flatMap_append] at hab ⊢
  rw [← hab]; simp

/-- C142: what the shell prints meanwhile is taken by the wait; it stops at the piece with the marker and leaves the rest for the user. -/
theorem C142_takes (t : Nat) (rs : List Round) : ∃ pre post, rs = pre ++ post ∧ (waitForStartup t rs).read = outputs pre := by
  obtain ⟨_, pre, post, h2, h3⟩ := loop_read (t + timeoutMs) rs t (Scanner.new startupSentinel) [] rfl
  exact ⟨pre, post, h2, h3⟩

theorem loop_quick (d : Nat) (b : List UInt8) (r : Round) (pre post : List Round) (hm : r.met = .output b) (hpre : ∀ x ∈ pre, x.met = .nothing ∨ ∃ b, x.met = .output b) :
    ∀ (now : Nat) (sc : Scanner) (acc : List UInt8), now + duration pre ≤ d → startupSeen sc (outputs pre ++ b) = true →
    (loop d now sc acc (pre ++ r :: post)).res = .started ∧ (loop d now sc acc (pre ++ r :: post)).now ≤ now + duration (pre ++ [r]) := by
  induction pre with
  | nil =>
    intro now sc acc hn hs
    simp only [duration, List.map_nil, List.sum_nil, Nat.add_zero] at hn
    simp only [List.nil_append, outputs, List.flatMap_nil] at hs ⊢
    unfold loop
    rw [if_neg (by omega)]
    simp only [hm]
    have : scanPiece sc b = none := by rw [scanPiece_seen] at hs; exact Option.isNone_iff_eq_none.mp hs
    rw [this]
    exact ⟨rfl, by simp [duration]; omega⟩
  | cons x pre ih =>
    intro now sc acc hn hs
    have hd : ∀ l, duration (x :: l) = x.pause + x.rest + duration l := fun l => by simp [duration]
    rw [hd] at hn
    have hd2 : duration (x :: pre ++ [r]) = _ := hd (pre ++ [r])
    rw [hd2]
    rw [List.cons_append, loop, if_neg (by omega)]
    rcases hpre x List.mem_cons_self with hx | ⟨c, hx⟩
    · simp only [hx]
      obtain ⟨h1, h2⟩ := ih (fun y hy => hpre y (List.mem_cons_of_mem _ hy)) (now + x.pause + x.rest) sc acc (by omega)
        (by simpa [outputs, hx] using hs)
      exact ⟨h1, by omega⟩
    · simp only [hx]
      cases hsc : scanPiece sc c with
      | none => exact ⟨rfl, by simp only; omega⟩
      | some sc' =>
        simp only
        refine ⟨?_, ?_⟩
        · refine (ih (fun y hy => hpre y (List.mem_cons_of_mem _ hy)) (now + x.pause + x.rest) sc' (acc ++ c) (by omega) ?_).1
          rw [scanPiece_seen] at hs ⊢
          have : outputs (x :: pre) ++ b = c ++ (outputs pre ++ b) := by simp [outputs, hx]
          rw [this, scanPiece_append, hsc] at hs
          exact hs
        · have := (ih (fun y hy => hpre y (List.mem_cons_of_mem _ hy)) (now + x.pause + x.rest) sc' (acc ++ c) (by omega) (by
            rw [scanPiece_seen] at hs ⊢
            have : outputs (x :: pre) ++ b = c ++ (outputs pre ++ b) := by simp [outputs, hx]
            rw [this, scanPiece_append, hsc] at hs
            exact hs)).2
          omega

/-- C142: once the shell has printed the marker (not directly after a beginning of the marker) within 90 seconds the wait is over in the same round: it is not
waited any longer. -/
theorem C142_prompt (t : Nat) (pre post : List Round) (r : Round) (b a z : List UInt8) (hm : r.met = .output b)
    (hpre : ∀ x ∈ pre, x.met = .nothing ∨ ∃ b, x.met = .output b) (hd : duration pre ≤ 90000)
    (ho : outputs pre ++ b = a ++ startupSentinel ++ z) (ha : ∀ p, p <:+ a → p <+: startupSentinel → p = []) :
    (waitForStartup t (pre ++ r :: post)).res = .started ∧ (waitForStartup t (pre ++ r :: post)).now ≤ t + duration (pre ++ [r]) := by
  refine loop_quick (t + timeoutMs) b r pre post hm hpre t (Scanner.new startupSentinel) [] (by simp only [timeoutMs]; omega) ?_
  rw [ho, Sentinel.new_eq, Sentinel.startupSeen_eq _ _ (by decide), List.append_assoc, Sentinel.shown_append]
  cases hp : Sentinel.shown startupSentinel 0 a with
  | some x => simp
  | none =>
    have hs := Sentinel.matched_suffix startupSentinel 0 (by decide) a
    simp only [List.take_zero, List.nil_append] at hs
    have hz := ha _ hs (List.take_prefix _ _)
    have hlt := Sentinel.matched_lt startupSentinel 0 (by decide) a
    have hm : Sentinel.matched startupSentinel 0 a = 0 := by
      have := congrArg List.length hz
      simp only [List.length_take, List.length_nil] at this
      omega
    simp only [hm]
    rw [Sentinel.shown_sentinel _ (by decide)]
    rfl

theorem loop_over (d : Nat) (rs : List Round) (h : ∃ r ∈ rs, r.met = .eof ∨ r.met = .readFails ∨ r.met = .pollFails) :
    ∀ (now : Nat) (sc : Scanner) (acc : List UInt8), (loop d now sc acc rs).res ≠ .waiting := by
  induction rs with
  | nil => obtain ⟨r, hr, _⟩ := h; cases hr
  | cons r rs ih =>
    intro now sc acc
    obtain ⟨x, hx, hm⟩ := h
    unfold loop
    split
    · exact nofun
    · have later : r.met ≠ .eof → r.met ≠ .readFails → r.met ≠ .pollFails → ∃ r ∈ rs, r.met = .eof ∨ r.met = .readFails ∨ r.met = .pollFails := by
        intro h1 h2 h3
        rcases List.mem_cons.mp hx with rfl | hx
        · rcases hm with hm | hm | hm <;> contradiction
        · exact ⟨x, hx, hm⟩
      split
      · rename_i e; exact ih (later (by rw [e]; nofun) (by rw [e]; nofun) (by rw [e]; nofun)) _ _ _
      · exact nofun
      · exact nofun
      · exact nofun
      · rename_i e
        split
        · exact nofun
        · exact ih (later (by rw [e]; nofun) (by rw [e]; nofun) (by rw [e]; nofun)) _ _ _

/-- C142: a shell that ends (its terminal is closed or cannot be read any more) is not waited for. -/
theorem C142_shell_ended (t : Nat) (rs : List Round) (h : ∃ r ∈ rs, r.met = .eof ∨ r.met = .readFails) : (waitForStartup t rs).res ≠ .waiting := by
  obtain ⟨r, hr, hm⟩ := h
  exact loop_over _ rs ⟨r, hr, hm.elim .inl fun h => .inr (.inl h)⟩ _ _ _

/-- A shell whose start-up files ask something, and are answered with a `logout`. -/
def logsOut : List Round := [⟨20, 1, .output [63]⟩, ⟨500, 0, .nothing⟩, ⟨3, 0, .readFails⟩]

example : (∃ r ∈ logsOut, r.met = .eof ∨ r.met = .readFails) ∧ waitForStartup 0 logsOut = ⟨.failed, 524, [63]⟩ := by decide

/-- A shell that greets, takes three seconds, and runs the marker command. -/
def greets : List Round :=
  [⟨20, 1, .output [104, 105, 10]⟩] ++ List.replicate 6 ⟨500, 0, .nothing⟩ ++ [⟨7, 1, .output (startupSentinel ++ [10])⟩]

example : (∀ r ∈ greets, r.Ok ∧ r.rest ≤ 1) ∧ duration greets = 3029 ∧ outputs greets = [104, 105, 10] ++ startupSentinel ++ [10] := by decide

example : (waitForStartup 5 greets).res = .started := by
  refine (C142_prompt 5 ([⟨20, 1, .output [104, 105, 10]⟩] ++ List.replicate 6 ⟨500, 0, .nothing⟩) [] ⟨7, 1, .output (startupSentinel ++ [10])⟩
    (startupSentinel ++ [10]) [104, 105, 10] [10] rfl ?_ (by decide) (by decide) ?_).1
  · intro x hx
    simp only [List.mem_append, List.mem_singleton, List.mem_replicate] at hx
    rcases hx with rfl | ⟨_, rfl⟩
    · exact .inr ⟨_, rfl⟩
    · exact .inl rfl
  · intro p hp hpre
    obtain ⟨q, hq⟩ := hp
    rcases List.eq_nil_or_concat p with rfl | ⟨y, x, rfl⟩
    · rfl
    · rw [List.concat_eq_append, ← List.append_assoc] at hq
      have e : [104, 105, 10] = [104, 105] ++ [(10 : UInt8)] := rfl
      rw [e] at hq
      have := (List.append_inj' hq rfl).2
      cases this
      exact absurd (hpre.subset (a := 10) (by simp)) (by decide)

end Shpool.ShellStart
