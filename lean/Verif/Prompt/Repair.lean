import Verif.Prompt.Props
/-!
# Attaching across versions, repaired (C114)

Counterfactual: the client (`/repo/libshpool/src/attach.rs` 332-376) asks first, and dials again after the user's answer, as it does
for each later request, instead of going on with the connection on which the daemon's time limit is running.
-/

namespace Shpool.Prompt

/-- `Attach::run` (attach.rs 104-109) with a fresh, silent dial after the answer; the time limit of the daemon (server.rs 171, 207) counts
from that dial. -/
def startR (background mismatch : Bool) (inp : Input) : Outcome :=
  match dial false background mismatch inp with
  | .go _ rest =>
    match dial true background mismatch rest with
    | .go t rest' => if t < timeout then .answered rest' else .refused
    | .failed => .failed
    | .waits => .waits
  | .failed => .failed
  | .waits => .waits

/-- **C114** (repaired).  If the client dialled again after the answer, who hits enter would be attached, however long they take, and what
they type afterwards would be left for the shell; whoever is attached now would be attached in the same way. -/
theorem C114_repaired : (∀ inp t typed rest, Enters inp t typed rest → startR false true inp = .answered rest) ∧
    ∀ background mismatch inp rest, start background mismatch inp = .answered rest → startR background mismatch inp = .answered rest := by
  constructor
  · rintro inp t typed rest ⟨rfl, ht⟩
    simp only [startR, dial, Bool.not_false, Bool.and_self, if_true, ask_typed typed 0 t rest (by omega) ht]
    rfl
  · intro background mismatch inp rest h
    unfold start at h
    unfold startR
    generalize dial false background mismatch inp = a at h ⊢
    cases a with
    | go t r =>
      simp only at h
      split at h
      · cases h
        cases background <;> cases mismatch <;> rfl
      · cases h
    | failed => cases h
    | waits => cases h

example : startR false true [(1000, .byte 10), (1200, .byte 108)] = .answered [(1200, .byte 108)] := by decide

end Shpool.Prompt
