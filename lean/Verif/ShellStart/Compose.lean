import Verif.ShellStart.Props
import Verif.Inject.Props
import Verif.S2C.Props

/-! # A shell that starts slowly: the wait, the injected setup and the output thread together (C81) -/

namespace Shpool.ShellStart

/-- **C81 (defect)**, from end to end: in a session with the default configuration whose shell says nothing for 90 seconds, for instance because
its start files wait for the network, the wait ends, the shell is told to print the marker of its start and nothing else, and from then on
nothing of what the shell prints is shown to any client or kept for later ones, unless it happens to print the other marker. -/
theorem C81_false_slow (t : Nat) (rs : List Round) (h : ∀ r ∈ rs, r = ⟨500, 0, .nothing⟩) (hn : 180 < rs.length)
    (shell procName name exe : List Char) (hnu : ¬ "nu".toList <:+ shell) :
    let st := Inject.setup none none none shell procName name exe (decide ((waitForStartup t rs).res = .started))
    st.1 = Inject.sentinelCmd "startup".toList exe ∧
    ∀ (P : S2C.Params) (ls : List S2C.Label) (s : S2C.St), P.supportsSentinels = st.2 → S2C.Run P ls s →
      ¬ Sentinel.promptSentinel <:+: s.read → S2C.processed s.spool = [] := by
  have h1 := C142_silent t rs h hn
  have h2 := (Inject.C67_when none none none shell procName name exe false).2 rfl hnu (.inl (by simp))
  rw [h1]
  refine ⟨?_, fun P ls s hP hr hs => ?_⟩
  · have hs : Inject.supportsSentinels none none none shell = true := by
      simp only [Inject.setup] at h2
      split at h2
      · assumption
      · cases h2
    simp [Inject.setup, hs]
  · have hd : decide (Res.timedOut = Res.started) = false := by decide
    simp only [hd] at hP
    rw [h2] at hP
    rw [S2C.C19_history P ls s hr, hP]
    exact Sentinel.C20_nothing_before [s.read] (by simpa using hs)

/-- Such a session: bash, a hundred seconds of silence, then output that nobody sees. -/
example : (∀ r ∈ List.replicate 200 (⟨500, 0, .nothing⟩ : Round), r = ⟨500, 0, .nothing⟩) ∧ ¬ "nu".toList <:+ "/bin/bash".toList ∧
    ∃ s, S2C.Run { S2C.P0 with supportsSentinels := true }
      [.initial (some (.new 1 S2C.z0)), .select .default, .settle, .shellWrite [104, 105], .poll (.read 2)] s ∧
      s.read = [104, 105] ∧ S2C.dataTo s.out 1 = [] :=
  ⟨fun r hr => (List.mem_replicate.mp hr).2, by decide +kernel, _, rfl, by decide, by decide⟩

end Shpool.ShellStart
