import Verif.Server.Inv

/-! # Which name an attach request is about -/

namespace Shpool.Server

/-- The request works for name `n`: it is creating a session of that name, or holds a session that has it. -/
def About (s : St) (n : Name) : Phase → Prop
  | .idle | .done _ => True
  | .making m | .spawned m _ | .inserted m _ | .blocked m _ => m = n
  | .owns _ x | .streaming _ x | .ending _ x _ | .leaving x => (s.sess x).name = n

theorem sess_name_step {s s' : St} {l : Label} (hi : Inv s) (he : Eff s l s') {x : Nat} (hx : x < s.next) : (s'.sess x).name = (s.sess x).name := by
  cases he
  case kill names fail _ => have := kill_sess s names fail x; grind
  case detach names _ => have := detach_sess s names x; grind [Sess.recordDetached]
  all_goals simp [setThr, setSess, upd, Sess.recordAttached, Sess.recordDetached] <;> grind

set_option linter.unusedSimpArgs false in
theorem about_step {s s' : St} {l : Label} {n : Name} {t : Nat} (hi : Inv s) (he : Eff s l s') (h : About s n (s.thr t))
    (hl : ∀ m j, l = .select t m j → m = n) : About s' n (s'.thr t) := by
  have hnm := fun x => sess_name_step (x := x) hi he
  have hlt : ∀ x, (s.thr t).holds x → x < s.next := by
    intro x hx
    have := hi.owns t; have := hi.streaming t; have := hi.ending t; have := hi.leaving t
    cases hp : s.thr t <;> simp only [hp, Phase.holds] at hx <;> grind
  have htbl := hi.tbl
  have hblk := hi.blk
  have keep : s'.thr t = s.thr t → About s' n (s'.thr t) := by
    intro e
    rw [e]
    cases hp : s.thr t <;> simp only [hp, About, Phase.holds] at h hlt ⊢ <;> first | exact h | (rw [hnm _ (hlt _ rfl)]; exact h)
  have hown := hi.owns t
  have hstr := hi.streaming t
  have hend := hi.ending t
  have hspn := hi.spawned t
  cases he
  case kill names fail _ => exact keep (by rw [kill_thr])
  case detach names _ => exact keep rfl
  case reapNone => exact keep rfl
  case reap => exact keep rfl
  case exit => exact keep rfl
  case s2cEnds => exact keep rfl
  case tick => exact keep rfl
  case fresh u m j h1 h2 h3 =>
    by_cases hu : t = u
    · subst hu; rw [h1] at h; have hm := hl m j rfl; simp_all [About, setThr, setSess, upd, Sess.recordAttached, Sess.recordDetached]
    · exact keep (upd_ne _ _ hu)
  case busy u m j x o h1 h2 h3 h4 =>
    by_cases hu : t = u
    · subst hu; rw [h1] at h; have hm := hl m j rfl; simp_all [About, setThr, setSess, upd, Sess.recordAttached, Sess.recordDetached]
    · exact keep (upd_ne _ _ hu)
  case reattach u m j x h1 h2 h3 h4 h5 h6 =>
    by_cases hu : t = u
    · subst hu; rw [h1] at h; have hm := hl m j rfl; simp_all [About, setThr, setSess, upd, Sess.recordAttached, Sess.recordDetached]; exact (htbl _ _ h3).2
    · exact keep (upd_ne _ _ hu)
  case clobber u m j x p h1 h2 h3 h4 h5 h6 h7 =>
    by_cases hu : t = u
    · subst hu; rw [h1] at h; have hm := hl m j rfl; rcases h7 with rfl | rfl <;> simp_all [About, setThr, setSess, upd, Sess.recordAttached, Sess.recordDetached]
    · exact keep (upd_ne _ _ hu)
  case stale u m j x v p h1 h2 h3 h4 h5 h6 h7 =>
    by_cases hu : t = u
    · subst hu; rw [h1] at h; have hm := hl m j rfl; rcases h7 with rfl | rfl <;> simp_all [About, setThr, setSess, upd, Sess.recordAttached, Sess.recordDetached]
    · exact keep (upd_ne _ _ hu)
  case spawn u m h1 =>
    by_cases hu : t = u
    · subst hu; rw [h1] at h; simp_all [About, setThr, setSess, upd, Sess.recordAttached, Sess.recordDetached]
    · exact keep (upd_ne _ _ hu)
  case spawnFails u m h1 =>
    by_cases hu : t = u
    · subst hu; rw [h1] at h; simp_all [About, setThr, setSess, upd, Sess.recordAttached, Sess.recordDetached]
    · exact keep (upd_ne _ _ hu)
  case insert u m x h1 h2 =>
    by_cases hu : t = u
    · subst hu; rw [h1] at h; simp_all [About, setThr, setSess, upd, Sess.recordAttached, Sess.recordDetached]
    · exact keep (upd_ne _ _ hu)
  case lost u m x h1 h2 h3 =>
    by_cases hu : t = u
    · subst hu; rw [h1] at h; simp_all [About, setThr, setSess, upd, Sess.recordAttached, Sess.recordDetached]
    · exact keep (upd_ne _ _ hu)
  case lookup u m x y h1 h2 h3 h4 =>
    by_cases hu : t = u
    · subst hu; rw [h1] at h; simp_all [About, setThr, setSess, upd, Sess.recordAttached, Sess.recordDetached]; exact (htbl _ _ h3).2
    · exact keep (upd_ne _ _ hu)
  case block u m x y o h1 h2 h3 h4 =>
    by_cases hu : t = u
    · subst hu; rw [h1] at h; simp_all [About, setThr, setSess, upd, Sess.recordAttached, Sess.recordDetached]
    · exact keep (upd_ne _ _ hu)
  case acquire u m y h1 h2 =>
    by_cases hu : t = u
    · subst hu; rw [h1] at h; simp_all [About, setThr, setSess, upd, Sess.recordAttached, Sess.recordDetached]; exact (htbl _ _ (hblk _ _ _ h1).2).2
    · exact keep (upd_ne _ _ hu)
  case start u m x h1 =>
    by_cases hu : t = u
    · subst hu; rw [h1] at h; simp_all [About, setThr, setSess, upd, Sess.recordAttached, Sess.recordDetached]
    · exact keep (upd_ne _ _ hu)
  case abort u m x h1 =>
    by_cases hu : t = u
    · subst hu; rw [h1] at h; simp_all [About, setThr, setSess, upd, Sess.recordAttached, Sess.recordDetached]
    · exact keep (upd_ne _ _ hu)
  case clientGone u m x h1 =>
    by_cases hu : t = u
    · subst hu; rw [h1] at h; simp_all [About, setThr, setSess, upd, Sess.recordAttached, Sess.recordDetached]
    · exact keep (upd_ne _ _ hu)
  case childDone u m x h1 h2 =>
    by_cases hu : t = u
    · subst hu; rw [h1] at h; simp_all [About, setThr, setSess, upd, Sess.recordAttached, Sess.recordDetached]
    · exact keep (upd_ne _ _ hu)
  case unlinkDone u m x h1 h2 =>
    by_cases hu : t = u
    · subst hu; rw [h1] at h; simp_all [About, setThr, setSess, upd, Sess.recordAttached, Sess.recordDetached]
    · exact keep (upd_ne _ _ hu)
  case unlinkGone u m x y h1 h2 h3 =>
    by_cases hu : t = u
    · subst hu; rw [h1] at h; simp_all [About, setThr, setSess, upd, Sess.recordAttached, Sess.recordDetached] <;> grind
    · exact keep (upd_ne _ _ hu)
  case unlinkNone u m x h1 h2 h3 =>
    by_cases hu : t = u
    · subst hu; rw [h1] at h; simp_all [About, setThr, setSess, upd, Sess.recordAttached, Sess.recordDetached]
    · exact keep (upd_ne _ _ hu)
  case release u x h1 =>
    by_cases hu : t = u
    · subst hu; rw [h1] at h; simp_all [About, setThr, setSess, upd, Sess.recordAttached, Sess.recordDetached]
    · exact keep (upd_ne _ _ hu)

end Shpool.Server
