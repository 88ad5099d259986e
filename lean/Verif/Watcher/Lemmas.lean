import Verif.Watcher.Model
/-!
# Lemmas about the watcher model
-/

namespace Shpool.Watcher

theorem content_put (fs : Fs) (p q : Path) (x : Nat) : content (put fs p x) q = if q = p then some x else content fs q := by
  unfold content put
  rw [List.find?_cons]
  by_cases h : q = p
  · subst h; simp
  · rw [if_neg h]
    have : decide (p = q) = false := by simpa using fun e => h e.symm
    simp only [this]
    congr 1
    rw [List.find?_filter]
    congr 1
    funext e
    by_cases he : e.1 = q
    · simp [he, h]
    · simp [he]

theorem content_del (fs : Fs) (p q : Path) : content (del fs p) q = if q = p then none else content fs q := by
  unfold content del
  rw [List.find?_filter]
  by_cases h : q = p
  · subst h
    rw [if_pos rfl]
    rw [Option.map_eq_none_iff, List.find?_eq_none]
    simp
  · rw [if_neg h]
    congr 2
    funext e
    by_cases he : e.1 = q
    · simp [he, h]
    · simp [he]

theorem ex_put (fs : Fs) (p q : Path) (x : Nat) : ex (put fs p x) q = (decide (q = p) || ex fs q) := by
  unfold ex
  rw [content_put]
  by_cases h : q = p <;> simp [h]

theorem ex_del (fs : Fs) (p q : Path) (hp : p ≠ []) : ex (del fs p) q = (!decide (q = p) && ex fs q) := by
  unfold ex
  rw [content_del]
  by_cases h : q = p <;> simp [h, hp]

theorem ex_of_content {fs : Fs} {p : Path} {x : Nat} (h : content fs p = some x) : ex fs p = true := by
  unfold ex; rw [h]; simp

/-- Parents exist. -/
def Closed (fs : Fs) : Prop := ∀ x p, ex fs (x :: p) = true → ex fs p = true

theorem Closed.suffix {fs : Fs} (hc : Closed fs) {a b : Path} (h : a <:+ b) (hb : ex fs b = true) : ex fs a = true := by
  induction b with
  | nil =>
    have : a = [] := List.suffix_nil.mp h
    subst this; exact hb
  | cons x b ih =>
    rcases List.suffix_cons_iff.mp h with rfl | h
    · exact hb
    · exact ih h (hc x b hb)

theorem nearest_suffix (fs : Fs) (t : Path) : nearest fs t <:+ t := by
  induction t with
  | nil => exact List.suffix_refl _
  | cons x p ih =>
    unfold nearest
    split
    · exact List.suffix_refl _
    · exact ih.trans (List.suffix_cons x p)

theorem nearest_ex (fs : Fs) (t : Path) : ex fs (nearest fs t) = true := by
  induction t with
  | nil => rfl
  | cons x p ih =>
    unfold nearest
    split
    · assumption
    · exact ih

theorem nearest_max (fs : Fs) (t a : Path) (ha : a <:+ t) (he : ex fs a = true) : a <:+ nearest fs t := by
  induction t with
  | nil =>
    have : a = [] := List.suffix_nil.mp ha
    subst this; exact List.suffix_refl _
  | cons x p ih =>
    unfold nearest
    split
    · exact ha
    · next h =>
      rcases List.suffix_cons_iff.mp ha with rfl | ha
      · exact absurd he h
      · exact ih ha

theorem child_spec {w t : Path} (h : w <:+ t) (hne : w ≠ t) : ∃ x, child w t = x :: w ∧ (x :: w) <:+ t := by
  induction t with
  | nil => exact absurd (List.suffix_nil.mp h) hne
  | cons x p ih =>
    unfold child
    split
    · next hp => subst hp; exact ⟨x, rfl, List.suffix_refl _⟩
    · next hp =>
      rcases List.suffix_cons_iff.mp h with rfl | h'
      · exact absurd rfl hne
      · obtain ⟨y, h1, h2⟩ := ih h' (fun e => hp e.symm)
        exact ⟨y, h1, h2.trans (List.suffix_cons x p)⟩

theorem child_self_aux (w p : Path) (h : p.length < w.length) : child w p = w := by
  induction p with
  | nil => rfl
  | cons x p ih =>
    unfold child
    rw [if_neg]
    · exact ih (by simp at h; omega)
    · intro e; subst e; simp at h; omega

theorem child_self (w : Path) : child w w = w := by
  cases w with
  | nil => rfl
  | cons x p =>
    unfold child
    rw [if_neg]
    · exact child_self_aux _ _ (by simp)
    · intro e
      have := congrArg List.length e
      simp at this

/-- Suffixes of the same path are comparable. -/
theorem suffix_total {a b t : Path} (ha : a <:+ t) (hb : b <:+ t) : a <:+ b ∨ b <:+ a := by
  induction t with
  | nil =>
    rw [List.suffix_nil.mp ha, List.suffix_nil.mp hb]; exact .inl (List.suffix_refl _)
  | cons x p ih =>
    rcases List.suffix_cons_iff.mp ha with rfl | ha'
    · exact .inr hb
    · rcases List.suffix_cons_iff.mp hb with rfl | hb'
      · exact .inl ha
      · exact ih ha' hb'

theorem suffix_antisymm {a b : Path} (h1 : a <:+ b) (h2 : b <:+ a) : a = b :=
  h1.eq_of_length_le h2.length_le

/-- Nothing exists on the way from `w` to `t` if the child of `w` towards `t` does not exist. -/
theorem nearest_of_child {fs : Fs} (hc : Closed fs) {w t : Path} (hw : w <:+ t) (hew : ex fs w = true)
    (h : w = t ∨ ex fs (child w t) = false) : nearest fs t = w := by
  have h1 := nearest_suffix fs t
  have h2 := nearest_max fs t w hw hew
  rcases h with rfl | h
  · exact suffix_antisymm h1 h2
  · by_cases hne : w = t
    · subst hne; exact suffix_antisymm h1 h2
    · obtain ⟨x, hx1, hx2⟩ := child_spec hw hne
      rw [hx1] at h
      rcases suffix_total hx2 h1 with h3 | h3
      · have := hc.suffix h3 (nearest_ex fs t)
        rw [this] at h; cases h
      · rcases List.suffix_cons_iff.mp h3 with h4 | h4
        · rw [← h4, nearest_ex] at h; cases h
        · exact suffix_antisymm h4 h2

/-! ## Watch invariants -/

/-- The event makes the watcher look again at the entry. -/
def Rel (e : Event) (en : Entry) : Prop :=
  e.kind = .error ∨ e.kind = .rescan ∨ (e.kind = .change ∧ (en.watched ∈ e.paths ∨ en.child ∈ e.paths))

/-- The event is about the target. -/
def About (e : Event) (t : Path) : Prop := (e.kind = .change ∨ e.kind = .modify) ∧ t ∈ e.paths

theorem mem_toRewatch {paths : List Entry} {e : Event} {tw : Path × Path} :
    tw ∈ toRewatch paths e ↔ ∃ en ∈ paths, Rel e en ∧ tw = (en.target, en.watched) := by
  obtain ⟨k, ps⟩ := e
  cases k
  · simp only [toRewatch, List.mem_map, Rel, true_or, true_and, eq_comm (a := tw)]
  · simp only [toRewatch, List.mem_map, Rel, true_or, or_true, true_and, eq_comm (a := tw)]
  · simp only [toRewatch, List.mem_map, List.mem_filter, List.any_eq_true, Bool.or_eq_true, decide_eq_true_eq, Rel]
    constructor
    · rintro ⟨en, ⟨he, p, hp, h⟩, rfl⟩
      refine ⟨en, he, .inr (.inr ⟨trivial, ?_⟩), rfl⟩
      rcases h with rfl | rfl
      · exact .inl hp
      · exact .inr hp
    · rintro ⟨en, he, h, rfl⟩
      rcases h with h | h | ⟨-, h⟩
      · cases h
      · cases h
      · refine ⟨en, ⟨he, ?_⟩, rfl⟩
        rcases h with h | h
        · exact ⟨_, h, .inl rfl⟩
        · exact ⟨_, h, .inr rfl⟩
  · simp [toRewatch, Rel]
  · simp [toRewatch, Rel]

theorem eventReloads_of_about {paths : List Entry} {e : Event} {en : Entry} (hm : en ∈ paths) (h : About e en.target) :
    eventReloads paths e = true := by
  obtain ⟨k, ps⟩ := e
  obtain ⟨hk, hp⟩ := h
  rcases hk with hk | hk <;> (dsimp only at hk; subst hk; simp only [eventReloads, List.any_eq_true, decide_eq_true_eq]; exact ⟨_, hp, en, hm, rfl⟩)

/-- The watch of an entry is right, or an event that repairs it is on its way. -/
def Watched (s : St) (en : Entry) : Prop :=
  (en.watched ∈ s.watches ∧ ex s.fs en.watched = true ∧ (en.watched = en.target ∨ ex s.fs en.child = false)) ∨
    ∃ e ∈ s.queue, Rel e en

/-- If the target exists, its content has been loaded or will be. -/
def Fresh (s : St) (en : Entry) : Prop := ∀ x, content s.fs en.target = some x →
  content s.seen en.target = some x ∨ s.deadline.isSome = true ∨ ∃ e ∈ s.queue, Rel e en ∨ About e en.target

structure Inv (s : St) : Prop where
  closed : Closed s.fs
  nodup : (s.paths.map (·.target)).Nodup
  shape : ∀ en ∈ s.paths, en.watched <:+ en.target ∧ en.child = child en.watched en.target
  watched : ∀ en ∈ s.paths, Watched s en
  fresh : ∀ en ∈ s.paths, Fresh s en

theorem mem_fromParent {s : St} {p : Path} {k : Kind} (hp : p ≠ []) (h : p.tail ∈ s.watches) : (⟨k, [p]⟩ : Event) ∈ fromParent s p k := by
  unfold fromParent; rw [if_pos ⟨hp, h⟩]; simp
theorem mem_fromSelf {s : St} {p : Path} {k : Kind} (h : p ∈ s.watches) : (⟨k, [p]⟩ : Event) ∈ fromSelf s p k := by
  unfold fromSelf; rw [if_pos h]; simp

theorem inv_init (fs : Fs) (h : Closed fs) : Inv (init fs) :=
  ⟨h, by simp [init], by simp [init], by simp [init], by simp [init]⟩

theorem closed_put {fs : Fs} {p : Path} {x : Nat} (h : Closed fs) (hp : ex fs p.tail = true) : Closed (put fs p x) := by
  intro y q hq
  rw [ex_put] at hq ⊢
  rw [Bool.or_eq_true] at hq ⊢
  rcases hq with hq | hq
  · have hq := of_decide_eq_true hq
    subst hq
    exact .inr hp
  · exact .inr (h y q hq)

theorem closed_del {fs : Fs} {p : Path} (h : Closed fs) (hp : p ≠ []) (hl : leaf fs p = true) : Closed (del fs p) := by
  intro y q hq
  rw [ex_del _ _ _ hp, Bool.and_eq_true] at hq
  rw [ex_del _ _ _ hp, Bool.and_eq_true]
  refine ⟨?_, h y q hq.2⟩
  by_cases hqp : q = p
  · subst hqp
    exfalso
    have he := hq.2
    unfold ex content at he
    simp only [Bool.or_eq_true, decide_eq_true_eq, reduceCtorEq, false_or, Option.isSome_map, List.find?_isSome] at he
    obtain ⟨e, he1, he2⟩ := he
    have := List.all_eq_true.mp hl e he1
    rw [he2] at this
    simp at this
  · simpa using hqp

/-- The target's parent chain: if the target's parent exists, so does everything above it. -/
theorem child_ex_of_target {fs : Fs} (hc : Closed fs) {en : Entry} (hw : en.watched <:+ en.target)
    (hch : en.child = child en.watched en.target) (hne : en.watched ≠ en.target) (ht : ex fs en.target = true) :
    ex fs en.child = true := by
  obtain ⟨x, h1, h2⟩ := child_spec hw hne
  rw [hch, h1]
  exact hc.suffix h2 ht

theorem inv_create {s s' : St} {p : Path} {x : Nat} (h : Inv s) (hs : step s (.create p x) = some s') : Inv s' := by
  simp only [step] at hs
  split at hs
  · next hc =>
    rw [Bool.and_eq_true, Bool.not_eq_true'] at hc
    have hp : p ≠ [] := by intro e; rw [e] at hc; simp [ex] at hc
    cases hs
    refine ⟨closed_put h.closed hc.2, h.nodup, h.shape, ?_, ?_⟩
    · intro en hen
      obtain ⟨hsuf, hch⟩ := h.shape en hen
      rcases h.watched en hen with ⟨hw, hew, hr⟩ | ⟨e, he, hre⟩
      · by_cases hcp : en.watched ≠ en.target ∧ p = en.child
        · obtain ⟨y, hy, -⟩ := child_spec hsuf hcp.1
          refine .inr ⟨⟨.change, [p]⟩, List.mem_append_right _ (mem_fromParent hp ?_), .inr (.inr ⟨rfl, .inr (by simp [hcp.2])⟩)⟩
          rw [hcp.2, hch, hy]; exact hw
        · left
          refine ⟨hw, ?_, ?_⟩
          · rw [ex_put, hew, Bool.or_true]
          · rcases hr with hr | hr
            · exact .inl hr
            · by_cases hwt : en.watched = en.target
              · exact .inl hwt
              · right
                rw [ex_put, hr, Bool.or_false]
                rw [decide_eq_false_iff_not]
                intro e
                exact hcp ⟨hwt, e.symm⟩
      · exact .inr ⟨e, List.mem_append_left _ he, hre⟩
    · intro en hen y hy
      obtain ⟨hsuf, hch⟩ := h.shape en hen
      rw [content_put] at hy
      by_cases htp : en.target = p
      · right; right
        rcases h.watched en hen with ⟨hw, hew, hr⟩ | ⟨e, he, hre⟩
        · by_cases hwt : en.watched = en.target
          · rw [hwt, htp, hc.1] at hew; cases hew
          · obtain ⟨z, hz1, hz2⟩ := child_spec hsuf hwt
            rcases hr with hr | hr
            · exact absurd hr hwt
            · -- the child is the target itself, because the target's parent exists
              have hct : en.child = en.target := by
                rw [hch, hz1]
                rcases List.suffix_cons_iff.mp (show (z :: en.watched) <:+ (en.target.head (by rw [htp]; exact hp)) :: en.target.tail by
                  rw [List.cons_head_tail]; exact hz2) with h5 | h5
                · rw [h5, List.cons_head_tail]
                · have := h.closed.suffix h5 (by rw [htp]; exact hc.2)
                  rw [hch, hz1, this] at hr; cases hr
              refine ⟨⟨.change, [p]⟩, List.mem_append_right _ (mem_fromParent hp ?_), .inl (.inr (.inr ⟨rfl, .inr (by simp [hct, htp])⟩))⟩
              rw [← htp, ← hct, hch, hz1]; exact hw
        · exact ⟨e, List.mem_append_left _ he, .inl hre⟩
      · rw [if_neg htp] at hy
        rcases h.fresh en hen y hy with h1 | h1 | ⟨e, he, h1⟩
        · exact .inl h1
        · exact .inr (.inl h1)
        · exact .inr (.inr ⟨e, List.mem_append_left _ he, h1⟩)
  · cases hs

theorem inv_write {s s' : St} {p : Path} {x : Nat} (h : Inv s) (hs : step s (.write p x) = some s') : Inv s' := by
  simp only [step] at hs
  split at hs
  · next hc =>
    rw [Bool.and_eq_true, decide_eq_true_eq] at hc
    obtain ⟨hex, hp⟩ := hc
    cases hs
    have hpar : ex s.fs p.tail = true := by
      cases p with
      | nil => exact absurd rfl hp
      | cons y q => exact h.closed y q hex
    have hexeq : ∀ q, ex (put s.fs p x) q = ex s.fs q := by
      intro q
      rw [ex_put]
      by_cases hqp : q = p
      · rw [hqp, hex, Bool.or_true]
      · simp [hqp]
    refine ⟨closed_put h.closed hpar, h.nodup, h.shape, ?_, ?_⟩
    · intro en hen
      rcases h.watched en hen with ⟨hw, hew, hr⟩ | ⟨e, he, hre⟩
      · exact .inl ⟨hw, by rw [hexeq]; exact hew, by rw [hexeq]; exact hr⟩
      · exact .inr ⟨e, List.mem_append_left _ (List.mem_append_left _ he), hre⟩
    · intro en hen y hy
      obtain ⟨hsuf, hch⟩ := h.shape en hen
      rw [content_put] at hy
      by_cases htp : en.target = p
      · right; right
        rcases h.watched en hen with ⟨hw, hew, hr⟩ | ⟨e, he, hre⟩
        · by_cases hwt : en.watched = en.target
          · exact ⟨⟨.modify, [p]⟩, List.mem_append_left _ (List.mem_append_right _ (mem_fromSelf (by rw [← htp, ← hwt]; exact hw))),
              .inr ⟨.inr rfl, by simp [htp]⟩⟩
          · have := child_ex_of_target h.closed hsuf hch hwt (by rw [htp]; exact hex)
            rcases hr with hr | hr
            · exact absurd hr hwt
            · rw [this] at hr; cases hr
        · exact ⟨e, List.mem_append_left _ (List.mem_append_left _ he), .inl hre⟩
      · rw [if_neg htp] at hy
        rcases h.fresh en hen y hy with h1 | h1 | ⟨e, he, h1⟩
        · exact .inl h1
        · exact .inr (.inl h1)
        · exact .inr (.inr ⟨e, List.mem_append_left _ (List.mem_append_left _ he), h1⟩)
  · cases hs

theorem inv_remove {s s' : St} {p : Path} (h : Inv s) (hs : step s (.remove p) = some s') : Inv s' := by
  simp only [step] at hs
  split at hs
  · next hc =>
    simp only [Bool.and_eq_true, decide_eq_true_eq] at hc
    obtain ⟨⟨hex, hp⟩, hleaf⟩ := hc
    cases hs
    refine ⟨closed_del h.closed hp hleaf, h.nodup, h.shape, ?_, ?_⟩
    · intro en hen
      rcases h.watched en hen with ⟨hw, hew, hr⟩ | ⟨e, he, hre⟩
      · by_cases hwp : en.watched = p
        · exact .inr ⟨⟨.change, [p]⟩, List.mem_append_right _ (mem_fromSelf (by rw [← hwp]; exact hw)), .inr (.inr ⟨rfl, .inl (by simp [hwp])⟩)⟩
        · left
          refine ⟨List.mem_filter.mpr ⟨hw, by simpa using hwp⟩, ?_, ?_⟩
          · rw [ex_del _ _ _ hp, hew]; simpa using hwp
          · rcases hr with hr | hr
            · exact .inl hr
            · right; rw [ex_del _ _ _ hp, hr, Bool.and_false]
      · exact .inr ⟨e, List.mem_append_left _ (List.mem_append_left _ he), hre⟩
    · intro en hen y hy
      rw [content_del] at hy
      by_cases htp : en.target = p
      · rw [if_pos htp] at hy; cases hy
      · rw [if_neg htp] at hy
        rcases h.fresh en hen y hy with h1 | h1 | ⟨e, he, h1⟩
        · exact .inl h1
        · exact .inr (.inl h1)
        · exact .inr (.inr ⟨e, List.mem_append_left _ (List.mem_append_left _ he), h1⟩)
  · cases hs

theorem inv_replace {s s' : St} {p : Path} {x : Nat} (h : Inv s) (hs : step s (.replace p x) = some s') : Inv s' := by
  simp only [step] at hs
  split at hs
  · next hc =>
    simp only [Bool.and_eq_true, decide_eq_true_eq] at hc
    obtain ⟨⟨hex, hp⟩, hleaf⟩ := hc
    cases hs
    have hpar : ex s.fs p.tail = true := by
      cases p with
      | nil => exact absurd rfl hp
      | cons y q => exact h.closed y q hex
    have hexeq : ∀ q, ex (put s.fs p x) q = ex s.fs q := by
      intro q
      rw [ex_put]
      by_cases hqp : q = p
      · rw [hqp, hex, Bool.or_true]
      · simp [hqp]
    refine ⟨closed_put h.closed hpar, h.nodup, h.shape, ?_, ?_⟩
    · intro en hen
      rcases h.watched en hen with ⟨hw, hew, hr⟩ | ⟨e, he, hre⟩
      · by_cases hwp : en.watched = p
        · exact .inr ⟨⟨.change, [p]⟩, List.mem_append_right _ (mem_fromSelf (by rw [← hwp]; exact hw)), .inr (.inr ⟨rfl, .inl (by simp [hwp])⟩)⟩
        · exact .inl ⟨List.mem_filter.mpr ⟨hw, by simpa using hwp⟩, by rw [hexeq]; exact hew, by rw [hexeq]; exact hr⟩
      · exact .inr ⟨e, List.mem_append_left _ (List.mem_append_left _ he), hre⟩
    · intro en hen y hy
      obtain ⟨hsuf, hch⟩ := h.shape en hen
      rw [content_put] at hy
      by_cases htp : en.target = p
      · right; right
        rcases h.watched en hen with ⟨hw, hew, hr⟩ | ⟨e, he, hre⟩
        · by_cases hwt : en.watched = en.target
          · exact ⟨⟨.change, [p]⟩, List.mem_append_right _ (mem_fromSelf (by rw [← htp, ← hwt]; exact hw)),
              .inr ⟨.inl rfl, by simp [htp]⟩⟩
          · have := child_ex_of_target h.closed hsuf hch hwt (by rw [htp]; exact hex)
            rcases hr with hr | hr
            · exact absurd hr hwt
            · rw [this] at hr; cases hr
        · exact ⟨e, List.mem_append_left _ (List.mem_append_left _ he), .inl hre⟩
      · rw [if_neg htp] at hy
        rcases h.fresh en hen y hy with h1 | h1 | ⟨e, he, h1⟩
        · exact .inl h1
        · exact .inr (.inl h1)
        · exact .inr (.inr ⟨e, List.mem_append_left _ (List.mem_append_left _ he), h1⟩)
  · cases hs

theorem trigger_fs (s : St) : (trigger s).fs = s.fs ∧ (trigger s).watches = s.watches ∧ (trigger s).queue = s.queue ∧
    (trigger s).paths = s.paths ∧ (trigger s).seen = s.seen ∧ (trigger s).now = s.now ∧ (trigger s).reloads = s.reloads ∧
    (trigger s).deadline.isSome = true := by
  unfold trigger
  refine ⟨rfl, rfl, rfl, rfl, rfl, rfl, rfl, ?_⟩
  dsimp only
  cases s.deadline <;> rfl

theorem inv_trigger {s : St} (h : Inv s) : Inv (trigger s) := by
  refine ⟨h.closed, h.nodup, h.shape, fun en hen => h.watched en hen, ?_⟩
  intro en hen x hx
  exact .inr (.inl (trigger_fs s).2.2.2.2.2.2.2)

/-- The entries of a state other than those of a target. -/
def InvBut (s : St) (t : Path) : Prop :=
  Closed s.fs ∧ (s.paths.map (·.target)).Nodup ∧ (∀ en ∈ s.paths, en.watched <:+ en.target ∧ en.child = child en.watched en.target) ∧
  (∀ en ∈ s.paths, en.target ≠ t → Watched s en ∧ Fresh s en)

theorem inv_watchAndAdd {s : St} {t : Path} (h : InvBut s t) :
    (((watchAndAdd s t).2 = true → Inv (trigger (watchAndAdd s t).1)) ∧ ((watchAndAdd s t).2 = false → Inv (watchAndAdd s t).1)) ∧
    (∃ en ∈ (watchAndAdd s t).1.paths, en.target = t) := by
  obtain ⟨hcl, hnd, hsh, hwf⟩ := h
  have hnd' : ((watchAndAdd s t).1.paths.map (·.target)).Nodup := by
    simp only [watchAndAdd, List.map_cons, List.nodup_cons, List.mem_map, List.mem_filter, decide_eq_true_eq]
    refine ⟨?_, ?_⟩
    · rintro ⟨en, ⟨-, h1⟩, h2⟩; exact h1 h2
    · exact (List.Sublist.map _ List.filter_sublist).nodup hnd
  have hsh' : ∀ en ∈ (watchAndAdd s t).1.paths, en.watched <:+ en.target ∧ en.child = child en.watched en.target := by
    intro en hen
    simp only [watchAndAdd, List.mem_cons, List.mem_filter] at hen
    rcases hen with rfl | ⟨hen, -⟩
    · exact ⟨nearest_suffix _ _, rfl⟩
    · exact hsh en hen
  have hw' : ∀ en ∈ (watchAndAdd s t).1.paths, Watched (watchAndAdd s t).1 en := by
    intro en hen
    simp only [watchAndAdd, List.mem_cons, List.mem_filter, decide_eq_true_eq] at hen
    rcases hen with rfl | ⟨hen, hne⟩
    · left
      refine ⟨by simp [watchAndAdd], nearest_ex _ _, ?_⟩
      by_cases hwt : nearest s.fs t = t
      · exact .inl hwt
      · right
        obtain ⟨x, h1, h2⟩ := child_spec (nearest_suffix s.fs t) hwt
        dsimp only [watchAndAdd]
        rw [h1]
        cases he : ex s.fs (x :: nearest s.fs t) with
        | false => rfl
        | true =>
          have := (nearest_max s.fs t _ h2 he).length_le
          simp at this; omega
    · rcases (hwf en hen hne).1 with ⟨h1, h2, h3⟩ | h1
      · left
        refine ⟨?_, h2, h3⟩
        simp only [watchAndAdd, List.mem_cons, List.mem_filter, decide_eq_true_eq]
        by_cases he : en.watched = nearest s.fs t
        · exact .inl he
        · exact .inr ⟨h1, he⟩
      · exact .inr h1
  refine ⟨⟨fun hr => ?_, fun hr => ?_⟩, ⟨t, nearest s.fs t, child (nearest s.fs t) t⟩, by simp [watchAndAdd], rfl⟩
  · refine ⟨hcl, hnd', hsh', hw', fun en hen x hx => .inr (.inl (trigger_fs _).2.2.2.2.2.2.2)⟩
  · refine ⟨hcl, hnd', hsh', hw', ?_⟩
    intro en hen x hx
    simp only [watchAndAdd, List.mem_cons, List.mem_filter, decide_eq_true_eq] at hen
    rcases hen with rfl | ⟨hen, hne⟩
    · exfalso
      have hte : ex s.fs t = true := ex_of_content hx
      have : nearest s.fs t = t := suffix_antisymm (nearest_suffix _ _) (nearest_max _ _ _ (List.suffix_refl t) hte)
      simp [watchAndAdd, this] at hr
    · exact (hwf en hen hne).2 x hx

theorem inv_add {s : St} {t : Path} (h : Inv s) : Inv (addWatch s t) ∧ (∃ en ∈ (addWatch s t).paths, en.target = t) ∧
    (∀ en ∈ s.paths, ∃ en' ∈ (addWatch s t).paths, en'.target = en.target) := by
  unfold addWatch
  split
  · next hany =>
    refine ⟨h, ?_, fun en hen => ⟨en, hen, rfl⟩⟩
    simpa using hany
  · have hb : InvBut s t := ⟨h.closed, h.nodup, h.shape, fun en hen _ => ⟨h.watched en hen, h.fresh en hen⟩⟩
    obtain ⟨⟨h1, h2⟩, h3⟩ := inv_watchAndAdd hb
    have hkeep : ∀ en ∈ s.paths, ∃ en' ∈ (watchAndAdd s t).1.paths, en'.target = en.target := by
      intro en hen
      by_cases he : en.target = t
      · exact he ▸ h3
      · exact ⟨en, by simp [watchAndAdd, hen, he], rfl⟩
    dsimp only
    cases hr : (watchAndAdd s t).2 with
    | true => rw [if_pos rfl]; exact ⟨h1 hr, h3, hkeep⟩
    | false => rw [if_neg (by simp)]; exact ⟨h2 hr, h3, hkeep⟩

/-- The event concerns at most one entry, whose watch is not shared with another entry. -/
def Alone (s : St) (e : Event) : Prop :=
  ∀ en ∈ s.paths, Rel e en → ∀ en' ∈ s.paths, en'.target ≠ en.target → ¬ Rel e en' ∧ en'.watched ≠ en.watched

theorem toRewatch_alone {s : St} {e : Event} {order : List Entry} (h : Inv s) (hp : order.Perm s.paths) (ha : Alone s e) :
    toRewatch order e = [] ∨ ∃ en ∈ s.paths, Rel e en ∧ toRewatch order e = [(en.target, en.watched)] := by
  have hnd : (order.map (·.target)).Nodup := (hp.map (·.target)).nodup_iff.mpr h.nodup
  have hsub : List.Sublist ((toRewatch order e).map (·.1)) (order.map (·.target)) := by
    obtain ⟨k, ps⟩ := e
    cases k <;> simp only [toRewatch, List.map_map]
    · exact List.Sublist.refl _
    · exact List.Sublist.refl _
    · exact List.Sublist.map _ List.filter_sublist
    · exact List.nil_sublist _
    · exact List.nil_sublist _
  have hnd2 := hsub.nodup hnd
  cases hl : toRewatch order e with
  | nil => exact .inl rfl
  | cons tw rest =>
    right
    obtain ⟨en, hen, hre, rfl⟩ := mem_toRewatch.mp (show tw ∈ toRewatch order e by rw [hl]; simp)
    refine ⟨en, hp.mem_iff.mp hen, hre, ?_⟩
    cases rest with
    | nil => rfl
    | cons tw2 rest =>
      obtain ⟨en2, hen2, hre2, rfl⟩ := mem_toRewatch.mp (show tw2 ∈ toRewatch order e by rw [hl]; simp)
      rw [hl] at hnd2
      have hne : en2.target ≠ en.target := by
        intro he; simp [he] at hnd2
      exact absurd hre2 (ha en (hp.mem_iff.mp hen) hre en2 (hp.mem_iff.mp hen2) hne).1

theorem watched_tail {s : St} {en : Entry} {e : Event} {rest : List Event} (hq : s.queue = e :: rest) (h : Watched s en) (hn : ¬ Rel e en)
    {s1 : St} (hfs : s1.fs = s.fs) (hq1 : s1.queue = rest) (hw : en.watched ∈ s.watches → en.watched ∈ s1.watches) : Watched s1 en := by
  rcases h with ⟨h1, h2, h3⟩ | ⟨e', he', hre⟩
  · exact .inl ⟨hw h1, by rw [hfs]; exact h2, by rw [hfs]; exact h3⟩
  · rw [hq] at he'
    rcases List.mem_cons.mp he' with rfl | he'
    · exact absurd hre hn
    · exact .inr ⟨e', by rw [hq1]; exact he', hre⟩

theorem fresh_tail {s : St} {en : Entry} {e : Event} {rest : List Event} (hq : s.queue = e :: rest) (h : Fresh s en) (hn : ¬ Rel e en)
    (hna : ¬ About e en.target)
    {s1 : St} (hfs : s1.fs = s.fs) (hseen : s1.seen = s.seen) (hd : s1.deadline = s.deadline) (hq1 : s1.queue = rest) : Fresh s1 en := by
  intro x hx
  rw [hfs] at hx
  rcases h x hx with h1 | h1 | ⟨e', he', hre⟩
  · exact .inl (by rw [hseen]; exact h1)
  · exact .inr (.inl (by rw [hd]; exact h1))
  · rw [hq] at he'
    rcases List.mem_cons.mp he' with rfl | he'
    · exact (hre.elim hn hna).elim
    · exact .inr (.inr ⟨e', by rw [hq1]; exact he', hre⟩)

theorem inv_handle {s : St} {e : Event} {rest : List Event} {order : List Entry} (h : Inv s) (hq : s.queue = e :: rest)
    (hp : order.Perm s.paths) (ha : Alone s e) :
    Inv (handle { s with queue := rest } order e) ∧
    (∀ en ∈ s.paths, ∃ en' ∈ (handle { s with queue := rest } order e).paths, en'.target = en.target) := by
  -- the part about reloading for the event itself
  have habout : ∀ (s1 : St), s1.fs = s.fs → s1.queue = rest → s1.seen = s.seen → s1.deadline = s.deadline → s1.paths = s.paths →
      (∀ en ∈ s.paths, ¬ Rel e en) → (∀ en ∈ s.paths, en.watched ∈ s.watches → en.watched ∈ s1.watches) →
      Inv (if eventReloads s.paths e || false then trigger s1 else s1) := by
    intro s1 h1 h2 h3 h4 h5 hnr hw
    have hw1 : ∀ en ∈ s1.paths, Watched s1 en := by
      intro en hen
      rw [h5] at hen
      exact watched_tail hq (h.watched en hen) (hnr en hen) h1 h2 (hw en hen)
    cases hr : eventReloads s.paths e with
    | true =>
      simp only [Bool.or_false, if_true]
      exact ⟨by rw [(trigger_fs s1).1, h1]; exact h.closed, by rw [(trigger_fs s1).2.2.2.1, h5]; exact h.nodup,
        by rw [(trigger_fs s1).2.2.2.1, h5]; exact h.shape, hw1, fun en hen x hx => .inr (.inl (trigger_fs _).2.2.2.2.2.2.2)⟩
    | false =>
      simp only [Bool.or_false, Bool.false_eq_true, if_false]
      refine ⟨by rw [h1]; exact h.closed, by rw [h5]; exact h.nodup, by rw [h5]; exact h.shape, hw1, ?_⟩
      intro en hen
      rw [h5] at hen
      refine fresh_tail hq (h.fresh en hen) (hnr en hen) ?_ h1 h3 h4 h2
      intro hab
      rw [eventReloads_of_about hen hab] at hr; cases hr
  rcases toRewatch_alone h hp ha with hl | ⟨en0, hen0, hre0, hl⟩
  · -- nothing to rewatch
    have hnr : ∀ en ∈ s.paths, ¬ Rel e en := by
      intro en hen hre
      have : (en.target, en.watched) ∈ toRewatch order e := mem_toRewatch.mpr ⟨en, hp.mem_iff.mpr hen, hre, rfl⟩
      rw [hl] at this; cases this
    have hpaths : (if drains e then [] else s.paths) = s.paths := by
      split
      · next hd =>
        cases hps : s.paths with
        | nil => rfl
        | cons en l =>
          exfalso
          refine hnr en (by rw [hps]; simp) ?_
          unfold drains at hd
          simp only [Bool.or_eq_true, decide_eq_true_eq] at hd
          rcases hd with hd | hd
          · exact .inl hd
          · exact .inr (.inl hd)
      · rfl
    have hh : handle { s with queue := rest } order e =
        if eventReloads s.paths e || false then trigger { s with queue := rest } else { s with queue := rest } := by
      unfold handle
      rw [hl]
      simp only [rewatchAny, hpaths]
    rw [hh]
    refine ⟨habout _ rfl rfl rfl rfl rfl hnr (fun en _ h => h), ?_⟩
    intro en hen
    refine ⟨en, ?_, rfl⟩
    split <;> exact hen
  · -- one entry is rewatched
    let s0 : St := { s with queue := rest, paths := if drains e then [] else s.paths, watches := s.watches.filter (· ≠ en0.watched) }
    have hothers : ∀ en ∈ s.paths, en.target ≠ en0.target → ¬ Rel e en ∧ en.watched ≠ en0.watched := ha en0 hen0 hre0
    have hkeys : ∀ en ∈ s.paths, drains e = true → en.target = en0.target := by
      intro en hen hd
      apply Classical.byContradiction
      intro hne
      have := (hothers en hen hne).1
      apply this
      unfold drains at hd
      simp only [Bool.or_eq_true, decide_eq_true_eq] at hd
      rcases hd with hd | hd
      · exact .inl hd
      · exact .inr (.inl hd)
    have hsub : ∀ en ∈ s0.paths, en ∈ s.paths := by
      intro en hen
      show en ∈ s.paths
      dsimp only [s0] at hen
      split at hen
      · cases hen
      · exact hen
    have hnds0 : (s0.paths.map (·.target)).Nodup := by
      dsimp only [s0]
      split
      · simp
      · exact h.nodup
    have hother_about : ∀ en ∈ s0.paths, en.target ≠ en0.target → Watched s0 en ∧ (eventReloads s.paths e = false → Fresh s0 en) := by
      intro en hen hne
      obtain ⟨hnr, hnw⟩ := hothers en (hsub en hen) hne
      refine ⟨watched_tail hq (h.watched en (hsub en hen)) hnr rfl rfl ?_, ?_⟩
      · intro hw; exact List.mem_filter.mpr ⟨hw, by simpa using hnw⟩
      · intro hr
        refine fresh_tail hq (h.fresh en (hsub en hen)) hnr ?_ rfl rfl rfl rfl
        intro hab
        rw [eventReloads_of_about (hsub en hen) hab] at hr; cases hr
    have hh : handle { s with queue := rest } order e =
        if eventReloads s.paths e || (watchAndAdd s0 en0.target).2 then trigger (watchAndAdd s0 en0.target).1 else (watchAndAdd s0 en0.target).1 := by
      unfold handle
      rw [hl]
      simp only [rewatchAny]
      show (if eventReloads s.paths e || (if (watchAndAdd s0 en0.target).2 = true then ((watchAndAdd s0 en0.target).1, true)
        else ((watchAndAdd s0 en0.target).1, false)).2 then _ else _) = _
      cases (watchAndAdd s0 en0.target).2 <;> rfl
    have hkeep : ∀ en ∈ s.paths, ∃ en' ∈ (watchAndAdd s0 en0.target).1.paths, en'.target = en.target := by
      intro en hen
      by_cases hne : en.target = en0.target
      · exact ⟨⟨en0.target, nearest s0.fs en0.target, child (nearest s0.fs en0.target) en0.target⟩, by simp [watchAndAdd], hne.symm⟩
      · refine ⟨en, ?_, rfl⟩
        simp only [watchAndAdd, List.mem_cons, List.mem_filter, decide_eq_true_eq]
        refine .inr ⟨?_, hne⟩
        dsimp only [s0]
        split
        · next hd => exact absurd (hkeys en hen hd) hne
        · exact hen
    rw [hh]
    constructor
    · cases hr : eventReloads s.paths e with
      | false =>
        have hb : InvBut s0 en0.target := ⟨h.closed, hnds0, fun en hen => h.shape en (hsub en hen),
          fun en hen hne => ⟨(hother_about en hen hne).1, (hother_about en hen hne).2 hr⟩⟩
        obtain ⟨⟨h1, h2⟩, -⟩ := inv_watchAndAdd hb
        simp only [Bool.false_or]
        cases hr2 : (watchAndAdd s0 en0.target).2 with
        | true => rw [if_pos rfl]; exact h1 hr2
        | false => rw [if_neg (by simp)]; exact h2 hr2
      | true =>
        simp only [Bool.true_or, if_true]
        -- freshness is trivial after a trigger: first pretend the deadline were already set
        have hb : InvBut (trigger s0) en0.target := ⟨h.closed, hnds0, fun en hen => h.shape en (hsub en hen),
          fun en hen hne => ⟨(hother_about en hen hne).1, fun x hx => .inr (.inl (trigger_fs s0).2.2.2.2.2.2.2)⟩⟩
        obtain ⟨⟨h1, h2⟩, -⟩ := inv_watchAndAdd hb
        have hi : Inv (trigger (watchAndAdd (trigger s0) en0.target).1) := by
          cases hr2 : (watchAndAdd (trigger s0) en0.target).2 with
          | true => exact h1 hr2
          | false => exact inv_trigger (h2 hr2)
        have heq : (trigger (watchAndAdd (trigger s0) en0.target).1) = trigger (watchAndAdd s0 en0.target).1 := by
          have hd : s0.deadline = s.deadline := rfl
          simp only [trigger, watchAndAdd]
          cases s0.deadline <;> rfl
        rw [heq] at hi
        exact hi
    · intro en hen
      obtain ⟨en', h1, h2⟩ := hkeep en hen
      refine ⟨en', ?_, h2⟩
      split
      · exact h1
      · exact h1

theorem inv_noise {s : St} {e : Event} (h : Inv s) : Inv { s with queue := s.queue ++ [e] } := by
  refine ⟨h.closed, h.nodup, h.shape, ?_, ?_⟩
  · intro en hen
    rcases h.watched en hen with h1 | ⟨e', he', hre⟩
    · exact .inl h1
    · exact .inr ⟨e', List.mem_append_left _ he', hre⟩
  · intro en hen x hx
    rcases h.fresh en hen x hx with h1 | h1 | ⟨e', he', hre⟩
    · exact .inl h1
    · exact .inr (.inl h1)
    · exact .inr (.inr ⟨e', List.mem_append_left _ he', hre⟩)

theorem inv_timeout {s s' : St} (h : Inv s) (hs : step s .timeout = some s') : Inv s' := by
  simp only [step] at hs
  split at hs
  · split at hs
    · cases hs
      exact ⟨h.closed, h.nodup, h.shape, fun en hen => h.watched en hen, fun en hen x hx => .inl hx⟩
    · cases hs
  · cases hs

end Shpool.Watcher
