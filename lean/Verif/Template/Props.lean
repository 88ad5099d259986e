import Verif.Template.Model
/-!
# Properties C28-C30: session name templates
-/

namespace Shpool.Template
open Shpool.Str

/-! ## Specification -/

/-- An identifier: a non-empty run of alphanumerics and underscores that does not start with a numeric character. -/
def IsIdent (t : CharTables) (v : List Char) : Prop :=
  (∃ c cs, v = c :: cs ∧ t.numeric c = false) ∧ ∀ c ∈ v, t.alphanumeric c = true ∨ c = '_'

/-- The template language: literal characters other than `{`, and `{identifier}` groups. -/
inductive WellFormed (t : CharTables) : List Char → Prop
  | nil : WellFormed t []
  | lit (c : Char) (cs : List Char) : c ≠ '{' → WellFormed t cs → WellFormed t (c :: cs)
  | group (v cs : List Char) : IsIdent t v → WellFormed t cs → WellFormed t ('{' :: (v ++ '}' :: cs))

/-- `Subst t vars src out`: `out` is `src` with every `{identifier}` group replaced by the variable's value (nothing if
unset) and all other characters copied. -/
inductive Subst (t : CharTables) (vars : Vars) : List Char → List Char → Prop
  | nil : Subst t vars [] []
  | lit (c : Char) (cs out : List Char) : c ≠ '{' → Subst t vars cs out → Subst t vars (c :: cs) (c :: out)
  | some (v cs out val : List Char) : IsIdent t v → vars v = some val → Subst t vars cs out →
      Subst t vars ('{' :: (v ++ '}' :: cs)) (val ++ out)
  | none (v cs out : List Char) : IsIdent t v → vars v = none → Subst t vars cs out →
      Subst t vars ('{' :: (v ++ '}' :: cs)) out

/-- Rendering pieces back to source text. -/
def render : List Piece → List Char
  | [] => []
  | .raw s :: ps => s ++ render ps
  | .var v :: ps => '{' :: (v ++ '}' :: render ps)

/-! ## Helper lemmas -/

theorem cut_some {c : Char} {s a b : List Char} (h : cut c s = some (a, b)) : s = a ++ c :: b ∧ c ∉ a := by
  induction s generalizing a with
  | nil => cases h
  | cons x xs ih =>
    simp only [cut] at h
    split at h
    · next hx => simp only [Option.some.injEq, Prod.mk.injEq] at h; obtain ⟨rfl, rfl⟩ := h; simp [hx]
    · next hx =>
      split at h
      · cases h
      · next a' b' h' =>
        simp only [Option.some.injEq, Prod.mk.injEq] at h
        obtain ⟨rfl, rfl⟩ := h
        obtain ⟨e, hn⟩ := ih h'
        refine ⟨by rw [e]; rfl, ?_⟩
        simp only [List.mem_cons, not_or]
        exact ⟨fun e => hx e.symm, hn⟩

theorem cut_none {c : Char} {s : List Char} (h : cut c s = none) : c ∉ s := by
  induction s with
  | nil => simp
  | cons x xs ih =>
    simp only [cut] at h
    split at h
    · cases h
    · next hx =>
      split at h
      · next h' => simp only [List.mem_cons, not_or]; exact ⟨fun e => hx e.symm, ih h'⟩
      · cases h

theorem cut_append {c : Char} {a b : List Char} (h : c ∉ a) : cut c (a ++ c :: b) = some (a, b) := by
  induction a with
  | nil => simp [cut]
  | cons x xs ih =>
    simp only [List.mem_cons, not_or] at h
    simp only [List.cons_append, cut]
    rw [if_neg (fun e => h.1 e.symm), ih h.2]

theorem cut_of_not_mem {c : Char} {s : List Char} (h : c ∉ s) : cut c s = none := by
  induction s with
  | nil => rfl
  | cons x xs ih =>
    simp only [List.mem_cons, not_or] at h
    simp only [cut]
    rw [if_neg (fun e => h.1 e.symm), ih h.2]

theorem validIdent_iff (t : CharTables) (v : List Char) : validIdent t v = true ↔ IsIdent t v := by
  unfold validIdent IsIdent
  cases v with
  | nil => simp
  | cons c cs => simp [List.all_eq_true]

theorem brace_not_mem_ident {t : CharTables} (ht : t.Faithful) {v : List Char} (h : IsIdent t v) :
    '}' ∉ v ∧ '{' ∉ v := by
  constructor
  · intro hm
    have h' := h.2 _ hm
    unfold CharTables.alphanumeric at h'
    rw [ht.alpha '}' (by decide), ht.num '}' (by decide)] at h'
    revert h'; decide
  · intro hm
    have h' := h.2 _ hm
    unfold CharTables.alphanumeric at h'
    rw [ht.alpha '{' (by decide), ht.num '{' (by decide)] at h'
    revert h'; decide

/-- Unfolding `parse` once, in terms of the source's shape. -/
theorem parse_raw {t : CharTables} {s : List Char} (h : '{' ∉ s) :
    parse t s = .ok (if s = [] then [] else [.raw s]) := by
  unfold parse
  split
  · rfl
  · next a b h' => rw [cut_of_not_mem h] at h'; cases h'

theorem parse_group {t : CharTables} {a v cs : List Char} (ha : '{' ∉ a) (hv : '}' ∉ v) (hid : IsIdent t v) :
    parse t (a ++ '{' :: (v ++ '}' :: cs)) =
      match parse t cs with
      | .error e => .error e
      | .ok ps => .ok ((if a = [] then [] else [.raw a]) ++ .var v :: ps) := by
  rw [parse]
  split
  · next h' => rw [cut_append ha] at h'; cases h'
  · next a' b' h' =>
    rw [cut_append ha] at h'
    simp only [Option.some.injEq, Prod.mk.injEq] at h'
    obtain ⟨rfl, rfl⟩ := h'
    split
    · next h'' => rw [cut_append hv] at h''; cases h''
    · next v' c' h'' =>
      rw [cut_append hv] at h''
      simp only [Option.some.injEq, Prod.mk.injEq] at h''
      obtain ⟨rfl, rfl⟩ := h''
      rw [if_pos ((validIdent_iff t v).mpr hid)]
      cases parse t cs <;> rfl

/-- Induction principle following the parser on successful parses. -/
theorem parse_ok_cases {t : CharTables} {s : List Char} {ps : List Piece} (h : parse t s = .ok ps) :
    ('{' ∉ s ∧ ps = if s = [] then [] else [.raw s]) ∨
    ∃ a v cs qs, s = a ++ '{' :: (v ++ '}' :: cs) ∧ '{' ∉ a ∧ '}' ∉ v ∧ IsIdent t v ∧ parse t cs = .ok qs ∧
      ps = (if a = [] then [] else [.raw a]) ++ .var v :: qs := by
  rw [parse] at h
  split at h
  · next h' => left; exact ⟨cut_none h', by cases h; rfl⟩
  · next a r1 h' =>
    right
    obtain ⟨e1, n1⟩ := cut_some h'
    split at h
    · cases h
    · next v r2 h'' =>
      obtain ⟨e2, n2⟩ := cut_some h''
      split at h
      · next hid =>
        split at h
        · cases h
        · next qs hqs =>
          cases h
          exact ⟨a, v, r2, qs, by rw [e1, e2], n1, n2, (validIdent_iff t v).mp hid, hqs, rfl⟩
      · cases h

theorem render_append (a b : List Piece) : render (a ++ b) = render a ++ render b := by
  induction a with
  | nil => rfl
  | cons p ps ih => cases p <;> simp [render, ih]

theorem wellFormed_lits {t : CharTables} {a cs : List Char} (ha : '{' ∉ a) (h : WellFormed t cs) :
    WellFormed t (a ++ cs) := by
  induction a with
  | nil => exact h
  | cons c a ih =>
    simp only [List.mem_cons, not_or] at ha
    exact .lit c _ (fun e => ha.1 e.symm) (ih ha.2)

theorem subst_lits {t : CharTables} {vars : Vars} {a cs out : List Char} (ha : '{' ∉ a) (h : Subst t vars cs out) :
    Subst t vars (a ++ cs) (a ++ out) := by
  induction a with
  | nil => exact h
  | cons c a ih =>
    simp only [List.mem_cons, not_or] at ha
    exact .lit c _ _ (fun e => ha.1 e.symm) (ih ha.2)

theorem parse_of_wellFormed {t : CharTables} (ht : t.Faithful) {s : List Char} (h : WellFormed t s) :
    ∃ ps, parse t s = .ok ps := by
  -- generalise over an accumulated run of literals
  suffices H : ∀ s, WellFormed t s → ∀ a, '{' ∉ a → ∃ ps, parse t (a ++ s) = .ok ps by
    exact H s h [] (by simp)
  intro s h
  induction h with
  | nil => intro a ha; exact ⟨_, by rw [List.append_nil]; exact parse_raw ha⟩
  | lit c cs hc _ ih =>
    intro a ha
    have := ih (a ++ [c]) (by simp only [List.mem_append, List.mem_singleton, not_or]; exact ⟨ha, fun e => hc e.symm⟩)
    simpa using this
  | group v cs hid _ ih =>
    intro a ha
    obtain ⟨ps, hps⟩ := ih [] (by simp)
    rw [List.nil_append] at hps
    rw [parse_group ha (brace_not_mem_ident ht hid).1 hid, hps]
    exact ⟨_, rfl⟩

/-! ## Properties -/

/-- C28. An accepted template renders back to its source, its literal pieces are non-empty and contain no opening brace, and
its variable names are identifiers. -/
theorem C28_render_parse (t : CharTables) (src : List Char) (tm : Template) (h : Template.new t src = .ok tm) :
    tm.source = src ∧ render tm.chunks = src ∧
      (∀ s, Piece.raw s ∈ tm.chunks → s ≠ [] ∧ '{' ∉ s) ∧ (∀ v, Piece.var v ∈ tm.chunks → IsIdent t v) := by
  unfold Template.new at h
  split at h
  · cases h
  · next ps hps =>
    cases h
    refine ⟨rfl, ?_⟩
    show render ps = src ∧ _
    induction hn : src.length using Nat.strongRecOn generalizing src ps with
    | _ n ih =>
      rcases parse_ok_cases hps with ⟨hno, rfl⟩ | ⟨a, v, cs, qs, rfl, ha, hv, hid, hqs, rfl⟩
      · by_cases he : src = []
        · subst he; simp [render]
        · simp only [he, if_false]
          refine ⟨by simp [render], ?_, by simp⟩
          intro s hs
          simp only [List.mem_singleton, Piece.raw.injEq] at hs
          subst hs; exact ⟨he, hno⟩
      · obtain ⟨i1, i2, i3⟩ := ih cs.length (by subst hn; simp; omega) cs qs hqs rfl
        refine ⟨?_, ?_, ?_⟩
        · rw [render_append]
          by_cases he : a = []
          · subst he; simp [render, i1]
          · simp [he, render, i1]
        · intro s hs
          simp only [List.mem_append, List.mem_cons, reduceCtorEq, false_or] at hs
          rcases hs with hs | hs
          · by_cases he : a = []
            · simp [he] at hs
            · simp only [he, if_false, List.mem_singleton, Piece.raw.injEq] at hs
              subst hs; exact ⟨he, ha⟩
          · exact i2 s hs
        · intro w hw
          simp only [List.mem_append, List.mem_cons, Piece.var.injEq] at hw
          rcases hw with hw | rfl | hw
          · by_cases he : a = [] <;> simp [he] at hw
          · exact hid
          · exact i3 w hw

/-- C29. Instantiation is substitution in the source text: every group replaced by the variable's value, everything else
copied, and inserted values are not expanded again (the relation never looks inside a value). -/
theorem C29_apply_is_substitution (t : CharTables) (src : List Char) (tm : Template)
    (h : Template.new t src = .ok tm) (vars : Vars) : Subst t vars src (tm.apply vars) := by
  unfold Template.new at h
  split at h
  · cases h
  · next ps hps =>
    cases h
    show Subst t vars src (applyPieces vars ps)
    induction hn : src.length using Nat.strongRecOn generalizing src ps with
    | _ n ih =>
      rcases parse_ok_cases hps with ⟨hno, rfl⟩ | ⟨a, v, cs, qs, rfl, ha, hv, hid, hqs, rfl⟩
      · by_cases he : src = []
        · subst he; exact .nil
        · simp only [he, if_false, applyPieces, List.append_nil]
          simpa using subst_lits (vars := vars) hno (Subst.nil (t := t))
      · have i1 := ih cs.length (by subst hn; simp; omega) cs qs hqs rfl
        have hgrp : Subst t vars ('{' :: (v ++ '}' :: cs)) ((vars v).getD [] ++ applyPieces vars qs) := by
          cases hv' : vars v with
          | none => exact .none v cs _ hid hv' i1
          | some val => exact .some v cs _ val hid hv' i1
        have := subst_lits ha hgrp
        by_cases he : a = []
        · subst he; simpa [applyPieces] using this
        · simpa [he, applyPieces] using this

/-- C29. The substitution result is uniquely determined by the source and the variables. -/
theorem C29_substitution_unique (t : CharTables) (ht : t.Faithful) (vars : Vars) (src o₁ o₂ : List Char)
    (h₁ : Subst t vars src o₁) (h₂ : Subst t vars src o₂) : o₁ = o₂ := by
  have inj : ∀ (v w cs ds : List Char), '}' ∉ v → '}' ∉ w → v ++ '}' :: cs = w ++ '}' :: ds → v = w ∧ cs = ds := by
    intro v w cs ds hv hw he
    have h1 := cut_append (b := cs) hv
    rw [he, cut_append hw] at h1
    simp only [Option.some.injEq, Prod.mk.injEq] at h1
    exact ⟨h1.1.symm, h1.2.symm⟩
  induction h₁ generalizing o₂ with
  | nil => cases h₂; rfl
  | lit c cs out hc _ ih =>
    generalize hs : c :: cs = s at h₂
    cases h₂ with
    | nil => cases hs
    | lit c' cs' out' hc' h' => cases hs; rw [ih _ h']
    | some => cases hs; exact absurd rfl hc
    | none => cases hs; exact absurd rfl hc
  | some v cs out val hid hv _ ih =>
    generalize hs : '{' :: (v ++ '}' :: cs) = s at h₂
    cases h₂ with
    | nil => cases hs
    | lit c' cs' out' hc' h' => cases hs; exact absurd rfl hc'
    | some v' cs' out' val' hid' hv' h' =>
      simp only [List.cons.injEq, true_and] at hs
      obtain ⟨rfl, rfl⟩ := inj _ _ _ _ (brace_not_mem_ident ht hid).1 (brace_not_mem_ident ht hid').1 hs
      rw [hv] at hv'; cases hv'; rw [ih _ h']
    | none v' cs' out' hid' hv' h' =>
      simp only [List.cons.injEq, true_and] at hs
      obtain ⟨rfl, rfl⟩ := inj _ _ _ _ (brace_not_mem_ident ht hid).1 (brace_not_mem_ident ht hid').1 hs
      rw [hv] at hv'; cases hv'
  | none v cs out hid hv _ ih =>
    generalize hs : '{' :: (v ++ '}' :: cs) = s at h₂
    cases h₂ with
    | nil => cases hs
    | lit c' cs' out' hc' h' => cases hs; exact absurd rfl hc'
    | some v' cs' out' val' hid' hv' h' =>
      simp only [List.cons.injEq, true_and] at hs
      obtain ⟨rfl, rfl⟩ := inj _ _ _ _ (brace_not_mem_ident ht hid).1 (brace_not_mem_ident ht hid').1 hs
      rw [hv] at hv'; cases hv'
    | none v' cs' out' hid' hv' h' =>
      simp only [List.cons.injEq, true_and] at hs
      obtain ⟨rfl, rfl⟩ := inj _ _ _ _ (brace_not_mem_ident ht hid).1 (brace_not_mem_ident ht hid').1 hs
      rw [ih _ h']

/-- C29. Only the variables named in the template matter. -/
theorem C29_depends_on_named_vars (tm : Template) (v₁ v₂ : Vars)
    (h : ∀ x, Piece.var x ∈ tm.chunks → v₁ x = v₂ x) : tm.apply v₁ = tm.apply v₂ := by
  obtain ⟨src, ps⟩ := tm
  show applyPieces v₁ ps = applyPieces v₂ ps
  simp only at h
  induction ps with
  | nil => rfl
  | cons p ps ih =>
    have ih' := ih (fun x hx => h x (List.mem_cons_of_mem _ hx))
    cases p with
    | raw s => simp [applyPieces, ih']
    | var v => simp [applyPieces, ih', h v List.mem_cons_self]

/-- C30. Acceptance is exactly well-formedness. -/
theorem C30_accepts_iff_wellFormed (t : CharTables) (ht : t.Faithful) (src : List Char) :
    (∃ tm, Template.new t src = .ok tm) ↔ WellFormed t src := by
  constructor
  · rintro ⟨tm, h⟩
    unfold Template.new at h
    split at h
    · cases h
    · next ps hps =>
      clear h tm
      induction hn : src.length using Nat.strongRecOn generalizing src ps with
      | _ n ih =>
        rcases parse_ok_cases hps with ⟨hno, rfl⟩ | ⟨a, v, cs, qs, rfl, ha, hv, hid, hqs, rfl⟩
        · simpa using wellFormed_lits hno (WellFormed.nil (t := t))
        · exact wellFormed_lits ha (.group v cs hid (ih cs.length (by subst hn; simp; omega) cs qs hqs rfl))
  · intro h
    obtain ⟨ps, hps⟩ := parse_of_wellFormed ht h
    exact ⟨⟨src, ps⟩, by simp [Template.new, hps]⟩

/-- No two raw pieces are adjacent, raw pieces are non-empty and brace free, names are identifiers: the canonical form of
a template. -/
def Canonical (t : CharTables) : List Piece → Prop
  | [] => True
  | [.raw s] => s ≠ [] ∧ '{' ∉ s
  | .raw s :: .var v :: ps => s ≠ [] ∧ '{' ∉ s ∧ Canonical t (.var v :: ps)
  | .raw _ :: .raw _ :: _ => False
  | .var v :: ps => IsIdent t v ∧ Canonical t ps

/-- C30. The parse is unique: any canonical piece list that renders to the source is the one the parser finds. -/
theorem C30_unique_parse (t : CharTables) (ht : t.Faithful) (ps : List Piece) (h : Canonical t ps) :
    Template.new t (render ps) = .ok ⟨render ps, ps⟩ := by
  suffices H : parse t (render ps) = .ok ps by simp [Template.new, H]
  induction ps using Canonical.induct with
  | case1 => simp [render, parse_raw]
  | case2 s =>
    simp only [Canonical] at h
    simp [render, parse_raw h.2, h.1]
  | case3 s v ps ih =>
    simp only [Canonical] at h
    obtain ⟨hne, hno, hid, hc⟩ := h
    have ih' := ih ⟨hid, hc⟩
    simp only [render] at ih' ⊢
    have hv := (brace_not_mem_ident ht hid).1
    have e0 := parse_group (t := t) (a := []) (cs := render ps) (by simp) hv hid
    rw [List.nil_append, ih'] at e0
    rw [parse_group hno hv hid]
    cases hp : parse t (render ps) with
    | error e => rw [hp] at e0; cases e0
    | ok qs =>
      rw [hp] at e0
      simp at e0
      simp [hne, e0]
  | case4 => exact absurd h (by simp [Canonical])
  | case5 v ps ih =>
    simp only [Canonical] at h
    have ih' := ih h.2
    simp only [render]
    have e0 := parse_group (t := t) (a := []) (cs := render ps) (by simp) (brace_not_mem_ident ht h.1).1 h.1
    rw [List.nil_append, ih'] at e0
    simpa using e0

example : Template.new asciiTables "{ws}-edit".toList = .ok ⟨"{ws}-edit".toList, [.var "ws".toList, .raw "-edit".toList]⟩ := by
  have h := C30_unique_parse asciiTables asciiTables_faithful [.var "ws".toList, .raw "-edit".toList]
    (by simp [Canonical, IsIdent, asciiTables]; decide)
  simpa [render] using h

example : WellFormed asciiTables "{ws}-}".toList := by
  have hid : IsIdent asciiTables ['w', 's'] := ⟨⟨'w', ['s'], rfl, rfl⟩, by decide⟩
  exact WellFormed.group ['w', 's'] ['-', '}'] hid (.lit _ _ (by decide) (.lit _ _ (by decide) .nil))

end Shpool.Template
