import Verif.Wire.Codecs

/-! Every message of the protocol reads back as it was written. -/

namespace Shpool.Wire

variable {valid : Bytes → Bool}

theorem nm_text (ha : Ascii valid) (s : String) (h : (∀ b ∈ nm s, b < 128) ∧ (nm s).length < 4294967296) : IsText valid (nm s) :=
  ⟨ha _ h.1, h.2⟩

theorem field_cons_ne {α : Type} (k : Text) (raw : Bytes) (m : Entries) (name : Text) (c : Codec α) (d : Option α) (h : (k == name) = false) :
    field ((k, raw) :: m) name c d = field m name c d := by
  simp [field, h]

theorem field_cons_eq {α : Type} (name : Text) (m : Entries) (c : Codec α) (d : Option α) (a : α)
    (hd : c.dec (c.enc a) = some (a, [])) (h : (m.map fun p => p.1).all (fun k => !(k == name)) = true) :
    field ((name, c.enc a) :: m) name c d = some a := by
  have : m.filter (fun p => p.1 == name) = [] := by
    rw [List.filter_eq_nil_iff]
    intro p hp
    have := List.all_eq_true.1 h p.1 (List.mem_map.2 ⟨p, hp, rfl⟩)
    simpa using this
  simp [field, this, hd]

/-- Splits the claim that entries can be sent into one for each value. -/
macro "entries" ha:term : tactic => `(tactic| (
  refine ⟨by simp, ?_⟩
  repeat' (first
    | exact List.forall_mem_nil _
    | refine List.forall_mem_cons.2 ⟨⟨nm_text $ha _ (by decide), ?_⟩, ?_⟩)))

/-- Reads the fields that were just written. -/
macro "fields" : tactic => `(tactic| (
  simp (discharger := first | assumption | decide | (simp only [List.map_cons, List.map_nil]; decide)) only [field_cons_eq, field_cons_ne]
  try rfl))

theorem u16_lawful : Lawful u16 (Between 0 65535) := intIn_lawful _ _ (by decide) (by decide)
theorem u64_lawful : Lawful u64 (Between 0 18446744073709551615) := intIn_lawful _ _ (by decide) (by decide)
theorem i32_lawful : Lawful i32 (Between (-2147483648) 2147483647) := intIn_lawful _ _ (by decide) (by decide)
theorem i64_lawful : Lawful i64 (Between (-9223372036854775808) 9223372036854775807) := intIn_lawful _ _ (by decide) (by decide)
theorem ou64_lawful : Lawful (opt u64) (IsOpt (Between 0 18446744073709551615)) :=
  opt_lawful u64_lawful (intIn_notNil _ _ (by decide) (by decide))
theorem oi64_lawful : Lawful (opt i64) (IsOpt (Between (-9223372036854775808) 9223372036854775807)) :=
  opt_lawful i64_lawful (intIn_notNil _ _ (by decide) (by decide))
theorem otext_lawful : Lawful (opt (text valid)) (IsOpt (IsText valid)) := opt_lawful text_lawful text_notNil
theorem texts_lawful : Lawful (vec (text valid)) (IsVec (IsText valid)) := vec_lawful text_lawful
theorem pairs_lawful : Lawful (vec (pair (text valid) (text valid))) (IsVec (IsPair (IsText valid) (IsText valid))) :=
  vec_lawful (pair_lawful text_lawful text_lawful)

theorem versionHeader_lawful (ha : Ascii valid) : Lawful (versionHeader valid) (VersionHeader.Ok valid) := by
  refine struct_lawful ?_ ?_
  · intro h ok
    entries ha
    exact text_lawful.one _ ok
  · intro h ok
    have e1 := text_lawful.all ok
    fields

theorem ttySize_lawful (ha : Ascii valid) : Lawful (ttySize valid) TtySize.Ok := by
  refine struct_lawful ?_ ?_
  · rintro t ⟨h1, h2, h3, h4⟩
    entries ha
    · exact u16_lawful.one _ h1
    · exact u16_lawful.one _ h2
    · exact u16_lawful.one _ h3
    · exact u16_lawful.one _ h4
  · rintro t ⟨h1, h2, h3, h4⟩
    have e1 := u16_lawful.all h1
    have e2 := u16_lawful.all h2
    have e3 := u16_lawful.all h3
    have e4 := u16_lawful.all h4
    fields

theorem attachHeader_lawful (ha : Ascii valid) : Lawful (attachHeader valid) (AttachHeader.Ok valid) := by
  refine struct_lawful ?_ ?_
  · rintro t ⟨h1, h2, h3, h4, h5, h6, h7, h8⟩
    entries ha
    · exact text_lawful.one _ h1
    · exact text_lawful.one _ h2
    · exact (ttySize_lawful ha).one _ h3
    · exact pairs_lawful.one _ h4
    · exact ou64_lawful.one _ h5
    · exact otext_lawful.one _ h6
    · exact otext_lawful.one _ h7
    · exact otext_lawful.one _ h8
  · rintro t ⟨h1, h2, h3, h4, h5, h6, h7, h8⟩
    have e1 := text_lawful.all h1
    have e2 := text_lawful.all h2
    have e3 := (ttySize_lawful ha).all h3
    have e4 := pairs_lawful.all h4
    have e5 := ou64_lawful.all h5
    have e6 := otext_lawful.all h6
    have e7 := otext_lawful.all h7
    have e8 := otext_lawful.all h8
    fields

theorem sessionsReq_lawful (ha : Ascii valid) : Lawful (sessionsReq valid) (Sessions.Ok valid) := by
  refine struct_lawful ?_ ?_
  · intro h ok
    entries ha
    exact texts_lawful.one _ ok
  · intro h ok
    have e1 := texts_lawful.all ok
    fields

theorem killReply_lawful (ha : Ascii valid) : Lawful (killReply valid) (KillReply.Ok valid) := by
  refine struct_lawful ?_ ?_
  · intro h ok
    entries ha
    exact texts_lawful.one _ ok
  · intro h ok
    have e1 := texts_lawful.all ok
    fields

theorem detachReply_lawful (ha : Ascii valid) : Lawful (detachReply valid) (DetachReply.Ok valid) := by
  refine struct_lawful ?_ ?_
  · rintro h ⟨h1, h2⟩
    entries ha
    · exact texts_lawful.one _ h1
    · exact texts_lawful.one _ h2
  · rintro h ⟨h1, h2⟩
    have e1 := texts_lawful.all h1
    have e2 := texts_lawful.all h2
    fields

theorem logLevel_lawful (ha : Ascii valid) : Lawful (logLevel valid) (fun _ => True) := by
  refine enum_lawful ?_ ?_
  · intro l _
    refine ⟨?_, by simp⟩
    cases l <;> exact nm_text ha _ (by decide)
  · intro l _
    cases l <;> decide

theorem setLogLevel_lawful (ha : Ascii valid) : Lawful (setLogLevel valid) (fun _ => True) := by
  refine struct_lawful ?_ ?_
  · intro h _
    entries ha
    exact (logLevel_lawful ha).one _ trivial
  · intro h _
    have e1 := (logLevel_lawful ha).all (a := h.level) trivial
    fields

theorem emptyReply_lawful : Lawful (emptyReply valid) (fun _ => True) := by
  refine struct_lawful ?_ ?_
  · intro h _; exact ⟨by simp, List.forall_mem_nil _⟩
  · intro h _; rfl

theorem modifyVar_lawful (ha : Ascii valid) : Lawful (modifyVar valid) (ModifyVar.Ok valid) := by
  refine struct_lawful ?_ ?_
  · rintro h ⟨h1, h2⟩
    entries ha
    · exact text_lawful.one _ h1
    · exact otext_lawful.one _ h2
  · rintro h ⟨h1, h2⟩
    have e1 := text_lawful.all h1
    have e2 := otext_lawful.all h2
    fields

theorem resize_lawful (ha : Ascii valid) : Lawful (resize valid) Resize.Ok := by
  refine struct_lawful ?_ ?_
  · intro h ok
    entries ha
    exact (ttySize_lawful ha).one _ ok
  · intro h ok
    have e1 := (ttySize_lawful ha).all ok
    fields

theorem whole_enc {α : Type} {c : Codec α} {P : α → Prop} (h : Lawful c P) {a : α} (ha : P a) : whole c (some (c.enc a)) = some a := by
  simp [whole, h.all ha]

theorem payload_lawful (ha : Ascii valid) : Lawful (payload valid) Payload.Ok := by
  refine enum_lawful ?_ ?_
  · intro p ok
    cases p with
    | resize r => exact ⟨nm_text ha _ (by decide), by intro d hd; cases hd; exact (resize_lawful ha).one _ ok⟩
    | detach => exact ⟨nm_text ha _ (by decide), by intro d hd; cases hd⟩
  · intro p ok
    cases p with
    | resize r => simp only [whole_enc (resize_lawful ha) ok, if_pos, Option.map_some]
    | detach =>
      dsimp only
      rw [if_neg (by decide), if_pos (by decide)]

theorem sessionMessage_lawful (ha : Ascii valid) : Lawful (sessionMessage valid) (SessionMessage.Ok valid) := by
  refine struct_lawful ?_ ?_
  · rintro h ⟨h1, h2⟩
    entries ha
    · exact text_lawful.one _ h1
    · exact (payload_lawful ha).one _ h2
  · rintro h ⟨h1, h2⟩
    have e1 := text_lawful.all h1
    have e2 := (payload_lawful ha).all h2
    fields

theorem okOnly_lawful (ha : Ascii valid) : Lawful (okOnly valid) (fun _ => True) := by
  refine enum_lawful ?_ ?_
  · intro l _
    exact ⟨nm_text ha _ (by decide), by simp⟩
  · intro l _
    cases l; decide

theorem sessionReply_lawful (ha : Ascii valid) : Lawful (sessionReply valid) (fun _ => True) := by
  refine enum_lawful ?_ ?_
  · intro p ok
    cases p with
    | notFound => exact ⟨nm_text ha _ (by decide), by intro d hd; cases hd⟩
    | notAttached => exact ⟨nm_text ha _ (by decide), by intro d hd; cases hd⟩
    | resizeOk => exact ⟨nm_text ha _ (by decide), by intro d hd; cases hd; exact (okOnly_lawful ha).one _ ok⟩
    | detachOk => exact ⟨nm_text ha _ (by decide), by intro d hd; cases hd; exact (okOnly_lawful ha).one _ ok⟩
  · intro p ok
    have e := whole_enc (okOnly_lawful ha) (a := ()) trivial
    have n (s t : String) (d : Option Bytes) (h : nm s ≠ nm t) : ¬ (nm s = nm t ∧ noData d = true) := fun hh => h hh.1
    cases p with
    | notFound => dsimp only; rw [if_pos (by decide)]
    | notAttached => dsimp only; rw [if_neg (by decide), if_pos (by decide)]
    | resizeOk => dsimp only; rw [if_neg (n _ _ _ (by decide)), if_neg (n _ _ _ (by decide)), if_pos (by decide), e]; rfl
    | detachOk =>
      dsimp only
      rw [if_neg (n _ _ _ (by decide)), if_neg (n _ _ _ (by decide)), if_neg (by decide), if_pos (by decide), e]; rfl

theorem connect_lawful (ha : Ascii valid) : Lawful (connect valid) (Connect.Ok valid) := by
  refine enum_lawful ?_ ?_
  · intro p ok
    cases p with
    | attach h => exact ⟨nm_text ha _ (by decide), by intro d hd; cases hd; exact (attachHeader_lawful ha).one _ ok⟩
    | list => exact ⟨nm_text ha _ (by decide), by intro d hd; cases hd⟩
    | message h => exact ⟨nm_text ha _ (by decide), by intro d hd; cases hd; exact (sessionMessage_lawful ha).one _ ok⟩
    | detach h => exact ⟨nm_text ha _ (by decide), by intro d hd; cases hd; exact (sessionsReq_lawful ha).one _ ok⟩
    | kill h => exact ⟨nm_text ha _ (by decide), by intro d hd; cases hd; exact (sessionsReq_lawful ha).one _ ok⟩
    | setLogLevel h => exact ⟨nm_text ha _ (by decide), by intro d hd; cases hd; exact (setLogLevel_lawful ha).one _ ok⟩
    | getVars => exact ⟨nm_text ha _ (by decide), by intro d hd; cases hd⟩
    | modifyVar h => exact ⟨nm_text ha _ (by decide), by intro d hd; cases hd; exact (modifyVar_lawful ha).one _ ok⟩
  · intro p ok
    have n (s t : String) (d : Option Bytes) (h : nm s ≠ nm t) : ¬ (nm s = nm t ∧ noData d = true) := fun hh => h hh.1
    cases p with
    | attach h => dsimp only; rw [if_pos rfl, whole_enc (attachHeader_lawful ha) ok]; rfl
    | list => dsimp only; rw [if_neg (by decide), if_pos (by decide)]
    | message h =>
      dsimp only
      rw [if_neg (by decide), if_neg (n _ _ _ (by decide)), if_pos rfl, whole_enc (sessionMessage_lawful ha) ok]; rfl
    | detach h =>
      dsimp only
      rw [if_neg (by decide), if_neg (n _ _ _ (by decide)), if_neg (by decide), if_pos rfl, whole_enc (sessionsReq_lawful ha) ok]; rfl
    | kill h =>
      dsimp only
      rw [if_neg (by decide), if_neg (n _ _ _ (by decide)), if_neg (by decide), if_neg (by decide), if_pos rfl,
        whole_enc (sessionsReq_lawful ha) ok]; rfl
    | setLogLevel h =>
      dsimp only
      rw [if_neg (by decide), if_neg (n _ _ _ (by decide)), if_neg (by decide), if_neg (by decide), if_neg (by decide), if_pos rfl,
        whole_enc (setLogLevel_lawful ha) trivial]; rfl
    | getVars =>
      dsimp only
      rw [if_neg (by decide), if_neg (by decide), if_neg (by decide), if_neg (by decide), if_neg (by decide), if_neg (by decide),
        if_pos (by decide)]
    | modifyVar h =>
      dsimp only
      rw [if_neg (by decide), if_neg (n _ _ _ (by decide)), if_neg (by decide), if_neg (by decide), if_neg (by decide),
        if_neg (by decide), if_neg (n _ _ _ (by decide)), if_pos rfl, whole_enc (modifyVar_lawful ha) ok]; rfl

theorem warnings_lawful (ha : Ascii valid) : Lawful (warnings valid) (IsVec (IsText valid)) := by
  refine struct_lawful ?_ ?_
  · intro h ok
    entries ha
    exact texts_lawful.one _ ok
  · intro h ok
    have e1 := texts_lawful.all ok
    fields

theorem attachStatus_lawful (ha : Ascii valid) : Lawful (attachStatus valid) (AttachStatus.Ok valid) := by
  refine enum_lawful ?_ ?_
  · intro p ok
    cases p with
    | attached w => exact ⟨nm_text ha _ (by decide), by intro d hd; cases hd; exact (warnings_lawful ha).one _ ok⟩
    | created w => exact ⟨nm_text ha _ (by decide), by intro d hd; cases hd; exact (warnings_lawful ha).one _ ok⟩
    | busy => exact ⟨nm_text ha _ (by decide), by intro d hd; cases hd⟩
    | forbidden s => exact ⟨nm_text ha _ (by decide), by intro d hd; cases hd; exact text_lawful.one _ ok⟩
    | unexpectedError s => exact ⟨nm_text ha _ (by decide), by intro d hd; cases hd; exact text_lawful.one _ ok⟩
  · intro p ok
    have n (s t : String) (d : Option Bytes) (h : nm s ≠ nm t) : ¬ (nm s = nm t ∧ noData d = true) := fun hh => h hh.1
    cases p with
    | attached w => dsimp only; rw [if_pos rfl, whole_enc (warnings_lawful ha) ok]; rfl
    | created w => dsimp only; rw [if_neg (by decide), if_pos rfl, whole_enc (warnings_lawful ha) ok]; rfl
    | busy => dsimp only; rw [if_neg (by decide), if_neg (by decide), if_pos (by decide)]
    | forbidden s =>
      dsimp only
      rw [if_neg (by decide), if_neg (by decide), if_neg (n _ _ _ (by decide)), if_pos rfl, whole_enc text_lawful ok]; rfl
    | unexpectedError s =>
      dsimp only
      rw [if_neg (by decide), if_neg (by decide), if_neg (n _ _ _ (by decide)), if_neg (by decide), if_pos rfl,
        whole_enc text_lawful ok]; rfl

theorem attachReply_lawful (ha : Ascii valid) : Lawful (attachReply valid) (AttachReply.Ok valid) := by
  refine struct_lawful ?_ ?_
  · intro h ok
    entries ha
    exact (attachStatus_lawful ha).one _ ok
  · intro h ok
    have e1 := (attachStatus_lawful ha).all ok
    fields

theorem attachment_lawful (ha : Ascii valid) : Lawful (attachment valid) (Attachment.Ok valid) := by
  refine struct_lawful ?_ ?_
  · rintro h ⟨h1, h2⟩
    entries ha
    · exact text_lawful.one _ h1
    · exact i32_lawful.one _ h2
  · rintro h ⟨h1, h2⟩
    have e1 := text_lawful.all h1
    have e2 := i32_lawful.all h2
    fields

theorem sessionStatus_lawful (ha : Ascii valid) : Lawful (sessionStatus valid) (fun _ => True) := by
  refine enum_lawful ?_ ?_
  · intro l _
    refine ⟨?_, by simp⟩
    cases l <;> exact nm_text ha _ (by decide)
  · intro l _
    cases l <;> decide

theorem session_lawful (ha : Ascii valid) : Lawful (session valid) (Session.Ok valid) := by
  refine struct_lawful ?_ ?_
  · rintro t ⟨h1, h2, h3, h4, h5⟩
    entries ha
    · exact text_lawful.one _ h1
    · exact i64_lawful.one _ h2
    · exact oi64_lawful.one _ h3
    · exact oi64_lawful.one _ h4
    · exact (sessionStatus_lawful ha).one _ trivial
    · exact (vec_lawful (attachment_lawful ha)).one _ h5
  · rintro t ⟨h1, h2, h3, h4, h5⟩
    have e1 := text_lawful.all h1
    have e2 := i64_lawful.all h2
    have e3 := oi64_lawful.all h3
    have e4 := oi64_lawful.all h4
    have e5 := (sessionStatus_lawful ha).all (a := t.attached) trivial
    have e6 := (vec_lawful (attachment_lawful ha)).all h5
    fields

theorem listReply_lawful (ha : Ascii valid) : Lawful (listReply valid) (ListReply.Ok valid) := by
  refine struct_lawful ?_ ?_
  · intro h ok
    entries ha
    exact (vec_lawful (session_lawful ha)).one _ ok
  · intro h ok
    have e1 := (vec_lawful (session_lawful ha)).all ok
    fields

theorem maybeSwitch_lawful (ha : Ascii valid) : Lawful (maybeSwitch valid) (MaybeSwitch.Ok valid) := by
  refine struct_lawful ?_ ?_
  · rintro h ⟨h1, h2⟩
    entries ha
    · exact otext_lawful.one _ h1
    · exact pairs_lawful.one _ h2
  · rintro h ⟨h1, h2⟩
    have e1 := otext_lawful.all h1
    have e2 := pairs_lawful.all h2
    fields

end Shpool.Wire
