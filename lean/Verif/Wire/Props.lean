import Verif.Wire.Compat
import Verif.Chunk.Props

/-!
# Properties C102, C103 (and C05): the messages on the control socket
-/

namespace Shpool.Wire

/-! ## C102 -/

/-- C102.  Every request a client can send is read by the daemon as what was sent, and nothing of what follows is touched. -/
theorem C102_requests (valid : Bytes → Bool) (ha : Ascii valid) (r : Connect) (hr : r.Ok valid) (rest : Bytes) :
    (connect valid).dec ((connect valid).enc r ++ rest) = some (r, rest) :=
  (connect_lawful ha).rt r hr rest

/-- C102.  Every reply of the daemon is read by the client as what was sent. -/
theorem C102_replies (valid : Bytes → Bool) (ha : Ascii valid) :
    RoundTrip (versionHeader valid) (VersionHeader.Ok valid) ∧ RoundTrip (attachReply valid) (AttachReply.Ok valid) ∧
    RoundTrip (listReply valid) (ListReply.Ok valid) ∧ RoundTrip (sessionReply valid) (fun _ => True) ∧
    RoundTrip (detachReply valid) (DetachReply.Ok valid) ∧ RoundTrip (killReply valid) (KillReply.Ok valid) ∧
    RoundTrip (emptyReply valid) (fun _ => True) ∧ RoundTrip (maybeSwitch valid) (MaybeSwitch.Ok valid) :=
  ⟨(versionHeader_lawful ha).rt, (attachReply_lawful ha).rt, (listReply_lawful ha).rt, (sessionReply_lawful ha).rt,
    (detachReply_lawful ha).rt, (killReply_lawful ha).rt, emptyReply_lawful.rt, (maybeSwitch_lawful ha).rt⟩

/-- C102.  The whole of what the daemon sends to an attaching client: its version, its reply and the frames of the session, one
after another without anything between them, are read as what was sent. -/
theorem C102_attach_stream (valid : Bytes → Bool) (ha : Ascii valid) (v : VersionHeader) (hv : v.Ok valid) (r : AttachReply)
    (hr : r.Ok valid) (cs : List Chunk.Chunk) (cap : Nat) (hc : ∀ c ∈ cs, Chunk.Legal c ∧ c.buf.length ≤ cap) :
    ∃ frames, Chunk.writeAll cs = .ok frames ∧
      ∀ stream, stream = (versionHeader valid).enc v ++ (attachReply valid).enc r ++ frames →
        ∃ s1 s2, (versionHeader valid).dec stream = some (v, s1) ∧ (attachReply valid).dec s1 = some (r, s2) ∧
          ∀ segs : List Bytes, segs.flatten = s2 →
            ∃ segs', Chunk.readN Chunk.segmented cap cs.length segs = .ok (cs, segs') ∧ segs'.flatten = [] := by
  obtain ⟨frames, hw, hread⟩ := Chunk.C02_stream_round_trip cs cap [] hc
  refine ⟨frames, hw, ?_⟩
  rintro stream rfl
  have e := (attachReply_lawful ha).rt r hr frames
  have e0 := (versionHeader_lawful ha).rt v hv ((attachReply valid).enc r ++ frames)
  refine ⟨(attachReply valid).enc r ++ frames, frames, ?_, ?_, ?_⟩
  · rw [List.append_assoc, e0]
  · rw [e]
  · intro segs hs
    exact hread segs (by simpa using hs)

/-- C102.  The variables, sent in a frame, reach an attached client as they are in the daemon, if the frame fits the client's
buffer (see C05 for those that do not). -/
theorem C102_variables (valid : Bytes → Bool) (ha : Ascii valid) (ms : MaybeSwitch) (hm : ms.Ok valid) (cap : Nat) (rest : Bytes)
    (hfit : ((maybeSwitch valid).enc ms).length ≤ cap) (hcap : cap < 4294967296) :
    ∃ frame, Chunk.writeTo ⟨.maybeSwitch, (maybeSwitch valid).enc ms⟩ = .ok frame ∧
      ∃ buf, Chunk.readInto Chunk.flat cap (frame ++ rest) = .ok (⟨.maybeSwitch, buf⟩, rest) ∧
        (maybeSwitch valid).dec buf = some (ms, []) := by
  obtain ⟨bs, hw, hr⟩ := Chunk.C01_frame_round_trip ⟨.maybeSwitch, (maybeSwitch valid).enc ms⟩ cap rest
    (by constructor <;> simp; omega) hfit
  exact ⟨bs, hw, _, hr, (maybeSwitch_lawful ha).all hm⟩

/-- C102.  No two requests look alike, and none is the beginning of another: the daemon cannot take one for another, and it cannot
act before the whole of a request has arrived. -/
theorem C102_prefix_free (valid : Bytes → Bool) (ha : Ascii valid) (r r' : Connect) (hr : r.Ok valid) (hr' : r'.Ok valid)
    (x y : Bytes) (h : (connect valid).enc r ++ x = (connect valid).enc r' ++ y) : r = r' ∧ x = y := by
  have e := C102_requests valid ha r hr x
  rw [h, C102_requests valid ha r' hr' y] at e
  simp only [Option.some.injEq, Prod.mk.injEq] at e
  exact ⟨e.1.symm, e.2.symm⟩

/-- How the beginning of a value is written. -/
def Head.enc : Head → Option Bytes
  | .int i => some (encSint i)
  | .str n => some (strHead n)
  | .arr n => some (arrHead n)
  | .map n => some (mapHead n)
  | _ => none

theorem ofBe_lt (bs : Bytes) : ofBe bs < 256 ^ bs.length := by
  have key : ∀ (bs : Bytes) (acc m : Nat), acc < m → bs.foldl (fun acc b => acc * 256 + b.toNat) acc < m * 256 ^ bs.length := by
    intro bs
    induction bs with
    | nil => intro acc m h; simpa using h
    | cons b bs ih =>
      intro acc m h
      have hb := b.toNat_lt
      have := ih (acc * 256 + b.toNat) (m * 256) (by omega)
      rw [List.foldl_cons, List.length_cons, Nat.pow_succ, Nat.mul_comm (256 ^ bs.length), ← Nat.mul_assoc]
      exact this
  simpa [ofBe] using key bs 0 1 (by omega)

theorem takeBe_some {k : Nat} {bs r : Bytes} {f : Nat → Head} {h : Head} (e : takeBe k bs f = some (h, r)) :
    ∃ n, n < 256 ^ k ∧ h = f n ∧ bs.length = k + r.length := by
  simp only [takeBe, take] at e
  split at e
  · rename_i hk
    simp only [Option.map_some, Option.some.injEq, Prod.mk.injEq] at e
    refine ⟨ofBe (bs.take k), ?_, e.1.symm, ?_⟩
    · have := ofBe_lt (bs.take k)
      rwa [List.length_take, Nat.min_eq_left hk] at this
    · rw [← e.2, List.length_drop]; omega
  · cases e

theorem either {c : Prop} [Decidable c] {α : Type} {a b y : α} (h : (if c then a else b) = y) : c ∧ a = y ∨ ¬ c ∧ b = y := by
  by_cases hc : c
  · exact .inl ⟨hc, by rwa [if_pos hc] at h⟩
  · exact .inr ⟨hc, by rwa [if_neg hc] at h⟩

/-- A head as written takes at most `k` bytes. -/
def Fits (h : Head) (k : Nat) : Prop := ∀ w, h.enc = some w → w.length ≤ k

local macro "fits" : tactic => `(tactic| (
  intros
  first
  | (intro w hw; simp only [Head.enc, reduceCtorEq] at hw; done)
  | (intro w hw
     simp only [Head.enc, Option.some.injEq] at hw
     subst hw
     try simp only [signed]
     repeat' split
     all_goals
       simp only [encSint, encUint, strHead, arrHead, mapHead]
       repeat' split
     all_goals simp only [List.length_cons, List.length_nil, be_length]
     all_goals omega)))

theorem one {h h' : Head} {b : UInt8} {bs r w : Bytes} (hr : some (h', bs) = some (h, r)) (hf : Fits h' 1) (hw : h.enc = some w) :
    w.length + r.length ≤ (b :: bs).length := by
  cases hr
  have := hf w hw
  rw [List.length_cons]; omega

theorem many {h : Head} {f : Nat → Head} {k : Nat} {b : UInt8} {bs r w : Bytes} (hr : takeBe k bs f = some (h, r))
    (hf : ∀ n, n < 256 ^ k → Fits (f n) (k + 1)) (hw : h.enc = some w) : w.length + r.length ≤ (b :: bs).length := by
  obtain ⟨n, hn, e, hl⟩ := takeBe_some hr
  subst e
  have := hf n hn w hw
  rw [List.length_cons]; omega

/-- C102.  What is written is as short as it can be: nothing shorter is read as the same number or the same length of a text, an array or
a map. -/
theorem C102_shortest (bs r w : Bytes) (h : Head) (hr : readHead bs = some (h, r)) (hw : h.enc = some w) :
    w.length + r.length ≤ bs.length := by
  cases bs with
  | nil => cases hr
  | cons b bs =>
    have hb := b.toNat_lt
    simp only [readHead] at hr
    revert hw
    generalize b.toNat = x at hr hb
    refine (either hr).elim (fun hr => ?_) (fun hr => ?_)
    · exact one hr.2 (by have := hr.1; fits)
    have hge : 128 ≤ x := by have := hr.1; omega
    replace hr := hr.2
    refine (either hr).elim (fun hr => ?_) (fun hr => ?_)
    · exact one hr.2 (by have := hr.1; fits)
    replace hge : 144 ≤ x := by have := hr.1; omega
    replace hr := hr.2
    refine (either hr).elim (fun hr => ?_) (fun hr => ?_)
    · exact one hr.2 (by have := hr.1; fits)
    replace hge : 160 ≤ x := by have := hr.1; omega
    replace hr := hr.2
    refine (either hr).elim (fun hr => ?_) (fun hr => ?_)
    · exact one hr.2 (by have := hr.1; fits)
    replace hge : 192 ≤ x := by have := hr.1; omega
    replace hr := hr.2
    refine (either hr).elim (fun hr => ?_) (fun hr => ?_)
    · exact one hr.2 (by have := hr.1; fits)
    replace hge : 193 ≤ x := by have := hr.1; omega
    replace hr := hr.2
    refine (either hr).elim (fun hr => ?_) (fun hr => ?_)
    · cases hr.2
    replace hge : 194 ≤ x := by have := hr.1; omega
    replace hr := hr.2
    refine (either hr).elim (fun hr => ?_) (fun hr => ?_)
    · exact one hr.2 (by have := hr.1; fits)
    replace hge : 195 ≤ x := by have := hr.1; omega
    replace hr := hr.2
    refine (either hr).elim (fun hr => ?_) (fun hr => ?_)
    · exact one hr.2 (by have := hr.1; fits)
    replace hge : 196 ≤ x := by have := hr.1; omega
    replace hr := hr.2
    refine (either hr).elim (fun hr => ?_) (fun hr => ?_)
    · exact many hr.2 (by fits)
    replace hge : 197 ≤ x := by have := hr.1; omega
    replace hr := hr.2
    refine (either hr).elim (fun hr => ?_) (fun hr => ?_)
    · exact many hr.2 (by fits)
    replace hge : 198 ≤ x := by have := hr.1; omega
    replace hr := hr.2
    refine (either hr).elim (fun hr => ?_) (fun hr => ?_)
    · exact many hr.2 (by fits)
    replace hge : 199 ≤ x := by have := hr.1; omega
    replace hr := hr.2
    refine (either hr).elim (fun hr => ?_) (fun hr => ?_)
    · exact many hr.2 (by fits)
    replace hge : 200 ≤ x := by have := hr.1; omega
    replace hr := hr.2
    refine (either hr).elim (fun hr => ?_) (fun hr => ?_)
    · exact many hr.2 (by fits)
    replace hge : 201 ≤ x := by have := hr.1; omega
    replace hr := hr.2
    refine (either hr).elim (fun hr => ?_) (fun hr => ?_)
    · exact many hr.2 (by fits)
    replace hge : 202 ≤ x := by have := hr.1; omega
    replace hr := hr.2
    refine (either hr).elim (fun hr => ?_) (fun hr => ?_)
    · exact one hr.2 (by have := hr.1; fits)
    replace hge : 203 ≤ x := by have := hr.1; omega
    replace hr := hr.2
    refine (either hr).elim (fun hr => ?_) (fun hr => ?_)
    · exact one hr.2 (by have := hr.1; fits)
    replace hge : 204 ≤ x := by have := hr.1; omega
    replace hr := hr.2
    refine (either hr).elim (fun hr => ?_) (fun hr => ?_)
    · exact many hr.2 (by fits)
    replace hge : 205 ≤ x := by have := hr.1; omega
    replace hr := hr.2
    refine (either hr).elim (fun hr => ?_) (fun hr => ?_)
    · exact many hr.2 (by fits)
    replace hge : 206 ≤ x := by have := hr.1; omega
    replace hr := hr.2
    refine (either hr).elim (fun hr => ?_) (fun hr => ?_)
    · exact many hr.2 (by fits)
    replace hge : 207 ≤ x := by have := hr.1; omega
    replace hr := hr.2
    refine (either hr).elim (fun hr => ?_) (fun hr => ?_)
    · exact many hr.2 (by fits)
    replace hge : 208 ≤ x := by have := hr.1; omega
    replace hr := hr.2
    refine (either hr).elim (fun hr => ?_) (fun hr => ?_)
    · exact many hr.2 (by fits)
    replace hge : 209 ≤ x := by have := hr.1; omega
    replace hr := hr.2
    refine (either hr).elim (fun hr => ?_) (fun hr => ?_)
    · exact many hr.2 (by fits)
    replace hge : 210 ≤ x := by have := hr.1; omega
    replace hr := hr.2
    refine (either hr).elim (fun hr => ?_) (fun hr => ?_)
    · exact many hr.2 (by fits)
    replace hge : 211 ≤ x := by have := hr.1; omega
    replace hr := hr.2
    refine (either hr).elim (fun hr => ?_) (fun hr => ?_)
    · exact many hr.2 (by fits)
    replace hge : 212 ≤ x := by have := hr.1; omega
    replace hr := hr.2
    refine (either hr).elim (fun hr => ?_) (fun hr => ?_)
    · exact one hr.2 (by have := hr.1; fits)
    replace hge : 213 ≤ x := by have := hr.1; omega
    replace hr := hr.2
    refine (either hr).elim (fun hr => ?_) (fun hr => ?_)
    · exact one hr.2 (by have := hr.1; fits)
    replace hge : 214 ≤ x := by have := hr.1; omega
    replace hr := hr.2
    refine (either hr).elim (fun hr => ?_) (fun hr => ?_)
    · exact one hr.2 (by have := hr.1; fits)
    replace hge : 215 ≤ x := by have := hr.1; omega
    replace hr := hr.2
    refine (either hr).elim (fun hr => ?_) (fun hr => ?_)
    · exact one hr.2 (by have := hr.1; fits)
    replace hge : 216 ≤ x := by have := hr.1; omega
    replace hr := hr.2
    refine (either hr).elim (fun hr => ?_) (fun hr => ?_)
    · exact one hr.2 (by have := hr.1; fits)
    replace hge : 217 ≤ x := by have := hr.1; omega
    replace hr := hr.2
    refine (either hr).elim (fun hr => ?_) (fun hr => ?_)
    · exact many hr.2 (by fits)
    replace hge : 218 ≤ x := by have := hr.1; omega
    replace hr := hr.2
    refine (either hr).elim (fun hr => ?_) (fun hr => ?_)
    · exact many hr.2 (by fits)
    replace hge : 219 ≤ x := by have := hr.1; omega
    replace hr := hr.2
    refine (either hr).elim (fun hr => ?_) (fun hr => ?_)
    · exact many hr.2 (by fits)
    replace hge : 220 ≤ x := by have := hr.1; omega
    replace hr := hr.2
    refine (either hr).elim (fun hr => ?_) (fun hr => ?_)
    · exact many hr.2 (by fits)
    replace hge : 221 ≤ x := by have := hr.1; omega
    replace hr := hr.2
    refine (either hr).elim (fun hr => ?_) (fun hr => ?_)
    · exact many hr.2 (by fits)
    replace hge : 222 ≤ x := by have := hr.1; omega
    replace hr := hr.2
    refine (either hr).elim (fun hr => ?_) (fun hr => ?_)
    · exact many hr.2 (by fits)
    replace hge : 223 ≤ x := by have := hr.1; omega
    replace hr := hr.2
    refine (either hr).elim (fun hr => ?_) (fun hr => ?_)
    · exact many hr.2 (by fits)
    replace hge : 224 ≤ x := by have := hr.1; omega
    replace hr := hr.2
    exact one hr (by fits)

/-- A text of 200 bytes could be announced with five bytes; two are used. -/
example : readHead (0xdb :: be 4 200) = some (.str 200, []) ∧ (Head.str 200).enc = some [0xd9, 200] := by decide

/-! ### The size of the variables (C05) -/

theorem strHead_le (n : Nat) : (strHead n).length ≤ 5 := by
  unfold strHead; split <;> (try split) <;> (try split) <;> simp [be_length]
theorem arrHead_le (n : Nat) : (arrHead n).length ≤ 5 := by
  unfold arrHead; split <;> (try split) <;> simp [be_length]

/-- The bytes of the names and values of the variables. -/
def total (vars : List (Text × Text)) : Nat := (vars.map fun p => p.1.length + p.2.length).sum

theorem vars_size (valid : Bytes → Bool) (vars : List (Text × Text)) :
    total vars ≤ ((vars.map (pair (text valid) (text valid)).enc).flatten).length ∧
    ((vars.map (pair (text valid) (text valid)).enc).flatten).length ≤ total vars + 11 * vars.length := by
  induction vars with
  | nil => simp [total]
  | cons p vars ih =>
    have h1 := strHead_le p.1.length
    have h2 := strHead_le p.2.length
    simp only [total, List.map_cons, List.sum_cons, List.flatten_cons, List.length_append, List.length_cons] at ih ⊢
    have : ((pair (text valid) (text valid)).enc p).length = 1 + (strHead p.1.length).length + p.1.length
        + (strHead p.2.length).length + p.2.length := by
      simp [pair, text, arrHead]
      omega
    omega

theorem switch_size (valid : Bytes → Bool) (ms : MaybeSwitch) :
    ((maybeSwitch valid).enc ms).length =
      16 + ((opt (text valid)).enc ms.switchTo).length + ((vec (pair (text valid) (text valid))).enc ms.vars).length := by
  simp [maybeSwitch, struct, encMap, text, mapHead, nm, strHead]
  omega

/-- C05, for the variables: as long as there are few enough of them, the frame that sends them to the clients fits the client's
buffer of 16384 bytes.  (Eleven bytes for each variable besides its name and value.) -/
theorem C05_small_tables_partial (valid : Bytes → Bool) (vars : List (Text × Text))
    (h : total vars + 11 * vars.length ≤ 16362) : ((maybeSwitch valid).enc ⟨none, vars⟩).length ≤ 16384 := by
  rw [switch_size]
  have h1 := (vars_size valid vars).2
  have h2 := arrHead_le vars.length
  simp only [vec, opt, List.length_append, List.length_cons, List.length_nil]
  omega

/-- C05 fails for every larger table: once the names and values of the variables are 16384 bytes or more, the frame that sends them
does not fit the buffer of any client. -/
theorem C05_false_large_tables (valid : Bytes → Bool) (ms : MaybeSwitch) (h : 16384 ≤ total ms.vars) :
    16384 < ((maybeSwitch valid).enc ms).length := by
  rw [switch_size]
  have h1 := (vars_size valid ms.vars).1
  have h2 := arrHead_pos ms.vars.length
  simp only [vec, List.length_append]
  omega

/-! ## C103 -/

section
variable (valid : Bytes → Bool)

/-- What the entries of an attach header say.  Entries with other names do not matter, nor does the order. -/
def AttachHeader.From (m : Entries) (h : AttachHeader) : Prop :=
  Gives m "name" (text valid) (some []) h.name ∧ Gives m "name_template" (text valid) (some []) h.nameTemplate ∧
  Gives m "local_tty_size" (ttySize valid) (some ⟨0, 0, 0, 0⟩) h.localTtySize ∧
  Gives m "local_env" (vec (pair (text valid) (text valid))) (some []) h.localEnv ∧
  Gives m "ttl_secs" (opt u64) (some none) h.ttlSecs ∧ Gives m "cmd" (opt (text valid)) (some none) h.cmd ∧
  Gives m "dir" (opt (text valid)) (some none) h.dir ∧ Gives m "start_cmd" (opt (text valid)) (some none) h.startCmd

/-- What the entries of a session say. -/
def Session.From (m : Entries) (s : Session) : Prop :=
  Gives m "name" (text valid) (some []) s.name ∧ Gives m "started_at_unix_ms" i64 (some 0) s.startedAt ∧
  Gives m "last_connected_at_unix_ms" (opt i64) (some none) s.lastConnectedAt ∧
  Gives m "last_disconnected_at_unix_ms" (opt i64) (some none) s.lastDisconnectedAt ∧
  Gives m "status" (sessionStatus valid) (some true) s.attached ∧
  Gives m "attachments" (vec (attachment valid)) (some []) s.attachments

/-- C103.  A daemon reads an attach request of any other version: with the fields in any order, with fields it does not know, of
any content, and without fields it knows, which then have their defaults.  What follows on the connection is not touched. -/
theorem C103_attach_request (ha : Ascii valid) (m : Entries) (hm : IsMap valid m) (h : AttachHeader) (hf : h.From valid m) (rest : Bytes) :
    (connect valid).dec (encVariant valid (nm "Attach") (some (encMap valid m)) ++ rest) = some (.attach h, rest) := by
  obtain ⟨h1, h2, h3, h4, h5, h6, h7, h8⟩ := hf
  have hr : Reads (attachHeader valid) (encMap valid m) h := struct_reads hm (by
    simp [noSize, field_gives h1, field_gives h2, field_gives h3, field_gives h4, field_gives h5, field_gives h6, field_gives h7,
      field_gives h8])
  simp only [connect, enum, decVariant_some _ _ rest (nm_text ha "Attach" (by decide)) hr.1]
  simp [whole_reads hr]

/-- C103.  A client reads the list of sessions of any other version of the daemon, each session in its own way. -/
theorem C103_list_reply (ha : Ascii valid) (ms : List Entries) (ss : List Session) (hl : ms.length = ss.length)
    (hm : ∀ m ∈ ms, IsMap valid m) (hn : ms.length < 4294967296) (hf : ∀ (i : Nat) (m : Entries) (s : Session), ms[i]? = some m → ss[i]? = some s → s.From valid m)
    (extra : Entries) (he : IsMap valid extra) (hx : ∀ e ∈ extra, e.1 ≠ nm "sessions") (hel : extra.length + 1 < 4294967296)
    (rest : Bytes) :
    (listReply valid).dec
      (encMap valid (extra ++ [(nm "sessions", arrHead ms.length ++ (ms.map (encMap valid)).flatten)]) ++ rest)
      = some (⟨ss⟩, rest) := by
  have hall : ReadsAll (session valid) (ms.map (encMap valid)) ss := by
    clear hn
    induction ms generalizing ss with
    | nil =>
      cases ss with
      | nil => exact .nil
      | cons s ss => simp at hl
    | cons m ms ih =>
      cases ss with
      | nil => simp at hl
      | cons s ss =>
        refine .cons ?_ (ih ss (by simpa using hl) (fun m h => hm m (by simp [h])) fun i m' s' h1 h2 => hf (i + 1) m' s' (by simpa using h1) (by simpa using h2))
        obtain ⟨h1, h2, h3, h4, h5, h6⟩ := hf 0 m s rfl rfl
        exact struct_reads (hm m (by simp)) (by
          simp [field_gives h1, field_gives h2, field_gives h3, field_gives h4, field_gives h5, field_gives h6])
  have hv := vec_reads hall (by simpa using hn)
  simp only [List.length_map] at hv
  refine (struct_reads (α := ListReply) (a := ⟨ss⟩) ?_ ?_).2 rest
  · refine ⟨by simpa using hel, ?_⟩
    intro e h
    rcases List.mem_append.1 h with h | h
    · exact he.2 e h
    · simp only [List.mem_singleton] at h
      subst h
      exact ⟨nm_text ha _ (by decide), hv.1⟩
  · rw [field_gives (name := "sessions") (.inr ⟨extra, _, [], rfl, by simpa using hx, hv⟩)]
    rfl

/-- C103.  The simple requests and replies, from any other version. -/
theorem C103_simple (m : Entries) (hm : IsMap valid m) :
    (∀ a, Gives m "sessions" (vec (text valid)) (some []) a → Reads (sessionsReq valid) (encMap valid m) ⟨a⟩) ∧
    (∀ a, Gives m "not_found_sessions" (vec (text valid)) (some []) a → Reads (killReply valid) (encMap valid m) ⟨a⟩) ∧
    (∀ a b, Gives m "not_found_sessions" (vec (text valid)) (some []) a →
      Gives m "not_attached_sessions" (vec (text valid)) (some []) b → Reads (detachReply valid) (encMap valid m) ⟨a, b⟩) ∧
    (∀ a, Gives m "level" (logLevel valid) (some .off) a → Reads (setLogLevel valid) (encMap valid m) ⟨a⟩) ∧
    (∀ a, Gives m "tty_size" (ttySize valid) (some ⟨0, 0, 0, 0⟩) a → Reads (resize valid) (encMap valid m) ⟨a⟩) ∧
    (∀ a b, Gives m "session_name" (text valid) (some []) a → Gives m "payload" (payload valid) (some .detach) b →
      Reads (sessionMessage valid) (encMap valid m) ⟨a, b⟩) ∧
    (∀ a, Gives m "status" (attachStatus valid) (some (.unexpectedError (nm "default"))) a →
      Reads (attachReply valid) (encMap valid m) ⟨a⟩) ∧
    (∀ a b, Gives m "session_name_template" (text valid) (some []) a → Gives m "pid" i32 (some 0) b →
      Reads (attachment valid) (encMap valid m) ⟨a, b⟩) ∧
    Reads (emptyReply valid) (encMap valid m) () := by
  refine ⟨?_, ?_, ?_, ?_, ?_, ?_, ?_, ?_, ?_⟩
  · intro a h; exact struct_reads hm (by simp [field_gives h])
  · intro a h; exact struct_reads hm (by simp [field_gives h])
  · intro a b h h'; exact struct_reads hm (by simp [field_gives h, field_gives h'])
  · intro a h; exact struct_reads hm (by simp [field_gives h])
  · intro a h; exact struct_reads hm (by simp [noSize, field_gives h])
  · intro a b h h'; exact struct_reads hm (by simp [field_gives h, field_gives h'])
  · intro a h; exact struct_reads hm (by simp [field_gives h])
  · intro a b h h'; exact struct_reads hm (by simp [field_gives h, field_gives h'])
  · exact struct_reads hm rfl

/-- C103.  The other messages are read with unknown fields, in any order, but without one of their fields they are not. -/
theorem C103_required_partial (m : Entries) (hm : IsMap valid m) :
    (∀ a, Gives m "version" (text valid) none a → Reads (versionHeader valid) (encMap valid m) ⟨a⟩) ∧
    (∀ a b c d, Gives m "rows" u16 none a → Gives m "cols" u16 none b → Gives m "xpixel" u16 none c → Gives m "ypixel" u16 none d →
      Reads (ttySize valid) (encMap valid m) ⟨a, b, c, d⟩) ∧
    (∀ a b, Gives m "var" (text valid) none a → Gives m "val" (opt (text valid)) (some none) b →
      Reads (modifyVar valid) (encMap valid m) ⟨a, b⟩) ∧
    (∀ a b, Gives m "switch_to" (opt (text valid)) (some none) a → Gives m "vars" (vec (pair (text valid) (text valid))) none b →
      Reads (maybeSwitch valid) (encMap valid m) ⟨a, b⟩) := by
  refine ⟨?_, ?_, ?_, ?_⟩
  · intro a h; exact struct_reads hm (by simp [field_gives h])
  · intro a b c d h1 h2 h3 h4; exact struct_reads hm (by simp [field_gives h1, field_gives h2, field_gives h3, field_gives h4])
  · intro a b h h'; exact struct_reads hm (by simp [field_gives h, field_gives h'])
  · intro a b h h'; exact struct_reads hm (by simp [field_gives h, field_gives h'])

theorem enum_reads {α : Type} {to : α → Text × Option Bytes} {of : Text → Option Bytes → Option α} (name : Text) (d : Option Bytes) (a : α)
    (hn : IsText valid name) (hd : ∀ b, d = some b → Values 1 b) (h : of name d = some a) :
    Reads (enum valid to of) (encVariant valid name d) a := by
  refine ⟨variant_one name d hn hd, fun rest => ?_⟩
  cases d with
  | none => simp [enum, decVariant_none name rest hn, h]
  | some d => simp [enum, decVariant_some name d rest hn (hd d rfl), h]

/-- C103.  What the other requests are on the wire: a name (and its data, read as above).  The names are part of the protocol. -/
theorem C103_requests (ha : Ascii valid) :
    Reads (connect valid) (encVariant valid (nm "List") none) .list ∧
    Reads (connect valid) (encVariant valid (nm "GetVars") none) .getVars ∧
    (∀ raw r, Reads (sessionMessage valid) raw r → Reads (connect valid) (encVariant valid (nm "SessionMessage") (some raw)) (.message r)) ∧
    (∀ raw r, Reads (sessionsReq valid) raw r → Reads (connect valid) (encVariant valid (nm "Detach") (some raw)) (.detach r)) ∧
    (∀ raw r, Reads (sessionsReq valid) raw r → Reads (connect valid) (encVariant valid (nm "Kill") (some raw)) (.kill r)) ∧
    (∀ raw r, Reads (setLogLevel valid) raw r → Reads (connect valid) (encVariant valid (nm "SetLogLevel") (some raw)) (.setLogLevel r)) ∧
    (∀ raw r, Reads (modifyVar valid) raw r → Reads (connect valid) (encVariant valid (nm "ModifyVar") (some raw)) (.modifyVar r)) ∧
    (∀ raw r, Reads (resize valid) raw r → Reads (payload valid) (encVariant valid (nm "Resize") (some raw)) (.resize r)) ∧
    Reads (payload valid) (encVariant valid (nm "Detach") none) .detach := by
  have n (s t : String) (d : Option Bytes) (h : nm s ≠ nm t) : ¬ (nm s = nm t ∧ noData d = true) := fun hh => h hh.1
  refine ⟨?_, ?_, ?_, ?_, ?_, ?_, ?_, ?_, ?_⟩
  · refine enum_reads valid _ _ _ (nm_text ha _ (by decide)) nofun ?_
    rw [if_neg (by decide), if_pos (by decide)]
  · refine enum_reads valid _ _ _ (nm_text ha _ (by decide)) nofun ?_
    rw [if_neg (by decide), if_neg (by decide), if_neg (by decide), if_neg (by decide), if_neg (by decide), if_neg (by decide),
      if_pos (by decide)]
  · intro raw r h
    refine enum_reads valid _ _ _ (nm_text ha _ (by decide)) (by intro b hb; cases hb; exact h.1) ?_
    rw [if_neg (by decide), if_neg (n _ _ _ (by decide)), if_pos rfl, whole_reads h]; rfl
  · intro raw r h
    refine enum_reads valid _ _ _ (nm_text ha _ (by decide)) (by intro b hb; cases hb; exact h.1) ?_
    rw [if_neg (by decide), if_neg (n _ _ _ (by decide)), if_neg (by decide), if_pos rfl, whole_reads h]; rfl
  · intro raw r h
    refine enum_reads valid _ _ _ (nm_text ha _ (by decide)) (by intro b hb; cases hb; exact h.1) ?_
    rw [if_neg (by decide), if_neg (n _ _ _ (by decide)), if_neg (by decide), if_neg (by decide), if_pos rfl, whole_reads h]; rfl
  · intro raw r h
    refine enum_reads valid _ _ _ (nm_text ha _ (by decide)) (by intro b hb; cases hb; exact h.1) ?_
    rw [if_neg (by decide), if_neg (n _ _ _ (by decide)), if_neg (by decide), if_neg (by decide), if_neg (by decide), if_pos rfl,
      whole_reads h]; rfl
  · intro raw r h
    refine enum_reads valid _ _ _ (nm_text ha _ (by decide)) (by intro b hb; cases hb; exact h.1) ?_
    rw [if_neg (by decide), if_neg (n _ _ _ (by decide)), if_neg (by decide), if_neg (by decide), if_neg (by decide),
        if_neg (by decide), if_neg (n _ _ _ (by decide)), if_pos rfl, whole_reads h]; rfl
  · intro raw r h
    refine enum_reads valid _ _ _ (nm_text ha _ (by decide)) (by intro b hb; cases hb; exact h.1) ?_
    rw [if_pos rfl, whole_reads h]; rfl
  · refine enum_reads valid _ _ _ (nm_text ha _ (by decide)) nofun ?_
    rw [if_neg (by decide), if_pos (by decide)]

/-- C103.  What the answers to an attach, and the states in a list, are on the wire. -/
theorem C103_answers (ha : Ascii valid) :
    (∀ m w, IsMap valid m → Gives m "warnings" (vec (text valid)) none w →
      Reads (attachStatus valid) (encVariant valid (nm "Attached") (some (encMap valid m))) (.attached w)) ∧
    (∀ m w, IsMap valid m → Gives m "warnings" (vec (text valid)) none w →
      Reads (attachStatus valid) (encVariant valid (nm "Created") (some (encMap valid m))) (.created w)) ∧
    Reads (attachStatus valid) (encVariant valid (nm "Busy") none) .busy ∧
    (∀ raw s, Reads (text valid) raw s → Reads (attachStatus valid) (encVariant valid (nm "Forbidden") (some raw)) (.forbidden s)) ∧
    (∀ raw s, Reads (text valid) raw s →
      Reads (attachStatus valid) (encVariant valid (nm "UnexpectedError") (some raw)) (.unexpectedError s)) ∧
    Reads (sessionStatus valid) (encVariant valid (nm "Attached") none) true ∧
    Reads (sessionStatus valid) (encVariant valid (nm "Disconnected") none) false ∧
    Reads (sessionReply valid) (encVariant valid (nm "NotFound") none) .notFound ∧
    Reads (sessionReply valid) (encVariant valid (nm "NotAttached") none) .notAttached ∧
    Reads (sessionReply valid) (encVariant valid (nm "Resize") (some (encVariant valid (nm "Ok") none))) .resizeOk ∧
    Reads (sessionReply valid) (encVariant valid (nm "Detach") (some (encVariant valid (nm "Ok") none))) .detachOk := by
  have n (s t : String) (d : Option Bytes) (h : nm s ≠ nm t) : ¬ (nm s = nm t ∧ noData d = true) := fun hh => h hh.1
  have ok : Reads (okOnly valid) (encVariant valid (nm "Ok") none) () := (okOnly_lawful ha).reads trivial
  refine ⟨?_, ?_, ?_, ?_, ?_, ?_, ?_, ?_, ?_, ?_, ?_⟩
  · intro m w hm h
    have hr : Reads (warnings valid) (encMap valid m) w := struct_reads hm (by simp [field_gives h])
    refine enum_reads valid _ _ _ (nm_text ha _ (by decide)) (by intro b hb; cases hb; exact hr.1) ?_
    rw [if_pos rfl, whole_reads hr]; rfl
  · intro m w hm h
    have hr : Reads (warnings valid) (encMap valid m) w := struct_reads hm (by simp [field_gives h])
    refine enum_reads valid _ _ _ (nm_text ha _ (by decide)) (by intro b hb; cases hb; exact hr.1) ?_
    rw [if_neg (by decide), if_pos rfl, whole_reads hr]; rfl
  · refine enum_reads valid _ _ _ (nm_text ha _ (by decide)) nofun ?_
    rw [if_neg (by decide), if_neg (by decide), if_pos (by decide)]
  · intro raw s h
    refine enum_reads valid _ _ _ (nm_text ha _ (by decide)) (by intro b hb; cases hb; exact h.1) ?_
    rw [if_neg (by decide), if_neg (by decide), if_neg (n _ _ _ (by decide)), if_pos rfl, whole_reads h]; rfl
  · intro raw s h
    refine enum_reads valid _ _ _ (nm_text ha _ (by decide)) (by intro b hb; cases hb; exact h.1) ?_
    rw [if_neg (by decide), if_neg (by decide), if_neg (n _ _ _ (by decide)), if_neg (by decide), if_pos rfl, whole_reads h]; rfl
  · exact enum_reads valid _ _ _ (nm_text ha _ (by decide)) nofun (by decide)
  · exact enum_reads valid _ _ _ (nm_text ha _ (by decide)) nofun (by decide)
  · refine enum_reads valid _ _ _ (nm_text ha _ (by decide)) nofun ?_
    rw [if_pos (by decide)]
  · refine enum_reads valid _ _ _ (nm_text ha _ (by decide)) nofun ?_
    rw [if_neg (by decide), if_pos (by decide)]
  · refine enum_reads valid _ _ _ (nm_text ha _ (by decide)) (by intro b hb; cases hb; exact ok.1) ?_
    rw [if_neg (n _ _ _ (by decide)), if_neg (n _ _ _ (by decide)), if_pos rfl, whole_reads ok]; rfl
  · refine enum_reads valid _ _ _ (nm_text ha _ (by decide)) (by intro b hb; cases hb; exact ok.1) ?_
    rw [if_neg (n _ _ _ (by decide)), if_neg (n _ _ _ (by decide)), if_neg (by decide), if_pos rfl, whole_reads ok]; rfl

/-- C103 is false for variants on the way back: one session in a state this client does not know, and the client cannot read the
list of sessions at all. -/
theorem C103_false_new_state (ha : Ascii valid) (name : Text) (hn : IsText valid name) (h1 : name ≠ nm "Attached") (h2 : name ≠ nm "Disconnected")
    (before after : List Session) (hb : before.length + after.length + 1 < 4294967296) (hbo : ∀ s ∈ before, s.Ok valid)
    (hao : ∀ s ∈ after, s.Ok valid) (rest : Bytes) :
    (listReply valid).dec (encMap valid [(nm "sessions", arrHead (before.length + 1 + after.length) ++
      ((before.map (session valid).enc).flatten ++ (encMap valid [(nm "status", encVariant valid name none)] ++
        (after.map (session valid).enc).flatten)))] ++ rest) = none := by
  have hm : IsMap valid [(nm "status", encVariant valid name none)] :=
    ⟨by simp, by intro e he; simp at he; subst he; exact ⟨nm_text ha _ (by decide), variant_one name none hn nofun⟩⟩
  have hbad (x : Bytes) : (session valid).dec (encMap valid [(nm "status", encVariant valid name none)] ++ x) = none := by
    have hst : field [(nm "status", encVariant valid name none)] (nm "status") (sessionStatus valid) (some true) = none := by
      have := decVariant_none name [] hn
      simp only [List.append_nil] at this
      simp [field, sessionStatus, enum, this, h1, h2]
    simp only [session, struct, decMap_enc _ hm x, hst]
    simp (discharger := decide) only [field_cons_ne]
    rfl
  have hmany (k : Nat) (x : Bytes) : ∀ l : List Session, (∀ s ∈ l, s.Ok valid) → decMany (session valid) (l.length + (k + 1))
      ((l.map (session valid).enc).flatten ++ (encMap valid [(nm "status", encVariant valid name none)] ++ x)) = none := by
    intro l hl
    induction l with
    | nil => simp [decMany, hbad]
    | cons s l ih =>
      rw [List.length_cons, show l.length + 1 + (k + 1) = (l.length + (k + 1)) + 1 by omega]
      have e := (session_lawful ha).rt s (hl s (by simp))
      have ih := ih fun s h => hl s (by simp [h])
      generalize l.length + (k + 1) = j at ih ⊢
      simp only [decMany, List.map_cons, List.flatten_cons, List.append_assoc, e, ih, Option.map_none]
  have hall : Values 1 (arrHead (before.length + 1 + after.length) ++
      ((before.map (session valid).enc).flatten ++ (encMap valid [(nm "status", encVariant valid name none)] ++
        (after.map (session valid).enc).flatten))) := by
    refine .arr _ _ _ (by omega) ?_
    have hv (l : List Session) (hl : ∀ s ∈ l, s.Ok valid) : Values l.length (l.map (session valid).enc).flatten := by
      have := Values.flatten (l.map (session valid).enc) (by
        intro b hb
        obtain ⟨a, ha', rfl⟩ := List.mem_map.1 hb
        exact (session_lawful ha).one a (hl a ha'))
      simpa using this
    have := (hv before hbo).append ((encMap_one _ hm).append (hv after hao))
    rw [show before.length + 1 + after.length + 0 = before.length + (1 + after.length) by omega]
    exact this
  have hd := decMap_enc (valid := valid) [(nm "sessions", arrHead (before.length + 1 + after.length) ++
      ((before.map (session valid).enc).flatten ++ (encMap valid [(nm "status", encVariant valid name none)] ++
        (after.map (session valid).enc).flatten)))]
    ⟨by simp, by intro e he; simp at he; subst he; exact ⟨nm_text ha _ (by decide), by simpa using hall⟩⟩ rest
  have hf : (vec (session valid)).dec (arrHead (before.length + 1 + after.length) ++
      ((before.map (session valid).enc).flatten ++ (encMap valid [(nm "status", encVariant valid name none)] ++
        (after.map (session valid).enc).flatten))) = none := by
    simp only [vec, head_arr _ _ (show before.length + 1 + after.length < 4294967296 by omega)]
    rw [show before.length + 1 + after.length = before.length + (after.length + 1) by omega]
    exact hmany _ _ before hbo
  simp only [listReply, struct, hd]
  simp [field, hf]

/-- C103 in full, for window sizes: one with some of its fields missing is still read (with defaults for them). -/
def C103_statement : Prop :=
  ∀ (valid : Bytes → Bool), Ascii valid → ∀ (m : Entries), IsMap valid m →
    (∀ e ∈ m, ∃ name ∈ ["rows", "cols", "xpixel", "ypixel"], e.1 = nm name ∧ ∃ i, Reads u16 e.2 i) → (m.map (·.1)).Nodup →
    ∃ t, Reads (ttySize valid) (encMap valid m) t

/-- C103 is false: a window size without the sizes in pixels is refused, and with it the whole request it is part of. -/
theorem C103_false : ¬ C103_statement := by
  intro h
  have hm : IsMap (fun _ => true) [(nm "rows", [24]), (nm "cols", [80])] := by
    refine ⟨by decide, ?_⟩
    intro e he
    simp only [List.mem_cons, List.not_mem_nil, or_false] at he
    rcases he with rfl | rfl
    · exact ⟨⟨rfl, by decide⟩, .int 24 0 [] (by decide) (by decide) .none⟩
    · exact ⟨⟨rfl, by decide⟩, .int 80 0 [] (by decide) (by decide) .none⟩
  obtain ⟨t, ht⟩ := h (fun _ => true) (fun _ _ => rfl) _ hm (by
    intro e he
    simp only [List.mem_cons, List.not_mem_nil, or_false] at he
    rcases he with rfl | rfl
    · exact ⟨"rows", by simp, rfl, 24, .int 24 0 [] (by decide) (by decide) .none,
        fun rest => u16_lawful.rt 24 ⟨by decide, by decide⟩ rest⟩
    · exact ⟨"cols", by simp, rfl, 80, .int 80 0 [] (by decide) (by decide) .none,
        fun rest => u16_lawful.rt 80 ⟨by decide, by decide⟩ rest⟩) (by decide)
  have := ht.2 []
  revert this
  have : (ttySize (fun _ => true)).dec (encMap (fun _ => true) [(nm "rows", [24]), (nm "cols", [80])] ++ []) = none := by decide
  rw [this]
  exact nofun

/-- A field that is there twice, whatever its values, makes a message unreadable. -/
theorem field_twice {α : Type} (a b c : Entries) (k : Text) (v w : Bytes) (cd : Codec α) (dflt : Option α) :
    field (a ++ (k, v) :: b ++ (k, w) :: c) k cd dflt = none := by
  have : ∃ p q r, (a ++ (k, v) :: b ++ (k, w) :: c).filter (fun p => p.1 == k) = p :: q :: r := by
    simp only [List.filter_append, List.filter_cons, BEq.rfl, if_true]
    cases a.filter (fun p => p.1 == k) with
    | nil =>
      cases b.filter (fun p => p.1 == k) with
      | nil => exact ⟨_, _, _, rfl⟩
      | cons y ys => exact ⟨_, _, _, rfl⟩
    | cons x xs =>
      cases xs with
      | nil => exact ⟨_, _, _, rfl⟩
      | cons y ys => exact ⟨_, _, _, rfl⟩
  obtain ⟨p, q, r, e⟩ := this
  unfold field
  rw [e]

/-- C103.  The daemon does not guess: an attach request that has one of the fields it knows twice, with whatever values, is not read. -/
theorem C103_twice (ha : Ascii valid) (a b c : Entries) (v w : Bytes) (name : String)
    (hk : name ∈ ["name", "name_template", "local_tty_size", "local_env", "ttl_secs", "cmd", "dir", "start_cmd"])
    (hm : IsMap valid (a ++ (nm name, v) :: b ++ (nm name, w) :: c)) (rest : Bytes) :
    (connect valid).dec (encVariant valid (nm "Attach") (some (encMap valid (a ++ (nm name, v) :: b ++ (nm name, w) :: c))) ++ rest) =
      none := by
  have hv := decVariant_some (nm "Attach") _ rest (nm_text ha "Attach" (by decide)) (encMap_one _ hm)
  have hd := decMap_enc _ hm []
  rw [List.append_nil] at hd
  have ht : (attachHeader valid).dec (encMap valid (a ++ (nm name, v) :: b ++ (nm name, w) :: c)) = none := by
    simp only [attachHeader, struct, hd]
    simp only [List.mem_cons, List.not_mem_nil, or_false] at hk
    generalize hM : a ++ (nm name, v) :: b ++ (nm name, w) :: c = M
    have two {α : Type} (cd : Codec α) (dflt : Option α) : field M (nm name) cd dflt = none := by
      rw [← hM]; exact field_twice a b c _ v w cd dflt
    clear hM hd hv hm
    rcases hk with rfl | rfl | rfl | rfl | rfl | rfl | rfl | rfl <;> simp only [two] <;> simp [Option.bind_none]
  simp only [connect, enum, hv, whole, ht]
  simp

/-- C103.  Text that is not UTF-8 is refused, and with it the request: no request can name a session in a way that cannot be shown. -/
theorem C103_not_text (ha : Ascii valid) (bad : Bytes) (hn : valid bad = false) (hl : bad.length < 4294967296)
    (m : Entries) (hm : IsMap valid ((nm "name", (text valid).enc bad) :: m)) (rest : Bytes) :
    (connect valid).dec (encVariant valid (nm "Attach") (some (encMap valid ((nm "name", (text valid).enc bad) :: m))) ++ rest) =
      none := by
  have hv := decVariant_some (nm "Attach") _ rest (nm_text ha "Attach" (by decide)) (encMap_one _ hm)
  have hd := decMap_enc _ hm []
  rw [List.append_nil] at hd
  have hx : (text valid).dec ((text valid).enc bad) = none := by
    have := head_str bad.length bad hl
    simp [text, this, take, hn]
  have hf : field ((nm "name", (text valid).enc bad) :: m) (nm "name") (text valid) (some []) = none := by
    simp only [field, List.filter_cons, BEq.rfl, if_true]
    cases m.filter (fun p => p.1 == nm "name") with
    | nil => simp [hx]
    | cons => rfl
  have ht : (attachHeader valid).dec (encMap valid ((nm "name", (text valid).enc bad) :: m)) = none := by
    simp only [attachHeader, struct, hd, hf]
    rfl
  simp only [connect, enum, hv]
  simp [whole, ht]

/-- C103 is false for variants: a request of a kind this daemon does not know, whatever its data, is not read at all, so that
the daemon can only drop the connection. -/
theorem C103_false_new_request (name : Text) (d : Option Bytes) (hn : IsText valid name) (hd : ∀ b, d = some b → Values 1 b)
    (hnew : ∀ k ∈ ["Attach", "List", "SessionMessage", "Detach", "Kill", "SetLogLevel", "GetVars", "ModifyVar"], name ≠ nm k)
    (rest : Bytes) : (connect valid).dec (encVariant valid name d ++ rest) = none := by
  have hv : decVariant valid (encVariant valid name d ++ rest) = some ((name, d), rest) := by
    cases d with
    | none => exact decVariant_none name rest hn
    | some d => exact decVariant_some name d rest hn (hd d rfl)
  have n k (h : k ∈ ["Attach", "List", "SessionMessage", "Detach", "Kill", "SetLogLevel", "GetVars", "ModifyVar"]) := hnew k h
  simp [connect, enum, hv, n "Attach" (by simp), n "List" (by simp), n "SessionMessage" (by simp), n "Detach" (by simp),
    n "Kill" (by simp), n "SetLogLevel" (by simp), n "GetVars" (by simp), n "ModifyVar" (by simp)]

end

/-! ### The hypotheses can be met -/

/-- For the examples: every sequence of bytes is a string. -/
def anyText : Bytes → Bool := fun _ => true

theorem anyText_ascii : Ascii anyText := fun _ _ => rfl

/-- An attach request with an environment, a time to live, and without a command. -/
def sample : AttachHeader :=
  ⟨nm "main", nm "{p}-edit", ⟨24, 80, 0, 0⟩, [(nm "TERM", nm "xterm"), (nm "LANG", nm "C")], some 3600, none, some (nm "/tmp"), none⟩

/-- The name twice, with unknown fields around; a name that is not text, if only ASCII is. -/
example : IsMap anyText ([(nm "x", [0xc0])] ++ (nm "name", (text anyText).enc (nm "a")) :: [] ++
    (nm "name", (text anyText).enc (nm "b")) :: [(nm "y", [0xc3])]) := by
  refine ⟨by decide, ?_⟩
  intro e he
  simp only [List.cons_append, List.nil_append, List.mem_cons, List.not_mem_nil, or_false] at he
  rcases he with rfl | rfl | rfl | rfl
  · exact ⟨⟨rfl, by decide⟩, .nil 0 [] .none⟩
  · exact ⟨⟨rfl, by decide⟩, (text_lawful (valid := anyText)).one _ ⟨rfl, by decide⟩⟩
  · exact ⟨⟨rfl, by decide⟩, (text_lawful (valid := anyText)).one _ ⟨rfl, by decide⟩⟩
  · exact ⟨⟨rfl, by decide⟩, .bool true 0 [] .none⟩
example : Ascii (fun s => s.all (· < 128)) ∧ (fun s : Bytes => s.all (· < 128)) [97, 255] = false :=
  ⟨fun s h => by simpa using h, by decide⟩

theorem sample_ok : (Connect.attach sample).Ok anyText := by
  refine ⟨⟨rfl, by decide⟩, ⟨rfl, by decide⟩, ⟨?_, ?_, ?_, ?_⟩, ⟨by decide, ?_⟩, ?_, ?_, ?_, ?_⟩
  · exact ⟨by decide, by decide⟩
  · exact ⟨by decide, by decide⟩
  · exact ⟨by decide, by decide⟩
  · exact ⟨by decide, by decide⟩
  · intro p hp
    have hp : p = (nm "TERM", nm "xterm") ∨ p = (nm "LANG", nm "C") := by simpa [sample] using hp
    rcases hp with rfl | rfl
    · exact ⟨⟨rfl, by decide⟩, ⟨rfl, by decide⟩⟩
    · exact ⟨⟨rfl, by decide⟩, ⟨rfl, by decide⟩⟩
  · intro i hi
    have : i = 3600 := by simpa [sample] using hi.symm
    subst this
    exact ⟨by decide, by decide⟩
  · intro s hs; simp [sample] at hs
  · intro s hs
    have : s = nm "/tmp" := by simpa [sample] using hs.symm
    subst this
    exact ⟨rfl, by decide⟩
  · intro s hs; simp [sample] at hs

/-- C102: the request above survives; the bytes of the simplest requests are those of the MessagePack specification. -/
example : (connect anyText).dec ((connect anyText).enc (.attach sample) ++ [1, 2, 3]) = some (.attach sample, [1, 2, 3]) := by
  rw [C102_requests anyText anyText_ascii (.attach sample) sample_ok]
example : (connect anyText).enc .list = [0xa4, 76, 105, 115, 116] := by decide
example : (connect anyText).enc (.kill ⟨[nm "a"]⟩) =
    [0x81, 0xa4, 75, 105, 108, 108, 0x81, 0xa8, 115, 101, 115, 115, 105, 111, 110, 115, 0x91, 0xa1, 97] := by decide

/-- `C102_attach_stream`. -/
example : VersionHeader.Ok anyText ⟨nm "0.9.3"⟩ ∧ AttachReply.Ok anyText ⟨.created []⟩ ∧
    ∀ c ∈ [(⟨.data, [104, 105]⟩ : Chunk.Chunk)], Chunk.Legal c ∧ c.buf.length ≤ 16384 :=
  ⟨⟨rfl, by decide⟩, ⟨by decide, by simp⟩, by intro c hc; simp at hc; subst hc; decide⟩

/-- `C102_variables` and `C05_small_tables_partial`. -/
example : MaybeSwitch.Ok anyText ⟨none, [(nm "k", nm "v")]⟩ ∧ total [(nm "k", nm "v")] + 11 * 1 ≤ 16362 :=
  ⟨⟨nofun, by decide, by intro p hp; simp at hp; subst hp; exact ⟨⟨rfl, by decide⟩, ⟨rfl, by decide⟩⟩⟩, by decide⟩

/-- `C05_false_large_tables`. -/
example : 16384 ≤ total [(nm "k", List.replicate 16384 97)] := by
  simp only [total, List.map_cons, List.map_nil, List.sum_cons, List.length_replicate]
  exact Nat.le_trans (Nat.le_add_left ..) (Nat.le_add_right ..)

/-- `C103_attach_request`: an attach request of another version, with a field unknown here (whose value is a map), and with the
name alone of those known. -/
example : IsMap anyText [(nm "new_field", [0x81, 0xa1, 97, 0xc3]), (nm "name", (text anyText).enc (nm "main"))] ∧
    AttachHeader.From anyText [(nm "new_field", [0x81, 0xa1, 97, 0xc3]), (nm "name", (text anyText).enc (nm "main"))]
      ⟨nm "main", [], ⟨0, 0, 0, 0⟩, [], none, none, none, none⟩ := by
  have ht : Reads (text anyText) ((text anyText).enc (nm "main")) (nm "main") := text_lawful.reads ⟨rfl, by decide⟩
  constructor
  · refine ⟨by decide, ?_⟩
    intro e he
    simp only [List.mem_cons, List.not_mem_nil, or_false] at he
    rcases he with rfl | rfl
    · exact ⟨⟨rfl, by decide⟩, .map 1 0 _ (by decide) (.str [97] 1 _ (by decide) (.bool true 0 [] .none))⟩
    · exact ⟨⟨rfl, by decide⟩, ht.1⟩
  · have absent (name : String) (h : nm name ≠ nm "new_field" ∧ nm name ≠ nm "name") :
        ∀ e ∈ [(nm "new_field", ([0x81, 0xa1, 97, 0xc3] : Bytes)), (nm "name", (text anyText).enc (nm "main"))], e.1 ≠ nm name := by
      intro e he
      simp only [List.mem_cons, List.not_mem_nil, or_false] at he
      rcases he with rfl | rfl
      · exact h.1.symm
      · exact h.2.symm
    refine ⟨.inr ⟨[(nm "new_field", [0x81, 0xa1, 97, 0xc3])], _, [], rfl, ?_, ht⟩, .inl ⟨absent _ (by decide), rfl⟩,
      .inl ⟨absent _ (by decide), rfl⟩, .inl ⟨absent _ (by decide), rfl⟩, .inl ⟨absent _ (by decide), rfl⟩,
      .inl ⟨absent _ (by decide), rfl⟩, .inl ⟨absent _ (by decide), rfl⟩, .inl ⟨absent _ (by decide), rfl⟩⟩
    intro e he
    simp only [List.append_nil, List.mem_cons, List.not_mem_nil, or_false] at he
    subst he
    decide

/-- `C103_list_reply`: a session about which only the name is known. -/
example : Session.From anyText [(nm "name", (text anyText).enc (nm "main"))] ⟨nm "main", 0, none, none, true, []⟩ := by
  have ht : Reads (text anyText) ((text anyText).enc (nm "main")) (nm "main") := text_lawful.reads ⟨rfl, by decide⟩
  have absent (name : String) (h : nm name ≠ nm "name") : ∀ e ∈ [(nm "name", (text anyText).enc (nm "main"))], e.1 ≠ nm name := by
    intro e he
    simp only [List.mem_cons, List.not_mem_nil, or_false] at he
    subst he
    exact h.symm
  exact ⟨.inr ⟨[], _, [], rfl, by simp, ht⟩, .inl ⟨absent _ (by decide), rfl⟩,
      .inl ⟨absent _ (by decide), rfl⟩, .inl ⟨absent _ (by decide), rfl⟩, .inl ⟨absent _ (by decide), rfl⟩,
      .inl ⟨absent _ (by decide), rfl⟩⟩

/-- `C103_false_new_request`, `C103_false_new_state`: a request and a state that do not exist yet. -/
example : IsText anyText (nm "Rename") ∧
    (∀ k ∈ ["Attach", "List", "SessionMessage", "Detach", "Kill", "SetLogLevel", "GetVars", "ModifyVar"], nm "Rename" ≠ nm k) ∧
    nm "Locked" ≠ nm "Attached" ∧ nm "Locked" ≠ nm "Disconnected" := by
  refine ⟨⟨rfl, by decide⟩, by decide, by decide, by decide⟩

end Shpool.Wire
