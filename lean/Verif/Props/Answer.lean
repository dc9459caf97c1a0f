import Verif.Props.Echo
import Verif.Spec.Answer
import Verif.Proofs.ConnShut
/-!
# C101: which requests are answered, and with what
-/
set_option autoImplicit false
namespace Neffos
open Spec

variable {cfg : Cfg} {id : Bytes} {s s' : St}

theorem emptyAnswer_eq (m : Message) : (false, genEmptyReplyToWait m.wait) = emptyAnswer m := rfl

theorem wire_local (m : Message) (e : Option GoErr) (b : Bool) :
    wireOf { m with isLocal := b, err := e } = wireOf { m with err := e } := rfl

/-- the added history consists of the answer and of what the callbacks wrote -/
def Wrote (cfg : Cfg) (s s' : St) (ws : List (Bool × Bytes)) : Prop :=
  ∃ pre post, sentOf s'.log = sentOf s.log ++ (pre ++ ws ++ post) ∧ ∀ x ∈ pre ++ post, CbWrote cfg x

theorem sentOf_append' (l l' : List Obs) : sentOf (l ++ l') = sentOf l ++ sentOf l' := by
  induction l with
  | nil => rfl
  | cons o l ih => cases o <;> simp [sentOf, ih]

theorem wrote_of {l : List Obs} {cs : List Call} {ws ws' : List (Bool × Bytes)} {rs : List (Cont × Result)}
    {os : List Obs} (h : Adds cfg l cs ws rs os) (hl : s'.log = s.log ++ l) (hw : ws = ws') : Wrote cfg s s' ws' := by
  obtain ⟨pre, post, h1, h2⟩ := h.sent
  exact ⟨pre, post, by rw [hl, sentOf_append', h1, hw], h2⟩

theorem handled_open {m : Message} (hr : Reach cfg id s) (hs : Handled cfg s m s') (hc : s'.closed = false) :
    s.closed = false := by
  cases h : s.closed with
  | false => rfl
  | true =>
    have : s'.closed = true := by
      cases hs with
      | recv typ b _ _ hst => exact (fines_closed (Prims.fines (reach_prims hr hst)) h).1
      | wake _ _ _ hst => exact (fines_closed (Prims.fines (reach_prims hr hst)) h).1
    rw [hc] at this
    cases this

/-- C101: a message that wants an answer gets the one of the table, once, or none where the table has none; besides it
the reader writes only what the callbacks themselves write. -/
theorem c101_answer {m : Message} (hr : Reach cfg id s) (hs : Served cfg s m s') (hw : Wanted m)
    (hc : s'.closed = false) : Wrote cfg s s' (answerTo cfg s m).toList := by
  unfold answerTo
  cases hs with
  | request typ b hi hev hstep =>
    rcases hev with hev | hev
    · rw [if_pos hev]
      obtain ⟨_, _, l, hl, h1, h2, h3, h4⟩ := c15_incoming hi hstep hev hw hc
      by_cases hn : s.namespace m.ns = none
      · rw [if_neg (by simp [hn])]
        cases hd : mapGet cfg.decl m.ns with
        | none => exact wrote_of (h2 hn hd) hl rfl
        | some evs =>
          rw [if_neg (by simp)]
          cases hv : connectVerdict cfg s m with
          | none => exact wrote_of (h4 hn (by simp [hd]) hv) hl rfl
          | some e => exact wrote_of (h3 e hn (by simp [hd]) hv) hl rfl
      · rw [if_pos hn]
        exact wrote_of (h1 hn) hl rfl
    · rw [if_neg (by rw [hev]; decide)]
      cases hn : s.namespace m.ns with
      | none =>
        obtain ⟨_, _, l, hl, h⟩ := c19_incoming_not_connected hi hstep hev hw hn hc
        simp only [if_pos hev]
        exact wrote_of h hl rfl
      | some obj =>
        simp only [if_pos hev]
        cases hcl : cfg.isClient with
        | true =>
          obtain ⟨_, _, l, hl, rs, _, h⟩ := c19_incoming_client hr hi hstep hev hw hcl hn hc
          exact wrote_of h hl rfl
        | false =>
          obtain ⟨_, _, l, hl, h1, h2⟩ := c19_incoming_server hr hi hstep hev hw hcl hn hc
          cases hv : verdict cfg s obj m with
          | none =>
            obtain ⟨rs, _, h⟩ := h2 hv
            exact wrote_of h hl rfl
          | some e => exact wrote_of (h1 e hv) hl rfl
  | other hne1 hne2 hh =>
    rw [if_neg hne1]
    cases hn : s.namespace m.ns with
    | none =>
      simp only [if_neg hne2]
      refine ⟨[], [], ?_, by simp⟩
      rw [(c17_not_connected hr hh hne1 hne2 hn).2.2.1]
      simp
    | some obj =>
      simp only [if_neg hne2]
      by_cases hj : m.event = OnRoomJoin
      · simp only [if_pos hj]
        obtain ⟨_, _, l, hl, h1, h2, h3⟩ := c17_incoming hr hh hj hw hn hc
        by_cases hroom : m.room ∈ s.rooms obj
        · rw [if_pos hroom]; exact wrote_of (h1 hroom) hl rfl
        · rw [if_neg hroom]
          cases hv : verdict cfg s obj m with
          | none => exact wrote_of (h2 hroom hv) hl rfl
          | some e => exact wrote_of (h3 e hroom hv) hl rfl
      · simp only [if_neg hj]
        by_cases hlv : m.event = OnRoomLeave
        · simp only [if_pos hlv]
          cases hcl : cfg.isClient with
          | true =>
            obtain ⟨_, _, l, hl, h1, h2⟩ := c18_incoming_client hr hh hlv hw hcl hn hc
            rw [if_pos (.inr rfl)]
            by_cases hroom : m.room ∈ s.rooms obj
            · exact wrote_of (h2 hroom) hl rfl
            · exact wrote_of (h1 hroom) hl rfl
          | false =>
            obtain ⟨_, _, l, hl, h1, h2, h3⟩ := c18_incoming_server hr hh hlv hw hcl hn hc
            by_cases hroom : m.room ∈ s.rooms obj
            · rw [if_neg (by simp [hroom])]
              cases hv : verdict cfg s obj m with
              | none => exact wrote_of (h2 hroom hv) hl rfl
              | some e => exact wrote_of (h3 e hroom hv) hl rfl
            · rw [if_pos (.inl hroom)]; exact wrote_of (h1 hroom) hl rfl
        · simp only [if_neg hlv]
          obtain ⟨l, ws, hl, h, h1, h2⟩ := c82_answer hr hh ⟨hne1, hne2, hj, hlv⟩ hn hc
          have hopen : s.closed = false := handled_open hr hh hc
          have hex : m.fromExplicit = [] := (handled hr hh hne1 hne2).2.2.noExplicit hw.1
          have hmay : MayWrite cfg s m ↔ (m.room = [] ∨ m.event = OnRoomLeft ∨ m.room ∈ s.rooms obj) := by
            unfold MayWrite IsSender
            rw [hn, hex]
            simp [hopen, hne1, hne2, hj]
          by_cases hroom : m.room = [] ∨ m.event = OnRoomLeft ∨ m.room ∈ s.rooms obj
          · rw [if_pos hroom]
            cases hv : verdict cfg s obj { m with isLocal := false } with
            | none => exact wrote_of h hl (h2 (.inl hv))
            | some e => exact wrote_of h hl (h1 e hv (hmay.mpr hroom))
          · rw [if_neg hroom]
            exact wrote_of h hl (h2 (.inr (fun h => hroom (hmay.mp h))))

/-- C101, when the callbacks write nothing themselves: the answer of the table is all that is written. -/
theorem c101_silent {m : Message} (hr : Reach cfg id s) (hs : Served cfg s m s') (hw : Wanted m)
    (hc : s'.closed = false) (hq : Silent cfg) : sentOf s'.log = sentOf s.log ++ (answerTo cfg s m).toList := by
  obtain ⟨pre, post, h, hcb⟩ := c101_answer hr hs hw hc
  have : pre ++ post = [] := List.eq_nil_iff_forall_not_mem.mpr fun x hx => by
    obtain ⟨log, obj, hd, msg, w, hm, _⟩ := hcb x hx
    rw [hq] at hm
    cases hm
  obtain ⟨rfl, rfl⟩ := List.append_eq_nil_iff.mp this
  simpa using h

/-- C101: exactly which messages that want an answer get one. -/
theorem c101_iff {m : Message} (hr : Reach cfg id s) (hs : Served cfg s m s') (hw : Wanted m)
    (hc : s'.closed = false) (hq : Silent cfg) :
    sentOf s'.log ≠ sentOf s.log ↔
      m.event = OnNamespaceConnect ∨ m.event = OnNamespaceDisconnect ∨
      ∃ obj, s.namespace m.ns = some obj ∧ (m.event = OnRoomJoin ∨ m.event = OnRoomLeave ∨
        (verdict cfg s obj { m with isLocal := false } ≠ none ∧
          (m.room = [] ∨ m.event = OnRoomLeft ∨ m.room ∈ s.rooms obj))) := by
  rw [c101_silent hr hs hw hc hq]
  have : sentOf s.log ++ (answerTo cfg s m).toList ≠ sentOf s.log ↔ answerTo cfg s m ≠ none := by
    cases answerTo cfg s m <;> simp
  rw [this]
  unfold answerTo
  by_cases h1 : m.event = OnNamespaceConnect
  · rw [if_pos h1]
    simp only [h1, true_or, iff_true]
    split
    · simp
    · split <;> simp
  · rw [if_neg h1]
    cases hn : s.namespace m.ns with
    | none => by_cases h2 : m.event = OnNamespaceDisconnect <;> simp [h1, h2]
    | some obj =>
      by_cases h2 : m.event = OnNamespaceDisconnect
      · simp [h2]
      · by_cases h3 : m.event = OnRoomJoin
        · simp only [if_neg h2, if_pos h3]
          simp [h3]
        · by_cases h4 : m.event = OnRoomLeave
          · simp only [if_neg h2, if_neg h3, if_pos h4]
            simp [h4]
          · by_cases h5 : m.room = [] ∨ m.event = OnRoomLeft ∨ m.room ∈ s.rooms obj
            · simp only [if_neg h2, if_neg h3, if_neg h4, if_pos h5]
              simp [h1, h2, h3, h4, h5]
            · simp only [if_neg h2, if_neg h3, if_neg h4, if_neg h5]
              simp [h1, h2, h3, h4, h5]

/-- C101: one of the four requests without a token, or marked as wanting no answer, is not answered, and changes
nothing. -/
theorem c101_ignored {m : Message} (hr : Reach cfg id s) (hs : Served cfg s m s') (hw : ¬ Wanted m)
    (hev : m.event = OnNamespaceConnect ∨ m.event = OnNamespaceDisconnect ∨ m.event = OnRoomJoin ∨
      m.event = OnRoomLeave) :
    s'.log = s.log ∧ s'.connected = s.connected ∧ s'.objs = s.objs ∧ s'.closed = s.closed ∧ s'.asks = s.asks := by
  have hx : m.wait = [] ∨ m.isNoOp = true := by
    by_cases h : m.wait = []
    · exact Or.inl h
    · cases h' : m.isNoOp with
      | true => exact Or.inr rfl
      | false => exact absurd ⟨h, h'⟩ hw
  cases hs with
  | request typ b hi he hstep =>
    obtain ⟨rfl, _⟩ := step_recv hi hstep
    rcases he with he | he
    · rw [dispatch_connect he, replyConnect, if_pos hx]
      exact ⟨rfl, rfl, rfl, rfl, rfl⟩
    · rw [dispatch, if_neg (by rw [he]; decide), if_pos he, replyDisconnect, if_pos hx]
      exact ⟨rfl, rfl, rfl, rfl, rfl⟩
  | other hne1 hne2 hh =>
    have hev : m.event = OnRoomJoin ∨ m.event = OnRoomLeave := by
      rcases hev with h | h | h | h
      · exact absurd h hne1
      · exact absurd h hne2
      · exact .inl h
      · exact .inr h
    cases hn : s.namespace m.ns with
    | none =>
      obtain ⟨rfl, _, _⟩ := handled hr hh hne1 hne2
      have h := afterGate_noNamespace (cfg := cfg) (s := { s with rd := .idle }) (msg := m) hn hne1 hne2
      exact ⟨by rw [h.log]; simp, h.connected, h.objs, h.closed, h.asks⟩
    | some obj =>
      rw [c17_unwanted hr hh hev hw hn]
      exact ⟨rfl, rfl, rfl, rfl, rfl⟩

/-! ## The token of the answer -/

theorem wait_noSep_input (known : List KnownErr) (b : Bytes) (an on : Bool) :
    sepByte ∉ (deserializeInput known b an on).wait := by
  unfold deserializeInput
  split
  · simp
  split
  · simp
  split
  · rename_i w ns room ev e n body heq
    have hw : sepByte ∉ w := by
      have h2 : splitN sepByte validMessageSepCount b =
          match cut sepByte b with
          | (f, none) => [f]
          | (f, some r) => f :: splitN sepByte 6 r := rfl
      rw [h2] at heq
      rcases cut_spec sepByte b with ⟨f, e1, _, hf⟩ | ⟨f, r, e1, _, hf⟩
      · rw [e1] at heq; simp at heq
      · rw [e1] at heq
        simp only [List.cons.injEq] at heq
        rw [← heq.1]; exact hf
    split
    · dsimp only
      split <;> exact hw
    · exact hw
  · split <;> simp

theorem sep_not_stringOfByte {c : UInt8} (h : c ≠ sepByte) : sepByte ∉ stringOfByte c := by
  have := (by decide +kernel : ∀ n : Fin 256, UInt8.ofFin n ≠ sepByte → sepByte ∉ stringOfByte (UInt8.ofFin n)) c.toFin
  exact this h

theorem wait_noSep (known : List KnownErr) (typ : MsgType) (b : Bytes) (an on : Bool) :
    sepByte ∉ (deserializeMessage known typ b an on).wait := by
  rw [deserializeMessage_of_input known typ b an on _ rfl]
  have h := wait_noSep_input known b an on
  dsimp only
  unfold decodedHead
  split
  · simp
  · split
    · rename_i c d e t heq
      rw [heq] at h
      simp only [List.mem_cons, not_or] at h
      split
      · simp only [List.mem_append, List.mem_cons, not_or]
        exact ⟨sep_not_stringOfByte (Ne.symm h.1), h.2.2⟩
      · rw [heq]; simp [h]
    · exact h

theorem firstField_append {w r : Bytes} (h : sepByte ∉ w) : firstField (w ++ sepByte :: r) = w := by
  unfold firstField
  induction w with
  | nil => simp
  | cons c t ih =>
    simp only [List.mem_cons, not_or] at h
    rw [List.cons_append, List.takeWhile_cons_of_pos (by simpa using Ne.symm h.1), ih h.2]

theorem firstField_wire {m : Message} (hw : m.wait ≠ []) (h : sepByte ∉ m.wait) : firstField (wireOf m) = m.wait := by
  have := serialize_wireOf m
  have hs := serializeMessage_frame _ _ (by simp [hw]) this
  rw [hs, serializeOutput_eq]
  simp only [joinBytes]
  rw [firstField_append (by simpa [wireHead] using h)]
  simp [wireHead]

/-- C101: the answer starts with the token of the message it answers. -/
theorem c101_token {m : Message} {x : Bool × Bytes} (hr : Reach cfg id s) (hs : Served cfg s m s') (hw : Wanted m)
    (ha : answerTo cfg s m = some x) : firstField x.2 = m.wait := by
  have hd : sepByte ∉ m.wait := by
    cases hs with
    | request typ b hi _ _ => rw [← hi.decodes]; exact wait_noSep _ _ _ _ _
    | other h1 h2 hh =>
      obtain ⟨t, b, hdec⟩ := (handled hr hh h1 h2).2.2
      rw [← hdec]; exact wait_noSep _ _ _ _ _
  have he : firstField (emptyAnswer m).2 = m.wait := firstField_append hd
  have hq : ∀ e, firstField (errAnswer m e).2 = m.wait := fun e => firstField_wire (m := { m with err := some e }) hw.1 hd
  have hv : ∀ e, firstField (verdictAnswer m e).2 = m.wait := fun e => by cases e <;> simp [verdictAnswer, he, hq]
  have hm : ∀ o : Option GoErr, o.map (errAnswer m) = some x → firstField x.2 = m.wait := fun o h => by
    cases o with
    | none => simp at h
    | some e => simp only [Option.map_some, Option.some.injEq] at h; rw [← h]; exact hq e
  unfold answerTo at ha
  grind only

/-- the hypotheses hold, callbacks write nothing, and an accepted connect request is answered with the empty answer -/
example : ∃ s', Reach (serverCfg chatDecl noCb) (b! "1") (after (serverCfg chatDecl noCb) (b! "1") ackOps) ∧
    Served (serverCfg chatDecl noCb) (after (serverCfg chatDecl noCb) (b! "1") ackOps) connReqMsg s' ∧
    Wanted connReqMsg ∧ s'.closed = false ∧ Silent (serverCfg chatDecl noCb) ∧
    answerTo (serverCfg chatDecl noCb) (after (serverCfg chatDecl noCb) (b! "1") ackOps) connReqMsg =
      some (false, b! "$7;;;;;;") :=
  ⟨_, after_reach (by decide +kernel),
    .request .text connReq (incoming_of (by decide +kernel)) (.inl rfl) (after_step (by decide +kernel)),
    ⟨by decide, by decide⟩, by decide +kernel, fun _ _ _ _ => rfl, by decide +kernel⟩

/-- a refused one is answered with the request itself and the error -/
example : answerTo (serverCfg chatDecl denyCb) (after (serverCfg chatDecl denyCb) (b! "1") ackOps) connReqMsg =
    some (false, b! "$7;chat;;_OnNamespaceConnect;1;0;no") := by
  decide +kernel

/-- a join request for a namespace that is not connected is not answered, though all hypotheses hold -/
example : ∃ s', Served (serverCfg chatDecl noCb) (after (serverCfg chatDecl noCb) (b! "1") ackOps) joinReqMsg s' ∧
    Wanted joinReqMsg ∧ s'.closed = false ∧
    answerTo (serverCfg chatDecl noCb) (after (serverCfg chatDecl noCb) (b! "1") ackOps) joinReqMsg = none :=
  ⟨_, .other (by decide) (by decide) (handled_of (ops := ackOps) (typ := .text) (b := joinReq) (by decide +kernel)
      (by decide +kernel) (by decide +kernel)), ⟨by decide, by decide⟩, by decide +kernel, by decide +kernel⟩

/-- an event is answered when its callback objects, and not when it accepts -/
example : let m : Message := { ns := b! "chat", event := b! "ask", wait := b! "$10" }
    answerTo (serverCfg chatDecl failCb) (after (serverCfg chatDecl failCb) (b! "1") chatSrvOps) m =
      some (false, b! "$10;chat;;ask;1;0;no") ∧
    answerTo (serverCfg chatDecl noCb) (after (serverCfg chatDecl noCb) (b! "1") chatSrvOps) m = none := by
  decide +kernel

/-- the hypotheses of `c101_ignored` -/
example : ∃ s', Reach (serverCfg chatDecl noCb) (b! "1") (after (serverCfg chatDecl noCb) (b! "1") ackOps) ∧
    Served (serverCfg chatDecl noCb) (after (serverCfg chatDecl noCb) (b! "1") ackOps) { connReqMsg with wait := [] } s' ∧
    ¬ Wanted { connReqMsg with wait := [] } :=
  ⟨_, after_reach (by decide +kernel),
    .request .text (b! ";chat;;_OnNamespaceConnect;0;0;") (incoming_of (by decide +kernel)) (.inl rfl)
      (after_step (by decide +kernel)), fun h => h.1 rfl⟩

end Neffos
