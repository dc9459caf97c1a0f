import Verif.Proofs.Session
import Verif.Props.Namespaces
import Verif.Props.Rooms
import Verif.Props.GateConn
import Verif.Props.Wire
/-!
Helper lemmas for the agreement of the two sides of a session about membership.
-/
set_option autoImplicit false
namespace Neffos
open Neffos.Spec

variable {cfg cc sc : Cfg} {id : Bytes}

/-! ### Payloads without a token -/

/-- the payload of a message without a wait token: it begins with the separator -/
def CalmP (p : MsgType × Bytes) : Prop := ∃ t, p.2 = 59 :: t

/-- everything that was accepted by the socket is of this kind -/
def CalmLog (l : List Obs) : Prop := ∀ p ∈ pipe l, CalmP p

theorem CalmLog.nil : CalmLog [] := by intro p h; simp [pipe] at h

theorem CalmLog.append {a b : List Obs} (ha : CalmLog a) (hb : CalmLog b) : CalmLog (a ++ b) := by
  intro p h
  rw [pipe_append] at h
  exact (List.mem_append.mp h).elim (ha p) (hb p)

theorem wire_calm {m : Message} (hw : m.wait = []) (hn : m.isNative = false) : ∃ t, wireOf m = 59 :: t := by
  have := serialize_wireOf m
  simp [serializeMessage, hn, hw, serializeOutput, joinBytes, sepByte] at this
  exact ⟨_, this.symm⟩

theorem splitN_calm {t w : Bytes} {rest : List Bytes}
    (h : splitN sepByte validMessageSepCount (59 :: t) = w :: rest) : w = [] := by
  simp [validMessageSepCount, splitN, cut, sepByte] at h
  exact h.1

theorem decode_calm (known : List KnownErr) (typ : MsgType) (t : Bytes) :
    (deserializeMessage known typ (59 :: t) false false).wait = [] ∧
    (deserializeMessage known typ (59 :: t) false false).isNative = false := by
  have hr : (deserializeInput known (59 :: t) false false).wait = [] := by
    unfold deserializeInput
    rw [if_neg (by simp), if_neg (by simp)]
    split
    · rename_i w ns room ev e n body heq
      have := splitN_calm heq
      subst this
      split
      · dsimp only
        split <;> rfl
      · rfl
    · rfl
  unfold deserializeMessage
  dsimp only
  rw [hr]
  refine ⟨by simp [isServerConnID, List.isPrefixOf], by simp⟩

/-- what callbacks write is of this kind -/
def CbCalm (cfg : Cfg) : Prop := ∀ log obj h msg m, Act.write m ∈ (cfg.cb log obj h msg).1 → AppMsg m

theorem pipe_sublist (l : List Obs) :
    (pipe l).Sublist ((sentOf l).map fun x => (if x.1 then MsgType.binary else .text, x.2)) := by
  induction l with
  | nil => exact .slnil
  | cons o l ih =>
    cases o with
    | sent bin b ok =>
      cases ok with
      | true => simp only [pipe, sentOf, List.map_cons]; exact ih.cons_cons _
      | false => simp only [pipe, sentOf, List.map_cons]; exact ih.cons _
    | _ => simp only [pipe, sentOf]; exact ih

theorem wrote_calm (h : CbCalm cfg) {x : Bool × Bytes} (hx : CbWrote cfg x) : ∃ t, x.2 = 59 :: t := by
  obtain ⟨log, obj, hd, msg, m, h1, _, h3⟩ := hx
  obtain ⟨a, b⟩ := h _ _ _ _ _ h1
  simp [serializeMessage, a, b, serializeOutput, joinBytes, sepByte] at h3
  exact ⟨_, h3.symm⟩

theorem adds_calm (h : CbCalm cfg) {l : List Obs} {cs : List Call} {rs : List (Cont × Result)} {os : List Obs}
    (ha : Adds cfg l cs [] rs os) : CalmLog l := by
  intro p hp
  obtain ⟨x, h1, rfl⟩ := List.mem_map.mp ((pipe_sublist l).subset hp)
  exact wrote_calm h (ha.wrote x h1)

/-- all payloads that were written, whether the socket accepted them or not, are of this kind -/
def SentCalm (l : List Obs) : Prop := ∀ x ∈ sentOf l, ∃ t, x.2 = 59 :: t

theorem SentCalm.log {l : List Obs} (h : SentCalm l) : CalmLog l := by
  intro p hp
  obtain ⟨x, h1, rfl⟩ := List.mem_map.mp ((pipe_sublist l).subset hp)
  exact h x h1

theorem sentOf_split {l : List Obs} {pre post : List (Bool × Bytes)} {bin : Bool} {b : Bytes}
    (h : sentOf l = pre ++ (bin, b) :: post) :
    ∃ la ok lb, l = la ++ .sent bin b ok :: lb ∧ sentOf la = pre ∧ sentOf lb = post := by
  induction l generalizing pre with
  | nil => simp [sentOf] at h
  | cons o l ih =>
    cases o with
    | sent bin' b' ok =>
      simp only [sentOf] at h
      cases pre with
      | nil =>
        simp only [List.nil_append, List.cons.injEq, Prod.mk.injEq] at h
        obtain ⟨⟨rfl, rfl⟩, h⟩ := h
        exact ⟨[], ok, l, rfl, rfl, h⟩
      | cons x pre =>
        simp only [List.cons_append, List.cons.injEq] at h
        obtain ⟨rfl, h⟩ := h
        obtain ⟨la, ok', lb, rfl, h2, h3⟩ := ih h
        exact ⟨.sent bin' b' ok :: la, ok', lb, rfl, by simp [sentOf, h2], h3⟩
    | _ =>
      simp only [sentOf] at h
      obtain ⟨la, ok, lb, rfl, h2, h3⟩ := ih h
      exact ⟨_ :: la, ok, lb, rfl, h2, h3⟩

/-- one answer among calm payloads -/
theorem adds_one (h : CbCalm cfg) {l : List Obs} {cs : List Call} {rs : List (Cont × Result)} {os : List Obs}
    {bin : Bool} {b : Bytes} (ha : Adds cfg l cs [(bin, b)] rs os) :
    ∃ la ok lb, l = la ++ .sent bin b ok :: lb ∧ SentCalm la ∧ SentCalm lb := by
  obtain ⟨pre, post, e, hx⟩ := ha.sent
  simp only [List.append_assoc, List.singleton_append] at e
  obtain ⟨la, ok, lb, rfl, h2, h3⟩ := sentOf_split e
  exact ⟨la, ok, lb, rfl, fun x hx' => wrote_calm h (hx x (by rw [← h2]; simp [hx'])),
    fun x hx' => wrote_calm h (hx x (by rw [← h3]; simp [hx']))⟩

/-! ### Steps that handle such payloads -/

theorem app_write {s : St} {m : Message} (hm : AppMsg m) (h : (write cfg s m).1.closed = false) :
    ∃ l, Same s l (write cfg s m).1 ∧ CalmLog l := by
  refine ⟨_, ⟨_, write_open h⟩, ?_⟩
  obtain ⟨t, ht⟩ := wire_calm hm.1 hm.2
  unfold writeLog
  split
  · intro p hp
    rw [ht] at hp
    cases hs : (cfg.sock s.log m.setBinary (59 :: t)).isNone <;> simp [hs, pipe] at hp
    exact ⟨t, by rw [hp]⟩
  · exact .nil

theorem calm_fire (h : CbCalm cfg) {s : St} {obj : Nat} {msg : Message}
    (hc : (fire cfg s obj msg).1.closed = false) : ∃ l, Same s l (fire cfg s obj msg).1 ∧ CalmLog l := by
  obtain ⟨l, h1, h2⟩ := fire_any hc
  exact ⟨l, h1, adds_calm h h2⟩

theorem calm_afterGate (h : CbCalm cfg) {s : St} {msg : Message} (hw : msg.wait = [])
    (hn : msg.isNative = false) (hc : (afterGate cfg s msg).closed = false) :
    ∃ l, Same s l (afterGate cfg s msg) ∧ CalmLog l := by
  unfold afterGate at hc ⊢
  split at hc
  · exact app_write (m := { msg with err := some errBadNamespace }) ⟨hw, hn⟩ hc
  · split at hc
    · rename_i he
      rw [if_pos he]
      simp only [replyRoomJoin, hw, true_or, if_true] at hc ⊢
      exact ⟨[], .refl _, .nil⟩
    · rename_i he
      rw [if_neg he]
      split at hc
      · rename_i he2
        rw [if_pos he2]
        simp only [replyRoomLeave, hw, true_or, if_true] at hc ⊢
        exact ⟨[], .refl _, .nil⟩
      · rename_i he2
        rw [if_neg he2]
        unfold handleEvent at hc ⊢
        dsimp only at hc ⊢
        rename_i obj _
        cases hf : fire cfg s obj { msg with isLocal := false } with
        | mk t r =>
          have hfire := calm_fire h (s := s) (obj := obj) (msg := { msg with isLocal := false })
          rw [hf] at hc hfire
          cases r with
          | none => exact hfire hc
          | some e =>
            dsimp only at hc hfire ⊢
            have ht : t.closed = false := closed_of_prims (prims_write t _) hc
            obtain ⟨l, h1, h2⟩ := hfire ht
            obtain ⟨l', h3, h4⟩ := app_write (cfg := cfg) (s := t)
              (m := { msg with isLocal := false, err := some e }) ⟨hw, hn⟩ hc
            exact ⟨l ++ l', h1.trans h3, h2.append h4⟩

theorem isWait_nil {m : Message} (h : m.wait = []) (b : Bool) : m.isWait b = false := by
  unfold Message.isWait; rw [h]

/-- the reader handles a payload without a token -/
theorem calm_recv (h : CbCalm cfg) (hn : cfg.allowNative = false) {s : St} {typ : MsgType} {b : Bytes}
    (hb : CalmP (typ, b)) (ha : s.acked = true) (hc : (recv cfg s typ b).closed = false) :
    (∃ l, Same s l (recv cfg s typ b) ∧ CalmLog l) ∨
      ∃ m, AppMsg m ∧ gateBlocks s m.ns = true ∧ recv cfg s typ b = { s with rd := .gate m } ∧
        m = deserializeMessage cfg.known typ b false false ∧ m.event ≠ OnNamespaceConnect ∧
        m.event ≠ OnNamespaceDisconnect := by
  obtain ⟨t, rfl⟩ : ∃ t, b = 59 :: t := hb
  have hon : cfg.onlyNative = false := by simp [Cfg.onlyNative, hn]
  obtain ⟨hw, hnat⟩ := decode_calm cfg.known typ t
  unfold recv handlePayload at hc ⊢
  rw [if_neg (by simp), if_pos ha, hn, hon] at hc ⊢
  generalize deserializeMessage cfg.known typ (59 :: t) false false = msg at hc hw hnat ⊢
  unfold handleMessage at hc ⊢
  split
  · exact .inl ⟨[], .refl _, .nil⟩
  · rename_i hinv
    rw [if_neg hinv] at hc
    rw [if_neg (by simp [hon]), isWait_nil hw] at hc ⊢
    simp only [Bool.false_eq_true, if_false] at hc ⊢
    unfold dispatch at hc ⊢
    split
    · simp only [replyConnect, hw, true_or, if_true]
      exact .inl ⟨[], .refl _, .nil⟩
    · rename_i h1
      rw [if_neg h1] at hc
      split
      · simp only [replyDisconnect, hw, true_or, if_true]
        exact .inl ⟨[], .refl _, .nil⟩
      · rename_i h2
        rw [if_neg h2] at hc
        split
        · rename_i h3
          exact .inr ⟨msg, ⟨hw, hnat⟩, h3, rfl, rfl, h1, h2⟩
        · rename_i h3
          rw [if_neg h3] at hc
          exact .inl (calm_afterGate h hw hnat hc)

/-! ### Requests and answers -/

/-- a request that changes membership -/
inductive Req where
  | connect (ns : Bytes)
  | disconnect (ns : Bytes)
  | join (ns room : Bytes)
  | leave (ns room : Bytes)

/-- the request as the server reads it -/
def Req.msg (tok : Bytes) : Req → Message
  | .connect ns => { wait := tok, ns := ns, event := OnNamespaceConnect }
  | .disconnect ns => { wait := tok, ns := ns, event := OnNamespaceDisconnect }
  | .join ns room => { wait := tok, ns := ns, room := room, event := OnRoomJoin }
  | .leave ns room => { wait := tok, ns := ns, room := room, event := OnRoomLeave }

/-- the names of the request survive the wire -/
def Req.Safe : Req → Prop
  | .connect ns => SafeName ns
  | .disconnect ns => SafeName ns
  | .join ns room => SafeName ns ∧ SafeName room
  | .leave ns room => SafeName ns ∧ SafeName room

/-- the namespaces after the request -/
def Req.ns (acc : Bool) (P : Bytes → Prop) (n : Bytes) : Req → Prop
  | .connect ns => P n ∨ (acc = true ∧ n = ns)
  | .disconnect ns => P n ∧ ¬ (acc = true ∧ n = ns)
  | .join _ _ => P n
  | .leave _ _ => P n

/-- the rooms after the request -/
def Req.room (acc : Bool) (P : Bytes → Bytes → Prop) (n r : Bytes) : Req → Prop
  | .connect _ => P n r
  | .disconnect ns => P n r ∧ ¬ (acc = true ∧ n = ns)
  | .join ns room => P n r ∨ (acc = true ∧ n = ns ∧ r = room)
  | .leave ns room => P n r ∧ ¬ (acc = true ∧ n = ns ∧ r = room)

/-- `t` is where `s` gets with the request accepted or not -/
def Moves (q : Req) (acc : Bool) (s t : St) : Prop :=
  (∀ n, InNs t n ↔ q.ns acc (InNs s) n) ∧ ∀ n r, InRoom t n r ↔ q.room acc (InRoom s) n r

theorem Moves.congr {q : Req} {acc : Bool} {s s' t t' : St} (h : Moves q acc s t) (h1 : Agree s s')
    (h2 : Agree t t') : Moves q acc s' t' := by
  have e1 : InNs s = InNs s' := funext fun n => propext (h1.1 n)
  have e2 : InRoom s = InRoom s' := funext fun n => funext fun r => propext (h1.2 n r)
  unfold Moves at h ⊢
  rw [← e1, ← e2]
  exact ⟨fun n => (h2.1 n).symm.trans (h.1 n), fun n r => (h2.2 n r).symm.trans (h.2 n r)⟩

theorem Moves.agree {q : Req} {acc : Bool} {s t t' : St} (h : Moves q acc s t) (k : Moves q acc s t') :
    Agree t t' :=
  ⟨fun n => (h.1 n).trans (k.1 n).symm, fun n r => (h.2 n r).trans (k.2 n r).symm⟩

theorem agree_refl (s : St) : Agree s s := ⟨fun _ => .rfl, fun _ _ => .rfl⟩

theorem Spec.Agree.symm {s t : St} (h : Agree s t) : Agree t s :=
  ⟨fun n => (h.1 n).symm, fun n r => (h.2 n r).symm⟩

theorem Spec.Agree.trans {s t u : St} (h : Agree s t) (k : Agree t u) : Agree s u :=
  ⟨fun n => (h.1 n).trans (k.1 n), fun n r => (h.2 n r).trans (k.2 n r)⟩

theorem agree_of {s t : St} (h1 : ∀ n, t.namespace n = s.namespace n)
    (h2 : ∀ n obj, s.namespace n = some obj → t.rooms obj = s.rooms obj) : Agree s t := by
  refine ⟨fun n => by unfold InNs; rw [h1], fun n r => ?_⟩
  unfold InRoom
  constructor
  · rintro ⟨obj, a, b⟩; exact ⟨obj, by rw [h1]; exact a, by rw [h2 n obj a]; exact b⟩
  · rintro ⟨obj, a, b⟩
    rw [h1] at a
    exact ⟨obj, a, by rw [← h2 n obj a]; exact b⟩

theorem Same.agree {s t : St} {l : List Obs} (h : Same s l t) : Agree s t :=
  agree_of h.namespace fun _ obj _ => h.rooms obj

/-- a token of a client: it begins with `$` -/
def CliTok (tok : Bytes) : Prop := PlainToken tok ∧ ∃ t, tok = 36 :: t

theorem cliTok_genWait (now : Int) : CliTok (genWait true now) :=
  ⟨plainToken_genWait true now, _, rfl⟩

/-- a token that both sides read as it was written -/
def Tok (tok : Bytes) : Prop := PlainToken tok ∧ tok ≠ []

theorem CliTok.tok {tok : Bytes} (h : CliTok tok) : Tok tok :=
  ⟨h.1, by obtain ⟨t, rfl⟩ := h.2; simp⟩

theorem safe_nil : SafeName [] := (unescape_escape_iff _).mp (by decide)

theorem safe_event (q : Req) (tok : Bytes) : SafeName (q.msg tok).event := by
  cases q with
  | connect ns => exact (unescape_escape_iff OnNamespaceConnect).mp (by decide +kernel)
  | disconnect ns => exact (unescape_escape_iff OnNamespaceDisconnect).mp (by decide +kernel)
  | join ns room => exact (unescape_escape_iff OnRoomJoin).mp (by decide +kernel)
  | leave ns room => exact (unescape_escape_iff OnRoomLeave).mp (by decide +kernel)

theorem Req.safe_ns {q : Req} (h : q.Safe) (tok : Bytes) : SafeName (q.msg tok).ns := by
  cases q with
  | connect ns => exact h
  | disconnect ns => exact h
  | join ns room => exact h.1
  | leave ns room => exact h.1

theorem Req.safe_room {q : Req} (h : q.Safe) (tok : Bytes) : SafeName (q.msg tok).room := by
  cases q with
  | connect ns => exact safe_nil
  | disconnect ns => exact safe_nil
  | join ns room => exact h.2
  | leave ns room => exact h.2

theorem req_fields (q : Req) (tok : Bytes) : (q.msg tok).wait = tok ∧ (q.msg tok).isNative = false ∧
    (q.msg tok).fromExplicit = [] ∧ (q.msg tok).err = none ∧ (q.msg tok).isNoOp = false ∧
    (q.msg tok).setBinary = false ∧ isRequest (q.msg tok).event := by
  cases q <;> simp [Req.msg, isRequest]

/-- the server reads the request as it was sent -/
theorem req_decodes (known : List KnownErr) {q : Req} {tok : Bytes} (hq : q.Safe) (ht : Tok tok) :
    deserializeMessage known .text (wireOf (q.msg tok)) false false = q.msg tok := by
  obtain ⟨h1, h2, h3, h4, h5, h6, _⟩ := req_fields q tok
  obtain ⟨b, hb, hd⟩ := c01_round_trip known .text false (q.msg tok) (.inl h2) h3 h4
    (by rw [h1]; exact ht.1) (Req.safe_ns hq tok) (Req.safe_room hq tok) (safe_event q tok)
  have e := serialize_wireOf (q.msg tok)
  have e' : ({ q.msg tok with fromExplicit := [] } : Message) = q.msg tok := by cases q <;> rfl
  rw [e', hb] at e
  cases e
  rw [hd]
  cases q <;> rfl

theorem joinBytes_head (a : Bytes) (l : List Bytes) : a <+: joinBytes sepByte (a :: l) := by
  cases l with
  | nil => simp [joinBytes]
  | cons b l => simp [joinBytes]

theorem wire_ne {m : Message} (h : m.wait ≠ []) : wireOf m ≠ [] := by
  intro e
  have hs := serialize_wireOf m
  rw [e] at hs
  simp [serializeMessage, h, serializeOutput] at hs
  exact h (List.prefix_nil.mp (by rw [← hs]; exact joinBytes_head _ _))

/-- a payload that answers the request with this token -/
structure Reply (known : List KnownErr) (tok : Bytes) (r : Option GoErr) (p : MsgType × Bytes) : Prop where
  nonempty : p.2 ≠ []
  wait : (deserializeMessage known p.1 p.2 false false).wait = tok
  valid : (deserializeMessage known p.1 p.2 false false).isInvalid = false
  err : Carries known r (deserializeMessage known p.1 p.2 false false).err
  plain : (deserializeMessage known p.1 p.2 false false).fromStackExchange = false

theorem reply_empty (known : List KnownErr) {tok : Bytes} (ht : Tok tok) (ty : MsgType) :
    Reply known tok none (ty, genEmptyReplyToWait tok) := by
  obtain ⟨h1, _, h2, _, _, _, _, _, _, h3, _⟩ := c55_empty_answer known ty false tok ht.1.1
  have := h1 ht.1
  exact ⟨by simp [genEmptyReplyToWait, ht.2], by dsimp only; rw [this], h3, by rw [h2]; exact rfl, by dsimp only; rw [this]⟩

theorem reply_refused (known : List KnownErr) {q : Req} {tok : Bytes} {e : GoErr} (hq : q.Safe)
    (ht : Tok tok) (h1 : e.errorText ≠ []) (h2 : ∀ b, e ≠ .reply b) (ty : MsgType) :
    Reply known tok (some e) (ty, wireOf { q.msg tok with err := some e }) := by
  obtain ⟨f1, f2, f3, f4, f5, f6, _⟩ := req_fields q tok
  have hs := serialize_wireOf { q.msg tok with err := some e }
  have e' : ({ ({ q.msg tok with err := some e } : Message) with fromExplicit := [] } : Message) =
      { q.msg tok with err := some e } := by cases q <;> rfl
  rw [e'] at hs
  have hw : (q.msg tok).wait ≠ [] := by
    rw [f1]; exact ht.2
  obtain ⟨_, _, x, hx, hx', _⟩ := c05_error_crosses_partial known ty false { q.msg tok with err := some e } _ e
    (.inl f2) f3 (by rw [show ({ q.msg tok with err := some e } : Message).wait = tok from f1]; exact ht.1) rfl h2 h1 hs
  obtain ⟨b, hb, hd⟩ := c01_round_trip_result known ty false { q.msg tok with err := some e } (.inl f2) f3
    (by rw [show ({ q.msg tok with err := some e } : Message).wait = tok from f1]; exact ht.1)
    (Req.safe_ns hq tok) (Req.safe_room hq tok) (safe_event q tok)
  rw [hs] at hb
  cases hb
  obtain ⟨g1, _, _, _, _, g2, _, g3, _⟩ := hd
  exact ⟨wire_ne hw, g1.trans f1, g2, ⟨x, hx, hx'⟩, g3⟩

/-! ### A request reaches the server -/

/-- a server that only answers: nothing is queued and it has not connected by itself -/
structure SrvOk (d : St) : Prop where
  acked : d.acked = true
  rd : d.rd = .idle
  todo : d.todo = []
  ackAfter : d.ackAfter = false
  gates : d.gates = []

theorem SrvOk.same {d d' : St} {l : List Obs} (h : SrvOk d) (k : Same d l d') : SrvOk d' := by
  obtain ⟨r, rfl⟩ := k
  exact ⟨h.acked, h.rd, h.todo, h.ackAfter, h.gates⟩

theorem req_incoming {q : Req} {tok : Bytes} {d : St} (hn : sc.allowNative = false) (hs : sc.isClient = false)
    (hq : q.Safe) (ht : CliTok tok) (hd : SrvOk d) :
    Incoming sc d .text (wireOf (q.msg tok)) (q.msg tok) := by
  have hon : sc.onlyNative = false := by simp [Cfg.onlyNative, hn]
  obtain ⟨f1, f2, f3, f4, f5, f6, _⟩ := req_fields q tok
  have hiw : (q.msg tok).isWait sc.isClient = false := by
    unfold Message.isWait
    obtain ⟨t, rfl⟩ := ht.2
    rw [f1, hs]
    simp [waitIsConfirmationPrefix, waitComesFromClientPrefix]
  refine ⟨wire_ne ?_, hd.acked, ?_, ?_, hon, .inr (.inr (.inr hiw)), .inr (.inr hiw), .inr hiw⟩
  · rw [f1]; obtain ⟨t, rfl⟩ := ht.2; simp
  · rw [hn, hon]; exact req_decodes sc.known hq ht.tok
  · cases q <;> rfl

theorem verdict_refuses {P : GoErr → Prop} {s : St} {obj : Nat} {msg : Message} {e : GoErr}
    (hp : ∀ log obj h e, (cfg.cb log obj h msg).2 = some e → P e)
    (h : verdict cfg s obj msg = some e) : P e := by
  unfold verdict at h
  split at h
  · exact hp _ _ _ _ h
  · split at h
    · exact hp _ _ _ _ h
    · cases h

theorem connectVerdict_refuses {P : GoErr → Prop} {s : St} {msg : Message} {e : GoErr}
    (hp : ∀ log obj h e, (cfg.cb log obj h msg).2 = some e → P e)
    (h : connectVerdict cfg s msg = some e) : P e := by
  unfold connectVerdict at h
  split at h
  · exact hp _ _ _ _ h
  · split at h
    · exact hp _ _ _ _ h
    · cases h

/-- what is known about the server when a request arrives -/
def Req.There (d : St) : Req → Prop
  | .connect ns => d.namespace ns = none
  | .disconnect ns => InNs d ns
  | .join ns _ => InNs d ns
  | .leave ns _ => InNs d ns

/-- why the server refused the request -/
def Req.No (sc : Cfg) (d : St) (e : GoErr) : Req → Prop
  | .connect ns => (e = errBadNamespace ∧ mapGet sc.decl ns = none) ∨ Refused d OnNamespaceConnect ns [] e
  | .disconnect ns => Refused d OnNamespaceDisconnect ns [] e
  | .join ns room => Refused d OnRoomJoin ns room e
  | .leave ns room => Refused d OnRoomLeave ns room e

theorem refused_grows {d d' : St} {l : List Obs} {event ns room : Bytes} {e : GoErr} (h : Refused d event ns room e)
    (hl : d'.log = d.log ++ l) : Refused d' event ns room e := by
  obtain ⟨obj, v, msg, hd, h1, h2⟩ := h
  exact ⟨obj, v, msg, hd, by rw [hl]; exact List.mem_append_left _ h1, h2⟩

theorem Req.No.grows {q : Req} {d d' : St} {l : List Obs} {e : GoErr} (h : q.No sc d e)
    (hl : d'.log = d.log ++ l) : q.No sc d' e := by
  cases q with
  | connect ns => exact h.imp id fun h => refused_grows h hl
  | disconnect ns => exact refused_grows h hl
  | join ns room => exact refused_grows h hl
  | leave ns room => exact refused_grows h hl

theorem runAct_log (s : St) (a : Act) : ∃ l, (runAct cfg s a).log = s.log ++ l := by
  have := (Prims.grows (prims_runAct (cfg := cfg) s a)).log
  exact this.imp fun _ h => h.symm

theorem write_log (s : St) (m : Message) : ∃ l, (write cfg s m).1.log = s.log ++ l := by
  have := (Prims.grows (prims_write (cfg := cfg) s m)).log
  exact this.imp fun _ h => h.symm

/-- a callback that refuses is in the log -/
theorem fire_refused {s : St} {obj : Nat} {msg : Message} {e : GoErr} (h : verdict cfg s obj msg = some e) :
    Refused (fire cfg s obj msg).1 msg.event msg.ns msg.room e := by
  rw [← fire_snd] at h
  unfold fire at h ⊢
  dsimp only at h ⊢
  split at h
  · cases h
  · rename_i hd hp
    dsimp only at h ⊢
    have : ∀ (acts : List Act) (u : St), ∃ l, (acts.foldl (runAct cfg) u).log = u.log ++ l := by
      intro acts
      induction acts with
      | nil => intro u; exact ⟨[], by simp⟩
      | cons a acts ih =>
        intro u
        obtain ⟨l1, h1⟩ := runAct_log (cfg := cfg) u a
        obtain ⟨l2, h2⟩ := ih (runAct cfg u a)
        exact ⟨l1 ++ l2, by rw [List.foldl_cons, h2, h1, List.append_assoc]⟩
    obtain ⟨l, hl⟩ := this (cfg.cb s.log obj hd msg).1 (s.emit (.fired obj (s.view obj msg) msg (some hd) (cfg.cb s.log obj hd msg).2))
    refine ⟨obj, s.view obj msg, msg, hd, ?_, rfl, rfl, rfl⟩
    rw [hl, h]
    simp [St.emit]

theorem write_refused {s : St} {m : Message} {event ns room : Bytes} {e : GoErr} (h : Refused s event ns room e) :
    Refused (write cfg s m).1 event ns room e := by
  obtain ⟨l, hl⟩ := write_log (cfg := cfg) s m
  exact refused_grows h hl

theorem dispatch_gate {s : St} {msg : Message} (hg : gateBlocks s msg.ns = false)
    (h1 : msg.event ≠ OnNamespaceConnect) (h2 : msg.event ≠ OnNamespaceDisconnect) :
    dispatch cfg s msg = afterGate cfg s msg := by
  unfold dispatch
  rw [if_neg h1, if_neg h2, if_neg (by simp [hg])]

theorem saysNo_Connect {s : St} {msg : Message} {e : GoErr} {evs : List Bytes} (hw : Wanted msg)
    (hn : s.namespace msg.ns = none) (hd : mapGet cfg.decl msg.ns = some evs)
    (hv : connectVerdict cfg s msg = some e) :
    Refused (replyConnect cfg s msg) msg.event msg.ns msg.room e := by
  have hv' := verdict_withObj (cfg := cfg) s msg
  rw [hv] at hv'
  have hf := fire_refused hv'
  have h2 := fire_snd (cfg := cfg) (withObj s msg.ns) s.objs.length msg
  rw [hv'] at h2
  unfold replyConnect
  rw [if_neg (by rintro (x | x); exact hw.1 x; rw [hw.2] at x; cases x), hn, hd]
  simp only [newObj]
  show Refused (match fire cfg (withObj s msg.ns) s.objs.length msg with
    | (s, some e) => (write cfg s { msg with err := some e }).1
    | (s, none) => _) _ _ _ _
  rcases hx : fire cfg (withObj s msg.ns) s.objs.length msg with ⟨u, v⟩
  rw [hx] at hf h2
  simp only at h2
  subst h2
  exact write_refused hf

theorem saysNo_Disconnect {s : St} {msg : Message} {e : GoErr} {obj : Nat} (hw : Wanted msg)
    (hcl : cfg.isClient = false) (hn : s.namespace msg.ns = some obj) (hv : verdict cfg s obj msg = some e) :
    Refused (replyDisconnect cfg s msg) msg.event msg.ns msg.room e := by
  have hf := fire_refused hv
  have h2 := fire_snd (cfg := cfg) s obj msg
  rw [hv] at h2
  unfold replyDisconnect
  rw [if_neg (by rintro (x | x); exact hw.1 x; rw [hw.2] at x; cases x), hn]
  simp only [hcl, Bool.false_eq_true, if_false]
  rcases hx : fire cfg s obj msg with ⟨u, v⟩
  rw [hx] at hf h2
  simp only at h2
  subst h2
  exact write_refused hf

theorem saysNo_RoomJoin {s : St} {msg : Message} {e : GoErr} {obj : Nat} (hw : Wanted msg)
    (hm : msg.room ∉ s.rooms obj) (hv : verdict cfg s obj msg = some e) :
    Refused (replyRoomJoin cfg s obj msg) msg.event msg.ns msg.room e := by
  have hf := fire_refused hv
  have h2 := fire_snd (cfg := cfg) s obj msg
  rw [hv] at h2
  unfold replyRoomJoin
  rw [if_neg (by rintro (x | x); exact hw.1 x; rw [hw.2] at x; cases x), if_neg hm]
  rcases hx : fire cfg s obj msg with ⟨u, v⟩
  rw [hx] at hf h2
  simp only at h2
  subst h2
  exact write_refused hf

theorem saysNo_RoomLeave {s : St} {msg : Message} {e : GoErr} {obj : Nat} (hw : Wanted msg)
    (hcl : cfg.isClient = false) (hm : msg.room ∈ s.rooms obj) (hv : verdict cfg s obj msg = some e) :
    Refused (replyRoomLeave cfg s obj msg) msg.event msg.ns msg.room e := by
  have hf := fire_refused hv
  have h2 := fire_snd (cfg := cfg) s obj msg
  rw [hv] at h2
  unfold replyRoomLeave
  rw [if_neg (by rintro (x | x); exact hw.1 x; rw [hw.2] at x; cases x), if_neg (fun x => x hm)]
  simp only [hcl, Bool.false_eq_true, if_false]
  rcases hx : fire cfg s obj msg with ⟨u, v⟩
  rw [hx] at hf h2
  simp only at h2
  subst h2
  exact write_refused hf

/-- a side handles the request of the other and answers according to what it did -/
theorem side_handles {q : Req} {tok : Bytes} {d d' : St} (hcb : CbCalm sc)
    (href : ∀ log obj h e, (sc.cb log obj h (q.msg tok)).2 = some e → e.errorText ≠ [] ∧ ∀ b, e ≠ .reply b)
    (hr : Reach sc id d) (hq : q.Safe) (ht : Tok tok)
    (hi : Incoming sc d .text (wireOf (q.msg tok)) (q.msg tok)) (hgb : gateBlocks d (q.msg tok).ns = false)
    (hth : q.There d) (h : step sc d (.recv .text (wireOf (q.msg tok))) = some d') (hc : d'.closed = false) :
    d'.acked = true ∧ RdSame d d' ∧ ∃ r l, d'.log = d.log ++ l ∧ Moves q r.isNone d d' ∧ (∀ e, r = some e → q.No sc d' e) ∧
      ∃ la bin b ok lb, l = la ++ .sent bin b ok :: lb ∧ SentCalm la ∧ SentCalm lb ∧
        ∀ known, Reply known tok r (if bin then .binary else .text, b) := by
  obtain ⟨f1, f2, f3, f4, f5, f6, f7⟩ := req_fields q tok
  have hw : Wanted (q.msg tok) := ⟨by rw [f1]; exact ht.2, f5⟩
  have h0 := (step_recv hi h).1
  have ha : d'.acked = true := by
    rcases step_acked hr h (.inl hi.acked) with x | x
    · exact x
    · rw [hc] at x; cases x
  have hrd : RdSame d d' := by
    rw [h0]
    unfold dispatch
    split
    · exact rdSame_mid.replyConnect _ _
    · split
      · exact rdSame_mid.toCalm.replyDisconnect _ _
      · rw [if_neg (by simp [hgb])]; exact rd_afterGate _ _
  refine ⟨ha, hrd, ?_⟩
  have yes : ∀ {l : List Obs} {cs : List Call} {os : List Obs},
      Adds sc l cs [(false, genEmptyReplyToWait (q.msg tok).wait)] [] os →
      ∃ la bin b ok lb, l = la ++ .sent bin b ok :: lb ∧ SentCalm la ∧ SentCalm lb ∧
        ∀ known, Reply known tok none (if bin then .binary else .text, b) := by
    intro l cs os ha
    obtain ⟨la, ok, lb, x, y, z⟩ := adds_one hcb ha
    exact ⟨la, _, _, ok, lb, x, y, z, fun known => by rw [f1]; exact reply_empty known ht _⟩
  have no : ∀ {l : List Obs} {cs : List Call} {os : List Obs} {e : GoErr},
      Adds sc l cs [((q.msg tok).setBinary, wireOf { q.msg tok with err := some e })] [] os →
      e.errorText ≠ [] → (∀ b, e ≠ .reply b) →
      ∃ la bin b ok lb, l = la ++ .sent bin b ok :: lb ∧ SentCalm la ∧ SentCalm lb ∧
        ∀ known, Reply known tok (some e) (if bin then .binary else .text, b) := by
    intro l cs os e ha h1 h2
    obtain ⟨la, ok, lb, x, y, z⟩ := adds_one hcb ha
    exact ⟨la, _, _, ok, lb, x, y, z, fun known => reply_refused known hq ht h1 h2 _⟩
  cases q with
  | connect ns =>
    obtain ⟨k1, k2, l, hl, _, k3, k4, k5⟩ := c15_incoming hi h rfl hw hc
    have hnone : d.namespace ns = none := hth
    have hrm : d.rooms d.objs.length = [] := by
      unfold St.rooms; rw [List.getElem?_eq_none (Nat.le_refl _)]
    cases hdc : mapGet sc.decl ns with
    | none =>
      refine ⟨some errBadNamespace, l, hl, ?_, (fun e he => by cases he; exact .inl ⟨rfl, hdc⟩), no (k3 hnone hdc) (by decide) (by intro b; simp [errBadNamespace])⟩
      have := agree_of (s := d) (t := d') (fun n => by
        rw [k1]; exact if_neg (by rintro ⟨_, _, x, _⟩; rw [show (Req.msg tok (.connect ns)).ns = ns from rfl, hdc] at x; cases x))
        (fun n obj _ => k2 obj)
      exact ⟨fun n => by simp [Req.ns]; exact (this.1 n).symm, fun n r => (this.2 n r).symm⟩
    | some evs =>
      have hdec : (mapGet sc.decl (Req.msg tok (.connect ns)).ns).isSome = true := by
        rw [show (Req.msg tok (.connect ns)).ns = ns from rfl, hdc]; rfl
      cases hv : connectVerdict sc d (Req.msg tok (.connect ns)) with
      | some e =>
        have he := connectVerdict_refuses href hv
        refine ⟨some e, l, hl, ?_, (fun e' hx => by
          cases hx; rw [h0, dispatch_connect rfl]; exact .inr (saysNo_Connect hw hnone hdc hv)), no (k4 e hnone hdec hv) he.1 he.2⟩
        have := agree_of (s := d) (t := d') (fun n => by
          rw [k1]; exact if_neg (by rintro ⟨_, _, _, x⟩; rw [hv] at x; cases x)) (fun n obj _ => k2 obj)
        exact ⟨fun n => by simp [Req.ns]; exact (this.1 n).symm, fun n r => (this.2 n r).symm⟩
      | none =>
        refine ⟨none, l, hl, ?_, (fun e he => by cases he), yes (k5 hnone hdec hv)⟩
        have hns : ∀ n, d'.namespace n = if n = ns then some d.objs.length else d.namespace n := by
          intro n
          rw [k1]
          by_cases hx : n = ns
          · rw [if_pos ⟨hx, hnone, hdec, hv⟩, if_pos hx]
          · rw [if_neg (fun x => hx x.1), if_neg hx]
        constructor
        · intro n
          simp only [InNs, hns, Req.ns]
          by_cases hx : n = ns <;> simp [hx]
        · intro n r
          simp only [InRoom, hns, Req.room, k2]
          by_cases hx : n = ns
          · subst hx
            simp [hnone, hrm]
          · simp [hx]
  | disconnect ns =>
    obtain ⟨obj, hobj⟩ := Option.ne_none_iff_exists'.mp hth
    have mv : (∀ n, d'.namespace n = if n = ns then none else d.namespace n) →
        (∀ o, o ≠ obj → d'.rooms o = d.rooms o) → Moves (.disconnect ns) true d d' := by
      intro hns hrm
      constructor
      · intro n
        simp only [InNs, hns, Req.ns, true_and]
        by_cases hx : n = ns <;> simp [hx]
      · intro n r
        simp only [InRoom, hns, Req.room, true_and]
        by_cases hx : n = ns
        · simp [hx]
        · simp only [hx, if_false, not_false_eq_true, and_true]
          constructor
          · rintro ⟨o, h1, h2⟩
            have : o ≠ obj := fun x => hx (reach_inj hr n ns obj (by rw [← x]; exact h1) hobj)
            rw [hrm o this] at h2
            exact ⟨o, h1, h2⟩
          · rintro ⟨o, h1, h2⟩
            have : o ≠ obj := fun x => hx (reach_inj hr n ns obj (by rw [← x]; exact h1) hobj)
            exact ⟨o, h1, by rw [hrm o this]; exact h2⟩
    cases hs : sc.isClient with
    | true =>
      obtain ⟨k1, k2, l, hl, rs, _, hadd⟩ := c19_incoming_client hr hi h rfl hw hs hobj hc
      exact ⟨none, l, hl, mv k1 (fun o ho => by rw [k2, if_neg ho]), (fun e he => by cases he), yes hadd⟩
    | false =>
    obtain ⟨k1, k2, l, hl, k3, k4⟩ := c19_incoming_server hr hi h rfl hw hs hobj hc
    cases hv : verdict sc d obj (Req.msg tok (.disconnect ns)) with
    | some e =>
      have he := verdict_refuses href hv
      refine ⟨some e, l, hl, ?_, (fun e' hx => by
          cases hx; rw [h0, dispatch_disconnect rfl]; exact saysNo_Disconnect hw hs hobj hv), no (k3 e hv) he.1 he.2⟩
      have := agree_of (s := d) (t := d') (fun n => by
        rw [k1]; exact if_neg (by rintro ⟨_, x⟩; rw [hv] at x; cases x)) (fun n o _ => by
        rw [k2]; exact if_neg (by rintro ⟨_, x⟩; rw [hv] at x; cases x))
      exact ⟨fun n => by simp [Req.ns]; exact (this.1 n).symm, fun n r => by simp [Req.room]; exact (this.2 n r).symm⟩
    | none =>
      obtain ⟨rs, _, hadd⟩ := k4 hv
      refine ⟨none, l, hl, ?_, (fun e he => by cases he), yes hadd⟩
      exact mv (fun n => by rw [k1, hv]; simp only [and_true]; rfl) (fun o ho => by rw [k2, if_neg (fun x => ho x.1)])
  | join ns room =>
    obtain ⟨obj, hobj⟩ := Option.ne_none_iff_exists'.mp hth
    obtain ⟨k1, k2, l, hl, k3, k4, k5⟩ := c17_incoming hr (.recv _ _ hi hgb h) rfl hw hobj hc
    have hns : ∀ n, d'.namespace n = d.namespace n := fun n => by unfold St.namespace; rw [k1]
    have uniq : ∀ n, d.namespace n = some obj ↔ n = ns :=
      fun n => ⟨fun x => reach_inj hr n ns obj x hobj, fun x => by rw [x]; exact hobj⟩
    have mv : ∀ acc : Bool, (acc = true ∨ room ∈ d.rooms obj ↔
        verdict sc d obj (Req.msg tok (.join ns room)) = none ∨ room ∈ d.rooms obj) →
        Moves (.join ns room) acc d d' := by
      intro acc hacc
      refine ⟨fun n => by simp [InNs, hns, Req.ns], fun n r => ?_⟩
      simp only [InRoom, hns, Req.room, k2]
      constructor
      · rintro ⟨o, h1, h2 | ⟨rfl, rfl, h3⟩⟩
        · exact .inl ⟨o, h1, h2⟩
        · rcases hacc.mpr (.inl h3) with x | x
          · exact .inr ⟨x, (uniq n).mp h1, rfl⟩
          · exact .inl ⟨o, h1, x⟩
      · rintro (⟨o, h1, h2⟩ | ⟨h1, rfl, rfl⟩)
        · exact ⟨o, h1, .inl h2⟩
        · rcases hacc.mp (.inl h1) with x | x
          · exact ⟨obj, hobj, .inr ⟨rfl, rfl, x⟩⟩
          · exact ⟨obj, hobj, .inl x⟩
    by_cases hm : room ∈ d.rooms obj
    · exact ⟨none, l, hl, mv true (by simp [hm]), (fun e he => by cases he), yes (k3 hm)⟩
    · cases hv : verdict sc d obj (Req.msg tok (.join ns room)) with
      | some e =>
        have he := verdict_refuses href hv
        exact ⟨some e, l, hl, mv false (by simp [hv]), (fun e' hx => by
          cases hx; rw [h0, dispatch_gate hgb (by show OnRoomJoin ≠ _; decide) (by show OnRoomJoin ≠ _; decide), afterGate_join rfl hobj]
          exact saysNo_RoomJoin hw hm hv), no (k5 e hm hv) he.1 he.2⟩
      | none => exact ⟨none, l, hl, mv true (by simp [hv]), (fun e he => by cases he), yes (k4 hm hv)⟩
  | leave ns room =>
    obtain ⟨obj, hobj⟩ := Option.ne_none_iff_exists'.mp hth
    cases hs : sc.isClient with
    | true =>
      obtain ⟨k1, k2, l, hl, k3, k4⟩ := c18_incoming_client hr (.recv _ _ hi hgb h) rfl hw hs hobj hc
      have hns : ∀ n, d'.namespace n = d.namespace n := fun n => by unfold St.namespace; rw [k1]
      have uniq : ∀ n, d.namespace n = some obj ↔ n = ns :=
        fun n => ⟨fun x => reach_inj hr n ns obj x hobj, fun x => by rw [x]; exact hobj⟩
      have mv : Moves (.leave ns room) true d d' := by
        refine ⟨fun n => by simp [InNs, hns, Req.ns], fun n r => ?_⟩
        simp only [InRoom, hns, Req.room, k2]
        constructor
        · rintro ⟨o, h1, h2, h3⟩
          refine ⟨⟨o, h1, h2⟩, ?_⟩
          rintro ⟨_, rfl, rfl⟩
          have : o = obj := by rw [hobj] at h1; cases h1; rfl
          exact h3 ⟨this, rfl⟩
        · rintro ⟨⟨o, h1, h2⟩, h3⟩
          refine ⟨o, h1, h2, ?_⟩
          rintro ⟨rfl, rfl⟩
          exact h3 ⟨trivial, (uniq n).mp h1, rfl⟩
      by_cases hm : room ∈ d.rooms obj
      · exact ⟨none, l, hl, mv, (fun e he => by cases he), yes (k4 hm)⟩
      · exact ⟨none, l, hl, mv, (fun e he => by cases he), yes (k3 hm)⟩
    | false =>
    obtain ⟨k1, k2, l, hl, k3, k4, k5⟩ := c18_incoming_server hr (.recv _ _ hi hgb h) rfl hw hs hobj hc
    have hns : ∀ n, d'.namespace n = d.namespace n := fun n => by unfold St.namespace; rw [k1]
    have uniq : ∀ n, d.namespace n = some obj ↔ n = ns :=
      fun n => ⟨fun x => reach_inj hr n ns obj x hobj, fun x => by rw [x]; exact hobj⟩
    have mv : ∀ acc : Bool, (room ∈ d.rooms obj → (acc = true ↔
        verdict sc d obj (Req.msg tok (.leave ns room)) = none)) →
        Moves (.leave ns room) acc d d' := by
      intro acc hacc
      refine ⟨fun n => by simp [InNs, hns, Req.ns], fun n r => ?_⟩
      simp only [InRoom, hns, Req.room, k2]
      constructor
      · rintro ⟨o, h1, h2, h3⟩
        refine ⟨⟨o, h1, h2⟩, ?_⟩
        rintro ⟨x, rfl, rfl⟩
        have : o = obj := by rw [hobj] at h1; cases h1; rfl
        subst this
        exact h3 ⟨rfl, rfl, (hacc h2).mp x⟩
      · rintro ⟨⟨o, h1, h2⟩, h3⟩
        refine ⟨o, h1, h2, ?_⟩
        rintro ⟨rfl, rfl, x⟩
        exact h3 ⟨(hacc h2).mpr x, (uniq n).mp h1, rfl⟩
    by_cases hm : room ∈ d.rooms obj
    · cases hv : verdict sc d obj (Req.msg tok (.leave ns room)) with
      | some e =>
        have he := verdict_refuses href hv
        exact ⟨some e, l, hl, mv false (by simp [hv]), (fun e' hx => by
          cases hx; rw [h0, dispatch_gate hgb (by show OnRoomLeave ≠ _; decide) (by show OnRoomLeave ≠ _; decide), afterGate_leave rfl hobj]
          exact saysNo_RoomLeave hw hs hm hv), no (k5 e hm hv) he.1 he.2⟩
      | none => exact ⟨none, l, hl, mv true (by simp [hv]), (fun e he => by cases he), yes (k4 hm hv)⟩
    · exact ⟨none, l, hl, mv true (fun x => absurd x hm), (fun e he => by cases he), yes (k3 hm)⟩

/-- the server handles the request and answers according to what it did -/
theorem srv_answer {q : Req} {tok : Bytes} {d d' : St} (hcons : Consistent cc sc)
    (hn : sc.allowNative = false) (hs : sc.isClient = false) (hr : Reach sc id d)
    (hq : q.Safe) (ht : CliTok tok) (hd : SrvOk d) (hth : q.There d)
    (h : step sc d (.recv .text (wireOf (q.msg tok))) = some d') (hc : d'.closed = false) :
    SrvOk d' ∧ ∃ r l, d'.log = d.log ++ l ∧ Moves q r.isNone d d' ∧ (∀ e, r = some e → q.No sc d' e) ∧
      ∃ la bin b ok lb, l = la ++ .sent bin b ok :: lb ∧ SentCalm la ∧ SentCalm lb ∧
        ∀ known, Reply known tok r (if bin then .binary else .text, b) := by
  obtain ⟨ha, hrd, hk⟩ := side_handles hcons.server
    (fun log obj h e he => hcons.refuses _ _ _ _ _ (req_fields q tok).2.2.2.2.2.2 he) hr hq ht.tok
    (req_incoming hn hs hq ht hd) (by unfold gateBlocks; rw [hd.gates]; rfl) hth h hc
  exact ⟨⟨ha, by rw [hrd.rd, hd.rd], by rw [hrd.todo, hd.todo], by rw [hrd.ackAfter, hd.ackAfter],
    by rw [hrd.gates, hd.gates]⟩, hk⟩

/-- the same in terms of what the socket accepted -/
theorem srv_request {q : Req} {tok : Bytes} {d d' : St} (hcons : Consistent cc sc)
    (hn : sc.allowNative = false) (hs : sc.isClient = false) (hr : Reach sc id d)
    (hq : q.Safe) (ht : CliTok tok) (hd : SrvOk d) (hth : q.There d)
    (h : step sc d (.recv .text (wireOf (q.msg tok))) = some d') (hc : d'.closed = false) :
    SrvOk d' ∧ ∃ r l, d'.log = d.log ++ l ∧ Moves q r.isNone d d' ∧ (∀ e, r = some e → q.No sc d' e) ∧
      (CalmLog l ∨ ∃ l1 p l2, pipe l = l1 ++ p :: l2 ∧ (∀ p ∈ l1, CalmP p) ∧ (∀ p ∈ l2, CalmP p) ∧
        ∀ known, Reply known tok r p) := by
  obtain ⟨h1, r, l, h2, h3, h4, la, bin, b, ok, lb, rfl, h5, h6, h7⟩ := srv_answer hcons hn hs hr hq ht hd hth h hc
  refine ⟨h1, r, _, h2, h3, h4, ?_⟩
  cases ok with
  | false =>
    refine .inl fun p hp => ?_
    rw [pipe_append] at hp
    exact (List.mem_append.mp hp).elim (h5.log p) (fun hp => h6.log p hp)
  | true => exact .inr ⟨pipe la, _, pipe lb, by rw [pipe_append]; rfl, h5.log, h6.log, h7⟩

end Neffos
