import Verif.Props.Route
import Verif.Props.Delivery
import Verif.Props.Namespaces
/-!
# C63: an Ask of an event, from end to end

What an Ask of one side returns is what the callback of the other side returned for it.
-/
set_option autoImplicit false
namespace Neffos
open Neffos.Spec

variable {cfg cc sc : Cfg} {id idc ids : Bytes} {s s' c c' d d' : St} {m req : Message}

namespace Spec

/-- the events that are not requests -/
def NotRequest (event : Bytes) : Prop :=
  event ≠ OnNamespaceConnect ∧ event ≠ OnNamespaceDisconnect ∧ event ≠ OnRoomJoin ∧ event ≠ OnRoomLeave

/-- What the answer `r` says when the callback returned `e` for the request: the same token, names
and event; the body of a `Reply`; otherwise no body and an error that the text stands for, or no
error if the text is empty. -/
structure Says (known : List KnownErr) (req : Message) (e : GoErr) (r : Message) : Prop where
  wait : r.wait = req.wait
  ns : r.ns = req.ns
  room : r.room = req.room
  event : r.event = req.event
  valid : r.isInvalid = false
  plain : r.fromStackExchange = false
  reply : ∀ b, e = .reply b → r.body = b ∧ r.err = none
  noBody : (∀ b, e ≠ .reply b) → r.body = []
  error : (∀ b, e ≠ .reply b) → e.errorText ≠ [] → ∃ e', r.err = some e' ∧ ResolvesTo known e.errorText e'
  empty : (∀ b, e ≠ .reply b) → e.errorText = [] → r.err = none

end Spec

theorem genWait_ne_nil (cl : Bool) (now : Int) : genWait cl now ≠ [] := by
  unfold genWait
  split
  · simp
  · exact decimalInt_ne_nil now

/-- what is written for a received message and the result of its callback -/
theorem says_wire {e : GoErr} (hdec : Decoded sc req) (htok : PlainToken req.wait) (hne : req.wait ≠ [])
    (known : List KnownErr) (typ : MsgType) (an : Bool) (isl : Bool) :
    Says known req e (deserializeMessage known typ (wireOf { req with isLocal := isl, err := some e }) an false) := by
  obtain ⟨t, p, hp⟩ := hdec
  obtain ⟨s1, s2, s3⟩ := c02_received_names_safe sc.known t p sc.allowNative sc.onlyNative
  rw [hp] at s1 s2 s3
  obtain ⟨b, hb, h1, h2, h3, h4, _, h6, _, h8, h9, h10⟩ :=
    c01_round_trip_result known typ an { req with isLocal := isl, err := some e, fromExplicit := [] }
      (.inr hne) rfl htok s1 s2 s3
  have hs := serialize_wireOf { req with isLocal := isl, err := some e }
  have heq : b = wireOf { req with isLocal := isl, err := some e } := by
    have := hb.symm.trans hs
    exact Option.some.inj this
  rw [← heq]
  refine ⟨h1, h2, h3, h4, h6, h8, ?_, ?_, ?_, ?_⟩
  · rintro x rfl
    have := h9 x rfl
    exact ⟨this.1, this.2.1⟩
  · intro hx
    have ho : outcome req.body (some e) = .error e.errorText := by
      cases e <;> first | rfl | exact absurd rfl (hx _)
    rw [decode_encode known typ _ b an (by rintro ⟨_, h⟩; exact hne h)
      (by show sepByte ∉ wireHead _; simp only [wireHead, if_true]; exact htok.1) hb]
    simp [wireLast, ho, decodedBody]
  · intro hx ht
    have ho : outcome req.body (some e) = .error e.errorText := by
      cases e <;> first | rfl | exact absurd rfl (hx _)
    exact (h10 _ ho ht).2.2
  · intro hx ht
    have ho : outcome req.body (some e) = .error e.errorText := by
      cases e <;> first | rfl | exact absurd rfl (hx _)
    rw [decode_encode known typ _ b an (by rintro ⟨_, h⟩; exact hne h)
      (by show sepByte ∉ wireHead _; simp only [wireHead, if_true]; exact htok.1) hb]
    simp [wireLast, ho, decodedErr, ht]

/-- C63: an Ask that goes out is exactly one payload, which the other side decodes to the request:
its token, names, event and body. -/
theorem c63_request {now : Int} (hn : cc.onlyNative = false) (hs : step cc c (.ask m now false) = some c')
    (ho : c'.closed = false) (hw : retOf c'.log = retOf c.log) (he : m.err = none) (h1 : SafeName m.ns)
    (h2 : SafeName m.room) (h3 : SafeName m.event) :
    ∃ p, pipe c'.log = pipe c.log ++ [p] ∧ ∀ sc : Cfg, sc.onlyNative = false →
      deserializeMessage sc.known p.1 p.2 sc.allowNative sc.onlyNative =
        { wait := genWait cc.isClient now, ns := m.ns, room := m.room, event := m.event, body := m.body,
          isNoOp := m.isNoOp, isNative := sc.allowNative && m.event = OnNativeMessage,
          setBinary := m.setBinary } := by
  obtain ⟨hx, _⟩ := step_exec hs
  simp only [exec, Option.some.injEq] at hx
  subst hx
  unfold startAsk at ho hw ⊢
  rw [if_neg (by simp [hn])] at ho hw ⊢
  by_cases hc : c.closed = true
  · rw [if_pos hc] at hw
    simp only [finish, St.emit, retOf_append, retOf] at hw
    simp at hw
  rw [if_neg hc, if_neg (by simp)] at ho hw ⊢
  dsimp only at ho hw ⊢
  have hlog : (newAsk c (genWait cc.isClient now) .user).log = c.log := (newAsk_fields _ _ _).2.2.1
  have hwe := write_eq (cfg := cc) (newAsk c (genWait cc.isClient now) .user) { m with wait := genWait cc.isClient now }
  cases hwr : write cc (newAsk c (genWait cc.isClient now) .user) { m with wait := genWait cc.isClient now } with
  | mk t ok =>
    rw [hwr] at ho hw hwe
    cases ok with
    | false =>
      have hcl : t.closed = false := ho
      have e := write_open (cfg := cc) (s := newAsk c (genWait cc.isClient now) .user)
        (msg := { m with wait := genWait cc.isClient now }) (by rw [hwr]; exact hcl)
      rw [hwr] at e
      dsimp only at e
      simp only [finish, St.emit, endAsk, retOf_append, retOf] at hw
      rw [e] at hw
      simp only [retOf_append, (writeLog_sent _ _).projections.2.1, hlog] at hw
      simp at hw
    | true =>
      dsimp only at ho ⊢
      split at hwe
      · have hro := rawWrite_open (cfg := cc)
          (s := St.markReady cc (newAsk c (genWait cc.isClient now) .user))
          (b := wireOf { m with wait := genWait cc.isClient now }) (binary := m.setBinary) (by
            rw [← hwe]; exact ho)
        rw [hro] at hwe
        have hml : (St.markReady cc (newAsk c (genWait cc.isClient now) .user)).log = c.log := by
          rw [markReady_eq]; exact hlog
        rw [hml] at hwe
        have e1 : t.log = c.log ++ [.sent m.setBinary (wireOf { m with wait := genWait cc.isClient now }) true] := by
          have h1 := congrArg (fun x => x.1.log) hwe
          have h2 := congrArg (fun x => x.2) hwe
          dsimp only at h1 h2
          rw [h1, ← h2]
        refine ⟨(if m.setBinary then .binary else .text, wireOf { m with wait := genWait cc.isClient now }),
          by rw [e1, pipe_append]; rfl, ?_⟩
        intro sc hon
        rw [hon]
        have hne : genWait cc.isClient now ≠ [] := by
          unfold genWait
          split
          · simp
          · exact decimalInt_ne_nil now
        obtain ⟨b, hb, hd⟩ := c01_round_trip sc.known (if m.setBinary then .binary else .text) sc.allowNative
          { m with wait := genWait cc.isClient now, fromExplicit := [] } (.inr hne) rfl he
          (c01_generated_tokens_plain cc.isClient now).1 h1 h2 h3
        have hs := serialize_wireOf { m with wait := genWait cc.isClient now }
        have heq : b = wireOf { m with wait := genWait cc.isClient now } := Option.some.inj (hb.symm.trans hs)
        dsimp only
        rw [← heq, hd]
        cases m.setBinary <;> rfl
      · split at hwe <;> cases hwe

/-- C63: a request whose callback returns nil is not answered: besides what the callback itself
wrote, nothing is written, so the Ask waits on. -/
theorem c63_unanswered {obj : Nat} (hr : Reach sc id d) (hs : Handled sc d req d') (hev : NotRequest req.event)
    (hn : d.namespace req.ns = some obj) (hv : verdict sc d obj { req with isLocal := false } = none)
    (hc : d'.closed = false) :
    ∃ l, d'.log = d.log ++ l ∧
      Adds sc l [⟨obj, { req with isLocal := false }, true, req.room ∈ d.rooms obj⟩] [] [] [] := by
  obtain ⟨rfl, _, hdec⟩ := handled hr hs hev.1 hev.2.1
  have hlk : linked { d with rd := .idle } obj = true := reach_linked hr hn
  have heq : afterGate sc { d with rd := .idle } req = handleEvent sc { d with rd := .idle } obj req := by
    have hn' : ({ d with rd := .idle } : St).namespace req.ns = some obj := hn
    unfold afterGate; rw [hn']; dsimp only
    rw [if_neg hev.2.2.1, if_neg hev.2.2.2]
  rw [heq] at hc ⊢
  obtain ⟨l, h1, h2⟩ := handleEvent_ok (s := { d with rd := .idle }) hv hc
  rw [hlk] at h2
  exact ⟨l, h1.log, h2⟩

/-- C63: a request whose callback returns an error or a `Reply` is answered with exactly one
payload, and it says what the callback returned, whoever reads it. -/
theorem c63_answered {obj : Nat} {e : GoErr} (hr : Reach sc id d)
    (hs : Handled sc d req d') (hev : NotRequest req.event)
    (htok : PlainToken req.wait) (hne : req.wait ≠ []) (hn : d.namespace req.ns = some obj)
    (hroom : req.room = [] ∨ req.room ∈ d.rooms obj)
    (hv : verdict sc d obj { req with isLocal := false } = some e) (hc : d'.closed = false) :
    ∃ l q, d'.log = d.log ++ l ∧
      Adds sc l [⟨obj, { req with isLocal := false }, true, req.room ∈ d.rooms obj⟩]
        [(req.setBinary, q)] [] [] ∧
      ∀ known typ an, Says known req e (deserializeMessage known typ q an false) := by
  obtain ⟨_, _, l, h1, h2⟩ := c54_event_partial hr hs hev hne hn hroom hv hc
  obtain ⟨_, _, hdec⟩ := handled hr hs hev.1 hev.2.1
  exact ⟨l, _, h1, h2, fun known typ an => says_wire hdec htok hne known typ an false⟩

/-- an answer for an Ask of this connection that waits for it, with an idle reader -/
theorem own_enabled {i : Nat} {a : AskRec} {typ : MsgType} {q : Bytes} {r : Message} (hr : Reach cc idc c)
    (hrd : c.rd = .idle ∧ c.todo = [] ∧ c.ackAfter = false) (h : Answering cc c typ q r)
    (hx : ¬ FromExchange cc r) (hw : ¬ ForServer cc c r) (ht : mapGet c.waiting r.wait = some i)
    (ha : c.asks[i]? = some a) (hb : a.box = none) :
    step cc c (.recv typ q) = some { c with asks := c.asks.set i { a with box := some r } } := by
  refine step_of_exec ?_ (show c.hung = false from reach_hung hr)
  simp only [exec]
  rw [if_pos hrd]
  unfold recv handlePayload
  rw [if_neg h.nonempty, if_pos h.acked, h.decodes]
  unfold handleMessage
  rw [if_neg (by simp [h.valid]), if_neg (by simp [h.notNative]), if_pos h.isWait]
  rw [if_neg, if_neg, ht]
  · dsimp only [deliver]
    rw [ha]; dsimp only; rw [hb]
  · intro hy
    simp only [Bool.and_eq_true, Bool.not_eq_true', decide_eq_true_eq] at hy
    exact hw hy
  · intro hy
    simp only [Bool.and_eq_true, Bool.not_eq_true'] at hy
    exact hx ⟨hy.1.1, hy.2, hy.1.2⟩

/-- C63: the answer that says what the callback returned is what the Ask returns: the reader reads
it, then the Ask returns a message and an error that say it, and nothing else happens. -/
theorem c63_returned {i : Nat} {a : AskRec} {e : GoErr} {typ : MsgType} {q : Bytes} {now : Int}
    (hr : Reach cc idc c) (hn : cc.onlyNative = false) (hack : c.acked = true)
    (hrd : c.rd = .idle ∧ c.todo = [] ∧ c.ackAfter = false)
    (ha : c.asks[i]? = some a) (hk : a.cont = .user) (hm : a.mode = .table) (hb : a.box = none)
    (hdn : a.done = false)
    (htok : a.tok = genWait cc.isClient now) (hreg : mapGet c.waiting a.tok = some i)
    (hsrv : cc.isClient = true ∨ a.tok ∉ c.srvWaiting) (hq : q ≠ []) (hreq : req.wait = a.tok)
    (hsay : ∀ an, Says cc.known req e (deserializeMessage cc.known typ q an false)) :
    ∃ c' c'' r x, step cc c (.recv typ q) = some c' ∧ c'.log = c.log ∧ step cc c' (.resume i) = some c'' ∧
      c''.log = c.log ++ [.ret .user (.answer r x)] ∧ r.err = x ∧ Says cc.known req e r := by
  have hs := hsay cc.allowNative
  rw [← hn] at hs
  revert hs
  generalize hg : deserializeMessage cc.known typ q cc.allowNative cc.onlyNative = r
  intro hs
  have htk : r.wait = a.tok := hs.wait.trans hreq
  have hans : Answering cc c typ q r := by
    refine ⟨hq, hack, hg, hs.valid, hn, ?_⟩
    rw [htk, htok]
    unfold genWait
    split
    · rename_i hcl; exact ⟨_, _, rfl, fun _ => hcl⟩
    · cases hd : decimalInt now with
      | nil => exact absurd hd (decimalInt_ne_nil now)
      | cons x t =>
        refine ⟨x, t, rfl, ?_⟩
        intro hx
        have := decimalInt_byte now x (by rw [hd]; simp)
        exact absurd this (by rw [hx]; decide)
  have hx : ¬ FromExchange cc r := fun h => by
    have := h.2.2; rw [hs.plain] at this; cases this
  have hf : ¬ ForServer cc c r := by
    rintro ⟨k1, k2⟩
    rcases hsrv with h | h
    · rw [h] at k1; cases k1
    · rw [htk] at k2; exact h k2
  have h1 := own_enabled hr hrd hans hx hf (by rw [htk]; exact hreg) ha hb
  have hi : i < c.asks.length := (List.getElem?_eq_some_iff.mp ha).1
  have hget : ({ c with asks := c.asks.set i { a with box := some r } } : St).asks[i]? =
      some { a with box := some r } := by simp [hi]
  have h2 : step cc { c with asks := c.asks.set i { a with box := some r } } (.resume i) = some
      (finish cc (resumed { c with asks := c.asks.set i { a with box := some r } } i { a with box := some r })
        .user r r.err) := by
    refine step_of_exec ?_ ?_
    · simp only [exec]
      unfold resume
      rw [hget]
      dsimp only
      rw [hdn]
      simp [hk, resumed]
    · show (resumed _ _ _).hung = false
      rw [show (resumed { c with asks := c.asks.set i { a with box := some r } } i { a with box := some r }).hung =
        c.hung by unfold resumed forget endAsk takeAnswer; (repeat' split) <;> rfl]
      exact reach_hung hr
  have := c61_returns (s := { c with asks := c.asks.set i { a with box := some r } }) (i := i)
    (a := { a with box := some r }) (m := r) hget hk hm rfl h2
  exact ⟨_, _, r, r.err, h1, rfl, h2, this.1, rfl, hs⟩

/-! ## The whole session -/

namespace Spec

/-- the request as the other side decodes it -/
def requestOf (cc sc : Cfg) (m : Message) (now : Int) : Message :=
  { wait := genWait cc.isClient now, ns := m.ns, room := m.room, event := m.event, body := m.body,
    isNoOp := m.isNoOp, isNative := sc.allowNative && m.event = OnNativeMessage, setBinary := m.setBinary }

/-- An Ask for the message `m` is made at `now` on the connection `c`, whose peer is `d`: `c` is
acknowledged and its reader is idle, no `Server.Ask` has the same token; the
names of `m` have no separator and the event is not a request. -/
structure Asker (cc : Cfg) (c : St) (m : Message) (now : Int) : Prop where
  notNative : cc.onlyNative = false
  acked : c.acked = true
  idle : c.rd = .idle ∧ c.todo = [] ∧ c.ackAfter = false
  srv : cc.isClient = true ∨ genWait cc.isClient now ∉ c.srvWaiting
  ns : SafeName m.ns
  room : SafeName m.room
  eventName : SafeName m.event
  noErr : m.err = none
  event : NotRequest m.event

/-- The connection `d` can answer it: it is acknowledged, its namespace is connected and so is the
room, if any; the connect gate is open; the token is not one of its own; the callbacks do not write. -/
structure Answerer (cc sc : Cfg) (d : St) (m : Message) (now : Int) (obj : Nat) : Prop where
  notNative : sc.onlyNative = false
  acked : d.acked = true
  side : sc.isClient = !cc.isClient
  gate : gateBlocks d m.ns = false
  ns : d.namespace m.ns = some obj
  room : m.room = [] ∨ m.room ∈ d.rooms obj
  own : sc.isClient = false ∨ mapGet d.waiting (genWait cc.isClient now) = none
  silent : Silent sc

end Spec

/-- an Ask that has returned on an open connection has written nothing -/
theorem ask_sent {now : Int} (hn : cc.onlyNative = false) (hs : step cc c (.ask m now false) = some c')
    (ho : c'.closed = false) :
    (retOf c'.log = retOf c.log ∧ c'.srvWaiting = c.srvWaiting ∧ c'.rd = c.rd ∧ c'.todo = c.todo ∧
      c'.ackAfter = c.ackAfter) ∨ pipe c'.log = pipe c.log := by
  obtain ⟨hx, _⟩ := step_exec hs
  simp only [exec, Option.some.injEq] at hx
  subst hx
  unfold startAsk at ho ⊢
  rw [if_neg (by simp [hn])] at ho ⊢
  by_cases hc : c.closed = true
  · right
    rw [if_pos hc]
    simp [finish, St.emit, pipe_append, pipe]
  rw [if_neg hc, if_neg (by simp)] at ho ⊢
  dsimp only at ho ⊢
  have hlog : (newAsk c (genWait cc.isClient now) .user).log = c.log := (newAsk_fields _ _ _).2.2.1
  have hwe := write_eq (cfg := cc) (newAsk c (genWait cc.isClient now) .user) { m with wait := genWait cc.isClient now }
  cases hwr : write cc (newAsk c (genWait cc.isClient now) .user) { m with wait := genWait cc.isClient now } with
  | mk t ok =>
    rw [hwr] at ho hwe
    have hto : t.closed = false := by cases ok <;> exact ho
    have e := write_open (cfg := cc) (s := newAsk c (genWait cc.isClient now) .user)
        (msg := { m with wait := genWait cc.isClient now }) (by rw [hwr]; exact hto)
    rw [hwr] at e
    dsimp only at e
    cases ok with
    | false =>
      right
      simp only [finish, St.emit, endAsk, pipe_append]
      rw [e]
      simp only [pipe_append, hlog]
      have hz : pipe (writeLog cc (newAsk c (genWait cc.isClient now) .user) { m with wait := genWait cc.isClient now }) = [] := by
        unfold writeLog
        split
        · rename_i hmay
          rw [if_pos hmay] at hwe
          rw [rawWrite_open (cfg := cc)
            (s := St.markReady cc (newAsk c (genWait cc.isClient now) .user))
            (b := wireOf { m with wait := genWait cc.isClient now }) (binary := m.setBinary) (by
              rw [← hwe]; exact hto)] at hwe
          have h2 := congrArg (fun x => x.2) hwe
          have hml : (St.markReady cc (newAsk c (genWait cc.isClient now) .user)).log =
              (newAsk c (genWait cc.isClient now) .user).log := by rw [markReady_eq]
          dsimp only at h2
          rw [hml] at h2
          rw [← h2]; rfl
        · rfl
      rw [hz]
      simp [pipe]
    | true =>
      left
      dsimp only
      rw [e]
      refine ⟨?_, ?_, ?_, ?_, ?_⟩
      · simp only [retOf_append, (writeLog_sent _ _).projections.2.1, hlog]
        simp
      all_goals
        dsimp only
        unfold newAsk
        split <;> rfl


theorem cb_wrote_none {x : Bool × Bytes} (h : Silent sc) : ¬ CbWrote sc x := by
  rintro ⟨log, obj, hd, msg, k, hk, _⟩
  rw [h] at hk; cases hk

theorem adds_silent {l : List Obs} {cs : List Call} {ws : List (Bool × Bytes)} {rs : List (Cont × Result)}
    {os : List Obs} (hq : Silent sc) (h : Adds sc l cs ws rs os) : sentOf l = ws := by
  obtain ⟨pre, post, h1, h2⟩ := h.sent
  cases pre with
  | cons x t => exact absurd (h2 x (by simp)) (cb_wrote_none hq)
  | nil =>
    cases post with
    | cons x t => exact absurd (h2 x (by simp)) (cb_wrote_none hq)
    | nil => simpa using h1

/-- the payloads in the socket are among those that were written -/
theorem pipe_one {l : List Obs} {b : Bool} {q : Bytes} (h : sentOf l = [(b, q)]) :
    pipe l = [] ∨ pipe l = [(if b then .binary else .text, q)] := by
  induction l with
  | nil => cases h
  | cons o l ih =>
    cases o with
    | sent bin x ok =>
      simp only [sentOf, List.cons.injEq] at h
      obtain ⟨h1, h2⟩ := h
      cases h1
      have := pipe_of_sentOf h2
      cases ok <;> simp [pipe, this]
    | _ => exact ih h

/-- the request is not an answer for the side that reads it -/
theorem request_incoming {now : Int} {obj : Nat} {typ : MsgType} {p : Bytes}
    (hb : Answerer cc sc d m now obj) (hp : p ≠ [])
    (hd : deserializeMessage sc.known typ p sc.allowNative sc.onlyNative = requestOf cc sc m now) :
    Incoming sc d typ p (requestOf cc sc m now) := by
  have hw : sc.isClient = false → (requestOf cc sc m now).isWait sc.isClient = false := by
    intro h
    have : cc.isClient = true := by have := hb.side; rw [h] at this; simpa using this
    simp [requestOf, Message.isWait, genWait, this, h, waitIsConfirmationPrefix, waitComesFromClientPrefix]
  refine ⟨hp, hb.acked, hd, rfl, hb.notNative, ?_, ?_, ?_⟩
  · exact .inr (.inl rfl)
  · cases h : sc.isClient with
    | true => exact .inl rfl
    | false => exact .inr (.inr (h ▸ hw h))
  · rcases hb.own with h | h
    · exact .inr (hw h)
    · exact .inl h

theorem decode_nil (known : List KnownErr) (typ : MsgType) (an : Bool) :
    (deserializeMessage known typ [] an false).isInvalid = true := by
  cases typ <;> cases an <;> rfl

/-- one side asks, the other reads the request: nothing is sent when the callback returns nil; when
it returns something and a payload goes out, then it is the answer and the Ask returns it -/
theorem ask_cycle {now : Int} {obj : Nat} {typ : MsgType} {p : Bytes} {c1 d1 : St} (ha : Asker cc c m now)
    (hb : Answerer cc sc d m now obj) (hrc : Reach cc idc c) (hrd : Reach sc ids d)
    (h1 : step cc c (.ask m now false) = some c1) (ho1 : c1.closed = false)
    (hp : (pipe c1.log)[(pipe c.log).length]? = some (typ, p))
    (h2 : step sc d (.recv typ p) = some d1) (ho2 : d1.closed = false) :
    callsOf d1.log = callsOf d.log ++
        [⟨obj, requestOf cc sc m now, true, decide (m.room ∈ d.rooms obj)⟩] ∧
      (verdict sc d obj (requestOf cc sc m now) = none → pipe d1.log = pipe d.log) ∧
      ∀ e, verdict sc d obj (requestOf cc sc m now) = some e →
        ∀ typ' q, (pipe d1.log)[(pipe d.log).length]? = some (typ', q) →
          ∃ c2 c3 r x, step cc c1 (.recv typ' q) = some c2 ∧ c2.log = c1.log ∧
            step cc c2 (.resume c.asks.length) = some c3 ∧ c3.log = c1.log ++ [.ret .user (.answer r x)] ∧ r.err = x ∧
            Says cc.known (requestOf cc sc m now) e r := by
  obtain ⟨hret, hsrv, hi1, hi2, hi3⟩ : retOf c1.log = retOf c.log ∧ c1.srvWaiting = c.srvWaiting ∧
      c1.rd = c.rd ∧ c1.todo = c.todo ∧ c1.ackAfter = c.ackAfter := by
    rcases ask_sent ha.notNative h1 ho1 with h | h
    · exact h
    · rw [h] at hp; simp at hp
  obtain ⟨p', e1, e2⟩ := c63_request ha.notNative h1 ho1 hret ha.noErr ha.ns ha.room ha.eventName
  rw [e1] at hp
  simp at hp
  subst hp
  have hdec : deserializeMessage sc.known typ p sc.allowNative sc.onlyNative = requestOf cc sc m now :=
    e2 sc hb.notNative
  have hpne : p ≠ [] := by
    rintro rfl
    have : (requestOf cc sc m now).isInvalid = true := by
      rw [← hdec, hb.notNative]; exact decode_nil _ _ _
    simp [requestOf] at this
  have hin := request_incoming hb hpne hdec
  have hH : Handled sc d (requestOf cc sc m now) d1 := .recv typ p hin hb.gate h2
  have hloc : { requestOf cc sc m now with isLocal := false } = requestOf cc sc m now := rfl
  cases hv : verdict sc d obj (requestOf cc sc m now) with
  | none =>
    obtain ⟨l, k1, k2⟩ := c63_unanswered hrd hH ha.event hb.ns hv ho2
    refine ⟨?_, ?_, by simp⟩
    · rw [k1, callsOf_append, k2.calls]; rfl
    · intro _
      rw [k1, pipe_append, pipe_of_sentOf (adds_silent hb.silent k2)]; simp
  | some e =>
    obtain ⟨l, q, k1, k2, k3⟩ := c63_answered hrd hH ha.event
      (c01_generated_tokens_plain cc.isClient now).1 (genWait_ne_nil cc.isClient now) hb.ns hb.room hv ho2
    refine ⟨?_, by simp, ?_⟩
    · rw [k1, callsOf_append, k2.calls]; rfl
    · intro e' he' typ' q' hq
      cases he'
      obtain ⟨a, j1, j2, j3, j4, j8, _, j5⟩ := c61_ask ha.notNative h1 ho1 hret
      obtain ⟨j6, j7, _⟩ := j5 (by rintro ⟨⟨k, hk⟩ | ⟨i, k, hk⟩, _⟩ <;> rw [ha.idle.1] at hk <;> cases hk)
      have hq' : q' = q := by
        rw [k1, pipe_append] at hq
        rcases pipe_one (adds_silent hb.silent k2) with h | h
        · rw [h] at hq; simp at hq
        · rw [h] at hq; simp at hq; exact hq.2.symm
      subst hq'
      have hqne : q' ≠ [] := by
        rintro rfl
        have := (k3 cc.known typ' cc.allowNative).valid
        rw [decode_nil] at this; cases this
      have hack : c1.acked = true := by
        rcases step_acked hrc h1 (.inl ha.acked) with h | h
        · exact h
        · rw [ho1] at h; cases h
      exact c63_returned (i := c.asks.length) (a := a) (req := requestOf cc sc m now) (.step hrc h1) ha.notNative hack
        ⟨hi1.trans ha.idle.1, hi2.trans ha.idle.2.1, hi3.trans ha.idle.2.2⟩ (by rw [j1]; simp) j3 j6 j4 j8 j2 j7 (by rw [j2, hsrv]; exact ha.srv) hqne j2.symm (fun an => k3 _ _ an)

/-- C63: a client asks and the server reads the request: its callback ran once, for the request.
If the callback returned nil then there is nothing for the client to read. If it returned `e` and the
socket took the answer, then the client reads it and the Ask returns what says `e`. -/
theorem c63_client {s s1 : Sess} {now : Int} {obj : Nat} (ha : Asker cc s.c m now)
    (hb : Answerer cc sc s.d m now obj) (hrc : Reach cc idc s.c) (hrd : Reach sc ids s.d)
    (hu : s.up = (pipe s.c.log).length) (hd : s.down = (pipe s.d.log).length)
    (hs : srun cc sc s [.client (.ask m now false), .up] = some s1)
    (ho1 : s1.c.closed = false) (ho2 : s1.d.closed = false) :
    callsOf s1.d.log = callsOf s.d.log ++
        [⟨obj, requestOf cc sc m now, true, decide (m.room ∈ s.d.rooms obj)⟩] ∧
      (verdict sc s.d obj (requestOf cc sc m now) = none → sstep cc sc s1 .down = none) ∧
      ∀ e, verdict sc s.d obj (requestOf cc sc m now) = some e → s1.down < (pipe s1.d.log).length →
        ∃ s2 r x, srun cc sc s1 [.down, .client (.resume s.c.asks.length)] = some s2 ∧
          s2.c.log = s1.c.log ++ [.ret .user (.answer r x)] ∧ r.err = x ∧
          Says cc.known (requestOf cc sc m now) e r := by
  simp only [srun, sstep] at hs
  rw [if_neg (by simp [Op.reads])] at hs
  cases h1 : step cc s.c (.ask m now false) with
  | none => rw [h1] at hs; simp at hs
  | some c1 =>
    rw [h1] at hs
    simp only [Option.map_some] at hs
    cases hp : (pipe c1.log)[s.up]? with
    | none => rw [hp] at hs; simp at hs
    | some tp =>
      obtain ⟨typ, p⟩ := tp
      rw [hp] at hs
      cases h2 : step sc s.d (.recv typ p) with
      | none => simp [h2] at hs
      | some d1 =>
        simp only [h2, Option.map_some, Option.some.injEq] at hs
        subst hs
        rw [hu] at hp
        obtain ⟨k1, k2, k3⟩ := ask_cycle ha hb hrc hrd h1 ho1 hp h2 ho2
        refine ⟨k1, ?_, ?_⟩
        · intro hv
          simp only [sstep]
          rw [k2 hv, hd]
          simp
        · intro e he hlt
          obtain ⟨⟨typ', q⟩, hq⟩ : ∃ x, (pipe d1.log)[(pipe s.d.log).length]? = some x :=
            ⟨_, List.getElem?_eq_getElem (by rw [← hd]; exact hlt)⟩
          obtain ⟨c2, c3, r, x, j1, _, j2, j3, j4, j5⟩ := k3 e he typ' q hq
          refine ⟨{ c := c3, d := d1, up := s.up + 1, down := s.down + 1 }, r, x, ?_, j3, j4, j5⟩
          simp [srun, sstep, Op.reads, hd, hq, j1, j2]

/-- C63: the same when the server asks. -/
theorem c63_server {s s1 : Sess} {now : Int} {obj : Nat} (ha : Asker sc s.d m now)
    (hb : Answerer sc cc s.c m now obj) (hrc : Reach cc idc s.c) (hrd : Reach sc ids s.d)
    (hu : s.up = (pipe s.c.log).length) (hd : s.down = (pipe s.d.log).length)
    (hs : srun cc sc s [.server (.ask m now false), .down] = some s1)
    (ho1 : s1.c.closed = false) (ho2 : s1.d.closed = false) :
    callsOf s1.c.log = callsOf s.c.log ++
        [⟨obj, requestOf sc cc m now, true, decide (m.room ∈ s.c.rooms obj)⟩] ∧
      (verdict cc s.c obj (requestOf sc cc m now) = none → sstep cc sc s1 .up = none) ∧
      ∀ e, verdict cc s.c obj (requestOf sc cc m now) = some e → s1.up < (pipe s1.c.log).length →
        ∃ s2 r x, srun cc sc s1 [.up, .server (.resume s.d.asks.length)] = some s2 ∧
          s2.d.log = s1.d.log ++ [.ret .user (.answer r x)] ∧ r.err = x ∧
          Says sc.known (requestOf sc cc m now) e r := by
  simp only [srun, sstep] at hs
  rw [if_neg (by simp [Op.reads])] at hs
  cases h1 : step sc s.d (.ask m now false) with
  | none => rw [h1] at hs; simp at hs
  | some c1 =>
    rw [h1] at hs
    simp only [Option.map_some] at hs
    cases hp : (pipe c1.log)[s.down]? with
    | none => rw [hp] at hs; simp at hs
    | some tp =>
      obtain ⟨typ, p⟩ := tp
      rw [hp] at hs
      cases h2 : step cc s.c (.recv typ p) with
      | none => simp [h2] at hs
      | some d1 =>
        simp only [h2, Option.map_some, Option.some.injEq] at hs
        subst hs
        rw [hd] at hp
        obtain ⟨k1, k2, k3⟩ := ask_cycle ha hb hrd hrc h1 ho2 hp h2 ho1
        refine ⟨k1, ?_, ?_⟩
        · intro hv
          simp only [sstep]
          rw [k2 hv, hu]
          simp
        · intro e he hlt
          obtain ⟨⟨typ', q⟩, hq⟩ : ∃ x, (pipe d1.log)[(pipe s.c.log).length]? = some x :=
            ⟨_, List.getElem?_eq_getElem (by rw [← hu]; exact hlt)⟩
          obtain ⟨c2, c3, r, x, j1, _, j2, j3, j4, j5⟩ := k3 e he typ' q hq
          refine ⟨{ c := d1, d := c3, up := s.up + 1, down := s.down + 1 }, r, x, ?_, j3, j4, j5⟩
          simp [srun, sstep, Op.reads, hu, hq, j1, j2]

/-! ## Concrete cases -/

/-- replies to the event `q`, fails the event `no`, and says nothing about others -/
def askCb : List Obs → Nat → Bytes → Message → List Act × Option GoErr :=
  fun _ _ _ msg => ([], if msg.event = b! "q" then some (.reply (b! "yes"))
    else if msg.event = b! "no" then some (.text (b! "bad")) else none)

/-- both sides are connected to `chat`, and everything written was read -/
def askPair : Sess :=
  { c := after (clientCfg chatDecl askCb) [] chatOps, d := after (serverCfg chatDecl askCb) (b! "1") chatSrvOps,
    up := 1, down := 2 }

/-- The client asks `q`: the hypotheses of `c63_client` hold, and the Ask returns the reply. -/
example : let cc := clientCfg chatDecl askCb
    let sc := serverCfg chatDecl askCb
    let m : Message := { ns := b! "chat", event := b! "q", body := b! "1" }
    Asker cc askPair.c m 9 ∧ Answerer cc sc askPair.d m 9 0 ∧ Reach cc [] askPair.c ∧ Reach sc (b! "1") askPair.d ∧
      askPair.up = (pipe askPair.c.log).length ∧ askPair.down = (pipe askPair.d.log).length ∧
      (srun cc sc askPair [.client (.ask m 9 false), .up]).map (fun s => (s.c.closed, s.d.closed,
        decide (s.down < (pipe s.d.log).length))) = some (false, false, true) ∧
      verdict sc askPair.d 0 (requestOf cc sc m 9) = some (.reply (b! "yes")) ∧
      (srun cc sc askPair [.client (.ask m 9 false), .up, .down, .client (.resume askPair.c.asks.length)]).map
        (fun s => (retOf (s.c.log.drop askPair.c.log.length)).map (fun x =>
          match x.2 with | .answer r e => (r.body, e) | _ => ([], none))) = some [(b! "yes", none)] := by
  refine ⟨⟨by decide +kernel, by decide +kernel, by decide +kernel, by decide +kernel,
    (unescape_escape_iff _).mp (by decide +kernel), (unescape_escape_iff _).mp (by decide +kernel),
    (unescape_escape_iff _).mp (by decide +kernel), by decide +kernel, by unfold NotRequest; decide +kernel⟩,
    ⟨by decide +kernel, by decide +kernel, by decide +kernel, by decide +kernel, by decide +kernel,
    by decide +kernel, by decide +kernel, fun _ _ _ _ => rfl⟩,
    after_reach (ops := chatOps) (by decide +kernel), after_reach (ops := chatSrvOps) (by decide +kernel), ?_⟩
  decide +kernel

/-- The server asks `no`: the hypotheses of `c63_server` hold, and the Ask returns the error. -/
example : let cc := clientCfg chatDecl askCb
    let sc := serverCfg chatDecl askCb
    let m : Message := { ns := b! "chat", event := b! "no" }
    Asker sc askPair.d m 9 ∧ Answerer sc cc askPair.c m 9 0 ∧
      (srun cc sc askPair [.server (.ask m 9 false), .down]).map (fun s => (s.c.closed, s.d.closed,
        decide (s.up < (pipe s.c.log).length))) = some (false, false, true) ∧
      verdict cc askPair.c 0 (requestOf sc cc m 9) = some (.text (b! "bad")) ∧
      (srun cc sc askPair [.server (.ask m 9 false), .down, .up, .server (.resume askPair.d.asks.length)]).map
        (fun s => (retOf (s.d.log.drop askPair.d.log.length)).map (fun x =>
          match x.2 with | .answer r e => (r.body, e) | _ => ([], none))) = some [([], some (.text (b! "bad")))] := by
  refine ⟨⟨by decide +kernel, by decide +kernel, by decide +kernel, by decide +kernel,
    (unescape_escape_iff _).mp (by decide +kernel), (unescape_escape_iff _).mp (by decide +kernel),
    (unescape_escape_iff _).mp (by decide +kernel), by decide +kernel, by unfold NotRequest; decide +kernel⟩,
    ⟨by decide +kernel, by decide +kernel, by decide +kernel, by decide +kernel, by decide +kernel,
    by decide +kernel, by decide +kernel, fun _ _ _ _ => rfl⟩, ?_⟩
  decide +kernel

/-- The client asks an event whose callback returns nil: there is no answer. -/
example : let cc := clientCfg chatDecl askCb
    let sc := serverCfg chatDecl askCb
    let m : Message := { ns := b! "chat", event := b! "other" }
    verdict sc askPair.d 0 (requestOf cc sc m 9) = none ∧
      (srun cc sc askPair [.client (.ask m 9 false), .up]).isSome = true ∧
      (srun cc sc askPair [.client (.ask m 9 false), .up, .down]).isNone = true := by
  decide +kernel

end Neffos
