import Verif.Model.Session
import Verif.Spec.Conn
import Verif.Spec.Wire
/-!
# Specification vocabulary for sessions
-/
namespace Neffos.Spec

/-- Calls through which user code on the server starts to use its connection before OnConnect
has returned. -/
def usesConn : Op → Bool
  | .write _ => true
  | .ask _ _ _ => true
  | .connect _ _ _ => true
  | _ => false

/-- Who does what while `Dial` runs. The client sends its acknowledgement, once and first;
nobody has the client's connection before `Dial` returns it, so until then its only other
operations are reading, a failing read, and the `Close` at the end of a failing `Dial`. The
server's side is free, except that it does not write native payloads, or messages with a wait
token put in by hand, before it is acknowledged. -/
def DialRules (s : Sess) : SessOp → Prop
  | .client op => s.c.ready = some none ∨ (op = .sendAck ∧ s.c.log = []) ∨ op = .close ∨
      ∃ e, op = .readErr e
  | .server op => op ≠ .sendAck ∧
      ∀ m, op = .write m → s.d.acked = true ∨ (m.isNative = false ∧ m.wait = [])
  | _ => True

/-- a history in which every step keeps to these rules -/
inductive DialRun (cc sc : Cfg) (id : Bytes) : List SessOp → Sess → Prop
  | init : DialRun cc sc id [] (newSess cc sc id)
  | step {ops : List SessOp} {s s' : Sess} {op : SessOp} : DialRun cc sc id ops s →
      DialRules s op → sstep cc sc s op = some s' → DialRun cc sc id (ops ++ [op]) s'

/-- What decides the server's answer to the handshake: the first of OnConnect returning, of a
use of the connection, and of a failing read. -/
inductive Decides : Op → Option GoErr → Prop
  | returned (r : Option GoErr) : Decides (.ready r) r
  | used (op : Op) : usesConn op = true → Decides op none
  | readFailed (e : GoErr) : Decides (.readErr e) (some e)

/-! ## Membership of both sides -/

/-- the connection is connected to the namespace -/
def InNs (s : St) (ns : Bytes) : Prop := s.namespace ns ≠ none

/-- it is connected to the namespace and has joined the room there -/
def InRoom (s : St) (ns room : Bytes) : Prop := ∃ obj, s.namespace ns = some obj ∧ room ∈ s.rooms obj

/-- both sides are in the same namespaces and in the same rooms of each -/
def Agree (c d : St) : Prop :=
  (∀ ns, InNs c ns ↔ InNs d ns) ∧ ∀ ns room, InRoom c ns room ↔ InRoom d ns room

/-- no request of this side is in flight -/
def NoRequest (s : St) : Prop := ∀ a ∈ s.asks, a.done = true

/-- a message as `Emit` builds it: no wait token, not native -/
def AppMsg (m : Message) : Prop := m.wait = [] ∧ m.isNative = false

/-- a request can be made: Dial has returned, no other request is in flight and the reader is
not inside a handler -/
def MayRequest (s : St) : Prop := s.ready = some none ∧ NoRequest s ∧ s.rd = .idle

/-- One request at a time. The client connects, disconnects, joins and leaves with at most one
call in flight, with names that survive escaping, and joins and leaves rooms through an NSConn
that is connected; both sides emit and may close at any time. The server makes no requests. -/
def OneRequest (s : Sess) : SessOp → Prop
  | .client .sendAck => s.c.log = []
  | .client (.write m) => s.c.ready = some none ∧ AppMsg m
  | .client (.connect ns _ _) => MayRequest s.c ∧ SafeName ns
  | .client (.disconnect obj _ _) => MayRequest s.c ∧ SafeName (s.c.nsName obj)
  | .client (.join obj room _ _) =>
      MayRequest s.c ∧ linked s.c obj = true ∧ SafeName (s.c.nsName obj) ∧ SafeName room
  | .client (.leave obj room _ _) =>
      MayRequest s.c ∧ linked s.c obj = true ∧ SafeName (s.c.nsName obj) ∧ SafeName room
  | .client (.resume _) => True
  | .client .wake => True
  | .client .close => True
  | .client (.readErr _) => True
  | .client _ => False
  | .server (.write m) => AppMsg m
  | .server (.ready _) => True
  | .server .wake => True
  | .server .close => True
  | .server (.readErr _) => True
  | .server _ => False
  | .up => True
  | .down => True
  | _ => False

/-- the sessions in which every step keeps to this -/
inductive OneRun (cc sc : Cfg) (id : Bytes) : List SessOp → Sess → Prop
  | init : OneRun cc sc id [] (newSess cc sc id)
  | step {ops : List SessOp} {s s' : Sess} {op : SessOp} : OneRun cc sc id ops s →
      OneRequest s op → sstep cc sc s op = some s' → OneRun cc sc id (ops ++ [op]) s'

/-- the requests that change membership -/
def isRequest (event : Bytes) : Prop :=
  event = OnNamespaceConnect ∨ event = OnNamespaceDisconnect ∨ event = OnRoomJoin ∨ event = OnRoomLeave

/-- What is asked of the callbacks: they write messages as `Emit` does; the server refuses a
request with an error that has a text and is not a `Reply`; the client does not refuse to join or
leave after the server accepted its own call, for which its callback gets the message of the call,
which has no wait token. -/
structure Consistent (cc sc : Cfg) : Prop where
  client : ∀ log obj h msg m, Act.write m ∈ (cc.cb log obj h msg).1 → AppMsg m
  server : ∀ log obj h msg m, Act.write m ∈ (sc.cb log obj h msg).1 → AppMsg m
  refuses : ∀ log obj h msg e, isRequest msg.event → (sc.cb log obj h msg).2 = some e →
    e.errorText ≠ [] ∧ ∀ b, e ≠ .reply b
  accepts : ∀ log obj h msg, (msg.event = OnRoomJoin ∨ msg.event = OnRoomLeave) → msg.wait = [] →
    (cc.cb log obj h msg).2 = none

/-- how the verdict of one side reaches the other: acceptance as acceptance, an error as the one
that its text stands for there -/
def Carries (known : List KnownErr) : Option GoErr → Option GoErr → Prop
  | none, x => x = none
  | some e, x => ∃ e', x = some e' ∧ ResolvesTo known e.errorText e'

/-- a callback of this side returned this error for such an event -/
def Refused (s : St) (event ns room : Bytes) (e : GoErr) : Prop :=
  ∃ obj v msg h, Obs.fired obj v msg (some h) (some e) ∈ s.log ∧ msg.event = event ∧ msg.ns = ns ∧ msg.room = room

/-! ## Several requests at a time -/

/-- what a call is about: a namespace, or a room of one; a plain Ask is about neither -/
def about : Cont → Option (Bytes × Option Bytes)
  | .connect ns _ => some (ns, none)
  | .disconnect _ msg => some (msg.ns, none)
  | .join _ msg => some (msg.ns, some msg.room)
  | .leave _ msg => some (msg.ns, some msg.room)
  | .user => none

/-- calls that must not overlap: about the same room, or about the same namespace when one of them
is about the namespace itself -/
def Clash (x y : Bytes × Option Bytes) : Prop := x.1 = y.1 ∧ (x.2 = none ∨ y.2 = none ∨ x.2 = y.2)

/-- no call in flight clashes with this -/
def Unclaimed (s : St) (x : Bytes × Option Bytes) : Prop :=
  ∀ a ∈ s.asks, a.done = false → ∀ y, about a.cont = some y → ¬ Clash x y

/-- a call can be made although others are in flight: Dial has returned, the reader is not inside
a handler, and none of the others has the token that this one gets from the clock -/
def MayAsk (s : St) (now : Int) : Prop :=
  s.ready = some none ∧ s.rd = .idle ∧ ∀ a ∈ s.asks, a.done = false → a.tok ≠ genWait true now

/-- a message that a plain Ask sends: its names survive escaping and it is not one of the four
requests -/
def AskMsg (m : Message) : Prop :=
  SafeName m.ns ∧ SafeName m.room ∧ SafeName m.event ∧ ¬ isRequest m.event

/-- Any number of calls at a time: like `OneRequest`, but the client calls while other calls are
in flight, as long as none of those clashes with it, and also asks. -/
def ManyRequests (s : Sess) : SessOp → Prop
  | .client (.connect ns now _) => MayAsk s.c now ∧ Unclaimed s.c (ns, none) ∧ SafeName ns
  | .client (.disconnect obj now _) =>
      MayAsk s.c now ∧ Unclaimed s.c (s.c.nsName obj, none) ∧ SafeName (s.c.nsName obj)
  | .client (.join obj room now _) => MayAsk s.c now ∧ Unclaimed s.c (s.c.nsName obj, some room) ∧
      linked s.c obj = true ∧ SafeName (s.c.nsName obj) ∧ SafeName room
  | .client (.leave obj room now _) => MayAsk s.c now ∧ Unclaimed s.c (s.c.nsName obj, some room) ∧
      linked s.c obj = true ∧ SafeName (s.c.nsName obj) ∧ SafeName room
  | .client (.ask m now _) => MayAsk s.c now ∧ AskMsg m
  | op => OneRequest s op

/-- the sessions in which every step keeps to this -/
inductive ManyRun (cc sc : Cfg) (id : Bytes) : List SessOp → Sess → Prop
  | init : ManyRun cc sc id [] (newSess cc sc id)
  | step {ops : List SessOp} {s s' : Sess} {op : SessOp} : ManyRun cc sc id ops s →
      ManyRequests s op → sstep cc sc s op = some s' → ManyRun cc sc id (ops ++ [op]) s'

/-! ## What becomes of a plain Ask -/

/-- the client asked this with this token -/
def AskedFor (ops : List SessOp) (tok : Bytes) (m : Message) : Prop :=
  ∃ now ex, tok = genWait true now ∧ SessOp.client (.ask m now ex) ∈ ops

/-- the message that the other side reads when `m` is asked with this token: the same names, and
all of it unless `m` carries an error -/
structure Heard (m : Message) (tok : Bytes) (M : Message) : Prop where
  wait : M.wait = tok
  ns : M.ns = m.ns
  room : M.room = m.room
  event : M.event = m.event
  whole : m.err = none → M =
    { wait := tok, ns := m.ns, room := m.room, event := m.event, body := m.body, isNoOp := m.isNoOp,
      setBinary := m.setBinary }

/-- a callback of this side was called for this Ask and returned `e` -/
def AskTold (s : St) (m : Message) (tok : Bytes) (e : GoErr) : Prop :=
  ∃ obj v M h, Obs.fired obj v M (some h) (some e) ∈ s.log ∧ Heard m tok M

/-- Why this side, which read the Ask, does not answer: there is no callback or it returned nil; or
it returned an error or a `Reply` but this side is not in the room of the message, or the socket
did not take the answer. -/
inductive Silence (s : St) (m : Message) (tok : Bytes) : Prop
  | nil (obj : Nat) (v : View) (M : Message) (h : Option Bytes) :
      Obs.fired obj v M h none ∈ s.log → Heard m tok M → Silence s m tok
  | room (obj : Nat) (v : View) (M : Message) (h : Bytes) (e : GoErr) :
      Obs.fired obj v M (some h) (some e) ∈ s.log → Heard m tok M → m.room ≠ [] → v.inRoom = false → Silence s m tok
  | socket (obj : Nat) (v : View) (M : Message) (h : Bytes) (e : GoErr) (b : Bytes) :
      Obs.fired obj v M (some h) (some e) ∈ s.log → Heard m tok M →
      serializeMessage { M with err := some e } = some b → Obs.sent M.setBinary b false ∈ s.log → Silence s m tok

/-- the server read the Ask when it was not connected to its namespace -/
def Away (cc sc : Cfg) (id : Bytes) (ops : List SessOp) (tok : Bytes) (m : Message) : Prop :=
  ∃ before s b, before ++ [.up] <+: ops ∧ ManyRun cc sc id before s ∧
    serializeMessage { m with wait := tok, fromExplicit := [] } = some b ∧
    (pipe s.c.log)[s.up]? = some (if m.setBinary then .binary else .text, b) ∧ ¬ InNs s.d m.ns

/-! ## What a session can still do -/

/-- callbacks that are run for a forced leave, with the mutex of the rooms held, do not use the connection -/
def QuietLeaves (cfg : Cfg) : Prop := ∀ log obj h msg, msg.isForced = true → (cfg.cb log obj h msg).1 = []

/-- this side wrote an answer with this token, and its socket did not take it -/
def Untaken (s : St) (tok : Bytes) : Prop :=
  ∃ bin b, Obs.sent bin b false ∈ s.log ∧
    ∀ known, (deserializeMessage known (if bin then .binary else .text) b false false).wait = tok

/-- neither reader can read or go on, and no call of the client can return -/
structure Stalled (cc sc : Cfg) (s : Sess) : Prop where
  up : sstep cc sc s .up = none
  down : sstep cc sc s .down = none
  wake : sstep cc sc s (.client .wake) = none
  resume : ∀ i, sstep cc sc s (.client (.resume i)) = none

/-! ## What becomes of an event -/

/-- the client emitted this as its payload number `n`, when this was the session -/
structure EmitsUp (cc sc : Cfg) (id : Bytes) (ops : List SessOp) (m : Message) (n : Nat) (s0 : Sess) : Prop where
  made : ∃ before s1, before ++ [.client (.write m)] <+: ops ∧ ManyRun cc sc id before s0 ∧
    sstep cc sc s0 (.client (.write m)) = some s1 ∧ (pipe s1.c.log).length = n + 1
  place : (pipe s0.c.log).length = n

/-- the server emitted this as its payload number `n`, when this was the session -/
structure EmitsDown (cc sc : Cfg) (id : Bytes) (ops : List SessOp) (m : Message) (n : Nat) (s0 : Sess) : Prop where
  made : ∃ before s1, before ++ [.server (.write m)] <+: ops ∧ ManyRun cc sc id before s0 ∧
    sstep cc sc s0 (.server (.write m)) = some s1 ∧ (pipe s1.d.log).length = n + 1
  place : (pipe s0.d.log).length = n

/-- one callback ran in between: that of this event, for the NSConn that is connected to its namespace -/
def Runs (s t : St) (m : Message) : Prop :=
  ∃ obj M, s.namespace m.ns = some obj ∧ Heard m [] M ∧
    callsOf t.log = callsOf s.log ++ [⟨obj, M, true, decide (m.room ∈ s.rooms obj)⟩]

end Neffos.Spec
