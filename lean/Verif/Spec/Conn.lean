import Verif.Model.Conn
/-!
# Specification vocabulary for connections

What users see of a connection: the callbacks that ran, the bytes on the socket, what
calls returned, and the namespaces and rooms reported by `Namespace` and `Rooms`.
-/
namespace Neffos.Spec

/-- the callback events of a history: NSConn, message, result -/
def firedOf : List Obs → List (Nat × Message × Option GoErr)
  | [] => []
  | .fired obj _ msg _ ret :: t => (obj, msg, ret) :: firedOf t
  | _ :: t => firedOf t

/-- the bytes handed to the socket in a history, with their kind -/
def sentOf : List Obs → List (Bool × Bytes)
  | [] => []
  | .sent binary b _ :: t => (binary, b) :: sentOf t
  | _ :: t => sentOf t

/-- what calls returned in a history -/
def retOf : List Obs → List (Cont × Result)
  | [] => []
  | .ret k r :: t => (k, r) :: retOf t
  | _ :: t => retOf t

/-- the observations of closing and of the StackExchange -/
def otherOf : List Obs → List Obs
  | [] => []
  | .fired _ _ _ _ _ :: t => otherOf t
  | .sent _ _ _ :: t => otherOf t
  | .ret _ _ :: t => otherOf t
  | o :: t => o :: otherOf t

/-- the observations of closing: the server told, the close channel closed, the socket
closed -/
def closingOf : List Obs → List Obs
  | [] => []
  | .notifyServer :: t => .notifyServer :: closingOf t
  | .closeCh :: t => .closeCh :: closingOf t
  | .netClosed :: t => .netClosed :: closingOf t
  | _ :: t => closingOf t

/-- A callback call: its NSConn and message, whether the connection was connected to the
namespace with that NSConn, and whether that NSConn was in the message's room. -/
structure Call where
  obj : Nat
  msg : Message
  connected : Bool
  inRoom : Bool
  deriving DecidableEq

/-- the callback calls of a history -/
def callsOf : List Obs → List Call
  | [] => []
  | .fired obj v msg _ _ :: t => ⟨obj, msg, v.connected, v.inRoom⟩ :: callsOf t
  | _ :: t => callsOf t

/-- the calls for a room that is left by force: the first while still in the room, the
second when out of it -/
def roomLeft (obj : Nat) (ns : Bytes) (isLocal connected : Bool) (room : Bytes) : List Call :=
  [⟨obj, { ns := ns, room := room, event := OnRoomLeave, isForced := true, isLocal := isLocal },
    connected, true⟩,
   ⟨obj, { ns := ns, room := room, event := OnRoomLeft, isForced := true, isLocal := isLocal },
    connected, false⟩]

/-- the calls for a namespace that is closed: every room first, all while connected -/
def namespaceClosed (obj : Nat) (ns : Bytes) (rooms : List Bytes) : List Call :=
  rooms.flatMap (roomLeft obj ns true true) ++
    [⟨obj, { ns := ns, event := OnNamespaceDisconnect, isForced := true, isLocal := true },
      true, false⟩]

/-- is the connection connected to the namespace of this NSConn with it -/
def linked (s : St) (obj : Nat) : Bool := s.namespace (s.nsName obj) = some obj

/-- The explicit sender of the message is this connection. -/
def IsSender (cfg : Cfg) (s : St) (msg : Message) : Prop :=
  msg.fromExplicit ≠ [] ∧
    msg.fromExplicit = if cfg.isClient = true then s.id else cfg.serverConnID

/-- The rule of the write gate. -/
def MayWrite (cfg : Cfg) (s : St) (msg : Message) : Prop :=
  s.closed = false ∧ ¬ IsSender cfg s msg ∧
    (msg.event = OnNamespaceConnect ∨ msg.event = OnNamespaceDisconnect ∨
      ∃ obj, s.namespace msg.ns = some obj ∧
        (msg.room = [] ∨ msg.event = OnRoomJoin ∨ msg.event = OnRoomLeft ∨
          msg.room ∈ s.rooms obj))

/-- The result of the callback for a message, nil when there is none: the callback of the
event, else the OnAnyEvent one. -/
def verdict (cfg : Cfg) (s : St) (obj : Nat) (msg : Message) : Option GoErr :=
  if msg.event ∈ cfg.events (s.nsName obj) then (cfg.cb s.log obj msg.event msg).2
  else if OnAnyEvent ∈ cfg.events (s.nsName obj) then (cfg.cb s.log obj OnAnyEvent msg).2
  else none

/-- the same for a namespace that is about to be connected, with a new NSConn -/
def connectVerdict (cfg : Cfg) (s : St) (msg : Message) : Option GoErr :=
  if msg.event ∈ cfg.events msg.ns then (cfg.cb s.log s.objs.length msg.event msg).2
  else if OnAnyEvent ∈ cfg.events msg.ns then (cfg.cb s.log s.objs.length OnAnyEvent msg).2
  else none

/-- The reader is about to handle the payload `b`, which decodes to the request or event
`msg`: the connection is acknowledged, the message is not malformed, not native-only and
not the answer to an Ask. -/
structure Incoming (cfg : Cfg) (s : St) (typ : MsgType) (b : Bytes) (msg : Message) : Prop where
  nonempty : b ≠ []
  acked : s.acked = true
  decodes : deserializeMessage cfg.known typ b cfg.allowNative cfg.onlyNative = msg
  valid : msg.isInvalid = false
  notNative : cfg.onlyNative = false
  notExchange : cfg.isClient = true ∨ msg.fromStackExchange = false ∨ cfg.usesExchange = false ∨
    msg.isWait cfg.isClient = false
  notServerAnswer : cfg.isClient = true ∨ msg.wait ∉ s.srvWaiting ∨ msg.isWait cfg.isClient = false
  notAnswer : mapGet s.waiting msg.wait = none ∨ msg.isWait cfg.isClient = false

/-- callbacks that neither write nor close -/
def Silent (cfg : Cfg) : Prop := ∀ log obj handler msg, (cfg.cb log obj handler msg).1 = []

/-- bytes that a callback writes -/
def CbWrote (cfg : Cfg) (x : Bool × Bytes) : Prop :=
  ∃ log obj handler msg m, Act.write m ∈ (cfg.cb log obj handler msg).1 ∧ x.1 = m.setBinary ∧
    serializeMessage { m with fromExplicit := [] } = some x.2

/-- A piece of history in which exactly these callbacks ran, these bytes were written
besides what the callbacks themselves wrote, these calls returned, and these closing and
StackExchange notes were made, nothing else. -/
structure Adds (cfg : Cfg) (l : List Obs) (cs : List Call)
    (ws : List (Bool × Bytes)) (rs : List (Cont × Result)) (os : List Obs) : Prop where
  calls : callsOf l = cs
  sent : ∃ pre post, sentOf l = pre ++ ws ++ post ∧ ∀ x ∈ pre ++ post, CbWrote cfg x
  ret : retOf l = rs
  other : otherOf l = os

/-- a message that wants an answer -/
def Wanted (msg : Message) : Prop := msg.wait ≠ [] ∧ msg.isNoOp = false

/-- The reader starts on a request or event other than a namespace connect or disconnect:
it arrives while the gate is open, or it was held at the gate. -/
inductive Handled (cfg : Cfg) (s : St) (msg : Message) (s' : St) : Prop
  | recv (typ : MsgType) (b : Bytes) : Incoming cfg s typ b msg → gateBlocks s msg.ns = false →
      step cfg s (.recv typ b) = some s' → Handled cfg s msg s'
  | wake : s.rd = .gate msg → s.todo = [] → s.ackAfter = false →
      step cfg s .wake = some s' → Handled cfg s msg s'

/-- what is told to the StackExchange when a namespace is connected or disconnected: a server
tells it, a client has none -/
def connNotes (cfg : Cfg) (ns : Bytes) : List Obs :=
  if (!cfg.isClient && cfg.usesExchange) = true then [.subscribe ns] else []

def discNotes (cfg : Cfg) (ns : Bytes) : List Obs :=
  if (!cfg.isClient && cfg.usesExchange) = true then [.unsubscribe ns] else []

/-- The callback of `ev1` ran for this NSConn and room and returned nil, and later that of
`ev2` ran. -/
def InOrder (ev1 ev2 : Bytes) (obj : Nat) (room : Option Bytes) (l : List Obs) : Prop :=
  ∃ l1 l2 l3 v1 m1 h1 v2 m2 h2 r2,
    l = l1 ++ Obs.fired obj v1 m1 h1 none :: l2 ++ Obs.fired obj v2 m2 h2 r2 :: l3 ∧
    m1.event = ev1 ∧ m2.event = ev2 ∧ ∀ r, room = some r → m1.room = r ∧ m2.room = r

/-- calls that connect, disconnect or join from this side -/
def asksMembership : Op → Bool
  | .connect _ _ _ => true
  | .disconnect _ _ _ => true
  | .join _ _ _ _ => true
  | _ => false

/-- the states of a connection whose own side never connects, disconnects or joins, as the
server side of most applications: it answers requests, writes, asks, leaves rooms, closes -/
inductive PassiveReach (cfg : Cfg) (id : Bytes) : St → Prop
  | init : PassiveReach cfg id (newConn cfg id)
  | step {s s' : St} {op : Op} : PassiveReach cfg id s → asksMembership op = false →
      step cfg s op = some s' → PassiveReach cfg id s'

end Neffos.Spec
