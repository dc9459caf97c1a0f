import Verif.Model.Net
import Verif.Spec.Delivery
import Verif.Spec.ServerLoop
/-!
# Specification vocabulary for a server with all its clients

What is heard is compared by namespace, room, event, body and kind. The places that are looked at are
given by `want`, a set of pairs of a namespace and a room; the room is empty for the namespace itself.
-/
set_option autoImplicit false
namespace Neffos.Spec

/-- what a message says -/
def said (m : Message) : Bytes × Bytes × Bytes × Bytes × Bool := (m.ns, m.room, m.event, m.body, m.setBinary)

/-- what these messages say in these places, answers left out -/
def saidIn (want : Bytes → Bytes → Bool) (ms : List Message) : List (Bytes × Bytes × Bytes × Bytes × Bool) :=
  (ms.filter fun m => want m.ns m.room && decide (m.wait = [])).map said

/-- an event as `Emit` and `Broadcast` take it, with names that survive escaping -/
structure PlainEvent (m : Message) : Prop where
  app : AppMsg m
  err : m.err = none
  ns : SafeName m.ns
  room : SafeName m.room
  event : SafeName m.event
  life : ¬ Life m.event

/-- the message is for others than the connection with this ID: it has its ID as the sender, or is addressed to another -/
def ForOthers (id : Bytes) (m : Message) : Bool := decide (m.sender = id) || (decide (m.to ≠ []) && decide (m.to ≠ id))

/-- it was broadcast with this connection as the sender -/
def ByItself (serverConnID : Bytes) (m : Message) : Bool :=
  decide (m.fromExplicit ≠ []) && decide (m.fromExplicit = serverConnID)

/-- The messages of a batch that are for the connection with this ID, in these places: those before the first that is
for others (C38), without those it broadcast itself. -/
def dueTo (want : Bytes → Bytes → Bool) (id serverConnID : Bytes) (ms : List Message) : List Message :=
  (ms.takeWhile fun m => !ForOthers id m).filter fun m => want m.ns m.room && !ByItself serverConnID m

/-- the calls that the loop received, in this order -/
def servedIn (log : List LEv) : List Nat :=
  log.filterMap fun e => match e with
    | .served k => some k
    | _ => none

/-- the call is a `Broadcast` -/
def isCast (s : LSt) (k : Nat) : Bool :=
  match s.calls[k]? with
  | some x => decide (x.kind = .cast)
  | none => false

/-- the broadcasts that the loop received, in this order -/
def castsIn (s : LSt) (log : List LEv) : List Nat := (servedIn log).filter (isCast s)

/-- Connection `c` is there for what is broadcast in these places while these steps are taken. -/
structure Attends (cfg : NetCfg) (want : Bytes → Bytes → Bool) (c : Nat) (s : Net) (ops : List NetOp) (s' : Net) :
    Prop where
  /-- at the start the handshake is over and the client has read everything; the loop knows the connection -/
  works : Working (s.sess c).c
  acked : (s.sess c).d.acked = true
  emptyFrom : held (s.sess c).c = [] ∧ (s.sess c).down = (pipe (s.sess c).d.log).length
  known : c ∈ s.loop.regs
  /-- at the end the client has read everything -/
  emptyTo : held (s'.sess c).c = [] ∧ (s'.sess c).down = (pipe (s'.sess c).d.log).length
  /-- neither side is closed, and the socket took every payload of the server -/
  openC : (s'.sess c).c.closed = false
  openD : (s'.sess c).d.closed = false
  took : ∀ bin b, Obs.sent bin b false ∉ (s'.sess c).d.log
  /-- no Ask inside a callback of the client read from the socket, conn.go:968-976 -/
  noAsk : ∀ i, NetOp.sess c (.downAsk i) ∉ ops
  /-- the client is in the namespaces whenever its reader handles a payload -/
  hears : ∀ pre op post t, ops = pre ++ .sess c op :: post → op = .down ∨ op = .client .wake →
    s.run cfg pre = some t → ∀ ns room, want ns room = true → InNs (t.sess c).c ns
  /-- the server-side connection is in the places of a batch whenever the loop publishes one to it -/
  member : ∀ pre op post t k, ops = pre ++ .loop op :: post → s.run cfg pre = some t →
    t.loop.touch op = some (.publish c k) → ∀ m ∈ cfg.batch k, want m.ns m.room = true →
      InNs (t.sess c).d m.ns ∧ (m.room = [] ∨ InRoom (t.sess c).d m.ns m.room)

/-- and but for the broadcasts the server sends it nothing there -/
def OnlyCasts (cfg : NetCfg) (want : Bytes → Bytes → Bool) (c : Nat) (s : Net) (ops : List NetOp) : Prop :=
  ∀ pre op post t t', ops = pre ++ op :: post → s.run cfg pre = some t → t.step cfg op = some t' →
    (∀ o k, op = .loop o → t.loop.touch o ≠ some (.publish c k)) →
    saidIn want ((pipe (t'.sess c).d.log).filterMap (carried (cfg.cc c))) =
      saidIn want ((pipe (t.sess c).d.log).filterMap (carried (cfg.cc c)))

end Neffos.Spec
