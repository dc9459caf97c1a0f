import Verif.Spec.Session
import Verif.Proofs.ConnRun
/-!
# Specification vocabulary for the delivery of events
-/
set_option autoImplicit false
namespace Neffos.Spec

/-- the seven lifecycle events of event.go:19-37 -/
def Life (event : Bytes) : Prop :=
  event ∈ [OnNamespaceConnect, OnNamespaceConnected, OnNamespaceDisconnect, OnRoomJoin, OnRoomJoined,
    OnRoomLeave, OnRoomLeft]

instance (event : Bytes) : Decidable (Life event) := inferInstanceAs (Decidable (_ ∈ _))

/-- the messages of application events for which `fireEvent` was called, in order -/
def heard : List Obs → List Message
  | [] => []
  | .fired _ _ msg _ _ :: t => if Life msg.event then heard t else msg :: heard t
  | _ :: t => heard t

/-- the application message that a payload carries, if it is one -/
def carried (cfg : Cfg) (p : MsgType × Bytes) : Option Message :=
  let msg := deserializeMessage cfg.known p.1 p.2 cfg.allowNative cfg.onlyNative
  if msg.isInvalid = true ∨ Life msg.event then none else some msg

/-- the application message that the reader holds at the connect gate -/
def held (s : St) : List Message :=
  match s.rd with
  | .gate msg => if Life msg.event then [] else [msg]
  | _ => []

/-- the payloads that the reader read in these operations -/
def readIn : List Op → List (MsgType × Bytes)
  | [] => []
  | .recv t b :: ops => (t, b) :: readIn ops
  | _ :: ops => readIn ops

/-- a message of this namespace that is not an answer -/
def Plain (ns : Bytes) (m : Message) : Prop := m.ns = ns ∧ m.wait = []

instance (ns : Bytes) (m : Message) : Decidable (Plain ns m) := inferInstanceAs (Decidable (_ ∧ _))

/-- The connection works: it is acknowledged and everything that came before is handled. -/
structure Working (s : St) : Prop where
  acked : s.acked = true
  todo : s.todo = []
  ackAfter : s.ackAfter = false
  notAck : s.rd ≠ .ack

/-- the operations in which the reader handles a payload -/
def handles : Op → Bool
  | .recv _ _ => true
  | .wake => true
  | _ => false

/-- the connection is connected to the namespace whenever its reader handles a payload in these
operations -/
def StaysIn (cfg : Cfg) (ns : Bytes) (s : St) (ops : List Op) : Prop :=
  ∀ pre op post t, ops = pre ++ op :: post → handles op = true → runOps cfg s pre = some t →
    t.namespace ns ≠ none

/-- the same for the client of a session -/
def ClientStaysIn (cc sc : Cfg) (ns : Bytes) (s : Sess) (ops : List SessOp) : Prop :=
  ∀ pre op post t, ops = pre ++ op :: post → op = .down ∨ op = .client .wake →
    srun cc sc s pre = some t → t.c.namespace ns ≠ none

/-- the same for the server-side connection of a session -/
def ServerStaysIn (cc sc : Cfg) (ns : Bytes) (s : Sess) (ops : List SessOp) : Prop :=
  ∀ pre op post t, ops = pre ++ op :: post → op = .up ∨ op = .server .wake →
    srun cc sc s pre = some t → t.d.namespace ns ≠ none

/-- `new`, then what is held now, come from what was held before and the payloads read, each at
most once and in this order -/
def ArriveInOrder (cfg : Cfg) (s s' : St) (new : List Message) (read : List (MsgType × Bytes)) : Prop :=
  (new ++ held s').Sublist (held s ++ read.filterMap (carried cfg))

/-- the plain messages of the namespace are all there -/
def ArriveAll (cfg : Cfg) (ns : Bytes) (s s' : St) (new : List Message) (read : List (MsgType × Bytes)) : Prop :=
  (new ++ held s').filter (Plain ns ·) = (held s ++ read.filterMap (carried cfg)).filter (Plain ns ·)

end Neffos.Spec
