import Verif.Model.Broadcast
import Verif.Spec.Conn
/-!
# C109, spec: what one connection is sent when a slice of messages is broadcast again and again
-/
set_option autoImplicit false
namespace Neffos.Spec

/-- the arguments of the Broadcast calls that a slice went through, oldest first; the last non-empty
`String()` among them, or what the message had in `from` before -/
def lastName (m : Message) (uses : List Except) : Bytes :=
  (uses.filterMap fun e => match e with
    | .stringer x => if x = [] then none else some x
    | _ => none).getLastD m.sender

/-- the connection named last by a `*Conn` or `*NSConn`; an empty `String()` takes it back -/
def lastConn (m : Message) (uses : List Except) : Bytes :=
  (uses.filterMap fun e => match e with
    | .conn sid => some sid
    | .nsConn sid => some sid
    | .stringer x => if x = [] then some [] else none
    | .nil => none).getLastD m.fromExplicit

/-- the connection leaves the batch at this message -/
def LeavesAt (s : St) (uses : List Except) (m : Message) : Prop :=
  lastName m uses = s.id ∨ (m.to ≠ [] ∧ m.to ≠ s.id)

/-- the write gate lets the message pass -/
def Passes (cfg : Cfg) (s : St) (uses : List Except) (m : Message) : Prop :=
  s.closed = false ∧ ¬ (lastConn m uses ≠ [] ∧ lastConn m uses = cfg.serverConnID) ∧
    (m.event = OnNamespaceConnect ∨ m.event = OnNamespaceDisconnect ∨
      ∃ obj, s.namespace m.ns = some obj ∧
        (m.room = [] ∨ m.event = OnRoomJoin ∨ m.event = OnRoomLeft ∨ m.room ∈ s.rooms obj))

open Classical in
/-- what the connection is to be sent: of the messages before the first at which it leaves the batch, those
that the gate lets pass, each with its own bytes -/
noncomputable def batchFor (cfg : Cfg) (s : St) (uses : List Except) (msgs : List Message) : List (Bool × Bytes) :=
  ((msgs.takeWhile fun m => ¬ LeavesAt s uses m).filter fun m => Passes cfg s uses m).filterMap fun m =>
    (serializeMessage { m with fromExplicit := [], sender := [] }).map fun b => (m.setBinary, b)

end Neffos.Spec
