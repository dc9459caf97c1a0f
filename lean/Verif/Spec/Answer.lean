import Verif.Spec.Conn
import Verif.Proofs.ConnFrame
/-!
# Which requests are answered, and with what
-/
set_option autoImplicit false
namespace Neffos.Spec

/-- The reader handles the request or event: a namespace connect or disconnect when it arrives, anything else when it
arrives while the gate is open or when it leaves the gate. -/
inductive Served (cfg : Cfg) (s : St) (m : Message) (s' : St) : Prop
  | request (typ : MsgType) (b : Bytes) : Incoming cfg s typ b m →
      m.event = OnNamespaceConnect ∨ m.event = OnNamespaceDisconnect →
      step cfg s (.recv typ b) = some s' → Served cfg s m s'
  | other : m.event ≠ OnNamespaceConnect → m.event ≠ OnNamespaceDisconnect → Handled cfg s m s' → Served cfg s m s'

/-- the token and six separators: all is well -/
def emptyAnswer (m : Message) : Bool × Bytes := (false, m.wait ++ b! ";;;;;;")

/-- the message itself with the error, or with the body of a `Reply` -/
def errAnswer (m : Message) (e : GoErr) : Bool × Bytes := (m.setBinary, wireOf { m with err := some e })

/-- the answer to a request that a callback was asked about -/
def verdictAnswer (m : Message) : Option GoErr → Bool × Bytes
  | none => emptyAnswer m
  | some e => errAnswer m e

/-- what the reader writes when it has handled a message that wants an answer -/
def answerTo (cfg : Cfg) (s : St) (m : Message) : Option (Bool × Bytes) :=
  if m.event = OnNamespaceConnect then
    if s.namespace m.ns ≠ none then some (emptyAnswer m)
    else if mapGet cfg.decl m.ns = none then some (errAnswer m errBadNamespace)
    else some (verdictAnswer m (connectVerdict cfg s m))
  else
    match s.namespace m.ns with
    | none => if m.event = OnNamespaceDisconnect then some (emptyAnswer m) else none
    | some obj =>
      if m.event = OnNamespaceDisconnect then
        some (if cfg.isClient then emptyAnswer m else verdictAnswer m (verdict cfg s obj m))
      else if m.event = OnRoomJoin then
        some (if m.room ∈ s.rooms obj then emptyAnswer m else verdictAnswer m (verdict cfg s obj m))
      else if m.event = OnRoomLeave then
        some (if m.room ∉ s.rooms obj ∨ cfg.isClient = true then emptyAnswer m
          else verdictAnswer m (verdict cfg s obj m))
      else if m.room = [] ∨ m.event = OnRoomLeft ∨ m.room ∈ s.rooms obj then
        (verdict cfg s obj { m with isLocal := false }).map (errAnswer m)
      else none

/-- the bytes before the first separator -/
def firstField (b : Bytes) : Bytes := b.takeWhile (· ≠ sepByte)

end Neffos.Spec
