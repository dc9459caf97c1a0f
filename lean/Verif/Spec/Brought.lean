import Verif.Spec.Apart
import Verif.Spec.ServerLoop
/-! What the server brings to the session of one client (for C140). -/
set_option autoImplicit false
namespace Neffos.Spec

/-- the batches among what came to a session, in order -/
def batchesIn (l : List Comes) : List (List Message) :=
  l.filterMap fun a => match a with
    | .cast ms => some ms
    | _ => none

/-- how often the server closed the connection -/
def shutsIn (l : List Comes) : Nat :=
  l.countP fun a => match a with
    | .shut => true
    | _ => false

/-- whether the call is one of `Broadcast` -/
def isBroadcast (s : LSt) (k : Nat) : Bool :=
  match s.calls[k]? with
  | some x => x.kind = .cast
  | none => false

end Neffos.Spec
