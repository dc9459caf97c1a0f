import Verif.Spec.Both
import Verif.Model.Broadcast
/-!
# Specification vocabulary for who hears a broadcast

The places of a client are those of its own records (`Conn.Namespace`, `NSConn.Room` on the client).
-/
set_option autoImplicit false
namespace Neffos.Spec

/-- by its own records this side is in the namespace of the message, and in the room if it names one -/
def IsIn (s : St) (m : Message) : Prop := InNs s m.ns ∧ (m.room = [] ∨ InRoom s m.ns m.room)

/-- the first argument of `Broadcast` leaves this connection out, server.go:504-533 -/
def LeftOut (sc : Cfg) (d : St) : Except → Prop
  | .nil => False
  | .conn sid => sc.serverConnID = sid
  | .nsConn sid => sc.serverConnID = sid
  | .stringer x => d.id = x

/-- the broadcast is for the client of this session, by the records of the client -/
structure ForClient (sc : Cfg) (s : Sess) (ex : Except) (m : Message) : Prop where
  place : IsIn s.c m
  notLeftOut : ¬ LeftOut sc s.d ex
  to : m.to = [] ∨ m.to = s.d.id

/-- no call in flight of either side is about the place of the message -/
def PlaceFree (s : Sess) (m : Message) : Prop :=
  if m.room = [] then ∀ a ∈ s.c.asks ++ s.d.asks, a.done = false → about a.cont ≠ some (m.ns, none)
  else Free s (m.ns, some m.room)

end Neffos.Spec
