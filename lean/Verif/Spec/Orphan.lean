import Verif.Model.Conn
/-!
# Rooms of a namespace that is not connected (for C128)
-/
set_option autoImplicit false
namespace Neffos.Spec

/-- The NSConn is in the room, and its namespace is not connected, or is connected with
another NSConn. -/
def Orphan (s : St) (obj : Nat) (r : Bytes) : Prop :=
  r ∈ s.rooms obj ∧ s.namespace (s.nsName obj) ≠ some obj

/-- The call `k` is waiting with the `i`-th Ask, and the answer is there, without an error. -/
def Answered (s : St) (i : Nat) (k : Cont) : Prop :=
  ∃ a m, s.asks[i]? = some a ∧ a.done = false ∧ a.box = some m ∧ m.err = none ∧ a.cont = k

/-- The call whose return takes the namespace away from under the room:
a JoinRoom whose NSConn is not connected at that time, a Connect of the same namespace with
another NSConn, and a Disconnect of the same namespace with another NSConn. -/
inductive Tears (s : St) (obj : Nat) (r : Bytes) : Cont → Prop where
  | join {msg : Message} (hr : msg.room = r) (hn : s.namespace (s.nsName obj) ≠ some obj) : Tears s obj r (.join obj msg)
  | connect {o : Nat} (ho : o ≠ obj) (hr : r ∈ s.rooms obj) : Tears s obj r (.connect (s.nsName obj) o)
  | disconnect {o : Nat} {msg : Message} (ho : o ≠ obj) (hn : msg.ns = s.nsName obj) (hr : r ∈ s.rooms obj) :
      Tears s obj r (.disconnect o msg)

end Neffos.Spec
