import Verif.Model.Conn
/-!
Independent specification for C96.
-/
set_option autoImplicit false
namespace Neffos.Spec

/-- The callbacks that run while the rooms of a namespace are left by force do not use these rooms: they make no
call but writes, none of them to a room of that namespace, and none at all if a write could find the socket closed. -/
def LeavesQuietly (cfg : Cfg) : Prop :=
  ∀ log obj h (msg : Message), msg.isForced = true → msg.event = OnRoomLeave ∨ msg.event = OnRoomLeft →
    ∀ a ∈ (cfg.cb log obj h msg).1, (∃ m : Message, a = .write m ∧ (m.ns = msg.ns → m.room = [])) ∧
      ∀ l bin b, isCloseError (cfg.sock l bin b) = false

/-- The goroutine that makes this step never gets to its end: it panics, or waits for a lock that it holds. -/
def Ruins (cfg : Cfg) (s : St) (op : Op) : Prop := exec cfg s op ≠ none ∧ step cfg s op = none

end Neffos.Spec
