import Verif.Model.Conn
/-!
# The emitting calls of NSConn and Room (conn_namespace.go:61-88, conn_room.go:33-40)

A nil `*NSConn` is `none`.
-/
namespace Neffos

/-- conn_namespace.go:61-67 `Emit` -/
def nsEmit (cfg : Cfg) (s : St) (obj : Option Nat) (event body : Bytes) : St × Bool :=
  match obj with
  | none => (s, false)
  | some o => write cfg s { ns := s.nsName o, event := event, body := body }

/-- conn_namespace.go:71-77 `EmitBinary` -/
def nsEmitBinary (cfg : Cfg) (s : St) (obj : Option Nat) (event body : Bytes) : St × Bool :=
  match obj with
  | none => (s, false)
  | some o => write cfg s { ns := s.nsName o, event := event, body := body, setBinary := true }

/-- conn_namespace.go:80-86 `Ask`; a nil receiver returns ErrWrite at once -/
def nsAsk (cfg : Cfg) (s : St) (obj : Option Nat) (event body : Bytes) (now : Int)
    (expired : Bool) : St :=
  match obj with
  | none => s.emit (.ret .user (.answer {} (some errWrite)))
  | some o => startAsk cfg s .user { ns := s.nsName o, event := event, body := body } now expired

/-- conn_room.go:33-40 `Room.Emit` -/
def roomEmit (cfg : Cfg) (s : St) (obj : Nat) (room event body : Bytes) : St × Bool :=
  write cfg s { ns := s.nsName obj, room := room, event := event, body := body }

end Neffos
