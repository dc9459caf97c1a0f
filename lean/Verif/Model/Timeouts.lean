import Verif.Model.Handler
import Verif.Model.Socket
/-!
# The timeouts of connections (conn_handler.go:84-110, 177-182, server.go:113-135, 329-330, client.go:83-90)

Handlers, servers and connections are numbered in the order in which they are made. A handler is what `getTimeouts`
asks for: whether it is a WithTimeout value, a pointer to a Struct, or something else. Simplification: the calls do not
overlap, as `SetTimeouts` writes its fields without a lock.
-/
namespace Neffos

/-- conn_handler.go:12-14 a ConnHandler as `getTimeouts` sees it -/
inductive HRef where
  /-- conn_handler.go:84-90 `WithTimeout{ReadTimeout, WriteTimeout, …}` -/
  | withTimeout (read write : Int)
  /-- conn_handler.go:117-131 the Struct with that number -/
  | struct (k : Nat)
  /-- `Events` or `Namespaces` -/
  | plain
  /-- conn_handler.go:285-314 the result of `JoinConnHandlers`, a `Namespaces` -/
  | joined (hs : List HRef)

/-- the calls -/
inductive TimeOp where
  /-- conn_handler.go:211-254 `NewStruct` -/
  | newStruct
  /-- conn_handler.go:177-182 `SetTimeouts` -/
  | setTimeouts (k : Nat) (read write : Int)
  /-- server.go:113-140 `New` -/
  | newServer (h : HRef)
  /-- server.go:279-355 `Upgrade` of a server -/
  | upgrade (server : Nat)
  /-- client.go:69-99 `Dial`; none is the nil handler -/
  | dial (h : Option HRef)

/-- the timeouts, read and write, of the structs, the servers and the connections -/
structure TimeSt where
  structs : List (Int × Int) := []
  servers : List (Int × Int) := []
  conns : List (Int × Int) := []

/-- conn_handler.go:98-110 `getTimeouts`. `none`: there is no such struct. -/
def TimeSt.timeouts (s : TimeSt) : HRef → Option (Int × Int)
  | .withTimeout r w => some (r, w)
  | .struct k => s.structs[k]?
  | .plain => some (0, 0)
  | .joined _ => some (0, 0)

/-- one call; `none`: it names something that does not exist -/
def TimeSt.step (s : TimeSt) : TimeOp → Option TimeSt
  -- the zero value of the fields
  | .newStruct => some { s with structs := s.structs ++ [(0, 0)] }
  | .setTimeouts k r w => if k < s.structs.length then some { s with structs := s.structs.set k (r, w) } else none
  -- server.go:114-121
  | .newServer h => (s.timeouts h).map fun t => { s with servers := s.servers ++ [t] }
  -- server.go:329-330
  | .upgrade i => (s.servers[i]?).map fun t => { s with conns := s.conns ++ [t] }
  -- client.go:83-90
  | .dial h => (s.timeouts (h.getD .plain)).map fun t => { s with conns := s.conns ++ [t] }

def TimeSt.run (s : TimeSt) : List TimeOp → Option TimeSt
  | [] => some s
  | op :: ops => (s.step op).bind fun s' => s'.run ops

/-- conn.go:324-345 the reader of a connection with that read timeout; gobwas/socket.go:72, gorilla/socket.go:46 take
one that is not positive for none -/
def connReads (lib : SocketLib) (read : Int) (pauses : List Nat) (now : Nat) (items : List Item) : List ReadRes :=
  readLoop lib read.toNat pauses ⟨now, none, items⟩

end Neffos
