import Verif.Model.Conn
/-!
# Broadcasting to connections (server.go:268-274, 436-538, 585-614)

The registered connections are a list of connection machines; a `*Conn` is an index of it, or
the number printed by `%p`. How a batch gets to the connections is in `Model/Broadcaster.lean`
and `Model/ServerLoop.lean`; here is what happens with it there.
-/
namespace Neffos

/-- one lower-case hexadecimal digit -/
def hexDigit (n : Nat) : UInt8 := if n < 10 then UInt8.ofNat (48 + n) else UInt8.ofNat (87 + n)

/-- a number in hexadecimal, lower case (Go standard library fmt) -/
def hex (n : Nat) : Bytes :=
  if n < 16 then [hexDigit n] else hex (n / 16) ++ [hexDigit (n % 16)]
termination_by n

/-- `%p` of a pointer (Go standard library fmt), the last part of `genServerConnID`,
server.go:273 -/
def showPtr (n : Nat) : Bytes := b! "0x" ++ hex n

/-- server.go:506-516 the `exceptSender` argument -/
inductive Except where
  | nil
  /-- a `*Conn`, by its `serverConnID` -/
  | conn (serverConnID : Bytes)
  /-- a `*NSConn`, by the `serverConnID` of its connection -/
  | nsConn (serverConnID : Bytes)
  /-- any other value, by its `String()`: `Exclude(id)`, server.go:470-483, or a `*Room`, whose
  `String()` is the ID of its connection, conn_room.go:27-29 -/
  | stringer (s : Bytes)

/-- server.go:506-525 what Broadcast writes into the messages, in place -/
def stamp (ex : Except) (msgs : List Message) : List Message :=
  match ex with
  | .nil => msgs
  | .conn sid => msgs.map (fun m => { m with fromExplicit := sid })
  | .nsConn sid => msgs.map (fun m => { m with fromExplicit := sid })
  | .stringer x =>
    msgs.map (fun m => if x ≠ [] then { m with sender := x } else { m with fromExplicit := [] })

/-- server.go:436-456 `publishMessages` -/
def publishMessages (cfg : Cfg) (s : St) : List Message → St × Bool
  | [] => (s, true)
  | m :: ms =>
    if m.sender = s.id then (s, true)
    else if m.to ≠ [] ∧ m.to ≠ s.id then (s, true)
    else
      match write cfg s m with
      | (s, ok) => if !ok && s.closed then (s, false) else publishMessages cfg s ms

/-- server.go:604-614 `GetConnections`: the connections in the order in which the map is ranged
over, each as its number -/
def getConnections (conns : List (Nat × St)) : List (Bytes × Nat) :=
  conns.foldl (fun m c => mapSet m c.2.id c.1) []

/-- server.go:585-597 `GetConnectionsByNamespace`: the number of the connection and of the
NSConn -/
def getConnectionsByNamespace (conns : List (Nat × St)) (ns : Bytes) : List (Bytes × (Nat × Nat)) :=
  conns.foldl (fun m c =>
    match c.2.namespace ns with
    | some obj => mapSet m c.2.id (c.1, obj)
    | none => m) []

end Neffos
