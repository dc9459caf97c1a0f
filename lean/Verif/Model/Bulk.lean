import Verif.Model.Errors
/-!
# `LeaveAll` and `DisconnectAll` (conn_namespace.go:127-144, conn.go:718-735)

Both walk over a map with its mutex held for writing, and ask the other side about each entry on the way. The first
part is what such a walk does when every Ask returns; the second part is whether it returns: the reader of the same
connection, which has to deliver the answers, takes the same mutex for other messages.

Simplifications:
* the result of an Ask and of a callback is a function of what happened so far (`BulkEnv`);
* nobody else changes the map during the walk: the mutex is held, and a callback that would change it waits for ever
  (`Model/Locks.lean`). So the `range` visits the keys that were there at the start, each once, in some order
  (`order`);
* callbacks make no calls; `StackExchange` is one event (`unsubscribe`);
* in the second part the context of the call has no deadline, every request is written and no answer is an error: each
  of these only ends the call earlier. Entries are numbers, and messages are what the reader needs to handle them.
-/
namespace Neffos

/-- what happens in a walk -/
inductive BulkObs where
  /-- conn.go:941 the Ask about an entry returned -/
  | ask (key : Bytes)
  /-- OnRoomLeave of the NSConn, with `IsForced` -/
  | leave (ns room : Bytes) (forced : Bool)
  /-- OnRoomLeft -/
  | left (ns room : Bytes) (forced : Bool)
  /-- OnNamespaceDisconnect -/
  | disconnect (ns : Bytes)
  /-- conn.go:709-713 `StackExchange.Unsubscribe` -/
  | unsubscribe (ns : Bytes)
  deriving DecidableEq

structure BulkEnv where
  /-- the error of `Ask` about an entry: the connection is closed, the write failed, the context ended, or the other
  side refused -/
  ask : List BulkObs → Bytes → Option GoErr
  /-- the error that OnRoomLeave returns, conn_namespace.go:260 -/
  veto : List BulkObs → Bytes → Option GoErr
  /-- server.go usesStackExchange, on a server -/
  exchange : Bool := false
  /-- conn.go:719-721 -/
  onlyNative : Bool := false

/-- the rooms that remain, what happened, what was returned -/
structure LeaveOut where
  rooms : List Bytes
  log : List BulkObs
  err : Option GoErr
  deriving DecidableEq

/-- conn_namespace.go:136-141, with conn_namespace.go:237-279 without locking, from one room on -/
def leaveWalk (env : BulkEnv) (ns : Bytes) : List Bytes → List Bytes → List BulkObs → LeaveOut
  | [], rooms, log => ⟨rooms, log, none⟩
  | r :: rest, rooms, log =>
    -- conn_namespace.go:245-252
    if r ∉ rooms then ⟨rooms, log, some errBadRoom⟩
    else
      match env.ask log r with
      | some e => ⟨rooms, log ++ [.ask r], some e⟩
      | none =>
        match env.veto (log ++ [.ask r]) r with
        | some e => ⟨rooms, log ++ [.ask r, .leave ns r false], some e⟩
        | none => leaveWalk env ns rest (rooms.filter (· ≠ r)) (log ++ [.ask r, .leave ns r false, .left ns r false])

/-- conn_namespace.go:127-144; `order` is the order of the `range` -/
def leaveAll (env : BulkEnv) (ns : Bytes) (order : List Bytes) : LeaveOut := leaveWalk env ns order order []

/-- the namespaces that remain with their rooms, what happened, what was returned -/
structure DiscOut where
  conn : List (Bytes × List Bytes)
  log : List BulkObs
  err : Option GoErr
  deriving DecidableEq

/-- conn_namespace.go:146-162, the rooms in the order of the `range` -/
def forcedLeaves (ns : Bytes) : List Bytes → List BulkObs
  | [] => []
  | r :: rs => .leave ns r true :: .left ns r true :: forcedLeaves ns rs

/-- conn.go:727-732, with conn.go:737-776 without locking, from one namespace on; each namespace comes with its rooms
in the order of their `range` -/
def discWalk (env : BulkEnv) : List (Bytes × List Bytes) → List (Bytes × List Bytes) → List BulkObs → DiscOut
  | [], conn, log => ⟨conn, log, none⟩
  | (n, rs) :: rest, conn, log =>
    -- conn.go:742-749
    if n ∉ conn.map (·.1) then ⟨conn, log, some errBadNamespace⟩
    else
      match env.ask log n with
      | some e => ⟨conn, log ++ [.ask n], some e⟩
      | none =>
        discWalk env rest (conn.filter (·.1 ≠ n))
          (log ++ [.ask n] ++ forcedLeaves n rs ++ [.disconnect n] ++ if env.exchange then [.unsubscribe n] else [])

/-- conn.go:718-735 -/
def disconnectAll (env : BulkEnv) (order : List (Bytes × List Bytes)) : DiscOut :=
  if env.onlyNative then ⟨order, [], none⟩ else discWalk env order order []

/-! ## Does it return? -/

inductive BulkKind where
  /-- holds the `roomsMutex` of namespace `n` -/
  | leaveAll (n : Nat)
  /-- holds `connectedNamespacesMutex` -/
  | disconnectAll
  deriving DecidableEq

/-- what the reader gets -/
inductive BulkMsg where
  /-- the answer to the Ask under way, conn.go:442-448 -/
  | answer
  /-- a connect request, conn.go:664-698 -/
  | connect (n : Nat)
  /-- a disconnect request for a namespace, conn.go:778-822 -/
  | disconnect (n : Nat)
  /-- a join or leave request for a room of a namespace, conn_namespace.go:211-235, 281-323 -/
  | room (n : Nat)
  /-- an event of a namespace whose handler returns nil, conn.go:466-479 -/
  | event (n : Nat)
  /-- an event of a room whose handler returns an error, which is written back to the room, conn.go:472-478, 867-876 -/
  | refused (n : Nat)
  deriving DecidableEq

/-- the reader takes the mutex that the call holds -/
def BulkKind.blocks : BulkKind → BulkMsg → Bool
  | _, .answer => false
  | .disconnectAll, _ => true
  | .leaveAll _, .connect _ => false
  | .leaveAll n, .disconnect m => n = m
  | .leaveAll n, .room m => n = m
  | .leaveAll _, .event _ => false
  | .leaveAll n, .refused m => n = m

structure BulkSt where
  kind : BulkKind
  /-- how many entries are left to ask about -/
  todo : Nat
  /-- an Ask is under way -/
  asking : Bool := false
  /-- the other side sent the answer to it -/
  answered : Bool := false
  /-- the channel of the Ask, conn.go:962 -/
  box : Bool := false
  /-- what the other side sent and the reader has not handled, oldest first -/
  inbox : List BulkMsg := []
  deriving DecidableEq

/-- the call returned -/
def BulkSt.returned (s : BulkSt) : Bool := s.todo = 0

inductive BulkOp where
  /-- conn.go:983 the call writes its next request -/
  | send
  /-- conn.go:995 the call takes the answer -/
  | take
  /-- the other side sends a message; it answers each request once -/
  | arrive (m : BulkMsg)
  /-- the reader handles the oldest message -/
  | read
  deriving DecidableEq

def BulkSt.step (s : BulkSt) : BulkOp → Option BulkSt
  | .send => if s.todo ≠ 0 ∧ s.asking = false then some { s with asking := true, answered := false } else none
  | .take => if s.asking ∧ s.box then some { s with todo := s.todo - 1, asking := false, box := false } else none
  | .arrive .answer =>
    if s.asking ∧ s.answered = false then some { s with answered := true, inbox := s.inbox ++ [.answer] } else none
  | .arrive m => some { s with inbox := s.inbox ++ [m] }
  | .read =>
    match s.inbox with
    | [] => none
    | .answer :: rest => some { s with box := true, inbox := rest }
    | m :: rest => if s.todo ≠ 0 ∧ s.kind.blocks m then none else some { s with inbox := rest }

def BulkSt.run (s : BulkSt) : List BulkOp → Option BulkSt
  | [] => some s
  | op :: ops =>
    match s.step op with
    | some s' => s'.run ops
    | none => none

/-- the call has just taken the mutex of a map with `n` entries; the reader has not read `inbox` yet -/
def bulkStart (kind : BulkKind) (n : Nat) (inbox : List BulkMsg) : BulkSt := { kind, todo := n, inbox }

end Neffos
