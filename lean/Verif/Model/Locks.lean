import Verif.Model.Bytes
/-!
# The locks that callbacks run under (conn.go, conn_namespace.go, server.go, broadcaster.go)

Any number of goroutines, any number of connections and namespaces. A goroutine runs the lock operations of one
entry point of the package; the callbacks of the user in it make calls of the API. One step is one operation of a
mutex or of the flag `closed`.

A mutex that is locked for writing is taken in two steps, as `sync.RWMutex` does: first no other writer may
be there, and from then on no new reader gets in; then the readers have to leave.

The loop of the server, server.go:167-207, is one more mutex: a send to one of its channels waits until the loop is at
its select, and `Do` waits until its function was called for all connections.

Simplifications:
* locks that are only held around one access of a map (`storeMutex`, `waitingMessagesMutex`, the lock of
  `processes`) are left out: whoever holds one takes no other lock and calls nothing;
* `LeaveAll` and `DisconnectAll`, which wait for the other side with a lock held, are in `Model/Bulk.lean`;
* a namespace looked up for a write to a room is connected; `StackExchange` is not used;
* callbacks that run with a lock held make calls about their own connection, namespace and server; about others see `Model/LockCalls.lean`;
* a reader that waits while a writer leaves is not let in before the next writer.
-/
namespace Neffos

inductive Res where
  /-- conn.go:97 of a connection -/
  | queue (c : Nat)
  /-- server.go:167 -/
  | loop
  /-- broadcaster.go:13 -/
  | bmu
  /-- conn.go:82 of a connection -/
  | ns (c : Nat)
  /-- conn_namespace.go:26 of a connection and a namespace -/
  | rooms (c n : Nat)
  deriving DecidableEq

/-- what a goroutine still has to do -/
inductive Prog where
  | done
  | lock (r : Res) (p : Prog)
  | unlock (r : Res) (p : Prog)
  | rlock (r : Res) (p : Prog)
  | runlock (r : Res) (p : Prog)
  /-- `IsClosed` of the connection: `p` if it is open -/
  | ifOpen (c : Nat) (p q : Prog)
  /-- the compare-and-swap of `Close`: `p` if it was open -/
  | cas (c : Nat) (p q : Prog)
  deriving DecidableEq

def Prog.read (r : Res) (p : Prog) : Prog := .rlock r (.runlock r p)

def Prog.touch (r : Res) (p : Prog) : Prog := .lock r (.unlock r p)

/-! ## the machine -/

structure Thr where
  todo : Prog
  /-- what it holds, and whether for writing -/
  held : List (Res × Bool) := []
  /-- it is in the second step of its `lock` -/
  pend : Bool := false
  deriving DecidableEq

/-- the goroutine is a writer of `r` that waits for the readers -/
def Thr.pends (t : Thr) (r : Res) : Bool :=
  t.pend && match t.todo with
  | .lock r' _ => r' = r
  | _ => false

/-- the goroutine is a writer of `r`, waiting for the readers or in -/
def Thr.writes (t : Thr) (r : Res) : Bool := t.held.contains (r, true) || t.pends r

def Thr.holds (t : Thr) (r : Res) : Bool := t.held.contains (r, true) || t.held.contains (r, false)

structure LkSt where
  thr : List Thr := []
  /-- the connections that are closed -/
  closed : List Nat := []
  deriving DecidableEq

def LkSt.put (s : LkSt) (i : Nat) (t : Thr) : LkSt := { s with thr := s.thr.set i t }

def LkSt.go (s : LkSt) (i : Nat) : Option LkSt :=
  match s.thr[i]? with
  | none => none
  | some t =>
    match t.todo with
    | .done => none
    | .lock r p =>
      if t.pend then
        if s.thr.any (·.holds r) then none else some (s.put i ⟨p, (r, true) :: t.held, false⟩)
      else if s.thr.any (·.writes r) then none else some (s.put i { t with pend := true })
    | .unlock r p => some (s.put i ⟨p, t.held.erase (r, true), false⟩)
    | .rlock r p => if s.thr.any (·.writes r) then none else some (s.put i ⟨p, (r, false) :: t.held, false⟩)
    | .runlock r p => some (s.put i ⟨p, t.held.erase (r, false), false⟩)
    | .ifOpen c p q => some (s.put i ⟨if c ∈ s.closed then q else p, t.held, false⟩)
    | .cas c p q =>
      if c ∈ s.closed then some (s.put i ⟨q, t.held, false⟩)
      else some { s.put i ⟨p, t.held, false⟩ with closed := c :: s.closed }

/-! ## the package -/

/-- the calls of the API -/
inductive ApiKind where
  /-- `Room`, `Rooms`, conn_namespace.go:99-123 -/
  | room
  /-- `Namespace`, conn.go:575-581 -/
  | nsp
  /-- `Emit` of a namespace, conn_namespace.go:50-77 -/
  | emit
  /-- `Emit` of a room, conn_room.go:33-40 -/
  | roomEmit
  /-- `Broadcast`, server.go:504-538, broadcaster.go:31-39 -/
  | cast
  /-- `Broadcast` with `SyncBroadcaster`, server.go:532-535 -/
  | sync
  /-- `Do`, server.go:422-434 -/
  | act
  deriving DecidableEq

/-- a call of the callback of connection `c` and namespace `n` about these, then `p`. A write checks `closed`, looks the
namespace up and, for a room, the room, conn.go:842-901. -/
def ownCall (c n : Nat) : ApiKind → Prog → Prog
  | .room, p => .read (.rooms c n) p
  | .nsp, p => .read (.ns c) p
  | .emit, p => .ifOpen c (.read (.ns c) p) p
  | .roomEmit, p => .ifOpen c (.read (.ns c) (.read (.rooms c n) p)) p
  | .cast, p => .touch .bmu p
  | .sync, p => .touch .loop p
  | .act, p => .touch .loop p

def ownCalls (c n : Nat) (ks : List ApiKind) (p : Prog) : Prog := ks.foldr (ownCall c n) p

/-- what `Close` finds: a connected namespace, the calls of its callbacks for rooms and of OnNamespaceDisconnect -/
structure NsEnd where
  n : Nat
  rooms : List ApiKind := []
  ns : List ApiKind := []
  deriving DecidableEq

/-- conn_namespace.go:146-162 and conn.go:1012-1019 for one namespace -/
def nsEnd (c : Nat) (e : NsEnd) (p : Prog) : Prog :=
  .lock (.rooms c e.n) (ownCalls c e.n e.rooms (.unlock (.rooms c e.n) (ownCalls c e.n e.ns p)))

/-- conn.go:1007-1040 -/
def closeProg (c : Nat) (es : List NsEnd) (p : Prog) : Prog :=
  .cas c (.lock (.ns c) (es.foldr (nsEnd c) (.unlock (.ns c) p))) p

/-- a call about any connection; a write whose socket fails closes the connection, conn.go:833-837 -/
inductive LkApi where
  | room (c n : Nat)
  | nsp (c : Nat)
  | emit (c : Nat) (fail : Option (List NsEnd))
  | roomEmit (c n : Nat) (fail : Option (List NsEnd))
  | cast
  | sync
  /-- the function does nothing -/
  | act
  deriving DecidableEq

def LkApi.kind : LkApi → ApiKind
  | .room _ _ => .room
  | .nsp _ => .nsp
  | .emit _ _ => .emit
  | .roomEmit _ _ _ => .roomEmit
  | .cast => .cast
  | .sync => .sync
  | .act => .act

/-- conn.go:833-837 -/
def failProg (c : Nat) : Option (List NsEnd) → Prog → Prog
  | none, p => p
  | some es, p => closeProg c es p

def LkApi.prog : LkApi → Prog → Prog
  | .room c n, p => .read (.rooms c n) p
  | .nsp c, p => .read (.ns c) p
  | .emit c f, p => .ifOpen c (.read (.ns c) (failProg c f p)) p
  | .roomEmit c n f, p => .ifOpen c (.read (.ns c) (.read (.rooms c n) (failProg c f p))) p
  | .cast, p => .touch .bmu p
  | .sync, p => .touch .loop p
  | .act, p => .touch .loop p

/-- a call of a callback without a lock; `act` is `Do` with a function that makes calls -/
inductive LkAct where
  | api (a : LkApi)
  | act (fn : List LkApi)
  deriving DecidableEq

/-- server.go:422-434, 197-204 -/
def LkAct.prog : LkAct → Prog → Prog
  | .api a, p => a.prog p
  | .act fn, p => .lock .loop (fn.foldr LkApi.prog (.unlock .loop p))

/-- a message that is published to a connection -/
structure Wr where
  c : Nat
  room : Option Nat := none
  fail : Option (List NsEnd) := none
  deriving DecidableEq

/-- server.go:436-456 -/
def Wr.api (w : Wr) : LkApi :=
  match w.room with
  | none => .emit w.c w.fail
  | some n => .roomEmit w.c n w.fail

/-- the goroutines -/
inductive Gor where
  /-- callbacks without a lock: events, OnRoomJoin, OnRoomJoined, OnNamespaceConnect, OnConnect, ... and callers -/
  | plain (acts : List LkAct)
  /-- callbacks of payloads that came before the acknowledgement, conn.go:399-410 -/
  | queued (c : Nat) (acts : List LkAct)
  /-- a namespace is disconnected: callbacks for its rooms, then OnNamespaceDisconnect, conn.go:737-776, 778-822 -/
  | leave (c n : Nat) (ks : List ApiKind) (acts : List LkAct)
  /-- conn.go:1007 -/
  | close (c : Nat) (es : List NsEnd)
  /-- server.go:458-468 -/
  | publish (ws : List Wr)
  /-- server.go:193-196 -/
  | loopPublish (ws : List Wr)
  /-- `Server.OnDisconnect`, server.go:175-192 -/
  | onDisconnect (fn : List LkApi)
  /-- server.go:210-216 -/
  | serverClose (cs : List (Nat × List NsEnd))
  deriving DecidableEq

def Gor.prog : Gor → Prog
  | .plain acts => acts.foldr LkAct.prog .done
  | .queued c acts => .lock (.queue c) (acts.foldr LkAct.prog (.unlock (.queue c) .done))
  | .leave c n ks acts =>
    .read (.ns c) (.lock (.rooms c n) (ownCalls c n ks (.unlock (.rooms c n)
      (.touch (.ns c) (acts.foldr LkAct.prog .done)))))
  | .close c es => closeProg c es .done
  | .publish ws => .lock .bmu (ws.foldr (fun w => w.api.prog) (.unlock .bmu .done))
  | .loopPublish ws => .lock .loop (ws.foldr (fun w => w.api.prog) (.unlock .loop .done))
  | .onDisconnect fn => .lock .loop (fn.foldr LkApi.prog (.unlock .loop .done))
  | .serverClose cs => .lock .loop (cs.foldr (fun x => closeProg x.1 x.2) (.unlock .loop .done))

inductive LkOp where
  | spawn (g : Gor)
  | go (i : Nat)
  deriving DecidableEq

def LkSt.step (s : LkSt) : LkOp → Option LkSt
  | .spawn g => some { s with thr := s.thr ++ [{ todo := g.prog }] }
  | .go i => s.go i

def LkSt.run (s : LkSt) : List LkOp → Option LkSt
  | [] => some s
  | op :: ops =>
    match s.step op with
    | some s' => s'.run ops
    | none => none

end Neffos
