import Verif.Model.Message
/-!
# One connection (conn.go, conn_namespace.go, conn_room.go, process.go)

A connection is a state `St` and operations `Op` on it: API calls made by user
goroutines, payloads read by the reader goroutine, and the completion of blocked calls.
One operation runs from its start to the next point where its goroutine blocks on
another one (an Ask waiting for the answer, the reader waiting at the connect gate, at a
full answer channel or for readiness). Finer interleavings are in the `Inter` models.

User code is not known: callbacks, the socket and the iteration order of Go maps are
oracles in `Cfg` that may depend on everything observed so far.

Simplifications:
* a callback is the list of `Write` and `Close` calls it makes and its result. Asks made
  while a callback runs are in `Model/AskRace.lean`; an Ask made while the reader is
  blocked inside a handler is here.
* `LeaveAll` and `DisconnectAll` are in `Model/Bulk.lean`.
* a step that would hang forever on its own mutex, or panic, sets `hung`; `step` has no
  successor then.
-/
namespace Neffos

/-- What a callback does besides returning: `Conn.Write` and `Conn.Close`. -/
inductive Act where
  | write (m : Message)
  | close

/-- The call that an Ask belongs to. -/
inductive Cont where
  /-- conn.go:603-662 `askConnect`: namespace and index of the new NSConn -/
  | connect (ns : Bytes) (obj : Nat)
  /-- conn.go:737-776 `askDisconnect`: the NSConn and the message -/
  | disconnect (obj : Nat) (msg : Message)
  /-- conn_namespace.go:176-209 `askRoomJoin` -/
  | join (obj : Nat) (msg : Message)
  /-- conn_namespace.go:237-279 `askRoomLeave` -/
  | leave (obj : Nat) (msg : Message)
  /-- conn.go:941 a plain `Ask` -/
  | user
  deriving DecidableEq

/-- What a call returned. -/
inductive Result where
  /-- `*NSConn, nil` -/
  | nsConn (obj : Nat)
  /-- `*Room, nil` -/
  | room (obj : Nat) (room : Bytes)
  /-- a nil error -/
  | ok
  /-- a message and its error -/
  | answer (m : Message) (err : Option GoErr)
  /-- a non-nil error -/
  | err (e : GoErr)
  deriving DecidableEq

/-- What holds when a callback starts: the namespace of its NSConn, whether the connection
is connected to that namespace with this NSConn, and whether the NSConn is in the room of
the message. -/
structure View where
  ns : Bytes
  connected : Bool
  inRoom : Bool
  deriving DecidableEq

/-- Everything that can be observed of a connection, in order. -/
inductive Obs where
  /-- `events.fireEvent(ns, msg)` was called on the NSConn `obj`; the callback of `handler`,
  if one is registered, ran and returned `ret` -/
  | fired (obj : Nat) (view : View) (msg : Message) (handler : Option Bytes) (ret : Option GoErr)
  /-- bytes handed to the socket and whether it accepted them -/
  | sent (binary : Bool) (b : Bytes) (ok : Bool)
  /-- `StackExchange.Subscribe`, `Unsubscribe`, `NotifyAsk` -/
  | subscribe (ns : Bytes)
  | unsubscribe (ns : Bytes)
  | notifyAsk (m : Message)
  /-- a message handed to a `Server.Ask` -/
  | toServerAsk (m : Message)
  /-- the server loop is told, conn.go:1031-1035 -/
  | notifyServer
  /-- `close(c.closeCh)`, conn.go:1037 -/
  | closeCh
  /-- `c.socket.NetConn().Close()`, conn.go:1038 -/
  | netClosed
  /-- a call returned -/
  | ret (call : Cont) (r : Result)

/-- The fixed environment of a connection. -/
structure Cfg where
  /-- conn.go:173-175 `IsClient` -/
  isClient : Bool
  /-- conn.go:75 `namespaces`: the declared events of each declared namespace -/
  decl : List (Bytes × List Bytes)
  /-- conn.go:49 -/
  serverConnID : Bytes
  /-- server.go:163-165 -/
  usesExchange : Bool
  /-- message.go:380 -/
  known : List KnownErr
  /-- the callback registered under `handler`: what it does and returns -/
  cb : List Obs → Nat → Bytes → Message → List Act × Option GoErr
  /-- the socket's result for a write -/
  sock : List Obs → Bool → Bytes → Option GoErr
  /-- the order in which a map with these keys is ranged over -/
  order : List Obs → List Bytes → List Bytes
  order_perm : ∀ l xs, (order l xs).Perm xs
  /-- whether the text queue comes first when the queue map is ranged over -/
  textFirst : List Obs → Bool

/-- conn_namespace.go:13-31 `NSConn`: namespace and joined rooms. -/
structure NSObj where
  ns : Bytes
  rooms : List Bytes
  deriving DecidableEq

/-- conn.go:965-981 how an Ask gets its answer. -/
inductive AskMode where
  /-- by its token from `waitingMessages` -/
  | table
  /-- `mustWaitOnlyTheNextMessage`: a goroutine reads the next payload of the socket -/
  | reading
  /-- that goroutine has read -/
  | read
  deriving DecidableEq

/-- conn.go:941-1002 an Ask: its channel `box` has capacity 1. -/
structure AskRec where
  tok : Bytes
  cont : Cont
  mode : AskMode
  box : Option Message
  done : Bool
  deriving DecidableEq

/-- Where the reader goroutine is, conn.go:316-346. -/
inductive Rd where
  /-- in `ReadData` -/
  | idle
  /-- in `tryNamespace`, conn.go:584, waiting for a local Connect -/
  | gate (msg : Message)
  /-- sending an answer into the full channel of an Ask, conn.go:446 -/
  | send (ask : Nat) (msg : Message)
  /-- in `readiness.wait`, conn.go:352 -/
  | ack
  /-- returned -/
  | dead
  deriving DecidableEq

/-- process.go:41-46 -/
structure Gate where
  count : Nat
  done : Bool
  deriving DecidableEq

/-- conn.go:43-103 the fields of `Conn`. NSConn pointers are indices of `objs`. -/
structure St where
  id : Bytes := []
  acked : Bool := false
  closed : Bool := false
  /-- waiter_once.go: not signalled, or signalled with an error or nil -/
  ready : Option (Option GoErr) := none
  objs : List NSObj := []
  connected : List (Bytes × Nat) := []
  waiting : List (Bytes × Nat) := []
  asks : List AskRec := []
  gates : List (Bytes × Gate) := []
  queueText : List Bytes := []
  queueBinary : List Bytes := []
  rd : Rd := .idle
  /-- payloads of the queue still to be handled, conn.go:399-410 -/
  todo : List (MsgType × Bytes) := []
  /-- the acknowledgement is to be written after the queue, conn.go:358-362 -/
  ackAfter : Bool := false
  /-- server.go:89 the tokens of `Server.Ask` calls in flight -/
  srvWaiting : List Bytes := []
  log : List Obs := []
  hung : Bool := false

/-! ## Lookups -/

/-- look up a key of a Go map -/
def mapGet {α : Type} (m : List (Bytes × α)) (k : Bytes) : Option α :=
  match m with
  | [] => none
  | (k', v) :: t => if k' = k then some v else mapGet t k

/-- `delete(m, k)` -/
def mapDel {α : Type} (m : List (Bytes × α)) (k : Bytes) : List (Bytes × α) :=
  m.filter (fun p => p.1 ≠ k)

/-- `m[k] = v` -/
def mapSet {α : Type} (m : List (Bytes × α)) (k : Bytes) (v : α) : List (Bytes × α) :=
  (k, v) :: mapDel m k

/-- conn.go:575-581 `Namespace` -/
def St.namespace (s : St) (ns : Bytes) : Option Nat := mapGet s.connected ns

/-- the joined rooms of an NSConn, conn_namespace.go:25 -/
def St.rooms (s : St) (obj : Nat) : List Bytes :=
  match s.objs[obj]? with
  | some o => o.rooms
  | none => []

/-- the namespace of an NSConn, conn_namespace.go:18 -/
def St.nsName (s : St) (obj : Nat) : Bytes :=
  match s.objs[obj]? with
  | some o => o.ns
  | none => []

/-- see `View` -/
def St.view (s : St) (obj : Nat) (msg : Message) : View :=
  ⟨s.nsName obj, s.namespace (s.nsName obj) = some obj, msg.room ∈ s.rooms obj⟩

/-- change the rooms of an NSConn -/
def St.setRooms (s : St) (obj : Nat) (f : List Bytes → List Bytes) : St :=
  { s with objs := s.objs.modify obj (fun o => { o with rooms := f o.rooms }) }

/-- `ns.rooms[room] = newRoom(...)` -/
def addRoom (room : Bytes) (rooms : List Bytes) : List Bytes :=
  if room ∈ rooms then rooms else room :: rooms

/-- `delete(ns.rooms, room)` -/
def delRoom (room : Bytes) (rooms : List Bytes) : List Bytes := rooms.filter (· ≠ room)

/-- append an observation -/
def St.emit (s : St) (o : Obs) : St := { s with log := s.log ++ [o] }

/-- conn.go:121-135: native messages are allowed when the empty namespace declares
`OnNativeMessage` -/
def Cfg.allowNative (cfg : Cfg) : Bool :=
  match mapGet cfg.decl [] with
  | some evs => evs.contains OnNativeMessage
  | none => false

/-- conn.go:129-134: and they are the only ones when nothing else is declared -/
def Cfg.onlyNative (cfg : Cfg) : Bool :=
  cfg.allowNative && cfg.decl.length = 1 &&
    (match mapGet cfg.decl [] with
     | some evs => evs.length = 1
     | none => false)

/-- conn_handler.go:39-49 `fireEvent`: which callback is chosen -/
def pick (evs : List Bytes) (event : Bytes) : Option Bytes :=
  if event ∈ evs then some event
  else if OnAnyEvent ∈ evs then some OnAnyEvent
  else none

/-- the declared events of a namespace -/
def Cfg.events (cfg : Cfg) (ns : Bytes) : List Bytes := (mapGet cfg.decl ns).getD []

/-- conn.go:141-151 `Is` -/
def St.is (cfg : Cfg) (s : St) (connID : Bytes) : Bool :=
  if connID = [] then false
  else if cfg.isClient then s.id = connID
  else cfg.serverConnID = connID

/-- waiter_once.go:60-71 `unwait` -/
def St.signalReady (s : St) (e : Option GoErr) : St :=
  match s.ready with
  | some _ => s
  | none => { s with ready := some e }

/-! ## Closing -/

/-- A callback of a connection that is already closed: its writes are refused at
conn.go:843-845 and its `Close` does nothing at conn.go:1008. -/
def fireClosed (cfg : Cfg) (s : St) (obj : Nat) (msg : Message) : St :=
  let ns := s.nsName obj
  match pick (cfg.events ns) msg.event with
  | none => s.emit (.fired obj (s.view obj msg) msg none none)
  | some h => s.emit (.fired obj (s.view obj msg) msg (some h) (cfg.cb s.log obj h msg).2)

/-- conn_namespace.go:150-152 the message of a forced leave -/
def forcedLeaveMsg (ns room event : Bytes) (isLocal : Bool) : Message :=
  { ns := ns, room := room, event := event, isForced := true, isLocal := isLocal }

/-- conn_namespace.go:151-161 `forceLeaveAll`, one round, on a closed connection -/
def leaveOneClosed (cfg : Cfg) (obj : Nat) (isLocal : Bool) (s : St) (room : Bytes) : St :=
  let ns := s.nsName obj
  let s := fireClosed cfg s obj (forcedLeaveMsg ns room OnRoomLeave isLocal)
  let s := s.setRooms obj (delRoom room)
  fireClosed cfg s obj (forcedLeaveMsg ns room OnRoomLeft isLocal)

/-- conn_namespace.go:146-162 `forceLeaveAll` on a closed connection -/
def forceLeaveClosed (cfg : Cfg) (s : St) (obj : Nat) (isLocal : Bool) : St :=
  (cfg.order s.log (s.rooms obj)).foldl (leaveOneClosed cfg obj isLocal) s

/-- conn.go:1010 the message of a forced disconnect -/
def forcedDisconnectMsg (ns : Bytes) : Message :=
  { ns := ns, event := OnNamespaceDisconnect, isForced := true, isLocal := true }

/-- conn.go:1012-1019 one round of the loop of `Close` -/
def closeOne (cfg : Cfg) (s : St) (ns : Bytes) : St :=
  match s.namespace ns with
  | none => s
  | some obj =>
    let s := forceLeaveClosed cfg s obj true
    let s := fireClosed cfg s obj (forcedDisconnectMsg (s.nsName obj))
    { s with connected := mapDel s.connected ns }

/-- conn.go:1011-1026 the loops of `Close` -/
def closeAll (cfg : Cfg) (s : St) : St :=
  { (cfg.order s.log (s.connected.map (·.1))).foldl (closeOne cfg) s with waiting := [] }

/-- conn.go:1029-1038 the end of `Close` -/
def closeEnd (cfg : Cfg) (s : St) : St :=
  if cfg.isClient then ({ s with acked := false }.emit .closeCh).emit .netClosed
  else (({ s with acked := false }.emit .notifyServer).emit .closeCh).emit .netClosed

/-- conn.go:1007-1040 `Close` -/
def closeConn (cfg : Cfg) (s : St) : St :=
  if s.closed then s
  else if cfg.onlyNative then closeEnd cfg { s with closed := true }
  else closeEnd cfg (closeAll cfg { s with closed := true })

/-! ## Writing -/

/-- conn.go:824-840 `write` -/
def rawWrite (cfg : Cfg) (s : St) (b : Bytes) (binary : Bool) : St × Bool :=
  let e := cfg.sock s.log binary b
  let s := s.emit (.sent binary b e.isNone)
  if e.isNone then (s, true)
  else if isCloseError e then (closeConn cfg s, false)
  else (s, false)

/-- conn.go:852-883 the membership part of `canWrite` -/
def membershipAllows (s : St) (msg : Message) : Bool :=
  if msg.isConnect || msg.isDisconnect then true
  else match s.namespace msg.ns with
    | none => false
    | some obj =>
      if msg.room ≠ [] ∧ msg.isRoomJoin = false ∧ msg.isRoomLeft = false then
        (s.rooms obj).contains msg.room
      else true

/-- conn.go:847-850, 509-510 a server-side connection that wants to send is ready -/
def St.markReady (cfg : Cfg) (s : St) : St := if cfg.isClient then s else s.signalReady none

/-- conn.go:842-901 `canWrite`; on the server side it marks the connection ready. -/
def canWrite (cfg : Cfg) (s : St) (msg : Message) : St × Bool :=
  if s.closed then (s, false)
  else (s.markReady cfg, membershipAllows (s.markReady cfg) msg && !(s.is cfg msg.fromExplicit))

/-- conn.go:906-913 `Write` -/
def write (cfg : Cfg) (s : St) (msg : Message) : St × Bool :=
  let (s, ok) := canWrite cfg s msg
  if ok then
    match serializeMessage { msg with fromExplicit := [] } with
    | some b => rawWrite cfg s b msg.setBinary
    | none => ({ s with hung := true }, false)
  else (s, false)

/-- conn.go:916-918 `writeEmptyReply` -/
def writeEmptyReply (cfg : Cfg) (s : St) (wait : Bytes) : St :=
  (rawWrite cfg s (genEmptyReplyToWait wait) false).1

/-! ## Callbacks -/

/-- one call made by a callback -/
def runAct (cfg : Cfg) (s : St) : Act → St
  | .write m => (write cfg s m).1
  | .close => closeConn cfg s

/-- conn_handler.go:39-49 `fireEvent` -/
def fire (cfg : Cfg) (s : St) (obj : Nat) (msg : Message) : St × Option GoErr :=
  let ns := s.nsName obj
  match pick (cfg.events ns) msg.event with
  | none => (s.emit (.fired obj (s.view obj msg) msg none none), none)
  | some h =>
    let (acts, ret) := cfg.cb s.log obj h msg
    let s := s.emit (.fired obj (s.view obj msg) msg (some h) ret)
    (acts.foldl (runAct cfg) s, ret)

/-- Does this call, made by a callback that runs while `forceLeaveAll` holds the
`roomsMutex` of `obj`, lock that mutex again? A write to a room of that NSConn does at
conn.go:868-876, and so does a `Close` that still finds the NSConn connected. -/
def actHangs (cfg : Cfg) (s : St) (obj : Nat) : Act → Bool
  | .write m =>
    !s.closed && (!m.isConnect && !m.isDisconnect && s.namespace m.ns == some obj &&
      m.room ≠ [] && !m.isRoomJoin && !m.isRoomLeft) ||
    (!s.closed && (write cfg s m).1.closed && !cfg.onlyNative && s.connected.any (·.2 == obj))
  | .close => !s.closed && !cfg.onlyNative && s.connected.any (·.2 == obj)

/-- the same call with the mutex held -/
def runActLocked (cfg : Cfg) (obj : Nat) (s : St) (a : Act) : St :=
  if actHangs cfg s obj a then { runAct cfg s a with hung := true } else runAct cfg s a

/-- `fireEvent` while the `roomsMutex` of `obj` is held -/
def fireLocked (cfg : Cfg) (s : St) (obj : Nat) (msg : Message) : St :=
  let ns := s.nsName obj
  match pick (cfg.events ns) msg.event with
  | none => s.emit (.fired obj (s.view obj msg) msg none none)
  | some h =>
    let (acts, ret) := cfg.cb s.log obj h msg
    let s := s.emit (.fired obj (s.view obj msg) msg (some h) ret)
    acts.foldl (runActLocked cfg obj) s

/-- conn_namespace.go:151-161 one round of `forceLeaveAll` -/
def leaveOne (cfg : Cfg) (obj : Nat) (isLocal : Bool) (s : St) (room : Bytes) : St :=
  let ns := s.nsName obj
  let s := fireLocked cfg s obj (forcedLeaveMsg ns room OnRoomLeave isLocal)
  let s := s.setRooms obj (delRoom room)
  fireLocked cfg s obj (forcedLeaveMsg ns room OnRoomLeft isLocal)

/-- conn_namespace.go:146-162 `forceLeaveAll` -/
def forceLeaveAll (cfg : Cfg) (s : St) (obj : Nat) (isLocal : Bool) : St :=
  (cfg.order s.log (s.rooms obj)).foldl (leaveOne cfg obj isLocal) s

/-! ## The connect gate, process.go -/

/-- process.go:21-37, 81-83 `get(ns).Start()` -/
def gateStart (s : St) (ns : Bytes) : St :=
  let g := (mapGet s.gates ns).getD ⟨0, false⟩
  { s with gates := mapSet s.gates ns { g with count := g.count + 1 } }

/-- process.go:64-70 `Done()`: only the first call has an effect -/
def gateDone (s : St) (ns : Bytes) : St :=
  match mapGet s.gates ns with
  | none => s
  | some g =>
    if g.done then s
    else { s with gates := mapSet s.gates ns { count := g.count - 1, done := true } }

/-- process.go:73-78 would `Wait()` block now -/
def gateBlocks (s : St) (ns : Bytes) : Bool :=
  match mapGet s.gates ns with
  | none => false
  | some g => !g.done && g.count ≠ 0

/-- is a `Wait()` that has blocked released: the WaitGroup is at zero -/
def gateReleased (s : St) (ns : Bytes) : Bool :=
  match mapGet s.gates ns with
  | none => true
  | some g => g.count = 0

/-! ## Answering incoming requests -/

/-- conn.go:700-707 `notifyNamespaceConnected` -/
def notifyConnected (cfg : Cfg) (s : St) (obj : Nat) (msg : Message) : St :=
  let s := (fire cfg s obj { msg with event := OnNamespaceConnected }).1
  if !cfg.isClient && cfg.usesExchange then s.emit (.subscribe (s.nsName obj)) else s

/-- conn.go:709-713 `notifyNamespaceDisconnect` -/
def notifyDisconnect (cfg : Cfg) (s : St) (ns : Bytes) : St :=
  if !cfg.isClient && cfg.usesExchange then s.emit (.unsubscribe ns) else s

/-- conn_namespace.go:33-40 `newNSConn` -/
def newObj (s : St) (ns : Bytes) : St × Nat :=
  ({ s with objs := s.objs ++ [⟨ns, []⟩] }, s.objs.length)

/-- conn.go:664-698 `replyConnect` -/
def replyConnect (cfg : Cfg) (s : St) (msg : Message) : St :=
  if msg.wait = [] ∨ msg.isNoOp then s
  else match s.namespace msg.ns with
    | some _ => writeEmptyReply cfg s msg.wait
    | none =>
      match mapGet cfg.decl msg.ns with
      | none => (write cfg s { msg with err := some errBadNamespace }).1
      | some _ =>
        let (s, obj) := newObj s msg.ns
        match fire cfg s obj msg with
        | (s, some e) => (write cfg s { msg with err := some e }).1
        | (s, none) =>
          let s := { s with connected := mapSet s.connected msg.ns obj }
          let s := writeEmptyReply cfg s msg.wait
          notifyConnected cfg s obj msg

/-- conn.go:778-822 `replyDisconnect` -/
def replyDisconnect (cfg : Cfg) (s : St) (msg : Message) : St :=
  if msg.wait = [] ∨ msg.isNoOp then s
  else match s.namespace msg.ns with
    | none => writeEmptyReply cfg s msg.wait
    | some obj =>
      if cfg.isClient then
        let s := forceLeaveAll cfg s obj false
        let s := { s with connected := mapDel s.connected msg.ns }
        let s := writeEmptyReply cfg s msg.wait
        (fire cfg s obj msg).1
      else
        match fire cfg s obj msg with
        | (s, some e) => (write cfg s { msg with err := some e }).1
        | (s, none) =>
          let s := forceLeaveAll cfg s obj false
          let s := { s with connected := mapDel s.connected msg.ns }
          let s := notifyDisconnect cfg s msg.ns
          writeEmptyReply cfg s msg.wait

/-- conn_namespace.go:211-235 `replyRoomJoin` -/
def replyRoomJoin (cfg : Cfg) (s : St) (obj : Nat) (msg : Message) : St :=
  if msg.wait = [] ∨ msg.isNoOp then s
  else if msg.room ∈ s.rooms obj then writeEmptyReply cfg s msg.wait
  else
    match fire cfg s obj msg with
    | (s, some e) => (write cfg s { msg with err := some e }).1
    | (s, none) =>
      let s := s.setRooms obj (addRoom msg.room)
      let s := (fire cfg s obj { msg with event := OnRoomJoined }).1
      writeEmptyReply cfg s msg.wait

/-- conn_namespace.go:281-323 `replyRoomLeave` -/
def replyRoomLeave (cfg : Cfg) (s : St) (obj : Nat) (msg : Message) : St :=
  if msg.wait = [] ∨ msg.isNoOp then s
  else if msg.room ∉ s.rooms obj then writeEmptyReply cfg s msg.wait
  else if cfg.isClient then
    let s := (fire cfg s obj msg).1
    let s := s.setRooms obj (delRoom msg.room)
    let s := writeEmptyReply cfg s msg.wait
    (fire cfg s obj { msg with event := OnRoomLeft }).1
  else
    match fire cfg s obj msg with
    | (s, some e) => (write cfg s { msg with err := some e }).1
    | (s, none) =>
      let s := s.setRooms obj (delRoom msg.room)
      let s := (fire cfg s obj { msg with event := OnRoomLeft }).1
      writeEmptyReply cfg s msg.wait

/-- conn.go:466-479 an event that is not a connect, disconnect, join or leave request -/
def handleEvent (cfg : Cfg) (s : St) (obj : Nat) (msg : Message) : St :=
  let msg := { msg with isLocal := false }
  match fire cfg s obj msg with
  | (s, some e) => (write cfg s { msg with err := some e }).1
  | (s, none) => s

/-- conn.go:583-597 `tryNamespace` after the gate, and what its callers do with it,
conn.go:457-479 -/
def afterGate (cfg : Cfg) (s : St) (msg : Message) : St :=
  match s.namespace msg.ns with
  | none => (write cfg s { msg with err := some errBadNamespace }).1
  | some obj =>
    if msg.event = OnRoomJoin then replyRoomJoin cfg s obj msg
    else if msg.event = OnRoomLeave then replyRoomLeave cfg s obj msg
    else handleEvent cfg s obj msg

/-- conn.go:442-448: `ch <- msg` on the channel of an Ask -/
def deliver (s : St) (i : Nat) (msg : Message) : St :=
  match s.asks[i]? with
  | none => s
  | some a =>
    match a.box with
    | none => { s with asks := s.asks.set i { a with box := some msg } }
    | some _ => { s with rd := .send i msg }

/-- conn.go:452-481 the event switch of `handleMessage` -/
def dispatch (cfg : Cfg) (s : St) (msg : Message) : St :=
  if msg.event = OnNamespaceConnect then replyConnect cfg s msg
  else if msg.event = OnNamespaceDisconnect then replyDisconnect cfg s msg
  else if gateBlocks s msg.ns then { s with rd := .gate msg }
  else afterGate cfg s msg

/-- conn.go:416-482 `handleMessage` -/
def handleMessage (cfg : Cfg) (s : St) (msg : Message) : St :=
  if msg.isInvalid then s
  else if msg.isNative && cfg.onlyNative then
    match s.namespace [] with
    | none => { s with hung := true }
    | some obj => (fire cfg s obj msg).1
  else if msg.isWait cfg.isClient then
    if !cfg.isClient && msg.fromStackExchange && cfg.usesExchange then s.emit (.notifyAsk msg)
    else if !cfg.isClient && msg.wait ∈ s.srvWaiting then s.emit (.toServerAsk msg)
    else match mapGet s.waiting msg.wait with
      | some i => deliver s i msg
      | none => dispatch cfg s msg
  else dispatch cfg s msg

/-- conn.go:485-492 `HandlePayload` -/
def handlePayload (cfg : Cfg) (s : St) (typ : MsgType) (b : Bytes) : St :=
  handleMessage cfg s (deserializeMessage cfg.known typ b cfg.allowNative cfg.onlyNative)

/-! ## The reader -/

/-- conn.go:320 the deferred `Close` of a returning reader -/
def readerExit (cfg : Cfg) (s : St) : St := { closeConn cfg s with rd := .dead }

/-- conn.go:361-362 the end of the acknowledgement -/
def finishAck (cfg : Cfg) (s : St) : St :=
  let s := { s with ackAfter := false }
  let (s, ok) := rawWrite cfg s (65 :: s.id) false
  if ok then s else readerExit cfg s

/-- conn.go:399-410 the rest of `handleQueue`, until the reader blocks -/
def drain (cfg : Cfg) (s : St) : List (MsgType × Bytes) → St
  | [] =>
    let s := { s with todo := [] }
    if s.ackAfter then finishAck cfg s else s
  | (t, b) :: rest =>
    let s := handlePayload cfg { s with rd := .idle } t b
    if s.rd = .idle then drain cfg s rest else { s with todo := rest }

/-- conn.go:353-362 after `readiness.wait` returned -/
def ackReady (cfg : Cfg) (s : St) (err : Option GoErr) : St :=
  match err with
  | some e => readerExit cfg (rawWrite cfg s (72 :: e.errorText) false).1
  | none =>
    let q := if cfg.textFirst s.log
      then s.queueText.map (MsgType.text, ·) ++ s.queueBinary.map (MsgType.binary, ·)
      else s.queueBinary.map (MsgType.binary, ·) ++ s.queueText.map (MsgType.text, ·)
    drain cfg { s with acked := true, queueText := [], queueBinary := [], ackAfter := true,
                       rd := .idle } q

/-- conn.go:348-397 `handleACK` -/
def handleACK (cfg : Cfg) (s : St) (typ : MsgType) (b : Bytes) : St :=
  match b with
  | [] => s
  | c :: rest =>
    if c = 77 then
      match s.ready with
      | none => { s with rd := .ack }
      | some e => ackReady cfg s e
    else if c = 65 then { s with id := rest, acked := true }.signalReady none
    else if c = 72 then readerExit cfg (s.signalReady (some (.text rest)))
    else match typ with
      | .text => { s with queueText := s.queueText ++ [b] }
      | .binary => { s with queueBinary := s.queueBinary ++ [b] }

/-- conn.go:324-345 one round of the reader loop -/
def recv (cfg : Cfg) (s : St) (typ : MsgType) (b : Bytes) : St :=
  if b = [] then s
  else if s.acked then handlePayload cfg s typ b
  else handleACK cfg s typ b

/-- the reader continues after it was blocked -/
def wakeReader (cfg : Cfg) (s : St) : Option St :=
  match s.rd with
  | .gate msg =>
    if gateReleased s msg.ns then
      let s := afterGate cfg { s with rd := .idle } msg
      if s.rd = .idle then some (drain cfg s s.todo) else some s
    else none
  | .ack =>
    match s.ready with
    | none => none
    | some e => some (ackReady cfg s e)
  | _ => none

/-! ## Asking -/

/-- conn.go:948, event.go:66 the error of an Ask on a closed connection -/
def errClosedAsk : GoErr := .closeErr (-1) (b! "[-1] write closed")

/-- The part of a call that follows its Ask: conn.go:637-661, 753-775,
conn_namespace.go:192-208, 255-278. -/
def finish (cfg : Cfg) (s : St) (k : Cont) (m : Message) (err : Option GoErr) : St :=
  match k with
  | .connect ns obj =>
    match err with
    | some e => gateDone (s.emit (.ret k (.err e))) ns
    | none =>
      let s := { s with connected := mapSet s.connected ns obj }
      let s := notifyConnected cfg s obj { ns := ns, event := OnNamespaceConnect, isLocal := true }
      gateDone (s.emit (.ret k (.nsConn obj))) ns
  | .disconnect obj msg =>
    match err with
    | some e => s.emit (.ret k (.err e))
    | none =>
      let s := forceLeaveAll cfg s obj true
      let s := { s with connected := mapDel s.connected msg.ns }
      let s := (fire cfg s obj { msg with isLocal := true }).1
      let s := notifyDisconnect cfg s msg.ns
      s.emit (.ret k .ok)
  | .join obj msg =>
    match err with
    | some e => s.emit (.ret k (.err e))
    | none =>
      match fire cfg s obj msg with
      | (s, some e) => s.emit (.ret k (.err e))
      | (s, none) =>
        let s := s.setRooms obj (addRoom msg.room)
        let s := (fire cfg s obj { msg with event := OnRoomJoined }).1
        s.emit (.ret k (.room obj msg.room))
  | .leave obj msg =>
    match err with
    | some e => s.emit (.ret k (.err e))
    | none =>
      match fire cfg s obj msg with
      | (s, some e) => s.emit (.ret k (.err e))
      | (s, none) =>
        let s := s.setRooms obj (delRoom msg.room)
        let s := (fire cfg s obj { msg with event := OnRoomLeft }).1
        s.emit (.ret k .ok)
  | .user => s.emit (.ret k (.answer m err))

/-- conn.go:87, 342-344 `isInsideHandler` as another goroutine sees it: the reader is
blocked inside `HandlePayload`. The flag is not set while the queue is handled. -/
def insideHandler (s : St) : Bool :=
  match s.rd with
  | .gate _ | .send _ _ => !s.ackAfter
  | _ => false

/-- conn.go:962-981 a new Ask -/
def newAsk (s : St) (tok : Bytes) (k : Cont) : St :=
  if insideHandler s then { s with asks := s.asks ++ [⟨tok, k, .reading, none, false⟩] }
  else { s with waiting := mapSet s.waiting tok s.asks.length,
                asks := s.asks ++ [⟨tok, k, .table, none, false⟩] }

/-- the Ask returns to its caller -/
def endAsk (s : St) (i : Nat) : St :=
  { s with asks := s.asks.modify i (fun a => { a with done := true }) }

/-- conn.go:941-985 `ask` up to the point where it waits; `now` is the clock and
`expired` whether the context's deadline passed more than a second ago. -/
def startAsk (cfg : Cfg) (s : St) (k : Cont) (msg : Message) (now : Int) (expired : Bool) : St :=
  if cfg.onlyNative then finish cfg s k {} none
  else if s.closed then finish cfg s k msg (some errClosedAsk)
  else if expired then finish cfg s k {} (some errDeadline)
  else
    let tok := genWait cfg.isClient now
    let i := s.asks.length
    match write cfg (newAsk s tok k) { msg with wait := tok } with
    | (s, true) => s
    | (s, false) => finish cfg (endAsk s i) k {} (some errWrite)

/-- conn.go:603-636 `askConnect` up to its Ask, conn.go:504-536 `Connect`. A server-side
connection that is not acknowledged yet only becomes ready; the call is polling and its
rest is a later `connect`. -/
def connect (cfg : Cfg) (s : St) (ns : Bytes) (now : Int) (expired : Bool) : St :=
  let s := s.markReady cfg
  if !cfg.isClient && !s.acked then s
  else
    let s := gateStart s ns
    match s.namespace ns with
    | some obj => gateDone (s.emit (.ret (.connect ns obj) (.nsConn obj))) ns
    | none =>
      match mapGet cfg.decl ns with
      | none => gateDone (s.emit (.ret (.connect ns s.objs.length) (.err errBadNamespace))) ns
      | some _ =>
        let (s, obj) := newObj s ns
        let msg : Message := { ns := ns, event := OnNamespaceConnect, isLocal := true }
        match fire cfg s obj msg with
        | (s, some e) => gateDone (s.emit (.ret (.connect ns obj) (.err e))) ns
        | (s, none) => startAsk cfg s (.connect ns obj) msg now expired

/-- conn_namespace.go:165-174 `Disconnect`, conn.go:737-752 -/
def disconnect (cfg : Cfg) (s : St) (obj : Nat) (now : Int) (expired : Bool) : St :=
  let msg : Message := { ns := s.nsName obj, event := OnNamespaceDisconnect }
  match s.namespace msg.ns with
  | none => s.emit (.ret (.disconnect obj msg) (.err errBadNamespace))
  | some obj' => startAsk cfg s (.disconnect obj' msg) msg now expired

/-- conn_namespace.go:90-96 `JoinRoom`, 176-191 -/
def joinRoom (cfg : Cfg) (s : St) (obj : Nat) (room : Bytes) (now : Int) (expired : Bool) : St :=
  let msg : Message := { ns := s.nsName obj, room := room, event := OnRoomJoin, isLocal := true }
  if room ∈ s.rooms obj then s.emit (.ret (.join obj msg) (.room obj room))
  else startAsk cfg s (.join obj msg) msg now expired

/-- conn_room.go:44-50 `Leave`, conn_namespace.go:237-254 -/
def leaveRoom (cfg : Cfg) (s : St) (obj : Nat) (room : Bytes) (now : Int) (expired : Bool) : St :=
  let msg : Message := { ns := s.nsName obj, room := room, event := OnRoomLeave }
  if room ∈ s.rooms obj then startAsk cfg s (.leave obj msg) msg now expired
  else s.emit (.ret (.leave obj msg) (.err errBadRoom))

/-- conn.go:993 the receive of an Ask: the channel is empty afterwards, unless the reader
was blocked on it and now gets rid of its message -/
def takeAnswer (s : St) (i : Nat) (a : AskRec) : St :=
  match s.rd with
  | .send j m' =>
    if j = i then { s with asks := s.asks.set i { a with box := some m' }, rd := .idle }
    else { s with asks := s.asks.set i { a with box := none } }
  | _ => { s with asks := s.asks.set i { a with box := none } }

/-- conn.go:994-998 -/
def forget (s : St) (a : AskRec) : St :=
  if a.mode = .table then { s with waiting := mapDel s.waiting a.tok } else s

/-- conn.go:993-1001 an Ask receives its answer -/
def resume (cfg : Cfg) (s : St) (i : Nat) : Option St :=
  match s.asks[i]? with
  | none => none
  | some a =>
    if a.done then none
    else match a.box with
      | none => none
      | some m => some (finish cfg (forget (endAsk (takeAnswer s i a) i) a) a.cont m m.err)

/-- conn.go:968-976 the goroutine of an Ask that waits only for the next message has read
the message `m`, which may stand for a read error. -/
def steal (s : St) (i : Nat) (m : Message) : Option St :=
  match s.asks[i]? with
  | none => none
  | some a =>
    if a.mode = .reading then
      some { s with asks := s.asks.set i { a with mode := .read, box := some m } }
    else none

/-- the reader continues with its queue after `resume` took the message it was blocked on -/
def contReader (cfg : Cfg) (s : St) : Option St :=
  if s.rd = .idle ∧ (s.todo ≠ [] ∨ s.ackAfter = true) then some (drain cfg s s.todo) else none

/-- conn.go:988-992 the context of an Ask is done -/
def cancel (cfg : Cfg) (s : St) (i : Nat) (ctxErr : GoErr) : Option St :=
  match s.asks[i]? with
  | none => none
  | some a =>
    if a.done then none
    else some (finish cfg (endAsk s i) a.cont {} (some (if s.closed then errWrite else ctxErr)))

/-! ## Operations -/

inductive Op where
  /-- the reader reads a payload -/
  | recv (typ : MsgType) (b : Bytes)
  /-- the reader's `ReadData` fails, conn.go:325-329 -/
  | readErr (e : GoErr)
  /-- a blocked reader continues -/
  | wake
  | contReader
  | connect (ns : Bytes) (now : Int) (expired : Bool)
  | disconnect (obj : Nat) (now : Int) (expired : Bool)
  | join (obj : Nat) (room : Bytes) (now : Int) (expired : Bool)
  | leave (obj : Nat) (room : Bytes) (now : Int) (expired : Bool)
  | ask (msg : Message) (now : Int) (expired : Bool)
  | write (msg : Message)
  | resume (i : Nat)
  | cancel (i : Nat) (ctxErr : GoErr)
  | close
  /-- the goroutine of an Ask reads a payload or fails to -/
  | steal (i : Nat) (typ : MsgType) (b : Bytes)
  | stealErr (i : Nat) (e : GoErr)
  /-- `readiness.unwait` at the end of `Upgrade`, server.go:386, 395 -/
  | ready (err : Option GoErr)
  /-- conn.go:294-306 the client sends its acknowledgement -/
  | sendAck
  /-- server.go:560-563, 571-573 a `Server.Ask` registers and unregisters -/
  | srvAsk (tok : Bytes)
  | srvUnask (tok : Bytes)

/-- The state after an operation that is enabled. -/
def exec (cfg : Cfg) (s : St) : Op → Option St
  | .recv typ b =>
    if s.rd = .idle ∧ s.todo = [] ∧ s.ackAfter = false then some (recv cfg s typ b) else none
  | .readErr e =>
    if s.rd = .idle ∧ s.todo = [] ∧ s.ackAfter = false then
      some (readerExit cfg (s.signalReady (some e)))
    else none
  | .wake => wakeReader cfg s
  | .contReader => contReader cfg s
  | .connect ns now ex => some (connect cfg s ns now ex)
  | .disconnect obj now ex => if obj < s.objs.length then some (disconnect cfg s obj now ex) else none
  | .join obj room now ex => if obj < s.objs.length then some (joinRoom cfg s obj room now ex) else none
  | .leave obj room now ex => if obj < s.objs.length then some (leaveRoom cfg s obj room now ex) else none
  | .ask msg now ex => some (startAsk cfg s .user msg now ex)
  | .write msg => some (write cfg s msg).1
  | .resume i => resume cfg s i
  | .cancel i e => cancel cfg s i e
  | .close => some (closeConn cfg s)
  | .steal i typ b =>
    steal s i (deserializeMessage cfg.known typ b cfg.allowNative cfg.onlyNative)
  | .stealErr i e => steal s i { err := some e, isError := true }
  | .ready err => some (s.signalReady err)
  | .sendAck =>
    if cfg.onlyNative then some s
    else match rawWrite cfg s (b! "M") false with
      | (s, true) => some s
      | (s, false) => some (closeConn cfg s)
  | .srvAsk tok => some { s with srvWaiting := tok :: s.srvWaiting }
  | .srvUnask tok => some { s with srvWaiting := s.srvWaiting.filter (· ≠ tok) }

/-- One step; none when not enabled, or when the goroutine hangs on its own lock or panics. -/
def step (cfg : Cfg) (s : St) (op : Op) : Option St :=
  match exec cfg s op with
  | some s' => if s'.hung then none else some s'
  | none => none

/-- conn.go:105-138 `newConn`; `id` is the generated ID on the server side,
server.go:322-326, and empty on the client side. -/
def newConn (cfg : Cfg) (id : Bytes) : St :=
  if cfg.onlyNative then
    { id := id, objs := [⟨[], []⟩], connected := [([], 0)], acked := true, ready := some none }
  else { id := id }

/-- All states a connection can reach. -/
inductive Reach (cfg : Cfg) (id : Bytes) : St → Prop
  | init : Reach cfg id (newConn cfg id)
  | step {s s' : St} {op : Op} : Reach cfg id s → step cfg s op = some s' → Reach cfg id s'

end Neffos
