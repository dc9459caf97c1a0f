import Verif.Model.Bytes
/-!
# Who reads and writes the shared maps, and with which locks

Any number of goroutines, connections and NSConns. A goroutine runs the lock operations and the accesses of one
entry point of the package, one after the other; `Code` says which sequences the package has. One step is one
lock operation or one access.

A map that belongs to one goroutine (the loop of the server, server.go:167-207; the loop of an exchange,
stackexchange/redis/stackexchange_redis.go:151-180, stackexchange/nats/stackexchange_nats.go:157-222) is guarded by a
mutex that this goroutine holds while it handles one case of its select.

Simplifications:
* everything that makes a goroutine wait other than a mutex (answers, channels, the connect gate) is left out, and so is
  the preference of a waiting writer: there are more interleavings here than in the program;
* which way a branch goes is not decided: an entry point has a sequence for every way through it;
* atomic variables and channels are synchronised by themselves; fields that are set before the connection is shared
  (`id`, the timeouts, `namespaces`) are not written later.
-/
namespace Neffos

/-- the mutexes -/
inductive Mx where
  /-- conn.go:82 of a connection -/
  | ns (c : Nat)
  /-- conn_namespace.go:26 of an NSConn -/
  | rooms (o : Nat)
  /-- conn.go:91 -/
  | wait (c : Nat)
  /-- conn.go:52 -/
  | store (c : Nat)
  /-- conn.go:97 -/
  | queue (c : Nat)
  /-- process.go:11 -/
  | procs (c : Nat)
  /-- server.go:90 -/
  | srvWait
  /-- server.go:70 -/
  | srv
  /-- server.go:167: the loop of the server -/
  | loop
  /-- the loop of an exchange -/
  | exc (e : Nat)
  /-- broadcaster.go:13 -/
  | bmu
  deriving DecidableEq

/-- the shared variables -/
inductive Vr where
  /-- conn.go:81 `connectedNamespaces` -/
  | ns (c : Nat)
  /-- conn_namespace.go:25 `rooms` -/
  | rooms (o : Nat)
  /-- conn.go:90 `waitingMessages` -/
  | wait (c : Nat)
  /-- conn.go:51 `store` -/
  | store (c : Nat)
  /-- conn.go:96 `queue` -/
  | queue (c : Nat)
  /-- process.go:10 `entries` -/
  | procs (c : Nat)
  /-- server.go:89 `waitingMessages` -/
  | srvWait
  /-- server.go:79 `connections` -/
  | conns
  /-- `subscribers` of an exchange -/
  | exc (e : Nat)
  /-- broadcaster.go:12 `messages` -/
  | batch
  deriving DecidableEq

inductive Acc where
  | lock (m : Mx)
  | unlock (m : Mx)
  | rlock (m : Mx)
  | runlock (m : Mx)
  | load (v : Vr)
  | store (v : Vr)
  deriving DecidableEq

structure MemThr where
  todo : List Acc
  /-- what it holds, and whether for writing -/
  held : List (Mx × Bool) := []
  deriving DecidableEq

structure MemSt where
  thr : List MemThr := []
  deriving DecidableEq

def MemThr.has (t : MemThr) (m : Mx) : Bool := t.held.contains (m, true) || t.held.contains (m, false)

/-- a step of goroutine `i`; `sync.RWMutex` -/
def MemSt.go (s : MemSt) (i : Nat) : Option MemSt :=
  match s.thr[i]? with
  | none => none
  | some t =>
    match t.todo with
    | [] => none
    | .lock m :: p => if s.thr.any (·.has m) then none else some ⟨s.thr.set i ⟨p, (m, true) :: t.held⟩⟩
    | .unlock m :: p => some ⟨s.thr.set i ⟨p, t.held.erase (m, true)⟩⟩
    | .rlock m :: p =>
      if s.thr.any (·.held.contains (m, true)) then none else some ⟨s.thr.set i ⟨p, (m, false) :: t.held⟩⟩
    | .runlock m :: p => some ⟨s.thr.set i ⟨p, t.held.erase (m, false)⟩⟩
    | .load _ :: p => some ⟨s.thr.set i ⟨p, t.held⟩⟩
    | .store _ :: p => some ⟨s.thr.set i ⟨p, t.held⟩⟩

/-! ## The package -/

/-- read a map under its mutex -/
def rdAcc (m : Mx) (v : Vr) : List Acc := [.rlock m, .load v, .runlock m]

/-- write a map under its mutex -/
def wrAcc (m : Mx) (v : Vr) : List Acc := [.lock m, .store v, .unlock m]

/-- conn.go:575-581 -/
def namespaceAcc (c : Nat) : List Acc := rdAcc (.ns c) (.ns c)

/-- process.go:21-37: `made` if there was none -/
def getProcAcc (c : Nat) (made : Bool) : List Acc :=
  rdAcc (.procs c) (.procs c) ++ if made then wrAcc (.procs c) (.procs c) else []

/-- conn.go:842-901: for a connect or disconnect nothing, otherwise the namespace and, if a room is given, the room;
`fail` is what a failing write does, conn.go:833-837 -/
inductive Dest where
  | none
  | ns
  | room (o : Nat)

def writeAcc (c : Nat) (d : Dest) (fail : List Acc) : List Acc :=
  (match d with
  | .none => []
  | .ns => rdAcc (.ns c) (.ns c)
  | .room o => rdAcc (.ns c) (.ns c) ++ rdAcc (.rooms o) (.rooms o)) ++ fail

/-- conn.go:941-1002: the channel is stored, the message written, the channel deleted -/
def askAcc (c : Nat) (write : List Acc) : List Acc :=
  wrAcc (.wait c) (.wait c) ++ write ++ wrAcc (.wait c) (.wait c)

/-- conn_namespace.go:146-163: OnRoomLeave and OnRoomLeft of each room -/
def forceLeaveAcc (o : Nat) (cbs : List (List Acc × List Acc)) : List Acc :=
  [.lock (.rooms o), .load (.rooms o)] ++ cbs.flatMap (fun x => x.1 ++ [.store (.rooms o)] ++ x.2) ++
    [.unlock (.rooms o)]

/-- conn.go:1007-1040: each namespace with its forced leaves and its OnNamespaceDisconnect -/
def closeAcc (c : Nat) (each : List (List Acc × List Acc)) : List Acc :=
  [.lock (.ns c), .load (.ns c)] ++ each.flatMap (fun x => x.1 ++ x.2 ++ [.store (.ns c)]) ++ [.unlock (.ns c)] ++
    [.lock (.wait c), .load (.wait c), .store (.wait c), .unlock (.wait c)]

/-- conn.go:603-662 -/
def askConnectAcc (c : Nat) (made : Bool) (onConnect ask onConnected : List Acc) : List Acc :=
  getProcAcc c made ++ namespaceAcc c ++ onConnect ++ ask ++ wrAcc (.ns c) (.ns c) ++ onConnected

/-- conn.go:664-698 -/
def replyConnectAcc (c : Nat) (onConnect write onConnected : List Acc) : List Acc :=
  namespaceAcc c ++ onConnect ++ wrAcc (.ns c) (.ns c) ++ write ++ onConnected

/-- conn.go:737-776 -/
def askDisconnectAcc (c : Nat) (ask leaves onDisconnect : List Acc) : List Acc :=
  rdAcc (.ns c) (.ns c) ++ ask ++ leaves ++ wrAcc (.ns c) (.ns c) ++ onDisconnect

/-- conn.go:718-735 with conn.go:737-776 without locking: each namespace with its request, which needs no
namespace (conn.go:852), its forced leaves and its OnNamespaceDisconnect -/
def disconnectAllAcc (c : Nat) (each : List (List Acc × List Acc × List Acc)) : List Acc :=
  [.lock (.ns c), .load (.ns c)] ++
    each.flatMap (fun x => [.load (.ns c)] ++ x.1 ++ x.2.1 ++ [.store (.ns c)] ++ x.2.2) ++ [.unlock (.ns c)]

/-- conn.go:778-822 on a client and on a server -/
def replyDisconnectAcc (c : Nat) (before leaves after : List Acc) : List Acc :=
  namespaceAcc c ++ before ++ leaves ++ wrAcc (.ns c) (.ns c) ++ after

/-- conn_namespace.go:176-209, 237-279 with locking -/
def askRoomAcc (o : Nat) (ask before after : List Acc) : List Acc :=
  rdAcc (.rooms o) (.rooms o) ++ ask ++ before ++ wrAcc (.rooms o) (.rooms o) ++ after

/-- conn_namespace.go:211-235, 281-323 -/
def replyRoomAcc (o : Nat) (before after write : List Acc) : List Acc :=
  rdAcc (.rooms o) (.rooms o) ++ before ++ wrAcc (.rooms o) (.rooms o) ++ after ++ write

/-- conn_namespace.go:127-144 with conn_namespace.go:237-279 without locking: the request of each room is written with
`locked`, so that conn.go:857 reads the namespaces with no mutex and conn.go:872 the rooms with the one held -/
def leaveAllAcc (c o : Nat) (each : List (List Acc × List Acc × List Acc)) : List Acc :=
  [.lock (.rooms o), .load (.rooms o)] ++
    each.flatMap (fun x => [.load (.rooms o)] ++ askAcc c ([.load (.ns c), .load (.rooms o)] ++ x.1) ++ x.2.1 ++
      [.store (.rooms o)] ++ x.2.2) ++ [.unlock (.rooms o)]

/-- conn.go:386-392 -/
def enqueueAcc (c : Nat) : List Acc := [.lock (.queue c), .load (.queue c), .store (.queue c), .unlock (.queue c)]

/-- conn.go:399-410: each type with its payloads -/
def handleQueueAcc (c : Nat) (each : List (List Acc)) : List Acc :=
  [.lock (.queue c), .load (.queue c)] ++ each.flatMap (fun p => p ++ [.store (.queue c)]) ++ [.unlock (.queue c)]

/-- conn.go:416-482: the lookups of an answer, then the handling -/
def handleMessageAcc (c : Nat) (server : Bool) (rest : List Acc) : List Acc :=
  (if server then rdAcc .srvWait .srvWait else []) ++ rdAcc (.wait c) (.wait c) ++ rest

/-- conn.go:187-194 -/
def setAcc (c : Nat) : List Acc := [.lock (.store c), .load (.store c), .store (.store c), .unlock (.store c)]

/-- server.go:172-192 a connection comes or goes -/
def loopConnAcc (onDisconnect : List Acc) : List Acc :=
  [.lock .loop, .load .conns, .store .conns] ++ onDisconnect ++ [.unlock .loop]

/-- server.go:193-204: something is done for each connection -/
def loopEachAcc (each : List (List Acc)) : List Acc :=
  [.lock .loop, .load .conns] ++ each.flatMap (fun p => p ++ [.load .conns]) ++ [.unlock .loop]

/-- a case of the loop of an exchange -/
def excAcc (e : Nat) (rest : List Acc) : List Acc :=
  [.lock (.exc e), .load (.exc e), .store (.exc e)] ++ rest ++ [.unlock (.exc e)]

/-- server.go:548-577 -/
def serverAskAcc (cast : List Acc) : List Acc := wrAcc .srvWait .srvWait ++ cast ++ wrAcc .srvWait .srvWait

/-- server.go:585-614: `Namespace` of each connection, or nothing -/
def getConnectionsAcc (each : List (List Acc)) : List Acc :=
  [.rlock .srv, .load .conns] ++ each.flatMap (fun p => p ++ [.load .conns]) ++ [.runlock .srv]

/-- broadcaster.go:31-39 -/
def broadcastAcc : List Acc := wrAcc .bmu .batch

/-- server.go:458-468 with broadcaster.go:41-53: the messages are read between the two locks -/
def waitMessagesAcc (publish : List Acc) : List Acc :=
  [.lock .bmu, .unlock .bmu, .load .batch, .lock .bmu] ++ publish ++ [.unlock .bmu]

/-- which of the three calls that read without the mutex of the variable a program makes -/
structure UnguardedUses where
  leaveAll : Bool
  getConnections : Bool
  /-- the goroutine of each connection that waits for broadcasts, server.go:338-343 -/
  waitMessages : Bool
  deriving DecidableEq

/-- The sequences of the package. Callbacks, and what a failing write does, are sequences of the package too. -/
inductive Code (u : UnguardedUses) : List Acc → Prop
  | nil : Code u []
  | seq {p q : List Acc} : Code u p → Code u q → Code u (p ++ q)
  | namespace (c : Nat) : Code u (namespaceAcc c)
  | getProc (c : Nat) (made : Bool) : Code u (getProcAcc c made)
  | write (c : Nat) (d : Dest) {fail : List Acc} : Code u fail → Code u (writeAcc c d fail)
  | ask (c : Nat) {w : List Acc} : Code u w → Code u (askAcc c w)
  | room (o : Nat) : Code u (rdAcc (.rooms o) (.rooms o))
  | forceLeave (o : Nat) {cbs : List (List Acc × List Acc)} : (∀ x ∈ cbs, Code u x.1) → (∀ x ∈ cbs, Code u x.2) →
      Code u (forceLeaveAcc o cbs)
  | close (c : Nat) {each : List (List Acc × List Acc)} : (∀ x ∈ each, Code u x.1) → (∀ x ∈ each, Code u x.2) →
      Code u (closeAcc c each)
  | askConnect (c : Nat) (made : Bool) {p q r : List Acc} : Code u p → Code u q → Code u r →
      Code u (askConnectAcc c made p q r)
  | replyConnect (c : Nat) {p q r : List Acc} : Code u p → Code u q → Code u r → Code u (replyConnectAcc c p q r)
  | askDisconnect (c : Nat) {p q r : List Acc} : Code u p → Code u q → Code u r → Code u (askDisconnectAcc c p q r)
  | disconnectAll (c : Nat) {each : List (List Acc × List Acc × List Acc)} : (∀ x ∈ each, Code u x.1) →
      (∀ x ∈ each, Code u x.2.1) → (∀ x ∈ each, Code u x.2.2) → Code u (disconnectAllAcc c each)
  | replyDisconnect (c : Nat) {p q r : List Acc} : Code u p → Code u q → Code u r → Code u (replyDisconnectAcc c p q r)
  | askRoom (o : Nat) {p q r : List Acc} : Code u p → Code u q → Code u r → Code u (askRoomAcc o p q r)
  | replyRoom (o : Nat) {p q r : List Acc} : Code u p → Code u q → Code u r → Code u (replyRoomAcc o p q r)
  | leaveAll (c o : Nat) {each : List (List Acc × List Acc × List Acc)} : (∀ x ∈ each, Code u x.1) →
      (∀ x ∈ each, Code u x.2.1) → (∀ x ∈ each, Code u x.2.2) → u.leaveAll = true → Code u (leaveAllAcc c o each)
  | enqueue (c : Nat) : Code u (enqueueAcc c)
  | handleQueue (c : Nat) {each : List (List Acc)} : (∀ p ∈ each, Code u p) → Code u (handleQueueAcc c each)
  | handleMessage (c : Nat) (server : Bool) {p : List Acc} : Code u p → Code u (handleMessageAcc c server p)
  | set (c : Nat) : Code u (setAcc c)
  | get (c : Nat) : Code u (rdAcc (.store c) (.store c))
  | loopConn {p : List Acc} : Code u p → Code u (loopConnAcc p)
  | loopEach {each : List (List Acc)} : (∀ p ∈ each, Code u p) → Code u (loopEachAcc each)
  | exc (e : Nat) {p : List Acc} : Code u p → Code u (excAcc e p)
  | serverAsk {p : List Acc} : Code u p → Code u (serverAskAcc p)
  | getConnections {each : List (List Acc)} : (∀ p ∈ each, Code u p) → u.getConnections = true →
      Code u (getConnectionsAcc each)
  | broadcast : Code u broadcastAcc
  | waitMessages {p : List Acc} : Code u p → u.waitMessages = true → Code u (waitMessagesAcc p)

/-- the states of a program whose goroutines run the package -/
inductive MemReach (u : UnguardedUses) : MemSt → Prop
  | init : MemReach u {}
  | spawn {s : MemSt} {p : List Acc} : MemReach u s → Code u p → MemReach u ⟨s.thr ++ [⟨p, []⟩]⟩
  | go {s s' : MemSt} {i : Nat} : MemReach u s → s.go i = some s' → MemReach u s'

end Neffos
