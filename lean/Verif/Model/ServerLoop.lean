import Verif.Model.Bytes
/-!
# The server's loop, step by step (server.go:113-216, 285-397, 417-434, 504-538, conn.go:1007-1040)

The goroutine of `start`, any number of goroutines in `Upgrade`, `Server.Close`, `Do` and `Broadcast`
(with SyncBroadcaster), and the `Close` of any connection. A connection is a number, in the order
in which the calls of `Upgrade` were made. Each atomic operation, map operation and channel operation
is one step.

Simplifications:
* of `Upgrade` only the check of `closed` and the send to `connect` are here; the rest is
  `Model/Upgrade.lean`. A goroutine may stay at a step for ever, like an `Upgrade` whose upgrader
  failed.
* `unwait` is one step; its own races are `Model/Latch.lean`.
* any goroutine may close a connection, at any time after the connection was made.
* what a batch does to a connection is `publishMessages`, `Model/Broadcast.lean`; here it is only
  logged that the batch was offered. The same goes for the function given to `Do`.
* callbacks and the functions given to `Do` end. A `Do` made by one of them is `Model/Locks.lean`.
-/
namespace Neffos

/-- where a call of `Upgrade` is -/
inductive UPc where
  /-- server.go:285 before `closed` is read -/
  | check
  /-- server.go:286-287 -/
  | refused
  /-- server.go:345 before the send, the connection is made -/
  | send
  /-- after it -/
  | sent
  deriving DecidableEq

/-- where the `Close` of a connection is, conn.go:1007-1040 -/
inductive LClose where
  | open
  /-- after the compare-and-swap; whether it is the loop that closes it, for `Server.Close` -/
  | firing (byLoop : Bool)
  /-- the goroutine of conn.go:1032 is started -/
  | told
  deriving DecidableEq

/-- the goroutine of conn.go:1032-1034 -/
inductive LDisc where
  | none
  | sending
  | served
  deriving DecidableEq

structure LConn where
  up : UPc := .check
  cl : LClose := .open
  disc : LDisc := .none
  /-- `readiness`: none if not ready, otherwise whether its error is set -/
  ready : Option Bool := none
  deriving DecidableEq

inductive LKind where
  /-- server.go:210 `Close` -/
  | close
  /-- server.go:422 `Do` -/
  | act (async : Bool)
  /-- server.go:533 `Broadcast` -/
  | cast
  deriving DecidableEq

inductive CallPc where
  /-- server.go:211 -/
  | cas
  /-- server.go:430, 533 -/
  | send
  /-- server.go:432 -/
  | wait
  | ret
  deriving DecidableEq

/-- a call of `Server.Close`, `Do` or `Broadcast` -/
structure LCall where
  kind : LKind
  pc : CallPc
  deriving DecidableEq

/-- whether the action of the call has a `done` channel, server.go:424-425, 212-214 -/
def LKind.sync : LKind → Bool
  | .act async => !async
  | _ => true

/-- where the loop is -/
inductive LoopPc where
  /-- server.go:168 -/
  | boot
  /-- server.go:171 -/
  | sel
  /-- server.go:174 -/
  | inc
  /-- server.go:179 -/
  | dec (c : Nat)
  /-- server.go:181-187 -/
  | fire (c : Nat)
  /-- server.go:189-191 -/
  | exch (c : Nat)
  /-- server.go:194-196 with the connections still to be visited -/
  | cast (k : Nat) (rest : List Nat)
  /-- server.go:198-200 -/
  | act (k : Nat) (rest : List Nat)
  /-- server.go:199, conn.go:1009-1038 in the `Close` of a connection -/
  | shut (k c : Nat) (rest : List Nat)
  /-- server.go:202-204 -/
  | done (k : Nat)
  deriving DecidableEq

/-- what the loop did, oldest first -/
inductive LEv where
  /-- server.go:173 -/
  | reg (c : Nat)
  /-- server.go:178 -/
  | drop (c : Nat)
  /-- server.go:176 the connection is not registered -/
  | ignored (c : Nat)
  /-- server.go:186 -/
  | onDisc (c : Nat)
  /-- server.go:190 -/
  | exchDisc (c : Nat)
  /-- server.go:193, 197 -/
  | served (k : Nat)
  /-- server.go:195, 199 -/
  | offered (c k : Nat)
  deriving DecidableEq

/-- server.go:68, 103, 50 -/
structure LCfg where
  always : Bool := false
  onDisc : Bool := true
  exch : Bool := false

structure LSt where
  flag : Bool := false
  count : BitVec 64 := 0
  regs : List Nat := []
  /-- server.go:123 the channel `connect` has room for one connection -/
  buf : Option Nat := none
  conns : List LConn := []
  calls : List LCall := []
  loop : LoopPc := .boot
  log : List LEv := []
  deriving DecidableEq

def LSt.setC (s : LSt) (c : Nat) (x : LConn) : LSt := { s with conns := s.conns.set c x }

def LSt.setK (s : LSt) (k : Nat) (x : LCall) : LSt := { s with calls := s.calls.set k x }

inductive LOp where
  /-- `Upgrade` is called -/
  | upgrade
  /-- the call of `Upgrade` takes its next step -/
  | up (c : Nat)
  /-- `readiness.unwait`, with an error or not -/
  | unwait (c : Nat) (err : Bool)
  /-- conn.go:1008 some goroutine gets past the compare-and-swap -/
  | close (c : Nat)
  /-- that goroutine goes on -/
  | closer (c : Nat)
  /-- `Server.Close`, `Do` or `Broadcast` is called -/
  | call (k : LKind)
  /-- that call takes its next step by itself -/
  | caller (k : Nat)
  /-- the loop takes its next step by itself -/
  | loop
  /-- server.go:172 -/
  | recvConnect
  /-- server.go:175 -/
  | recvDisc (c : Nat)
  /-- server.go:193, 197, the call `k` gets through; `order` is the order of the `range` -/
  | recvCall (k : Nat) (order : List Nat)
  deriving DecidableEq

/-- server.go:285-287, 345 -/
def LSt.upStep (s : LSt) (c : Nat) : Option LSt :=
  match s.conns[c]? with
  | none => none
  | some x =>
    match x.up with
    | .check => some (s.setC c { x with up := if s.flag then .refused else .send })
    | .send =>
      match s.buf with
      | none => some { s.setC c { x with up := .sent } with buf := some c }
      | some _ => none
    | _ => none

/-- server.go:211, 430-432 -/
def LSt.callerStep (s : LSt) (k : Nat) : Option LSt :=
  match s.calls[k]? with
  | none => none
  | some x =>
    match x.pc with
    | .cas =>
      if s.flag then some (s.setK k { x with pc := .ret })
      else some { s.setK k { x with pc := .send } with flag := true }
    | _ => none

/-- server.go:167-207 the loop, from one channel operation to the next -/
def LSt.loopStep (cfg : LCfg) (s : LSt) : Option LSt :=
  match s.loop with
  | .boot => some { s with flag := false, loop := .sel }
  | .sel => none
  | .inc => some { s with count := s.count + 1, loop := .sel }
  -- `^uint64(0)` is all ones
  | .dec c => some { s with count := s.count + BitVec.allOnes 64, loop := .fire c }
  | .fire c =>
    match s.conns[c]? with
    | none => none
    | some x =>
      if cfg.onDisc then
        if !cfg.always && (x.ready = none || x.ready = some true) then some { s with loop := .sel }
        else some { s with log := s.log ++ [.onDisc c], loop := .exch c }
      else some { s with loop := .exch c }
  | .exch c => some { s with log := if cfg.exch then s.log ++ [.exchDisc c] else s.log, loop := .sel }
  | .cast _ [] => some { s with loop := .sel }
  | .cast k (c :: rest) => some { s with log := s.log ++ [.offered c k], loop := .cast k rest }
  | .act k [] =>
    match s.calls[k]? with
    | none => none
    | some x => some { s with loop := if x.kind.sync then .done k else .sel }
  | .act k (c :: rest) =>
    match s.calls[k]?, s.conns[c]? with
    | some x, some y =>
      if x.kind = .close ∧ y.cl = .open then
        some { s.setC c { y with cl := .firing true } with log := s.log ++ [.offered c k], loop := .shut k c rest }
      else some { s with log := s.log ++ [.offered c k], loop := .act k rest }
    | _, _ => none
  | .shut k c rest =>
    match s.conns[c]? with
    | none => none
    | some y => some { s.setC c { y with cl := .told, disc := .sending } with loop := .act k rest }
  | .done k =>
    match s.calls[k]? with
    | none => none
    | some x =>
      if x.pc = .wait then some { s.setK k { x with pc := .ret } with loop := .sel } else none

/-- server.go:172-180, 193, 197 the loop receives -/
def LSt.recvStep (s : LSt) : LOp → Option LSt
  | .recvConnect =>
    match s.buf with
    | none => none
    | some c => some { s with buf := none, regs := c :: s.regs, loop := .inc, log := s.log ++ [.reg c] }
  | .recvDisc c =>
    match s.conns[c]? with
    | none => none
    | some x =>
      if x.disc = .sending then
        if c ∈ s.regs then
          some { s.setC c { x with disc := .served } with
            regs := s.regs.erase c, loop := .dec c, log := s.log ++ [.drop c] }
        else some { s.setC c { x with disc := .served } with log := s.log ++ [.ignored c] }
      else none
  | .recvCall k order =>
    match s.calls[k]? with
    | none => none
    | some x =>
      if x.pc = .send ∧ order.isPerm s.regs then
        match x.kind with
        | .cast => some { s.setK k { x with pc := .ret } with loop := .cast k order, log := s.log ++ [.served k] }
        | kd =>
          some { s.setK k { x with pc := if kd.sync then .wait else .ret } with
            loop := .act k order, log := s.log ++ [.served k] }
      else none
  | _ => none

def LSt.step (cfg : LCfg) (s : LSt) : LOp → Option LSt
  | .upgrade => some { s with conns := s.conns ++ [{}] }
  | .up c => s.upStep c
  | .unwait c err =>
    match s.conns[c]? with
    | none => none
    | some x =>
      if x.up = .check ∨ x.up = .refused then none
      else some (s.setC c { x with ready := if x.ready = none then some err else x.ready })
  | .close c =>
    match s.conns[c]? with
    | none => none
    | some x =>
      if x.up = .check ∨ x.up = .refused then none
      else if x.cl = .open then some (s.setC c { x with cl := .firing false })
      else none
  | .closer c =>
    match s.conns[c]? with
    | none => none
    | some x =>
      if x.cl = .firing false then some (s.setC c { x with cl := .told, disc := .sending }) else none
  | .call k =>
    some { s with calls := s.calls ++ [{ kind := k, pc := if k = .close then .cas else .send }] }
  | .caller k => s.callerStep k
  | .loop => s.loopStep cfg
  | op => if s.loop = .sel then s.recvStep op else none

def LSt.run (cfg : LCfg) (s : LSt) : List LOp → Option LSt
  | [] => some s
  | op :: ops =>
    match s.step cfg op with
    | some s' => s'.run cfg ops
    | none => none

/-- the states that some schedule reaches from the one `New` returns, server.go:116-132 -/
def LReach (cfg : LCfg) (s : LSt) : Prop := ∃ ops, LSt.run cfg {} ops = some s

end Neffos
