import Verif.Spec.Session
/-!
# Specification vocabulary for sessions in which both sides call
-/
namespace Neffos.Spec

/-- What is asked of the callbacks when both sides call: what `Consistent` asks of the client's and
the server's, for each of them in both roles. -/
def BothConsistent (cc sc : Cfg) : Prop := Consistent cc sc ∧ Consistent sc cc

/-- a call can be made although others are in flight: the connection is acknowledged, the reader is
not inside a handler, and none of the other calls of this side has the token that this one gets from
the clock -/
def MayCall (client : Bool) (s : St) (now : Int) : Prop :=
  s.ready = some none ∧ s.acked = true ∧ s.rd = .idle ∧
    ∀ a ∈ s.asks, a.done = false → a.tok ≠ genWait client now

/-- no call in flight, of either side, clashes with this -/
def Free (s : Sess) (x : Bytes × Option Bytes) : Prop := Unclaimed s.c x ∧ Unclaimed s.d x

/-- Any number of calls of both sides at a time: each side connects, disconnects, joins and leaves
while calls of both sides are in flight, as long as none of those clashes with it, with names that
survive escaping, and joins and leaves rooms through an NSConn that is connected. The server may
call Connect before the handshake has ended. Both sides emit and may close at any time. -/
def BothRequests (s : Sess) : SessOp → Prop
  | .client (.connect ns now _) => MayCall true s.c now ∧ Free s (ns, none) ∧ SafeName ns
  | .client (.disconnect obj now _) =>
      MayCall true s.c now ∧ Free s (s.c.nsName obj, none) ∧ SafeName (s.c.nsName obj)
  | .client (.join obj room now _) => MayCall true s.c now ∧ Free s (s.c.nsName obj, some room) ∧
      linked s.c obj = true ∧ SafeName (s.c.nsName obj) ∧ SafeName room
  | .client (.leave obj room now _) => MayCall true s.c now ∧ Free s (s.c.nsName obj, some room) ∧
      linked s.c obj = true ∧ SafeName (s.c.nsName obj) ∧ SafeName room
  | .server (.connect ns now _) =>
      s.d.acked = false ∨ (MayCall false s.d now ∧ Free s (ns, none) ∧ SafeName ns)
  | .server (.disconnect obj now _) =>
      MayCall false s.d now ∧ Free s (s.d.nsName obj, none) ∧ SafeName (s.d.nsName obj)
  | .server (.join obj room now _) => MayCall false s.d now ∧ Free s (s.d.nsName obj, some room) ∧
      linked s.d obj = true ∧ SafeName (s.d.nsName obj) ∧ SafeName room
  | .server (.leave obj room now _) => MayCall false s.d now ∧ Free s (s.d.nsName obj, some room) ∧
      linked s.d obj = true ∧ SafeName (s.d.nsName obj) ∧ SafeName room
  | .server (.resume _) => True
  | op => OneRequest s op

/-- the sessions in which every step keeps to this -/
inductive BothRun (cc sc : Cfg) (id : Bytes) : List SessOp → Sess → Prop
  | init : BothRun cc sc id [] (newSess cc sc id)
  | step {ops : List SessOp} {s s' : Sess} {op : SessOp} : BothRun cc sc id ops s →
      BothRequests s op → sstep cc sc s op = some s' → BothRun cc sc id (ops ++ [op]) s'

/-- neither reader can read or go on, and no call of either side can return -/
structure Standstill (cc sc : Cfg) (s : Sess) : Prop where
  up : sstep cc sc s .up = none
  down : sstep cc sc s .down = none
  wakeC : sstep cc sc s (.client .wake) = none
  wakeS : sstep cc sc s (.server .wake) = none
  resumeC : ∀ i, sstep cc sc s (.client (.resume i)) = none
  resumeS : ∀ i, sstep cc sc s (.server (.resume i)) = none

/-- the reader of this side holds an event back until a Connect of this side, to the namespace of the
event, has its answer; and the Connect does not have it -/
def HeldBack (s : St) : Prop := ∃ (M : Message) (i obj : Nat) (a : AskRec), s.rd = .gate M ∧
  s.asks[i]? = some a ∧ a.done = false ∧ a.mode = .table ∧
  a.cont = .connect M.ns obj ∧ a.box = none

end Neffos.Spec
