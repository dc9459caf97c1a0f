import Verif.Spec.Both
import Verif.Spec.Settle
/-!
# Specification vocabulary for the end of sessions in which both sides call
-/
namespace Neffos.Spec

/-- this side has called Disconnect of this namespace and the call has not returned -/
def Leaving (s : St) (n : Bytes) : Prop :=
  ∃ a ∈ s.asks, a.done = false ∧ ∃ obj msg, a.cont = .disconnect obj msg ∧ msg.ns = n

/-- Like `BothRequests`, and neither side emits in a namespace while a Disconnect of this namespace, of
its own, is in flight. -/
def RuledRequests (s : Sess) (op : SessOp) : Prop :=
  BothRequests s op ∧ match op with
    | .client (.write m) => ¬ Leaving s.c m.ns
    | .server (.write m) => ¬ Leaving s.d m.ns
    | _ => True

/-- the sessions in which every step keeps to this -/
inductive RuledRun (cc sc : Cfg) (id : Bytes) : List SessOp → Sess → Prop
  | init : RuledRun cc sc id [] (newSess cc sc id)
  | step {ops : List SessOp} {s s' : Sess} {op : SessOp} : RuledRun cc sc id ops s →
      RuledRequests s op → sstep cc sc s op = some s' → RuledRun cc sc id (ops ++ [op]) s'

/-- what is asked of each of the two sides: its socket takes everything, its callbacks do not use the connection,
and they return nil for events -/
structure StillSide (cfg : Cfg) : Prop where
  cbs : StillCbs cfg
  nil : NilForEvents cfg
  takes : TakesAll cfg

/-- the steps by which a session of two calling sides goes on without the applications: a reader reads or goes on, a
call of either side returns -/
def SettlingBoth : SessOp → Prop
  | .up => True
  | .down => True
  | .client .wake => True
  | .client (.resume _) => True
  | .server .wake => True
  | .server (.resume _) => True
  | _ => False

/-- what a payload costs: one that asks its reader for something makes the reader send an answer -/
def cost (reader : Cfg) (p : MsgType × Bytes) : Nat :=
  match (deserializeMessage reader.known p.1 p.2 false false).wait with
  | [] => 2
  | c :: _ => if (c = 36) = (reader.isClient = true) then 2 else 4

/-- the calls of this side that have not returned, and an event that its reader holds back -/
def owed (s : St) : Nat := s.asks.countP (fun a => !a.done) + (if s.rd = .idle then 0 else 1)

/-- what is left to do -/
def workBoth (cc sc : Cfg) (s : Sess) : Nat :=
  (((pipe s.c.log).drop s.up).map (cost sc)).sum + (((pipe s.d.log).drop s.down).map (cost cc)).sum + owed s.c + owed s.d

/-- both sides are open and Dial has returned -/
structure Open (s : Sess) : Prop where
  dial : s.c.ready = some none
  cli : s.c.closed = false
  srv : s.d.closed = false

end Neffos.Spec
