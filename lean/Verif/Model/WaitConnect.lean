import Verif.Model.Conn
/-!
# Waiting for the other side to connect (conn.go:551-572, client.go:40-47)

A goroutine in `WaitConnect` (which `Client.WaitServerConnect` calls) beside the connection of `Model/Conn.lean`. One step of it
is the `select`, the look at the namespaces or the look at the acknowledgement; in between, the connection
takes any steps. `time.Sleep` is the freedom to take no step.
-/
namespace Neffos

/-- where the loop is -/
inductive WaitPc where
  /-- conn.go:557-559 -/
  | select
  /-- conn.go:561-563 -/
  | look
  /-- conn.go:565-569 -/
  | ack
  /-- it returned -/
  | done (r : Except GoErr Nat)

/-- the goroutine: its variable `ns` and where it is -/
structure NsWaiter where
  ns : Option Nat := none
  pc : WaitPc := .select

/-- One step; `ctx` is the error of the context if it is done. -/
def waitStep (name : Bytes) (ctx : Option GoErr) (s : St) (w : NsWaiter) : NsWaiter :=
  match w.pc with
  | .select =>
    match ctx with
    | some e => { w with pc := .done (.error e) }
    | none => { w with pc := .look }
  | .look =>
    match w.ns with
    | none => { ns := s.namespace name, pc := .ack }
    | some _ => { w with pc := .ack }
  | .ack =>
    match w.ns with
    | some obj => if s.acked then { w with pc := .done (.ok obj) } else { w with pc := .select }
    | none => { w with pc := .select }
  | .done _ => w

inductive WaitOp where
  /-- the connection takes a step -/
  | conn (op : Op)
  /-- the waiting goroutine takes a step -/
  | wait (ctx : Option GoErr)

def waitOpStep (cfg : Cfg) (name : Bytes) (p : St × NsWaiter) : WaitOp → Option (St × NsWaiter)
  | .conn op => (step cfg p.1 op).map fun s => (s, p.2)
  | .wait ctx => some (p.1, waitStep name ctx p.1 p.2)

/-- the connection and the goroutine after these steps -/
def waitRun (cfg : Cfg) (name : Bytes) (p : St × NsWaiter) : List WaitOp → Option (St × NsWaiter)
  | [] => some p
  | op :: ops => (waitOpStep cfg name p op).bind fun p' => waitRun cfg name p' ops

end Neffos
