import Verif.Model.ServerLoop
/-!
# Specification vocabulary for what is under way at a server (for C136)
-/
set_option autoImplicit false
namespace Neffos.Spec

/-- the steps of the goroutines that are there: no new call of Upgrade, Close, Do or Broadcast is made, and no connection is closed
from outside -/
def UnderWay : LOp → Bool
  | .up _ | .closer _ | .caller _ | .loop | .recvConnect | .recvDisc _ | .recvCall _ _ => true
  | .upgrade | .unwait _ _ | .close _ | .call _ => false

/-- the loop has at most so many steps to its `select`: two for each connection it has to visit for an action -/
def loopWork : LoopPc → Nat
  | .sel => 0
  | .boot | .inc | .exch _ | .done _ => 1
  | .fire _ => 2
  | .dec _ => 3
  | .cast _ r => r.length + 1
  | .act _ r => 2 * r.length + 2
  | .shut _ _ r => 2 * r.length + 3

/-- an Upgrade has to check, to send, to be received and counted -/
def upWork (x : LConn) : Nat :=
  match x.up with
  | .check => 4
  | .send => 3
  | .refused | .sent => 0

/-- a connection has to be closed, to tell it, and to be removed in four steps of the loop -/
def discWork (x : LConn) : Nat :=
  match x.disc with
  | .none => if x.cl = .open then 6 else 5
  | .sending => 4
  | .served => 0

/-- a call has to set the flag, to be received, and to be served with `n` connections -/
def callWork (n : Nat) (x : LCall) : Nat :=
  match x.pc with
  | .cas => 2 * n + 4
  | .send => 2 * n + 3
  | .wait | .ret => 0

/-- a connection in the channel has to be received and counted -/
def bufWork : Option Nat → Nat
  | none => 0
  | some _ => 2

def connsWork (l : List LConn) : Nat := (l.map fun x => upWork x + discWork x).sum

def callsWork (n : Nat) (l : List LCall) : Nat := (l.map (callWork n)).sum

/-- what is left to do -/
def serverWork (s : LSt) : Nat :=
  loopWork s.loop + bufWork s.buf + connsWork s.conns + callsWork s.conns.length s.calls

end Neffos.Spec
