import Verif.Model.Broadcast
import Verif.Model.ServerLoop
import Verif.Model.Session
/-!
# A server and all its clients (server.go:167-207, 436-456, conn.go:1007-1040)

The loop of `Model/ServerLoop.lean` and, for each of its connections, the session with its client of
`Model/Session.lean`. The steps of the loop and those of the sessions are interleaved in any way. Where
the loop does something to a connection, it does it to the session: it publishes a batch to it, or closes it
for `Server.Close`. Where a session closes its server-side connection, the loop is told.

Simplifications, besides those of the two models:
* a batch is published to one connection in one step; other connections and clients go on between one
  connection and the next.
* `closeConn` is one step for the session, and two for the loop.
* when `readiness` of a connection is set, for `OnDisconnect`, is left open, as are the functions given to `Do`.
-/
namespace Neffos

structure NetCfg where
  loop : LCfg
  /-- the configuration of each client and of the server-side connection of each -/
  cc : Nat → Cfg
  sc : Nat → Cfg
  /-- server.go:322-326 the generated IDs -/
  id : Nat → Bytes
  /-- server.go:504-533 the messages of each call of `Broadcast`, with its marks -/
  batch : Nat → List Message

structure Net where
  loop : LSt
  sess : Nat → Sess

inductive NetOp where
  /-- a step of the loop, or of a goroutine that uses it -/
  | loop (op : LOp)
  /-- a step of the session of a connection -/
  | sess (c : Nat) (op : SessOp)

/-- what a step of the loop does to a connection -/
inductive Touch where
  /-- server.go:195 -/
  | publish (c k : Nat)
  /-- server.go:199, 212-213 -/
  | shut (c : Nat)
  deriving DecidableEq

/-- server.go:194-199 -/
def LSt.touch (s : LSt) : LOp → Option Touch
  | .loop =>
    match s.loop with
    | .cast k (c :: _) => some (.publish c k)
    | .act k (c :: _) =>
      match s.calls[k]?, s.conns[c]? with
      | some x, some y => if x.kind = .close ∧ y.cl = .open then some (.shut c) else none
      | _, _ => none
    | _ => none
  | _ => none

/-- the connection is made, server.go:328 -/
def LSt.made (s : LSt) (c : Nat) : Bool :=
  match s.conns[c]? with
  | some x => x.up = .send || x.up = .sent
  | none => false

/-- the session of `c` goes on; if its server-side connection is closed now, so it is for the loop,
conn.go:1008-1034 -/
def Net.put (cfg : NetCfg) (s : Net) (c : Nat) (x : Sess) : Net :=
  { loop := if x.d.closed then (s.loop.step cfg.loop (.close c)).getD s.loop else s.loop
    sess := fun i => if i = c then x else s.sess i }

/-- one step; none when not enabled -/
def Net.step (cfg : NetCfg) (s : Net) : NetOp → Option Net
  | .sess c op =>
    if s.loop.made c then (sstep (cfg.cc c) (cfg.sc c) (s.sess c) op).map (s.put cfg c) else none
  -- connections are closed by their sessions
  | .loop (.close _) => none
  | .loop op =>
    match s.loop.step cfg.loop op with
    | none => none
    | some l =>
      match s.loop.touch op with
      | none => some { s with loop := l }
      | some (.publish c k) =>
        some (Net.put cfg { s with loop := l } c
          { s.sess c with d := (publishMessages (cfg.sc c) (s.sess c).d (cfg.batch k)).1 })
      | some (.shut c) =>
        some (Net.put cfg { s with loop := l } c { s.sess c with d := closeConn (cfg.sc c) (s.sess c).d })

/-- server.go:116-132 `New`, before any connection -/
def newNet (cfg : NetCfg) : Net :=
  { loop := {}, sess := fun c => newSess (cfg.cc c) (cfg.sc c) (cfg.id c) }

def Net.run (cfg : NetCfg) (s : Net) : List NetOp → Option Net
  | [] => some s
  | op :: ops =>
    match s.step cfg op with
    | some s' => s'.run cfg ops
    | none => none

/-- the states that some schedule reaches -/
def NetReach (cfg : NetCfg) (s : Net) : Prop := ∃ ops, (newNet cfg).run cfg ops = some s

end Neffos
