import Verif.Model.Conn
/-!
# A client and its server-side connection (client.go Dial, server.go Upgrade)

Two connections and the two directions of the socket between them. A direction carries
the payloads that its writer's socket accepted, in order, each read once: this is what a
websocket connection does (gorilla/ and gobwas/ adapters; the transport itself is
trusted, not modelled). What was written is taken from the writer's observation log, so a
direction is the number of payloads that were read from it.

The goroutines of both sides run interleaved: one step is an operation of one side, as in
`Model/Conn.lean`.
-/
namespace Neffos

/-- the payloads that the socket accepted, with their message type (conn.go:824-840) -/
def pipe : List Obs → List (MsgType × Bytes)
  | [] => []
  | .sent binary b true :: t => (if binary then .binary else .text, b) :: pipe t
  | _ :: t => pipe t

/-- the client's connection, the server's connection, and how many payloads the server has
read from the client and the client from the server -/
structure Sess where
  c : St
  d : St
  up : Nat := 0
  down : Nat := 0

/-- Does the operation read from the socket? -/
def Op.reads : Op → Bool
  | .recv _ _ => true
  | .steal _ _ _ => true
  | _ => false

inductive SessOp where
  /-- an operation of the client other than reading a payload -/
  | client (op : Op)
  /-- an operation of the server other than reading a payload -/
  | server (op : Op)
  /-- the server's reader reads the next payload, conn.go:324-345 -/
  | up
  /-- the client's reader reads the next payload -/
  | down
  /-- the goroutine of an Ask of the server reads the next payload, conn.go:968-976 -/
  | upAsk (i : Nat)
  | downAsk (i : Nat)

/-- One step of the session. `cc` is the client's configuration and `sc` the server's. -/
def sstep (cc sc : Cfg) (s : Sess) : SessOp → Option Sess
  | .client op => if op.reads then none else (step cc s.c op).map fun c => { s with c := c }
  | .server op => if op.reads then none else (step sc s.d op).map fun d => { s with d := d }
  | .up =>
    match (pipe s.c.log)[s.up]? with
    | none => none
    | some (t, b) => (step sc s.d (.recv t b)).map fun d => { s with d := d, up := s.up + 1 }
  | .down =>
    match (pipe s.d.log)[s.down]? with
    | none => none
    | some (t, b) => (step cc s.c (.recv t b)).map fun c => { s with c := c, down := s.down + 1 }
  | .upAsk i =>
    match (pipe s.c.log)[s.up]? with
    | none => none
    | some (t, b) => (step sc s.d (.steal i t b)).map fun d => { s with d := d, up := s.up + 1 }
  | .downAsk i =>
    match (pipe s.d.log)[s.down]? with
    | none => none
    | some (t, b) => (step cc s.c (.steal i t b)).map fun c => { s with c := c, down := s.down + 1 }

/-- Dial and Upgrade have just made their connections, client.go:87-90, server.go:321-331:
the client has no ID yet and the server's is the generated one. -/
def newSess (cc sc : Cfg) (id : Bytes) : Sess := { c := newConn cc [], d := newConn sc id }

/-- the session after these steps -/
def srun (cc sc : Cfg) (s : Sess) : List SessOp → Option Sess
  | [] => some s
  | op :: ops =>
    match sstep cc sc s op with
    | some s' => srun cc sc s' ops
    | none => none

end Neffos
