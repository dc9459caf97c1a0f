import Verif.Model.Conn
import Verif.Model.Latch
/-!
# Dial (client.go:73-99, conn.go:294-397)

The goroutine in `Dial` and the reader that it starts, until `Dial` returns, with the latch of
`Model/Latch.lean` between them: goroutine 0 of the latch is `Dial`, goroutine 1 the reader, which may call it
several times. Each atomic operation and socket operation is one step. What the server sends, what the socket
returns and how the two goroutines are interleaved is left open.

Simplifications:
* the dialer has returned a socket; `Dial` returns the error of the dialer otherwise, client.go:78-81.
* `Close` is one step. Nobody has the connection before `Dial` returns it, so only the two goroutines close it,
  the reader also from inside a callback.
* of a payload that is handled once the connection is acknowledged only that it may run callbacks matters.
* the queue of early payloads is left out; a client handles it after `M` only, where callbacks may run.
-/
namespace Neffos

/-- client.go:74-76 -/
def dialURL (url : Bytes) : Bytes :=
  if (b! "ws://").isPrefixOf url || (b! "wss://").isPrefixOf url then url else b! "ws://" ++ url

/-- what `Dial` returned: a client with this ID, or an error -/
inductive DialRes where
  | client (id : Bytes)
  | err (e : GoErr)
  deriving DecidableEq

/-- where `Dial` is -/
inductive DialPc where
  /-- conn.go:298 -/
  | start
  /-- conn.go:302 -/
  | write
  /-- conn.go:308 in `readiness.wait` -/
  | wait
  /-- conn.go:304, 310 -/
  | close (e : GoErr)
  /-- client.go:98 before `c.id` is read -/
  | ident
  | done (r : DialRes)
  deriving DecidableEq

/-- what the reader does when its call of the latch has returned -/
inductive DialNext where
  /-- conn.go:353, after `wait` -/
  | mark
  /-- conn.go:380, after `unwait` -/
  | go
  /-- conn.go:328, 385 -/
  | exit
  deriving DecidableEq

/-- where the reader is -/
inductive DialRd where
  /-- conn.go:317 -/
  | start
  /-- conn.go:325 in `ReadData` -/
  | idle
  /-- in the latch -/
  | lat (k : DialNext)
  /-- conn.go:358 -/
  | ack
  /-- conn.go:359-362 -/
  | answer
  /-- conn.go:355 -/
  | refuse
  /-- conn.go:372-373 -/
  | setId (id : Bytes)
  /-- conn.go:375 -/
  | setAck
  /-- conn.go:342-344 -/
  | run
  /-- conn.go:320 the deferred `Close` -/
  | exit
  | dead
  deriving DecidableEq

structure DialSt where
  lat : Latch
  dial : DialPc := .start
  rd : DialRd := .start
  id : Bytes := []
  acked : Bool
  closed : Bool := false
  /-- the payloads that were read, and the errors of `ReadData` -/
  reads : List Bytes := []
  fails : List GoErr := []
  /-- the write of `M` failed -/
  unsent : Bool := false

inductive DialOp where
  /-- the next step of `Dial`; `ok` is the result of its write -/
  | dial (ok : Bool)
  /-- the reader reads a payload -/
  | read (b : Bytes)
  /-- its `ReadData` fails -/
  | fail (e : GoErr)
  /-- the next step of the reader; `ok` is the result of its write -/
  | reader (ok : Bool)
  /-- a callback that the reader runs closes the connection -/
  | cbClose

/-- conn.go:105-138 `newConn`: with only native messages it is acknowledged and ready -/
def newDial (native : Bool) : DialSt :=
  { lat := { ready := native, ths := [.wCheck, .uDone] }, acked := native }

/-- conn.go:1007-1040 `Close` -/
def DialSt.shut (s : DialSt) : DialSt := if s.closed then s else { s with closed := true, acked := false }

/-- client.go:92-98, conn.go:294-314 -/
def DialSt.dialStep (native : Bool) (s : DialSt) (ok : Bool) : Option DialSt :=
  match s.dial with
  | .start => some { s with dial := if native then .ident else .write }
  | .write => if ok then some { s with dial := .wait } else some { s with dial := .close errWrite, unsent := true }
  | .wait =>
    match (s.lat.ths[0]? : Option LPc) with
    | some (.wDone none) => some { s with dial := .ident }
    | some (.wDone (some e)) => some { s with dial := .close e }
    | _ => (s.lat.step 0).map fun l => { s with lat := l }
  | .close e => some { s.shut with dial := .done (.err e) }
  | .ident => some { s with dial := .done (.client s.id) }
  | .done _ => none

/-- conn.go:331-345, 348-397 -/
def DialSt.readStep (s : DialSt) (b : Bytes) : Option DialSt :=
  if s.rd ≠ .idle then none
  else
    let s := { s with reads := s.reads ++ [b] }
    match b with
    | [] => some s
    | c :: rest =>
      if s.acked then some { s with rd := .run }
      else if c = 77 then some { s with lat := s.lat.goto 1 .wCheck, rd := .lat .mark }
      else if c = 65 then some { s with rd := .setId rest }
      else if c = 72 then some { s with lat := s.lat.goto 1 (.uCheck (some (.text rest))), rd := .lat .exit }
      else some s

/-- conn.go:316-397 -/
def DialSt.readerStep (s : DialSt) (ok : Bool) : Option DialSt :=
  match s.rd with
  | .start => some { s with rd := if s.closed then .dead else .idle }
  | .idle => none
  | .lat k =>
    match (s.lat.ths[1]? : Option LPc), k with
    | some (.wDone none), .mark => some { s with rd := .ack }
    | some (.wDone (some _)), .mark => some { s with rd := .refuse }
    | some .uDone, .go => some { s with rd := .idle }
    | some .uDone, .exit => some { s with rd := .exit }
    | _, _ => (s.lat.step 1).map fun l => { s with lat := l }
  | .ack => some { s with acked := true, rd := .answer }
  | .answer => some { s with rd := if ok then .idle else .exit }
  | .refuse => some { s with rd := .exit }
  | .setId id => some { s with id := id, rd := .setAck }
  | .setAck => some { s with acked := true, lat := s.lat.goto 1 (.uCheck none), rd := .lat .go }
  | .run => some { s with rd := .idle }
  | .exit => some { s.shut with rd := .dead }
  | .dead => none

def DialSt.step (native : Bool) (s : DialSt) : DialOp → Option DialSt
  | .dial ok => s.dialStep native ok
  | .read b => s.readStep b
  | .fail e =>
    if s.rd = .idle then
      some { s with fails := s.fails ++ [e], lat := s.lat.goto 1 (.uCheck (some e)), rd := .lat .exit }
    else none
  | .reader ok => s.readerStep ok
  | .cbClose => if s.rd = .run ∨ s.rd = .answer then some s.shut else none

def DialSt.run (native : Bool) (s : DialSt) : List DialOp → Option DialSt
  | [] => some s
  | op :: ops =>
    match s.step native op with
    | some s' => s'.run native ops
    | none => none

/-- the states that some schedule reaches -/
def DialReach (native : Bool) (s : DialSt) : Prop := ∃ ops, (newDial native).run native ops = some s

end Neffos
