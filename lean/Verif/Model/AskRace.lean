import Verif.Model.Conn
/-!
# Asks, step by step (conn.go:316-346, 416-450, 936-1040, server.go:548-577)

One acknowledged connection with any number of goroutines in `Conn.Ask` and, on the server side, in
`Server.Ask`, the reader goroutine, the goroutines that Asks start, and `Close`. Each atomic
operation, map access under its mutex, channel operation and socket operation is one step.

Simplifications:
* the message of an Ask is only its token. `Write` succeeds or fails as `ok` says, and fails on a closed
  connection.
* a callback is what the reader runs for a message that is no answer. It may call Ask and may end
  at any time.
* there is no StackExchange. Other connections of the server only take part as the origin of answers
  to `Server.Ask`.
-/
namespace Neffos

/-- what travels through the channel of an Ask -/
inductive Got where
  /-- the message number `k` that arrived at this connection -/
  | msg (k : Nat)
  /-- a message that arrived at another connection of the server -/
  | other (m : Message)
  /-- conn.go:971 the error of `ReadData` -/
  | readErr
  deriving DecidableEq

/-- what an Ask returned -/
inductive ARes where
  /-- conn.go:1000 -/
  | answer (g : Got)
  /-- conn.go:948 -/
  | closedErr
  /-- conn.go:984, 990 -/
  | writeErr
  /-- conn.go:957, 992 -/
  | ctxErr
  deriving DecidableEq

/-- where a goroutine is in `Ask` -/
inductive APc where
  /-- conn.go:937 before `isInsideHandler` is read -/
  | flag
  /-- conn.go:947-960 -/
  | check
  /-- conn.go:963, server.go:553 -/
  | tok
  /-- conn.go:965-981, server.go:561-563 -/
  | reg
  /-- conn.go:983, server.go:565 -/
  | write
  /-- conn.go:987, server.go:567 in the select -/
  | wait
  /-- conn.go:994-998, server.go:571-573 -/
  | forget (g : Got)
  | done (r : ARes)
  deriving DecidableEq

/-- the goroutine of conn.go:968-976 -/
inductive Help where
  | none
  | reading
  | got (g : Got)
  | ended
  deriving DecidableEq

/-- an Ask: its goroutine, its channel and the goroutine it started -/
structure AskT where
  /-- `Server.Ask` rather than `Conn.Ask` -/
  srv : Bool
  /-- `mustWaitOnlyTheNextMessage` -/
  next : Bool := false
  tok : Bytes := []
  /-- the channel of a `Conn.Ask` has room for one message, that of a `Server.Ask` for none -/
  box : Option Got := .none
  help : Help := .none
  pc : APc := .flag
  deriving DecidableEq

/-- where the reader is -/
inductive ARd where
  /-- conn.go:325 in `ReadData` -/
  | idle
  /-- conn.go:342 it has read message `k` -/
  | got (k : Nat)
  /-- conn.go:433-435 -/
  | srvLook (k : Nat)
  /-- conn.go:442-444 -/
  | connLook (k : Nat)
  /-- conn.go:437 -/
  | srvSend (i k : Nat)
  /-- conn.go:446 -/
  | connSend (i k : Nat)
  /-- conn.go:452-481 in a callback -/
  | handler (k : Nat)
  /-- in the Ask `i` that the callback called -/
  | inAsk (i k : Nat)
  /-- conn.go:344 -/
  | clear
  /-- returned -/
  | dead
  deriving DecidableEq

/-- where `Close` is -/
inductive ClPc where
  | open
  /-- conn.go:1010-1020 the callbacks of the namespaces -/
  | fire
  /-- conn.go:1022-1026 -/
  | clear
  /-- conn.go:1038 -/
  | net
  | done
  deriving DecidableEq

structure ASt where
  /-- the messages that arrived, in order, and how many were read -/
  arr : List Message := []
  pos : Nat := 0
  inside : Bool := false
  waiting : List (Bytes × Nat) := []
  srvWaiting : List (Bytes × Nat) := []
  asks : List AskT := []
  rd : ARd := .idle
  cl : ClPc := .open
  netClosed : Bool := false

/-- conn.go:1043-1045 `IsClosed` -/
def ASt.closed (s : ASt) : Bool := s.cl ≠ .open

def ASt.put (s : ASt) (i : Nat) (a : AskT) : ASt := { s with asks := s.asks.set i a }

inductive AOp where
  /-- a message reaches the socket -/
  | arrive (m : Message)
  /-- a goroutine calls `Conn.Ask`, or `Server.Ask` -/
  | call (srv : Bool)
  /-- the callback that the reader runs does -/
  | callCb (srv : Bool)
  /-- the Ask `i` takes its next step; `now` is the clock and `ok` the result of a check of its
  context's deadline or of its `Write` -/
  | ask (i : Nat) (now : Int) (ok : Bool)
  /-- the context of the Ask `i` is done -/
  | ctx (i : Nat)
  /-- the goroutine that the Ask `i` started takes its next step -/
  | help (i : Nat)
  /-- the reader takes its next step -/
  | reader
  /-- another connection delivers an answer to a `Server.Ask` -/
  | other (m : Message)
  /-- conn.go:1008 a `Close` gets past its compare-and-swap -/
  | close
  /-- it takes its next step -/
  | closer
  deriving DecidableEq

/-- conn.go:936-1002, server.go:548-577 the next step of an Ask -/
def ASt.askStep (cl : Bool) (s : ASt) (i : Nat) (now : Int) (ok : Bool) : Option ASt :=
  match s.asks[i]? with
  | none => none
  | some a =>
    match a.pc with
    | .flag =>
      if a.srv then some (s.put i { a with pc := .tok })
      else some (s.put i { a with next := s.inside, pc := .check })
    | .check =>
      if s.closed then some (s.put i { a with pc := .done .closedErr })
      else if ok then some (s.put i { a with pc := .tok })
      else some (s.put i { a with pc := .done .ctxErr })
    | .tok => some (s.put i { a with tok := genWait (cl && !a.srv) now, pc := .reg })
    | .reg =>
      if a.srv then
        some ({ s with srvWaiting := mapSet s.srvWaiting a.tok i }.put i { a with pc := .write })
      else if a.next then some (s.put i { a with help := .reading, pc := .write })
      else some ({ s with waiting := mapSet s.waiting a.tok i }.put i { a with pc := .write })
    | .write =>
      if a.srv || (ok && !s.closed) then some (s.put i { a with pc := .wait })
      else some (s.put i { a with pc := .done .writeErr })
    | .wait =>
      match a.box with
      | none => none
      | some g =>
        some (s.put i { a with box := none, pc := if a.next then .done (.answer g) else .forget g })
    | .forget g =>
      if a.srv then
        some ({ s with srvWaiting := mapDel s.srvWaiting a.tok }.put i { a with pc := .done (.answer g) })
      else some ({ s with waiting := mapDel s.waiting a.tok }.put i { a with pc := .done (.answer g) })
    | .done _ => none

/-- conn.go:988-992, server.go:568-569 -/
def ASt.ctxStep (s : ASt) (i : Nat) : Option ASt :=
  match s.asks[i]? with
  | none => none
  | some a =>
    if a.pc = .wait then
      some (s.put i { a with pc := .done (if !a.srv && s.closed then .writeErr else .ctxErr) })
    else none

/-- conn.go:969-975 -/
def ASt.helpStep (s : ASt) (i : Nat) : Option ASt :=
  match s.asks[i]? with
  | none => none
  | some a =>
    match a.help with
    | .reading =>
      if s.netClosed then some (s.put i { a with help := .got .readErr })
      else if s.pos < s.arr.length then
        some ({ s with pos := s.pos + 1 }.put i { a with help := .got (.msg s.pos) })
      else none
    | .got g =>
      match a.box with
      | none => some (s.put i { a with box := some g, help := .ended })
      | some _ => none
    | _ => none

/-- conn.go:430-439 the message is an answer to an Ask of the server -/
def ASt.srvAsk (cl : Bool) (s : ASt) (k : Nat) : Option Nat :=
  match s.arr[k]? with
  | none => none
  | some m => if !cl && m.isWait cl then mapGet s.srvWaiting m.wait else none

/-- conn.go:442-449 the message is an answer to an Ask of the connection -/
def ASt.connAsk (cl : Bool) (s : ASt) (k : Nat) : Option Nat :=
  match s.arr[k]? with
  | none => none
  | some m => if m.isWait cl then mapGet s.waiting m.wait else none

/-- conn.go:316-346, 416-482 the next step of the reader -/
def ASt.readerStep (cl : Bool) (s : ASt) : Option ASt :=
  match s.rd with
  | .idle =>
    if s.netClosed then some { s with rd := .dead, cl := if s.cl = .open then .fire else s.cl }
    else if s.pos < s.arr.length then some { s with rd := .got s.pos, pos := s.pos + 1 }
    else none
  | .got k => some { s with inside := true, rd := .srvLook k }
  | .srvLook k =>
    match s.srvAsk cl k with
    | some i => some { s with rd := .srvSend i k }
    | none => some { s with rd := .connLook k }
  | .connLook k =>
    match s.connAsk cl k with
    | some i => some { s with rd := .connSend i k }
    | none => some { s with rd := .handler k }
  | .srvSend i k =>
    match s.asks[i]? with
    | none => none
    | some a =>
      if a.pc = .wait then some ({ s with rd := .clear }.put i { a with pc := .forget (.msg k) }) else none
  | .connSend i k =>
    match s.asks[i]? with
    | none => none
    | some a =>
      match a.box with
      | none => some ({ s with rd := .clear }.put i { a with box := some (.msg k) })
      | some _ => none
  | .handler _ => some { s with rd := .clear }
  | .inAsk i k =>
    match s.asks[i]? with
    | none => none
    | some a =>
      match a.pc with
      | .done _ => some { s with rd := .handler k }
      | _ => none
  | .clear => some { s with inside := false, rd := .idle }
  | .dead => none

/-- conn.go:1007-1040 the next step of `Close` -/
def ASt.closeStep (s : ASt) : Option ASt :=
  match s.cl with
  | .open => none
  | .fire => some { s with cl := .clear }
  | .clear => some { s with waiting := [], cl := .net }
  | .net => some { s with netClosed := true, cl := .done }
  | .done => none

/-- conn.go:433-439 on another connection: a `Server.Ask` that waits gets a message -/
def ASt.otherStep (cl : Bool) (s : ASt) (m : Message) : Option ASt :=
  if cl then none
  else match mapGet s.srvWaiting m.wait with
    | none => none
    | some i =>
      match s.asks[i]? with
      | none => none
      | some a =>
        if m.isWait false && a.pc = .wait then some (s.put i { a with pc := .forget (.other m) }) else none

/-- one step; `cl` is `IsClient` -/
def ASt.step (cl : Bool) (s : ASt) : AOp → Option ASt
  | .arrive m => some { s with arr := s.arr ++ [m] }
  | .call srv => if srv && cl then none else some { s with asks := s.asks ++ [{ srv := srv }] }
  | .callCb srv =>
    match s.rd with
    | .handler k =>
      if srv && cl then none
      else some { s with asks := s.asks ++ [{ srv := srv }], rd := .inAsk s.asks.length k }
    | _ => none
  | .ask i now ok => s.askStep cl i now ok
  | .ctx i => s.ctxStep i
  | .help i => s.helpStep i
  | .reader => s.readerStep cl
  | .other m => s.otherStep cl m
  | .close => if s.cl = .open then some { s with cl := .fire } else none
  | .closer => s.closeStep

def ASt.run (cl : Bool) (s : ASt) : List AOp → Option ASt
  | [] => some s
  | op :: ops =>
    match s.step cl op with
    | some s' => s'.run cl ops
    | none => none

/-- the states that some schedule reaches -/
def AReach (cl : Bool) (s : ASt) : Prop := ∃ ops, ASt.run cl {} ops = some s

end Neffos
