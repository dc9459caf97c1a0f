import Verif.Model.Message
import Verif.Model.Errors
/-!
# The sockets (gobwas/socket.go, gorilla/socket.go)

The loops of `ReadData`, the deadlines and the mutex of `write`.

Simplifications:
* what the websocket libraries do is not in the repository. Here it is the input: an `Item` is one frame as the library
  sees it (a fragmented message is one frame), with the time at which it is complete. `Frame.next` and `gorillaMsg` say
  what the library calls return for it, after the libraries' documentation;
* time is a number that does not decrease. Reading a frame that has arrived takes no time;
* a deadline is a time; reading waits for a frame until the deadline and fails when the time comes to be later than it.
-/
namespace Neffos

/-! ### Reading -/

/-- what comes from the peer -/
inductive Frame where
  | data (binary : Bool) (body : Bytes)
  | ping
  | pong
  | close
  /-- the connection fails -/
  | fail (e : GoErr)
  deriving DecidableEq

structure Item where
  time : Nat
  frame : Frame
  deriving DecidableEq

/-- the error of a passed deadline: its `Timeout()` is true -/
def errIOTimeout : GoErr := .opErr .other true (b! "i/o timeout")

/-- gobwas `ErrInvalidUTF8` -/
def errInvalidUTF8 : GoErr := .text (b! "invalid utf8 sequence")

/-- gorilla `*CloseError`, which its ReadMessage returns for a close frame and for io.EOF -/
def errGorillaClose : GoErr := .text (b! "websocket: close")

/-- a continuation byte -/
def isCont (x : UInt8) : Bool := 0x80 ≤ x && x ≤ 0xBF

/-- RFC 3629, which gobwas checks text against (`CheckUTF8: true`, gobwas/socket.go:41) -/
def validUTF8 : Bytes → Bool
  | [] => true
  | a :: t =>
    if a < 0x80 then validUTF8 t
    else match t with
      | [] => false
      | b :: t =>
        if 0xC2 ≤ a && a ≤ 0xDF then isCont b && validUTF8 t
        else match t with
          | [] => false
          | c :: t =>
            if 0xE0 ≤ a && a ≤ 0xEF then
              isCont b && isCont c && (a != 0xE0 || 0xA0 ≤ b) && (a != 0xED || b ≤ 0x9F) && validUTF8 t
            else match t with
              | [] => false
              | d :: t =>
                0xF0 ≤ a && a ≤ 0xF4 && isCont b && isCont c && isCont d && (a != 0xF0 || 0x90 ≤ b) &&
                  (a != 0xF4 || b ≤ 0x8F) && validUTF8 t

/-- `reader.NextFrame()`, and what then comes of the payload: the result of the control handler, of Discard or of
ReadAll. The opcodes are those of RFC 6455; the others are rejected by the header check (gobwas/socket.go:42). -/
def Frame.next : Frame → Except GoErr (Nat × Except GoErr Bytes)
  | .data true b => .ok (2, .ok b)
  | .data false b => .ok (1, if validUTF8 b then .ok b else .error errInvalidUTF8)
  | .ping => .ok (9, .ok [])
  | .pong => .ok (10, .ok [])
  | .close => .ok (8, .ok [])
  | .fail e => .error e

/-- the reader: the time, the deadline of the connection, what is to come -/
structure SockRd where
  now : Nat
  deadline : Option Nat
  rest : List Item
  deriving DecidableEq

/-- gobwas/socket.go:72-74, gorilla/socket.go:46-48 -/
def setDeadline (timeout now : Nat) (old : Option Nat) : Option Nat :=
  if 0 < timeout then some (now + timeout) else old

/-- Is the time later than the deadline? -/
def past : Option Nat → Nat → Bool
  | none, _ => false
  | some d, n => d < n

/-- `neffos.MessageType(opcode)`, conn.go:30-37 -/
def msgTypeOf (op : Nat) : MsgType := if op = 1 then .text else .binary

abbrev ReadRes := Except GoErr (Bytes × MsgType)

/-- gobwas/socket.go:70-110 `ReadData`. `none`: it waits for ever. -/
def gobwasRead (timeout : Nat) : Nat → Option Nat → List Item → Option (ReadRes × SockRd)
  | now, dl, [] =>
    match setDeadline timeout now dl with
    | none => none
    | some d => some (.error errIOTimeout, ⟨max now d, some d, []⟩)
  | now, dl, i :: rest =>
    let dl' := setDeadline timeout now dl
    let now' := max now i.time
    if past dl' now' then some (.error errIOTimeout, ⟨max now (dl'.getD 0), dl', i :: rest⟩)
    else
      match i.frame.next with
      | .error e => some (.error (if e = .eof then .unexpectedEOF else e), ⟨now', dl', rest⟩)
      | .ok (op, body) =>
        -- gobwas/socket.go:84-86
        if op = 8 then some (.error .unexpectedEOF, ⟨now', dl', rest⟩)
        -- gobwas/socket.go:88-94, IsControl
        else if op &&& 8 ≠ 0 then
          match body with
          | .error e => some (.error e, ⟨now', dl', rest⟩)
          | .ok _ => gobwasRead timeout now' dl' rest
        -- gobwas/socket.go:96-102
        else if op &&& 2 = 0 ∧ op &&& 1 = 0 then
          match body with
          | .error e => some (.error e, ⟨now', dl', rest⟩)
          | .ok _ => gobwasRead timeout now' dl' rest
        -- gobwas/socket.go:104-109
        else
          match body with
          | .error e => some (.error e, ⟨now', dl', rest⟩)
          | .ok b => some (.ok (b, msgTypeOf op), ⟨now', dl', rest⟩)

/-- gorilla's `ReadMessage`: control frames are handled inside it, and it returns text and binary messages only; so the
loop of gorilla/socket.go:45-61 runs once -/
def gorillaMsg (dl : Option Nat) : Nat → List Item → Option (ReadRes × SockRd)
  | now, [] =>
    match dl with
    | none => none
    | some d => some (.error errIOTimeout, ⟨max now d, dl, []⟩)
  | now, i :: rest =>
    let now' := max now i.time
    if past dl now' then some (.error errIOTimeout, ⟨max now (dl.getD 0), dl, i :: rest⟩)
    else
      match i.frame with
      | .data binary b => some (.ok (b, msgTypeOf (if binary then 2 else 1)), ⟨now', dl, rest⟩)
      | .ping => gorillaMsg dl now' rest
      | .pong => gorillaMsg dl now' rest
      | .close => some (.error errGorillaClose, ⟨now', dl, rest⟩)
      | .fail e => some (.error (if e = .eof then errGorillaClose else e), ⟨now', dl, rest⟩)

/-- gorilla/socket.go:44-62 `ReadData` -/
def gorillaRead (timeout now : Nat) (dl : Option Nat) (items : List Item) : Option (ReadRes × SockRd) :=
  gorillaMsg (setDeadline timeout now dl) now items

inductive SocketLib where
  | gobwas
  | gorilla
  deriving DecidableEq

def readData : SocketLib → Nat → SockRd → Option (ReadRes × SockRd)
  | .gobwas, t, s => gobwasRead t s.now s.deadline s.rest
  | .gorilla, t, s => gorillaRead t s.now s.deadline s.rest

/-- The loop of conn.go:324-345: one ReadData after the other; handling the payload takes the given times. What the
calls return; a call that waits for ever, or fails, is the last one. -/
def readLoop (lib : SocketLib) (timeout : Nat) : List Nat → SockRd → List ReadRes
  | [], _ => []
  | pause :: more, s =>
    match readData lib timeout s with
    | none => []
    | some (.error e, _) => [.error e]
    | some (.ok x, s') => .ok x :: readLoop lib timeout more { s' with now := s'.now + pause }

/-! ### Writing -/

inductive WriteKind where
  /-- `write`, under the mutex (gobwas/socket.go:140-151, gorilla/socket.go:74-84) -/
  | message
  /-- the answer of gobwas's control handler to a ping or close frame: it writes to the connection from the goroutine of
  `ReadData` (gobwas/socket.go:36, 89), without the mutex -/
  | control
  deriving DecidableEq

inductive WritePc where
  | start
  /-- so many pieces are written -/
  | writing (i : Nat)
  | done
  deriving DecidableEq

/-- a goroutine that writes one frame in `pieces` calls of the connection's Write (header and payload, for example) -/
structure Writer where
  kind : WriteKind
  pieces : Nat
  pc : WritePc := .start
  deriving DecidableEq

/-- the goroutines, the holder of the mutex, the control answer at which the goroutine of `ReadData` is (it writes one
after the other), and the pieces on the wire: whose, and which -/
structure Wire where
  writers : List Writer
  lock : Option Nat := none
  reader : Option Nat := none
  out : List (Nat × Nat) := []
  deriving DecidableEq

/-- One step of goroutine `t`; `none` if it can take none now. -/
def wstep (s : Wire) (t : Nat) : Option Wire :=
  match s.writers[t]? with
  | none => none
  | some w =>
    match w.pc with
    | .start =>
      match w.kind with
      | .message =>
        if s.lock = none then some { s with writers := s.writers.set t { w with pc := .writing 0 }, lock := some t }
        else none
      | .control =>
        if s.reader = none then some { s with writers := s.writers.set t { w with pc := .writing 0 }, reader := some t }
        else none
    | .writing i =>
      if i < w.pieces then
        some { s with writers := s.writers.set t { w with pc := .writing (i + 1) }, out := s.out ++ [(t, i)] }
      else
        match w.kind with
        | .message => some { s with writers := s.writers.set t { w with pc := .done }, lock := none }
        | .control => some { s with writers := s.writers.set t { w with pc := .done }, reader := none }
    | .done => none

/-- the wire after these steps -/
def wrun (s : Wire) : List Nat → Option Wire
  | [] => some s
  | t :: ts => (wstep s t).bind fun s' => wrun s' ts

/-! ### Write deadlines -/

/-- a goroutine in `write` with a positive timeout -/
inductive WriteAct where
  /-- the call is made. gorilla sets the deadline here, gorilla/socket.go:75-77 -/
  | call (i : Nat)
  /-- the mutex is taken. gobwas sets the deadline here, gobwas/socket.go:142-145 -/
  | lock (i : Nat)
  /-- the connection has accepted the whole frame, or the deadline of the write has passed: the mutex is released -/
  | unlock (i : Nat)
  deriving DecidableEq

/-- the deadline of the connection; the calls that wait for the mutex; the holder, with the time at which it
took the mutex and the deadline of its write; the calls that returned: who, when it took the mutex, and whether it was in
time -/
structure WriteClock where
  deadline : Nat := 0
  waiting : List Nat := []
  holder : Option (Nat × Nat × Nat) := none
  results : List (Nat × Nat × Bool) := []
  deriving DecidableEq

/-- One step at a time; `none` if it cannot happen. -/
def cstep (lib : SocketLib) (timeout : Nat) (s : WriteClock) (time : Nat) : WriteAct → Option WriteClock
  | .call i =>
    if i ∈ s.waiting then none
    else
      match lib with
      | .gorilla => some { s with waiting := i :: s.waiting, deadline := time + timeout }
      | .gobwas => some { s with waiting := i :: s.waiting }
  | .lock i =>
    if i ∈ s.waiting ∧ s.holder = none then
      let d := match lib with
        | .gorilla => s.deadline
        | .gobwas => time + timeout
      some { s with waiting := s.waiting.erase i, deadline := d, holder := some (i, time, d) }
    else none
  | .unlock i =>
    match s.holder with
    | none => none
    | some (j, start, d) =>
      if i = j then some { s with holder := none, results := s.results ++ [(i, start, decide (time ≤ d))] } else none

/-- the state after these steps at these times -/
def crun (lib : SocketLib) (timeout : Nat) (s : WriteClock) : List (Nat × WriteAct) → Option WriteClock
  | [] => some s
  | (time, a) :: more => (cstep lib timeout s time a).bind fun s' => crun lib timeout s' more

end Neffos
