import Verif.Model.Bytes
/-!
# The default broadcaster, step by step (broadcaster.go, server.go:338-343, 458-468)

Any number of goroutines in `broadcast` and any number of connections whose goroutine is in the loop of
`waitMessages`. Batches have the number of the call that broadcasts them. Each operation of the mutex, each
channel operation, atomic operation and access to `messages` is one step.

`waitUntilClosed` reads `messages`, a slice, without the mutex. With `torn` the address and the length
of the slice are read and written one after the other, which the language allows; without `torn` a slice is
read and written at once.

Simplifications:
* what is done with a batch is `publishMessages`, `Model/Broadcast.lean`; here it is only recorded. It returns
  false only on a closed connection, server.go:450.
-/
namespace Neffos

/-- where a call of `broadcast` is -/
inductive BPc where
  /-- broadcaster.go:32 -/
  | lock
  /-- broadcaster.go:33, the address of the slice, or all of it -/
  | setPtr
  /-- broadcaster.go:33, the length of the slice -/
  | setLen
  /-- broadcaster.go:34 -/
  | unlock
  /-- broadcaster.go:36-37 -/
  | swap
  /-- broadcaster.go:38, the number of the old channel -/
  | close (ch : Nat)
  | done
  deriving DecidableEq

/-- the slice that was read: whose address and whose length; none is the nil slice -/
structure Slice where
  ptr : Option Nat
  len : Option Nat
  deriving DecidableEq

/-- where the goroutine of a connection is -/
inductive RPc where
  /-- server.go:459 -/
  | lock
  /-- broadcaster.go:42 -/
  | load
  /-- broadcaster.go:43 -/
  | unlock (ch : Nat)
  /-- broadcaster.go:44 -/
  | sel (ch : Nat)
  /-- broadcaster.go:46, the address of the slice, or all of it -/
  | readPtr
  /-- broadcaster.go:46, the length of the slice -/
  | readLen (p : Option Nat)
  /-- broadcaster.go:51 -/
  | relock (m : Option Slice)
  /-- server.go:467 -/
  | publish (m : Slice)
  /-- server.go:460 -/
  | leave (more : Bool)
  /-- server.go:463 false was returned -/
  | ended
  deriving DecidableEq

structure Recv where
  pc : RPc := .lock
  /-- `closeCh` is closed -/
  closed : Bool := false
  /-- the batches that `publishMessages` was called with -/
  got : List Slice := []
  deriving DecidableEq

/-- who holds the mutex -/
inductive BTid where
  | cast (k : Nat)
  | conn (r : Nat)
  deriving DecidableEq

structure BSt where
  mu : Option BTid := none
  msgs : Slice := ⟨none, none⟩
  awaiter : Nat := 0
  /-- the channels that were made, and whether they are closed -/
  chs : List Bool := [false]
  casts : List BPc := []
  recvs : List Recv := []
  /-- the order in which the calls wrote `messages` -/
  sets : List Nat := []
  /-- a channel was closed twice -/
  panicked : Bool := false
  deriving DecidableEq

inductive BOp where
  /-- `broadcast` is called -/
  | call
  /-- the call `k` takes its next step -/
  | cast (k : Nat)
  /-- a connection is upgraded -/
  | join
  /-- it is closed -/
  | shut (r : Nat)
  /-- its goroutine takes its next step; `ok` is the result of `publishMessages` -/
  | recv (r : Nat) (ok : Bool)
  /-- its goroutine takes the second case of the select, broadcaster.go:48 -/
  | quit (r : Nat)
  deriving DecidableEq

def BSt.setB (s : BSt) (k : Nat) (pc : BPc) : BSt := { s with casts := s.casts.set k pc }

def BSt.setR (s : BSt) (r : Nat) (x : Recv) : BSt := { s with recvs := s.recvs.set r x }

/-- broadcaster.go:31-39 -/
def BSt.castStep (torn : Bool) (s : BSt) (k : Nat) : Option BSt :=
  match s.casts[k]? with
  | none => none
  | some pc =>
    match pc with
    | .lock => if s.mu = none then some { s.setB k .setPtr with mu := some (.cast k) } else none
    | .setPtr =>
      if torn then
        some { s.setB k .setLen with msgs := { s.msgs with ptr := some k }, sets := s.sets ++ [k] }
      else some { s.setB k .unlock with msgs := ⟨some k, some k⟩, sets := s.sets ++ [k] }
    | .setLen => some { s.setB k .unlock with msgs := { s.msgs with len := some k } }
    | .unlock => some { s.setB k .swap with mu := none }
    | .swap => some { s.setB k (.close s.awaiter) with awaiter := s.chs.length, chs := s.chs ++ [false] }
    | .close ch =>
      if s.chs[ch]? = some true then some { s with panicked := true }
      else some { s.setB k .done with chs := s.chs.set ch true }
    | .done => none

/-- broadcaster.go:41-53, server.go:458-468 -/
def BSt.recvStep (torn : Bool) (s : BSt) (r : Nat) (ok : Bool) : Option BSt :=
  match s.recvs[r]? with
  | none => none
  | some x =>
    match x.pc with
    | .lock => if s.mu = none then some { s.setR r { x with pc := .load } with mu := some (.conn r) } else none
    | .load => some (s.setR r { x with pc := .unlock s.awaiter })
    | .unlock ch => some { s.setR r { x with pc := .sel ch } with mu := none }
    | .sel ch => if s.chs[ch]? = some true then some (s.setR r { x with pc := .readPtr }) else none
    | .readPtr =>
      if torn then some (s.setR r { x with pc := .readLen s.msgs.ptr })
      else some (s.setR r { x with pc := .relock (some s.msgs) })
    | .readLen p => some (s.setR r { x with pc := .relock (some ⟨p, s.msgs.len⟩) })
    | .relock m =>
      if s.mu = none then
        some { s.setR r { x with pc := match m with
          | some m => .publish m
          | none => .leave false } with mu := some (.conn r) }
      else none
    | .publish m =>
      if ok || x.closed then some (s.setR r { x with pc := .leave ok, got := x.got ++ [m] }) else none
    | .leave more => some { s.setR r { x with pc := if more then .lock else .ended } with mu := none }
    | .ended => none

def BSt.step (torn : Bool) (s : BSt) : BOp → Option BSt
  | .call => some { s with casts := s.casts ++ [.lock] }
  | .cast k => if s.panicked then none else s.castStep torn k
  | .join => some { s with recvs := s.recvs ++ [{}] }
  | .shut r =>
    match s.recvs[r]? with
    | none => none
    | some x => some (s.setR r { x with closed := true })
  | .recv r ok => if s.panicked then none else s.recvStep torn r ok
  | .quit r =>
    match s.recvs[r]? with
    | none => none
    | some x =>
      match x.pc with
      | .sel _ => if x.closed then some (s.setR r { x with pc := .relock none }) else none
      | _ => none

def BSt.run (torn : Bool) (s : BSt) : List BOp → Option BSt
  | [] => some s
  | op :: ops =>
    match s.step torn op with
    | some s' => s'.run torn ops
    | none => none

/-- the states that some schedule reaches from the one `newBroadcaster` returns -/
def BReach (torn : Bool) (s : BSt) : Prop := ∃ ops, BSt.run torn {} ops = some s

end Neffos
