import Verif.Model.Errors
/-!
# The readiness latch (waiter_once.go)

Any number of goroutines call `wait` and `unwait` of one `waiterOnce`. Each atomic operation
is one step; a schedule is any sequence of goroutine numbers. `w.err` is a plain field: reading
and writing it is one step each.
-/
namespace Neffos

/-- where a goroutine is -/
inductive LPc where
  /-- waiter_once.go:42-49 `wait`, before `isReady` -/
  | wCheck
  /-- waiter_once.go:52 before the compare-and-swap of `locked` -/
  | wLock
  /-- waiter_once.go:54 `<-w.ch` -/
  | wBlocked
  /-- waiter_once.go:49, 57 before `return w.err` -/
  | wRead
  /-- `wait` returned -/
  | wDone (err : Option GoErr)
  /-- waiter_once.go:60-61 `unwait(err)`, before `isReady` -/
  | uCheck (err : Option GoErr)
  /-- waiter_once.go:65 -/
  | uErr (err : Option GoErr)
  /-- waiter_once.go:67 -/
  | uReady
  /-- waiter_once.go:68 before the compare-and-swap of `locked` -/
  | uUnlock
  /-- waiter_once.go:69 -/
  | uClose
  /-- `unwait` returned -/
  | uDone
  deriving DecidableEq

/-- waiter_once.go:16-30 and the goroutines; `panicked` after a second `close(w.ch)` -/
structure Latch where
  locked : Bool := false
  ready : Bool := false
  err : Option GoErr := none
  chClosed : Bool := false
  panicked : Bool := false
  ths : List LPc

/-- goroutine `i` goes on -/
def Latch.goto (s : Latch) (i : Nat) (pc : LPc) : Latch := { s with ths := s.ths.set i pc }

/-- the next atomic operation of goroutine `i`, none if it is blocked, has returned or does not
exist, or if the program has panicked -/
def Latch.step (s : Latch) (i : Nat) : Option Latch :=
  if s.panicked then none
  else match s.ths[i]? with
    | none => none
    | some .wCheck => some (s.goto i (if s.ready then .wRead else .wLock))
    | some .wLock =>
      if s.locked then some (s.goto i .wRead) else some { s.goto i .wBlocked with locked := true }
    | some .wBlocked => if s.chClosed then some (s.goto i .wRead) else none
    | some .wRead => some (s.goto i (.wDone s.err))
    | some (.wDone _) => none
    | some (.uCheck e) => some (s.goto i (if s.ready then .uDone else .uErr e))
    | some (.uErr e) => some { s.goto i .uReady with err := e }
    | some .uReady => some { s.goto i .uUnlock with ready := true }
    | some .uUnlock =>
      if s.locked then some { s.goto i .uClose with locked := false } else some (s.goto i .uDone)
    | some .uClose =>
      if s.chClosed then some { s with panicked := true } else some { s.goto i .uDone with chClosed := true }
    | some .uDone => none

/-- the state after a schedule -/
def Latch.run (s : Latch) : List Nat → Option Latch
  | [] => some s
  | i :: is =>
    match s.step i with
    | some s' => s'.run is
    | none => none

/-- the goroutine is before its first step -/
def LPc.fresh : LPc → Bool
  | .wCheck | .uCheck _ => true
  | _ => false

/-- a new latch, waiter_once.go:24-30, used by these goroutines -/
def Latch.start (ths : List LPc) : Latch := { ths := ths }

end Neffos
