import Verif.Model.Conn
/-!
# The connect gate, step by step (process.go, conn.go:584, 604-607)

Any number of goroutines are in `askConnect` or in `tryNamespace`. Each map access, atomic
operation and operation of the `sync.WaitGroup` is one step; a schedule is any sequence of
goroutine numbers. The WaitGroup is the one of Go's standard library: a counter `v`, a number of
waiters `w` and a semaphore; it panics when it is misused.
-/
namespace Neffos

/-- process.go:41-46 -/
structure Proc where
  done : Bool := false
  v : Nat := 0
  w : Nat := 0
  sem : Nat := 0
  deriving DecidableEq

/-- where a goroutine is; `p` is the number of a process -/
inductive GPc where
  /-- conn.go:604, process.go:22-24 `askConnect`, before the map is read -/
  | cGet
  /-- process.go:26-33 no entry was found -/
  | cCreate
  /-- conn.go:605, process.go:81-83 before `waiting.Add(1)` -/
  | cStart (p : Nat)
  /-- conn.go:612-661 the Connect is in progress; its next step here is the deferred `Done`,
  process.go:65 -/
  | cBody (p : Nat)
  /-- process.go:69 before `waiting.Done()` -/
  | cWgDone (p : Nat)
  /-- inside `waiting.Done()`: the counter is zero and there were `w` waiters -/
  | cRelease (p w : Nat)
  /-- `askConnect` returned -/
  | cEnd
  /-- conn.go:584, process.go:22-24 `tryNamespace`, before the map is read -/
  | hGet
  /-- process.go:26-33 no entry was found -/
  | hCreate
  /-- process.go:74 -/
  | hLoad (p : Nat)
  /-- process.go:77 -/
  | hWait (p : Nat)
  /-- inside `waiting.Wait()`, on the semaphore -/
  | hBlocked (p : Nat)
  /-- inside `waiting.Wait()`, after the semaphore -/
  | hWoken (p : Nat)
  /-- the gate is passed, conn.go:586 -/
  | hEnd
  deriving DecidableEq

/-- process.go:9-12 the processes that were made and the map, the goroutines, each with the name
of its namespace -/
structure Gates where
  procs : List Proc
  entries : List (Bytes × Nat)
  ths : List (Bytes × GPc)
  panicked : Bool := false

def Gates.goto (s : Gates) (i : Nat) (ns : Bytes) (pc : GPc) : Gates :=
  { s with ths := s.ths.set i (ns, pc) }

def Gates.upd (s : Gates) (p : Nat) (x : Proc) : Gates := { s with procs := s.procs.set p x }

def Gates.fail (s : Gates) : Gates := { s with panicked := true }

/-- process.go:26-33 a new entry -/
def Gates.create (s : Gates) (ns : Bytes) : Gates :=
  { s with procs := s.procs ++ [{}], entries := mapSet s.entries ns s.procs.length }

/-- the next step of goroutine `i`, none if it is blocked, has ended or does not exist, or if the
program has panicked -/
def Gates.step (s : Gates) (i : Nat) : Option Gates :=
  if s.panicked then none
  else match s.ths[i]? with
    | none => none
    | some (ns, pc) =>
      match pc with
      | .cGet =>
        match mapGet s.entries ns with
        | some p => some (s.goto i ns (.cStart p))
        | none => some (s.goto i ns .cCreate)
      | .cCreate => some ((s.create ns).goto i ns (.cStart s.procs.length))
      | .cStart p =>
        match s.procs[p]? with
        | none => none
        | some x =>
          -- "WaitGroup misuse: Add called concurrently with Wait"
          if x.w ≠ 0 ∧ x.v = 0 then some s.fail
          else some ((s.upd p { x with v := x.v + 1 }).goto i ns (.cBody p))
      | .cBody p =>
        match s.procs[p]? with
        | none => none
        | some x =>
          if x.done then some (s.goto i ns .cEnd)
          else some ((s.upd p { x with done := true }).goto i ns (.cWgDone p))
      | .cWgDone p =>
        match s.procs[p]? with
        | none => none
        | some x =>
          -- "negative WaitGroup counter"
          if x.v = 0 then some s.fail
          else if x.v = 1 ∧ x.w ≠ 0 then
            some ((s.upd p { x with v := 0 }).goto i ns (.cRelease p x.w))
          else some ((s.upd p { x with v := x.v - 1 }).goto i ns .cEnd)
      | .cRelease p w =>
        match s.procs[p]? with
        | none => none
        | some x =>
          -- "WaitGroup misuse: Add called concurrently with Wait"
          if x.v ≠ 0 ∨ x.w ≠ w then some s.fail
          else some ((s.upd p { x with v := 0, w := 0, sem := x.sem + w }).goto i ns .cEnd)
      | .cEnd => none
      | .hGet =>
        match mapGet s.entries ns with
        | some p => some (s.goto i ns (.hLoad p))
        | none => some (s.goto i ns .hCreate)
      | .hCreate => some ((s.create ns).goto i ns (.hLoad s.procs.length))
      | .hLoad p =>
        match s.procs[p]? with
        | none => none
        | some x => some (s.goto i ns (if x.done then .hEnd else .hWait p))
      | .hWait p =>
        match s.procs[p]? with
        | none => none
        | some x =>
          if x.v = 0 then some (s.goto i ns .hEnd)
          else some ((s.upd p { x with w := x.w + 1 }).goto i ns (.hBlocked p))
      | .hBlocked p =>
        match s.procs[p]? with
        | none => none
        | some x =>
          if x.sem = 0 then none
          else some ((s.upd p { x with sem := x.sem - 1 }).goto i ns (.hWoken p))
      | .hWoken p =>
        match s.procs[p]? with
        | none => none
        | some x =>
          -- "WaitGroup is reused before previous Wait has returned"
          if x.v ≠ 0 ∨ x.w ≠ 0 then some s.fail
          else some (s.goto i ns .hEnd)
      | .hEnd => none

/-- the state after a schedule -/
def Gates.run (s : Gates) : List Nat → Option Gates
  | [] => some s
  | i :: is =>
    match s.step i with
    | some s' => s'.run is
    | none => none

/-- before its first step -/
def GPc.fresh : GPc → Bool
  | .cGet | .hGet => true
  | _ => false

/-- goroutines that have not started, on a connection where the gates of `made` exist and were
not used yet -/
def Gates.start (made : List Bytes) (ths : List (Bytes × GPc)) : Gates :=
  { procs := made.map (fun _ => {}), entries := made.zipIdx, ths := ths }

end Neffos
