import Verif.Model.AskRace
/-!
# Specification vocabulary for where a message is
-/
namespace Neffos.Spec

/-- where a message that arrived can be -/
inductive Place where
  /-- nobody has read it -/
  | unread
  /-- the reader has it and has not yet decided, or is giving it to an Ask -/
  | reader
  /-- a callback was called with it -/
  | callback
  /-- the Ask number `i`, its channel or the goroutine it started has it -/
  | hands (i : Nat)
  /-- the Ask number `i` returned it -/
  | returned (i : Nat)
  deriving DecidableEq

/-- the reader starts a callback between the two states: the message it is called with -/
def starts (s t : ASt) : List Nat :=
  match s.rd, t.rd with
  | .connLook _, .handler k => [k]
  | _, _ => []

/-- the messages that callbacks were called with during a schedule, in the order of the calls -/
def called (cl : Bool) : ASt → List AOp → List Nat
  | _, [] => []
  | s, op :: ops =>
    match s.step cl op with
    | some t => starts s t ++ called cl t ops
    | none => []

/-- the Ask or a helper of it has message `k`, which it has not returned -/
def Holds (a : AskT) (k : Nat) : Prop :=
  a.box = some (.msg k) ∨ a.help = .got (.msg k) ∨ a.pc = .forget (.msg k)

/-- message `k` is at that place, after the schedule `ops` that led to `s` -/
def IsAt (cl : Bool) (ops : List AOp) (s : ASt) (k : Nat) : Place → Prop
  | .unread => s.pos ≤ k
  | .reader => s.rd = .got k ∨ s.rd = .srvLook k ∨ s.rd = .connLook k ∨ (∃ i, s.rd = .srvSend i k) ∨
      ∃ i, s.rd = .connSend i k
  | .callback => k ∈ called cl {} ops
  | .hands i => ∃ a, s.asks[i]? = some a ∧ Holds a k
  | .returned i => ∃ a, s.asks[i]? = some a ∧ a.pc = .done (.answer (.msg k))

/-- the Ask will not return message `k`: it has returned, its write is about to fail, or it is about to return something
else -/
def Deaf (s : ASt) (a : AskT) (k : Nat) : Prop :=
  (∃ r, a.pc = .done r) ∨ (a.pc = .write ∧ s.closed = true) ∨ ∃ g, a.pc = .forget g ∧ g ≠ .msg k

end Neffos.Spec
