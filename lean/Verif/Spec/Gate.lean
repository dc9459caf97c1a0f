import Verif.Model.Process
/-!
# What has happened at a gate
-/
set_option autoImplicit false
namespace Neffos.Spec

/-- the calls of `Start` on process `p` along a schedule, process.go:81-83 -/
def begun (p : Nat) (s : Gates) : List Nat → Nat
  | [] => 0
  | i :: is =>
    (if s.ths[i]?.map Prod.snd = some (.cStart p) then 1 else 0) +
      match s.step i with
      | some s' => begun p s' is
      | none => 0

/-- the Connects between `Start` and `Done` on process `p` -/
def inside (p : Nat) (s : Gates) : Nat := s.ths.countP fun t => t.2 = .cBody p

/-- some schedule brings goroutine `i` past the gate -/
def CanPass (s : Gates) (i : Nat) : Prop :=
  ∃ (sched : List Nat) (s' : Gates) (n : Bytes), s.run sched = some s' ∧ s'.ths[i]? = some (n, .hEnd)

/-- nothing can go on -/
def AtRest (s : Gates) : Prop := s.panicked = false ∧ ∀ i, s.step i = none

end Neffos.Spec
