import Verif.Model.Access
/-!
# Data races

Two goroutines are about to access the same variable and one of the accesses is a write (the Go memory model).
-/
namespace Neffos.Spec

/-- the mutex that is meant for a variable: the one declared beside it; the connections belong to the loop -/
def guard : Vr → Mx
  | .ns c => .ns c
  | .rooms o => .rooms o
  | .wait c => .wait c
  | .store c => .store c
  | .queue c => .queue c
  | .procs c => .procs c
  | .srvWait => .srvWait
  | .conns => .loop
  | .exc e => .exc e
  | .batch => .bmu

/-- goroutine `i` is about to write `v` -/
def WritesVar (s : MemSt) (i : Nat) (v : Vr) : Prop := ∃ t p, s.thr[i]? = some t ∧ t.todo = .store v :: p

/-- goroutine `i` is about to read `v` -/
def ReadsVar (s : MemSt) (i : Nat) (v : Vr) : Prop := ∃ t p, s.thr[i]? = some t ∧ t.todo = .load v :: p

/-- two goroutines race for `v` -/
def Race (s : MemSt) (v : Vr) : Prop := ∃ i j, i ≠ j ∧ WritesVar s i v ∧ (WritesVar s j v ∨ ReadsVar s j v)

/-- some execution of a program that uses `u` has a race for `v` -/
def Racy (u : UnguardedUses) (v : Vr) : Prop := ∃ s, MemReach u s ∧ Race s v

end Neffos.Spec
