import Verif.Model.Broadcaster
/-!
Independent specification for C98.
-/
set_option autoImplicit false
namespace Neffos.Spec

/-- A connection may get these of `n` batches, each given by its number: the numbers never go down, and before the
batch `p` it got at most `p` batches. -/
def Receivable (n : Nat) (ps : List Nat) : Prop :=
  ps.Pairwise (· ≤ ·) ∧ ∀ j p, ps[j]? = some p → j ≤ p ∧ p < n

/-- The same if no two calls overlap: from one batch `p` that it got to a later one `q` it gets at most one batch
more than there are. -/
def SeriallyReceivable (n : Nat) (ps : List Nat) : Prop :=
  (∀ j p, ps[j]? = some p → j ≤ p ∧ p < n) ∧
  ∀ i j p q, i < j → ps[i]? = some p → ps[j]? = some q → p + (j - i) ≤ q + 1

/-- no call of `broadcast` is made before all earlier ones have returned -/
def Serial : BSt → List BOp → Prop
  | _, [] => True
  | s, op :: ops => (op = .call → ∀ pc ∈ s.casts, pc = BPc.done) ∧ ∀ t, s.step false op = some t → Serial t ops

end Neffos.Spec
