import Verif.Model.WaitConnect
/-!
# C110, spec: what WaitConnect returns, as a function of what it saw
-/
set_option autoImplicit false
namespace Neffos.Spec

/-- What the steps of the goroutine met: whether its context was done, and the connection. Its steps number
0, 3, 6, … are the `select`, 1, 4, 7, … the look at the namespaces, 2, 5, 8, … the look at the acknowledgement. -/
def glances (cfg : Cfg) (s : St) : List WaitOp → List (Option GoErr × St)
  | [] => []
  | .conn op :: ops =>
    match step cfg s op with
    | some s' => glances cfg s' ops
    | none => []
  | .wait ctx :: ops => (ctx, s) :: glances cfg s ops

/-- round `i` is the first in which the namespace was there -/
def FirstSeen (name : Bytes) (g : List (Option GoErr × St)) (i obj : Nat) : Prop :=
  (∃ c s, g[3 * i + 1]? = some (c, s) ∧ s.namespace name = some obj) ∧
    ∀ j, j < i → ∀ c s, g[3 * j + 1]? = some (c, s) → s.namespace name = none

/-- step `k` gives a reason to return `r` -/
def Reason (name : Bytes) (g : List (Option GoErr × St)) (k : Nat) (r : Except GoErr Nat) : Prop :=
  (∃ j e s, k = 3 * j ∧ g[k]? = some (some e, s) ∧ r = .error e) ∨
  (∃ j i obj c s, k = 3 * j + 2 ∧ g[k]? = some (c, s) ∧ s.acked = true ∧ i ≤ j ∧ FirstSeen name g i obj ∧ r = .ok obj)

/-- the first reason decides -/
def FirstReason (name : Bytes) (g : List (Option GoErr × St)) (r : Except GoErr Nat) : Prop :=
  ∃ k, Reason name g k r ∧ ∀ k', k' < k → ∀ r', ¬ Reason name g k' r'

end Neffos.Spec
