import Verif.Model.Conn
/-!
Independent specification for C108.
-/
set_option autoImplicit false
namespace Neffos.Spec

/-- no context ends during these steps -/
def NoCancel (ops : List Op) : Prop := ∀ i e, Op.cancel i e ∉ ops

/-- The call has its answer, or reads the next message from the socket itself. -/
def HasAnswer (a : AskRec) : Prop := a.box ≠ none ∨ a.mode = .reading

/-- The gate of a namespace can still open for a reader that waits at it: its counter is zero, or no Connect to the
namespace has returned and one is on its way. -/
def CanOpen (s : St) (ns : Bytes) : Prop :=
  ∀ g, mapGet s.gates ns = some g → g.count = 0 ∨ (g.done = false ∧ g.count = 1)

/-- It can even if no context ends: the Connect on its way is served, and satisfies `p`. -/
def CanOpenAlone (s : St) (ns : Bytes) (p : AskRec → Prop) : Prop :=
  ∀ g, mapGet s.gates ns = some g → g.count = 0 ∨ (g.done = false ∧ g.count = 1 ∧
    ∃ (j obj : Nat) (b : AskRec), s.asks[j]? = some b ∧ b.done = false ∧ b.cont = .connect ns obj ∧ HasAnswer b ∧ p b)

/-- When this call returns it does not take the token out of the table. -/
def Leaves (tok : Bytes) (b : AskRec) : Prop := ¬ (b.mode = .table ∧ b.tok = tok)

/-- The reader can get back to reading messages without the token being taken out of the table. -/
def ComesBack (s : St) (tok : Bytes) : Prop :=
  match s.rd with
  | .idle => True
  | .gate msg => CanOpenAlone s msg.ns (Leaves tok)
  | .send j _ => ∃ b, s.asks[j]? = some b ∧ b.done = false ∧ HasAnswer b ∧ Leaves tok b
  | .ack => False
  | .dead => False

end Neffos.Spec
