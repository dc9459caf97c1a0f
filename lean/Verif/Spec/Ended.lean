import Verif.Model.Conn
/-!
# What can still happen on a closed connection (for C127)
-/
set_option autoImplicit false
namespace Neffos.Spec

/-- the states that can follow, by any steps -/
inductive Later (cfg : Cfg) (s : St) : St → Prop where
  | now : Later cfg s s
  | step {t u : St} {op : Op} (h : Later cfg s t) (hs : step cfg t op = some u) : Later cfg s u

/-- The Ask has not returned, and an answer without an error is in its channel or can still get there without the reader: its own
goroutine reads the next payload. -/
def MaySucceed (a : AskRec) : Prop :=
  a.done = false ∧ (a.mode = .reading ∨ ∃ m, a.box = some m ∧ m.err = none)

/-- The operation is one of the reader's: only it handles requests of the other side. -/
def ReaderOp : Op → Prop
  | .recv _ _ | .wake | .contReader => True
  | _ => False

end Neffos.Spec
