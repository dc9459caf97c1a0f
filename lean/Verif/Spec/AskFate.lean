import Verif.Model.AskRace
/-!
Independent specification for C97.
-/
set_option autoImplicit false
namespace Neffos.Spec

/-- In some future the Ask `i` returns a message, although its context is never done. -/
def MayReturn (cl : Bool) (s : ASt) (i : Nat) : Prop :=
  ∃ ops t b g, AOp.ctx i ∉ ops ∧ s.run cl ops = some t ∧ t.asks[i]? = some b ∧ b.pc = .done (.answer g)

/-- In no future the reader gets on. -/
def ReaderStuck (cl : Bool) (s : ASt) : Prop := ∀ ops t, s.run cl ops = some t → t.rd = s.rd

/-- The goroutine of this Ask will not receive from its channel any more: it received, gave up, or cannot but
give up because the connection is closed. -/
def PastReceiving (s : ASt) (a : AskT) : Prop :=
  (∃ g, a.pc = .forget g) ∨ (∃ r, a.pc = .done r) ∨ (a.pc = .write ∧ a.srv = false ∧ s.closed = true)

/-- the reader is between two messages and has read all that arrived -/
def AllRead (s : ASt) : Prop := s.rd = .idle ∧ s.pos = s.arr.length

/-- another Ask of the same kind, Conn.Ask or Server.Ask, was given the same token -/
def SharesToken (s : ASt) (i : Nat) (a : AskT) : Prop :=
  ∃ j b, j ≠ i ∧ s.asks[j]? = some b ∧ b.srv = a.srv ∧ b.next = false ∧ b.tok = a.tok

end Neffos.Spec
