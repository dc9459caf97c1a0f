import Verif.Spec.Socket
/-!
# Specification vocabulary for what can be on the wire
-/
set_option autoImplicit false
namespace Neffos.Spec

/-- goroutines that are about to write: what, and in how many pieces -/
abbrev Frames := List (WriteKind × Nat)

def Frames.pieces (fs : Frames) (t : Nat) : Nat := (fs[t]?.map (·.2)).getD 0

/-- both are messages or both are control answers -/
def SameKind (fs : Frames) (t u : Nat) : Prop := ∃ x y, fs[t]? = some x ∧ fs[u]? = some y ∧ x.1 = y.1

/-- the pieces of goroutine `t` -/
def piecesOf (w : List (Nat × Nat)) (t : Nat) : List (Nat × Nat) := w.filter fun x => x.1 = t

/-- The pieces of every frame come in order, each once and without a gap, and when a piece of a frame comes, all other
frames of the same kind that were begun before it are complete. Nothing is said about frames of different kinds. -/
structure Wireable (fs : Frames) (w : List (Nat × Nat)) : Prop where
  own : ∀ t, piecesOf w t <+: frameOf fs.pieces t
  apart : ∀ a u j b, w = a ++ (u, j) :: b → ∀ t, t ≠ u → SameKind fs t u → piecesOf a t ≠ [] → piecesOf a t = frameOf fs.pieces t

end Neffos.Spec
