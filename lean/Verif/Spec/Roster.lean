import Verif.Spec.Town
/-!
# Specification vocabulary for what a server says about its connections (for C131)
-/
set_option autoImplicit false
namespace Neffos.Spec

/-- the registered connections, in the order in which the map is ranged over -/
def roster (s : Net) (order : List Nat) : List (Nat × St) := order.map fun c => (c, (s.sess c).d)

/-- no other registered connection has the ID of this one -/
def OwnId (s : Net) (c : Nat) : Prop := ∀ d ∈ s.loop.regs, (s.sess d).d.id = (s.sess c).d.id → d = c

/-- no call in flight of either side is about the namespace -/
def NsFree (x : Sess) (ns : Bytes) : Prop := ∀ a ∈ x.c.asks ++ x.d.asks, a.done = false → about a.cont ≠ some (ns, none)

end Neffos.Spec
