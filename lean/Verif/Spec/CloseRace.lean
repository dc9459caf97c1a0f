import Verif.Model.CloseRace
/-!
# What a Close among other goroutines should do
-/
namespace Neffos.Spec

/-- what one goroutine did -/
def didBy (i : Nat) (log : List (Nat × REv)) : List REv := (log.filter (·.1 = i)).map (·.2)

/-- the rooms are left one after the other: OnRoomLeave, then OnRoomLeft -/
def leaves (o : Nat) : List Nat → List REv
  | [] => []
  | r :: rs => .leave o r :: .left o r :: leaves o rs

/-- the callbacks of a Close: for each NSConn its rooms in some order, then the namespace -/
inductive CloseBody : List (Nat × List Nat) → List REv → Prop
  | nil : CloseBody [] []
  | snoc {seen : List (Nat × List Nat)} {l : List REv} {o : Nat} {rs order : List Nat} :
      CloseBody seen l → order.Perm rs → CloseBody (seen ++ [(o, rs)]) (l ++ leaves o order ++ [.disc o])

end Neffos.Spec
