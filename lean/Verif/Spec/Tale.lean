import Verif.Spec.ServerLoop
/-! What the loop has to do with one connection, in order. -/
set_option autoImplicit false
namespace Neffos.Spec

/-- the connection an event of the loop is about -/
def LEv.about : LEv → Option Nat
  | .reg c => some c
  | .drop c => some c
  | .ignored c => some c
  | .onDisc c => some c
  | .exchDisc c => some c
  | .served _ => none
  | .offered c _ => some c

/-- what the log says about `c`, in order -/
def story (c : Nat) (log : List LEv) : List LEv := log.filter (fun e => LEv.about e = some c)

/-- The stories a connection can have. -/
inductive Tale (c : Nat) : List LEv → Prop where
  /-- it has not come yet -/
  | unborn : Tale c []
  /-- it was closed before it came -/
  | lost : Tale c [.ignored c]
  /-- and then came, and is registered for ever -/
  | ghost (ks : List Nat) : Tale c (.ignored c :: .reg c :: ks.map (.offered c))
  /-- it is registered -/
  | here (ks : List Nat) : Tale c (.reg c :: ks.map (.offered c))
  /-- it is removed, and OnDisconnect and the exchange are told at most once, in this order -/
  | gone (ks : List Nat) {told : List LEv} (h : told.Sublist [.onDisc c, .exchDisc c]) :
      Tale c (.reg c :: ks.map (.offered c) ++ .drop c :: told)

end Neffos.Spec
