import Verif.Spec.Conn
set_option autoImplicit false
/-!
# Specification: in which order things happen

A piece of history as one list: callback calls, writes, results of calls and notes to the
StackExchange, in the order in which they happened.
-/
namespace Neffos.Spec

/-- one thing that happens on a connection -/
inductive Ev
  | call (c : Call)
  | wire (binary : Bool) (b : Bytes)
  | ret (k : Cont) (r : Result)
  | note (o : Obs)

/-- The history consists of exactly these things in this order; a callback may write in
addition, between its call and the next thing. -/
inductive Goes (cfg : Cfg) : List Obs → List Ev → Prop
  | nil : Goes cfg [] []
  | call {obj : Nat} {v : View} {msg : Message} {h : Option Bytes} {r : Option GoErr}
      {own l : List Obs} {es : List Ev} :
      (∀ o ∈ own, ∃ binary b ok, o = .sent binary b ok ∧ CbWrote cfg (binary, b)) →
      Goes cfg l es →
      Goes cfg (.fired obj v msg h r :: (own ++ l)) (.call ⟨obj, msg, v.connected, v.inRoom⟩ :: es)
  | wire {binary : Bool} {b : Bytes} {ok : Bool} {l : List Obs} {es : List Ev} :
      Goes cfg l es → Goes cfg (.sent binary b ok :: l) (.wire binary b :: es)
  | ret {k : Cont} {r : Result} {l : List Obs} {es : List Ev} :
      Goes cfg l es → Goes cfg (.ret k r :: l) (.ret k r :: es)
  | note {o : Obs} {l : List Obs} {es : List Ev} :
      otherOf [o] = [o] → Goes cfg l es → Goes cfg (o :: l) (.note o :: es)

/-- calls one after the other -/
def calls (cs : List Call) : List Ev := cs.map .call

/-- notes one after the other -/
def notes (os : List Obs) : List Ev := os.map .note

end Neffos.Spec
