import Verif.Model.ServerLoop
/-! What the loop's log says about one connection. -/
namespace Neffos.Spec

/-- whether `c` is registered after these events -/
def registered (c : Nat) (log : List LEv) : Bool :=
  log.foldl (fun r e => if e = .reg c then true else if e = .drop c then false else r) false

/-- the calls that were served while `c` was registered, in order -/
def due (c : Nat) (log : List LEv) : List Nat :=
  (log.foldl (fun (p : List LEv × List Nat) e =>
    (p.1 ++ [e], match e with
      | .served k => if registered c p.1 then p.2 ++ [k] else p.2
      | _ => p.2)) ([], [])).2

/-- the calls that `c` was offered, in order -/
def offered (c : Nat) (log : List LEv) : List Nat :=
  log.filterMap (fun e => match e with
    | .offered d k => if d = c then some k else none
    | _ => none)

end Neffos.Spec
