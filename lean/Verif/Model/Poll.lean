import Verif.Model.Conn
/-!
# The polling loop of a server-side Connect (conn.go:494-533)

`time.Duration` is an int64 number of nanoseconds. What the loop sees is given for every
round: whether the connection is acknowledged when the loop condition is checked, and
whether it is closed when this is checked.
-/
namespace Neffos

/-- int64 arithmetic wraps around -/
def wrap64 (x : Int) : Int := Int.bmod x 18446744073709551616

/-- conn.go:494 -/
def syncWaitDur : Int := 15 * 1000000
/-- conn.go:498 -/
def maxSyncWaitDur : Int := 10 * 1000000000

/-- how the loop ends -/
inductive PollEnd where
  /-- the loop condition failed: acknowledged, Connect goes on -/
  | acked
  | err (e : GoErr)
  deriving DecidableEq

/-- conn.go:514-532 one round with the current `t` -/
def pollRound (acked closed : Bool) (t : Int) : PollEnd ⊕ Int :=
  if acked then .inl .acked
  else
    let t := wrap64 (t - syncWaitDur)
    if t ≤ maxSyncWaitDur / 2 ∧ closed then .inl (.err errWrite)
    else if t = 0 then .inl (.err (if closed then errWrite else errDeadline))
    else .inr t

/-- the loop from round `n` on, for at most `fuel` rounds: the round it ended in and how, or
the value of `t` -/
def pollFrom (acked closed : Nat → Bool) (n : Nat) (t : Int) : Nat → (Nat × PollEnd) ⊕ Int
  | 0 => .inr t
  | fuel + 1 =>
    match pollRound (acked n) (closed n) t with
    | .inl r => .inl (n, r)
    | .inr t => pollFrom acked closed (n + 1) t fuel

/-- conn.go:513-532 the first `rounds` rounds of the loop -/
def poll (acked closed : Nat → Bool) (rounds : Nat) : (Nat × PollEnd) ⊕ Int :=
  pollFrom acked closed 0 maxSyncWaitDur rounds

end Neffos
