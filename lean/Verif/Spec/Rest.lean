import Verif.Spec.Parade
/-!
# Specification vocabulary for a server that comes to rest with all its clients (for C130)
-/
set_option autoImplicit false
namespace Neffos.Spec

/-- the steps by which a server goes on with its clients when the applications do nothing: the loop takes its next step or
receives a call, a reader reads or goes on, a call of either side of a session returns -/
def SettlingNet : NetOp → Prop
  | .loop .loop => True
  | .loop (.recvCall _ _) => True
  | .sess _ o => SettlingBoth o
  | _ => False

/-- the loop waits or is at a broadcast, all calls are calls of Broadcast, and all sessions are open -/
structure Serving (s : Net) : Prop where
  loop : s.loop.loop = .sel ∨ ∃ k rest, s.loop.loop = .cast k rest
  calls : ∀ x ∈ s.loop.calls, x.kind = .cast
  sess : ∀ c, s.loop.made c = true → Open (s.sess c)

/-- the calls of Broadcast that the loop has not received -/
def waiting (l : LSt) : Nat := l.calls.countP fun x => decide (x.pc = .send)

/-- what the loop has to do: two steps for each call, one for each visit of a connection, which may put a payload into its
socket -/
def castWork (l : LSt) : Nat :=
  waiting l * (5 * l.regs.length + 2) + match l.loop with
    | .cast _ rest => 5 * rest.length + 1
    | _ => 0

/-- what is left to do, with all clients -/
def workNet (cfg : NetCfg) (s : Net) : Nat :=
  castWork s.loop + ((List.range s.loop.conns.length).map fun c => workBoth (cfg.cc c) (cfg.sc c) (s.sess c)).sum

end Neffos.Spec
