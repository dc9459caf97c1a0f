import Verif.Spec.Town
import Verif.Spec.Order
/-!
# Specification vocabulary for the order in which the clients of a server hear its broadcasts (for C129)
-/
set_option autoImplicit false
namespace Neffos.Spec

/-- the broadcast that a step offers to the connection -/
def castFor (s : Net) (c : Nat) : NetOp → Option Nat
  | .loop o =>
    match s.loop.touch o with
    | some (.publish d k) => if d = c then some k else none
    | _ => none
  | _ => none

/-- what a step puts into the socket to the client: an event that its connection emits, or a broadcast, with its number -/
def givenTo (cfg : NetCfg) (s s' : Net) (c : Nat) : NetOp → List (Option Nat × Message)
  | .sess d o => if d = c then (emitsDown (s.sess c) (s'.sess c) o).map fun m => (none, m) else []
  | .loop o =>
    match castFor s c (.loop o) with
    | some k =>
      if (pipe (s.sess c).d.log).length < (pipe (s'.sess c).d.log).length then (cfg.batch k).map fun m => (some k, m) else []
    | none => []

/-- what a step puts into the socket from the client -/
def takenFrom (s s' : Net) (c : Nat) : NetOp → List Message
  | .sess d o => if d = c then emitsUp (s.sess c) (s'.sess c) o else []
  | .loop _ => []

/-- The runs of a server with all its clients in which every session keeps to `EventRequests`, and nothing is broadcast to a
namespace for a connection that is itself leaving this namespace; with what each client has emitted and was given. -/
inductive ParadeRun (cfg : NetCfg) : List NetOp → Net → (Nat → List Message) → (Nat → List (Option Nat × Message)) → Prop
  | init : ParadeRun cfg [] (newNet cfg) (fun _ => []) (fun _ => [])
  | step {ops : List NetOp} {s s' : Net} {op : NetOp} {U : Nat → List Message} {D : Nat → List (Option Nat × Message)} :
      ParadeRun cfg ops s U D → (∀ c o, op = .sess c o → EventRequests (s.sess c) o) →
      (∀ c k, castFor s c op = some k → ∀ m ∈ cfg.batch k, ¬ Leaving (s.sess c).d m.ns) → s.step cfg op = some s' →
      ParadeRun cfg (ops ++ [op]) s' (fun c => U c ++ takenFrom s s' c op) (fun c => D c ++ givenTo cfg s s' c op)

/-- what is asked of the callbacks and sockets of all clients and connections; each call of Broadcast has one message, an event -/
structure Parade (cfg : NetCfg) : Prop where
  town : Town cfg
  still : ∀ c, StillSide (cfg.cc c) ∧ StillSide (cfg.sc c)
  single : ∀ k, ∃ m, cfg.batch k = [m] ∧ PlainEvent m

/-- the calls that the loop has served, oldest first -/
def servedCalls (l : List LEv) : List Nat := l.filterMap fun e => match e with
  | .served k => some k
  | _ => none

end Neffos.Spec
