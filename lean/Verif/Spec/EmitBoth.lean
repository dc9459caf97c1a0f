import Verif.Spec.BothRule
/-!
# Specification vocabulary for what becomes of an event when both sides call
-/
namespace Neffos.Spec

/-- the client emitted this as its payload number `n` -/
def RuledUp (cc sc : Cfg) (id : Bytes) (ops : List SessOp) (m : Message) (n : Nat) : Prop :=
  ∃ before s0 s1, before ++ [.client (.write m)] <+: ops ∧ RuledRun cc sc id before s0 ∧
    sstep cc sc s0 (.client (.write m)) = some s1 ∧ (pipe s0.c.log).length = n ∧ (pipe s1.c.log).length = n + 1

/-- the server emitted this as its payload number `n` -/
def RuledDown (cc sc : Cfg) (id : Bytes) (ops : List SessOp) (m : Message) (n : Nat) : Prop :=
  ∃ before s0 s1, before ++ [.server (.write m)] <+: ops ∧ RuledRun cc sc id before s0 ∧
    sstep cc sc s0 (.server (.write m)) = some s1 ∧ (pipe s0.d.log).length = n ∧ (pipe s1.d.log).length = n + 1

/-- a Connect of this side to this namespace is in flight; the other side accepted it, and its answer has been read -/
def Accepted (s : St) (n : Bytes) : Prop :=
  ∃ a ∈ s.asks, a.done = false ∧ (∃ obj, a.cont = .connect n obj) ∧ ∃ r, a.box = some r ∧ r.err = none

/-- What this side does with an event that it reads: the callback of the event runs, once, and no other; or the event
is held back for a Connect of this side to its namespace, which was accepted; or, only if a Connect of this side to this
namespace had returned before that one, it is dropped. -/
inductive Fate (s s' : St) (m : Message) : Prop
  | runs : InNs s m.ns → Runs s s' m → Fate s s' m
  | held (M : Message) : ¬ InNs s m.ns → Accepted s m.ns → Heard m [] M → s' = { s with rd := .gate M } → Fate s s' m
  | dropped : ¬ InNs s m.ns → Accepted s m.ns → (∃ obj r, Obs.ret (.connect m.ns obj) r ∈ s.log) →
      callsOf s'.log = callsOf s.log → Fate s s' m

end Neffos.Spec
