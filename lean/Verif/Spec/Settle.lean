import Verif.Spec.Session
/-!
# Specification vocabulary for the end of sessions
-/
namespace Neffos.Spec

/-- the socket takes everything -/
def TakesAll (cfg : Cfg) : Prop := ∀ log bin b, cfg.sock log bin b = none

/-- callbacks do not use the connection -/
def StillCbs (cfg : Cfg) : Prop := ∀ log obj h msg, (cfg.cb log obj h msg).1 = []

/-- the callbacks return nil for events that are not asked -/
def NilForEvents (cfg : Cfg) : Prop :=
  ∀ log obj h msg, msg.wait = [] → ¬ isRequest msg.event → (cfg.cb log obj h msg).2 = none

/-- the steps by which a session goes on without the application: a reader reads or goes on, a call returns -/
def Settling : SessOp → Prop
  | .up => True
  | .down => True
  | .client .wake => True
  | .client (.resume _) => True
  | _ => False

/-- what is left to do: three for every payload on its way to the server, two for every payload on its way back, one
for every call in flight and one for an event that is held back -/
def work (s : Sess) : Nat :=
  3 * ((pipe s.c.log).length - s.up) + 2 * ((pipe s.d.log).length - s.down) + s.c.asks.countP (fun a => !a.done) +
    (if s.c.rd = .idle then 0 else 1)

/-- what is asked of the two sides: the sockets take everything, callbacks do not use the connection, and those of the
client return nil for events -/
structure StillSides (cc sc : Cfg) : Prop where
  cli : StillCbs cc
  srv : StillCbs sc
  nil : NilForEvents cc
  takes : TakesAll cc ∧ TakesAll sc

/-- both sides are open, Dial has returned and the server's socket took everything -/
structure InUse (s : Sess) : Prop where
  dial : s.c.ready = some none
  cli : s.c.closed = false
  srv : s.d.closed = false
  taken : ∀ bin b, Obs.sent bin b false ∉ s.d.log

end Neffos.Spec
