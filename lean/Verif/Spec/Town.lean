import Verif.Spec.Audience
import Verif.Spec.Net
/-!
# Specification vocabulary for a server whose clients and connections call while it broadcasts
-/
set_option autoImplicit false
namespace Neffos.Spec

/-- the runs of a server with all its clients in which every step of a session keeps to `BothRequests`: any number of calls of
both sides in flight, none of which clashes with another of the same session -/
inductive TownRun (cfg : NetCfg) : List NetOp → Net → Prop
  | init : TownRun cfg [] (newNet cfg)
  | step {ops : List NetOp} {s s' : Net} {op : NetOp} : TownRun cfg ops s →
      (∀ c o, op = .sess c o → BothRequests (s.sess c) o) → s.step cfg op = some s' → TownRun cfg (ops ++ [op]) s'

/-- what is asked of the callbacks of all clients and connections, and of what is broadcast -/
structure Town (cfg : NetCfg) : Prop where
  callbacks : ∀ c, BothConsistent (cfg.cc c) (cfg.sc c)
  client : ∀ c, (cfg.cc c).allowNative = false ∧ (cfg.cc c).isClient = true
  server : ∀ c, (cfg.sc c).allowNative = false ∧ (cfg.sc c).isClient = false
  batches : ∀ k, ∀ m ∈ cfg.batch k, AppMsg m

/-- neither side of the session is closed -/
def BothOpen (s : Sess) : Prop := s.c.closed = false ∧ s.d.closed = false

end Neffos.Spec
