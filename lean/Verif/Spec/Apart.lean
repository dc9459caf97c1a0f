import Verif.Spec.Net
/-!
# Specification vocabulary for what can come to a client of a server (for C132)
-/
set_option autoImplicit false
namespace Neffos.Spec

/-- what can come to a session: a step of its own, a broadcast, the Close of its connection by Server.Close -/
inductive Comes where
  | own (o : SessOp)
  | cast (ms : List Message)
  | shut

/-- what comes to the session of `d` by a step -/
def comesBy (cfg : NetCfg) (s : Net) (d : Nat) : NetOp → List Comes
  | .sess c o => if c = d then [.own o] else []
  | .loop o =>
    match s.loop.touch o with
    | some (.publish c k) => if c = d then [.cast (cfg.batch k)] else []
    | some (.shut c) => if c = d then [.shut] else []
    | none => []

/-- the runs of a server, with what has come to the session of `d` -/
inductive ApartRun (cfg : NetCfg) (d : Nat) : Net → List Comes → Prop
  | init : ApartRun cfg d (newNet cfg) []
  | step {s s' : Net} {op : NetOp} {l : List Comes} : ApartRun cfg d s l → s.step cfg op = some s' →
      ApartRun cfg d s' (l ++ comesBy cfg s d op)

/-- the two servers treat the client `d` alike; all other clients, connections and the rest of the servers may differ -/
structure AlikeFor (d : Nat) (cfg cfg' : NetCfg) : Prop where
  client : cfg.cc d = cfg'.cc d
  conn : cfg.sc d = cfg'.sc d
  id : cfg.id d = cfg'.id d

end Neffos.Spec
