import Verif.Model.ServerLoop
/-! The turns of the loop of a server, one after the other (for C141). -/
set_option autoImplicit false
namespace Neffos.Spec

/-- what is told after a connection was removed: the exchange only if OnDisconnect is not set or was called -/
def Told (cfg : LCfg) (c : Nat) (l : List LEv) : Prop :=
  (cfg.onDisc = true ∧ cfg.always = false ∧ l = []) ∨
  l = (if cfg.onDisc then [.onDisc c] else []) ++ (if cfg.exch then [.exchDisc c] else [])

/-- `Turns cfg regs log`: the log consists of whole turns, after which `regs` are registered. -/
inductive Turns (cfg : LCfg) : List Nat → List LEv → Prop where
  | start : Turns cfg [] []
  /-- a connection comes, for the first time -/
  | reg {regs : List Nat} {log : List LEv} {c : Nat} (h : Turns cfg regs log) (h1 : .reg c ∉ log) :
      Turns cfg (c :: regs) (log ++ [.reg c])
  /-- a registered connection goes -/
  | drop {regs : List Nat} {log told : List LEv} {c : Nat} (h : Turns cfg regs log) (h1 : c ∈ regs) (h2 : .ignored c ∉ log)
      (h3 : Told cfg c told) : Turns cfg (regs.erase c) (log ++ .drop c :: told)
  /-- the disconnection of a connection that has not come yet -/
  | ignored {regs : List Nat} {log : List LEv} {c : Nat} (h : Turns cfg regs log) (h1 : .reg c ∉ log) (h2 : .ignored c ∉ log) :
      Turns cfg regs (log ++ [.ignored c])
  /-- a call, brought to every registered connection once, in any order -/
  | call {regs order : List Nat} {log : List LEv} {k : Nat} (h : Turns cfg regs log) (h1 : .served k ∉ log)
      (h2 : order.Perm regs) : Turns cfg regs (log ++ .served k :: order.map (fun c => .offered c k))

end Neffos.Spec
