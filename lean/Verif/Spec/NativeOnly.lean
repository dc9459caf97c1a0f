import Verif.Spec.Delivery
/-!
# Specification vocabulary for native-only connections
-/
set_option autoImplicit false
namespace Neffos.Spec

/-- the callbacks that ran in a history: the name each is registered under and its message -/
def ran : List Obs → List (Bytes × Message)
  | [] => []
  | .fired _ _ msg (some h) _ :: t => (h, msg) :: ran t
  | _ :: t => ran t

/-- Is the empty namespace connected after these calls? Only Disconnect ends it and only Connect brings it back. -/
def nativeOn : List Op → Bool → Bool
  | [], on => on
  | .disconnect _ _ _ :: ops, _ => nativeOn ops false
  | .connect ns _ _ :: ops, on => nativeOn ops (on || ns.isEmpty)
  | _ :: ops, on => nativeOn ops on

/-- what a call on a native-only connection returns, from the state before it and the one after it -/
def NativeReturns (s s' : St) : Op → List Result → Prop
  | .connect ns _ _, l =>
    if ns = [] then ∃ obj, s'.namespace [] = some obj ∧ l = [.nsConn obj] ∧
      (s.namespace [] = some obj ∨ s.namespace [] = none ∧ obj = s.objs.length)
    else l = [.err errBadNamespace]
  | .disconnect _ _ _, l => l = [if s.namespace [] = none then .err errBadNamespace else .ok]
  | .join obj room _ _, l => l = [.room obj room] ∧ room ∈ s'.rooms obj
  | .leave obj room _ _, l => l = [if room ∈ s.rooms obj then .ok else .err errBadRoom] ∧ room ∉ s'.rooms obj
  | .ask _ _ _, l => l = [.answer {} none]
  | _, l => l = []

/-- the calls in which the connection itself may send something: a write, and a payload, whose callback may write -/
def maySend : Op → Bool
  | .write _ => true
  | .recv _ _ => true
  | _ => false

end Neffos.Spec
