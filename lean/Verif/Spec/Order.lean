import Verif.Spec.BothRule
import Verif.Spec.Net
/-!
# Specification vocabulary for the order of events while both sides call
-/
namespace Neffos.Spec

/-- the event that a payload carries for this reader: an application message without a token -/
def eventIn (reader : Cfg) (p : MsgType × Bytes) : Option Message :=
  (carried reader p).bind fun m => if m.wait = [] then some m else none

/-- an event as its reader gets it: names, body and kind, nothing else -/
def arrives (m : Message) : Message :=
  { ns := m.ns, room := m.room, event := m.event, body := m.body, isNoOp := m.isNoOp, setBinary := m.setBinary }

/-- Like `RuledRequests`; what is emitted are events, and neither side calls Connect to a namespace again after a
Connect of its own to this namespace has returned. -/
def EventRequests (s : Sess) (op : SessOp) : Prop :=
  RuledRequests s op ∧ match op with
    | .client (.write m) => PlainEvent m
    | .server (.write m) => PlainEvent m
    | .client (.connect ns _ _) => ∀ obj r, Obs.ret (.connect ns obj) r ∉ s.c.log
    | .server (.connect ns _ _) => ∀ obj r, Obs.ret (.connect ns obj) r ∉ s.d.log
    | _ => True

/-- what the client emits by this step: the message of a Write that put something into the socket -/
def emitsUp (s s' : Sess) : SessOp → List Message
  | .client (.write m) => if (pipe s.c.log).length < (pipe s'.c.log).length then [m] else []
  | _ => []

/-- what the server emits by this step -/
def emitsDown (s s' : Sess) : SessOp → List Message
  | .server (.write m) => if (pipe s.d.log).length < (pipe s'.d.log).length then [m] else []
  | _ => []

/-- the sessions in which every step keeps to this, with what the client and what the server have emitted -/
inductive EventRun (cc sc : Cfg) (id : Bytes) : List SessOp → Sess → List Message → List Message → Prop
  | init : EventRun cc sc id [] (newSess cc sc id) [] []
  | step {ops : List SessOp} {s s' : Sess} {op : SessOp} {U D : List Message} : EventRun cc sc id ops s U D →
      EventRequests s op → sstep cc sc s op = some s' →
      EventRun cc sc id (ops ++ [op]) s' (U ++ emitsUp s s' op) (D ++ emitsDown s s' op)

/-- All that the other side has emitted has, in this order, been heard here, is held by the reader, or is on the way;
nothing else has, and nothing twice. -/
def AllThere (reader : Cfg) (s : St) (onTheWay : List (MsgType × Bytes)) (emitted : List Message) : Prop :=
  heard s.log ++ held s ++ onTheWay.filterMap (eventIn reader) = emitted.map arrives

end Neffos.Spec
