import Verif.Spec.Answer
/-!
Spec for C122: what the asked side decides about a request, and which decisions come back as an error.
-/
set_option autoImplicit false
namespace Neffos.Spec

/-- What the side that is asked makes of a request: nil, or the error with which it refuses. A repeated request and
a request to leave what was not entered are fine; a client cannot refuse to be thrown out. -/
def decision (cfg : Cfg) (s : St) (m : Message) : Option GoErr :=
  if m.event = OnNamespaceConnect then
    if s.namespace m.ns ≠ none then none
    else if mapGet cfg.decl m.ns = none then some errBadNamespace
    else connectVerdict cfg s m
  else
    match s.namespace m.ns with
    | none => none
    | some obj =>
      if m.event = OnRoomJoin then
        if m.room ∈ s.rooms obj then none else verdict cfg s obj m
      else if cfg.isClient = true then none
      else if m.event = OnRoomLeave then
        if m.room ∈ s.rooms obj then verdict cfg s obj m else none
      else verdict cfg s obj m

/-- The caller does not learn of the refusal: there is none, it is a `Reply`, or an error without a text. -/
def Swallowed : Option GoErr → Prop
  | none => True
  | some e => (∃ b, e = .reply b) ∨ e.errorText = []

/-- An Ask with number `i` of the connection waits for its answer. -/
structure Pending (cfg : Cfg) (s : St) (i : Nat) (a : AskRec) (now : Int) : Prop where
  acked : s.acked = true
  notNative : cfg.onlyNative = false
  ask : s.asks[i]? = some a
  empty : a.box = none
  token : a.tok = genWait cfg.isClient now
  waits : mapGet s.waiting a.tok = some i
  notServer : cfg.isClient = true ∨ a.tok ∉ s.srvWaiting

/-- One request over the wire: the Ask `i` of `c` is pending, the other side has handled the request with its token and
gone from `d` to `d'`, its answer `x` (C101) is read by `c`, and then the call goes on. Neither side closes. -/
structure Round (cc sc : Cfg) (idc ids : Bytes) (c : St) (i : Nat) (a : AskRec) (now : Int) (d d' : St) (req : Message)
    (x : Bool × Bytes) (typ : MsgType) (c1 c2 : St) : Prop where
  caller : Reach cc idc c
  pending : Pending cc c i a now
  asked : Reach sc ids d
  served : Served sc d req d'
  wanted : Wanted req
  token : req.wait = a.tok
  answer : answerTo sc d req = some x
  askedOpen : d'.closed = false
  read : step cc c (.recv typ x.2) = some c1
  goesOn : step cc c1 (.resume i) = some c2
  callerOpen : c2.closed = false

end Neffos.Spec
