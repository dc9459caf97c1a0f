import Verif.Model.Message
/-!
# Combined StackExchanges (stackexchange.go, server.go:143-165)

The registered exchanges are numbered. What each of them returns is an oracle that may depend
on all the calls made so far. Connections are numbers.
-/
namespace Neffos

/-- a call of a method of one exchange, stackexchange.go:15-42 -/
inductive ExCall where
  | onConnect (c : Nat)
  | onDisconnect (c : Nat)
  | publish (msgs : List Message)
  | subscribe (c : Nat) (ns : Bytes)
  | unsubscribe (c : Nat) (ns : Bytes)
  | ask (msg : Message) (token : Bytes)
  | notifyAsk (msg : Message) (token : Bytes)

/-- the calls made so far, with the exchange that was called -/
abbrev ExLog := List (Nat × ExCall)

/-- what the exchanges return -/
structure ExOracle where
  /-- `Init`, server.go:148-150; nil also if the exchange has no such method, stackexchange.go:54-62 -/
  init : Nat → Option GoErr
  onConnect : ExLog → Nat → Option GoErr
  publish : ExLog → Nat → Bool
  ask : ExLog → Nat → Message → Message × Option GoErr
  notifyAsk : ExLog → Nat → Option GoErr

/-- stackexchange.go:65-76 a registered exchange or a `stackExchangeWrapper` -/
inductive Exch where
  | base (i : Nat)
  | wrap (parent current : Exch)

/-- stackexchange.go:78-87 -/
def Exch.onConnect (o : ExOracle) (c : Nat) : Exch → ExLog → Option GoErr × ExLog
  | .base i, l => (o.onConnect l i, l ++ [(i, .onConnect c)])
  | .wrap parent current, l =>
    match parent.onConnect o c l with
    | (some e, l) => (some e, l)
    | (none, l) => current.onConnect o c l

/-- stackexchange.go:89-92 -/
def Exch.onDisconnect (c : Nat) : Exch → ExLog → ExLog
  | .base i, l => l ++ [(i, .onDisconnect c)]
  | .wrap parent current, l => current.onDisconnect c (parent.onDisconnect c l)

/-- stackexchange.go:94-100 -/
def Exch.publish (o : ExOracle) (msgs : List Message) : Exch → ExLog → Bool × ExLog
  | .base i, l => (o.publish l i, l ++ [(i, .publish msgs)])
  | .wrap parent current, l =>
    let (okParent, l) := parent.publish o msgs l
    let (okCurrent, l) := current.publish o msgs l
    (okParent && okCurrent, l)

/-- stackexchange.go:102-110 -/
def Exch.ask (o : ExOracle) (token : Bytes) :
    Exch → Message → ExLog → (Message × Option GoErr) × ExLog
  | .base i, msg, l => (o.ask l i msg, l ++ [(i, .ask msg token)])
  | .wrap parent current, msg, l =>
    match parent.ask o token msg l with
    | ((msg, some _), l) => current.ask o token msg l
    | ((msg, none), l) => ((msg, none), l)

/-- stackexchange.go:112-119 -/
def Exch.notifyAsk (o : ExOracle) (msg : Message) (token : Bytes) :
    Exch → ExLog → Option GoErr × ExLog
  | .base i, l => (o.notifyAsk l i, l ++ [(i, .notifyAsk msg token)])
  | .wrap parent current, l =>
    match parent.notifyAsk o msg token l with
    | (some _, l) => current.notifyAsk o msg token l
    | (none, l) => (none, l)

/-- stackexchange.go:121-124 -/
def Exch.subscribe (c : Nat) (ns : Bytes) : Exch → ExLog → ExLog
  | .base i, l => l ++ [(i, .subscribe c ns)]
  | .wrap parent current, l => current.subscribe c ns (parent.subscribe c ns l)

/-- stackexchange.go:126-129 -/
def Exch.unsubscribe (c : Nat) (ns : Bytes) : Exch → ExLog → ExLog
  | .base i, l => l ++ [(i, .unsubscribe c ns)]
  | .wrap parent current, l => current.unsubscribe c ns (parent.unsubscribe c ns l)

/-- server.go:143-159 `UseStackExchange`; `none` is the nil exchange -/
def useStackExchange (o : ExOracle) (s : Option Exch) (exc : Option Nat) :
    Option Exch × Option GoErr :=
  match exc with
  | none => (s, none)
  | some i =>
    match o.init i with
    | some e => (s, some e)
    | none =>
      match s with
      | some old => (some (.wrap old (.base i)), none)
      | none => (some (.base i), none)

end Neffos
