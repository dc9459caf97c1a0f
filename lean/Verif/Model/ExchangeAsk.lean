import Verif.Model.PubSub
/-!
# Asks through the redis and nats exchanges

`Server.Ask` of a server with an exchange publishes the request and waits on a channel of the broker
that has the name of the token; a server connection that reads an answer publishes it there.

The broker is what it publishes, in its order, and the moment it knows the subscription. Simplifications:
losing the connection to the broker is not modelled, and neither is what happens to further answers
after the first.
-/
namespace Neffos

/-- server.go:553-558 the request that `Server.Ask` gives to the exchange -/
def exchangeRequest (msg : Message) (now : Int) : Message :=
  { msg with wait := genWaitStackExchange (genWait false now) }

/-- what an Ask of an exchange is at: its token, whether the broker knows the subscription, and what
it returned -/
structure ExAsk where
  token : Bytes
  live : Bool
  result : Option (Message × Option GoErr) := none

/-- what happens while it runs -/
inductive ExEv where
  /-- the broker takes the subscription to the token -/
  | subscribed
  /-- the broker gets a message for a channel -/
  | published (channel payload : Bytes)
  /-- `ctx.Done()` with the error of the context -/
  | ctxDone (e : GoErr)

/-- stackexchange_redis.go:254-265, stackexchange_nats.go:309-332 the start: the Ask and what it
publishes. `subErr` is the error of the
connection or subscription, `pubOk` the result of `publish`. redis waits until the broker knows the
subscription (`Subscribe` of radix returns after the confirmation), nats does not (there is no `Flush`). none is the
panic of the channel name or of `Serialize`. -/
def exAskStart (redis : Bool) (channel : Message → Option Bytes) (msg : Message) (token : Bytes)
    (subErr : Option GoErr) (pubOk : Bool) : Option (ExAsk × List (Bytes × Bytes)) :=
  match subErr with
  | some e => some (⟨token, false, some ({}, some e)⟩, [])
  | none =>
    match channel msg, serializeMessage msg with
    | some ch, some p =>
      if pubOk then some (⟨token, redis, none⟩, [(ch, p)])
      else some (⟨token, redis, some ({}, some errWrite)⟩, [])
    | _, _ => none

/-- stackexchange_redis.go:267-275, stackexchange_nats.go:318-321, 334-339 the select -/
def exAskStep (known : List KnownErr) (a : ExAsk) : ExEv → ExAsk
  | .subscribed => { a with live := true }
  | .published ch p =>
    if a.live = true ∧ ch = a.token ∧ a.result.isNone = true then
      let r := deserializeMessage known .text p false false
      { a with result := some (r, r.err) }
    else a
  | .ctxDone e => if a.result.isNone = true then { a with result := some ({}, some e) } else a

def exAskRun (known : List KnownErr) (a : ExAsk) (evs : List ExEv) : ExAsk := evs.foldl (exAskStep known) a

/-- what an Ask of a redis or nats exchange depends on: which of them it is, its channel names, the errors of the
start and what happens while it runs -/
structure ShipEnv where
  redis : Bool
  channel : Message → Option Bytes
  subErr : Option GoErr
  pubOk : Bool
  evs : List ExEv

/-- stackexchange_redis.go:254-276, stackexchange_nats.go:309-340 an Ask from its start on: what it returned, if it
has, and what it published. none is a panic. -/
def shipAsk (known : List KnownErr) (env : ShipEnv) (token : Bytes) (msg : Message) :
    Option (Option (Message × Option GoErr) × List (Bytes × Bytes)) :=
  (exAskStart env.redis env.channel msg token env.subErr env.pubOk).map
    (fun x => ((exAskRun known x.1 env.evs).result, x.2))

/-- stackexchange_redis.go:279-282, stackexchange_nats.go:343-351 `NotifyAsk`: the payload published on
the channel of the token; none is the panic of `Serialize` -/
def notifyPayload (msg : Message) : Option Bytes := serializeMessage msg.clearWait.1

end Neffos
