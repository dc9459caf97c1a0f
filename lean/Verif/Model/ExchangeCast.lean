import Verif.Model.PubSub
import Verif.Model.Broadcast
/-!
# A broadcast through an exchange, seen from one connection (server.go:504-528, stackexchange/redis)

The payloads that the broker offers to a connection are written one after another: with redis by
the one goroutine of stackexchange_redis.go:203-211. With nats every subscription has its own
goroutine, so there the list of payloads is the order in which these call `Conn.Write`.
-/
namespace Neffos

/-- stackexchange_redis.go:203-211, stackexchange_nats.go:240-247 the payloads that the broker
offers to the connection, in the order of the offers -/
def psReceive (cfg : Cfg) (s : St) (payloads : List Bytes) : St :=
  payloads.foldl (fun s p => (psDeliver cfg s p).1) s

/-- stackexchange_redis.go:239-247 the channel and the payload of one message; none is a panic, either
of `getChannel` (line 191) or of `Serialize` (message.go:284) -/
def redisTarget (pre : Bytes) (m : Message) : Option Bytes :=
  match redisChannel pre m.ns m.room m.to with
  | none => none
  | some ch => if (serializeMessage m).isSome then some ch else none

/-- server.go:504-528 `Broadcast` of a server with a redis exchange, and what the connection `c` of
this or another server on the same redis does about it; none is a panic of the caller -/
def redisBroadcast (pre : Bytes) (fails : Nat → Bool) (r : Redis) (c : Nat) (ex : Except) (ms : List Message)
    (cfg : Cfg) (s : St) : Option St :=
  (psPublish (redisTarget pre) fails 0 (stamp ex ms)).map (fun p =>
    psReceive cfg s (p.1.flatMap (fun q => List.replicate (redisOffers r q.1 c) ((serializeMessage q.2).getD []))))

end Neffos
