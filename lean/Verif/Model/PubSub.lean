import Verif.Model.Conn
/-!
# The redis and nats exchanges (stackexchange/redis, stackexchange/nats)

The broker is modelled by its matching rule: a published channel is offered to a connection
once for every subscription of that connection that matches it. The loop `run` of an exchange
takes one action at a time, so a history is a list of actions in the order in which the loop
takes them. Connections are numbers; every connection is added at most once.

Simplifications: losing and re-establishing the connection to the broker is not modelled; names
with white space, which break the nats protocol, are outside of the nats model; the error the nats
server reports for a subject with a `>` before its end is not remembered; the message
channels are not modelled, so an offer is the handler's call of `Conn.Write`.
-/
namespace Neffos

/-- what the loop of an exchange is told: stackexchange_redis.go:151-180, stackexchange_nats.go:157-222 -/
inductive PsAct where
  /-- `OnConnect` of a connection with this ID, stackexchange_redis.go:201-225, stackexchange_nats.go:253-284 -/
  | add (c : Nat) (id : Bytes)
  /-- `Subscribe`, stackexchange_redis.go:286-291, stackexchange_nats.go:355-360 -/
  | subscribe (c : Nat) (ns : Bytes)
  /-- `Unsubscribe`, stackexchange_redis.go:295-300, stackexchange_nats.go:364-369 -/
  | unsubscribe (c : Nat) (ns : Bytes)
  /-- `OnDisconnect`, stackexchange_redis.go:308-310, stackexchange_nats.go:377-379 -/
  | del (c : Nat)
  deriving DecidableEq

/-! ## redis -/

/-- one element of a pattern of `PSUBSCRIBE` (redis manual) -/
inductive Glob where
  | star
  | one
  | cls (ok : UInt8 → Bool)
  | lit (c : UInt8)

/-- the bytes of a class up to its closing bracket, and what follows -/
def parseClass : Bytes → (UInt8 → Bool) × Bytes
  | [] => (fun _ => false, [])
  | 93 :: t => (fun _ => false, t)
  | 92 :: c :: t => let (f, r) := parseClass t; (fun x => x = c || f x, r)
  | a :: 45 :: b :: t =>
    let (f, r) := parseClass t
    (fun x => (min a b ≤ x && x ≤ max a b) || f x, r)
  | c :: t => let (f, r) := parseClass t; (fun x => x = c || f x, r)

/-- parse a pattern; the first argument bounds the number of elements -/
def parseGlob : Nat → Bytes → List Glob
  | 0, _ => []
  | _, [] => []
  | n + 1, 42 :: t => .star :: parseGlob n t
  | n + 1, 63 :: t => .one :: parseGlob n t
  | n + 1, 91 :: 94 :: t =>
    let (f, r) := parseClass t
    .cls (fun x => !f x) :: parseGlob n r
  | n + 1, 91 :: t => let (f, r) := parseClass t; .cls f :: parseGlob n r
  | n + 1, 92 :: c :: t => .lit c :: parseGlob n t
  | n + 1, c :: t => .lit c :: parseGlob n t

/-- the suffixes of a string, the string itself first -/
def suffixes : Bytes → List Bytes
  | [] => [[]]
  | c :: t => (c :: t) :: suffixes t

/-- does a string match -/
def matchGlob : List Glob → Bytes → Bool
  | [], s => s = []
  | .star :: g, s => (suffixes s).any (matchGlob g)
  | .one :: g, s =>
    match s with
    | [] => false
    | _ :: t => matchGlob g t
  | .cls f :: g, s =>
    match s with
    | [] => false
    | c :: t => f c && matchGlob g t
  | .lit d :: g, s =>
    match s with
    | [] => false
    | c :: t => c = d && matchGlob g t

/-- does the channel match the pattern -/
def globMatches (pattern channel : Bytes) : Bool :=
  matchGlob (parseGlob pattern.length pattern) channel

/-- stackexchange_redis.go:182-195 `getChannel`; none is the panic -/
def redisChannel (pre ns room connID : Bytes) : Option Bytes :=
  if connID ≠ [] then some (pre ++ b! "." ++ connID ++ b! ".")
  else if ns = [] ∧ room ≠ [] then none
  else some (pre ++ b! "." ++ ns ++ b! ".")

/-- the channel of a namespace, stackexchange_redis.go:159, 167 -/
def redisNs (pre ns : Bytes) : Bytes := pre ++ b! "." ++ ns ++ b! "."

/-- stackexchange_redis.go:42, 51-55 `subscribers`, each with the set of patterns of its pubsub connection -/
abbrev Redis := Nat → Option (List Bytes)

def Redis.set (r : Redis) (c : Nat) (v : Option (List Bytes)) : Redis :=
  fun c' => if c' = c then v else r c'

/-- stackexchange_redis.go:151-180, 213-222 one action -/
def redisStep (pre : Bytes) (r : Redis) : PsAct → Redis
  | .add c id => r.set c (some [(redisChannel pre [] [] id).getD []])
  | .subscribe c ns =>
    match r c with
    | some ps => r.set c (some (addRoom (redisNs pre ns) ps))
    | none => r
  | .unsubscribe c ns =>
    match r c with
    | some ps => r.set c (some (delRoom (redisNs pre ns) ps))
    | none => r
  | .del c => r.set c none

/-- how often a message published on this channel is offered to the connection: once for every
pattern that matches -/
def redisOffers (r : Redis) (channel : Bytes) (c : Nat) : Nat :=
  match r c with
  | some ps => (ps.filter (fun p => globMatches p channel)).length
  | none => 0

/-! ## nats -/

/-- `strings.Split(s, ".")` (Go standard library) -/
def splitDots : Bytes → List Bytes
  | [] => [[]]
  | c :: t =>
    if c = 46 then [] :: splitDots t
    else match splitDots t with
      | [] => [[c]]
      | f :: fs => (c :: f) :: fs

/-- the subjects that a subscription accepts (nats.go `badSubject`, nats-server sublist): no
empty token, `>` only at the end -/
def validSubject : List Bytes → Bool
  | [] => false
  | [t] => t ≠ []
  | t :: ts => t ≠ [] && t ≠ b! ">" && validSubject ts

/-- nats-server sublist: `*` stands for one token, a final `>` for one or more -/
def matchTokens : List Bytes → List Bytes → Bool
  | [], s => s = []
  | [p], s =>
    if p = b! ">" then s ≠ []
    else match s with
      | [t] => p = b! "*" || p = t
      | _ => false
  | p :: ps, s =>
    match s with
    | t :: ts => (p = b! "*" || p = t) && matchTokens ps ts
    | [] => false

def subjectMatches (pattern subject : Bytes) : Bool :=
  matchTokens (splitDots pattern) (splitDots subject)

/-- stackexchange_nats.go:225-238 `getSubject`; none is the panic -/
def natsSubject (pre ns room connID : Bytes) : Option Bytes :=
  if connID ≠ [] then some (pre ++ b! "." ++ connID)
  else if ns = [] ∧ room ≠ [] then none
  else some (pre ++ b! "." ++ ns)

/-- stackexchange_nats.go:171, 198 the subject of a namespace -/
def natsNs (pre ns : Bytes) : Bytes := pre ++ b! "." ++ ns

/-- stackexchange_nats.go:36-45 `subscriber`: its active subscriptions, numbered, the map `subscriptions`, and the
next number -/
structure NatsSub where
  active : List (Nat × Bytes)
  subscriptions : List (Bytes × Nat)
  next : Nat

/-- stackexchange_nats.go:25 `subscribers` -/
abbrev Nats := Nat → Option NatsSub

def Nats.set (r : Nats) (c : Nat) (v : Option NatsSub) : Nats :=
  fun c' => if c' = c then v else r c'

/-- stackexchange_nats.go:157-222, 253-284 one action. An invalid subject is refused: OnConnect returns the error
and the connection is not added, Subscribe does nothing. -/
def natsStep (pre : Bytes) (r : Nats) : PsAct → Nats
  | .add c id =>
    let subject := (natsSubject pre [] [] id).getD []
    if validSubject (splitDots subject) then r.set c (some ⟨[(0, subject)], [], 1⟩) else r
  | .subscribe c ns =>
    match r c with
    | some s =>
      let subject := natsNs pre ns
      if validSubject (splitDots subject) then
        r.set c (some ⟨s.active ++ [(s.next, subject)], mapSet s.subscriptions subject s.next, s.next + 1⟩)
      else r
    | none => r
  | .unsubscribe c ns =>
    match r c with
    | some s =>
      match mapGet s.subscriptions (natsNs pre ns) with
      | some i => r.set c (some { s with active := s.active.filter (fun a => a.1 ≠ i) })
      | none => r
    | none => r
  | .del c => r.set c none

/-- how often a message published on this subject is offered to the connection -/
def natsOffers (r : Nats) (subject : Bytes) (c : Nat) : Nat :=
  match r c with
  | some s => (s.active.filter (fun a => subjectMatches a.2 subject)).length
  | none => 0

/-! ## Both -/

/-- stackexchange_redis.go:229-251, stackexchange_nats.go:288-306 `Publish`: the channels published to;
`fails` is the broker's error for a channel; none is the panic -/
def psPublish (channel : Message → Option Bytes) (fails : Nat → Bool) :
    Nat → List Message → Option (List (Bytes × Message) × Bool)
  | _, [] => some ([], true)
  | n, m :: ms =>
    match channel m with
    | none => none
    | some ch =>
      if fails n then some ([], false)
      else (psPublish channel fails (n + 1) ms).map (fun r => ((ch, m) :: r.1, r.2))

/-- stackexchange_redis.go:203-211, stackexchange_nats.go:240-247 a message from the broker is written
to the connection -/
def psDeliver (cfg : Cfg) (s : St) (payload : Bytes) : St × Bool :=
  write cfg s { deserializeMessage cfg.known .text payload cfg.allowNative cfg.onlyNative with
    fromStackExchange := true }

end Neffos
