import Verif.Model.Errors
/-!
# Setting up: the two stack exchanges and the debug printer

`stackexchange/nats/stackexchange_nats.go`, `stackexchange/redis/stackexchange_redis.go` (the constructors) and
`debug.go`. The client libraries of nats and redis are oracles: what they are called with is modelled, what they answer
is an argument.
-/
set_option autoImplicit false
namespace Neffos

/-! ## nats -/

/-- `strings.Split(s, sep)` with a separator of one byte (Go standard library, called at
stackexchange_nats.go:127). -/
def splitAll (sep : UInt8) : Bytes → List Bytes
  | [] => [[]]
  | c :: t =>
    if c = sep then [] :: splitAll sep t
    else
      match splitAll sep t with
      | [] => [[c]]
      | f :: fs => (c :: f) :: fs

/-- The white space that `strings.TrimSpace` removes. Simplified: ASCII only; the few other white space characters of
Unicode (U+0085, U+00A0 and so on) are taken for ordinary bytes. -/
def isSpaceByte (c : UInt8) : Bool := c == 9 || c == 10 || c == 11 || c == 12 || c == 13 || c == 32

/-- `strings.TrimSpace` (Go standard library, called at stackexchange_nats.go:129). -/
def trimSpace (s : Bytes) : Bytes := ((s.dropWhile isSpaceByte).reverse.dropWhile isSpaceByte).reverse

/-- `nats.Options` (type of the library): the three fields the constructor touches, and all others as one value. -/
structure NatsOpts where
  url : Bytes
  servers : List Bytes
  noEcho : Bool
  others : Nat
deriving DecidableEq, Repr

/-- `nats.Option`: changes the options, may fail (the change up to the failure is made in place, and then dropped by the
constructor). -/
abbrev NatsOption := NatsOpts → NatsOpts × Option GoErr

/-- `With` (stackexchange_nats.go:68-73). -/
def withOptions (o : NatsOpts) : NatsOption := fun _ => (o, none)

/-- The loop over the options (stackexchange_nats.go:117-124); `none` is a nil option. -/
def applyOptions (o : NatsOpts) : List (Option NatsOption) → Except GoErr NatsOpts
  | [] => .ok o
  | none :: rest => applyOptions o rest
  | some f :: rest =>
    match f o with
    | (_, some e) => .error e
    | (o', none) => applyOptions o' rest

/-- `nats.DefaultURL` of the library (nats://127.0.0.1:4222). -/
def natsDefaultURL : Bytes := b! "nats://127.0.0.1:4222"

/-- What the constructor did: the options it called `Connect` with, if it came so far, and what it returned: the options
the exchange keeps for its later connections, or an error. -/
structure NatsMade where
  tried : Option NatsOpts
  result : Except GoErr NatsOpts

/-- `NewStackExchange` (stackexchange_nats.go:86-155). `dflt` is `nats.GetDefaultOptions()`, `connect` is what
`opts.Connect()` answers. The channels, the map and the goroutine `run` are in `Model/PubSub.lean`. -/
def natsNew (dflt : NatsOpts) (connect : NatsOpts → Option GoErr) (url : Bytes)
    (options : List (Option NatsOption)) : NatsMade :=
  let start := { dflt with url := if url = [] then natsDefaultURL else url, noEcho := true }
  match applyOptions start options with
  | .error e => { tried := none, result := .error e }
  | .ok o =>
    let servers := (splitAll 44 o.url).map trimSpace
    let o' := { o with servers := o.servers ++ servers }
    match connect o' with
    | some e => { tried := some o', result := .error e }
    | none => { tried := some o', result := .ok o' }

/-! ## redis -/

/-- `Config` (stackexchange_redis.go:15-33); the timeout is in nanoseconds. -/
structure RedisCfg where
  network : Bytes
  addr : Bytes
  clusters : List Bytes
  password : Bytes
  dialTimeout : Int
  maxActive : Int
deriving DecidableEq, Repr

/-- The options of a dial that the constructor builds (stackexchange_redis.go:93-101). -/
inductive RedisDialOpt where
  | auth (password : Bytes)
  | timeout (ns : Int)
deriving DecidableEq, Repr

/-- The defaults (stackexchange_redis.go:77-91). -/
def redisDefaults (c : RedisCfg) : RedisCfg :=
  { c with
    network := if c.network = [] then b! "tcp" else c.network
    addr := if c.addr = [] ∧ c.clusters.length = 0 then b! "127.0.0.1:6379" else c.addr
    dialTimeout := if c.dialTimeout < 0 then 30000000000 else c.dialTimeout
    maxActive := if c.maxActive = 0 then 10 else c.maxActive }

/-- stackexchange_redis.go:93-101 -/
def redisDialOpts (c : RedisCfg) : List RedisDialOpt :=
  (if c.password ≠ [] then [.auth c.password] else []) ++ (if c.dialTimeout > 0 then [.timeout c.dialTimeout] else [])

/-- One call of a function of the library. -/
inductive RedisCall where
  /-- `radix.NewCluster(addrs)`: no dial option goes with it -/
  | newCluster (addrs : List Bytes)
  /-- `radix.NewPool("", "", size, …)` -/
  | newPool (size : Int)
  /-- `radix.Dial(network, addr, opts...)` -/
  | dial (network addr : Bytes) (opts : List RedisDialOpt)
deriving DecidableEq, Repr

/-- `connFunc` (stackexchange_redis.go:103-122): `topo` is the topology the cluster reports at this call, `pick n` the
result of `rand.Intn(n)`. `none` is a panic: `rand.Intn(0)`, or an index out of range. -/
def redisConn (c : RedisCfg) (topo : List Bytes) (pick : Nat → Nat) : Option RedisCall :=
  let c := redisDefaults c
  if c.clusters.length > 0 then
    if topo.length = 0 then none
    else (topo[pick topo.length]?).map fun node => .dial c.network node (redisDialOpts c)
  else some (.dial c.network c.addr (redisDialOpts c))

/-- `NewStackExchange` (stackexchange_redis.go:76-149): the calls of the constructor itself, in order, and the error it
returns. `cluster` and `pool` are what the two constructors of the library answer; the pool calls `connFunc` as it
likes, which is `redisConn`. -/
def redisNew (c : RedisCfg) (cluster : List Bytes → Option GoErr) (pool : Int → Option GoErr) :
    List RedisCall × Option GoErr :=
  let c := redisDefaults c
  if c.clusters.length > 0 then
    match cluster c.clusters with
    | some e => ([.newCluster c.clusters], some e)
    | none => ([.newCluster c.clusters, .newPool c.maxActive], pool c.maxActive)
  else ([.newPool c.maxActive], pool c.maxActive)

/-! ## debug.go -/

/-- A value given to `EnableDebug` (debug.go:28), other than nil: a bool, or something with some of the three methods.
`id` tells printers apart. -/
inductive Printer where
  | boolean (b : Bool)
  | value (id : Nat) (debugf logf printf : Bool)
deriving DecidableEq, Repr

/-- the `log.Logger` that `EnableDebug` makes itself (debug.go:39): it has `Printf` only -/
def ownLogger : Printer := .value 0 false false true

/-- The three methods (debug.go:47-57). -/
inductive PrintMethod where
  | debugf | logf | printf
deriving DecidableEq, Repr

/-- The last argument list of `Debugf` (debug.go:65): one argument that is a `func() dargs`, or anything else. -/
inductive DebugArgs where
  | lazily (f : Nat)
  | plain (args : List Nat)
deriving DecidableEq, Repr

/-- What a call does that can be seen. `evaluated f` is the call of the function of the caller (debug.go:76), `result f`
stands for what it returned. -/
inductive DebugObs where
  /-- "debug mode is set" on the logger of its own (debug.go:41) -/
  | announced
  | evaluated (f : Nat)
  | printed (p : Printer) (m : PrintMethod) (fmt : Bytes) (args : DebugArgs)
  /-- the visitor was called for this entry of the map -/
  | visited (entry : Nat)
  | panicked
deriving DecidableEq, Repr

/-- The switch over the type of the printer (debug.go:80-89). -/
def printMethod : Printer → Option PrintMethod
  | .boolean _ => none
  | .value _ true _ _ => some .debugf
  | .value _ false true _ => some .logf
  | .value _ false false true => some .printf
  | .value _ false false false => none

/-- `Debugf` (debug.go:65-90); `dp` is the global `debugPrinter`. -/
def debugf (dp : Option Printer) (fmt : Bytes) (args : DebugArgs) : List DebugObs :=
  match dp with
  | none => []
  | some p =>
    (match args with
      | .lazily f => [.evaluated f]
      | .plain _ => []) ++
    match printMethod p with
    | some m => [.printed p m fmt args]
    | none => [.panicked]

/-- `EnableDebug` (debug.go:28-45): the new value of the global and what could be seen. -/
def enableDebug (dp : Option Printer) (printer : Option Printer) : Option Printer × List DebugObs :=
  match dp with
  | some p => (some p, debugf (some p) (b! "debug mode is already set") (.plain []))
  | none =>
    match printer with
    | some (.value i d l f) => (some (.value i d l f), [])
    | _ => (some ownLogger, [.announced])

/-- The visitor given to `DebugEach` (debug.go:103): nil, a function with this number of inputs, or another value. -/
inductive Visitor where
  | nil
  | func (numIn : Nat)
  | other
deriving DecidableEq, Repr

/-- The collection given to `DebugEach`: a map with these entries in the order of the range, or another kind. -/
inductive Collection where
  | map (entries : List Nat)
  | other
deriving DecidableEq, Repr

/-- The loop over the map (debug.go:121-133). A visitor without an input makes `in[0]` panic, one with more than two is
called with a zero `reflect.Value`, which panics; the panic ends the loop. -/
def visitAll (numIn : Nat) : List Nat → List DebugObs
  | [] => []
  | e :: rest => if numIn = 1 ∨ numIn = 2 then .visited e :: visitAll numIn rest else [.panicked]

/-- `DebugEach` (debug.go:103-137). The types of the two inputs are taken to fit. -/
def debugEach (dp : Option Printer) (coll : Collection) (v : Visitor) : List DebugObs :=
  match dp, v, coll with
  | some _, .func n, .map entries => visitAll n entries
  | _, _, _ => []

/-- A call of one of the three functions. -/
inductive DebugCall where
  | enable (p : Option Printer)
  | debugf (fmt : Bytes) (args : DebugArgs)
  | each (coll : Collection) (v : Visitor)
deriving DecidableEq, Repr

/-- One call: the global after it and what could be seen. -/
def debugCall (dp : Option Printer) : DebugCall → Option Printer × List DebugObs
  | .enable p => enableDebug dp p
  | .debugf fmt args => (dp, debugf dp fmt args)
  | .each coll v => (dp, debugEach dp coll v)

/-- Calls one after the other, each in a goroutine that recovers from a panic: the global at the end and, for every
call, what could be seen. -/
def debugCalls (dp : Option Printer) : List DebugCall → Option Printer × List (List DebugObs)
  | [] => (dp, [])
  | c :: rest =>
    let (dp', o) := debugCall dp c
    let (dp'', os) := debugCalls dp' rest
    (dp'', o :: os)

end Neffos
