import Verif.Model.Setup
/-!
# What the constructors of the exchanges and the debug printer are meant to do
-/
set_option autoImplicit false
namespace Neffos.Spec

/-- tab, line feed, vertical tab, form feed, carriage return, blank -/
def white : List UInt8 := [9, 10, 11, 12, 13, 32]

/-- `q` is `p` without the white space at its two ends. -/
def Trimmed (p q : Bytes) : Prop :=
  ∃ l r, p = l ++ q ++ r ∧ (∀ c ∈ l, c ∈ white) ∧ (∀ c ∈ r, c ∈ white) ∧
    (∀ c, q.head? = some c → c ∉ white) ∧ (∀ c, q.getLast? = some c → c ∉ white)

/-- piece by piece -/
inductive AllTrimmed : List Bytes → List Bytes → Prop
  | nil : AllTrimmed [] []
  | cons {p q : Bytes} {ps qs : List Bytes} : Trimmed p q → AllTrimmed ps qs → AllTrimmed (p :: ps) (q :: qs)

/-- `as` are the addresses that the text lists, separated by commas. -/
def Addresses (url : Bytes) (as : List Bytes) : Prop :=
  ∃ raw : List Bytes, raw ≠ [] ∧ url = List.intercalate [44] raw ∧ (∀ p ∈ raw, (44 : UInt8) ∉ p) ∧
    AllTrimmed raw as

/-- the options before those of the caller -/
def natsStart (dflt : NatsOpts) (url : Bytes) : NatsOpts where
  url := if url = [] then b! "nats://127.0.0.1:4222" else url
  servers := dflt.servers
  noEcho := true
  others := dflt.others

/-- Every option that is not nil succeeds, each on what the ones before it left; this is left at the end. -/
inductive Applied : NatsOpts → List (Option NatsOption) → NatsOpts → Prop
  | done (o) : Applied o [] o
  | skip (o o' rest) : Applied o rest o' → Applied o (none :: rest) o'
  | next (o o' o'' : NatsOpts) (f : NatsOption) (rest) : f o = (o', none) → Applied o' rest o'' →
      Applied o (some f :: rest) o''

/-- The first option that fails does so with this error. -/
def FailsWith (o : NatsOpts) (options : List (Option NatsOption)) (e : GoErr) : Prop :=
  ∃ before f rest o' o'', options = before ++ some f :: rest ∧ Applied o before o' ∧ f o' = (o'', some e)

/-- the options of a dial to redis, as the documentation of `Config` has them -/
def redisOptions (password : Bytes) (timeout : Int) : List RedisDialOpt :=
  (if password = [] then [] else [.auth password]) ++
    (if timeout = 0 then [] else if timeout < 0 then [.timeout (30 * 10 ^ 9)] else [.timeout timeout])

/-- the network of a dial to redis -/
def redisNetwork (c : RedisCfg) : Bytes := if c.network = [] then b! "tcp" else c.network

/-- the printer that debug mode uses after a first `EnableDebug` with this value; the one that it makes itself has `Printf`
only, and is number 0 -/
def chosen : Option Printer → Printer
  | some (.value i d l f) => .value i d l f
  | _ => .value 0 false false true

/-- the values of the calls of `EnableDebug` among some calls -/
def enables : List DebugCall → List (Option Printer)
  | [] => []
  | .enable p :: rest => p :: enables rest
  | _ :: rest => enables rest

/-- The printer has one of the three methods. -/
def CanPrint : Printer → Prop
  | .boolean _ => False
  | .value _ d l f => d = true ∨ l = true ∨ f = true

/-- the method used: `Debugf` rather than `Logf` rather than `Printf` -/
def PrintsBy : Printer → PrintMethod → Prop
  | .boolean _, _ => False
  | .value _ d _ _, .debugf => d = true
  | .value _ d l _, .logf => d = false ∧ l = true
  | .value _ d l f, .printf => d = false ∧ l = false ∧ f = true

end Neffos.Spec
