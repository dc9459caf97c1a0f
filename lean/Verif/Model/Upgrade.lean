import Verif.Model.Message
/-!
# The HTTP side of a connection (server.go:218-404)

Simplifications: a header map is a function from names to the list of values, so that a missing
name and a name without values are the same, and so are the nil and the empty map. The values
of the query are given as Go's `url.Query` returns them. The fields `readTimeout`,
`writeTimeout` and `ReconnectTries` of the connection are left out here (see Model/Timeouts and
Model/Reconnect).
-/
namespace Neffos

/-! ## URL parameters -/

/-- server.go:227 `URLParamAsHeaderPrefix` -/
def urlPrefix : Bytes := b! "X-Websocket-Header-"

/-- `validHeaderFieldByte` (Go standard library net/textproto): the token characters -/
def validHeaderByte (c : UInt8) : Bool :=
  (48 ≤ c && c ≤ 57) || (65 ≤ c && c ≤ 90) || (97 ≤ c && c ≤ 122) ||
  (b! "!#$%&'*+-.^_`|~").contains c

/-- one letter of a canonical name, upper case at the start and after a dash -/
def canonByte (upper : Bool) (c : UInt8) : UInt8 :=
  if upper && (97 ≤ c && c ≤ 122) then c - 32
  else if !upper && (65 ≤ c && c ≤ 90) then c + 32
  else c

/-- the loop of `canonicalMIMEHeaderKey` (Go standard library net/textproto) -/
def canonGo : Bool → Bytes → Bytes
  | _, [] => []
  | upper, c :: t => canonByte upper c :: canonGo (canonByte upper c = 45) t

/-- `http.CanonicalHeaderKey` (Go standard library), server.go:236: names with other bytes than
token characters are left as they are -/
def canonicalKey (k : Bytes) : Bytes :=
  if k.all validHeaderByte then canonGo true k else k

/-- the request's header map -/
abbrev Header := Bytes → List Bytes

/-- `Header.Add` (Go standard library), server.go:250 -/
def Header.add (h : Header) (k v : Bytes) : Header :=
  fun k' => if k' = canonicalKey k then h k' ++ [v] else h k'

/-- server.go:231-252 one parameter -/
def parseParam (h : Header) (p : Bytes × List Bytes) : Header :=
  if p.1.length ≤ urlPrefix.length then h
  else
    let k := canonicalKey p.1
    if urlPrefix.isPrefixOf k then
      p.2.foldl (fun h v => h.add (k.drop urlPrefix.length) v) h
    else h

/-- server.go:229-253 `tryParseURLParamsToHeaders`; the parameters in the order in which the
map is ranged over -/
def parseParams (h : Header) (q : List (Bytes × List Bytes)) : Header :=
  q.foldl parseParam h

/-! ## Upgrade -/

/-- server.go:219 -/
def errServerClosed : GoErr := .sentinel 10 (b! "server closed")
/-- server.go:220 -/
def errInvalidMethod : GoErr := .sentinel 11 (b! "no valid request method")
/-- server.go:255 -/
def errUpgradeOnRetry : GoErr := .sentinel 12 (b! "check status")

/-- server.go:261-263 `IsTryingToReconnect` -/
def isTryingToReconnect (e : Option GoErr) : Bool := e = some errUpgradeOnRetry

/-- what Upgrade does, in order -/
inductive UpEff where
  /-- a response header -/
  | header (k v : Bytes)
  /-- the response status -/
  | status (code : Nat)
  /-- text of the response -/
  | body (b : Bytes)
  /-- server.go:307 the URL parameters become headers -/
  | params
  /-- server.go:309 -/
  | upgrader
  /-- server.go:312 -/
  | onUpgradeError (e : GoErr)
  /-- server.go:318 -/
  | wrapSocket
  /-- server.go:321-327 a connection with this ID -/
  | newConn (id : Bytes)
  /-- server.go:338-343 the goroutine waiting for broadcasts -/
  | waitBroadcasts
  /-- server.go:345 -/
  | register
  /-- server.go:347 -/
  | startReader
  /-- server.go:352 -/
  | exchangeOnConnect
  /-- server.go:377 -/
  | onConnect
  /-- server.go:353, 386, 395 `c.readiness.unwait` -/
  | ready (e : Option GoErr)
  deriving DecidableEq

/-- what Upgrade depends on -/
structure UpEnv where
  /-- server.go:285 -/
  closed : Bool
  method : Bytes
  /-- the error of the upgrader -/
  upgrader : Option GoErr
  hasOnUpgradeError : Bool
  hasWrapper : Bool
  /-- what the custom ID generator returns, if one is given -/
  customID : Option Bytes
  /-- what the server's ID generator returns -/
  serverID : Bytes
  syncBroadcaster : Bool
  /-- the error of the exchange's OnConnect, if an exchange is used -/
  exchange : Option (Option GoErr)
  /-- the error of the server's OnConnect, if it is set -/
  onConnect : Option (Option GoErr)

/-- server.go:376-397 from the server's OnConnect on -/
def upgradeEnd (e : UpEnv) (eff : List UpEff) : List UpEff × (Bytes ⊕ GoErr) :=
  let id := e.customID.getD e.serverID
  match e.onConnect with
  | none => (eff ++ [.ready none], .inl id)
  | some none => (eff ++ [.onConnect, .ready none], .inl id)
  | some (some err) => (eff ++ [.onConnect, .ready (some err)], .inr err)

/-- server.go:317-398 after the upgrader succeeded -/
def upgradeConn (e : UpEnv) (eff : List UpEff) : List UpEff × (Bytes ⊕ GoErr) :=
  let eff := if e.hasWrapper then eff ++ [.wrapSocket] else eff
  let eff := eff ++ [.newConn (match e.customID with
    | some id => id
    | none => e.serverID)]
  let eff := if e.exchange.isNone && !e.syncBroadcaster then eff ++ [.waitBroadcasts] else eff
  let eff := eff ++ [.register, .startReader]
  match e.exchange with
  | none => upgradeEnd e eff
  | some none => upgradeEnd e (eff ++ [.exchangeOnConnect])
  | some (some err) => (eff ++ [.exchangeOnConnect, .ready (some err)], .inr err)

/-- server.go:279-398 `Upgrade`: what it does and the ID of the returned connection or the error -/
def upgrade (e : UpEnv) : List UpEff × (Bytes ⊕ GoErr) :=
  if e.closed then
    -- http.Error, Go standard library
    ([.header (b! "Content-Type") (b! "text/plain; charset=utf-8"),
      .header (b! "X-Content-Type-Options") (b! "nosniff"),
      .status 500, .body (b! "Internal Server Error\n")], .inr errServerClosed)
  else if e.method = b! "HEAD" then
    ([.status 302], .inr errUpgradeOnRetry)
  else if e.method ≠ b! "GET" then
    ([.header (b! "Allow") (b! "GET"), .header (b! "X-Content-Type-Options") (b! "nosniff"),
      .status 405, .body (b! "Method Not Allowed\n")], .inr errInvalidMethod)
  else
    match e.upgrader with
    | some err =>
      ([.params, .upgrader] ++ (if e.hasOnUpgradeError then [.onUpgradeError err] else []), .inr err)
    | none => upgradeConn e [.params, .upgrader]

end Neffos
