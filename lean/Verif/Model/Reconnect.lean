import Verif.Model.Upgrade
/-!
# ReconnectTries of a connection (server.go:265-266, 307, 333-336, conn.go:56-58, 273-275)

`strconv.Atoi` is written from the Go standard library, for an `int` of 64 bits.
-/
namespace Neffos

/-- the errors of strconv -/
inductive NumErr where
  | syntax
  | range
  deriving DecidableEq

/-- is it an ASCII digit -/
def isDigitByte (c : UInt8) : Bool := 48 ≤ c && c ≤ 57

/-- the loop of `strconv.ParseUint` in base 10, 64 bits: `n` was read so far. The digit is checked
first, then whether `n*10 + d` exceeds the range. -/
def parseUintGo : Nat → Bytes → Nat × Option NumErr
  | n, [] => (n, none)
  | n, c :: t =>
    if !isDigitByte c then (0, some .syntax)
    else if n ≥ (2 ^ 64 - 1) / 10 + 1 then (2 ^ 64 - 1, some .range)
    else if n * 10 + (c.toNat - 48) > 2 ^ 64 - 1 then (2 ^ 64 - 1, some .range)
    else parseUintGo (n * 10 + (c.toNat - 48)) t

/-- `strconv.ParseUint(s, 10, 64)` -/
def parseUint (s : Bytes) : Nat × Option NumErr :=
  if s = [] then (0, some .syntax) else parseUintGo 0 s

/-- the part of `strconv.ParseInt(s, 10, 64)` after the sign -/
def parseIntAbs (neg : Bool) (s : Bytes) : Int × Option NumErr :=
  let r := parseUint s
  if r.2 = some .syntax then (0, r.2)
  else if !neg && r.1 ≥ 2 ^ 63 then (2 ^ 63 - 1, some .range)
  else if neg && r.1 > 2 ^ 63 then (-2 ^ 63, some .range)
  else (if neg then -(r.1 : Int) else r.1, none)

/-- `strconv.ParseInt(s, 10, 64)` -/
def parseInt : Bytes → Int × Option NumErr
  | [] => (0, some .syntax)
  | c :: t =>
    if c = 43 then parseIntAbs false t
    else if c = 45 then parseIntAbs true t
    else parseIntAbs false (c :: t)

/-- the loop of the fast path of `strconv.Atoi`; none is its syntax error -/
def atoiGo : Int → Bytes → Option Int
  | n, [] => some n
  | n, c :: t => if c - 48 > 9 then none else atoiGo (n * 10 + (c - 48).toNat) t

/-- the fast path of `strconv.Atoi`, for less than 19 bytes -/
def atoiFast : Bytes → Int × Option NumErr
  | [] => (0, some .syntax)
  | c :: t =>
    let u := if c = 45 ∨ c = 43 then t else c :: t
    if u = [] then (0, some .syntax)
    else match atoiGo 0 u with
      | none => (0, some .syntax)
      | some n => (if c = 45 then -n else n, none)

/-- `strconv.Atoi` -/
def atoi (s : Bytes) : Int × Option NumErr :=
  if 0 < s.length ∧ s.length < 19 then atoiFast s else parseInt s

/-- server.go:266 `websocketReconectHeaderKey` -/
def reconnectKey : Bytes := b! "X-Websocket-Reconnect"

/-- `Header.Get` (Go standard library): the first value, or the empty text -/
def Header.get (h : Header) (k : Bytes) : Bytes := ((h (canonicalKey k)).head?).getD []

/-- server.go:333-336 with the header as `tryParseURLParamsToHeaders` left it (server.go:307): the error of
`Atoi` is dropped, its value is not -/
def reconnectTries (h : Header) (q : List (Bytes × List Bytes)) : Int :=
  let v := (parseParams h q).get reconnectKey
  if v ≠ [] then (atoi v).1 else 0

/-- conn.go:273-275 `WasReconnected` -/
def wasReconnected (tries : Int) : Bool := tries > 0

end Neffos
