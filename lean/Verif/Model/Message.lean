import Verif.Model.Errors
/-!
# Messages and their wire format (message.go, event.go:17-58, server.go:268-274)
-/
namespace Neffos

/-! ## Event names, event.go:21-44 -/

/-- event.go:21 -/
def OnNamespaceConnect : Bytes := b! "_OnNamespaceConnect"
/-- event.go:24 -/
def OnNamespaceConnected : Bytes := b! "_OnNamespaceConnected"
/-- event.go:29 -/
def OnNamespaceDisconnect : Bytes := b! "_OnNamespaceDisconnect"
/-- event.go:31 -/
def OnRoomJoin : Bytes := b! "_OnRoomJoin"
/-- event.go:33 -/
def OnRoomJoined : Bytes := b! "_OnRoomJoined"
/-- event.go:35 -/
def OnRoomLeave : Bytes := b! "_OnRoomLeave"
/-- event.go:37 -/
def OnRoomLeft : Bytes := b! "_OnRoomLeft"
/-- event.go:39 -/
def OnAnyEvent : Bytes := b! "_OnAnyEvent"
/-- event.go:44 -/
def OnNativeMessage : Bytes := b! "_OnNativeMessage"

/-- event.go:50-58 `IsSystemEvent` -/
def isSystemEvent (event : Bytes) : Bool :=
  event = OnNamespaceConnect || event = OnNamespaceConnected ||
  event = OnNamespaceDisconnect || event = OnRoomJoin || event = OnRoomJoined ||
  event = OnRoomLeave || event = OnRoomLeft

/-- conn.go:30-37 `MessageType`, `TextMessage = 1`, `BinaryMessage = 2` -/
inductive MsgType where
  | text
  | binary
  deriving DecidableEq, Repr

/-- message.go:31-101 `Message`. All fields; `from` is called `sender`. -/
structure Message where
  wait : Bytes := []
  ns : Bytes := []
  room : Bytes := []
  event : Bytes := []
  body : Bytes := []
  err : Option GoErr := none
  isError : Bool := false
  isNoOp : Bool := false
  isInvalid : Bool := false
  sender : Bytes := []
  fromExplicit : Bytes := []
  fromStackExchange : Bool := false
  to : Bytes := []
  isForced : Bool := false
  isLocal : Bool := false
  isNative : Bool := false
  locked : Bool := false
  setBinary : Bool := false
  deriving DecidableEq, Repr

/-- message.go:103-105 -/
def Message.isConnect (m : Message) : Bool := m.event = OnNamespaceConnect
/-- message.go:107-109 -/
def Message.isDisconnect (m : Message) : Bool := m.event = OnNamespaceDisconnect
/-- message.go:111-113 -/
def Message.isRoomJoin (m : Message) : Bool := m.event = OnRoomJoin
/-- message.go:115-117 -/
def Message.isRoomLeft (m : Message) : Bool := m.event = OnRoomLeft

/-! ## Wait tokens -/

/-- message.go:189 `waitIsConfirmationPrefix` is `'#'` -/
def waitIsConfirmationPrefix : UInt8 := 35
/-- message.go:190 `waitComesFromClientPrefix` is `'$'` -/
def waitComesFromClientPrefix : UInt8 := 36
/-- message.go:191 `waitComesFromStackExchange` is `'!'` -/
def waitComesFromStackExchange : UInt8 := 33

/-- message.go:195-210 `IsWait` -/
def Message.isWait (m : Message) (isClientConn : Bool) : Bool :=
  match m.wait with
  | [] => false
  | c :: _ =>
    if c = waitIsConfirmationPrefix then true
    else if c = waitComesFromClientPrefix then isClientConn
    else true

/-- message.go:213-220 `ClearWait`: the message after the call and the result -/
def Message.clearWait (m : Message) : Message × Bool :=
  if m.fromExplicit = [] ∧ m.wait ≠ [] then ({ m with wait := [] }, true) else (m, false)

/-- Decimal digits, `strconv.FormatInt(n, 10)` of a non-negative number. -/
def decimalNat (n : Nat) : Bytes :=
  if n < 10 then [48 + n.toUInt8] else decimalNat (n / 10) ++ [48 + (n % 10).toUInt8]

/-- `strconv.FormatInt(n, 10)`, called at message.go:224. -/
def decimalInt (n : Int) : Bytes :=
  match n with
  | .ofNat k => decimalNat k
  | .negSucc k => 45 :: decimalNat (k + 1)

/-- message.go:222-231 `genWait`; `now` is `time.Now().UnixNano()`. -/
def genWait (isClientConn : Bool) (now : Int) : Bytes :=
  if isClientConn then waitComesFromClientPrefix :: decimalInt now else decimalInt now

/-- Go's `string(b)` for a byte `b`: the UTF-8 encoding of the code point `b`. -/
def stringOfByte (b : UInt8) : Bytes :=
  if b < 128 then [b] else [(192 : UInt8) ||| (b >>> 6), (128 : UInt8) ||| (b &&& 63)]

/-- message.go:237-246 `genWaitStackExchange`. Line 245 adds the two bytes
`wait[0]` and `'!'` (wrapping), it does not concatenate them. -/
def genWaitStackExchange (wait : Bytes) : Bytes :=
  match wait with
  | c :: d :: t => stringOfByte (c + waitComesFromStackExchange) ++ d :: t
  | _ => []

/-- server.go:268-270 `isServerConnID` -/
def isServerConnID (s : Bytes) : Bool := (b! "neffos(0x").isPrefixOf s

/-- server.go:272-274 `genServerConnID`; `ptr` is the text of `%p`. -/
def genServerConnID (serverUUID connID ptr : Bytes) : Bytes :=
  b! "neffos(0x" ++ serverUUID ++ b! "(" ++ connID ++ ptr ++ b! "))"

/-! ## Serialization -/

/-- message.go:252 `messageSeparatorString` is `";"` -/
def sepByte : UInt8 := 59

/-- message.go:256 `messageFieldSeparatorReplacement` -/
def sepReplacement : Bytes := b! "@%!semicolon@%!"

/-- message.go:260-266 `escape` -/
def escape (s : Bytes) : Bytes :=
  if s.length = 0 then s else replaceAll [sepByte] sepReplacement s

/-- message.go:269-275 `unescape` -/
def unescape (s : Bytes) : Bytes :=
  if s.length = 0 then s else replaceAll sepReplacement [sepByte] s

/-- message.go:249-250 `trueByte`, `falseByte` -/
def boolByte (b : Bool) : Bytes := if b then b! "1" else b! "0"

/-- message.go:295-335 `serializeOutput` -/
def serializeOutput (wait ns room event body : Bytes) (err : Option GoErr) (isNoOp : Bool) :
    Bytes :=
  let (body, isErr) :=
    match err with
    | none => (body, false)
    | some e =>
      match isReply e with
      | some b => (b, false)
      | none => (e.errorText, true)
  joinBytes sepByte [wait, ns, room, event, boolByte isErr, boolByte isNoOp, body]

/-- message.go:277-293 `serializeMessage`; `none` is the panic of line 284. -/
def serializeMessage (m : Message) : Option Bytes :=
  if m.isNative ∧ m.wait = [] then some m.body
  else if m.fromExplicit ≠ [] then
    if m.wait ≠ [] then none
    else some (serializeOutput m.fromExplicit (escape m.ns) (escape m.room) (escape m.event)
      m.body m.err m.isNoOp)
  else some (serializeOutput m.wait (escape m.ns) (escape m.room) (escape m.event)
      m.body m.err m.isNoOp)

/-- message.go:378 -/
def validMessageSepCount : Nat := 7

/-- message.go:418-427 the results of `deserializeInput` -/
structure RawInput where
  wait : Bytes := []
  ns : Bytes := []
  room : Bytes := []
  event : Bytes := []
  body : Bytes := []
  isNoOp : Bool := false
  isInvalid : Bool := false
  err : Option GoErr := none
  deriving DecidableEq, Repr

/-- message.go:418-469 `deserializeInput`; `known` is the package variable
`knownErrors`. -/
def deserializeInput (known : List KnownErr) (b : Bytes) (allowNative onlyNative : Bool) :
    RawInput :=
  if b.length = 0 then { isInvalid := true }
  else if onlyNative then { event := OnNativeMessage, body := b }
  else
    match splitN sepByte validMessageSepCount b with
    | [wait, ns, room, event, e, n, body] =>
      let isError : Bool := e = b! "1"
      let isNoOp : Bool := n = b! "1"
      if body.length > 0 then
        if isError then
          { wait, ns, room, event, isNoOp, err := some (resolveError known body) }
        else { wait, ns, room, event, isNoOp, body }
      else { wait, ns, room, event, isNoOp }
    | _ =>
      if !allowNative then { isInvalid := true }
      else { event := OnNativeMessage, body := b }

/-- message.go:340-376 `DeserializeMessage` -/
def deserializeMessage (known : List KnownErr) (typ : MsgType) (b : Bytes)
    (allowNative onlyNative : Bool) : Message :=
  let r := deserializeInput known b allowNative onlyNative
  let fromExplicit : Bytes := if isServerConnID r.wait then r.wait else []
  let wait : Bytes := if isServerConnID r.wait then [] else r.wait
  let (wait, fromSE) : Bytes × Bool :=
    match wait with
    | c :: d :: e :: t =>
      if d = waitComesFromStackExchange then (stringOfByte c ++ e :: t, true)
      else (c :: d :: e :: t, false)
    | w => (w, false)
  { wait := wait
    ns := unescape r.ns
    room := unescape r.room
    event := unescape r.event
    body := r.body
    err := r.err
    isError := r.err.isSome
    isNoOp := r.isNoOp
    isInvalid := r.isInvalid
    fromExplicit := fromExplicit
    fromStackExchange := fromSE
    isNative := allowNative && r.event = OnNativeMessage
    setBinary := typ = .binary }

/-- message.go:471-473 `genEmptyReplyToWait` -/
def genEmptyReplyToWait (wait : Bytes) : Bytes :=
  wait ++ List.replicate (validMessageSepCount - 1) sepByte

end Neffos
