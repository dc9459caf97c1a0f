import Verif.Model.Bytes
/-!
# Error values (event.go, server.go, conn.go)
-/
namespace Neffos

/-- The `Err` field of a `*net.OpError`, as far as event.go:101-112 inspects it. -/
inductive OpInner where
  | nil
  | syscall (isNil : Bool)
  | other
  deriving DecidableEq, Repr

/-- A non-nil Go `error` value. Sentinels keep their identity. -/
inductive GoErr where
  /-- a package-level or user-level error variable: identity and `Error()` text -/
  | sentinel (ident : Nat) (text : Bytes)
  /-- `errors.New(text)`: a fresh value that equals no variable -/
  | text (text : Bytes)
  /-- event.go:131-152 `reply{Body}` -/
  | reply (body : Bytes)
  /-- event.go:60-67 `CloseError{error, Code}`; `shown` is the value of `Error()`,
  event.go:66 formats it as `[code] text` -/
  | closeErr (code : Int) (shown : Bytes)
  /-- `io.EOF` -/
  | eof
  /-- `io.ErrUnexpectedEOF` -/
  | unexpectedEOF
  /-- `*net.OpError`: inner error, value of its `Timeout()`, `Error()` text -/
  | opErr (inner : OpInner) (timeout : Bool) (text : Bytes)
  deriving DecidableEq, Repr

/-- The `Error()` method. event.go:135-137: a reply has the empty text. -/
def GoErr.errorText : GoErr → Bytes
  | .sentinel _ t => t
  | .text t => t
  | .reply _ => []
  | .closeErr _ t => t
  | .eof => b! "EOF"
  | .unexpectedEOF => b! "unexpected EOF"
  | .opErr _ _ t => t

/-- server.go:618 -/
def errBadNamespace : GoErr := .sentinel 0 (b! "bad namespace")
/-- server.go:620 -/
def errBadRoom : GoErr := .sentinel 1 (b! "bad room")
/-- server.go:622 -/
def errWrite : GoErr := .sentinel 2 (b! "write closed")
/-- conn.go:414 -/
def errInvalidPayload : GoErr := .sentinel 3 (b! "invalid payload")
/-- Go standard library `context.DeadlineExceeded`, returned at conn.go:530, 957 -/
def errDeadline : GoErr := .sentinel 4 (b! "context deadline exceeded")

/-- event.go:139-146 `isReply` (of a non-nil error) -/
def isReply : GoErr → Option Bytes
  | .reply b => some b
  | _ => none

/-- event.go:79-85 `isManualCloseError` -/
def isManualCloseError : GoErr → Bool
  | .closeErr _ _ => true
  | _ => false

/-- event.go:87-115 `IsCloseError`; `none` is the nil error. -/
def isCloseError : Option GoErr → Bool
  | none => false
  | some e =>
    if isManualCloseError e then true
    else if e = .unexpectedEOF ∨ e = .eof then true
    else match e with
      | .opErr .nil _ _ => false
      | .opErr (.syscall isNil) _ _ => !isNil
      | .opErr .other _ t => (b! "use of closed network connection").isSuffixOf t
      | _ => false

/-- event.go:117-129 `IsTimeoutError` -/
def isTimeoutError : Option GoErr → Bool
  | none => false
  | some (.opErr _ t _) => t
  | some _ => false

/-- event.go:70-77 `IsDisconnectError` -/
def isDisconnectError : Option GoErr → Bool
  | none => false
  | some e => isCloseError (some e) || isTimeoutError (some e)

/-- An entry of the `knownErrors` list, message.go:380: the error value and its
optional `ResolveError(text) bool` method, message.go:402. -/
structure KnownErr where
  err : GoErr
  resolver : Option (Bytes → Bool)

/-- message.go:380 the initial registry -/
def knownErrors0 : List KnownErr :=
  [⟨errBadNamespace, none⟩, ⟨errBadRoom, none⟩, ⟨errWrite, none⟩, ⟨errInvalidPayload, none⟩]

/-- message.go:390-398 `RegisterKnownError` -/
def registerKnownError (known : List KnownErr) (e : KnownErr) : List KnownErr :=
  if known.any (fun k => k.err = e.err) then known else known ++ [e]

/-- message.go:402-413: does this entry claim the text -/
def KnownErr.claims (k : KnownErr) (text : Bytes) : Bool :=
  (match k.resolver with
   | some r => r text
   | none => false) || k.err.errorText = text

/-- message.go:400-416 `resolveError` -/
def resolveError : List KnownErr → Bytes → GoErr
  | [], text => .text text
  | k :: ks, text => if k.claims text then k.err else resolveError ks text

end Neffos
