import Verif.Model.Message
/-!
# Specification vocabulary for the wire format

Nothing here uses the serializer, the deserializer or their helpers.
-/
namespace Neffos.Spec

/-- `p` occurs somewhere in `s`. -/
def Occurs (p s : Bytes) : Prop := ∃ u v, s = u ++ p ++ v

/-- A name that neither contains the replacement text of the separator nor the part
of it up to its own overlap followed by a separator. C02 proves that these are
exactly the names that survive. -/
def SafeName (s : Bytes) : Prop :=
  ¬ Occurs (b! "@%!semicolon@%!") s ∧ ¬ Occurs (b! "@%!semicolon;") s

/-- `out` is `s` with every non-overlapping occurrence of `old`, taken from the left,
replaced by `new` (the contract of Go's `strings.Replace(s, old, new, -1)`). -/
inductive Replaced (old new : Bytes) : Bytes → Bytes → Prop
  | nil : Replaced old new [] []
  | hit (r o : Bytes) : Replaced old new r o → Replaced old new (old ++ r) (new ++ o)
  | keep (c : UInt8) (t o : Bytes) : ¬ old <+: (c :: t) → Replaced old new t o →
      Replaced old new (c :: t) (c :: o)

/-- Number of `;` in a payload. -/
def semicolons (b : Bytes) : Nat := b.count 59

/-- A wait token that the wire format can carry as a plain token: no separator, not
the identity of a server connection, and no stackexchange mark (`!` as the second of
at least three bytes). -/
def PlainToken (w : Bytes) : Prop :=
  (59 : UInt8) ∉ w ∧ ¬ (b! "neffos(0x") <+: w ∧
    ∀ (c : UInt8) (t : Bytes), w = c :: 33 :: t → t = []

/-- What a message that is not a native one says about its outcome on the wire: either
a body or an error text. A `Reply` is a body. -/
inductive Outcome where
  | body (b : Bytes)
  | error (text : Bytes)
  deriving DecidableEq

/-- the outcome of a callback's result `err` for a message with body `b` -/
def outcome (b : Bytes) : Option GoErr → Outcome
  | none => .body b
  | some (.reply r) => .body r
  | some e => .error e.errorText

/-- The error a receiver reports for a non-empty error text: the first registered
error that claims the text, by its own resolver or by having that text; if none does,
a new error with that text. -/
def ResolvesTo (known : List KnownErr) (text : Bytes) (e : GoErr) : Prop :=
  (∃ pre k post, known = pre ++ k :: post ∧ e = k.err ∧
      ((∃ r, k.resolver = some r ∧ r text = true) ∨ k.err.errorText = text) ∧
      ∀ k' ∈ pre, (∀ r, k'.resolver = some r → r text = false) ∧ k'.err.errorText ≠ text) ∨
  ((∀ k ∈ known, (∀ r, k.resolver = some r → r text = false) ∧ k.err.errorText ≠ text) ∧
      e = .text text)

end Neffos.Spec
