import Verif.Model.Bytes
/-!
Spec for C39: reading a number written in lower-case hexadecimal.
-/
set_option autoImplicit false
namespace Neffos.Spec

/-- the sixteen digits, in order -/
def hexDigits : Bytes := b! "0123456789abcdef"

/-- the value of a digit: its position -/
def digitValue (c : UInt8) : Option Nat := hexDigits.findIdx? (· == c)

/-- the value of a text, the first digit being the most significant -/
def hexValue (t : Bytes) : Option Nat :=
  t.foldl (fun acc c => match acc, digitValue c with | some v, some d => some (16 * v + d) | _, _ => none) (some 0)

end Neffos.Spec
