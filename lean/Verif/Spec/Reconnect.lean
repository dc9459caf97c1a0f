import Verif.Model.Bytes
set_option autoImplicit false
/-!
# C118: numbers in text
-/
namespace Neffos.Spec

/-- the digits of a number, the least significant one last; leading zeros are allowed -/
inductive Reads : Bytes → Nat → Prop where
  | nil : Reads [] 0
  | snoc {s : Bytes} {n : Nat} (d : Nat) : d < 10 → Reads s n → Reads (s ++ [UInt8.ofNat (48 + d)]) (10 * n + d)

/-- an optional sign -/
inductive Signed : Bytes → Bytes → Bool → Prop where
  | none (s : Bytes) : Signed s s false
  | plus (s : Bytes) : Signed (43 :: s) s false
  | minus (s : Bytes) : Signed (45 :: s) s true

/-- the nearest number that an `int` of 64 bits can hold -/
def nearest (neg : Bool) (n : Nat) : Int :=
  if neg then (if n ≤ 2 ^ 63 then -(n : Int) else -2 ^ 63) else (if n < 2 ^ 63 then n else 2 ^ 63 - 1)

/-- the text is a number, or it begins with one that does not even fit into 64 bits -/
def Number (s : Bytes) (i : Int) : Prop :=
  ∃ body neg n, Signed s body neg ∧ i = nearest neg n ∧
    ((body ≠ [] ∧ Reads body n) ∨ ∃ p q, body = p ++ q ∧ Reads p n ∧ 2 ^ 64 ≤ n)

end Neffos.Spec
