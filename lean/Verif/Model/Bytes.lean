/-!
# Byte strings

A Go `string` and a Go `[]byte` are both modelled as a list of bytes; the `nil`
and the empty slice are the same value.
-/
namespace Neffos

/-- A Go `string` or `[]byte`. -/
abbrev Bytes := List UInt8

open Lean in
/-- `b! "text"` is the list of the UTF-8 bytes of a literal. -/
macro "b!" s:str : term => do
  let bs := s.getString.toUTF8.toList
  let elems : Array (TSyntax `term) :=
    bs.toArray.map fun (x : UInt8) => ⟨Syntax.mkNumLit (toString x.toNat)⟩
  `(([$elems,*] : List UInt8))

/-- Scanner behind `strings.Replace(s, old, new, -1)` (Go standard library, called
at message.go:265 and message.go:274) for a non-empty `old`: look for `old` from
left to right, non-overlapping. The first argument counts bytes of a match that
are still to be skipped. -/
def replaceGo (old new : Bytes) : Nat → Bytes → Bytes
  | _, [] => []
  | k + 1, _ :: t => replaceGo old new k t
  | 0, c :: t =>
    if old.isPrefixOf (c :: t) then new ++ replaceGo old new (old.length - 1) t
    else c :: replaceGo old new 0 t

/-- `strings.Replace(s, old, new, -1)`, non-empty `old`. -/
def replaceAll (old new s : Bytes) : Bytes := replaceGo old new 0 s

/-- The first field of `s` and, if a separator was found, what follows it. -/
def cut (sep : UInt8) : Bytes → Bytes × Option Bytes
  | [] => ([], none)
  | c :: t =>
    if c = sep then ([], some t)
    else let (f, r) := cut sep t; (c :: f, r)

/-- `bytes.SplitN(b, sep, n)` (Go standard library, called at message.go:441) for a
one-byte separator and `n > 0`: at most `n` fields, the last one is the unsplit
remainder. -/
def splitN (sep : UInt8) : Nat → Bytes → List Bytes
  | 0, _ => []
  | 1, b => [b]
  | n + 2, b =>
    match cut sep b with
    | (f, none) => [f]
    | (f, some r) => f :: splitN sep (n + 1) r

/-- `bytes.Join(fields, sep)` (Go standard library, called at message.go:324) for a
one-byte separator. -/
def joinBytes (sep : UInt8) : List Bytes → Bytes
  | [] => []
  | [f] => f
  | f :: g :: fs => f ++ sep :: joinBytes sep (g :: fs)

end Neffos
