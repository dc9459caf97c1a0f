import Verif.Model.Dial
/-!
Independent specification for C99.
-/
set_option autoImplicit false
namespace Neffos.Spec

/-- the first payload that says whether the client is accepted: one that starts with A or with H -/
def firstAnswer (reads : List Bytes) : Option Bytes :=
  reads.find? (fun b => b.head? = some 65 || b.head? = some 72)

/-- the server sends nothing that starts with M, the mark of a client -/
def NoM (reads : List Bytes) : Prop := ∀ b ∈ reads, b.head? ≠ some 77

/-- the reader of the client is past everything that could wake `Dial`, because it has set `ready` and is not about
to unlock and close the channel, or because it has ended without -/
def PastWaking (s : DialSt) : Prop :=
  (s.lat.ready = true ∧ s.lat.ths[1]? ≠ some .uUnlock ∧ s.lat.ths[1]? ≠ some .uClose) ∨
  (s.lat.ready = false ∧ (s.rd = .refuse ∨ s.rd = .exit ∨ s.rd = .dead))

/-- `Dial` waits at a channel that is still open, or it has found the latch not ready and is about to -/
def AtChannel (s : DialSt) : Prop :=
  s.dial = .wait ∧ s.lat.chClosed = false ∧
    (s.lat.ths[0]? = some .wBlocked ∨ s.lat.ths[0]? = some .wLock ∧ s.lat.locked = false)

end Neffos.Spec
