import Verif.Proofs.ConnShut
/-!
# C52: which errors end a connection
-/
set_option autoImplicit false
namespace Neffos

/-- The close errors: a CloseError, the two EOF errors, and a network operation error that
has a system call error inside or whose text ends with "use of closed network connection" and
that has an error inside at all. -/
inductive EndsConn : GoErr → Prop
  | manual (code : Int) (text : Bytes) : EndsConn (.closeErr code text)
  | eof : EndsConn .eof
  | unexpectedEOF : EndsConn .unexpectedEOF
  | syscall (timeout : Bool) (text : Bytes) : EndsConn (.opErr (.syscall false) timeout text)
  | closedNet (timeout : Bool) (pre : Bytes) :
      EndsConn (.opErr .other timeout (pre ++ b! "use of closed network connection"))

/-- C52: IsCloseError is true exactly for these. -/
theorem c52_close (e : GoErr) : isCloseError (some e) = true ↔ EndsConn e := by
  constructor
  · intro h
    cases e with
    | sentinel i t => simp [isCloseError, isManualCloseError] at h
    | text t => simp [isCloseError, isManualCloseError] at h
    | reply t => simp [isCloseError, isManualCloseError] at h
    | closeErr c t => exact .manual c t
    | eof => exact .eof
    | unexpectedEOF => exact .unexpectedEOF
    | opErr inner to t =>
      cases inner with
      | nil => simp [isCloseError, isManualCloseError] at h
      | syscall n =>
        cases n with
        | true => simp [isCloseError, isManualCloseError] at h
        | false => exact .syscall to t
      | other =>
        have h2 : List.isSuffixOf (b! "use of closed network connection") t = true := by
          simpa [isCloseError, isManualCloseError] using h
        rw [List.isSuffixOf_iff_suffix] at h2
        obtain ⟨pre, rfl⟩ := h2
        exact .closedNet to pre
  · intro h
    cases h with
    | manual c t => rfl
    | eof => rfl
    | unexpectedEOF => rfl
    | syscall to t => rfl
    | closedNet to pre =>
      simp [isCloseError, isManualCloseError]

/-- C52: IsDisconnectError is true exactly for close errors and timed out network
operations; nil is neither. -/
theorem c52_disconnect (e : Option GoErr) : isDisconnectError e = true ↔
    ∃ x, e = some x ∧ (EndsConn x ∨ ∃ inner text, x = .opErr inner true text) := by
  cases e with
  | none => simp [isDisconnectError]
  | some x =>
    unfold isDisconnectError
    rw [Bool.or_eq_true, c52_close]
    simp only [Option.some.injEq, exists_eq_left']
    refine or_congr Iff.rfl ?_
    cases x <;> simp [isTimeoutError]

theorem c52_nil : isCloseError none = false ∧ isTimeoutError none = false ∧
    isDisconnectError none = false := ⟨rfl, rfl, rfl⟩

/-- C52: a write that fails closes an open connection exactly when its error is a close
error; it reports failure, and otherwise only the attempt is noted. -/
theorem c52_write (cfg : Cfg) (s : St) (b : Bytes) (binary : Bool) (e : GoErr)
    (ho : s.closed = false) (he : cfg.sock s.log binary b = some e) :
    (rawWrite cfg s b binary).2 = false ∧
    ((rawWrite cfg s b binary).1.closed = true ↔ EndsConn e) ∧
    (¬ EndsConn e → (rawWrite cfg s b binary).1 = s.emit (.sent binary b false)) := by
  unfold rawWrite
  rw [he]
  simp only [Option.isNone_some, Bool.false_eq_true, if_false]
  cases hc : isCloseError (some e) with
  | true =>
    have h := (c52_close e).mp hc
    rw [if_pos rfl]
    exact ⟨rfl, ⟨fun _ => h, fun _ => closeConn_closed _⟩, fun hn => absurd h hn⟩
  | false =>
    have h : ¬ EndsConn e := fun h => by rw [(c52_close e).mpr h] at hc; cases hc
    rw [if_neg (by simp)]
    refine ⟨rfl, ⟨fun hx => ?_, fun hx => absurd hx h⟩, fun _ => rfl⟩
    have : s.closed = true := hx
    rw [ho] at this; cases this

/-- C52: a write that succeeds closes nothing. -/
theorem c52_written (cfg : Cfg) (s : St) (b : Bytes) (binary : Bool)
    (he : cfg.sock s.log binary b = none) :
    rawWrite cfg s b binary = (s.emit (.sent binary b true), true) := by
  unfold rawWrite
  rw [he]
  rfl

example : EndsConn (.opErr .other false (b! "read: use of closed network connection")) ∧
    ¬ EndsConn (.opErr .other true (b! "i/o timeout")) ∧
    isDisconnectError (some (.opErr .other true (b! "i/o timeout"))) = true := by
  refine ⟨.closedNet false (b! "read: "), ?_, rfl⟩
  rw [← c52_close]
  decide +kernel

end Neffos
