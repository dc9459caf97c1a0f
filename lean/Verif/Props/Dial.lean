import Verif.Proofs.DialResult
import Verif.Proofs.DialSource
/-!
C99: what `Dial` returns, and when it waits for ever.
-/
set_option autoImplicit false
namespace Neffos
open Spec Dialing

/-- `Dial` and the reader never panic. -/
theorem c99_calm (native : Bool) {s : DialSt} (hr : DialReach native s) : s.lat.panicked = false := by
  obtain ⟨p, q, h⟩ := reach_inv hr
  exact h.calm

/-- A client is returned only if the first mark of the server is an A, and its identifier is what followed an A. -/
theorem c99_client {s : DialSt} {id : Bytes} (hr : DialReach false s) (hm : NoM s.reads)
    (hd : s.dial = .done (.client id)) : (∃ b, firstAnswer s.reads = some (65 :: b)) ∧ 65 :: id ∈ s.reads := by
  obtain ⟨p, q, -, hv⟩ := reach_v hr
  exact (hv hm).client id hd

/-- An error is that of the own write, that of a failed read before any mark, or the text behind the first mark, an H. -/
theorem c99_error {s : DialSt} {e : GoErr} (hr : DialReach false s) (hm : NoM s.reads)
    (hd : s.dial = .done (.err e)) :
    (s.unsent = true ∧ e = errWrite) ∨ (firstAnswer s.reads = none ∧ e ∈ s.fails) ∨
      ∃ t, firstAnswer s.reads = some (72 :: t) ∧ e = .text t := by
  obtain ⟨p, q, -, hv⟩ := reach_v hr
  exact (hv hm).error e hd

/-- Whatever the server sends, an error comes from the own write, from a failed read, or from a payload that starts
with an H. -/
theorem c99_error_any (native : Bool) {s : DialSt} {e : GoErr} (hr : DialReach native s)
    (hd : s.dial = .done (.err e)) :
    (s.unsent = true ∧ e = errWrite) ∨ e ∈ s.fails ∨ ∃ t, 72 :: t ∈ s.reads ∧ e = .text t := by
  obtain ⟨p, q, -, hv⟩ := reach_src hr
  exact hv.dial e (.inr hd)

/-- With only native messages `Dial` never waits and never fails, and unless a callback closed the connection meanwhile
the client has no identifier. -/
theorem c99_native {s : DialSt} (hr : DialReach true s) :
    s.dial ≠ .write ∧ s.dial ≠ .wait ∧ (∀ e, s.dial ≠ .done (.err e)) ∧
      (s.closed = false → ∀ id, s.dial = .done (.client id) → id = []) ∧
      (s.dial = .start → ∃ t, s.run true [.dial true, .dial true] = some t ∧ t.dial = .done (.client s.id)) := by
  obtain ⟨h1, h2, h3⟩ := reach_nat hr
  refine ⟨?_, ?_, ?_, h3, ?_⟩
  · rcases h1 with h | h | ⟨i, h⟩ <;> rw [h] <;> simp
  · rcases h1 with h | h | ⟨i, h⟩ <;> rw [h] <;> simp
  · rcases h1 with h | h | ⟨i, h⟩ <;> rw [h] <;> simp
  · intro hd
    exact ⟨{ s with dial := .done (.client s.id) }, by simp [DialSt.run, DialSt.step, DialSt.dialStep, hd], rfl⟩

/-- From a state of any schedule `Dial` can still return exactly if it is not at a channel whose closing the reader has
passed. -/
theorem c99_returns (native : Bool) {s : DialSt} (hr : DialReach native s) :
    (∃ ops t r, s.run native ops = some t ∧ t.dial = .done r) ↔ ¬ (AtChannel s ∧ PastWaking s) := by
  obtain ⟨p, q, h⟩ := reach_inv hr
  rw [← lostAt_iff h]
  constructor
  · rintro ⟨ops, t, r, ht, hd⟩ hl
    have := run_inv (P := fun s => ∃ p q, LatInv native s p q ∧ LostAt s p q) (fun ⟨_, _, h, hl⟩ hs => by
      obtain ⟨p', q', h', hx⟩ := dnext_of_step h hs
      exact ⟨p', q', h', lost_next h h' hl hx⟩) ⟨p, q, h, hl⟩ ht
    obtain ⟨p', q', -, hl'⟩ := this
    rw [hl'.1] at hd
    cases hd
  · exact ends_of_not_lost h

/-- Then it stays there for ever, whatever is read, written or closed. -/
theorem c99_lost (native : Bool) {s t : DialSt} {ops : List DialOp} (hr : DialReach native s)
    (hl : AtChannel s ∧ PastWaking s) (ht : s.run native ops = some t) :
    t.dial = .wait ∧ AtChannel t ∧ PastWaking t := by
  obtain ⟨p, q, h⟩ := reach_inv hr
  have hl := (lostAt_iff h).mpr hl
  obtain ⟨p', q', h', hl'⟩ := run_inv (P := fun s => ∃ p q, LatInv native s p q ∧ LostAt s p q) (fun ⟨_, _, h, hl⟩ hs => by
      obtain ⟨p', q', h', hx⟩ := dnext_of_step h hs
      exact ⟨p', q', h', lost_next h h' hl hx⟩) ⟨p, q, h, hl⟩ ht
  exact ⟨hl'.1, (lostAt_iff h').mp hl'⟩

/-- Once the verdict is out and `Dial` is not at the channel, six steps of its own suffice. -/
theorem c99_prompt (native : Bool) {s : DialSt} (hr : DialReach native s) (hv : s.lat.ready = true)
    (hc : ¬ AtChannel s) (hn : ∀ r, s.dial ≠ .done r) :
    ∃ n ≤ 6, ∃ t r, s.run native (List.replicate n (.dial true)) = some t ∧ t.dial = .done r := by
  obtain ⟨p, q, h⟩ := reach_inv hr
  exact dialAll h hv hc hn

/-- If `Dial` waits at the channel before anything is read, it is never lost. -/
theorem c99_fair {s t : DialSt} {ops : List DialOp} (hr : DialReach false s) (hb : s.lat.ths[0]? = some .wBlocked)
    (h0 : s.reads = []) (hf : s.fails = []) (ht : s.run false ops = some t) (hm : NoM t.reads) :
    ∃ ops' u r, t.run false ops' = some u ∧ u.dial = .done r := by
  obtain ⟨p, q, h, hv⟩ := reach_v hr
  have hp : p = .wBlocked := by rw [h.ths] at hb; exact Option.some.inj hb
  have hv := hv (by rw [h0]; intro b hb; cases hb)
  have := run_inv (P := fun s => ∃ p q, LatInv false s p q ∧ (NoM s.reads → VInv s p q ∧ InTime s p q))
    (fun {s t op} ⟨p, q, h, hi⟩ hs => by
      obtain ⟨p', q', h', hx⟩ := dnext_of_step h hs
      refine ⟨p', q', h', fun hm => ?_⟩
      obtain ⟨hv, hi⟩ := hi (noM_next hx hm)
      exact ⟨v_next h h' hm hv hx, inTime_next h h' hv hi hx⟩)
    ⟨p, q, h, fun _ => ⟨hv, inTime_of h hv h0 hf hp⟩⟩ ht
  obtain ⟨p', q', h', hi⟩ := this
  obtain ⟨hv', hi'⟩ := hi hm
  exact ends_of_not_lost h' (inTime_not_lost h' hv' hi')

/-! ## The URL -/

/-- The dialled URL has a websocket scheme, and one that has is left alone. -/
theorem c99_url (u : Bytes) :
    ((b! "ws://") <+: dialURL u ∨ (b! "wss://") <+: dialURL u) ∧ dialURL (dialURL u) = dialURL u := by
  have key : (b! "ws://") <+: dialURL u ∨ (b! "wss://") <+: dialURL u := by
    unfold dialURL
    split
    · rename_i h
      rw [Bool.or_eq_true] at h
      exact h.imp List.isPrefixOf_iff_prefix.mp List.isPrefixOf_iff_prefix.mp
    · exact .inl (List.prefix_append _ _)
  refine ⟨key, ?_⟩
  rw [dialURL, if_pos]
  rw [Bool.or_eq_true]
  exact key.imp List.isPrefixOf_iff_prefix.mpr List.isPrefixOf_iff_prefix.mpr

/-- … and otherwise the scheme is put in front. -/
theorem c99_url_plain (u : Bytes) (h : ¬ (b! "ws://") <+: u) (h' : ¬ (b! "wss://") <+: u) :
    dialURL u = (b! "ws://") ++ u := by
  rw [dialURL, if_neg]
  rw [Bool.or_eq_true, List.isPrefixOf_iff_prefix, List.isPrefixOf_iff_prefix]
  exact fun k => k.elim h h'

/-! ## Witnesses -/

/-- An honest server and no failure: the answer is read while `Dial` is between its check and its lock. -/
theorem c99_lost_honest : ∃ s, DialReach false s ∧ s.reads = [b! "A7"] ∧ s.fails = [] ∧ s.unsent = false ∧
    s.closed = false ∧ AtChannel s ∧ PastWaking s := by
  let lat : Latch := { ready := true, locked := true, ths := [.wBlocked, .uDone] }
  refine ⟨{ lat, dial := .wait, rd := .idle, id := b! "7", acked := true, reads := [b! "A7"] }, ⟨[.reader true, .dial true,
    .dial true, .dial true, .read (b! "A7"), .reader true, .reader true, .reader true, .reader true, .reader true,
    .reader true, .reader true, .dial true], rfl⟩, rfl, rfl, rfl, rfl, ?_, ?_⟩
  · exact ⟨rfl, rfl, .inl rfl⟩
  · exact .inl ⟨rfl, by simp [lat], by simp [lat]⟩

/-- A server that sends an M: `Dial` returns a client without an identifier although no A was sent. -/
theorem c99_mark : ∃ s, DialReach false s ∧ s.reads = [b! "M"] ∧ s.dial = .done (.client []) := by
  refine ⟨_, ⟨[.reader true, .read (b! "M"), .reader true, .reader true, .dial true, .dial true, .dial true, .dial true,
    .dial true, .dial true, .dial true], rfl⟩, rfl, rfl⟩

/-- A server that sends an M while `Dial` waits, and a failing answer: `Dial` waits for ever at a closed connection. -/
theorem c99_mark_lost : ∃ s, DialReach false s ∧ s.reads = [b! "M"] ∧ s.closed = true ∧ AtChannel s ∧ PastWaking s := by
  refine ⟨_, ⟨[.reader true, .dial true, .dial true, .dial true, .dial true, .read (b! "M"), .reader true, .reader true, .reader true,
    .reader true, .reader true, .reader false, .reader true], rfl⟩, rfl, rfl, ?_, ?_⟩
  · exact ⟨rfl, rfl, .inl rfl⟩
  · exact .inr ⟨rfl, .inr (.inr rfl)⟩

/-! ## Examples -/

/-- accepted -/
example : ∃ s, DialReach false s ∧ NoM s.reads ∧ s.dial = .done (.client (b! "7")) := by
  refine ⟨_, ⟨[.reader true, .dial true, .dial true, .dial true, .dial true, .read (b! "A7"), .reader true, .reader true,
    .reader true, .reader true, .reader true, .reader true, .reader true, .dial true, .dial true, .dial true, .dial true], rfl⟩, ?_, rfl⟩
  intro b hb
  rcases List.mem_singleton.mp hb with rfl
  decide

/-- refused -/
example : ∃ s, DialReach false s ∧ NoM s.reads ∧ s.dial = .done (.err (.text (b! "no"))) := by
  refine ⟨_, ⟨[.reader true, .dial true, .dial true, .read (b! "Hno"), .reader true, .reader true,
    .reader true, .dial true, .dial true, .dial true, .dial true], rfl⟩, ?_, rfl⟩
  intro b hb
  rcases List.mem_singleton.mp hb with rfl
  decide

/-- `Dial` at the channel before anything is read -/
example : ∃ s, DialReach false s ∧ s.lat.ths[0]? = some .wBlocked ∧ s.reads = [] ∧ s.fails = [] :=
  ⟨_, ⟨[.dial true, .dial true, .dial true, .dial true], rfl⟩, rfl, rfl, rfl⟩

example : dialURL (b! "a/b") = b! "ws://a/b" := by decide +kernel

end Neffos
