import Verif.Proofs.AskFate
/-!
# C97: which Asks can still be answered, and which readers are lost
-/
set_option autoImplicit false
namespace Neffos
open Spec AskFate

variable {cl : Bool} {s : ASt}

/-! ## The reader -/

/-- C97, the reader: in every reachable state it is lost, whatever happens from there on, exactly if it has
returned or sends to an Ask that will not receive any more, the channel of which has no room. -/
theorem c97_reader (h : AReach cl s) : ReaderStuck cl s ↔ s.rd = .dead ∨
    ∃ i k a, s.asks[i]? = some a ∧ PastReceiving s a ∧ (s.rd = .srvSend i k ∨ s.rd = .connSend i k ∧ a.box ≠ none) :=
  ⟨deaf_of_stuck (areach_finv h), stuck_of_deaf (areach_finv h).inv⟩

/-- a late second answer: the reader is lost -/
example : ∃ s, AReach true s ∧ ReaderStuck true s ∧ s.rd ≠ .dead := by
  obtain ⟨s, h1, ⟨h2, h3⟩, _⟩ := c30_refuted_twice
  refine ⟨s, h1, (c97_reader h1).mpr (.inr ?_), ?_⟩
  · obtain ⟨a, r, ha, hd⟩ := h3
    refine ⟨0, 1, a, ha, .inr (.inl ⟨r, hd⟩), ?_⟩
    rcases h2 with h2 | ⟨h2, b, g, hb, hg⟩
    · exact .inl h2
    · rw [ha] at hb; cases hb
      exact .inr ⟨h2, by rw [hg]; simp⟩
  · rcases h2 with h2 | ⟨h2, _⟩ <;> rw [h2] <;> simp

/-- the first answer, late, finds room in the channel: the reader is not lost -/
example : ∃ s, AReach true s ∧ s.rd = .connSend 0 0 ∧ ¬ ReaderStuck true s := by
  have hr : AReach true (aafter true ([.call false] ++ askOps 0 7 ++ [.ctx 0, .arrive (tokMsg 7)] ++
      List.replicate 4 .reader)) := aafter_reach (by decide +kernel)
  refine ⟨_, hr, by decide +kernel, fun hx => ?_⟩
  rcases (c97_reader hr).mp hx with h | ⟨i, k, a, ha, _, h | ⟨h, hb⟩⟩
  · revert h; decide +kernel
  · have h0 : (aafter true ([.call false] ++ askOps 0 7 ++ [.ctx 0, .arrive (tokMsg 7)] ++
      List.replicate 4 .reader)).rd = .connSend 0 0 := by decide +kernel
    rw [h0] at h; cases h
  · have h0 : (aafter true ([.call false] ++ askOps 0 7 ++ [.ctx 0, .arrive (tokMsg 7)] ++
      List.replicate 4 .reader)).rd = .connSend 0 0 := by decide +kernel
    rw [h0] at h; cases h
    have h1 : (aafter true ([.call false] ++ askOps 0 7 ++ [.ctx 0, .arrive (tokMsg 7)] ++
      List.replicate 4 .reader)).asks[0]? = some ⟨false, false, genWait true 7, none, .none, .done .ctxErr⟩ := by
      decide +kernel
    rw [h1] at ha; cases ha
    exact hb rfl

/-! ## Conn.Ask -/

/-- C97, Conn.Ask: while the reader is between two messages, an Ask that waits can still return a message, its
context never being done, exactly if a message is in its channel or the connection's table has it under its
token. (The token is none of a Server.Ask's, which come first.) -/
theorem c97_conn (h : AReach cl s) (hq : AllRead s) {i : Nat} {a : AskT} (ha : s.asks[i]? = some a)
    (hp : a.pc = .wait) (hs : a.srv = false) (hn : a.next = false) (hx : mapGet s.srvWaiting a.tok = none) :
    MayReturn cl s i ↔ a.box ≠ none ∨ mapGet s.waiting a.tok = some i := by
  have hf := areach_finv h
  constructor
  · intro hm
    refine Classical.byContradiction (fun hc => ?_)
    simp only [not_or, Classical.not_not] at hc
    exact not_may_conn hf.inv ha hp hs hn hc.1 hc.2 (fun k hk => by rw [hq.1] at hk; cases hk) hm
  · rintro (hb | ht)
    · cases hb' : a.box with
      | none => exact absurd hb' hb
      | some g => exact may_box ha hp hb'
    · exact may_listed hf hq ha hp hs ht hx

/-- C97, Conn.Ask, in any state: one that waits with an empty channel, is not in the table under its token and
to which the reader does not send, returns no message ever. -/
theorem c97_lost (h : AReach cl s) {i : Nat} {a : AskT} (ha : s.asks[i]? = some a)
    (hp : a.pc = .wait) (hs : a.srv = false) (hn : a.next = false) (hb : a.box = none)
    (ht : mapGet s.waiting a.tok ≠ some i) (hr : ∀ k, s.rd ≠ .connSend i k) : ¬ MayReturn cl s i :=
  not_may_conn (areach_inv h) ha hp hs hn hb ht hr

/-- C97, why a Conn.Ask that waits is not in the table: `Close` has emptied the table, or another Conn.Ask was
given the same token. -/
theorem c97_why (h : AReach cl s) {i : Nat} {a : AskT} (ha : s.asks[i]? = some a)
    (hp : a.pc = .wait) (hs : a.srv = false) (hn : a.next = false) (ht : mapGet s.waiting a.tok ≠ some i) :
    (s.cl = .net ∨ s.cl = .done) ∨ SharesToken s i a := by
  rcases (areach_finv h).conn i a ha hs ⟨hn, .inr hp⟩ with h | h | ⟨j, b, h1, h2, h3, h4, h5, _⟩
  · exact absurd h ht
  · exact .inl h
  · exact .inr ⟨j, b, h1, h2, h4.trans hs.symm, h5, h3⟩

/-- C97, for a client: on a connection that is not being closed, an Ask that waits and the token of which no
other Ask was given can be answered. -/
theorem c97_client (h : AReach true s) (hq : AllRead s) {i : Nat} {a : AskT} (ha : s.asks[i]? = some a)
    (hp : a.pc = .wait) (hn : a.next = false) (hc : s.closed = false) (hu : ¬ SharesToken s i a) :
    MayReturn true s i := by
  have hs := client_asks h i a ha
  refine (c97_conn h hq ha hp hs hn (client_tab h _)).mpr (.inr (Classical.byContradiction (fun ht => ?_)))
  rcases c97_why h ha hp hs hn ht with (e | e) | e
  · simp [ASt.closed, e] at hc
  · simp [ASt.closed, e] at hc
  · exact hu e

/-- an Ask that waits on an open connection -/
example : MayReturn true (aafter true ([.call false] ++ askOps 0 7)) 0 := by
  have hr : AReach true (aafter true ([.call false] ++ askOps 0 7)) := aafter_reach (by decide +kernel)
  have ha : (aafter true ([.call false] ++ askOps 0 7)).asks[0]? =
    some ⟨false, false, genWait true 7, none, .none, .wait⟩ := by decide +kernel
  refine (c97_conn hr ⟨by decide +kernel, by decide +kernel⟩ ha rfl rfl rfl (by decide +kernel)).mpr (.inr ?_)
  decide +kernel

/-- the same Ask after another one took its token and got the answer -/
example : AllRead (aafter true tickOps) ∧ ¬ MayReturn true (aafter true tickOps) 0 := by
  have hr : AReach true (aafter true tickOps) := aafter_reach (by decide +kernel)
  have hq : AllRead (aafter true tickOps) := ⟨by decide +kernel, by decide +kernel⟩
  have ha : (aafter true tickOps).asks[0]? =
    some ⟨false, false, genWait true 7, none, .none, .wait⟩ := by decide +kernel
  refine ⟨hq, fun hm => ?_⟩
  rcases (c97_conn hr hq ha rfl rfl rfl (by decide +kernel)).mp hm with h | h
  · exact h rfl
  · revert h; decide +kernel

/-! ## Server.Ask -/

/-- C97, Server.Ask: one that waits can still return a message, its context never being done, exactly if the
table of the server has it under its token or the reader sends to it. -/
theorem c97_server (h : AReach false s) {i : Nat} {a : AskT} (ha : s.asks[i]? = some a) (hp : a.pc = .wait)
    (hs : a.srv = true) : MayReturn false s i ↔ mapGet s.srvWaiting a.tok = some i ∨ ∃ k, s.rd = .srvSend i k := by
  constructor
  · intro hm
    refine Classical.byContradiction (fun hc => ?_)
    simp only [not_or, not_exists] at hc
    exact not_may_srv (areach_inv h) (areach_tidy h i a ha) ha hp hs hc.1 hc.2 hm
  · rintro (ht | ⟨k, hk⟩)
    · exact may_other (areach_finv h) ha hp ht
    · exact may_srvSend hk ha hp

/-- C97, why a Server.Ask that waits is not in the table: another Server.Ask was given the same token. -/
theorem c97_server_why (h : AReach cl s) {i : Nat} {a : AskT} (ha : s.asks[i]? = some a) (hp : a.pc = .wait)
    (hs : a.srv = true) (ht : mapGet s.srvWaiting a.tok ≠ some i) : SharesToken s i a := by
  rcases (areach_finv h).serv i a ha hs ⟨((areach_inv h).each i a ha).srv hs, .inr hp⟩ with h | ⟨j, b, h1, h2, h3, h4, h5, _⟩
  · exact absurd h ht
  · exact ⟨j, b, h1, h2, h4.trans hs.symm, h5, h3⟩

/-- two Server.Asks in the same tick of the clock: only the second can be answered -/
example : ∃ s, AReach false s ∧ ¬ MayReturn false s 0 ∧ MayReturn false s 1 := by
  have hr : AReach false (aafter false ([.call true, .call true] ++ srvAskOps 0 7 ++ srvAskOps 1 7)) :=
    aafter_reach (by decide +kernel)
  have h0 : (aafter false ([.call true, .call true] ++ srvAskOps 0 7 ++ srvAskOps 1 7)).asks[0]? =
    some ⟨true, false, genWait false 7, none, .none, .wait⟩ := by decide +kernel
  have h1 : (aafter false ([.call true, .call true] ++ srvAskOps 0 7 ++ srvAskOps 1 7)).asks[1]? =
    some ⟨true, false, genWait false 7, none, .none, .wait⟩ := by decide +kernel
  refine ⟨_, hr, fun hm => ?_, (c97_server hr h1 rfl rfl).mpr (.inl (by decide +kernel))⟩
  rcases (c97_server hr h0 rfl rfl).mp hm with h | ⟨k, h⟩
  · revert h; decide +kernel
  · have e : (aafter false ([.call true, .call true] ++ srvAskOps 0 7 ++ srvAskOps 1 7)).rd = .idle := by
      decide +kernel
    rw [e] at h; cases h

/-! ## Asks of callbacks -/

/-- C97, an Ask that waits only for the next message: it can always return one, also after `Close`. -/
theorem c97_next (h : AReach cl s) {i : Nat} {a : AskT} (ha : s.asks[i]? = some a) (hp : a.pc = .wait)
    (hn : a.next = true) : MayReturn cl s i :=
  may_next (areach_finv h) (areach_help h i a ha) ha hp hn

example : MayReturn true (aafter true cbWaitOps) 0 :=
  c97_next (a := ⟨false, true, genWait true 7, none, .reading, .wait⟩) (aafter_reach (by decide +kernel))
    (by decide +kernel) rfl rfl

end Neffos
