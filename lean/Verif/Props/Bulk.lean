import Verif.Proofs.Bulk
/-!
# C58, C59: `LeaveAll` and `DisconnectAll`
-/
set_option autoImplicit false
namespace Neffos
open Spec

variable {env : BulkEnv} {ns : Bytes}

/-! ## C58: what they do -/

/-- C58: `LeaveAll` leaves the rooms one after the other, each with one request, OnRoomLeave and OnRoomLeft, until the
first one that the other side refuses (or cannot be asked about) or OnRoomLeave refuses. That error is returned, and
from that room on the connection stays in all rooms. -/
theorem c58_leave_all {order : List Bytes} (hn : order.Nodup) : ∃ gone rest, order = gone ++ rest ∧
    (leaveAll env ns order).rooms = rest ∧
    ((rest = [] ∧ (leaveAll env ns order).err = none ∧
        (leaveAll env ns order).log = gone.flatMap (wholeLeave ns)) ∨
      ∃ r rest' e, rest = r :: rest' ∧ (leaveAll env ns order).err = some e ∧
        ((env.ask (gone.flatMap (wholeLeave ns)) r = some e ∧
            (leaveAll env ns order).log = gone.flatMap (wholeLeave ns) ++ [.ask r]) ∨
         (env.ask (gone.flatMap (wholeLeave ns)) r = none ∧
            env.veto (gone.flatMap (wholeLeave ns) ++ [.ask r]) r = some e ∧
            (leaveAll env ns order).log = gone.flatMap (wholeLeave ns) ++ [.ask r, .leave ns r false]))) := by
  obtain ⟨gone, rest, h1, h2, h3⟩ := leaveWalk_exact (env := env) (ns := ns) hn []
  exact ⟨gone, rest, h1, h2, h3⟩

/-- C58: `LeaveAll` returns nil exactly if no room is left over. -/
theorem c58_leave_nil {order : List Bytes} (hn : order.Nodup) :
    (leaveAll env ns order).err = none ↔ (leaveAll env ns order).rooms = [] := by
  obtain ⟨gone, rest, _, h2, ⟨h3, h4, _⟩ | ⟨r, rest', e, h3, h4, _⟩⟩ := c58_leave_all (env := env) (ns := ns) hn
  · simp [h2, h3, h4]
  · simp [h2, h3, h4]

/-- the other side refuses room "b" -/
def refusesB : BulkEnv where
  ask := fun _ r => if r = b! "b" then some errBadRoom else none
  veto := fun _ _ => none

/-- OnRoomLeave refuses room "b" -/
def vetoesB : BulkEnv where
  ask := fun _ _ => none
  veto := fun _ r => if r = b! "b" then some errBadRoom else none

example : [b! "a", b! "b", b! "c"].Nodup ∧
    leaveAll refusesB (b! "n") [b! "a", b! "b", b! "c"] = ⟨[b! "b", b! "c"],
      [.ask (b! "a"), .leave (b! "n") (b! "a") false, .left (b! "n") (b! "a") false, .ask (b! "b")], some errBadRoom⟩ ∧
    leaveAll vetoesB (b! "n") [b! "b", b! "a"] = ⟨[b! "b", b! "a"],
      [.ask (b! "b"), .leave (b! "n") (b! "b") false], some errBadRoom⟩ ∧
    (leaveAll refusesB (b! "n") [b! "a", b! "c"]).err = none := by decide +kernel

/-- C58: `DisconnectAll` disconnects the namespaces one after the other: a request, OnRoomLeave and OnRoomLeft for
each room, OnNamespaceDisconnect, and the unsubscription if there is an exchange; until the first one that the other
side refuses. That error is returned, and from that namespace on the connection stays connected to all, in all
rooms. OnNamespaceDisconnect cannot refuse. -/
theorem c58_disconnect_all {order : List (Bytes × List Bytes)} (hn : (order.map (·.1)).Nodup)
    (ho : env.onlyNative = false) : ∃ gone rest, order = gone ++ rest ∧
    (disconnectAll env order).conn = rest ∧
    ((rest = [] ∧ (disconnectAll env order).err = none ∧
        (disconnectAll env order).log = gone.flatMap (wholeDisconnect env.exchange)) ∨
      ∃ p rest' e, rest = p :: rest' ∧ (disconnectAll env order).err = some e ∧
        env.ask (gone.flatMap (wholeDisconnect env.exchange)) p.1 = some e ∧
        (disconnectAll env order).log = gone.flatMap (wholeDisconnect env.exchange) ++ [.ask p.1]) := by
  obtain ⟨gone, rest, h1, h2, h3⟩ := discWalk_exact (env := env) hn []
  have he : disconnectAll env order = discWalk env order order [] := by simp [disconnectAll, ho]
  rw [he]
  exact ⟨gone, rest, h1, h2, by simpa using h3⟩

/-- C58: `DisconnectAll` returns nil exactly if no namespace is left over. -/
theorem c58_disconnect_nil {order : List (Bytes × List Bytes)} (hn : (order.map (·.1)).Nodup)
    (ho : env.onlyNative = false) :
    (disconnectAll env order).err = none ↔ (disconnectAll env order).conn = [] := by
  obtain ⟨gone, rest, _, h2, ⟨h3, h4, _⟩ | ⟨r, rest', e, h3, h4, _⟩⟩ := c58_disconnect_all (env := env) hn ho
  · simp [h2, h3, h4]
  · simp [h2, h3, h4]

/-- C58: a connection that handles native messages only is left alone. -/
theorem c58_native (ho : env.onlyNative = true) (order : List (Bytes × List Bytes)) :
    disconnectAll env order = ⟨order, [], none⟩ := by simp [disconnectAll, ho]

example : (([(b! "a", [b! "r"]), (b! "b", []), (b! "c", [])] : List (Bytes × List Bytes)).map (·.1)).Nodup ∧
    refusesB.onlyNative = false ∧
    disconnectAll { refusesB with exchange := true } [(b! "a", [b! "r"]), (b! "b", []), (b! "c", [])] =
      ⟨[(b! "b", []), (b! "c", [])], [.ask (b! "a"), .leave (b! "a") (b! "r") true, .left (b! "a") (b! "r") true,
        .disconnect (b! "a"), .unsubscribe (b! "a"), .ask (b! "b")], some errBadRoom⟩ ∧
    { refusesB with onlyNative := true }.onlyNative = true := by decide +kernel

/-! ## C59: whether they return -/

variable {kind : BulkKind} {n : Nat} {inbox : List BulkMsg} {s : BulkSt}

/-- C59: from any state of the call it can still return, if and only if the reader will not have to wait for the call
before it delivers the answer: no message that takes the same mutex is ahead of it. -/
theorem c59_exact_partial (hin : BulkMsg.answer ∉ inbox) (hr : BulkReach kind n inbox s) :
    (∃ ops s', s.run ops = some s' ∧ s'.returned = true) ↔ ¬ Doomed s := by
  have hi := bulkInv_reach hin hr
  constructor
  · rintro ⟨ops, s', h1, h2⟩ hd
    have := (doomed_run hi hd h1).1
    simp [BulkSt.returned] at h2
    exact this h2
  · exact bulk_returns hi

/-- C59: as long as nothing else comes that takes the mutex, the call returns once every request is answered: whoever is
not done waits for an answer that was not sent, or somebody can make a step ... -/
theorem c59_progress_partial (hin : BulkMsg.answer ∉ inbox) (hr : BulkReach kind n inbox s) (hh : Harmless s)
    (hd : s.returned = false) : (s.asking = true ∧ s.answered = false) ∨
      ∃ op s', (op = .send ∨ op = .take ∨ op = .read) ∧ s.step op = some s' := by
  have hi := bulkInv_reach hin hr
  obtain ⟨kind, todo, asking, answered, box, inbox⟩ := s
  simp [BulkSt.returned] at hd
  cases asking with
  | false => exact .inr ⟨.send, _, .inl rfl, by simp [BulkSt.step, hd]; rfl⟩
  | true =>
    cases answered with
    | false => exact .inl ⟨rfl, rfl⟩
    | true =>
      cases box with
      | true => exact .inr ⟨.take, _, .inr (.inl rfl), by simp [BulkSt.step]; rfl⟩
      | false =>
        simp [BulkInv] at hi
        cases inbox with
        | nil => simp at hi
        | cons m rest =>
          have hm := hh m List.mem_cons_self
          simp only at hm
          refine .inr ⟨.read, ?_⟩
          by_cases ha : m = .answer
          · subst ha; exact ⟨_, .inr (.inr rfl), rfl⟩
          · cases m <;> first | exact absurd rfl ha | exact ⟨_, .inr (.inr rfl), by simp [BulkSt.step, hm]; rfl⟩

/-- C59: ... and only boundedly many steps can be made between messages of the other side. -/
theorem c59_bound_partial (hin : BulkMsg.answer ∉ inbox) (hr : BulkReach kind n inbox s) {ops : List BulkOp}
    {s' : BulkSt} (hs : s.run ops = some s') : ops.length ≤ s.weight + 2 * arrivals ops :=
  bulk_bound (bulkInv_reach hin hr) (bulk_todo_reach hin hr) hs

/-- The claim of C59 is false: a client that is in one namespace calls `DisconnectAll`; the server, before it handles
the request, emits an event. The server answers, but the call never returns, whatever the server sends later, and no
message is ever handled again. -/
theorem c59_refuted_event : ∃ s : BulkSt, BulkReach .disconnectAll 1 [] s ∧ s.answered = true ∧
    ∀ ops s', s.run ops = some s' → s'.returned = false ∧ .read ∉ ops := by
  refine ⟨⟨.disconnectAll, 1, true, true, false, [.event 0, .answer]⟩, ?_, rfl, ?_⟩
  · exact .step (op := .arrive .answer) (.step (op := .arrive (.event 0)) (.step (op := .send) .start rfl) rfl) rfl
  · intro ops s' h
    have hi : BulkInv ⟨.disconnectAll, 1, true, true, false, [.event 0, .answer]⟩ := by simp [BulkInv]
    have hd : Doomed ⟨.disconnectAll, 1, true, true, false, [.event 0, .answer]⟩ :=
      ⟨by simp, ⟨.event 0, by simp, rfl⟩, by simp [BulkKind.blocks]⟩
    have hd' := doomed_run hi hd h
    refine ⟨by simp [BulkSt.returned]; exact hd'.1, ?_⟩
    suffices H : ∀ (ops : List BulkOp) (q : List BulkMsg) (s' : BulkSt),
        (⟨.disconnectAll, 1, true, true, false, .event 0 :: q⟩ : BulkSt).run ops = some s' → .read ∉ ops from H _ _ _ h
    intro ops
    induction ops with
    | nil => intro q s' _; simp
    | cons op ops ih =>
      intro q s' h
      cases op with
      | send => simp [BulkSt.run, BulkSt.step] at h
      | take => simp [BulkSt.run, BulkSt.step] at h
      | read => simp [BulkSt.run, BulkSt.step, BulkKind.blocks] at h
      | arrive m =>
        cases m <;> simp [BulkSt.run, BulkSt.step] at h
        all_goals simpa using ih _ _ h

/-- The same for `LeaveAll`: both sides leave all rooms of one namespace at the same time. The request of the other side
is ahead of its answer, and the call never returns. -/
theorem c59_refuted_both_leave (n : Nat) : ∃ s : BulkSt, BulkReach (.leaveAll n) 1 [] s ∧ s.answered = true ∧
    ∀ ops s', s.run ops = some s' → s'.returned = false := by
  refine ⟨⟨.leaveAll n, 1, true, true, false, [.room n, .answer]⟩, ?_, rfl, ?_⟩
  · exact .step (op := .arrive .answer) (.step (op := .arrive (.room n)) (.step (op := .send) .start rfl) rfl) rfl
  · intro ops s' h
    have hi : BulkInv ⟨.leaveAll n, 1, true, true, false, [.room n, .answer]⟩ := by simp [BulkInv]
    have hd : Doomed ⟨.leaveAll n, 1, true, true, false, [.room n, .answer]⟩ :=
      ⟨by simp, ⟨.room n, by simp, by simp [BulkKind.blocks]⟩, by simp [BulkKind.blocks]⟩
    have hd' := doomed_run hi hd h
    simp [BulkSt.returned]; exact hd'.1

/-- C59 fails for `LeaveAll` also when the other side disconnects the namespace meanwhile. -/
theorem c59_refuted_disconnect (n : Nat) : ∃ s : BulkSt, BulkReach (.leaveAll n) 1 [] s ∧ s.answered = true ∧
    ∀ ops s', s.run ops = some s' → s'.returned = false := by
  refine ⟨⟨.leaveAll n, 1, true, true, false, [.disconnect n, .answer]⟩, ?_, rfl, ?_⟩
  · exact .step (op := .arrive .answer) (.step (op := .arrive (.disconnect n)) (.step (op := .send) .start rfl) rfl) rfl
  · intro ops s' h
    have hi : BulkInv ⟨.leaveAll n, 1, true, true, false, [.disconnect n, .answer]⟩ := by simp [BulkInv]
    have hd : Doomed ⟨.leaveAll n, 1, true, true, false, [.disconnect n, .answer]⟩ :=
      ⟨by simp, ⟨.disconnect n, by simp, by simp [BulkKind.blocks]⟩, by simp [BulkKind.blocks]⟩
    have hd' := doomed_run hi hd h
    simp [BulkSt.returned]; exact hd'.1

/-- C59: the messages that have to wait for the call are exactly those whose handling takes the mutex that the call
takes first and keeps to its end. -/
theorem c59_mutex (c n : Nat) (server : Bool) (kind : BulkKind) (msg : BulkMsg)
    (each : List (List Acc × List Acc × List Acc)) :
    (kind.blocks msg = true ↔ ∃ a ∈ handlerAcc c server msg, Acc.Takes (callMutex c kind) a) ∧
    (∃ l, leaveAllAcc c n each = [.lock (callMutex c (.leaveAll n))] ++ l ++ [.unlock (callMutex c (.leaveAll n))]) ∧
    (∃ l, disconnectAllAcc c each = [.lock (callMutex c .disconnectAll)] ++ l ++ [.unlock (callMutex c .disconnectAll)]) := by
  refine ⟨?_, ⟨.load _ :: List.flatMap _ each, by simp only [leaveAllAcc, callMutex, List.cons_append, List.nil_append]; rfl⟩,
    ⟨.load _ :: List.flatMap _ each, by simp only [disconnectAllAcc, callMutex, List.cons_append, List.nil_append]; rfl⟩⟩
  cases kind <;> cases msg <;> cases server <;>
    simp [BulkKind.blocks, handlerAcc, handleMessageAcc, replyConnectAcc, replyDisconnectAcc, replyRoomAcc, namespaceAcc,
      forceLeaveAcc, writeAcc, rdAcc, wrAcc, Acc.Takes, callMutex, eq_comm]

/-- a `LeaveAll` with two rooms, an event on the way, and both answers -/
example : ∃ s s' : BulkSt, BulkReach (.leaveAll 0) 2 [] s ∧ ¬ Doomed s ∧ Harmless s ∧ s.returned = false ∧
    s.run [.arrive .answer, .read, .read, .take, .send, .arrive .answer, .read, .take] = some s' ∧
    s'.returned = true := by
  refine ⟨⟨.leaveAll 0, 2, true, false, false, [.event 0]⟩, _, ?_, ?_, ?_, rfl, rfl, rfl⟩
  · exact .step (op := .arrive (.event 0)) (.step (op := .send) .start rfl) rfl
  · rintro ⟨_, ⟨m, hm, hb⟩, _⟩
    simp at hm
    subst hm
    simp [BulkKind.blocks] at hb
  · intro m hm
    simp at hm
    subst hm
    rfl

end Neffos
