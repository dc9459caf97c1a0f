import Verif.Proofs.ConnWhole
import Verif.Proofs.ConnId
import Verif.Proofs.ConnRun
/-!
# The acknowledgement (C25, C26)
-/
set_option autoImplicit false
namespace Neffos
open Spec

variable {cfg : Cfg} {id : Bytes}

/-! ## C25 -/

/-- an acknowledged connection stays acknowledged until it is closed -/
theorem fine_acked {s s' : St} (h : Fine cfg s s') (ha : s.acked = true ∨ s.closed = true) :
    s'.acked = true ∨ s'.closed = true := by
  cases h with
  | setClosed => exact .inr rfl
  | unack hc => exact .inr hc
  | setAcked => exact .inl rfl
  | ident => exact .inl rfl
  | _ => exact ha

theorem step_acked {s s' : St} {op : Op} (hr : Reach cfg id s) (hs : step cfg s op = some s')
    (ha : s.acked = true ∨ s.closed = true) : s'.acked = true ∨ s'.closed = true := by
  have h := Prims.fines (reach_prims hr hs)
  clear hs
  induction h with
  | refl => exact ha
  | tail _ hf ih => exact fine_acked hf ih

theorem run_closed {s s' : St} {ops : List Op} (hr : Reach cfg id s) (hs : runOps cfg s ops = some s')
    (hc : s.closed = true) : s'.closed = true := by
  induction ops generalizing s with
  | nil => cases hs; exact hc
  | cons op ops ih =>
    simp only [runOps] at hs
    split at hs
    · rename_i t ht
      exact ih (.step hr ht) hs ((Prims.grows (reach_prims hr ht)).closed hc)
    · cases hs

/-- C25, partial: whatever happens, the ID is the generated one or the rest of a payload that
starts with `A` and was read by this connection. -/
theorem c25_source_partial {ops : List Op} {s : St} (h : runOps cfg (newConn cfg id) ops = some s) :
    s.id = id ∨ ∃ typ, Op.recv typ (65 :: s.id) ∈ ops := by
  have gen : ∀ ops s0, runOps cfg s0 ops = some s → s.id = s0.id ∨ ∃ typ, Op.recv typ (65 :: s.id) ∈ ops := by
    intro ops
    induction ops with
    | nil => intro s0 h; cases h; exact .inl rfl
    | cons op ops ih =>
      intro s0 h
      simp only [runOps] at h
      split at h
      · rename_i t ht
        rcases ih t h with h1 | ⟨typ, h1⟩
        · rcases idSame_exec (step_exec ht).1 with h2 | ⟨_, typ, rest, rfl, h2, _⟩
          · exact .inl (h1.trans h2)
          · exact .inr ⟨typ, by rw [h1, h2]; simp⟩
        · exact .inr ⟨typ, List.mem_cons_of_mem _ h1⟩
      · cases h
  have := gen ops _ h
  have e : (newConn cfg id).id = id := by unfold newConn; split <;> rfl
  rw [e] at this
  exact this

/-- C25, partial: once acknowledged, the ID stays for as long as the connection is open, whatever
the peer sends. -/
theorem c25_fixed_partial {s s' : St} {ops : List Op} (hr : Reach cfg id s) (ha : s.acked = true)
    (h : runOps cfg s ops = some s') (hc : s'.closed = false) : s'.id = s.id ∧ s'.acked = true := by
  induction ops generalizing s with
  | nil => cases h; exact ⟨rfl, ha⟩
  | cons op ops ih =>
    simp only [runOps] at h
    split at h
    · rename_i t ht
      have hr' := Reach.step hr ht
      have ht' : t.acked = true := by
        rcases step_acked hr ht (.inl ha) with h1 | h1
        · exact h1
        · rw [run_closed hr' h h1] at hc; cases hc
      obtain ⟨h1, h2⟩ := ih hr' ht' h
      refine ⟨?_, h2⟩
      rcases idSame_exec (step_exec ht).1 with h3 | ⟨h3, _⟩
      · rw [h1, h3]
      · rw [ha] at h3; cases h3
    · cases h

example : ∃ s, Reach (serverCfg chatDecl noCb) (b! "u1") s ∧ s.acked = true ∧
    (runOps (serverCfg chatDecl noCb) s [.recv .text (b! "Aadmin"), .recv .text (b! "M")]).map
      (fun s' => (s'.closed, s'.id)) = some (false, b! "u1") :=
  ⟨after _ _ [.ready none, .recv .text (b! "M")], after_reach (by decide +kernel), by decide +kernel,
    by decide +kernel⟩

/-- C25 fails: a client that opens with `A` followed by a name is known under that name on the
server, is acknowledged without the server's OnConnect having returned, and can connect to
namespaces. -/
theorem c25_refuted :
    let s := after (serverCfg chatDecl noCb) (b! "u1") [.recv .text (b! "Aadmin")]
    let s' := after (serverCfg chatDecl noCb) (b! "u1") [.recv .text (b! "Aadmin"),
      .recv .text (b! "1;chat;;_OnNamespaceConnect;0;0;")]
    Reach (serverCfg chatDecl noCb) (b! "u1") s ∧ s.id = b! "admin" ∧ s.acked = true ∧ s.closed = false ∧
    Reach (serverCfg chatDecl noCb) (b! "u1") s' ∧ (s'.namespace (b! "chat")).isSome = true :=
  ⟨after_reach (by decide +kernel), by decide +kernel, by decide +kernel, by decide +kernel,
    after_reach (by decide +kernel), by decide +kernel⟩

/-! ## C26 -/

/-- a payload that is none of the three acknowledgement messages -/
def PlainPayload (b : Bytes) : Prop := ∃ c rest, b = c :: rest ∧ c ≠ 77 ∧ c ≠ 65 ∧ c ≠ 72

/-- the payloads of one type -/
def ofType (t : MsgType) (ps : List (MsgType × Bytes)) : List Bytes :=
  (ps.filter (fun p => p.1 = t)).map (·.2)

/-- handle these payloads in order -/
def handleEach (cfg : Cfg) (s : St) (ps : List (MsgType × Bytes)) : St :=
  ps.foldl (fun s p => handlePayload cfg s p.1 p.2) s

/-- C26, partial: before the acknowledgement payloads are only stored, in order for each type. -/
theorem c26_stored_partial {s : St} (ps : List (MsgType × Bytes)) (hps : ∀ p ∈ ps, PlainPayload p.2)
    (ha : s.acked = false) (hh : s.hung = false) (hrd : s.rd = .idle) (ht : s.todo = [])
    (hk : s.ackAfter = false) :
    runOps cfg s (ps.map (fun p => .recv p.1 p.2)) = some { s with
      queueText := s.queueText ++ ofType .text ps, queueBinary := s.queueBinary ++ ofType .binary ps } := by
  induction ps generalizing s with
  | nil => simp [runOps, ofType]
  | cons p ps ih =>
    obtain ⟨typ, b⟩ := p
    obtain ⟨c, rest, hb, h1, h2, h3⟩ := hps (typ, b) (List.mem_cons_self ..)
    simp only at hb
    have hne : b ≠ [] := by rw [hb]; simp
    have hps' : ∀ p ∈ ps, PlainPayload p.2 := fun p hp => hps p (List.mem_cons_of_mem _ hp)
    clear hps
    have hst : ∀ t, recv cfg s typ b = t → t.hung = false → step cfg s (.recv typ b) = some t := by
      intro t h1 h2
      unfold step
      simp only [exec]
      rw [if_pos ⟨hrd, ht, hk⟩]
      simp [h1, h2]
    cases typ with
    | text =>
      have hrecv : recv cfg s .text b = { s with queueText := s.queueText ++ [b] } := by
        unfold recv
        rw [if_neg hne, if_neg (by simp [ha])]
        subst hb
        unfold handleACK
        simp only [h1, h2, h3, if_false]
      simp only [List.map_cons, runOps, hst _ hrecv hh]
      rw [ih (s := { s with queueText := s.queueText ++ [b] }) hps' ha hh hrd ht hk]
      simp [ofType, List.append_assoc]
    | binary =>
      have hrecv : recv cfg s .binary b = { s with queueBinary := s.queueBinary ++ [b] } := by
        unfold recv
        rw [if_neg hne, if_neg (by simp [ha])]
        subst hb
        unfold handleACK
        simp only [h1, h2, h3, if_false]
      simp only [List.map_cons, runOps, hst _ hrecv hh]
      rw [ih (s := { s with queueBinary := s.queueBinary ++ [b] }) hps' ha hh hrd ht hk]
      simp [ofType, List.append_assoc]

theorem rd_notifyConnected (s : St) (o : Nat) (m : Message) : RdSame s (notifyConnected cfg s o m) := by
  unfold notifyConnected
  dsimp only
  split
  · exact (rd_fire _ _ _).trans (rd_emit _ _)
  · exact rd_fire _ _ _

theorem rd_notifyDisconnect (s : St) (n : Bytes) : RdSame s (notifyDisconnect cfg s n) := by
  unfold notifyDisconnect
  split
  · exact rd_emit _ _
  · exact RdSame.refl _

theorem rd_replyConnect (s : St) (msg : Message) : RdSame s (replyConnect cfg s msg) := by
  unfold replyConnect
  split
  · exact RdSame.refl _
  · split
    · exact rd_writeEmptyReply _ _
    · split
      · exact rd_write _ _
      · simp only [newObj]
        have h0 : RdSame s { s with objs := s.objs ++ [⟨msg.ns, []⟩] } := ⟨rfl, rfl, rfl, rfl, rfl⟩
        split
        · rename_i t e he
          exact (h0.trans (rd_fire' _ _ _ he)).trans (rd_write _ _)
        · rename_i t he
          have h1 := h0.trans (rd_fire' _ _ _ he)
          have h2 : RdSame t { t with connected := mapSet t.connected msg.ns s.objs.length } :=
            ⟨rfl, rfl, rfl, rfl, rfl⟩
          exact ((h1.trans h2).trans (rd_writeEmptyReply _ _)).trans (rd_notifyConnected _ _ _)

theorem rd_replyDisconnect (s : St) (msg : Message) : RdSame s (replyDisconnect cfg s msg) := by
  have h2 : ∀ t : St, RdSame t { t with connected := mapDel t.connected msg.ns } :=
    fun t => ⟨rfl, rfl, rfl, rfl, rfl⟩
  unfold replyDisconnect
  split
  · exact RdSame.refl _
  · split
    · exact rd_writeEmptyReply _ _
    · rename_i obj _
      split
      · exact (((rd_forceLeaveAll s obj false).trans (h2 _)).trans (rd_writeEmptyReply _ _)).trans
          (rd_fire _ _ _)
      · split
        · rename_i t e he
          exact (rd_fire' _ _ _ he).trans (rd_write _ _)
        · rename_i t he
          exact ((((rd_fire' _ _ _ he).trans (rd_forceLeaveAll t obj false)).trans (h2 _)).trans
            (rd_notifyDisconnect _ _)).trans (rd_writeEmptyReply _ _)

/-- handling a payload leaves the reader's variables, unless it blocks -/
theorem rd_handlePayload (s : St) (t : MsgType) (b : Bytes) :
    (handlePayload cfg s t b).todo = s.todo ∧ (handlePayload cfg s t b).ackAfter = s.ackAfter ∧
    ((handlePayload cfg s t b).rd = s.rd ∨ (∃ m, (handlePayload cfg s t b).rd = .gate m) ∨
      ∃ i m, (handlePayload cfg s t b).rd = .send i m) := by
  unfold handlePayload
  generalize deserializeMessage cfg.known t b cfg.allowNative cfg.onlyNative = msg
  have same : ∀ {u : St}, RdSame s u → u.todo = s.todo ∧ u.ackAfter = s.ackAfter ∧
      (u.rd = s.rd ∨ (∃ m, u.rd = .gate m) ∨ ∃ i m, u.rd = .send i m) :=
    fun h => ⟨h.todo, h.ackAfter, .inl h.rd⟩
  have hd : (dispatch cfg s msg).todo = s.todo ∧ (dispatch cfg s msg).ackAfter = s.ackAfter ∧
      ((dispatch cfg s msg).rd = s.rd ∨ (∃ m, (dispatch cfg s msg).rd = .gate m) ∨
        ∃ i m, (dispatch cfg s msg).rd = .send i m) := by
    unfold dispatch
    split
    · exact same (rd_replyConnect _ _)
    · split
      · exact same (rd_replyDisconnect _ _)
      · split
        · exact ⟨rfl, rfl, .inr (.inl ⟨msg, rfl⟩)⟩
        · exact same (rd_afterGate _ _)
  unfold handleMessage
  split
  · exact same (RdSame.refl _)
  · split
    · split
      · exact ⟨rfl, rfl, .inl rfl⟩
      · exact same (rd_fire _ _ _)
    · split
      · split
        · exact same (rd_emit _ _)
        · split
          · exact same (rd_emit _ _)
          · split
            · unfold deliver
              split
              · exact same (RdSame.refl _)
              · split
                · exact ⟨rfl, rfl, .inl rfl⟩
                · exact ⟨rfl, rfl, .inr (.inr ⟨_, _, rfl⟩)⟩
            · exact hd
      · exact hd

/-- the queue is handled in order, up to a payload at which the reader blocks -/
theorem drain_prefix (q : List (MsgType × Bytes)) {s : St} (hrd : s.rd = .idle) (ht : s.todo = []) :
    ∃ q1 q2, q = q1 ++ q2 ∧
      (((handleEach cfg s q1).rd = .idle ∧ q2 = [] ∧
          drain cfg s q = if s.ackAfter = true then finishAck cfg (handleEach cfg s q1)
            else handleEach cfg s q1) ∨
        ((handleEach cfg s q1).rd ≠ .idle ∧ drain cfg s q = { handleEach cfg s q1 with todo := q2 })) := by
  induction q generalizing s with
  | nil =>
    refine ⟨[], [], rfl, .inl ⟨hrd, rfl, ?_⟩⟩
    unfold drain
    dsimp only
    cases s
    simp only at ht
    subst ht
    rfl
  | cons p q ih =>
    obtain ⟨t, b⟩ := p
    have e : ({ s with rd := .idle } : St) = s := by cases s; simp at hrd; subst hrd; rfl
    have htodo := rd_handlePayload (cfg := cfg) s t b
    unfold drain
    dsimp only
    rw [e]
    by_cases h : (handlePayload cfg s t b).rd = .idle
    · rw [if_pos h]
      obtain ⟨q1, q2, hq, hc⟩ := ih h (htodo.1.trans ht)
      refine ⟨(t, b) :: q1, q2, by rw [hq]; rfl, ?_⟩
      rw [htodo.2.1] at hc
      exact hc
    · rw [if_neg h]
      exact ⟨[(t, b)], q, rfl, .inr ⟨h, rfl⟩⟩

/-- C26, partial: when the client's acknowledgement arrives and OnConnect has accepted, the stored
payloads are handled, those of each type in the order of arrival and the types in some order, up
to one at which the reader blocks; the rest is kept. The answer is written after the last one. -/
theorem c26_handled_partial {s s' : St} {typ : MsgType} {rest : Bytes} (ha : s.acked = false)
    (hr : s.ready = some none) (hs : step cfg s (.recv typ (77 :: rest)) = some s') :
    ∃ q q1 q2,
      (q = s.queueText.map (MsgType.text, ·) ++ s.queueBinary.map (MsgType.binary, ·) ∨
       q = s.queueBinary.map (MsgType.binary, ·) ++ s.queueText.map (MsgType.text, ·)) ∧ q = q1 ++ q2 ∧
      let t := handleEach cfg { s with acked := true, queueText := [], queueBinary := [], ackAfter := true } q1
      (t.rd = .idle ∧ q2 = [] ∧ s' = finishAck cfg t) ∨ (t.rd ≠ .idle ∧ s' = { t with todo := q2 }) := by
  have he := (step_exec hs).1
  simp only [exec] at he
  split at he
  · rename_i h0
    obtain ⟨hrd, htodo, hak⟩ := h0
    cases he
    have e : ({ s with acked := true, queueText := [], queueBinary := [], ackAfter := true, rd := .idle } : St)
        = { s with acked := true, queueText := [], queueBinary := [], ackAfter := true } := by
      rw [← hrd]
    have hrecv : recv cfg s typ (77 :: rest) = drain cfg
        { s with acked := true, queueText := [], queueBinary := [], ackAfter := true }
        (if cfg.textFirst s.log
          then s.queueText.map (MsgType.text, ·) ++ s.queueBinary.map (MsgType.binary, ·)
          else s.queueBinary.map (MsgType.binary, ·) ++ s.queueText.map (MsgType.text, ·)) := by
      rw [← e]
      unfold recv
      rw [if_neg (by simp), if_neg (by simp [ha])]
      unfold handleACK
      simp only [if_true, hr, ackReady]
    rw [hrecv]
    cases hx : cfg.textFirst s.log with
    | true =>
      simp only [if_true]
      obtain ⟨q1, q2, hq, hc⟩ := drain_prefix (cfg := cfg)
        (s.queueText.map (MsgType.text, ·) ++ s.queueBinary.map (MsgType.binary, ·))
        (s := { s with acked := true, queueText := [], queueBinary := [], ackAfter := true }) hrd htodo
      refine ⟨_, q1, q2, .inl rfl, hq, ?_⟩
      simp only [if_true] at hc
      exact hc
    | false =>
      simp only [Bool.false_eq_true, if_false]
      obtain ⟨q1, q2, hq, hc⟩ := drain_prefix (cfg := cfg)
        (s.queueBinary.map (MsgType.binary, ·) ++ s.queueText.map (MsgType.text, ·))
        (s := { s with acked := true, queueText := [], queueBinary := [], ackAfter := true }) hrd htodo
      refine ⟨_, q1, q2, .inr rfl, hq, ?_⟩
      simp only [if_true] at hc
      exact hc
  · cases he

/-- the rest of the queue is handled in order, up to a payload at which the reader blocks -/
theorem drain_rest (q : List (MsgType × Bytes)) {s : St} (hrd : s.rd = .idle) :
    ∃ q1 q2, q = q1 ++ q2 ∧
      let u := handleEach cfg s q1
      (u.rd = .idle ∧ q2 = [] ∧
          drain cfg s q = if s.ackAfter = true then finishAck cfg { u with todo := [] } else { u with todo := [] }) ∨
        (u.rd ≠ .idle ∧ drain cfg s q = { u with todo := q2 }) := by
  induction q generalizing s with
  | nil => exact ⟨[], [], rfl, .inl ⟨hrd, rfl, rfl⟩⟩
  | cons p q ih =>
    obtain ⟨t, b⟩ := p
    have e : ({ s with rd := .idle } : St) = s := by cases s; simp at hrd; subst hrd; rfl
    have htodo := rd_handlePayload (cfg := cfg) s t b
    unfold drain
    dsimp only
    rw [e]
    by_cases h : (handlePayload cfg s t b).rd = .idle
    · rw [if_pos h]
      obtain ⟨q1, q2, hq, hc⟩ := ih h
      refine ⟨(t, b) :: q1, q2, by rw [hq]; rfl, ?_⟩
      rw [htodo.2.1] at hc
      exact hc
    · rw [if_neg h]
      exact ⟨[(t, b)], q, rfl, .inr ⟨h, rfl⟩⟩

/-- C26, partial: a reader that blocked inside the queue goes on with the rest of it, in order, up to the next payload at
which it blocks, and the answer is written after the last one. -/
theorem c26_woken_partial {s s' : St} {msg : Message} (hg : s.rd = .gate msg) (hs : step cfg s .wake = some s') :
    let t := afterGate cfg { s with rd := .idle } msg
    (t.rd ≠ .idle ∧ t.todo = s.todo ∧ s' = t) ∨
      ∃ q1 q2, s.todo = q1 ++ q2 ∧
        let u := handleEach cfg t q1
        (u.rd = .idle ∧ q2 = [] ∧
          s' = if s.ackAfter = true then finishAck cfg { u with todo := [] } else { u with todo := [] }) ∨
        (u.rd ≠ .idle ∧ s' = { u with todo := q2 }) := by
  have he := (step_exec hs).1
  simp only [exec, wakeReader, hg] at he
  split at he
  · have hr := rd_afterGate (cfg := cfg) { s with rd := .idle } msg
    intro t
    split at he <;> cases he
    · rename_i h
      refine .inr ?_
      have ht : t.todo = s.todo := hr.todo
      obtain ⟨q1, q2, hq, hc⟩ := drain_rest (cfg := cfg) t.todo h
      refine ⟨q1, q2, ht ▸ hq, ?_⟩
      rw [hr.ackAfter] at hc
      exact hc
    · rename_i h
      exact .inl ⟨h, hr.todo, rfl⟩
  · cases he

/-- C26, partial: the same when the channel it sent to has been emptied. -/
theorem c26_continued_partial {s s' : St} (hs : step cfg s .contReader = some s') :
    s.rd = .idle ∧ ∃ q1 q2, s.todo = q1 ++ q2 ∧
      let u := handleEach cfg s q1
      (u.rd = .idle ∧ q2 = [] ∧
        s' = if s.ackAfter = true then finishAck cfg { u with todo := [] } else { u with todo := [] }) ∨
      (u.rd ≠ .idle ∧ s' = { u with todo := q2 }) := by
  have he := (step_exec hs).1
  simp only [exec, contReader] at he
  split at he <;> cases he
  rename_i h
  exact ⟨h.1, drain_rest (cfg := cfg) s.todo h.1⟩

/-- C26, partial: a reader that is not blocked and has stored payloads left, or the answer to the acknowledgement, goes on
with them, unless a handler hangs; before that it reads nothing. -/
theorem c26_goes_on_partial {s : St} (hrd : s.rd = .idle) (hl : s.todo ≠ [] ∨ s.ackAfter = true) :
    (∃ q1 q2 s', s.todo = q1 ++ q2 ∧ step cfg s .contReader = (if s'.hung then none else some s') ∧
      let u := handleEach cfg s q1
      (u.rd = .idle ∧ q2 = [] ∧
        s' = if s.ackAfter = true then finishAck cfg { u with todo := [] } else { u with todo := [] }) ∨
      (u.rd ≠ .idle ∧ s' = { u with todo := q2 })) ∧
    (∀ typ b, step cfg s (.recv typ b) = none) ∧ ∀ e, step cfg s (.readErr e) = none := by
  have hn : ¬ (s.rd = .idle ∧ s.todo = [] ∧ s.ackAfter = false) := by
    rintro ⟨-, h1, h2⟩
    rcases hl with h | h
    · exact h h1
    · rw [h2] at h; cases h
  obtain ⟨q1, q2, hq, hc⟩ := drain_rest (cfg := cfg) s.todo hrd
  refine ⟨⟨q1, q2, drain cfg s s.todo, hq, ?_, hc⟩, fun typ b => ?_, fun e => ?_⟩
  · simp only [step, exec, contReader, if_pos (show s.rd = .idle ∧ (s.todo ≠ [] ∨ s.ackAfter = true) from ⟨hrd, hl⟩)]
  · simp only [step, exec, if_neg hn]
  · simp only [step, exec, if_neg hn]

/-- a reader that was blocked on the second of two answers that were stored, and what is left when a call has taken the
first -/
example : let ops : List Op := [.connect (b! "chat") 1 false, .recv .text (b! "$1;chat;;_OnNamespaceConnect;0;0;"),
      .recv .text (b! "$1;chat;;_OnNamespaceConnect;0;0;"), .recv .text (b! ";chat;;ho;0;0;y"), .ready none,
      .recv .text (b! "M"), .resume 0]
    let cfg := clientCfg chatDecl noCb
    (runOps cfg (newConn cfg []) ops).map (fun s => (s.rd, s.todo, s.ackAfter)) =
      some (.idle, [(.text, b! ";chat;;ho;0;0;y")], true) ∧
    (runOps cfg (newConn cfg []) (ops ++ [.contReader])).map (fun s => (s.rd, s.todo, s.ackAfter)) = some (.idle, [], false) := by
  intro ops cfg
  exact ⟨by decide +kernel, by decide +kernel⟩

/-- a reader blocked at the first of two stored payloads, and what is left of them once its gate is released -/
example : let ops : List Op := [.connect (b! "chat") 1 false, .recv .text (b! ";chat;;hi;0;0;x"),
      .recv .text (b! ";chat;;ho;0;0;y"), .ready none, .recv .text (b! "M"), .cancel 0 errWrite]
    let cfg := clientCfg chatDecl noCb
    (runOps cfg (newConn cfg []) ops).map (fun s => (s.rd, s.todo, s.ackAfter)) =
      some (.gate { ns := b! "chat", event := b! "hi", body := b! "x" }, [(.text, b! ";chat;;ho;0;0;y")], true) ∧
    (runOps cfg (newConn cfg []) (ops ++ [.wake])).map (fun s => (s.rd, s.todo, s.ackAfter)) =
      some (.idle, [], false) := by
  intro ops cfg
  exact ⟨by decide +kernel, by decide +kernel⟩

theorem ofType_text (bs : List Bytes) : ofType .text (bs.map (MsgType.text, ·)) = bs ∧
    ofType .binary (bs.map (MsgType.text, ·)) = [] := by
  induction bs with
  | nil => exact ⟨rfl, rfl⟩
  | cons b bs ih => exact ⟨by simpa [ofType] using ih.1, by simpa [ofType] using ih.2⟩

/-- C26, partial: text payloads that arrive before the acknowledgement are handled right after it,
each once and in the order of arrival, and only then the acknowledgement is answered, if none of
them makes the reader wait for a namespace that is being connected or for an Ask. -/
theorem c26_text_partial {s s' : St} (bs : List Bytes) (hbs : ∀ b ∈ bs, PlainPayload b) {typ : MsgType}
    {rest : Bytes} (ha : s.acked = false) (hh : s.hung = false) (hrd : s.rd = .idle) (ht : s.todo = [])
    (hk : s.ackAfter = false) (hr : s.ready = some none) (hq : s.queueText = [] ∧ s.queueBinary = [])
    (hs : runOps cfg s (bs.map (.recv .text ·) ++ [.recv typ (77 :: rest)]) = some s')
    (hfree : s'.rd = .idle ∨ s'.rd = .dead) :
    s' = finishAck cfg (handleEach cfg { s with acked := true, ackAfter := true } (bs.map (MsgType.text, ·))) := by
  have hps : ∀ p ∈ bs.map (MsgType.text, ·), PlainPayload p.2 := by
    intro p hp
    obtain ⟨b, hb, rfl⟩ := List.mem_map.1 hp
    exact hbs b hb
  have h1 := c26_stored_partial (cfg := cfg) _ hps ha hh hrd ht hk
  rw [(ofType_text bs).1, (ofType_text bs).2, List.map_map, hq.1, hq.2] at h1
  simp only [List.nil_append] at h1
  rw [runOps_append] at hs
  have h1' : runOps cfg s (bs.map (Op.recv .text ·)) = some { s with queueText := bs, queueBinary := [] } := h1
  rw [h1'] at hs
  simp only [Option.bind_some, runOps] at hs
  split at hs
  · rename_i t hst
    cases hs
    obtain ⟨q, q1, q2, hq', hqq, hcase⟩ := c26_handled_partial
      (s := { s with queueText := bs, queueBinary := [] }) ha hr hst
    have hq'' : q = bs.map (MsgType.text, ·) := by
      rcases hq' with h | h <;> simpa using h
    have e : ({ s with acked := true, queueText := [], queueBinary := [], ackAfter := true } : St) =
        { s with acked := true, ackAfter := true } := by
      obtain ⟨e1, e2⟩ := hq
      cases s
      simp only at e1 e2
      subst e1 e2
      rfl
    simp only [e] at hcase
    rcases hcase with ⟨_, h2, h3⟩ | ⟨h2, h3⟩
    · rw [h3, ← hq'', hqq, h2, List.append_nil]
    · rw [h3] at hfree
      rcases hfree with h4 | h4
      · exact absurd h4 h2
      · have h5 : ∀ (l : List (MsgType × Bytes)) (u : St), u.rd ≠ .dead → (handleEach cfg u l).rd ≠ .dead := by
          intro l
          induction l with
          | nil => intro u hu; exact hu
          | cons p l ih =>
            intro u hu
            refine ih _ ?_
            rcases (rd_handlePayload (cfg := cfg) u p.1 p.2).2.2 with h | ⟨m, h⟩ | ⟨i, m, h⟩
            · rw [h]; exact hu
            · rw [h]; simp
            · rw [h]; simp
        exact absurd h4 (h5 q1 _ (by simp [hrd]))
  · cases hs

example : ∃ s s', Reach (serverCfg chatDecl noCb) (b! "u1") s ∧ s.acked = false ∧ s.hung = false ∧
    s.rd = .idle ∧ s.todo = [] ∧ s.ackAfter = false ∧ s.ready = some none ∧ s.queueText = [] ∧ s.queueBinary = [] ∧
    runOps (serverCfg chatDecl noCb) s ([b! "1;chat;;_OnNamespaceConnect;0;0;", b! ";chat;;hi;0;0;x"].map
      (.recv .text ·) ++ [.recv .text (b! "M")]) = some s' ∧ (s'.rd = .idle ∨ s'.rd = .dead) ∧
    (callsOf s'.log).map (·.msg.event) = [OnNamespaceConnect, OnNamespaceConnected, b! "hi"] := by
  obtain ⟨s', hs'⟩ := Option.isSome_iff_exists.1 (show (runOps (serverCfg chatDecl noCb)
    (after (serverCfg chatDecl noCb) (b! "u1") [.ready none])
    ([b! "1;chat;;_OnNamespaceConnect;0;0;", b! ";chat;;hi;0;0;x"].map
      (.recv .text ·) ++ [.recv .text (b! "M")])).isSome = true by decide +kernel)
  have h2 : s' = (runOps (serverCfg chatDecl noCb)
    (after (serverCfg chatDecl noCb) (b! "u1") [.ready none])
    ([b! "1;chat;;_OnNamespaceConnect;0;0;", b! ";chat;;hi;0;0;x"].map
      (.recv .text ·) ++ [.recv .text (b! "M")])).getD {} := by rw [hs']; rfl
  refine ⟨after _ _ [.ready none], s', after_reach (by decide +kernel), by decide +kernel, by decide +kernel,
    by decide +kernel, by decide +kernel, by decide +kernel, by decide +kernel, by decide +kernel, by decide +kernel,
    hs', ?_, ?_⟩
  · left; rw [h2]; decide +kernel
  · rw [h2]; decide +kernel

example : PlainPayload (b! "1;chat;;_OnNamespaceConnect;0;0;") ∧ PlainPayload (b! ";chat;;hi;0;0;x") :=
  ⟨⟨_, _, rfl, by decide, by decide, by decide⟩, ⟨_, _, rfl, by decide, by decide, by decide⟩⟩

/-- C26 fails across types: a binary event that arrives between two text payloads is handled after
both. -/
theorem c26_refuted_order :
    let s := after (serverCfg chatDecl noCb) (b! "u1") [.ready none,
      .recv .text (b! "1;chat;;_OnNamespaceConnect;0;0;"), .recv .binary (b! ";chat;;first;0;0;x"),
      .recv .text (b! ";chat;;second;0;0;y"), .recv .text (b! "M")]
    Reach (serverCfg chatDecl noCb) (b! "u1") s ∧
    (callsOf s.log).map (·.msg.event) = [OnNamespaceConnect, OnNamespaceConnected, b! "second", b! "first"] :=
  ⟨after_reach (by decide +kernel), by decide +kernel⟩

/-- the queues stay and the reader is not in the handshake -/
def QueueSame (s t : St) : Prop :=
  t.queueText = s.queueText ∧ t.queueBinary = s.queueBinary ∧ (s.rd ≠ .ack → t.rd ≠ .ack)

theorem queue_whole : Whole QueueSame where
  refl _ := ⟨rfl, rfl, id⟩
  trans h k := ⟨k.1.trans h.1, k.2.1.trans h.2.1, fun x => k.2.2 (h.2.2 x)⟩
  emit _ _ := ⟨rfl, rfl, id⟩
  ready _ _ := ⟨rfl, rfl, id⟩
  hang _ := ⟨rfl, rfl, id⟩
  del _ _ _ := ⟨rfl, rfl, id⟩
  nsDel _ _ := ⟨rfl, rfl, id⟩
  closed _ := ⟨rfl, rfl, id⟩
  waiting _ _ := ⟨rfl, rfl, id⟩
  unack _ _ := ⟨rfl, rfl, id⟩
  newObj _ _ := ⟨rfl, rfl, id⟩
  addRoom _ _ _ := ⟨rfl, rfl, id⟩
  nsAdd _ _ _ := ⟨rfl, rfl, id⟩
  rd _ _ h := ⟨rfl, rfl, fun _ => h⟩
  todo _ _ _ := ⟨rfl, rfl, id⟩
  asks _ _ := ⟨rfl, rfl, id⟩
  wait _ _ := ⟨rfl, rfl, id⟩
  gates _ _ := ⟨rfl, rfl, id⟩
  srv _ _ := ⟨rfl, rfl, id⟩

/-- the queues of an acknowledged connection never change while it is open -/
theorem queue_run {s s' : St} {ops : List Op} (hr : Reach cfg id s) (ha : s.acked = true) (hrd : s.rd ≠ .ack)
    (h : runOps cfg s ops = some s') (hc : s'.closed = false) :
    s'.queueText = s.queueText ∧ s'.queueBinary = s.queueBinary := by
  induction ops generalizing s with
  | nil => cases h; exact ⟨rfl, rfl⟩
  | cons op ops ih =>
    simp only [runOps] at h
    split at h
    · rename_i t ht
      have hr' := Reach.step hr ht
      have ht' : t.acked = true := by
        rcases step_acked hr ht (.inl ha) with h1 | h1
        · exact h1
        · rw [run_closed hr' h h1] at hc; cases hc
      rcases queue_whole.exec (step_exec ht).1 with h3 | ⟨h3, _⟩ | ⟨_, h3⟩
      · obtain ⟨h1, h2⟩ := ih hr' ht' (h3.2.2 hrd) h
        exact ⟨h1.trans h3.1, h2.trans h3.2.1⟩
      · rw [ha] at h3; cases h3
      · exact absurd h3 hrd
    · cases h

/-- C26 fails on the client: what arrived before the acknowledgement stays in the queue and is not
handled, whatever happens until the connection is closed. -/
theorem c26_refuted_client :
    let s := after (clientCfg chatDecl noCb) [] [.recv .text (b! "1;chat;;_OnNamespaceConnect;0;0;"),
      .recv .text (b! "Au1")]
    Reach (clientCfg chatDecl noCb) [] s ∧ s.acked = true ∧ s.closed = false ∧ s.rd = .idle ∧ callsOf s.log = [] ∧
    ∀ ops s', runOps (clientCfg chatDecl noCb) s ops = some s' → s'.closed = false →
      s'.queueText = [b! "1;chat;;_OnNamespaceConnect;0;0;"] := by
  have hr : Reach (clientCfg chatDecl noCb) [] (after (clientCfg chatDecl noCb) []
    [.recv .text (b! "1;chat;;_OnNamespaceConnect;0;0;"), .recv .text (b! "Au1")]) :=
    after_reach (by decide +kernel)
  refine ⟨hr, by decide +kernel, by decide +kernel, by decide +kernel, by decide +kernel, ?_⟩
  intro ops s' h hc
  rw [(queue_run hr (by decide +kernel) (by decide +kernel) h hc).1]
  decide +kernel

/-- C26 fails for native payloads: one that starts with `H` and arrives before the acknowledgement
ends the connection. -/
theorem c26_refuted_native {s : St} (typ : MsgType) (rest : Bytes) (ha : s.acked = false) (hrd : s.rd = .idle)
    (ht : s.todo = []) (hk : s.ackAfter = false) :
    ∃ s', exec cfg s (.recv typ (72 :: rest)) = some s' ∧ s'.closed = true ∧ s'.rd = .dead := by
  refine ⟨readerExit cfg (s.signalReady (some (.text rest))), ?_, ?_, rfl⟩
  · simp only [exec]
    rw [if_pos ⟨hrd, ht, hk⟩]
    unfold recv
    rw [if_neg (by simp), if_neg (by simp [ha])]
    unfold handleACK
    simp
  · exact closeConn_closed _

example : ∃ s, Reach (serverCfg chatDecl noCb) (b! "u1") s ∧ s.acked = false ∧ s.rd = .idle ∧ s.todo = [] ∧
    s.ackAfter = false :=
  ⟨_, .init, by decide, by decide, by decide, by decide⟩

end Neffos
