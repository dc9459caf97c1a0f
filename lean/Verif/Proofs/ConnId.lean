import Verif.Proofs.ConnOrder
/-!
Helper: what changes the ID of a connection.
-/
namespace Neffos
open Spec

variable {cfg : Cfg}

/-- the ID stays -/
def IdSame (s t : St) : Prop := t.id = s.id

theorem id_calm : Calm IdSame :=
  ⟨fun _ => rfl, fun h k => k.trans h, fun _ _ => rfl, fun _ _ => rfl, fun _ => rfl,
    fun _ _ _ => rfl, fun _ _ => rfl, fun _ => rfl, fun _ _ => rfl, fun _ _ => rfl⟩

theorem idSame_replyConnect (s : St) (msg : Message) : IdSame s (replyConnect cfg s msg) := by
  unfold replyConnect
  split
  · rfl
  · split
    · exact id_calm.writeEmptyReply _ _
    · split
      · exact id_calm.write _ _
      · simp only [newObj]
        have h0 : IdSame s { s with objs := s.objs ++ [⟨msg.ns, []⟩] } := rfl
        split
        · rename_i t e he
          exact id_calm.trans (id_calm.trans h0 (id_calm.fire' he)) (id_calm.write _ _)
        · rename_i t he
          have h1 := id_calm.trans h0 (id_calm.fire' he)
          have h2 : IdSame t { t with connected := mapSet t.connected msg.ns s.objs.length } := rfl
          exact id_calm.trans (id_calm.trans (id_calm.trans h1 h2) (id_calm.writeEmptyReply _ _))
            (id_calm.notifyConnected _ _ _)

theorem idSame_replyRoomJoin (s : St) (obj : Nat) (msg : Message) :
    IdSame s (replyRoomJoin cfg s obj msg) := by
  unfold replyRoomJoin
  split
  · rfl
  · split
    · exact id_calm.writeEmptyReply _ _
    · split
      · rename_i t e he
        exact id_calm.trans (id_calm.fire' he) (id_calm.write _ _)
      · rename_i t he
        have h2 : IdSame t (t.setRooms obj (addRoom msg.room)) := rfl
        exact id_calm.trans (id_calm.trans (id_calm.trans (id_calm.fire' he) h2)
          (id_calm.fire _ _ _)) (id_calm.writeEmptyReply _ _)

theorem idSame_afterGate (s : St) (msg : Message) : IdSame s (afterGate cfg s msg) := by
  unfold afterGate
  split
  · exact id_calm.write _ _
  · split
    · exact idSame_replyRoomJoin _ _ _
    · split
      · exact id_calm.replyRoomLeave _ _ _
      · exact id_calm.handleEvent _ _ _

theorem idSame_handleMessage (s : St) (msg : Message) : IdSame s (handleMessage cfg s msg) := by
  have hd : IdSame s (dispatch cfg s msg) := by
    unfold dispatch
    split
    · exact idSame_replyConnect _ _
    · split
      · exact id_calm.replyDisconnect _ _
      · split
        · rfl
        · exact idSame_afterGate _ _
  unfold handleMessage
  split
  · rfl
  · split
    · split
      · rfl
      · exact id_calm.fire _ _ _
    · split
      · split
        · rfl
        · split
          · rfl
          · split
            · unfold deliver
              split
              · rfl
              · split <;> rfl
            · exact hd
      · exact hd

theorem idSame_readerExit (s : St) : IdSame s (readerExit cfg s) :=
  id_calm.readerExit (fun _ _ => rfl) s

theorem idSame_drain (q : List (MsgType × Bytes)) (s : St) : IdSame s (drain cfg s q) := by
  induction q generalizing s with
  | nil =>
    unfold drain
    dsimp only
    split
    · unfold finishAck
      dsimp only
      have h1 : IdSame s (rawWrite cfg { s with todo := [], ackAfter := false } (65 :: s.id) false).1 :=
        id_calm.rawWrite (cfg := cfg) { s with todo := [], ackAfter := false } (65 :: s.id) false
      split
      · exact h1
      · exact id_calm.trans h1 (idSame_readerExit _)
    · rfl
  | cons p q ih =>
    obtain ⟨t, b⟩ := p
    unfold drain
    dsimp only
    have h0 : IdSame s (handlePayload cfg { s with rd := .idle } t b) :=
      idSame_handleMessage { s with rd := .idle } _
    split
    · exact id_calm.trans h0 (ih _)
    · exact h0

theorem idSame_ackReady (s : St) (e : Option GoErr) : IdSame s (ackReady cfg s e) := by
  unfold ackReady
  split
  · exact id_calm.trans (id_calm.rawWrite _ _ _) (idSame_readerExit _)
  · dsimp only
    exact idSame_drain _ ({ s with acked := true, queueText := [], queueBinary := [],
                                   ackAfter := true, rd := .idle } : St)

theorem idSame_signalReady (s : St) (e : Option GoErr) : IdSame s (s.signalReady e) := by
  unfold St.signalReady; split <;> rfl

theorem idSame_gateDone (s : St) (ns : Bytes) : IdSame s (gateDone s ns) := by
  unfold gateDone
  split
  · rfl
  · split <;> rfl

theorem idSame_finish (s : St) (k : Cont) (m : Message) (err : Option GoErr) :
    IdSame s (finish cfg s k m err) := by
  cases k with
  | connect ns obj =>
    cases err with
    | some e => exact id_calm.trans (id_calm.emit _ _) (idSame_gateDone _ _)
    | none =>
      simp only [finish]
      have h1 : IdSame s { s with connected := mapSet s.connected ns obj } := rfl
      exact id_calm.trans (id_calm.trans (id_calm.trans h1 (id_calm.notifyConnected _ _ _))
        (id_calm.emit _ _)) (idSame_gateDone _ _)
  | disconnect obj msg =>
    cases err with
    | some e => exact id_calm.emit _ _
    | none =>
      simp only [finish]
      exact id_calm.trans (id_calm.trans (id_calm.trans (id_calm.trans
        (id_calm.forceLeaveAll _ _ _) (id_calm.nsDel _ _)) (id_calm.fire _ _ _))
        (id_calm.notifyDisconnect _ _)) (id_calm.emit _ _)
  | join obj msg =>
    cases err with
    | some e => exact id_calm.emit _ _
    | none =>
      simp only [finish]
      split
      · rename_i t e he
        exact id_calm.trans (id_calm.fire' he) (id_calm.emit _ _)
      · rename_i t he
        have h2 : IdSame t (t.setRooms obj (addRoom msg.room)) := rfl
        exact id_calm.trans (id_calm.trans (id_calm.trans (id_calm.fire' he) h2)
          (id_calm.fire _ _ _)) (id_calm.emit _ _)
  | leave obj msg =>
    cases err with
    | some e => exact id_calm.emit _ _
    | none =>
      simp only [finish]
      split
      · rename_i t e he
        exact id_calm.trans (id_calm.fire' he) (id_calm.emit _ _)
      · rename_i t he
        exact id_calm.trans (id_calm.trans (id_calm.trans (id_calm.fire' he)
          (id_calm.del _ _ _)) (id_calm.fire _ _ _)) (id_calm.emit _ _)
  | user => exact id_calm.emit _ _

theorem idSame_newAsk (s : St) (tok : Bytes) (k : Cont) : IdSame s (newAsk s tok k) := by
  unfold newAsk; split <;> rfl

theorem idSame_startAsk (s : St) (k : Cont) (msg : Message) (now : Int) (ex : Bool) :
    IdSame s (startAsk cfg s k msg now ex) := by
  unfold startAsk
  split
  · exact idSame_finish _ _ _ _
  · split
    · exact idSame_finish _ _ _ _
    · split
      · exact idSame_finish _ _ _ _
      · dsimp only
        have h1 := id_calm.trans (idSame_newAsk s (genWait cfg.isClient now) k)
          (id_calm.write (cfg := cfg) (newAsk s (genWait cfg.isClient now) k)
            { msg with wait := genWait cfg.isClient now })
        revert h1
        generalize write cfg (newAsk s (genWait cfg.isClient now) k)
            { msg with wait := genWait cfg.isClient now } = p
        obtain ⟨t, ok⟩ := p
        intro h1
        cases ok with
        | true => exact h1
        | false =>
          dsimp only
          have h2 : IdSame t (endAsk t s.asks.length) := rfl
          exact id_calm.trans (id_calm.trans h1 h2) (idSame_finish _ _ _ _)

theorem idSame_connect (s : St) (ns : Bytes) (now : Int) (ex : Bool) :
    IdSame s (connect cfg s ns now ex) := by
  have hm := id_calm.markReady (cfg := cfg) s
  unfold connect
  dsimp only
  revert hm
  generalize s.markReady cfg = s0
  intro hm
  split
  · exact hm
  · have hg : IdSame s (gateStart s0 ns) := hm
    revert hg
    generalize gateStart s0 ns = s1
    intro hg
    split
    · exact id_calm.trans (id_calm.trans hg (id_calm.emit _ _)) (idSame_gateDone _ _)
    · split
      · exact id_calm.trans (id_calm.trans hg (id_calm.emit _ _)) (idSame_gateDone _ _)
      · simp only [newObj]
        have h0 : IdSame s { s1 with objs := s1.objs ++ [⟨ns, []⟩] } := hg
        split
        · rename_i t e he
          exact id_calm.trans (id_calm.trans (id_calm.trans h0 (id_calm.fire' he))
            (id_calm.emit _ _)) (idSame_gateDone _ _)
        · rename_i t he
          exact id_calm.trans (id_calm.trans h0 (id_calm.fire' he)) (idSame_startAsk _ _ _ _ _)

theorem idSame_recv (s : St) (typ : MsgType) (b : Bytes) :
    IdSame s (recv cfg s typ b) ∨
      (s.acked = false ∧ ∃ rest, b = 65 :: rest ∧ (recv cfg s typ b).id = rest ∧
        (recv cfg s typ b).acked = true) := by
  unfold recv
  split
  · exact .inl rfl
  · split
    · exact .inl (idSame_handleMessage _ _)
    · rename_i hb ha
      unfold handleACK
      split
      · exact .inl rfl
      · rename_i c rest
        split
        · split
          · exact .inl rfl
          · exact .inl (idSame_ackReady _ _)
        · split
          · rename_i h2
            refine .inr ⟨by simpa using ha, rest, by rw [h2], ?_, ?_⟩
            · exact idSame_signalReady _ _
            · unfold St.signalReady; split <;> rfl
          · split
            · exact .inl (id_calm.trans (idSame_signalReady _ _) (idSame_readerExit _))
            · split <;> exact .inl rfl

theorem idSame_exec {s s' : St} {op : Op} (h : exec cfg s op = some s') :
    IdSame s s' ∨ (s.acked = false ∧ ∃ typ rest, op = .recv typ (65 :: rest) ∧ s'.id = rest ∧
      s'.acked = true) := by
  cases op with
  | recv typ b =>
    simp only [exec] at h
    split at h
    · cases h
      rcases idSame_recv (cfg := cfg) s typ b with h | ⟨h1, rest, rfl, h2, h3⟩
      · exact .inl h
      · exact .inr ⟨h1, typ, rest, rfl, h2, h3⟩
    · simp at h
  | readErr e =>
    simp only [exec] at h
    split at h
    · cases h; exact .inl (id_calm.trans (idSame_signalReady _ _) (idSame_readerExit _))
    · simp at h
  | wake =>
    left
    simp only [exec] at h
    unfold wakeReader at h
    split at h
    · split at h
      · rename_i msg _ _
        dsimp only at h
        have h1 : IdSame s (afterGate cfg { s with rd := .idle } msg) :=
          idSame_afterGate { s with rd := .idle } msg
        split at h
        · cases h; exact id_calm.trans h1 (idSame_drain _ _)
        · cases h; exact h1
      · simp at h
    · split at h
      · simp at h
      · cases h; exact idSame_ackReady _ _
    · simp at h
  | contReader =>
    simp only [exec, contReader] at h
    split at h
    · cases h; exact .inl (idSame_drain _ _)
    · simp at h
  | connect ns now ex => cases h; exact .inl (idSame_connect _ _ _ _)
  | disconnect obj now ex =>
    left
    simp only [exec] at h
    split at h
    · cases h
      unfold disconnect
      dsimp only
      split
      · exact id_calm.emit _ _
      · exact idSame_startAsk _ _ _ _ _
    · simp at h
  | join obj room now ex =>
    left
    simp only [exec] at h
    split at h
    · cases h
      unfold joinRoom
      dsimp only
      split
      · exact id_calm.emit _ _
      · exact idSame_startAsk _ _ _ _ _
    · simp at h
  | leave obj room now ex =>
    left
    simp only [exec] at h
    split at h
    · cases h
      unfold leaveRoom
      dsimp only
      split
      · exact idSame_startAsk _ _ _ _ _
      · exact id_calm.emit _ _
    · simp at h
  | ask msg now ex => cases h; exact .inl (idSame_startAsk _ _ _ _ _)
  | write msg => cases h; exact .inl (id_calm.write _ _)
  | resume i =>
    left
    simp only [exec, resume] at h
    split at h
    · simp at h
    · rename_i a ha
      split at h
      · simp at h
      · split at h
        · simp at h
        · cases h
          have e1 : ∀ t : St, IdSame t (forget t a) := by
            intro t; unfold forget; split <;> rfl
          have e2 : IdSame s (takeAnswer s i a) := by
            unfold takeAnswer
            split
            · split <;> rfl
            · rfl
          have e3 : IdSame (takeAnswer s i a) (endAsk (takeAnswer s i a) i) := rfl
          exact id_calm.trans (id_calm.trans (id_calm.trans e2 e3) (e1 _)) (idSame_finish _ _ _ _)
  | cancel i e =>
    left
    simp only [exec, cancel] at h
    split at h
    · simp at h
    · split at h
      · simp at h
      · cases h
        exact idSame_finish (endAsk s i) _ _ _
  | close => cases h; exact .inl (id_calm.closeConn _)
  | steal i typ b =>
    left
    simp only [exec, steal] at h
    split at h
    · simp at h
    · split at h
      · cases h; rfl
      · simp at h
  | stealErr i e =>
    left
    simp only [exec, steal] at h
    split at h
    · simp at h
    · split at h
      · cases h; rfl
      · simp at h
  | ready e => cases h; exact .inl (idSame_signalReady _ _)
  | sendAck =>
    left
    simp only [exec] at h
    split at h
    · cases h; rfl
    · have hw := id_calm.rawWrite (cfg := cfg) s (b! "M") false
      revert h hw
      generalize rawWrite cfg s (b! "M") false = p
      obtain ⟨t, ok⟩ := p
      intro h hw
      cases ok with
      | true => cases h; exact hw
      | false => cases h; exact id_calm.trans hw (id_calm.closeConn _)
  | srvAsk tok => cases h; exact .inl rfl
  | srvUnask tok => cases h; exact .inl rfl

end Neffos
