import Verif.Proofs.ConnOrder
/-!
Helper: relations that every change of a connection respects, except the handshake.
-/
namespace Neffos
open Spec

variable {cfg : Cfg} {R : St → St → Prop}

structure Whole (R : St → St → Prop) : Prop extends Calm R where
  newObj : ∀ s ns, R s { s with objs := s.objs ++ [⟨ns, []⟩] }
  addRoom : ∀ s obj room, R s (s.setRooms obj (addRoom room))
  nsAdd : ∀ s ns obj, R s { s with connected := mapSet s.connected ns obj }
  rd : ∀ s rd, rd ≠ .ack → R s { s with rd := rd }
  todo : ∀ s todo aa, R s { s with todo := todo, ackAfter := aa }
  asks : ∀ s asks, R s { s with asks := asks }
  wait : ∀ s w, R s { s with waiting := w }
  gates : ∀ s g, R s { s with gates := g }
  srv : ∀ s l, R s { s with srvWaiting := l }

/-- a single basic change -/
macro "whole_step" q:ident : tactic => `(tactic| first
  | exact Calm.refl (Whole.toCalm $q) _ | exact Calm.emit (Whole.toCalm $q) _ _
  | exact Calm.ready (Whole.toCalm $q) _ _ | exact Calm.hang (Whole.toCalm $q) _
  | exact Whole.newObj $q _ _ | exact Whole.addRoom $q _ _ _ | exact Whole.nsAdd $q _ _ _
  | exact Whole.todo $q _ _ _ | exact Whole.asks $q _ _ | exact Whole.wait $q _ _
  | exact Whole.gates $q _ _ | exact Whole.srv $q _ _
  | exact Whole.rd $q _ _ (by simp)
  | exact Calm.trans (Whole.toCalm $q) (Whole.asks $q _ _) (Whole.rd $q _ _ (by simp))
  | exact Calm.trans (Whole.toCalm $q) (Whole.wait $q _ _) (Whole.asks $q _ _))

theorem Whole.readerExitQ (q : Whole R) (s : St) : R s (readerExit cfg s) :=
  q.trans (q.closeConn s) (q.rd _ _ (by simp))

theorem Whole.replyConnect (q : Whole R) (s : St) (msg : Message) :
    R s (replyConnect cfg s msg) := by
  have c := q.toCalm
  unfold Neffos.replyConnect
  split
  · exact c.refl s
  · split
    · exact c.writeEmptyReply _ _
    · split
      · exact c.write _ _
      · simp only [Neffos.newObj]
        have h0 := q.newObj s msg.ns
        split
        · rename_i t e he
          exact c.trans (c.trans h0 (c.fire' he)) (c.write _ _)
        · rename_i t he
          exact c.trans (c.trans (c.trans (c.trans h0 (c.fire' he)) (q.nsAdd _ _ _))
            (c.writeEmptyReply _ _)) (c.notifyConnected _ _ _)

theorem Whole.replyRoomJoin (q : Whole R) (s : St) (obj : Nat) (msg : Message) :
    R s (replyRoomJoin cfg s obj msg) := by
  have c := q.toCalm
  unfold Neffos.replyRoomJoin
  split
  · exact c.refl s
  · split
    · exact c.writeEmptyReply _ _
    · split
      · rename_i t e he
        exact c.trans (c.fire' he) (c.write _ _)
      · rename_i t he
        exact c.trans (c.trans (c.trans (c.fire' he) (q.addRoom _ _ _))
          (c.fire _ _ _)) (c.writeEmptyReply _ _)

theorem Whole.afterGate (q : Whole R) (s : St) (msg : Message) : R s (afterGate cfg s msg) := by
  have c := q.toCalm
  unfold Neffos.afterGate
  split
  · exact c.write _ _
  · split
    · exact q.replyRoomJoin _ _ _
    · split
      · exact c.replyRoomLeave _ _ _
      · exact c.handleEvent _ _ _

theorem Whole.handleMessage (q : Whole R) (s : St) (msg : Message) :
    R s (handleMessage cfg s msg) := by
  have c := q.toCalm
  have hd : R s (dispatch cfg s msg) := by
    unfold dispatch
    split
    · exact q.replyConnect _ _
    · split
      · exact c.replyDisconnect _ _
      · split
        · exact q.rd _ _ (by simp)
        · exact q.afterGate _ _
  unfold Neffos.handleMessage
  split
  · exact c.refl s
  · split
    · split
      · exact c.hang _
      · exact c.fire _ _ _
    · split
      · split
        · exact c.emit _ _
        · split
          · exact c.emit _ _
          · split
            · unfold deliver
              split
              · exact c.refl s
              · rename_i a ha
                split
                · exact q.asks _ _
                · exact q.rd _ _ (by simp)
            · exact hd
      · exact hd

theorem Whole.exit (q : Whole R) (s : St) : R s (readerExit cfg s) :=
  q.readerExitQ s

theorem Whole.drain (q : Whole R) (l : List (MsgType × Bytes)) (s : St) : R s (drain cfg s l) := by
  have c := q.toCalm
  induction l generalizing s with
  | nil =>
    unfold Neffos.drain
    dsimp only
    split
    · unfold finishAck
      dsimp only
      have h1 := c.trans (q.todo s [] false) (c.rawWrite (cfg := cfg)
        { s with todo := [], ackAfter := false } (65 :: s.id) false)
      split
      · exact h1
      · exact c.trans h1 (q.exit _)
    · exact q.todo s [] s.ackAfter
  | cons p l ih =>
    obtain ⟨t, b⟩ := p
    unfold Neffos.drain
    dsimp only
    have h0 := c.trans (q.rd s .idle (by simp)) (q.handleMessage (cfg := cfg) _
      (deserializeMessage cfg.known t b cfg.allowNative cfg.onlyNative))
    split
    · exact c.trans h0 (ih _)
    · exact c.trans h0 (q.todo _ l _)

theorem Whole.signalReady' (q : Whole R) (s : St) (e : Option GoErr) : R s (s.signalReady e) := by
  unfold St.signalReady; split <;> whole_step q

theorem Whole.gateDone' (q : Whole R) (s : St) (ns : Bytes) : R s (gateDone s ns) := by
  unfold Neffos.gateDone
  split
  · whole_step q
  · split <;> whole_step q

theorem Whole.finish' (q : Whole R) (s : St) (k : Cont) (m : Message) (err : Option GoErr) :
    R s (finish cfg s k m err) := by
  cases k with
  | connect ns obj =>
    cases err with
    | some e => exact q.trans (q.emit _ _) (q.gateDone' _ _)
    | none =>
      simp only [Neffos.finish]
      have h1 : R s { s with connected := mapSet s.connected ns obj } := (by whole_step q)
      exact q.trans (q.trans (q.trans h1 (q.notifyConnected _ _ _))
        (q.emit _ _)) (q.gateDone' _ _)
  | disconnect obj msg =>
    cases err with
    | some e => exact q.emit _ _
    | none =>
      simp only [Neffos.finish]
      exact q.trans (q.trans (q.trans (q.trans
        (q.forceLeaveAll _ _ _) (q.nsDel _ _)) (q.fire _ _ _))
        (q.notifyDisconnect _ _)) (q.emit _ _)
  | join obj msg =>
    cases err with
    | some e => exact q.emit _ _
    | none =>
      simp only [Neffos.finish]
      split
      · rename_i t e he
        exact q.trans (q.fire' he) (q.emit _ _)
      · rename_i t he
        have h2 : R t (t.setRooms obj (Neffos.addRoom msg.room)) := (by whole_step q)
        exact q.trans (q.trans (q.trans (q.fire' he) h2)
          (q.fire _ _ _)) (q.emit _ _)
  | leave obj msg =>
    cases err with
    | some e => exact q.emit _ _
    | none =>
      simp only [Neffos.finish]
      split
      · rename_i t e he
        exact q.trans (q.fire' he) (q.emit _ _)
      · rename_i t he
        exact q.trans (q.trans (q.trans (q.fire' he)
          (q.del _ _ _)) (q.fire _ _ _)) (q.emit _ _)
  | user => exact q.emit _ _

theorem Whole.newAsk' (q : Whole R) (s : St) (tok : Bytes) (k : Cont) : R s (newAsk s tok k) := by
  unfold Neffos.newAsk
  split
  · exact q.asks _ _
  · exact q.trans (q.wait s (mapSet s.waiting tok s.asks.length)) (q.asks _ _)

theorem Whole.startAsk' (q : Whole R) (s : St) (k : Cont) (msg : Message) (now : Int) (ex : Bool) :
    R s (startAsk cfg s k msg now ex) := by
  unfold Neffos.startAsk
  split
  · exact q.finish' _ _ _ _
  · split
    · exact q.finish' _ _ _ _
    · split
      · exact q.finish' _ _ _ _
      · dsimp only
        have h1 := q.trans (q.newAsk' s (genWait cfg.isClient now) k)
          (q.write (cfg := cfg) (newAsk s (genWait cfg.isClient now) k)
            { msg with wait := genWait cfg.isClient now })
        revert h1
        generalize write cfg (newAsk s (genWait cfg.isClient now) k)
            { msg with wait := genWait cfg.isClient now } = p
        obtain ⟨t, ok⟩ := p
        intro h1
        cases ok with
        | true => exact h1
        | false =>
          dsimp only
          have h2 : R t (endAsk t s.asks.length) := (by whole_step q)
          exact q.trans (q.trans h1 h2) (q.finish' _ _ _ _)

theorem Whole.connect' (q : Whole R) (s : St) (ns : Bytes) (now : Int) (ex : Bool) :
    R s (connect cfg s ns now ex) := by
  have hm := q.markReady (cfg := cfg) s
  unfold Neffos.connect
  dsimp only
  revert hm
  generalize s.markReady cfg = s0
  intro hm
  split
  · exact hm
  · have hg : R s (gateStart s0 ns) := q.trans hm (q.gates _ _)
    revert hg
    generalize gateStart s0 ns = s1
    intro hg
    split
    · exact q.trans (q.trans hg (q.emit _ _)) (q.gateDone' _ _)
    · split
      · exact q.trans (q.trans hg (q.emit _ _)) (q.gateDone' _ _)
      · simp only [Neffos.newObj]
        have h0 : R s { s1 with objs := s1.objs ++ [⟨ns, []⟩] } :=
          q.trans hg (q.newObj _ _)
        split
        · rename_i t e he
          exact q.trans (q.trans (q.trans h0 (q.fire' he))
            (q.emit _ _)) (q.gateDone' _ _)
        · rename_i t he
          exact q.trans (q.trans h0 (q.fire' he)) (q.startAsk' _ _ _ _ _)


theorem Whole.exec (q : Whole R) {s s' : St} {op : Op} (h : exec cfg s op = some s') :
    R s s' ∨ (s.acked = false ∧ ∃ typ b, op = .recv typ b) ∨ (op = .wake ∧ s.rd = .ack) := by
  cases op with
  | recv typ b =>
    simp only [Neffos.exec] at h
    split at h
    · cases h
      unfold Neffos.recv
      split
      · exact .inl (q.refl _)
      · split
        · exact .inl (q.handleMessage _ _)
        · rename_i ha
          exact .inr (.inl ⟨by simpa using ha, _, _, rfl⟩)
    · simp at h
  | readErr e =>
    simp only [Neffos.exec] at h
    split at h
    · cases h; exact .inl (q.trans (q.signalReady' _ _) (q.readerExitQ _))
    · simp at h
  | wake =>
    simp only [Neffos.exec] at h
    unfold Neffos.wakeReader at h
    split at h
    · left
      split at h
      · rename_i msg _ _
        dsimp only at h
        have h1 : R s (Neffos.afterGate cfg { s with rd := .idle } msg) :=
          q.trans (q.rd s _ (by simp)) (q.afterGate { s with rd := .idle } msg)
        split at h
        · cases h; exact q.trans h1 (q.drain _ _)
        · cases h; exact h1
      · simp at h
    · rename_i hrd
      exact .inr (.inr ⟨rfl, hrd⟩)
    · simp at h
  | contReader =>
    simp only [Neffos.exec, Neffos.contReader] at h
    split at h
    · cases h; exact .inl (q.drain _ _)
    · simp at h
  | connect ns now ex => cases h; exact .inl (q.connect' _ _ _ _)
  | disconnect obj now ex =>
    left
    simp only [Neffos.exec] at h
    split at h
    · cases h
      unfold Neffos.disconnect
      dsimp only
      split
      · exact q.emit _ _
      · exact q.startAsk' _ _ _ _ _
    · simp at h
  | join obj room now ex =>
    left
    simp only [Neffos.exec] at h
    split at h
    · cases h
      unfold Neffos.joinRoom
      dsimp only
      split
      · exact q.emit _ _
      · exact q.startAsk' _ _ _ _ _
    · simp at h
  | leave obj room now ex =>
    left
    simp only [Neffos.exec] at h
    split at h
    · cases h
      unfold Neffos.leaveRoom
      dsimp only
      split
      · exact q.startAsk' _ _ _ _ _
      · exact q.emit _ _
    · simp at h
  | ask msg now ex => cases h; exact .inl (q.startAsk' _ _ _ _ _)
  | write msg => cases h; exact .inl (q.write _ _)
  | resume i =>
    left
    simp only [Neffos.exec, Neffos.resume] at h
    split at h
    · simp at h
    · rename_i a ha
      split at h
      · simp at h
      · split at h
        · simp at h
        · cases h
          have e1 : ∀ t : St, R t (forget t a) := by
            intro t; unfold Neffos.forget; split <;> whole_step q
          have e2 : R s (takeAnswer s i a) := by
            unfold Neffos.takeAnswer
            split
            · split
              · rename_i m' _ _
                exact q.trans (q.asks s (s.asks.set i { a with box := some m' })) (q.rd _ .idle (by simp))
              · exact q.asks _ _
            · exact q.asks _ _
          have e3 : R (takeAnswer s i a) (endAsk (takeAnswer s i a) i) := (by whole_step q)
          exact q.trans (q.trans (q.trans e2 e3) (e1 _)) (q.finish' _ _ _ _)
  | cancel i e =>
    left
    simp only [Neffos.exec, Neffos.cancel] at h
    split at h
    · simp at h
    · split at h
      · simp at h
      · cases h
        exact q.trans (q.asks _ _) (q.finish' (endAsk s i) _ _ _)
  | close => cases h; exact .inl (q.closeConn _)
  | steal i typ b =>
    left
    simp only [Neffos.exec, Neffos.steal] at h
    split at h
    · simp at h
    · split at h
      · cases h; whole_step q
      · simp at h
  | stealErr i e =>
    left
    simp only [Neffos.exec, Neffos.steal] at h
    split at h
    · simp at h
    · split at h
      · cases h; whole_step q
      · simp at h
  | ready e => cases h; exact .inl (q.signalReady' _ _)
  | sendAck =>
    left
    simp only [Neffos.exec] at h
    split at h
    · cases h; whole_step q
    · have hw := q.rawWrite (cfg := cfg) s (b! "M") false
      revert h hw
      generalize rawWrite cfg s (b! "M") false = p
      obtain ⟨t, ok⟩ := p
      intro h hw
      cases ok with
      | true => cases h; exact hw
      | false => cases h; exact q.trans hw (q.closeConn _)
  | srvAsk tok => cases h; exact .inl (by whole_step q)
  | srvUnask tok => cases h; exact .inl (by whole_step q)

end Neffos
