import Verif.Proofs.ConnOuter
import Verif.Spec.Session
/-!
Helper lemmas for the absence of deadlocks: what does not hang when the callbacks of forced leaves do not use
the connection.
-/
set_option autoImplicit false
namespace Neffos
open Neffos.Spec

variable {cfg : Cfg}

theorem hung_fireLocked (hq : QuietLeaves cfg) (s : St) (obj : Nat) (msg : Message) (hf : msg.isForced = true) :
    (fireLocked cfg s obj msg).hung = s.hung := by
  unfold fireLocked
  dsimp only
  split
  · rfl
  · rw [hq _ _ _ _ hf]; rfl

theorem hung_forceLeaveAll (hq : QuietLeaves cfg) (s : St) (obj : Nat) (l : Bool) :
    (forceLeaveAll cfg s obj l).hung = s.hung := by
  unfold forceLeaveAll
  refine hung_foldl _ (fun s r => ?_) _ _
  unfold leaveOne
  dsimp only
  rw [hung_fireLocked hq _ _ _ rfl]
  exact hung_fireLocked hq _ _ _ rfl

theorem hung_notifyConnected (s : St) (obj : Nat) (msg : Message) : (notifyConnected cfg s obj msg).hung = s.hung := by
  unfold notifyConnected
  dsimp only
  split
  · exact hung_fire _ _ _
  · exact hung_fire _ _ _

theorem hung_notifyDisconnect (s : St) (ns : Bytes) : (notifyDisconnect cfg s ns).hung = s.hung := by
  unfold notifyDisconnect
  split <;> rfl

theorem hung_writeEmptyReply (s : St) (tok : Bytes) : (writeEmptyReply cfg s tok).hung = s.hung := by
  unfold writeEmptyReply
  first
    | exact hung_rawWrite _ _ _
    | (split <;> first | exact hung_rawWrite _ _ _ | rfl)

theorem hung_replyConnect (s : St) (msg : Message) : (replyConnect cfg s msg).hung = s.hung := by
  unfold replyConnect
  split
  · rfl
  · split
    · exact hung_writeEmptyReply _ _
    · split
      · exact hung_write _ _
      · dsimp only
        have hf := hung_fire (cfg := cfg) (newObj s msg.ns).1 (newObj s msg.ns).2 msg
        revert hf
        generalize fire cfg (newObj s msg.ns).1 (newObj s msg.ns).2 msg = p
        obtain ⟨u, v⟩ := p
        intro hf
        have hf : u.hung = s.hung := hf
        cases v with
        | some e => exact (hung_write _ _).trans hf
        | none =>
          dsimp only
          rw [hung_notifyConnected, hung_writeEmptyReply]
          exact hf

theorem hung_replyDisconnect (hq : QuietLeaves cfg) (s : St) (msg : Message) : (replyDisconnect cfg s msg).hung = s.hung := by
  unfold replyDisconnect
  split
  · rfl
  · split
    · exact hung_writeEmptyReply _ _
    · rename_i obj _
      split
      · dsimp only
        rw [hung_fire, hung_writeEmptyReply]
        exact hung_forceLeaveAll hq _ _ _
      · have hf := hung_fire (cfg := cfg) s obj msg
        revert hf
        generalize fire cfg s obj msg = p
        obtain ⟨u, v⟩ := p
        intro hf
        have hf : u.hung = s.hung := hf
        cases v with
        | some e => exact (hung_write _ _).trans hf
        | none =>
          dsimp only
          rw [hung_writeEmptyReply, hung_notifyDisconnect]
          exact (hung_forceLeaveAll hq _ _ _).trans hf

theorem hung_afterGate (s : St) (msg : Message) : (afterGate cfg s msg).hung = s.hung := by
  have hset : ∀ (t : St) (o : Nat) (f : List Bytes → List Bytes), (t.setRooms o f).hung = t.hung := fun _ _ _ => rfl
  unfold afterGate
  split
  · exact hung_write _ _
  · rename_i obj _
    split
    · unfold replyRoomJoin
      split
      · rfl
      · split
        · exact hung_writeEmptyReply _ _
        · have hf := hung_fire (cfg := cfg) s obj msg
          revert hf
          generalize fire cfg s obj msg = p
          obtain ⟨u, v⟩ := p
          intro hf
          have hf : u.hung = s.hung := hf
          cases v with
          | some e => exact (hung_write _ _).trans hf
          | none =>
            dsimp only
            rw [hung_writeEmptyReply, hung_fire, hset]
            exact hf
    · split
      · unfold replyRoomLeave
        split
        · rfl
        · split
          · exact hung_writeEmptyReply _ _
          · split
            · dsimp only
              rw [hung_fire, hung_writeEmptyReply, hset, hung_fire]
            · have hf := hung_fire (cfg := cfg) s obj msg
              revert hf
              generalize fire cfg s obj msg = p
              obtain ⟨u, v⟩ := p
              intro hf
              have hf : u.hung = s.hung := hf
              cases v with
              | some e => exact (hung_write _ _).trans hf
              | none =>
                dsimp only
                rw [hung_writeEmptyReply, hung_fire, hset]
                exact hf
      · unfold handleEvent
        dsimp only
        have hf := hung_fire (cfg := cfg) s obj { msg with isLocal := false }
        revert hf
        generalize fire cfg s obj { msg with isLocal := false } = p
        obtain ⟨u, v⟩ := p
        intro hf
        have hf : u.hung = s.hung := hf
        cases v with
        | some e => exact (hung_write _ _).trans hf
        | none => exact hf

theorem hung_dispatch (hq : QuietLeaves cfg) (s : St) (msg : Message) : (dispatch cfg s msg).hung = s.hung := by
  unfold dispatch
  split
  · exact hung_replyConnect _ _
  · split
    · exact hung_replyDisconnect hq _ _
    · split
      · rfl
      · exact hung_afterGate _ _

theorem hung_handlePayload (hq : QuietLeaves cfg) (hon : cfg.onlyNative = false) (s : St) (typ : MsgType) (b : Bytes) :
    (handlePayload cfg s typ b).hung = s.hung := by
  unfold handlePayload handleMessage
  split
  · rfl
  · rw [if_neg (by simp [hon])]
    split
    · split
      · rfl
      · split
        · rfl
        · split
          · unfold deliver
            split
            · rfl
            · split <;> rfl
          · exact hung_dispatch hq _ _
    · exact hung_dispatch hq _ _

theorem hung_readerExit (s : St) : (readerExit cfg s).hung = s.hung := hung_closeConn s

theorem hung_finishAck (s : St) : (finishAck cfg s).hung = s.hung := by
  unfold finishAck
  dsimp only
  split
  · exact hung_rawWrite _ _ _
  · rw [hung_readerExit]; exact hung_rawWrite _ _ _

theorem hung_drain (hq : QuietLeaves cfg) (hon : cfg.onlyNative = false) (l : List (MsgType × Bytes)) (s : St) :
    (drain cfg s l).hung = s.hung := by
  induction l generalizing s with
  | nil =>
    unfold drain
    dsimp only
    split
    · exact hung_finishAck _
    · rfl
  | cons p l ih =>
    rw [drain.eq_def]
    dsimp only
    have hp := hung_handlePayload hq hon { s with rd := .idle } p.1 p.2
    split
    · rw [ih]; exact hp
    · exact hp

theorem hung_ackReady (hq : QuietLeaves cfg) (hon : cfg.onlyNative = false) (s : St) (e : Option GoErr) :
    (ackReady cfg s e).hung = s.hung := by
  unfold ackReady
  split
  · rw [hung_readerExit, hung_rawWrite]
  · dsimp only
    rw [hung_drain hq hon]

theorem hung_recv (hq : QuietLeaves cfg) (hon : cfg.onlyNative = false) (s : St) (typ : MsgType) (b : Bytes) :
    (recv cfg s typ b).hung = s.hung := by
  have hsig : ∀ (t : St) (e : Option GoErr), (t.signalReady e).hung = t.hung := by
    intro t e; unfold St.signalReady; split <;> rfl
  unfold recv
  split
  · rfl
  · split
    · exact hung_handlePayload hq hon _ _ _
    · unfold handleACK
      split
      · rfl
      · split
        · split
          · rfl
          · exact hung_ackReady hq hon _ _
        · split
          · rw [hsig]
          · split
            · rw [hung_readerExit, hsig]
            · split <;> rfl

/-- a call completes without hanging, unless it is a Disconnect whose forced leaves do -/
theorem hung_finish (s : St) (k : Cont) (m : Message) (e : Option GoErr)
    (hq : ∀ obj msg, k = .disconnect obj msg → QuietLeaves cfg) : (finish cfg s k m e).hung = s.hung := by
  have hset : ∀ (t : St) (o : Nat) (f : List Bytes → List Bytes), (t.setRooms o f).hung = t.hung := fun _ _ _ => rfl
  have hem : ∀ (t : St) (o : Obs), (t.emit o).hung = t.hung := fun _ _ => rfl
  cases k with
  | user => rfl
  | connect ns obj =>
    cases e with
    | some e => simp only [finish]; rw [hung_gateDone, hem]
    | none => simp only [finish]; rw [hung_gateDone, hem, hung_notifyConnected]
  | disconnect obj msg =>
    cases e with
    | some e => rfl
    | none =>
      simp only [finish]
      rw [hem, hung_notifyDisconnect, hung_fire]
      exact hung_forceLeaveAll (hq obj msg rfl) _ _ _
  | join obj msg =>
    cases e with
    | some e => rfl
    | none =>
      simp only [finish]
      have hf := hung_fire (cfg := cfg) s obj msg
      revert hf
      generalize fire cfg s obj msg = p
      obtain ⟨u, v⟩ := p
      intro hf
      cases v with
      | some e => exact hf
      | none => dsimp only; rw [hem, hung_fire, hset]; exact hf
  | leave obj msg =>
    cases e with
    | some e => rfl
    | none =>
      simp only [finish]
      have hf := hung_fire (cfg := cfg) s obj msg
      revert hf
      generalize fire cfg s obj msg = p
      obtain ⟨u, v⟩ := p
      intro hf
      cases v with
      | some e => exact hf
      | none => dsimp only; rw [hem, hung_fire, hset]; exact hf

end Neffos
