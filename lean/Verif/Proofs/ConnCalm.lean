import Verif.Proofs.ConnReader
/-!
Helper: what holds of the parts of an operation that connect and join nothing, for any
relation that contains their basic changes.
-/
namespace Neffos
open Spec

/-- a reflexive and transitive relation that contains the basic changes other than connecting
a namespace or joining a room -/
structure Calm (R : St → St → Prop) : Prop where
  refl : ∀ s, R s s
  trans : ∀ {a b c}, R a b → R b c → R a c
  emit : ∀ s o, R s (s.emit o)
  ready : ∀ s e, R s { s with ready := e }
  hang : ∀ s, R s { s with hung := true }
  del : ∀ s obj room, R s (s.setRooms obj (delRoom room))
  nsDel : ∀ s ns, R s { s with connected := mapDel s.connected ns }
  closed : ∀ s, R s { s with closed := true }
  waiting : ∀ s, s.closed = true → R s { s with waiting := [] }
  unack : ∀ s, s.closed = true → R s { s with acked := false }

variable {cfg : Cfg} {R : St → St → Prop}

theorem Calm.foldl (q : Calm R) {α : Type} (f : St → α → St) (hf : ∀ s a, R s (f s a))
    (l : List α) (s : St) : R s (l.foldl f s) := by
  induction l generalizing s with
  | nil => exact q.refl s
  | cons a l ih => exact q.trans (hf s a) (ih _)

theorem Calm.fireClosed (q : Calm R) (s : St) (obj : Nat) (msg : Message) :
    R s (fireClosed cfg s obj msg) := by
  unfold Neffos.fireClosed; dsimp only; split <;> exact q.emit _ _

theorem Calm.leaveOneClosed (q : Calm R) (obj : Nat) (il : Bool) (s : St) (room : Bytes) :
    R s (leaveOneClosed cfg obj il s room) :=
  q.trans (q.trans (q.fireClosed _ _ _) (q.del _ _ _)) (q.fireClosed _ _ _)

theorem Calm.closeOne (q : Calm R) (s : St) (ns : Bytes) : R s (closeOne cfg s ns) := by
  unfold Neffos.closeOne
  split
  · exact q.refl s
  · rename_i obj _
    have h1 : R s (forceLeaveClosed cfg s obj true) := q.foldl _ (q.leaveOneClosed _ _) _ _
    have h2 := q.trans h1 (q.fireClosed (cfg := cfg) _ obj
      (forcedDisconnectMsg ((forceLeaveClosed cfg s obj true).nsName obj)))
    exact q.trans h2 (q.nsDel _ _)

theorem Calm.closeEnd (q : Calm R) (s : St) (hc : s.closed = true) : R s (closeEnd cfg s) := by
  unfold Neffos.closeEnd
  split
  · exact q.trans (q.trans (q.unack s hc) (q.emit _ _)) (q.emit _ _)
  · exact q.trans (q.trans (q.trans (q.unack s hc) (q.emit _ _)) (q.emit _ _)) (q.emit _ _)

theorem Calm.closeConn (q : Calm R) (s : St) : R s (closeConn cfg s) := by
  unfold Neffos.closeConn
  split
  · exact q.refl s
  · split
    · exact q.trans (q.closed s) (q.closeEnd _ rfl)
    · have hc := (Fines.grows (fines_closeAll (cfg := cfg) { s with closed := true } rfl)).closed rfl
      refine q.trans (q.trans (q.closed s) ?_) (q.closeEnd _ hc)
      unfold closeAll at hc ⊢
      exact q.trans (q.foldl _ (q.closeOne) _ _) (q.waiting _ hc)

theorem Calm.rawWrite (q : Calm R) (s : St) (b : Bytes) (binary : Bool) :
    R s (rawWrite cfg s b binary).1 := by
  unfold Neffos.rawWrite
  dsimp only
  split
  · exact q.emit _ _
  · split
    · exact q.trans (q.emit s _) (q.closeConn _)
    · exact q.emit _ _

theorem Calm.markReady (q : Calm R) (s : St) : R s (s.markReady cfg) := by
  unfold St.markReady St.signalReady
  split
  · exact q.refl s
  · split
    · exact q.refl s
    · exact q.ready _ _

theorem Calm.canWrite (q : Calm R) (s : St) (msg : Message) : R s (canWrite cfg s msg).1 := by
  unfold Neffos.canWrite; split
  · exact q.refl s
  · exact q.markReady s

theorem Calm.write (q : Calm R) (s : St) (msg : Message) : R s (write cfg s msg).1 := by
  unfold Neffos.write
  have h := q.canWrite (cfg := cfg) s msg
  revert h
  generalize Neffos.canWrite cfg s msg = p
  obtain ⟨t, ok⟩ := p
  intro h
  dsimp only at h ⊢
  split
  · split
    · exact q.trans h (q.rawWrite _ _ _)
    · exact q.trans h (q.hang _)
  · exact h

theorem Calm.runAct (q : Calm R) (s : St) (a : Act) : R s (runAct cfg s a) := by
  cases a with
  | write m => exact q.write _ _
  | close => exact q.closeConn _

theorem Calm.fire (q : Calm R) (s : St) (obj : Nat) (msg : Message) :
    R s (fire cfg s obj msg).1 := by
  unfold Neffos.fire
  dsimp only
  split
  · exact q.emit _ _
  · exact q.trans (q.emit s _) (q.foldl _ q.runAct _ _)

theorem Calm.fire' (q : Calm R) {s : St} {obj : Nat} {msg : Message} {t : St} {r : Option GoErr}
    (h : Neffos.fire cfg s obj msg = (t, r)) : R s t := by
  have := q.fire (cfg := cfg) s obj msg
  rw [h] at this; exact this

theorem Calm.runActLocked (q : Calm R) (obj : Nat) (s : St) (a : Act) :
    R s (runActLocked cfg obj s a) := by
  unfold Neffos.runActLocked
  split
  · exact q.trans (q.runAct s a) (q.hang _)
  · exact q.runAct s a

theorem Calm.fireLocked (q : Calm R) (s : St) (obj : Nat) (msg : Message) :
    R s (fireLocked cfg s obj msg) := by
  unfold Neffos.fireLocked
  dsimp only
  split
  · exact q.emit _ _
  · exact q.trans (q.emit s _) (q.foldl _ (q.runActLocked obj) _ _)

theorem Calm.forceLeaveAll (q : Calm R) (s : St) (obj : Nat) (il : Bool) :
    R s (forceLeaveAll cfg s obj il) :=
  q.foldl _ (fun _ _ => q.trans (q.trans (q.fireLocked _ _ _) (q.del _ _ _))
    (q.fireLocked _ _ _)) _ _

theorem Calm.writeEmptyReply (q : Calm R) (s : St) (w : Bytes) :
    R s (writeEmptyReply cfg s w) := q.rawWrite _ _ _

theorem Calm.notifyConnected (q : Calm R) (s : St) (obj : Nat) (msg : Message) :
    R s (notifyConnected cfg s obj msg) := by
  unfold Neffos.notifyConnected
  dsimp only
  split
  · exact q.trans (q.fire _ _ _) (q.emit _ _)
  · exact q.fire _ _ _

theorem Calm.notifyDisconnect (q : Calm R) (s : St) (ns : Bytes) :
    R s (notifyDisconnect cfg s ns) := by
  unfold Neffos.notifyDisconnect
  split
  · exact q.emit _ _
  · exact q.refl _

theorem Calm.replyRoomLeave (q : Calm R) (s : St) (obj : Nat) (msg : Message) :
    R s (replyRoomLeave cfg s obj msg) := by
  unfold Neffos.replyRoomLeave
  split
  · exact q.refl s
  · split
    · exact q.writeEmptyReply _ _
    · split
      · exact q.trans (q.trans (q.trans (q.fire _ _ _) (q.del _ _ _)) (q.writeEmptyReply _ _))
          (q.fire _ _ _)
      · split
        · rename_i t e he
          exact q.trans (q.fire' he) (q.write _ _)
        · rename_i t he
          exact q.trans (q.trans (q.trans (q.fire' he) (q.del _ _ _)) (q.fire _ _ _))
            (q.writeEmptyReply _ _)

theorem Calm.replyDisconnect (q : Calm R) (s : St) (msg : Message) :
    R s (replyDisconnect cfg s msg) := by
  unfold Neffos.replyDisconnect
  split
  · exact q.refl s
  · split
    · exact q.writeEmptyReply _ _
    · split
      · exact q.trans (q.trans (q.trans (q.forceLeaveAll _ _ _) (q.nsDel _ _))
          (q.writeEmptyReply _ _)) (q.fire _ _ _)
      · split
        · rename_i t e he
          exact q.trans (q.fire' he) (q.write _ _)
        · rename_i t he
          exact q.trans (q.trans (q.trans (q.trans (q.fire' he) (q.forceLeaveAll _ _ _))
            (q.nsDel _ _)) (q.notifyDisconnect _ _)) (q.writeEmptyReply _ _)

theorem Calm.handleEvent (q : Calm R) (s : St) (obj : Nat) (msg : Message) :
    R s (handleEvent cfg s obj msg) := by
  unfold Neffos.handleEvent
  dsimp only
  split
  · rename_i t e he
    exact q.trans (q.fire' he) (q.write _ _)
  · rename_i t he
    exact q.fire' he

theorem Calm.readerExit (q : Calm R) (hrd : ∀ s rd, R s { s with rd := rd }) (s : St) :
    R s (readerExit cfg s) := q.trans (q.closeConn _) (hrd _ _)

end Neffos
