import Verif.Proofs.ConnFinish
/-!
Helper: handlers do not touch the reader's own variables, and a message held at the gate is
later handled like one that arrives then.
-/
namespace Neffos
open Spec

variable {cfg : Cfg}

/-- the reader's variables are the same -/
structure RdSame (s t : St) : Prop where
  rd : t.rd = s.rd
  todo : t.todo = s.todo
  ackAfter : t.ackAfter = s.ackAfter
  asks : t.asks = s.asks
  gates : t.gates = s.gates

theorem RdSame.refl (s : St) : RdSame s s := ⟨rfl, rfl, rfl, rfl, rfl⟩

theorem RdSame.trans {a b c : St} (h : RdSame a b) (k : RdSame b c) : RdSame a c :=
  ⟨k.rd.trans h.rd, k.todo.trans h.todo, k.ackAfter.trans h.ackAfter, k.asks.trans h.asks,
    k.gates.trans h.gates⟩

theorem rd_foldl {α : Type} (f : St → α → St) (hf : ∀ s a, RdSame s (f s a)) (l : List α) (s : St) :
    RdSame s (l.foldl f s) := by
  induction l generalizing s with
  | nil => exact .refl s
  | cons a l ih => exact (hf s a).trans (ih _)

theorem rd_fireClosed (s : St) (obj : Nat) (msg : Message) : RdSame s (fireClosed cfg s obj msg) := by
  unfold fireClosed; dsimp only; split <;> exact ⟨rfl, rfl, rfl, rfl, rfl⟩

theorem rd_setRooms (s : St) (obj : Nat) (f : List Bytes → List Bytes) :
    RdSame s (s.setRooms obj f) := ⟨rfl, rfl, rfl, rfl, rfl⟩

theorem rd_emit (s : St) (o : Obs) : RdSame s (s.emit o) := ⟨rfl, rfl, rfl, rfl, rfl⟩

theorem rd_leaveOneClosed (obj : Nat) (il : Bool) (s : St) (room : Bytes) :
    RdSame s (leaveOneClosed cfg obj il s room) :=
  ((rd_fireClosed _ _ _).trans (rd_setRooms _ _ _)).trans (rd_fireClosed _ _ _)

theorem rd_closeOne (s : St) (ns : Bytes) : RdSame s (closeOne cfg s ns) := by
  unfold closeOne
  split
  · exact .refl s
  · rename_i obj _
    have h1 : RdSame s (forceLeaveClosed cfg s obj true) := rd_foldl _ (rd_leaveOneClosed _ _) _ _
    have h2 := h1.trans (rd_fireClosed (cfg := cfg) _ obj
      (forcedDisconnectMsg ((forceLeaveClosed cfg s obj true).nsName obj)))
    exact ⟨h2.rd, h2.todo, h2.ackAfter, h2.asks, h2.gates⟩

theorem rd_closeConn (s : St) : RdSame s (closeConn cfg s) := by
  unfold closeConn closeEnd
  split
  · exact .refl s
  · split
    · split <;> exact ⟨rfl, rfl, rfl, rfl, rfl⟩
    · have h : RdSame s (closeAll cfg { s with closed := true }) := by
        have h1 := rd_foldl (closeOne cfg) (rd_closeOne)
          (cfg.order ({ s with closed := true } : St).log
            (({ s with closed := true } : St).connected.map (·.1))) { s with closed := true }
        exact ⟨h1.rd, h1.todo, h1.ackAfter, h1.asks, h1.gates⟩
      split <;> exact ⟨h.rd, h.todo, h.ackAfter, h.asks, h.gates⟩

theorem rd_rawWrite (s : St) (b : Bytes) (binary : Bool) : RdSame s (rawWrite cfg s b binary).1 := by
  unfold rawWrite
  dsimp only
  split
  · exact rd_emit _ _
  · split
    · exact (rd_emit s _).trans (rd_closeConn _)
    · exact rd_emit _ _

theorem rd_signalReady (s : St) (e : Option GoErr) : RdSame s (s.signalReady e) := by
  unfold St.signalReady; split <;> exact ⟨rfl, rfl, rfl, rfl, rfl⟩

theorem rd_markReady (s : St) : RdSame s (s.markReady cfg) := by
  unfold St.markReady; split
  · exact .refl s
  · exact rd_signalReady _ _

theorem rd_canWrite (s : St) (msg : Message) : RdSame s (canWrite cfg s msg).1 := by
  unfold canWrite; split
  · exact .refl s
  · exact rd_markReady s

theorem rd_write (s : St) (msg : Message) : RdSame s (write cfg s msg).1 := by
  unfold write
  have h := rd_canWrite (cfg := cfg) s msg
  revert h
  generalize canWrite cfg s msg = p
  obtain ⟨t, ok⟩ := p
  intro h
  dsimp only at h ⊢
  split
  · split
    · exact h.trans (rd_rawWrite _ _ _)
    · exact h.trans ⟨rfl, rfl, rfl, rfl, rfl⟩
  · exact h

theorem rd_runAct (s : St) (a : Act) : RdSame s (runAct cfg s a) := by
  cases a with
  | write m => exact rd_write _ _
  | close => exact rd_closeConn _

theorem rd_fire (s : St) (obj : Nat) (msg : Message) : RdSame s (fire cfg s obj msg).1 := by
  unfold fire
  dsimp only
  split
  · exact rd_emit _ _
  · exact (rd_emit s _).trans (rd_foldl _ rd_runAct _ _)

theorem rd_runActLocked (obj : Nat) (s : St) (a : Act) : RdSame s (runActLocked cfg obj s a) := by
  unfold runActLocked
  split
  · exact (rd_runAct s a).trans ⟨rfl, rfl, rfl, rfl, rfl⟩
  · exact rd_runAct s a

theorem rd_fireLocked (s : St) (obj : Nat) (msg : Message) : RdSame s (fireLocked cfg s obj msg) := by
  unfold fireLocked
  dsimp only
  split
  · exact rd_emit _ _
  · exact (rd_emit s _).trans (rd_foldl _ (rd_runActLocked obj) _ _)

theorem rd_forceLeaveAll (s : St) (obj : Nat) (il : Bool) : RdSame s (forceLeaveAll cfg s obj il) :=
  rd_foldl _ (fun _ _ => ((rd_fireLocked _ _ _).trans (rd_setRooms _ _ _)).trans
    (rd_fireLocked _ _ _)) _ _

theorem rd_fire' (s : St) (obj : Nat) (msg : Message) {t : St} {r : Option GoErr}
    (h : fire cfg s obj msg = (t, r)) : RdSame s t := by
  have := rd_fire (cfg := cfg) s obj msg
  rw [h] at this; exact this

theorem rd_writeEmptyReply (s : St) (w : Bytes) : RdSame s (writeEmptyReply cfg s w) :=
  rd_rawWrite _ _ _

theorem rd_replyRoomJoin (s : St) (obj : Nat) (msg : Message) :
    RdSame s (replyRoomJoin cfg s obj msg) := by
  unfold replyRoomJoin
  split
  · exact .refl s
  · split
    · exact rd_writeEmptyReply _ _
    · split
      · rename_i t e he
        exact (rd_fire' _ _ _ he).trans (rd_write _ _)
      · rename_i t he
        exact (((rd_fire' _ _ _ he).trans (rd_setRooms _ _ _)).trans (rd_fire _ _ _)).trans
          (rd_writeEmptyReply _ _)

theorem rd_replyRoomLeave (s : St) (obj : Nat) (msg : Message) :
    RdSame s (replyRoomLeave cfg s obj msg) := by
  unfold replyRoomLeave
  split
  · exact .refl s
  · split
    · exact rd_writeEmptyReply _ _
    · split
      · exact (((rd_fire _ _ _).trans (rd_setRooms _ _ _)).trans (rd_writeEmptyReply _ _)).trans
          (rd_fire _ _ _)
      · split
        · rename_i t e he
          exact (rd_fire' _ _ _ he).trans (rd_write _ _)
        · rename_i t he
          exact (((rd_fire' _ _ _ he).trans (rd_setRooms _ _ _)).trans (rd_fire _ _ _)).trans
            (rd_writeEmptyReply _ _)

theorem rd_handleEvent (s : St) (obj : Nat) (msg : Message) :
    RdSame s (handleEvent cfg s obj msg) := by
  unfold handleEvent
  dsimp only
  split
  · rename_i t e he
    exact (rd_fire' _ _ _ he).trans (rd_write _ _)
  · rename_i t he
    exact rd_fire' _ _ _ he

theorem rd_afterGate (s : St) (msg : Message) : RdSame s (afterGate cfg s msg) := by
  unfold afterGate
  split
  · exact rd_write _ _
  · split
    · exact rd_replyRoomJoin _ _ _
    · split
      · exact rd_replyRoomLeave _ _ _
      · exact rd_handleEvent _ _ _

theorem reach_gate {id : Bytes} {s : St} (h : Reach cfg id s) :
    ∀ msg, s.rd = .gate msg → Decoded cfg msg := by
  refine reach_invariant (fun s => ∀ msg, s.rd = .gate msg → Decoded cfg msg) ?_ ?_ h
  · unfold newConn; intro msg; split <;> simp
  · intro s s' hf hs
    cases hf with
    | reader rd todo aa qt qb h =>
      intro msg hm
      rcases h.1 msg hm with h | h
      · exact hs msg h
      · exact h
    | _ => exact hs

theorem Decoded.noExplicit {msg : Message} (h : Decoded cfg msg) (hw : msg.wait ≠ []) :
    msg.fromExplicit = [] := by
  obtain ⟨typ, b, hd⟩ := h
  rw [← hd] at hw ⊢
  unfold deserializeMessage at hw ⊢
  dsimp only at hw ⊢
  split
  · rename_i he
    rw [if_pos he] at hw
    simp at hw
  · rfl

theorem todo_nil (t : St) (h : t.todo = []) : ({ t with todo := [] } : St) = t := by
  cases t; subst h; rfl

theorem drain_nil (t : St) (h : t.todo = []) (h2 : t.ackAfter = false) : drain cfg t [] = t := by
  unfold drain
  dsimp only
  rw [if_neg (by simp [h2])]; exact todo_nil t h

theorem handled {id : Bytes} {s s' : St} {msg : Message} (hr : Reach cfg id s)
    (h : Handled cfg s msg s') (h1 : msg.event ≠ OnNamespaceConnect)
    (h2 : msg.event ≠ OnNamespaceDisconnect) :
    s' = afterGate cfg { s with rd := .idle } msg ∧ s'.hung = false ∧ Decoded cfg msg := by
  cases h with
  | recv typ b hin hg hs =>
    have hrd : s.rd = .idle := by
      obtain ⟨he, _⟩ := step_exec hs
      simp only [exec] at he
      split at he
      · rename_i h; exact h.1
      · simp at he
    obtain ⟨h, hh⟩ := step_recv hin hs
    refine ⟨?_, hh, typ, b, hin.decodes⟩
    have : ({ s with rd := .idle } : St) = s := by rw [← hrd]
    rw [this, h]
    unfold dispatch
    rw [if_neg h1, if_neg h2, if_neg (by simp [hg])]
  | wake hrd htd haa hs =>
    obtain ⟨he, hh⟩ := step_exec hs
    refine ⟨?_, hh, reach_gate hr msg hrd⟩
    simp only [exec, wakeReader, hrd] at he
    split at he
    · have hd := rd_afterGate (cfg := cfg) { s with rd := .idle } msg
      rw [if_pos hd.rd] at he
      have e1 : (afterGate cfg { s with rd := .idle } msg).todo = [] := hd.todo.trans htd
      have e2 : (afterGate cfg { s with rd := .idle } msg).ackAfter = false := hd.ackAfter.trans haa
      rw [e1, drain_nil _ e1 e2] at he
      cases he
      rfl
    · simp at he

end Neffos
