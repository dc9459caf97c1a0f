import Verif.Spec.Delivery
import Verif.Proofs.ConnOuter
import Verif.Proofs.ConnFinish
import Verif.Proofs.Session
/-!
Helper: which operations run callbacks of application events.
-/
set_option autoImplicit false
namespace Neffos
open Spec

variable {cfg : Cfg} {id : Bytes}

theorem heard_append (a b : List Obs) : heard (a ++ b) = heard a ++ heard b := by
  induction a with
  | nil => rfl
  | cons o a ih =>
    cases o <;> simp only [List.cons_append, heard, ih]
    split <;> rfl

/-- no application event was fired -/
def Deaf (s t : St) : Prop := heard t.log = heard s.log

theorem Deaf.refl (s : St) : Deaf s s := rfl

theorem Deaf.trans {a b c : St} (h : Deaf a b) (k : Deaf b c) : Deaf a c := Eq.trans k h

theorem deaf_same {s t : St} (h : t.log = s.log) : Deaf s t := by unfold Deaf; rw [h]

/-- this observation is not an application event -/
def Toneless (o : Obs) : Prop := heard [o] = []

theorem deaf_emit (s : St) {o : Obs} (h : Toneless o) : Deaf s (s.emit o) := by
  unfold Deaf St.emit
  rw [heard_append, h, List.append_nil]

theorem deaf_sent (s : St) (bin : Bool) (b : Bytes) (ok : Bool) : Deaf s (s.emit (.sent bin b ok)) :=
  deaf_emit s rfl

theorem deaf_ret (s : St) (k : Cont) (r : Result) : Deaf s (s.emit (.ret k r)) := deaf_emit s rfl

theorem toneless_fired {obj : Nat} {v : View} {msg : Message} {h : Option Bytes} {r : Option GoErr}
    (hl : Life msg.event) : Toneless (.fired obj v msg h r) := by
  unfold Toneless
  simp only [heard]
  rw [if_pos hl]

theorem deaf_foldl {α : Type} (f : St → α → St) (hf : ∀ s a, Deaf s (f s a)) (l : List α) (s : St) :
    Deaf s (l.foldl f s) := by
  induction l generalizing s with
  | nil => exact .refl s
  | cons a l ih => exact (hf s a).trans (ih _)

theorem deaf_fireClosed (s : St) (obj : Nat) {msg : Message} (hl : Life msg.event) :
    Deaf s (fireClosed cfg s obj msg) := by
  unfold fireClosed; dsimp only; split <;> exact deaf_emit _ (toneless_fired hl)

theorem life_leave : Life OnRoomLeave := by decide
theorem life_left : Life OnRoomLeft := by decide
theorem life_join : Life OnRoomJoin := by decide
theorem life_joined : Life OnRoomJoined := by decide
theorem life_connect : Life OnNamespaceConnect := by decide
theorem life_connected : Life OnNamespaceConnected := by decide
theorem life_disconnect : Life OnNamespaceDisconnect := by decide

theorem deaf_closeOne (s : St) (ns : Bytes) : Deaf s (closeOne cfg s ns) := by
  unfold closeOne
  split
  · exact .refl s
  · rename_i obj _
    have h1 : Deaf s (forceLeaveClosed cfg s obj true) := by
      refine deaf_foldl _ (fun s room => ?_) _ _
      unfold leaveOneClosed
      have h1 := deaf_fireClosed (cfg := cfg) s obj (msg := forcedLeaveMsg (s.nsName obj) room OnRoomLeave true)
        life_leave
      have h2 : ∀ t : St, Deaf t (t.setRooms obj (delRoom room)) := fun t => deaf_same rfl
      exact (h1.trans (h2 _)).trans (deaf_fireClosed _ obj
        (msg := forcedLeaveMsg (s.nsName obj) room OnRoomLeft true) life_left)
    have h2 := h1.trans (deaf_fireClosed (cfg := cfg) _ obj
      (msg := forcedDisconnectMsg ((forceLeaveClosed cfg s obj true).nsName obj)) life_disconnect)
    exact h2

theorem deaf_closeEnd (s : St) : Deaf s (closeEnd cfg s) := by
  unfold closeEnd
  unfold Deaf
  split <;> simp [St.emit, heard_append, heard]

theorem deaf_closeConn (s : St) : Deaf s (closeConn cfg s) := by
  unfold closeConn
  split
  · exact .refl s
  · split
    · exact deaf_closeEnd (cfg := cfg) { s with closed := true }
    · have h1 : ∀ t : St, Deaf t (closeAll cfg t) := by
        intro t
        have h := deaf_foldl (closeOne cfg) (deaf_closeOne) (cfg.order t.log (t.connected.map (·.1))) t
        unfold closeAll
        exact h
      have h2 : Deaf s { s with closed := true } := deaf_same rfl
      exact (h2.trans (h1 _)).trans (deaf_closeEnd _)

theorem deaf_rawWrite (s : St) (b : Bytes) (binary : Bool) : Deaf s (rawWrite cfg s b binary).1 := by
  unfold rawWrite
  dsimp only
  split
  · exact deaf_emit _ rfl
  · split
    · exact (deaf_sent s _ _ _).trans (deaf_closeConn _)
    · exact deaf_emit _ rfl

theorem deaf_markReady (s : St) : Deaf s (s.markReady cfg) := by
  unfold St.markReady St.signalReady
  split
  · exact .refl s
  · split
    · exact .refl s
    · exact deaf_same rfl

theorem deaf_canWrite (s : St) (msg : Message) : Deaf s (canWrite cfg s msg).1 := by
  unfold canWrite; split
  · exact .refl s
  · exact deaf_markReady s

theorem deaf_write (s : St) (msg : Message) : Deaf s (write cfg s msg).1 := by
  unfold write
  have h := deaf_canWrite (cfg := cfg) s msg
  revert h
  generalize canWrite cfg s msg = p
  obtain ⟨t, ok⟩ := p
  intro h
  dsimp only at h ⊢
  split
  · split
    · exact h.trans (deaf_rawWrite _ _ _)
    · exact h.trans (deaf_same rfl)
  · exact h

theorem deaf_runAct (s : St) (a : Act) : Deaf s (runAct cfg s a) := by
  cases a with
  | write m => exact deaf_write _ _
  | close => exact deaf_closeConn _

/-- what a callback adds -/
theorem heard_fire (s : St) (obj : Nat) (msg : Message) :
    heard (fire cfg s obj msg).1.log = heard s.log ++ if Life msg.event then [] else [msg] := by
  unfold fire
  dsimp only
  have e : ∀ v h r, heard (s.emit (.fired obj v msg h r)).log =
      heard s.log ++ if Life msg.event then [] else [msg] := by
    intro v h r
    show heard (s.log ++ _) = _
    rw [heard_append]
    simp only [heard]
  split
  · exact e _ _ _
  · exact Eq.trans (deaf_foldl _ deaf_runAct _ _) (e _ _ _)

theorem deaf_fire (s : St) (obj : Nat) {msg : Message} (hl : Life msg.event) :
    Deaf s (fire cfg s obj msg).1 := by
  unfold Deaf
  rw [heard_fire, if_pos hl, List.append_nil]

theorem deaf_fire' {s t : St} {obj : Nat} {msg : Message} {r : Option GoErr}
    (h : fire cfg s obj msg = (t, r)) (hl : Life msg.event) : Deaf s t := by
  have := deaf_fire (cfg := cfg) s obj hl
  rw [h] at this; exact this

theorem deaf_fireLocked (s : St) (obj : Nat) {msg : Message} (hl : Life msg.event) :
    Deaf s (fireLocked cfg s obj msg) := by
  unfold fireLocked
  dsimp only
  split
  · exact deaf_emit _ (toneless_fired hl)
  · refine (deaf_emit s (toneless_fired hl)).trans (deaf_foldl _ (fun s a => ?_) _ _)
    unfold runActLocked
    split
    · exact (deaf_runAct s a).trans (deaf_same rfl)
    · exact deaf_runAct s a

theorem deaf_forceLeaveAll (s : St) (obj : Nat) (il : Bool) : Deaf s (forceLeaveAll cfg s obj il) := by
  refine deaf_foldl _ (fun s room => ?_) _ _
  unfold leaveOne
  have h1 := deaf_fireLocked (cfg := cfg) s obj (msg := forcedLeaveMsg (s.nsName obj) room OnRoomLeave il)
    life_leave
  have h2 : ∀ t : St, Deaf t (t.setRooms obj (delRoom room)) := fun t => deaf_same rfl
  exact (h1.trans (h2 _)).trans (deaf_fireLocked _ obj
    (msg := forcedLeaveMsg (s.nsName obj) room OnRoomLeft il) life_left)

theorem deaf_writeEmptyReply (s : St) (w : Bytes) : Deaf s (writeEmptyReply cfg s w) :=
  deaf_rawWrite _ _ _

theorem deaf_notifyConnected (s : St) (obj : Nat) (msg : Message) :
    Deaf s (notifyConnected cfg s obj msg) := by
  unfold notifyConnected
  dsimp only
  split
  · exact (deaf_fire _ _ (msg := { msg with event := OnNamespaceConnected }) life_connected).trans
      (deaf_emit _ rfl)
  · exact deaf_fire _ _ (msg := { msg with event := OnNamespaceConnected }) life_connected

theorem deaf_notifyDisconnect (s : St) (ns : Bytes) : Deaf s (notifyDisconnect cfg s ns) := by
  unfold notifyDisconnect
  split
  · exact deaf_emit _ rfl
  · exact .refl s

theorem deaf_replyConnect (s : St) {msg : Message} (hl : Life msg.event) :
    Deaf s (replyConnect cfg s msg) := by
  unfold replyConnect
  split
  · exact .refl s
  · split
    · exact deaf_writeEmptyReply _ _
    · split
      · exact deaf_write _ _
      · simp only [newObj]
        have h0 : Deaf s { s with objs := s.objs ++ [⟨msg.ns, []⟩] } := deaf_same rfl
        split
        · rename_i t e he
          exact (h0.trans (deaf_fire' he hl)).trans (deaf_write _ _)
        · rename_i t he
          have h1 : Deaf t { t with connected := mapSet t.connected msg.ns s.objs.length } := deaf_same rfl
          exact (((h0.trans (deaf_fire' he hl)).trans h1).trans (deaf_writeEmptyReply _ _)).trans
            (deaf_notifyConnected _ _ _)

theorem deaf_replyDisconnect (s : St) {msg : Message} (hl : Life msg.event) :
    Deaf s (replyDisconnect cfg s msg) := by
  unfold replyDisconnect
  split
  · exact .refl s
  · split
    · exact deaf_writeEmptyReply _ _
    · split
      · have h1 : ∀ t : St, Deaf t { t with connected := mapDel t.connected msg.ns } := fun t => deaf_same rfl
        exact (((deaf_forceLeaveAll _ _ _).trans (h1 _)).trans (deaf_writeEmptyReply _ _)).trans
          (deaf_fire _ _ hl)
      · split
        · rename_i t e he
          exact (deaf_fire' he hl).trans (deaf_write _ _)
        · rename_i t he
          have h1 : ∀ t : St, Deaf t { t with connected := mapDel t.connected msg.ns } := fun t => deaf_same rfl
          exact ((((deaf_fire' he hl).trans (deaf_forceLeaveAll _ _ _)).trans (h1 _)).trans
            (deaf_notifyDisconnect _ _)).trans (deaf_writeEmptyReply _ _)

theorem deaf_replyRoomJoin (s : St) (obj : Nat) {msg : Message} (hl : Life msg.event) :
    Deaf s (replyRoomJoin cfg s obj msg) := by
  unfold replyRoomJoin
  split
  · exact .refl s
  · split
    · exact deaf_writeEmptyReply _ _
    · split
      · rename_i t e he
        exact (deaf_fire' he hl).trans (deaf_write _ _)
      · rename_i t he
        have h2 : Deaf t (t.setRooms obj (addRoom msg.room)) := deaf_same rfl
        exact (((deaf_fire' he hl).trans h2).trans
          (deaf_fire _ _ (msg := { msg with event := OnRoomJoined }) life_joined)).trans
          (deaf_writeEmptyReply _ _)

theorem deaf_replyRoomLeave (s : St) (obj : Nat) {msg : Message} (hl : Life msg.event) :
    Deaf s (replyRoomLeave cfg s obj msg) := by
  have h2 : ∀ t : St, Deaf t (t.setRooms obj (delRoom msg.room)) := fun t => deaf_same rfl
  unfold replyRoomLeave
  split
  · exact .refl s
  · split
    · exact deaf_writeEmptyReply _ _
    · split
      · exact (((deaf_fire _ _ hl).trans (h2 _)).trans (deaf_writeEmptyReply _ _)).trans
          (deaf_fire _ _ (msg := { msg with event := OnRoomLeft }) life_left)
      · split
        · rename_i t e he
          exact (deaf_fire' he hl).trans (deaf_write _ _)
        · rename_i t he
          exact (((deaf_fire' he hl).trans (h2 _)).trans
            (deaf_fire _ _ (msg := { msg with event := OnRoomLeft }) life_left)).trans
            (deaf_writeEmptyReply _ _)

/-- an event that is handled past the gate: it is heard exactly when the namespace is connected and
it is an application event -/
theorem heard_afterGate (s : St) {msg : Message} (hloc : msg.isLocal = false) :
    heard (afterGate cfg s msg).log = heard s.log ++
      if Life msg.event ∨ s.namespace msg.ns = none then [] else [msg] := by
  unfold afterGate
  cases hn : s.namespace msg.ns with
  | none =>
    rw [if_pos (.inr rfl), List.append_nil]
    exact deaf_write _ _
  | some obj =>
    dsimp only
    by_cases h1 : msg.event = OnRoomJoin
    · rw [if_pos h1, if_pos (.inl (h1 ▸ life_join)), List.append_nil]
      exact deaf_replyRoomJoin _ _ (h1 ▸ life_join)
    · rw [if_neg h1]
      by_cases h2 : msg.event = OnRoomLeave
      · rw [if_pos h2, if_pos (.inl (h2 ▸ life_leave)), List.append_nil]
        exact deaf_replyRoomLeave _ _ (h2 ▸ life_leave)
      · rw [if_neg h2]
        have hm : { msg with isLocal := false } = msg := by cases msg; simp at hloc; simp [hloc]
        unfold handleEvent
        rw [hm]
        dsimp only
        have hf := heard_fire (cfg := cfg) s obj msg
        have e : (if Life msg.event ∨ some obj = none then [] else [msg]) =
            if Life msg.event then [] else [msg] := by simp
        rw [e, ← hf]
        cases hx : fire cfg s obj msg with
        | mk t r =>
          cases r with
          | none => rfl
          | some e => exact deaf_write _ _

/-- a call's request is a lifecycle event -/
def ContLife : Cont → Prop
  | .disconnect _ msg => Life msg.event
  | .join _ msg => Life msg.event
  | .leave _ msg => Life msg.event
  | _ => True

theorem ContOk.life {s : St} {k : Cont} (h : ContOk cfg s k) : ContLife k := by
  cases k with
  | connect ns obj => trivial
  | disconnect obj msg => show Life msg.event; rw [h.2]; exact life_disconnect
  | join obj msg => show Life msg.event; rw [h.2.1]; exact life_join
  | leave obj msg => show Life msg.event; rw [h.2.1]; exact life_leave
  | user => trivial

theorem deaf_gateDone (t : St) (ns : Bytes) : Deaf t (gateDone t ns) := by
  unfold gateDone
  split
  · exact .refl t
  · split
    · exact .refl t
    · exact deaf_same rfl

theorem deaf_finish (s : St) {k : Cont} (m : Message) (err : Option GoErr) (hk : ContLife k) : Deaf s (finish cfg s k m err) := by
  cases k with
  | connect ns obj =>
    cases err with
    | some e => exact (deaf_ret _ _ _).trans (deaf_gateDone _ _)
    | none =>
      simp only [finish]
      have h1 : Deaf s { s with connected := mapSet s.connected ns obj } := deaf_same rfl
      exact ((h1.trans (deaf_notifyConnected _ _ _)).trans (deaf_ret _ _ _)).trans (deaf_gateDone _ _)
  | disconnect obj msg =>
    cases err with
    | some e => exact deaf_emit _ rfl
    | none =>
      simp only [finish]
      have hl : Life ({ msg with isLocal := true } : Message).event := hk
      have h1 : ∀ t : St, Deaf t { t with connected := mapDel t.connected msg.ns } := fun t => deaf_same rfl
      exact ((((deaf_forceLeaveAll _ _ _).trans (h1 _)).trans (deaf_fire _ _ hl)).trans
        (deaf_notifyDisconnect _ _)).trans (deaf_emit _ rfl)
  | join obj msg =>
    have hl : Life msg.event := hk
    cases err with
    | some e => exact deaf_emit _ rfl
    | none =>
      simp only [finish]
      split
      · rename_i t e he
        exact (deaf_fire' he hl).trans (deaf_emit _ rfl)
      · rename_i t he
        have h2 : Deaf t (t.setRooms obj (addRoom msg.room)) := deaf_same rfl
        exact (((deaf_fire' he hl).trans h2).trans
          (deaf_fire _ _ (msg := { msg with event := OnRoomJoined }) life_joined)).trans (deaf_emit _ rfl)
  | leave obj msg =>
    have hl : Life msg.event := hk
    cases err with
    | some e => exact deaf_emit _ rfl
    | none =>
      simp only [finish]
      split
      · rename_i t e he
        exact (deaf_fire' he hl).trans (deaf_emit _ rfl)
      · rename_i t he
        have h2 : Deaf t (t.setRooms obj (delRoom msg.room)) := deaf_same rfl
        exact (((deaf_fire' he hl).trans h2).trans
          (deaf_fire _ _ (msg := { msg with event := OnRoomLeft }) life_left)).trans (deaf_emit _ rfl)
  | user => exact deaf_emit _ rfl

/-! ### The reader's variables in calls of other goroutines -/

/-- the reader's own variables are the same -/
structure RdStill (s t : St) : Prop where
  rd : t.rd = s.rd
  todo : t.todo = s.todo
  ackAfter : t.ackAfter = s.ackAfter

theorem still_outer : Outer (fun _ => True) RdStill where
  refl _ := ⟨rfl, rfl, rfl⟩
  trans h k := ⟨k.1.trans h.1, k.2.trans h.2, k.3.trans h.3⟩
  emit _ _ := ⟨rfl, rfl, rfl⟩
  ready _ _ := ⟨rfl, rfl, rfl⟩
  hang _ := ⟨rfl, rfl, rfl⟩
  del _ _ _ := ⟨rfl, rfl, rfl⟩
  nsDel _ _ := ⟨rfl, rfl, rfl⟩
  closed _ := ⟨rfl, rfl, rfl⟩
  waiting _ _ := ⟨rfl, rfl, rfl⟩
  unack _ _ := ⟨rfl, rfl, rfl⟩
  newObj _ _ := ⟨rfl, rfl, rfl⟩
  addRoom _ _ _ := ⟨rfl, rfl, rfl⟩
  nsAdd _ _ _ := ⟨rfl, rfl, rfl⟩
  wait _ _ := ⟨rfl, rfl, rfl⟩
  gates _ _ := ⟨rfl, rfl, rfl⟩
  newAsk _ _ := ⟨rfl, rfl, rfl⟩
  endAsk _ _ _ := ⟨rfl, rfl, rfl⟩

theorem RdStill.held {s t : St} (h : RdStill s t) : held t = held s := by
  unfold Spec.held; rw [h.rd]

/-- nothing heard, nothing of the reader changed -/
def Aside (s t : St) : Prop := Deaf s t ∧ RdStill s t

theorem Aside.trans {a b c : St} (h : Aside a b) (k : Aside b c) : Aside a c :=
  ⟨h.1.trans k.1, still_outer.trans h.2 k.2⟩

theorem aside_startAsk (s : St) {k : Cont} (msg : Message) (now : Int) (ex : Bool) (hk : ContLife k) :
    Aside s (startAsk cfg s k msg now ex) := by
  refine ⟨?_, still_outer.startAsk _ _ _ _ _ trivial⟩
  unfold startAsk
  split
  · exact deaf_finish _ _ _ hk
  · split
    · exact deaf_finish _ _ _ hk
    · split
      · exact deaf_finish _ _ _ hk
      · dsimp only
        have h0 : Deaf s (newAsk s (genWait cfg.isClient now) k) := by
          unfold newAsk; split <;> exact deaf_same rfl
        have h1 := h0.trans (deaf_write (cfg := cfg) (newAsk s (genWait cfg.isClient now) k)
            { msg with wait := genWait cfg.isClient now })
        revert h1
        generalize write cfg (newAsk s (genWait cfg.isClient now) k)
            { msg with wait := genWait cfg.isClient now } = p
        obtain ⟨t, ok⟩ := p
        intro h1
        cases ok with
        | true => exact h1
        | false =>
          dsimp only at h1 ⊢
          have h2 : Deaf t (endAsk t s.asks.length) := deaf_same rfl
          exact (h1.trans h2).trans (deaf_finish _ _ _ hk)

theorem aside_connect (s : St) (ns : Bytes) (now : Int) (ex : Bool) :
    Aside s (connect cfg s ns now ex) := by
  refine ⟨?_, still_outer.connect _ _ _ _ trivial⟩
  have hm := deaf_markReady (cfg := cfg) s
  unfold connect
  dsimp only
  revert hm
  generalize s.markReady cfg = s0
  intro hm
  split
  · exact hm
  · have hg : Deaf s (gateStart s0 ns) := hm
    revert hg
    generalize gateStart s0 ns = s1
    intro hg
    split
    · exact (hg.trans (deaf_ret _ _ _)).trans (deaf_gateDone _ _)
    · split
      · exact (hg.trans (deaf_ret _ _ _)).trans (deaf_gateDone _ _)
      · simp only [newObj]
        have h0 : Deaf s { s1 with objs := s1.objs ++ [⟨ns, []⟩] } := hg
        split
        · rename_i t e he
          exact ((h0.trans (deaf_fire' he life_connect)).trans (deaf_ret _ _ _)).trans (deaf_gateDone _ _)
        · rename_i t he
          exact (h0.trans (deaf_fire' he life_connect)).trans
            (aside_startAsk _ _ _ _ (show ContLife (.connect ns _) from trivial)).1

/-- the reader is between two payloads, or holds one at the connect gate or before an Ask -/
structure AtRest (s : St) : Prop where
  todo : s.todo = []
  ackAfter : s.ackAfter = false
  notAck : s.rd ≠ .ack

theorem Aside.atRest {s t : St} (h : Aside s t) (hw : AtRest s) : AtRest t :=
  ⟨h.2.todo.trans hw.todo, h.2.ackAfter.trans hw.ackAfter, by rw [h.2.rd]; exact hw.notAck⟩

theorem RdSame.still {s t : St} (h : RdSame s t) : RdStill s t := ⟨h.rd, h.todo, h.ackAfter⟩

/-- an operation of another goroutine than the reader, or a failing read -/
theorem aside_exec {s s' : St} {op : Op} (hr : Reach cfg id s) (hw : AtRest s)
    (h : exec cfg s op = some s') (hop : op ≠ .wake)
    (hrecv : ∀ t b, op ≠ .recv t b) : heard s'.log = heard s.log ∧ held s' = held s ∧ AtRest s' := by
  have wrap : Aside s s' → heard s'.log = heard s.log ∧ held s' = held s ∧ AtRest s' := fun h =>
    ⟨h.1, h.2.held, h.atRest hw⟩
  have same : ∀ {t : St}, t.log = s.log → t.rd = s.rd → t.todo = s.todo → t.ackAfter = s.ackAfter → Aside s t :=
    fun h1 h2 h3 h4 => ⟨deaf_same h1, h2, h3, h4⟩
  have sig : ∀ e, Aside s (s.signalReady e) := by
    intro e
    unfold St.signalReady
    split <;> exact same rfl rfl rfl rfl
  have cl : ∀ t : St, Aside t (closeConn cfg t) := fun t => ⟨deaf_closeConn _, (rd_closeConn t).still⟩
  cases op with
  | recv typ b => exact absurd rfl (hrecv typ b)
  | wake => exact absurd rfl hop
  | readErr e =>
    simp only [exec] at h
    split at h
    · rename_i hrd
      cases h
      have h1 := (sig (some e)).trans (cl _)
      have h2 := h1.atRest hw
      unfold readerExit
      refine ⟨h1.1, ?_, h2.todo, h2.ackAfter, by simp⟩
      unfold held
      rw [hrd.1]
    · cases h
  | contReader =>
    simp only [exec, contReader, hw.todo, hw.ackAfter] at h
    simp at h
  | connect ns now ex => cases h; exact wrap (aside_connect _ _ _ _)
  | disconnect obj now ex =>
    simp only [exec] at h
    split at h
    · cases h
      apply wrap
      unfold disconnect
      dsimp only
      split
      · exact ⟨deaf_ret _ _ _, rfl, rfl, rfl⟩
      · exact aside_startAsk _ _ _ _ life_disconnect
    · cases h
  | join obj room now ex =>
    simp only [exec] at h
    split at h
    · cases h
      apply wrap
      unfold joinRoom
      dsimp only
      split
      · exact ⟨deaf_ret _ _ _, rfl, rfl, rfl⟩
      · exact aside_startAsk _ _ _ _ life_join
    · cases h
  | leave obj room now ex =>
    simp only [exec] at h
    split at h
    · cases h
      apply wrap
      unfold leaveRoom
      dsimp only
      split
      · exact aside_startAsk _ _ _ _ life_leave
      · exact ⟨deaf_ret _ _ _, rfl, rfl, rfl⟩
    · cases h
  | ask msg now ex => cases h; exact wrap (aside_startAsk _ _ _ _ (show ContLife .user from trivial))
  | write msg => cases h; exact wrap ⟨deaf_write _ _, still_outer.write _ _⟩
  | resume i =>
    simp only [exec, resume] at h
    split at h
    · cases h
    · rename_i a ha
      split at h
      · cases h
      · split at h
        · cases h
        · rename_i m hb
          cases h
          have hk := ((reach_ok hr).1 a (List.mem_of_getElem? ha)).life
          have h1 := deaf_finish (cfg := cfg) (forget (endAsk (takeAnswer s i a) i) a) m m.err hk
          have h2 := still_outer.finish (cfg := cfg) (forget (endAsk (takeAnswer s i a) i) a) a.cont m m.err
          have f := resumed_fields s i a
          have e1 : (forget (endAsk (takeAnswer s i a) i) a).log = s.log := f.2.2.1
          have e2 : ∀ t : St, (forget t a).rd = t.rd ∧ (forget t a).todo = t.todo ∧
              (forget t a).ackAfter = t.ackAfter := by
            intro t; unfold forget; split <;> exact ⟨rfl, rfl, rfl⟩
          have e3 : held (takeAnswer s i a) = held s ∧ (takeAnswer s i a).todo = s.todo ∧
              (takeAnswer s i a).ackAfter = s.ackAfter ∧ (takeAnswer s i a).rd ≠ .ack := by
            unfold takeAnswer
            split
            · rename_i j m' hj
              split
              · exact ⟨by unfold held; rw [hj], rfl, rfl, by simp⟩
              · exact ⟨rfl, rfl, rfl, hw.notAck⟩
            · exact ⟨rfl, rfl, rfl, hw.notAck⟩
          refine ⟨Eq.trans h1 (by rw [e1]), ?_, ?_⟩
          · rw [h2.held]
            have : held (forget (endAsk (takeAnswer s i a) i) a) = held (takeAnswer s i a) := by
              unfold held
              rw [(e2 _).1]; rfl
            rw [this]; exact e3.1
          · refine ⟨h2.todo.trans ((e2 _).2.1.trans (e3.2.1.trans hw.todo)),
              h2.ackAfter.trans ((e2 _).2.2.trans (e3.2.2.1.trans hw.ackAfter)), ?_⟩
            rw [h2.rd, (e2 _).1]; exact e3.2.2.2
  | cancel i e =>
    simp only [exec, cancel] at h
    split at h
    · cases h
    · rename_i a ha
      split at h
      · cases h
      · cases h
        have hk := ((reach_ok hr).1 a (List.mem_of_getElem? ha)).life
        refine wrap (Aside.trans (b := endAsk s i) (same rfl rfl rfl rfl) ⟨deaf_finish _ _ _ hk, ?_⟩)
        exact still_outer.finish _ _ _ _
  | close => cases h; exact wrap (cl s)
  | steal i typ b =>
    simp only [exec, steal] at h
    split at h
    · cases h
    · split at h
      · cases h; exact wrap (same rfl rfl rfl rfl)
      · cases h
  | stealErr i e =>
    simp only [exec, steal] at h
    split at h
    · cases h
    · split at h
      · cases h; exact wrap (same rfl rfl rfl rfl)
      · cases h
  | ready err => cases h; exact wrap (sig err)
  | sendAck =>
    simp only [exec] at h
    split at h
    · cases h; exact wrap (same rfl rfl rfl rfl)
    · have h1 := deaf_rawWrite (cfg := cfg) s (b! "M") false
      have h2 := still_outer.rawWrite (cfg := cfg) s (b! "M") false
      revert h h1 h2
      generalize rawWrite cfg s (b! "M") false = p
      obtain ⟨t, ok⟩ := p
      intro h h1 h2
      cases ok with
      | true => cases h; exact wrap ⟨h1, h2⟩
      | false => cases h; exact wrap (Aside.trans ⟨h1, h2⟩ (cl t))
  | srvAsk tok => cases h; exact wrap (same rfl rfl rfl rfl)
  | srvUnask tok => cases h; exact wrap (same rfl rfl rfl rfl)

theorem decoded_remote {msg : Message} (h : Decoded cfg msg) : msg.isLocal = false := by
  obtain ⟨typ, b, hd⟩ := h
  rw [← hd]
  rfl

/-- what happens to a message that the reader hands on -/
theorem heard_dispatch {s : St} {msg : Message} (hloc : msg.isLocal = false) (hw : AtRest s)
    (hrd : s.rd = .idle) :
    AtRest (dispatch cfg s msg) ∧
      heard (dispatch cfg s msg).log ++ held (dispatch cfg s msg) = heard s.log ++
        if Life msg.event ∨ (gateBlocks s msg.ns = false ∧ s.namespace msg.ns = none) then [] else [msg] := by
  have hh : held s = [] := by unfold held; rw [hrd]
  unfold dispatch
  split
  · rename_i he
    have h : Aside s (replyConnect cfg s msg) :=
      ⟨deaf_replyConnect _ (he ▸ life_connect), still_outer.replyConnect _ _⟩
    refine ⟨h.atRest hw, ?_⟩
    rw [h.2.held, h.1, hh, if_pos (.inl (he ▸ life_connect))]
  · split
    · rename_i he
      have h : Aside s (replyDisconnect cfg s msg) :=
        ⟨deaf_replyDisconnect _ (he ▸ life_disconnect), still_outer.replyDisconnect _ _⟩
      refine ⟨h.atRest hw, ?_⟩
      rw [h.2.held, h.1, hh, if_pos (.inl (he ▸ life_disconnect))]
    · split
      · rename_i hg
        refine ⟨⟨hw.todo, hw.ackAfter, by simp⟩, ?_⟩
        simp only [held]
        by_cases hl : Life msg.event
        · simp [hl]
        · simp [hl, hg]
      · rename_i hg
        have h := (rd_afterGate (cfg := cfg) s msg).still
        refine ⟨⟨h.todo.trans hw.todo, h.ackAfter.trans hw.ackAfter, by rw [h.rd]; exact hw.notAck⟩, ?_⟩
        rw [h.held, hh, heard_afterGate _ hloc, List.append_nil]
        simp [hg]

theorem carried_none {t : MsgType} {b : Bytes}
    (h : (deserializeMessage cfg.known t b cfg.allowNative cfg.onlyNative).isInvalid = true) :
    carried cfg (t, b) = none := by
  unfold carried; rw [if_pos (.inl h)]

theorem heard_deliver (s : St) (i : Nat) (msg : Message) (hw : AtRest s) (hrd : s.rd = .idle) :
    AtRest (deliver s i msg) ∧ heard (deliver s i msg).log = heard s.log ∧ held (deliver s i msg) = [] := by
  have hh : held s = [] := by unfold held; rw [hrd]
  unfold deliver
  split
  · exact ⟨hw, rfl, hh⟩
  · split
    · exact ⟨⟨hw.todo, hw.ackAfter, hw.notAck⟩, rfl, hh⟩
    · exact ⟨⟨hw.todo, hw.ackAfter, by simp⟩, rfl, rfl⟩

/-- What becomes of a payload: nothing, or the application message it carries is heard or held.
A plain message of a connected namespace is not lost. -/
theorem heard_payload {s : St} (t : MsgType) (b : Bytes) (hw : AtRest s) (hrd : s.rd = .idle) :
    AtRest (handlePayload cfg s t b) ∧ ∃ l : List Message,
      heard (handlePayload cfg s t b).log ++ held (handlePayload cfg s t b) = heard s.log ++ l ∧
      (l = [] ∨ l = (carried cfg (t, b)).toList) ∧
      (cfg.onlyNative = false → ∀ m, carried cfg (t, b) = some m → m.wait = [] →
        s.namespace m.ns ≠ none → l = [m]) := by
  have hh : held s = [] := by unfold held; rw [hrd]
  have hdec : Decoded cfg (deserializeMessage cfg.known t b cfg.allowNative cfg.onlyNative) := ⟨t, b, rfl⟩
  have hloc := decoded_remote hdec
  have hcar : carried cfg (t, b) =
      if (deserializeMessage cfg.known t b cfg.allowNative cfg.onlyNative).isInvalid = true ∨
        Life (deserializeMessage cfg.known t b cfg.allowNative cfg.onlyNative).event then none
      else some (deserializeMessage cfg.known t b cfg.allowNative cfg.onlyNative) := rfl
  unfold handlePayload
  revert hdec hloc hcar
  generalize deserializeMessage cfg.known t b cfg.allowNative cfg.onlyNative = msg
  intro hdec hloc hcar
  rw [hcar]
  have disp : msg.isInvalid ≠ true → AtRest (dispatch cfg s msg) ∧ ∃ l : List Message,
      heard (dispatch cfg s msg).log ++ held (dispatch cfg s msg) = heard s.log ++ l ∧
      (l = [] ∨ l = (if msg.isInvalid = true ∨ Life msg.event then none else some msg).toList) ∧
      (cfg.onlyNative = false → ∀ m, (if msg.isInvalid = true ∨ Life msg.event then none else some msg) = some m →
        m.wait = [] → s.namespace m.ns ≠ none → l = [m]) := by
    intro hinv
    have h := heard_dispatch (cfg := cfg) hloc hw hrd
    refine ⟨h.1, _, h.2, ?_, ?_⟩
    · by_cases hl : Life msg.event
      · simp [hl]
      · by_cases hg : gateBlocks s msg.ns = false ∧ s.namespace msg.ns = none
        · simp [hg]
        · simp [hl, hg, hinv]
    · intro _ m hm hwt hns
      by_cases hl : Life msg.event
      · simp [hl] at hm
      · rw [if_neg (by simp [hl, hinv])] at hm
        cases hm
        rw [if_neg (by simp [hl, hns])]
  unfold handleMessage
  split
  · rename_i hinv
    refine ⟨hw, [], by simp [hh], .inl rfl, ?_⟩
    intro _ m hm
    simp [hinv] at hm
  · rename_i hinv
    split
    · rename_i hnat
      have hon : cfg.onlyNative = true := by simp at hnat; exact hnat.2
      split
      · refine ⟨⟨hw.todo, hw.ackAfter, hw.notAck⟩, [], ?_, .inl rfl, ?_⟩
        · show heard s.log ++ held s = _
          rw [hh]
        · intro h0; rw [hon] at h0; cases h0
      · rename_i obj _
        have h := (rd_fire (cfg := cfg) s obj msg).still
        refine ⟨⟨h.todo.trans hw.todo, h.ackAfter.trans hw.ackAfter, by rw [h.rd]; exact hw.notAck⟩,
          if Life msg.event then [] else [msg], ?_, ?_, ?_⟩
        · rw [h.held, hh, heard_fire, List.append_nil]
        · by_cases hl : Life msg.event
          · simp [hl]
          · simp [hl, hinv]
        · intro h0; rw [hon] at h0; cases h0
    · split
      · rename_i hwt
        have lost : ∀ m, (if msg.isInvalid = true ∨ Life msg.event then none else some msg) = some m →
            m.wait = [] → False := by
          intro m hm hm2
          split at hm
          · cases hm
          · cases hm
            unfold Message.isWait at hwt
            simp [hm2] at hwt
        split
        · refine ⟨⟨hw.todo, hw.ackAfter, hw.notAck⟩, [], ?_, .inl rfl, fun _ m hm h2 => (lost m hm h2).elim⟩
          have h := deaf_emit s (o := .notifyAsk msg) rfl
          show heard (s.emit (.notifyAsk msg)).log ++ held s = _
          rw [hh, h]
        · split
          · refine ⟨⟨hw.todo, hw.ackAfter, hw.notAck⟩, [], ?_, .inl rfl, fun _ m hm h2 => (lost m hm h2).elim⟩
            have h := deaf_emit s (o := .toServerAsk msg) rfl
            show heard (s.emit (.toServerAsk msg)).log ++ held s = _
            rw [hh, h]
          · split
            · rename_i i _
              obtain ⟨h1, h2, h3⟩ := heard_deliver s i msg hw hrd
              exact ⟨h1, [], by rw [h2, h3], .inl rfl, fun _ m hm h2 => (lost m hm h2).elim⟩
            · exact disp hinv
      · exact disp hinv

theorem readIn_cons (op : Op) (ops : List Op) : readIn (op :: ops) = readIn [op] ++ readIn ops := by
  cases op <;> rfl

/-- one operation -/
theorem delivers {s s' : St} {op : Op} (hr : Reach cfg id s) (hw : AtRest s) (ha : s.acked = true)
    (h : exec cfg s op = some s') : AtRest s' ∧
      (heard s'.log ++ held s').Sublist (heard s.log ++ held s ++ (readIn [op]).filterMap (carried cfg)) ∧
      ∀ ns, cfg.onlyNative = false → ((op = .wake ∨ ∃ t b, op = .recv t b) → s.namespace ns ≠ none) →
        (heard s'.log ++ held s').filter (Plain ns ·) =
          (heard s.log ++ held s ++ (readIn [op]).filterMap (carried cfg)).filter (Plain ns ·) := by
  by_cases hop : op = .wake
  · subst hop
    simp only [exec, wakeReader] at h
    split at h
    · rename_i msg hrd
      split at h
      · have hs0 : RdStill { s with rd := .idle } (afterGate cfg { s with rd := .idle } msg) := (rd_afterGate _ _).still
        have hl := decoded_remote (reach_gate hr msg hrd)
        have hh := heard_afterGate (cfg := cfg) { s with rd := .idle } hl
        revert h hs0 hh
        dsimp only
        generalize afterGate cfg { s with rd := .idle } msg = t
        intro h hs0 hh
        rw [if_pos hs0.rd] at h
        have e1 : t.todo = [] := hs0.todo.trans hw.todo
        have e2 : t.ackAfter = false := hs0.ackAfter.trans hw.ackAfter
        rw [e1, drain_nil _ e1 e2] at h
        cases h
        have e3 : s'.rd = .idle := hs0.rd
        have hn : ({ s with rd := .idle } : St).namespace msg.ns = s.namespace msg.ns := rfl
        rw [hn] at hh
        have h1 : held s' = [] := by unfold held; rw [e3]
        have h2 : held s = if Life msg.event then [] else [msg] := by unfold held; rw [hrd]
        refine ⟨⟨e1, e2, by rw [e3]; simp⟩, ?_, ?_⟩
        · rw [h1, h2, hh]
          simp only [readIn, List.filterMap_nil, List.append_nil]
          by_cases hl : Life msg.event
          · simp [hl]
          · by_cases hx : s.namespace msg.ns = none
            · simp [hl, hx]
            · simp [hl, hx]
        · intro ns _ hns
          have hns := hns (.inl rfl)
          rw [h1, h2, hh]
          simp only [readIn, List.filterMap_nil, List.append_nil]
          by_cases hl : Life msg.event
          · simp [hl]
          · by_cases hx : s.namespace msg.ns = none
            · have : ¬ Plain ns msg := by
                intro hp; rw [hp.1] at hx; exact hns hx
              simp [hl, hx, this]
            · simp [hl, hx]
      · cases h
    · rename_i hrd; exact absurd hrd hw.notAck
    · cases h
  · by_cases hrecv : ∃ t b, op = .recv t b
    · obtain ⟨t, b, rfl⟩ := hrecv
      simp only [exec] at h
      split at h
      · rename_i hg
        cases h
        have hh : held s = [] := by unfold held; rw [hg.1]
        unfold recv
        by_cases hb : b = []
        · have hc : carried cfg (t, b) = none := by subst hb; exact carried_none (by simp [deserializeMessage, deserializeInput])
          rw [if_pos hb]
          refine ⟨hw, ?_, ?_⟩
          · simp [readIn, hc]
          · intro ns _ _; simp [readIn, hc]
        · rw [if_neg hb, if_pos ha]
          obtain ⟨h1, l, h2, h3, h4⟩ := heard_payload (cfg := cfg) t b hw hg.1
          have e : (readIn [Op.recv t b]).filterMap (carried cfg) = (carried cfg (t, b)).toList := by
            simp only [readIn, List.filterMap_cons, List.filterMap_nil]
            cases carried cfg (t, b) <;> rfl
          rw [e, h2, hh, List.append_nil]
          refine ⟨h1, ?_, ?_⟩
          · rcases h3 with rfl | rfl
            · simp
            · exact List.Sublist.refl _
          · intro ns hon hns
            have hns := hns (.inr ⟨t, b, rfl⟩)
            rw [List.filter_append, List.filter_append]
            congr 1
            rcases h3 with rfl | rfl
            · cases hc : carried cfg (t, b) with
              | none => rfl
              | some m =>
                by_cases hp : Plain ns m
                · have := h4 hon m hc hp.2 (by rw [hp.1]; exact hns)
                  cases this
                · simp [hp]
            · rfl
      · cases h
    · have hrecv' : ∀ t b, op ≠ .recv t b := fun t b hx => hrecv ⟨t, b, hx⟩
      obtain ⟨h1, h2, h3⟩ := aside_exec hr hw h hop hrecv'
      have e : readIn [op] = [] := by
        cases op <;> first | rfl | exact absurd rfl (hrecv' _ _)
      rw [e, h1, h2]
      refine ⟨h3, ?_, ?_⟩
      · simp
      · intro ns _ _; simp

end Neffos
