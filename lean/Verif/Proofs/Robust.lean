import Verif.Spec.Robust
import Verif.Proofs.ConnOuter
import Verif.Proofs.Ledger
/-!
Helper for C96: which operations reach their end.
-/
set_option autoImplicit false
namespace Neffos.Robust
open Spec

variable {cfg : Cfg} {id : Bytes}

theorem closed_rawWrite_ok (hs : ∀ l bin b, isCloseError (cfg.sock l bin b) = false) (s : St) (b : Bytes) (bin : Bool) :
    (rawWrite cfg s b bin).1.closed = s.closed := by
  unfold rawWrite
  dsimp only
  split
  · rfl
  · rw [if_neg (by rw [hs]; simp)]
    rfl

theorem closed_write_ok (hs : ∀ l bin b, isCloseError (cfg.sock l bin b) = false) (s : St) (m : Message) :
    (write cfg s m).1.closed = s.closed := by
  rw [write_eq]
  have hm : (s.markReady cfg).closed = s.closed := by
    unfold St.markReady St.signalReady; split
    · rfl
    · split <;> rfl
  split
  · rw [closed_rawWrite_ok hs, hm]
  · split
    · rfl
    · exact hm

theorem actHangs_quiet (hs : ∀ l bin b, isCloseError (cfg.sock l bin b) = false) {s : St} {obj : Nat} {m : Message}
    {ns : Bytes} (hc : ConnOk cfg s) (ho : s.namespace m.ns = some obj → m.ns = ns) (hm : m.ns = ns → m.room = []) :
    actHangs cfg s obj (.write m) = false := by
  simp only [actHangs]
  rw [closed_write_ok hs]
  by_cases hx : s.namespace m.ns = some obj
  · rw [hm (ho hx)]
    cases s.closed <;> simp
  · have : (s.namespace m.ns == some obj) = false := by simpa using hx
    rw [this]
    cases s.closed <;> simp

/-- what is known of the NSConn whose rooms are left -/
def Named (s : St) (obj : Nat) (ns : Bytes) : Prop := ∀ n, IsNs s obj n → n = ns

theorem named_self (s : St) (obj : Nat) : Named s obj (s.nsName obj) := by
  intro n h
  unfold IsNs at h
  unfold St.nsName
  cases ho : s.objs[obj]? with
  | none => rw [ho] at h; cases h
  | some o => rw [ho] at h; simpa using h.symm

/-- no NSConn comes, and each keeps its namespace -/
def NamesSame (s t : St) : Prop := ∀ o n, IsNs t o n ↔ IsNs s o n

theorem namesSame_eq {s t : St} (h : t.objs = s.objs) : NamesSame s t := by
  intro o n; unfold IsNs; rw [h]

theorem namesSame_calm : Calm NamesSame where
  refl _ := namesSame_eq rfl
  trans h k := fun o n => (k o n).trans (h o n)
  emit _ _ := namesSame_eq rfl
  ready _ _ := namesSame_eq rfl
  hang _ := namesSame_eq rfl
  del s obj room := fun o n => isNs_set
  nsDel _ _ := namesSame_eq rfl
  closed _ := namesSame_eq rfl
  waiting _ _ := namesSame_eq rfl
  unack _ _ := namesSame_eq rfl

theorem hung_acts (hs : ∀ l bin b, isCloseError (cfg.sock l bin b) = false) {obj : Nat} {ns : Bytes} :
    ∀ (acts : List Act) (s : St), ConnOk cfg s → Named s obj ns →
      (∀ a ∈ acts, ∃ m : Message, a = .write m ∧ (m.ns = ns → m.room = [])) →
      (acts.foldl (runActLocked cfg obj) s).hung = s.hung := by
  intro acts
  induction acts with
  | nil => intro s _ _ _; rfl
  | cons a acts ih =>
    intro s hc hn ha
    rw [List.foldl_cons]
    obtain ⟨m, rfl, hm⟩ := ha a (by simp)
    have hh : actHangs cfg s obj (.write m) = false :=
      actHangs_quiet hs hc (fun hx => hn _ (hc _ _ hx).2) hm
    have e : runActLocked cfg obj s (.write m) = (write cfg s m).1 := by
      unfold runActLocked
      rw [hh]
      rfl
    rw [e, ih _ ((prims_write s m).connOk hc) (fun n k => hn n ((namesSame_calm.write s m obj n).mp k))
      (fun b hb => ha b (List.mem_cons_of_mem _ hb)), hung_write]

theorem hung_fireLocked (hq : LeavesQuietly cfg) {s : St} {obj : Nat} {msg : Message} (hc : ConnOk cfg s)
    (hn : Named s obj msg.ns) (hf : msg.isForced = true) (he : msg.event = OnRoomLeave ∨ msg.event = OnRoomLeft) :
    (fireLocked cfg s obj msg).hung = s.hung := by
  unfold fireLocked
  dsimp only
  split
  · rfl
  · rename_i h _
    have hk := hq s.log obj h msg hf he
    have hc' : ∀ o, ConnOk cfg (s.emit o) := fun _ => hc
    have hn' : ∀ o, Named (s.emit o) obj msg.ns := fun _ => hn
    cases hl : (cfg.cb s.log obj h msg).1 with
    | nil => rfl
    | cons a l =>
      rw [hl] at hk
      exact hung_acts (hk a (by simp)).2 (a :: l) _ (hc' _) (hn' _) (fun b hb => (hk b hb).1)

theorem hung_forceLeaveAll (hq : LeavesQuietly cfg) {s : St} (hc : ConnOk cfg s) (obj : Nat) (il : Bool) :
    (forceLeaveAll cfg s obj il).hung = s.hung := by
  unfold forceLeaveAll
  generalize cfg.order s.log (s.rooms obj) = l
  induction l generalizing s with
  | nil => rfl
  | cons room l ih =>
    rw [List.foldl_cons, ih ((prims_leaveOne obj il s room).connOk hc)]
    unfold leaveOne
    dsimp only
    have hn := named_self s obj
    have h1 : (fireLocked cfg s obj (forcedLeaveMsg (s.nsName obj) room OnRoomLeave il)).hung = s.hung :=
      hung_fireLocked hq hc hn rfl (.inl rfl)
    have c1 := (prims_fireLocked s obj (forcedLeaveMsg (s.nsName obj) room OnRoomLeave il)).connOk hc
    have n1 : Named (fireLocked cfg s obj (forcedLeaveMsg (s.nsName obj) room OnRoomLeave il)) obj (s.nsName obj) :=
      fun n k => hn n ((namesSame_calm.fireLocked s obj _ obj n).mp k)
    revert h1 c1 n1
    generalize fireLocked cfg s obj (forcedLeaveMsg (s.nsName obj) room OnRoomLeave il) = t
    intro h1 c1 n1
    have c2 : ConnOk cfg (t.setRooms obj (delRoom room)) := fun n o ho =>
      ⟨(c1 n o ho).1, isNs_set.mpr (c1 n o ho).2⟩
    have n2 : Named (t.setRooms obj (delRoom room)) obj (s.nsName obj) := fun n k => n1 n (isNs_set.mp k)
    rw [hung_fireLocked hq c2 n2 rfl (.inr rfl)]
    exact h1

theorem hung_notifyConnected (s : St) (obj : Nat) (msg : Message) : (notifyConnected cfg s obj msg).hung = s.hung := by
  unfold notifyConnected
  dsimp only
  have h := hung_fire (cfg := cfg) s obj { msg with event := OnNamespaceConnected }
  split
  · exact h
  · exact h

theorem hung_fire' {s t : St} {obj : Nat} {msg : Message} {r : Option GoErr} (h : fire cfg s obj msg = (t, r)) :
    t.hung = s.hung := by
  have := hung_fire (cfg := cfg) s obj msg
  rw [h] at this; exact this

theorem hung_reply (s : St) (w : Bytes) : (writeEmptyReply cfg s w).hung = s.hung := hung_rawWrite _ _ _

theorem hung_replyConnect (s : St) (msg : Message) : (replyConnect cfg s msg).hung = s.hung := by
  unfold replyConnect
  split
  · rfl
  · split
    · exact hung_reply _ _
    · split
      · exact hung_write _ _
      · simp only [newObj]
        split
        · rename_i t e he
          rw [hung_write]
          have hx := hung_fire' he
          exact hx
        · rename_i t he
          rw [hung_notifyConnected, hung_reply]
          have hx := hung_fire' he
          exact hx

theorem hung_notifyDisconnect (s : St) (ns : Bytes) : (notifyDisconnect cfg s ns).hung = s.hung := by
  unfold notifyDisconnect; split <;> rfl

theorem hung_replyDisconnect (hq : LeavesQuietly cfg) {s : St} (hc : ConnOk cfg s) (msg : Message) :
    (replyDisconnect cfg s msg).hung = s.hung := by
  unfold replyDisconnect
  split
  · rfl
  · split
    · exact hung_reply _ _
    · rename_i obj _
      split
      · dsimp only
        rw [hung_fire, hung_reply]
        exact hung_forceLeaveAll hq hc _ _
      · split
        · rename_i t e he
          rw [hung_write]
          have hx := hung_fire' he
          exact hx
        · rename_i t he
          have ct : ConnOk cfg t := by
            have := (prims_fire (cfg := cfg) s obj msg).connOk hc
            rw [he] at this; exact this
          dsimp only
          rw [hung_reply, hung_notifyDisconnect]
          have hx := hung_fire' he
          exact (hung_forceLeaveAll hq ct _ _).trans hx

theorem hung_replyRoomJoin (s : St) (obj : Nat) (msg : Message) : (replyRoomJoin cfg s obj msg).hung = s.hung := by
  unfold replyRoomJoin
  split
  · rfl
  · split
    · exact hung_reply _ _
    · split
      · rename_i t e he
        rw [hung_write]
        have hx := hung_fire' he
        exact hx
      · rename_i t he
        dsimp only
        rw [hung_reply, hung_fire]
        have hx := hung_fire' he
        exact hx

theorem hung_replyRoomLeave (s : St) (obj : Nat) (msg : Message) : (replyRoomLeave cfg s obj msg).hung = s.hung := by
  unfold replyRoomLeave
  split
  · rfl
  · split
    · exact hung_reply _ _
    · split
      · dsimp only
        rw [hung_fire, hung_reply]; exact hung_fire _ _ _
      · split
        · rename_i t e he
          rw [hung_write]
          have hx := hung_fire' he
          exact hx
        · rename_i t he
          dsimp only
          rw [hung_reply, hung_fire]
          have hx := hung_fire' he
          exact hx

theorem hung_afterGate (s : St) (msg : Message) : (afterGate cfg s msg).hung = s.hung := by
  unfold afterGate
  split
  · exact hung_write _ _
  · split
    · exact hung_replyRoomJoin _ _ _
    · split
      · exact hung_replyRoomLeave _ _ _
      · unfold handleEvent
        dsimp only
        split
        · rename_i t e he
          rw [hung_write]
          have hx := hung_fire' he
          exact hx
        · rename_i t he
          have hx := hung_fire' he
          exact hx

theorem hung_deliver (s : St) (i : Nat) (msg : Message) : (deliver s i msg).hung = s.hung := by
  unfold deliver
  split
  · rfl
  · split <;> rfl

theorem hung_handleMessage (hn : cfg.onlyNative = false) (hq : LeavesQuietly cfg) {s : St} (hc : ConnOk cfg s)
    (msg : Message) : (handleMessage cfg s msg).hung = s.hung := by
  have hd : (dispatch cfg s msg).hung = s.hung := by
    unfold dispatch
    split
    · exact hung_replyConnect _ _
    · split
      · exact hung_replyDisconnect hq hc _
      · split
        · rfl
        · exact hung_afterGate _ _
  unfold handleMessage
  split
  · rfl
  · rw [if_neg (by simp [hn])]
    split
    · split
      · rfl
      · split
        · rfl
        · split
          · exact hung_deliver _ _ _
          · exact hd
    · exact hd

theorem hung_readerExit (s : St) : (readerExit cfg s).hung = s.hung := hung_closeConn s

theorem waitOk_idle {s t : St} (hw : WaitOk cfg s) (h1 : t.waiting = s.waiting) (h2 : t.asks = s.asks)
    (h3 : t.rd = .idle) : WaitOk cfg t := by
  obtain ⟨a, b, c⟩ := hw
  refine ⟨?_, ?_, ?_⟩
  · rw [h1, h2]; exact a
  · rw [h2]; exact b
  · intro i m h; rw [h3] at h; cases h

theorem hung_drain (hn : cfg.onlyNative = false) (hq : LeavesQuietly cfg) (l : List (MsgType × Bytes)) :
    ∀ {s : St}, ConnOk cfg s → WaitOk cfg s → (drain cfg s l).hung = s.hung := by
  induction l with
  | nil =>
    intro s _ _
    unfold drain
    dsimp only
    split
    · unfold finishAck
      dsimp only
      have h := hung_rawWrite (cfg := cfg) { s with todo := [], ackAfter := false } (65 :: s.id) false
      split
      · exact h
      · rw [hung_readerExit]; exact h
    · rfl
  | cons p l ih =>
    obtain ⟨t, b⟩ := p
    intro s hc hw
    unfold drain
    dsimp only
    have c0 : ConnOk cfg { s with rd := .idle } := hc
    have w0 : WaitOk cfg { s with rd := .idle } := waitOk_idle hw rfl rfl rfl
    have h0 : (handlePayload cfg { s with rd := .idle } t b).hung = s.hung := hung_handleMessage hn hq c0 _
    have c1 : ConnOk cfg (handlePayload cfg { s with rd := .idle } t b) := (prims_handlePayload _ t b w0).connOk c0
    have w1 : WaitOk cfg (handlePayload cfg { s with rd := .idle } t b) := (prims_handlePayload _ t b w0).waitOk w0
    split
    · rw [ih c1 w1]; exact h0
    · exact h0

theorem hung_signalReady (s : St) (e : Option GoErr) : (s.signalReady e).hung = s.hung := by
  unfold St.signalReady; split <;> rfl

theorem hung_ackReady (hn : cfg.onlyNative = false) (hq : LeavesQuietly cfg) {s : St} (hc : ConnOk cfg s)
    (hw : WaitOk cfg s) (e : Option GoErr) : (ackReady cfg s e).hung = s.hung := by
  unfold ackReady
  split
  · rw [hung_readerExit, hung_rawWrite]
  · dsimp only
    rw [hung_drain hn hq]
    · exact hc
    · exact waitOk_idle hw rfl rfl rfl

theorem hung_handleACK (hn : cfg.onlyNative = false) (hq : LeavesQuietly cfg) {s : St} (hc : ConnOk cfg s)
    (hw : WaitOk cfg s) (typ : MsgType) (b : Bytes) : (handleACK cfg s typ b).hung = s.hung := by
  unfold handleACK
  split
  · rfl
  · split
    · split
      · rfl
      · exact hung_ackReady hn hq hc hw _
    · split
      · exact hung_signalReady _ _
      · split
        · rw [hung_readerExit, hung_signalReady]
        · split <;> rfl

theorem hung_finish (hq : LeavesQuietly cfg) {s : St} {k : Cont}
    (hc : (∃ obj msg, k = .disconnect obj msg) → ConnOk cfg s) (m : Message) (err : Option GoErr) :
    (finish cfg s k m err).hung = s.hung := by
  cases k with
  | connect ns obj =>
    cases err with
    | some e => simp only [finish]; rw [hung_gateDone]; rfl
    | none =>
      simp only [finish]
      rw [hung_gateDone]
      exact hung_notifyConnected _ _ _
  | disconnect obj msg =>
    cases err with
    | some e => rfl
    | none =>
      simp only [finish]
      have hk := hung_forceLeaveAll hq (hc ⟨obj, msg, rfl⟩) obj true
      refine Eq.trans ?_ hk
      exact (hung_notifyDisconnect _ _).trans (hung_fire _ _ _)
  | join obj msg =>
    cases err with
    | some e => rfl
    | none =>
      simp only [finish]
      split
      · rename_i t e he
        have hx := hung_fire' he
        exact hx
      · rename_i t he
        have hx := hung_fire' he
        rw [show ∀ t : St, (t.emit (.ret _ _)).hung = t.hung from fun _ => rfl, hung_fire]
        exact hx
  | leave obj msg =>
    cases err with
    | some e => rfl
    | none =>
      simp only [finish]
      split
      · rename_i t e he
        have hx := hung_fire' he
        exact hx
      · rename_i t he
        have hx := hung_fire' he
        rw [show ∀ t : St, (t.emit (.ret _ _)).hung = t.hung from fun _ => rfl, hung_fire]
        exact hx
  | user => rfl

theorem connOk_same {s t : St} (h1 : t.connected = s.connected) (h2 : t.objs = s.objs) (hc : ConnOk cfg s) :
    ConnOk cfg t := by
  intro ns obj h
  rw [h1] at h
  rw [h2]
  exact hc ns obj h

theorem hung_startAsk (hq : LeavesQuietly cfg) {s : St} {k : Cont}
    (hc : (∃ obj msg, k = .disconnect obj msg) → ConnOk cfg s) (msg : Message) (now : Int) (ex : Bool) :
    (startAsk cfg s k msg now ex).hung = s.hung := by
  unfold startAsk
  split
  · exact hung_finish hq hc _ _
  · split
    · exact hung_finish hq hc _ _
    · split
      · exact hung_finish hq hc _ _
      · dsimp only
        have h0 : (newAsk s (genWait cfg.isClient now) k).hung = s.hung ∧
            (newAsk s (genWait cfg.isClient now) k).connected = s.connected ∧
            (newAsk s (genWait cfg.isClient now) k).objs = s.objs := by
          unfold newAsk; split <;> exact ⟨rfl, rfl, rfl⟩
        revert h0
        generalize newAsk s (genWait cfg.isClient now) k = u
        intro h0
        have h1 := hung_write (cfg := cfg) u { msg with wait := genWait cfg.isClient now }
        have h2 : ConnOk cfg u → ConnOk cfg (write cfg u { msg with wait := genWait cfg.isClient now }).1 :=
          (prims_write u _).connOk
        revert h1 h2
        generalize write cfg u { msg with wait := genWait cfg.isClient now } = p
        obtain ⟨t, o⟩ := p
        intro h1 h2
        cases o with
        | true => exact h1.trans h0.1
        | false =>
          dsimp only at h1 h2 ⊢
          have h3 : (∃ obj msg, k = .disconnect obj msg) → ConnOk cfg (endAsk t s.asks.length) :=
            fun hk => h2 (connOk_same h0.2.1 h0.2.2 (hc hk))
          rw [hung_finish hq h3]
          exact h1.trans h0.1

theorem hung_connect (hq : LeavesQuietly cfg) (s : St) (ns : Bytes) (now : Int) (ex : Bool) :
    (connect cfg s ns now ex).hung = s.hung := by
  have hm : (s.markReady cfg).hung = s.hung := by
    unfold St.markReady
    split
    · rfl
    · exact hung_signalReady _ _
  unfold connect
  dsimp only
  revert hm
  generalize s.markReady cfg = s0
  intro hm
  split
  · exact hm
  · have hg : (gateStart s0 ns).hung = s.hung := hm
    revert hg
    generalize gateStart s0 ns = s1
    intro hg
    split
    · rw [hung_gateDone]; exact hg
    · split
      · rw [hung_gateDone]; exact hg
      · simp only [newObj]
        split
        · rename_i t e he
          rw [hung_gateDone]
          have hx := hung_fire' he
          exact hx.trans hg
        · rename_i t he
          rw [hung_startAsk hq (by rintro ⟨_, _, h⟩; cases h)]
          have hx := hung_fire' he
          exact hx.trans hg

theorem hung_exec (hn : cfg.onlyNative = false) (hq : LeavesQuietly cfg) {s s' : St} (hc : ConnOk cfg s) (hw : WaitOk cfg s)
    {op : Op}
    (h : exec cfg s op = some s') : s'.hung = s.hung := by
  cases op with
  | recv typ b =>
    simp only [exec] at h
    split at h
    · cases h
      unfold recv
      split
      · rfl
      · split
        · exact hung_handleMessage hn hq hc _
        · exact hung_handleACK hn hq hc hw _ _
    · cases h
  | readErr e =>
    simp only [exec] at h
    split at h
    · cases h; rw [hung_readerExit, hung_signalReady]
    · cases h
  | wake =>
    simp only [exec, wakeReader] at h
    split at h
    · rename_i msg _
      split at h
      · have c0 : ConnOk cfg { s with rd := .idle } := hc
        have w0 : WaitOk cfg { s with rd := .idle } := waitOk_idle hw rfl rfl rfl
        have w1 := (prims_afterGate (cfg := cfg) { s with rd := .idle } msg).waitOk w0
        have h1 := hung_afterGate (cfg := cfg) { s with rd := .idle } msg
        have c1 := (prims_afterGate (cfg := cfg) { s with rd := .idle } msg).connOk c0
        split at h
        · cases h
          rw [hung_drain hn hq _ c1 w1]; exact h1
        · cases h; exact h1
      · cases h
    · split at h
      · cases h
      · cases h; exact hung_ackReady hn hq hc hw _
    · cases h
  | contReader =>
    simp only [exec, contReader] at h
    split at h
    · cases h; exact hung_drain hn hq _ hc hw
    · cases h
  | connect ns now ex => cases h; exact hung_connect hq _ _ _ _
  | disconnect obj now ex =>
    simp only [exec] at h
    split at h
    · cases h
      unfold disconnect
      dsimp only
      split
      · rfl
      · exact hung_startAsk hq (fun _ => hc) _ _ _
    · cases h
  | join obj room now ex =>
    simp only [exec] at h
    split at h
    · cases h
      unfold joinRoom
      dsimp only
      split
      · rfl
      · exact hung_startAsk hq (fun _ => hc) _ _ _
    · cases h
  | leave obj room now ex =>
    simp only [exec] at h
    split at h
    · cases h
      unfold leaveRoom
      dsimp only
      split
      · exact hung_startAsk hq (fun _ => hc) _ _ _
      · rfl
    · cases h
  | ask msg now ex => cases h; exact hung_startAsk hq (fun _ => hc) _ _ _
  | write msg => cases h; exact hung_write _ _
  | resume j =>
    simp only [exec, resume] at h
    split at h
    · cases h
    · rename_i a _
      split at h
      · cases h
      · split at h
        · cases h
        · cases h
          have e : (forget (endAsk (takeAnswer s j a) j) a).hung = s.hung ∧
              (forget (endAsk (takeAnswer s j a) j) a).connected = s.connected ∧
              (forget (endAsk (takeAnswer s j a) j) a).objs = s.objs := by
            unfold forget endAsk takeAnswer
            split <;> split <;> (try split) <;> exact ⟨rfl, rfl, rfl⟩
          rw [hung_finish hq (fun _ => connOk_same e.2.1 e.2.2 hc)]
          exact e.1
  | cancel j e =>
    simp only [exec, cancel] at h
    split at h
    · cases h
    · split at h
      · cases h
      · cases h
        have h3 : ConnOk cfg (endAsk s j) := hc
        rw [hung_finish hq (fun _ => h3)]
        rfl
  | close => cases h; exact hung_closeConn _
  | steal j typ b =>
    simp only [exec, steal] at h
    split at h
    · cases h
    · split at h
      · cases h; rfl
      · cases h
  | stealErr j e =>
    simp only [exec, steal] at h
    split at h
    · cases h
    · split at h
      · cases h; rfl
      · cases h
  | ready e => cases h; exact hung_signalReady _ _
  | sendAck =>
    simp only [exec] at h
    split at h
    · cases h; rfl
    · have hw := hung_rawWrite (cfg := cfg) s (b! "M") false
      revert h hw
      generalize rawWrite cfg s (b! "M") false = p
      obtain ⟨t, ok⟩ := p
      intro h hw
      cases ok with
      | true => cases h; exact hw
      | false => cases h; rw [hung_closeConn]; exact hw
  | srvAsk tok => cases h; rfl
  | srvUnask tok => cases h; rfl

end Neffos.Robust
