import Verif.Proofs.ConnPassive
/-!
Helper: the subscriptions a server-side connection asks the StackExchange for follow its
connected namespaces.
-/
namespace Neffos
open Spec

variable {cfg : Cfg} {id : Bytes}

def subStep (ns : Bytes) (b : Bool) : Obs → Bool
  | .subscribe n => if n = ns then true else b
  | .unsubscribe n => if n = ns then false else b
  | _ => b

/-- spec: is the last of the Subscribe and Unsubscribe calls for the namespace a Subscribe -/
def subscribedTo (ns : Bytes) (l : List Obs) : Bool := l.foldl (subStep ns) false

theorem subscribedTo_other (ns : Bytes) (l : List Obs) : subscribedTo ns (otherOf l) = subscribedTo ns l := by
  unfold subscribedTo
  suffices h : ∀ b, (otherOf l).foldl (subStep ns) b = l.foldl (subStep ns) b from h false
  induction l with
  | nil => intro b; rfl
  | cons o l ih => intro b; cases o <;> simp only [otherOf, List.foldl_cons, ih, subStep]

theorem subscribedTo_same {l m : List Obs} (ns : Bytes) (h : otherOf m = []) :
    subscribedTo ns (l ++ m) = subscribedTo ns l := by
  rw [← subscribedTo_other, otherOf_append, h, List.append_nil, subscribedTo_other]

theorem subscribedTo_sub {l m : List Obs} (ns n : Bytes) (h : otherOf m = [.subscribe n]) :
    subscribedTo ns (l ++ m) = if n = ns then true else subscribedTo ns l := by
  rw [← subscribedTo_other, otherOf_append, h]
  unfold subscribedTo
  rw [List.foldl_append]
  simp only [List.foldl_cons, List.foldl_nil, subStep]
  have := subscribedTo_other ns l
  unfold subscribedTo at this
  rw [this]

theorem subscribedTo_unsub {l m : List Obs} (ns n : Bytes) (h : otherOf m = [.unsubscribe n]) :
    subscribedTo ns (l ++ m) = if n = ns then false else subscribedTo ns l := by
  rw [← subscribedTo_other, otherOf_append, h]
  unfold subscribedTo
  rw [List.foldl_append]
  simp only [List.foldl_cons, List.foldl_nil, subStep]
  have := subscribedTo_other ns l
  unfold subscribedTo at this
  rw [this]

/-- the connected namespaces are those subscribed to -/
def Tracked (s : St) : Prop := ∀ ns, (s.namespace ns).isSome = subscribedTo ns s.log

/-- a change that ends with an open connection keeps it tracked -/
def Trk (s t : St) : Prop :=
  t.closed = false → t.hung = false → s.closed = false ∧ s.hung = false ∧ (Tracked s → Tracked t)

theorem Trk.refl (s : St) : Trk s s := fun h1 h2 => ⟨h1, h2, fun h => h⟩

theorem Trk.trans {a b c : St} (h : Trk a b) (k : Trk b c) : Trk a c := by
  intro h1 h2
  obtain ⟨k1, k2, k3⟩ := k h1 h2
  obtain ⟨l1, l2, l3⟩ := h k1 k2
  exact ⟨l1, l2, fun x => k3 (l3 x)⟩

theorem trk_quiet {s t : St} {l : List Obs} (h1 : t.connected = s.connected) (h2 : t.log = s.log ++ l)
    (hl : otherOf l = []) (h3 : t.closed = s.closed) (h4 : t.hung = s.hung) : Trk s t := by
  intro a b
  refine ⟨h3 ▸ a, h4 ▸ b, fun h ns => ?_⟩
  unfold St.namespace
  rw [h1, h2, subscribedTo_same ns hl]; exact h ns

theorem trk_congr {s t : St} (h1 : t.connected = s.connected) (h2 : t.log = s.log)
    (h3 : t.closed = s.closed) (h4 : t.hung = s.hung) : Trk s t :=
  trk_quiet (l := []) h1 (by simp [h2]) rfl h3 h4

theorem trk_emit (s : St) (o : Obs) (ho : otherOf [o] = []) : Trk s (s.emit o) :=
  trk_quiet (l := [o]) rfl rfl ho rfl rfl

theorem trk_ret (s : St) (k : Cont) (r : Result) : Trk s (s.emit (.ret k r)) := trk_emit _ _ rfl

theorem trk_same {s t : St} {l : List Obs} (h : Same s l t) (hl : otherOf l = []) : Trk s t :=
  trk_quiet h.connected h.log hl h.closed h.hung

theorem trk_of_closed {s t : St} (h : t.closed = true) : Trk s t := by
  intro h1; rw [h] at h1; simp at h1

theorem AllSent.other {l : List Obs} (h : AllSent l) : otherOf l = [] := h.projections.2.2

theorem trk_fire (s : St) (obj : Nat) (msg : Message) : Trk s (fire cfg s obj msg).1 := by
  intro h1 h2
  obtain ⟨l, hl, _, hs⟩ := fire_open h1
  exact trk_same hs (by simpa [otherOf] using hl.other) h1 h2

theorem trk_fire' {s t : St} {obj : Nat} {msg : Message} {r : Option GoErr}
    (h : fire cfg s obj msg = (t, r)) : Trk s t := by
  have := trk_fire (cfg := cfg) s obj msg
  rw [h] at this; exact this

theorem trk_write (s : St) (msg : Message) : Trk s (write cfg s msg).1 := by
  intro h1 h2
  exact trk_same ⟨_, write_open h1⟩ (writeLog_sent s msg).other h1 h2

theorem trk_rawWrite (s : St) (b : Bytes) (binary : Bool) : Trk s (rawWrite cfg s b binary).1 := by
  intro h1 h2
  have e := rawWrite_open h1
  have : Same s [.sent binary b (cfg.sock s.log binary b).isNone] (rawWrite cfg s b binary).1 := by
    rw [e]; exact ⟨s.ready, rfl⟩
  exact trk_same this rfl h1 h2

theorem trk_writeEmptyReply (s : St) (w : Bytes) : Trk s (writeEmptyReply cfg s w) :=
  trk_rawWrite _ _ _

theorem trk_closeConn (s : St) : Trk s (closeConn cfg s) := trk_of_closed (closeConn_closed s)

theorem trk_rooms (s : St) (obj : Nat) (f : List Bytes → List Bytes) : Trk s (s.setRooms obj f) :=
  trk_congr rfl rfl rfl rfl

theorem trk_hang (s : St) : Trk s { s with hung := true } := by
  intro _ h; simp at h

/-- leaving all rooms changes neither the namespaces nor the subscriptions -/
theorem forceLeave_quiet {s : St} {obj : Nat} {il : Bool}
    (h : (forceLeaveAll cfg s obj il).closed = false) (hh : (forceLeaveAll cfg s obj il).hung = false) :
    ∃ l, SameR s l (forceLeaveAll cfg s obj il) ∧ otherOf l = [] := by
  unfold forceLeaveAll at h hh ⊢
  revert h hh
  generalize cfg.order s.log (s.rooms obj) = rs
  intro h hh
  induction rs generalizing s with
  | nil => exact ⟨[], (Same.refl s).toR, rfl⟩
  | cons r rs ih =>
    simp only [List.foldl_cons] at h hh ⊢
    have hp := prims_foldl (cfg := cfg) (leaveOne cfg obj il) rs
      (fun s x => prims_leaveOne obj il s x) (leaveOne cfg obj il s r)
    obtain ⟨l, hs, h1, _⟩ := leaveOne_open (closed_of_prims hp h) (hung_of_prims hp hh)
    obtain ⟨l', hs', h1'⟩ := ih h hh
    exact ⟨l ++ l', hs.trans hs', by rw [otherOf_append, h1.other, h1']; rfl⟩

theorem SameR.hung {s s' : St} {l : List Obs} (h : SameR s l s') : s'.hung = s.hung := by
  obtain ⟨⟨r, o, rfl⟩, _⟩ := h; rfl

/-- disconnecting and telling the exchange, with quiet changes around -/
theorem trk_disc {s t : St} {l : List Obs} {ns : Bytes} (h1 : t.connected = mapDel s.connected ns)
    (h2 : t.log = s.log ++ l) (hl : otherOf l = [.unsubscribe ns]) (h3 : t.closed = s.closed)
    (h4 : t.hung = s.hung) : Trk s t := by
  intro a b
  refine ⟨h3 ▸ a, h4 ▸ b, fun h n => ?_⟩
  unfold St.namespace
  rw [h1, h2, subscribedTo_unsub n ns hl, mapGet_mapDel]
  by_cases e : n = ns
  · subst e; simp
  · rw [if_neg e, if_neg (fun h => e h.symm)]; exact h n

/-- connecting and telling the exchange, with quiet changes around -/
theorem trk_conn {s t : St} {l : List Obs} {ns : Bytes} {obj : Nat}
    (h1 : t.connected = mapSet s.connected ns obj)
    (h2 : t.log = s.log ++ l) (hl : otherOf l = [.subscribe ns]) (h3 : t.closed = s.closed)
    (h4 : t.hung = s.hung) : Trk s t := by
  intro a b
  refine ⟨h3 ▸ a, h4 ▸ b, fun h n => ?_⟩
  unfold St.namespace
  rw [h1, h2, subscribedTo_sub n ns hl, mapGet_mapSet]
  by_cases e : n = ns
  · subst e; simp
  · rw [if_neg e, if_neg (fun h => e h.symm)]; exact h n

theorem trk_replyConnect (hsrv : cfg.isClient = false) (hex : cfg.usesExchange = true) (s : St)
    (msg : Message) : Trk s (replyConnect cfg s msg) := by
  unfold replyConnect
  split
  · exact .refl s
  · split
    · exact trk_writeEmptyReply _ _
    · split
      · exact trk_write _ _
      · simp only [newObj]
        split
        · rename_i t e he
          exact ((trk_congr (t := { s with objs := s.objs ++ [⟨msg.ns, []⟩] }) rfl rfl rfl rfl).trans
            (trk_fire' he)).trans (trk_write _ _)
        · rename_i t he
          intro hc hh
          have hp := (prims_writeEmptyReply (cfg := cfg) { t with connected := mapSet t.connected msg.ns s.objs.length }
            msg.wait).trans (prims_notifyConnected (cfg := cfg) _ s.objs.length msg)
          have hct : ({ t with connected := mapSet t.connected msg.ns s.objs.length } : St).closed = false :=
            closed_of_prims hp hc
          have h1 : (fire cfg { s with objs := s.objs ++ [⟨msg.ns, []⟩] } s.objs.length msg).1.closed
              = false := by rw [he]; exact hct
          obtain ⟨l1, ho1, hs⟩ : ∃ l1, otherOf l1 = [] ∧ Same { s with objs := s.objs ++ [⟨msg.ns, []⟩] } l1 t := by
            obtain ⟨l2, hl2, _, hs2⟩ := fire_open h1
            rw [he] at hs2
            exact ⟨_, by simpa [otherOf] using hl2.other, hs2⟩
          have hc2 := closed_of_prims (prims_notifyConnected (cfg := cfg) _ s.objs.length msg) hc
          have e2 := rawWrite_open hc2
          have hs2 : ∀ l, l = [Obs.sent false (genEmptyReplyToWait msg.wait) (cfg.sock t.log false
              (genEmptyReplyToWait msg.wait)).isNone] → Same { t with connected := mapSet t.connected msg.ns s.objs.length } l
              (writeEmptyReply cfg { t with connected := mapSet t.connected msg.ns s.objs.length } msg.wait) := by
            rintro l rfl
            unfold writeEmptyReply
            rw [e2]; exact ⟨t.ready, rfl⟩
          obtain ⟨l2, hl2⟩ : ∃ l2, l2 = [Obs.sent false (genEmptyReplyToWait msg.wait) (cfg.sock t.log false
              (genEmptyReplyToWait msg.wait)).isNone] := ⟨_, rfl⟩
          have hs2 := hs2 l2 hl2
          obtain ⟨l3, hs3, ha3⟩ := notifyConnected_open hc
          have hnm : ({ t with connected := mapSet t.connected msg.ns s.objs.length } : St).nsName s.objs.length = msg.ns := by
            show t.nsName _ = _
            rw [hs.nsName]; simp [St.nsName]
          have hall := hs2.trans hs3
          refine trk_conn (ns := msg.ns) (obj := s.objs.length) (l := l1 ++ (l2 ++ l3)) ?_ ?_ ?_ ?_ ?_ hc hh
          rotate_left
          · rw [hall.log]
            show t.log ++ _ = _
            rw [hs.log, List.append_assoc]
          · simp only [otherOf_append, ho1, hl2, otherOf, ha3.other, List.nil_append]
            rw [hs2.nsName, hnm]
            simp [connNotes, hsrv, hex]
          · rw [hall.closed]; exact hs.closed
          · rw [hall.hung]; exact hs.hung
          · rw [hall.connected]
            show mapSet t.connected _ _ = _
            rw [hs.connected]

theorem trk_replyDisconnect (hsrv : cfg.isClient = false) (hex : cfg.usesExchange = true) (s : St)
    (msg : Message) : Trk s (replyDisconnect cfg s msg) := by
  unfold replyDisconnect
  split
  · exact .refl s
  · split
    · exact trk_writeEmptyReply _ _
    · rename_i obj hn
      rw [if_neg (by simp [hsrv])]
      split
      · rename_i t e he
        exact (trk_fire' he).trans (trk_write _ _)
      · rename_i t he
        dsimp only
        refine (trk_fire' he).trans (Trk.trans ?_ (trk_writeEmptyReply (cfg := cfg) _ _))
        intro hc hh
        have hn := notifyDisconnect_same (cfg := cfg) { forceLeaveAll cfg t obj false with
          connected := mapDel (forceLeaveAll cfg t obj false).connected msg.ns } msg.ns
        have hc1 : (forceLeaveAll cfg t obj false).closed = false := hn.closed.symm.trans hc
        have hh1 : (forceLeaveAll cfg t obj false).hung = false := hn.hung.symm.trans hh
        obtain ⟨l, hs, hl⟩ := forceLeave_quiet hc1 hh1
        refine trk_disc (ns := msg.ns) (l := l ++ discNotes cfg msg.ns) ?_ ?_ ?_ ?_ ?_ hc hh
        rotate_left
        · rw [hn.log]
          show (forceLeaveAll cfg t obj false).log ++ _ = _
          rw [hs.log, List.append_assoc]
        · rw [otherOf_append, hl]
          simp [discNotes, hsrv, hex, otherOf]
        · rw [hn.closed]; exact hs.closed
        · rw [hn.hung]; exact hs.hung
        · rw [hn.connected]
          show mapDel (forceLeaveAll cfg t obj false).connected _ = _
          rw [hs.connected]

theorem trk_replyRoomJoin (s : St) (obj : Nat) (msg : Message) : Trk s (replyRoomJoin cfg s obj msg) := by
  unfold replyRoomJoin
  split
  · exact .refl s
  · split
    · exact trk_writeEmptyReply _ _
    · split
      · rename_i t e he
        exact (trk_fire' he).trans (trk_write _ _)
      · rename_i t he
        exact (((trk_fire' he).trans (trk_rooms _ _ _)).trans (trk_fire _ _ _)).trans
          (trk_writeEmptyReply _ _)

theorem subscribedTo_emit (ns : Bytes) (l : List Obs) (o : Obs) (h1 : ∀ n, o ≠ .subscribe n)
    (h2 : ∀ n, o ≠ .unsubscribe n) : subscribedTo ns (l ++ [o]) = subscribedTo ns l := by
  unfold subscribedTo
  rw [List.foldl_append]
  cases o <;> simp_all [subStep]

theorem trk_other (s : St) (o : Obs) (h1 : ∀ n, o ≠ .subscribe n) (h2 : ∀ n, o ≠ .unsubscribe n) :
    Trk s (s.emit o) := by
  intro a b
  refine ⟨a, b, fun h ns => ?_⟩
  show _ = subscribedTo ns (s.log ++ [o])
  rw [subscribedTo_emit ns s.log o h1 h2]
  exact h ns

theorem trk_replyRoomLeave (s : St) (obj : Nat) (msg : Message) :
    Trk s (replyRoomLeave cfg s obj msg) := by
  unfold replyRoomLeave
  split
  · exact .refl s
  · split
    · exact trk_writeEmptyReply _ _
    · split
      · dsimp only
        exact (((trk_fire _ _ _).trans (trk_rooms _ _ _)).trans (trk_writeEmptyReply _ _)).trans
          (trk_fire _ _ _)
      · split
        · rename_i t e he
          exact (trk_fire' he).trans (trk_write _ _)
        · rename_i t he
          exact (((trk_fire' he).trans (trk_rooms _ _ _)).trans (trk_fire _ _ _)).trans
            (trk_writeEmptyReply _ _)

theorem trk_handleEvent (s : St) (obj : Nat) (msg : Message) :
    Trk s (handleEvent cfg s obj msg) := by
  unfold handleEvent
  dsimp only
  split
  · rename_i t e he
    exact (trk_fire' he).trans (trk_write _ _)
  · rename_i t he
    exact trk_fire' he

theorem trk_afterGate (s : St) (msg : Message) : Trk s (afterGate cfg s msg) := by
  unfold afterGate
  split
  · exact trk_write _ _
  · rename_i obj hn
    split
    · exact trk_replyRoomJoin _ _ _
    · split
      · exact trk_replyRoomLeave _ _ _
      · exact trk_handleEvent _ _ _

theorem trk_handleMessage (hsrv : cfg.isClient = false) (hex : cfg.usesExchange = true) (s : St) (msg : Message) : Trk s (handleMessage cfg s msg) := by
  have hd : Trk s (dispatch cfg s msg) := by
    unfold dispatch
    split
    · exact trk_replyConnect hsrv hex _ _
    · split
      · exact trk_replyDisconnect hsrv hex _ _
      · split
        · exact trk_congr rfl rfl rfl rfl
        · exact trk_afterGate _ _
  unfold handleMessage
  split
  · exact .refl s
  · split
    · split
      · exact trk_hang _
      · exact trk_fire _ _ _
    · split
      · split
        · exact trk_other _ _ (by intro n; simp) (by intro n; simp)
        · split
          · exact trk_other _ _ (by intro n; simp) (by intro n; simp)
          · split
            · unfold deliver
              split
              · exact .refl s
              · split <;> exact trk_congr rfl rfl rfl rfl
            · exact hd
      · exact hd

theorem trk_readerExit (s : St) : Trk s (readerExit cfg s) := by
  refine trk_of_closed ?_
  exact closeConn_closed s

theorem trk_drain (hsrv : cfg.isClient = false) (hex : cfg.usesExchange = true) (q : List (MsgType × Bytes)) (s : St) : Trk s (drain cfg s q) := by
  induction q generalizing s with
  | nil =>
    unfold drain
    dsimp only
    split
    · unfold finishAck
      dsimp only
      have h0 : Trk s { s with todo := [], ackAfter := false } := trk_congr rfl rfl rfl rfl
      have h1 := h0.trans (trk_rawWrite (cfg := cfg) { s with todo := [], ackAfter := false } (65 :: s.id) false)
      split
      · exact h1
      · exact h1.trans (trk_readerExit _)
    · exact trk_congr rfl rfl rfl rfl
  | cons p q ih =>
    obtain ⟨t, b⟩ := p
    unfold drain
    dsimp only
    have h0 : Trk s { s with rd := .idle } := trk_congr rfl rfl rfl rfl
    have h1 := h0.trans (trk_handleMessage hsrv hex _
      (deserializeMessage cfg.known t b cfg.allowNative cfg.onlyNative))
    split
    · exact h1.trans (ih _)
    · exact h1.trans (trk_congr rfl rfl rfl rfl)

theorem trk_ackReady (hsrv : cfg.isClient = false) (hex : cfg.usesExchange = true) (s : St) (e : Option GoErr) : Trk s (ackReady cfg s e) := by
  unfold ackReady
  split
  · exact (trk_rawWrite _ _ _).trans (trk_readerExit _)
  · dsimp only
    refine Trk.trans (b := { s with acked := true, queueText := [], queueBinary := [], ackAfter := true, rd := .idle }) ?_ (trk_drain hsrv hex _ _)
    exact trk_congr rfl rfl rfl rfl

theorem trk_signalReady (s : St) (e : Option GoErr) : Trk s (s.signalReady e) := by
  unfold St.signalReady; split
  · exact .refl _
  · exact trk_congr rfl rfl rfl rfl

theorem trk_recv (hsrv : cfg.isClient = false) (hex : cfg.usesExchange = true) (s : St) (typ : MsgType) (b : Bytes) : Trk s (recv cfg s typ b) := by
  unfold recv
  split
  · exact .refl _
  · split
    · exact trk_handleMessage hsrv hex _ _
    · unfold handleACK
      split
      · exact .refl _
      · rename_i c rest _
        split
        · split
          · exact trk_congr rfl rfl rfl rfl
          · exact trk_ackReady hsrv hex _ _
        · split
          · refine Trk.trans (b := { s with id := rest, acked := true }) ?_ (trk_signalReady _ _)
            exact trk_congr rfl rfl rfl rfl
          · split
            · exact (trk_signalReady _ _).trans (trk_readerExit _)
            · split <;> exact trk_congr rfl rfl rfl rfl


theorem trk_gateDone (s : St) (ns : Bytes) : Trk s (gateDone s ns) := by
  obtain ⟨_, h1, h2, h3, h4⟩ := gateDone_fields s ns
  exact trk_congr h1 h2 h3 h4

theorem trk_finish (hsrv : cfg.isClient = false) (hex : cfg.usesExchange = true) (s : St) (k : Cont)
    (hk : ContOk cfg s k) (m : Message) (err : Option GoErr) : Trk s (finish cfg s k m err) := by
  cases k with
  | connect ns obj =>
    cases err with
    | some e => exact (trk_ret _ _ _).trans (trk_gateDone _ _)
    | none =>
      have hnm : s.nsName obj = ns := by
        have := hk.2.1
        unfold St.nsName
        cases ho : s.objs[obj]? with
        | none => rw [ho] at this; simp at this
        | some o => rw [ho] at this; simpa using this
      intro hc hh
      obtain ⟨l, _, h2, h3, h4⟩ := finish_connect_ok hnm hc
      have hp := prims_finish (cfg := cfg) s (.connect ns obj) m none hk
      refine trk_conn h2 h3 ?_ ?_ ?_ hc hh
      · rw [h4.other]; simp [connNotes, hsrv, hex]
      · rw [closed_of_prims hp hc, hc]
      · rw [hung_of_prims hp hh, hh]
  | disconnect obj msg =>
    cases err with
    | some e => exact trk_ret _ _ _
    | none =>
      simp only [finish]
      refine Trk.trans ?_ (trk_ret _ _ _)
      intro hc hh
      have hn := notifyDisconnect_same (cfg := cfg) (fire cfg { forceLeaveAll cfg s obj true with
          connected := mapDel (forceLeaveAll cfg s obj true).connected msg.ns } obj
          { msg with isLocal := true }).1 msg.ns
      have hc2 := hn.closed.symm.trans hc
      have hh2 := hn.hung.symm.trans hh
      obtain ⟨l2, ho2, hs2⟩ : ∃ l2, otherOf l2 = [] ∧ Same { forceLeaveAll cfg s obj true with
          connected := mapDel (forceLeaveAll cfg s obj true).connected msg.ns } l2
          (fire cfg { forceLeaveAll cfg s obj true with
          connected := mapDel (forceLeaveAll cfg s obj true).connected msg.ns } obj
          { msg with isLocal := true }).1 := by
        obtain ⟨l2, hl2, _, hs2⟩ := fire_open hc2
        exact ⟨_, by simpa [otherOf] using hl2.other, hs2⟩
      have hc1 : (forceLeaveAll cfg s obj true).closed = false := hs2.closed.symm.trans hc2
      have hh1 : (forceLeaveAll cfg s obj true).hung = false := hs2.hung.symm.trans hh2
      obtain ⟨l, hs, hl⟩ := forceLeave_quiet hc1 hh1
      have hall := hs2.trans hn
      refine trk_disc (ns := msg.ns) (l := l ++ (l2 ++ discNotes cfg msg.ns)) ?_ ?_ ?_ ?_ ?_ hc hh
      rotate_left
      · rw [hall.log]
        show (forceLeaveAll cfg s obj true).log ++ _ = _
        rw [hs.log, List.append_assoc]
      · simp only [otherOf_append, hl, ho2, List.nil_append]
        simp [discNotes, hsrv, hex, otherOf]
      · rw [hall.closed]; exact hs.closed
      · rw [hall.hung]; exact hs.hung
      · rw [hall.connected]
        show mapDel (forceLeaveAll cfg s obj true).connected _ = _
        rw [hs.connected]
  | join obj msg =>
    cases err with
    | some e => exact trk_ret _ _ _
    | none =>
      simp only [finish]
      split
      · rename_i t e he
        exact (trk_fire' he).trans (trk_ret _ _ _)
      · rename_i t he
        exact (((trk_fire' he).trans (trk_rooms _ _ _)).trans (trk_fire _ _ _)).trans (trk_ret _ _ _)
  | leave obj msg =>
    cases err with
    | some e => exact trk_ret _ _ _
    | none =>
      simp only [finish]
      split
      · rename_i t e he
        exact (trk_fire' he).trans (trk_ret _ _ _)
      · rename_i t he
        exact (((trk_fire' he).trans (trk_rooms _ _ _)).trans (trk_fire _ _ _)).trans (trk_ret _ _ _)
  | user => exact trk_ret _ _ _

theorem contOk_congr {s t : St} (ho : t.objs = s.objs) (hl : t.log = s.log) {k : Cont}
    (h : ContOk cfg s k) : ContOk cfg t k := by
  cases k <;> simp only [ContOk, ho, hl] at h ⊢ <;> exact h

theorem trk_startAsk (hsrv : cfg.isClient = false) (hex : cfg.usesExchange = true) (s : St) (k : Cont)
    (hk : ContOk cfg s k) (msg : Message) (now : Int) (ex : Bool) : Trk s (startAsk cfg s k msg now ex) := by
  unfold startAsk
  split
  · exact trk_finish hsrv hex _ _ hk _ _
  · split
    · exact trk_finish hsrv hex _ _ hk _ _
    · split
      · exact trk_finish hsrv hex _ _ hk _ _
      · dsimp only
        have h0 : Trk s (newAsk s (genWait cfg.isClient now) k) := by
          unfold newAsk; split <;> exact trk_congr rfl rfl rfl rfl
        have h1 := h0.trans (trk_write (cfg := cfg) (newAsk s (genWait cfg.isClient now) k)
            { msg with wait := genWait cfg.isClient now })
        have hk0 : ContOk cfg (newAsk s (genWait cfg.isClient now) k) k := by
          unfold newAsk; split <;> exact hk
        have hp := prims_write (cfg := cfg) (newAsk s (genWait cfg.isClient now) k)
            { msg with wait := genWait cfg.isClient now }
        have hk1 := ContOk.mono (Prims.grows hp) hk0
        revert h1 hk1
        clear hp
        generalize write cfg (newAsk s (genWait cfg.isClient now) k)
            { msg with wait := genWait cfg.isClient now } = p
        obtain ⟨t, ok⟩ := p
        intro h1 hk1
        cases ok with
        | true => exact h1
        | false =>
          dsimp only
          exact (h1.trans (b := t) (trk_congr (t := endAsk t s.asks.length) rfl rfl rfl rfl)).trans
            (trk_finish hsrv hex (endAsk t s.asks.length) _ hk1 _ _)

theorem trk_exec (hsrv : cfg.isClient = false) (hex : cfg.usesExchange = true) {s s' : St} {op : Op}
    (ha : AsksOk cfg s) (hco : ConnOk cfg s) (h : exec cfg s op = some s') : Trk s s' := by
  cases op with
  | recv typ b =>
    simp only [exec] at h
    split at h
    · cases h; exact trk_recv hsrv hex _ _ _
    · simp at h
  | readErr e =>
    simp only [exec] at h
    split at h
    · cases h; exact (trk_signalReady _ _).trans (trk_readerExit _)
    · simp at h
  | wake =>
    simp only [exec] at h
    unfold wakeReader at h
    split at h
    · split at h
      · rename_i msg _ _
        dsimp only at h
        have h0 : Trk s { s with rd := .idle } := trk_congr rfl rfl rfl rfl
        have h1 := h0.trans (trk_afterGate (cfg := cfg) _ msg)
        split at h
        · cases h; exact h1.trans (trk_drain hsrv hex _ _)
        · cases h; exact h1
      · simp at h
    · split at h
      · simp at h
      · cases h; exact trk_ackReady hsrv hex _ _
    · simp at h
  | contReader =>
    simp only [exec, contReader] at h
    split at h
    · cases h; exact trk_drain hsrv hex _ _
    · simp at h
  | connect ns now ex =>
    cases h
    unfold connect
    dsimp only
    have hm : Trk s (s.markReady cfg) := by rw [markReady_eq]; exact trk_congr rfl rfl rfl rfl
    split
    · exact hm
    · have hg : Trk s (gateStart (s.markReady cfg) ns) := hm.trans (trk_congr rfl rfl rfl rfl)
      split
      · exact hg.trans ((trk_ret _ _ _).trans (trk_gateDone _ _))
      · split
        · exact hg.trans ((trk_ret _ _ _).trans (trk_gateDone _ _))
        · rename_i hdec
          simp only [newObj]
          have h0 := hg.trans (trk_congr (t := { gateStart (s.markReady cfg) ns with
            objs := (gateStart (s.markReady cfg) ns).objs ++ [⟨ns, []⟩] }) rfl rfl rfl rfl)
          split
          · rename_i t e he
            exact (h0.trans (trk_fire' he)).trans ((trk_ret _ _ _).trans (trk_gateDone _ _))
          · rename_i t he
            refine (h0.trans (trk_fire' he)).trans (trk_startAsk hsrv hex _ _ ?_ _ _ _)
            refine ⟨by rw [hdec]; rfl, ?_, ?_⟩
            · exact (Prims.grows (fire_fst _ _ _ he)).names _ _ (newObj_name (gateStart (s.markReady cfg) ns) ns)
            · obtain ⟨ee, hl⟩ := fire_logs _ _ _ he
              exact ⟨_, _, _, hl, rfl⟩
  | disconnect obj now ex =>
    simp only [exec] at h
    split at h
    · cases h
      unfold disconnect
      dsimp only
      split
      · exact trk_ret _ _ _
      · rename_i obj' hn
        refine trk_startAsk hsrv hex _ _ ?_ _ _ _
        exact ⟨(hco _ _ hn).2, rfl⟩
    · simp at h
  | join obj room now ex =>
    simp only [exec] at h
    split at h
    · rename_i ho
      cases h
      unfold joinRoom
      dsimp only
      split
      · exact trk_ret _ _ _
      · refine trk_startAsk hsrv hex _ _ ?_ _ _ _
        exact ⟨nsName_some ho, rfl, rfl⟩
    · simp at h
  | leave obj room now ex =>
    simp only [exec] at h
    split at h
    · rename_i ho
      cases h
      unfold leaveRoom
      dsimp only
      split
      · refine trk_startAsk hsrv hex _ _ ?_ _ _ _
        exact ⟨nsName_some ho, rfl, rfl⟩
      · exact trk_ret _ _ _
    · simp at h
  | ask msg now ex => cases h; exact trk_startAsk hsrv hex _ .user trivial _ _ _
  | write msg => cases h; exact trk_write _ _
  | resume i =>
    simp only [exec, resume] at h
    split at h
    · simp at h
    · rename_i a hx
      split at h
      · simp at h
      · split at h
        · simp at h
        · cases h
          have e1 : ∀ t : St, Trk t (forget t a) := by
            intro t; unfold forget; split
            · exact trk_congr rfl rfl rfl rfl
            · exact .refl _
          have e2 : Trk s (takeAnswer s i a) := by
            unfold takeAnswer
            split
            · split <;> exact trk_congr rfl rfl rfl rfl
            · exact trk_congr rfl rfl rfl rfl
          have e3 : Trk (takeAnswer s i a) (endAsk (takeAnswer s i a) i) :=
            trk_congr rfl rfl rfl rfl
          exact ((e2.trans e3).trans (e1 _)).trans (trk_finish hsrv hex _ _ (contOk_congr (resumed_fields s i a).1 (resumed_fields s i a).2.2.1 (ha a (List.mem_of_getElem? hx))) _ _)
  | cancel i e =>
    simp only [exec, cancel] at h
    split at h
    · simp at h
    · rename_i a hx
      split at h
      · simp at h
      · cases h
        have e3 : Trk s (endAsk s i) := trk_congr rfl rfl rfl rfl
        exact e3.trans (trk_finish hsrv hex (endAsk s i) _ (contOk_congr (s := s) rfl rfl (ha a (List.mem_of_getElem? hx))) _ _)
  | close => cases h; exact trk_closeConn _
  | steal i typ b =>
    simp only [exec, steal] at h
    split at h
    · simp at h
    · split at h
      · cases h; exact trk_congr rfl rfl rfl rfl
      · simp at h
  | stealErr i e =>
    simp only [exec, steal] at h
    split at h
    · simp at h
    · split at h
      · cases h; exact trk_congr rfl rfl rfl rfl
      · simp at h
  | ready e => cases h; exact trk_signalReady _ _
  | sendAck =>
    simp only [exec] at h
    split at h
    · cases h; exact .refl _
    · have hw := trk_rawWrite (cfg := cfg) s (b! "M") false
      revert h hw
      generalize rawWrite cfg s (b! "M") false = p
      obtain ⟨t, ok⟩ := p
      intro h hw
      cases ok with
      | true => cases h; exact hw
      | false => cases h; exact hw.trans (trk_closeConn _)
  | srvAsk tok => cases h; exact trk_congr rfl rfl rfl rfl
  | srvUnask tok => cases h; exact trk_congr rfl rfl rfl rfl

end Neffos
