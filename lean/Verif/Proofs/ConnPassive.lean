import Verif.Proofs.ConnShut
/-!
Helper: rooms of a connection that only answers requests.
-/
namespace Neffos
open Spec

variable {cfg : Cfg} {id : Bytes}

/-- NSConns have the right name, and those in a room are connected, or are allowed not to be -/
def Tidy (P : Nat → Bytes → Prop) (s : St) : Prop :=
  (∀ ns obj, s.namespace ns = some obj → s.nsName obj = ns ∧ obj < s.objs.length) ∧
  ∀ obj r, r ∈ s.rooms obj → linked s obj = true ∨ P obj r

/-- a change that ends with an open connection keeps it tidy -/
def Neat (P : Nat → Bytes → Prop) (s t : St) : Prop :=
  t.closed = false → t.hung = false → s.closed = false ∧ s.hung = false ∧ (Tidy P s → Tidy P t)

variable {P : Nat → Bytes → Prop}

theorem Neat.refl (s : St) : Neat P s s := fun h1 h2 => ⟨h1, h2, id⟩

theorem Neat.trans {a b c : St} (h : Neat P a b) (k : Neat P b c) : Neat P a c := by
  intro h1 h2
  obtain ⟨k1, k2, k3⟩ := k h1 h2
  obtain ⟨l1, l2, l3⟩ := h k1 k2
  exact ⟨l1, l2, fun x => k3 (l3 x)⟩

theorem tidy_congr {s t : St} (h1 : t.connected = s.connected) (h2 : t.objs = s.objs)
    (h : Tidy P s) : Tidy P t := by
  unfold Tidy Neffos.Spec.linked St.namespace St.nsName St.rooms at *
  rw [h1, h2]; exact h

theorem neat_congr {s t : St} (h1 : t.connected = s.connected) (h2 : t.objs = s.objs)
    (h3 : t.closed = s.closed) (h4 : t.hung = s.hung) : Neat P s t :=
  fun a b => ⟨h3 ▸ a, h4 ▸ b, tidy_congr h1 h2⟩

theorem neat_emit (s : St) (o : Obs) : Neat P s (s.emit o) := neat_congr rfl rfl rfl rfl

theorem Same.hung {s s' : St} {l : List Obs} (h : Same s l s') : s'.hung = s.hung := by
  obtain ⟨r, rfl⟩ := h; rfl

theorem neat_same {s t : St} {l : List Obs} (h : Same s l t) : Neat P s t :=
  neat_congr h.connected h.objs h.closed h.hung

theorem neat_of_closed {s t : St} (h : t.closed = true) : Neat P s t := by
  intro h1; rw [h] at h1; simp at h1

theorem neat_fire (s : St) (obj : Nat) (msg : Message) : Neat P s (fire cfg s obj msg).1 := by
  intro h1 h2
  obtain ⟨l, _, _, hs⟩ := fire_open h1
  exact neat_same hs h1 h2

theorem neat_fire' {s t : St} {obj : Nat} {msg : Message} {r : Option GoErr}
    (h : fire cfg s obj msg = (t, r)) : Neat P s t := by
  have := neat_fire (cfg := cfg) (P := P) s obj msg
  rw [h] at this; exact this

theorem neat_write (s : St) (msg : Message) : Neat P s (write cfg s msg).1 := by
  intro h1 h2
  exact neat_same ⟨_, write_open h1⟩ h1 h2

theorem neat_rawWrite (s : St) (b : Bytes) (binary : Bool) : Neat P s (rawWrite cfg s b binary).1 := by
  intro h1 h2
  have e := rawWrite_open h1
  have : Same s [.sent binary b (cfg.sock s.log binary b).isNone] (rawWrite cfg s b binary).1 := by
    rw [e]; exact ⟨s.ready, rfl⟩
  exact neat_same this h1 h2

theorem neat_writeEmptyReply (s : St) (w : Bytes) : Neat P s (writeEmptyReply cfg s w) :=
  neat_rawWrite _ _ _

theorem neat_closeConn (s : St) : Neat P s (closeConn cfg s) := neat_of_closed (closeConn_closed s)

theorem neat_del (s : St) (obj : Nat) (room : Bytes) : Neat P s (s.setRooms obj (delRoom room)) := by
  intro h1 h2
  refine ⟨h1, h2, fun h => ⟨fun ns o hn => ?_, fun i r hr => ?_⟩⟩
  · rw [nsName_setRooms]
    exact ⟨(h.1 ns o hn).1, by simpa [St.setRooms] using (h.1 ns o hn).2⟩
  · rw [linked_setRooms]
    exact h.2 i r ((rooms_delRoom s obj room i r).mp hr).1

theorem neat_notifyConnected (s : St) (obj : Nat) (msg : Message) :
    Neat P s (notifyConnected cfg s obj msg) := by
  unfold notifyConnected
  dsimp only
  split
  · exact (neat_fire _ _ _).trans (neat_emit _ _)
  · exact neat_fire _ _ _

theorem neat_notifyDisconnect (s : St) (ns : Bytes) : Neat P s (notifyDisconnect cfg s ns) := by
  unfold notifyDisconnect
  split
  · exact neat_emit _ _
  · exact .refl _

theorem leaveFold_neat {obj : Nat} {il : Bool} {rs : List Bytes} {s : St}
    (h : (rs.foldl (leaveOne cfg obj il) s).closed = false)
    (hh : (rs.foldl (leaveOne cfg obj il) s).hung = false) :
    (∃ l, SameR s l (rs.foldl (leaveOne cfg obj il) s)) ∧
      (rs.foldl (leaveOne cfg obj il) s).objs.length = s.objs.length ∧
      ∀ i r, r ∈ (rs.foldl (leaveOne cfg obj il) s).rooms i ↔
        r ∈ s.rooms i ∧ ¬ (i = obj ∧ r ∈ rs) := by
  induction rs generalizing s with
  | nil => exact ⟨⟨[], (Same.refl s).toR⟩, rfl, by simp⟩
  | cons x rs ih =>
    simp only [List.foldl_cons] at h hh ⊢
    have hp := prims_foldl (cfg := cfg) (leaveOne cfg obj il) rs (fun s x => prims_leaveOne obj il s x)
      (leaveOne cfg obj il s x)
    obtain ⟨⟨l, h1⟩, h2, h3⟩ := ih h hh
    have hc1 := closed_of_prims hp h
    have hh1 := hung_of_prims hp hh
    obtain ⟨l', g1, _, g3⟩ := leaveOne_open hc1 hh1
    have glen : (leaveOne cfg obj il s x).objs.length = s.objs.length := by
      have hq : ∀ (a : St) (m : Message), (fireLocked cfg a obj m).closed = false →
          (fireLocked cfg a obj m).hung = false → (fireLocked cfg a obj m).objs = a.objs := by
        intro a m p q
        obtain ⟨_, _, _, hs⟩ := fireLocked_open p q
        exact hs.objs
      unfold leaveOne at hc1 hh1 ⊢
      dsimp only at hc1 hh1 ⊢
      have hc2 := closed_of_prims (prims_fireLocked (cfg := cfg) _ _ _) hc1
      have hh2 := hung_of_prims (prims_fireLocked (cfg := cfg) _ _ _) hh1
      rw [hq _ _ hc1 hh1]
      simp only [St.setRooms, List.length_modify]
      exact congrArg List.length (hq _ _ hc2 hh2)
    refine ⟨⟨_, g1.trans h1⟩, h2.trans glen, fun i r => ?_⟩
    rw [h3 i r, g3 i]
    by_cases hi : i = obj
    · simp only [hi, if_true, true_and, delRoom, List.mem_filter, List.mem_cons, decide_eq_true_eq,
        ne_eq]
      constructor
      · rintro ⟨⟨a, b⟩, c⟩; exact ⟨a, fun d => d.elim b c⟩
      · rintro ⟨a, b⟩; exact ⟨⟨a, fun e => b (.inl e)⟩, fun d => b (.inr d)⟩
    · simp [hi]

theorem forceLeaveAll_neat {s : St} {obj : Nat} {il : Bool}
    (h : (forceLeaveAll cfg s obj il).closed = false)
    (hh : (forceLeaveAll cfg s obj il).hung = false) :
    (∃ l, SameR s l (forceLeaveAll cfg s obj il)) ∧
      (forceLeaveAll cfg s obj il).objs.length = s.objs.length ∧
      ∀ i r, r ∈ (forceLeaveAll cfg s obj il).rooms i ↔ r ∈ s.rooms i ∧ i ≠ obj := by
  have hp := cfg.order_perm s.log (s.rooms obj)
  unfold forceLeaveAll at h hh ⊢
  obtain ⟨h1, h2, h3⟩ := leaveFold_neat h hh
  refine ⟨h1, h2, fun i r => ?_⟩
  rw [h3 i r]
  constructor
  · rintro ⟨a, b⟩; exact ⟨a, by rintro rfl; exact b ⟨rfl, hp.mem_iff.mpr a⟩⟩
  · rintro ⟨a, b⟩; exact ⟨a, fun c => b c.1⟩

/-- leaving all rooms of a connected NSConn and disconnecting it -/
theorem neat_forceDel {s : St} {ns : Bytes} {obj : Nat} {il : Bool}
    (hn : s.namespace ns = some obj) :
    Neat P s { forceLeaveAll cfg s obj il with
      connected := mapDel (forceLeaveAll cfg s obj il).connected ns } := by
  intro hc hh
  have hp := prims_forceLeaveAll (cfg := cfg) s obj il
  refine ⟨closed_of_prims hp hc, hung_of_prims hp hh, fun ht => ?_⟩
  obtain ⟨⟨l, h1⟩, h2, h3⟩ := forceLeaveAll_neat (cfg := cfg) (s := s) (obj := obj) (il := il) hc hh
  have hnm : ∀ i, (forceLeaveAll cfg s obj il).nsName i = s.nsName i := h1.2
  have hcn := h1.connected
  refine ⟨fun n o hno => ?_, fun i r hr => ?_⟩
  · have hno' : mapGet (mapDel (forceLeaveAll cfg s obj il).connected ns) n = some o := hno
    rw [hcn, mapGet_mapDel] at hno'
    split at hno'
    · simp at hno'
    · refine ⟨(hnm o).trans (ht.1 n o hno').1, ?_⟩
      have : o < s.objs.length := (ht.1 n o hno').2
      rw [← h2] at this; exact this
  · have hr' : r ∈ (forceLeaveAll cfg s obj il).rooms i := hr
    obtain ⟨a, b⟩ := (h3 i r).mp hr'
    refine (ht.2 i r a).imp_left fun hl => ?_
    unfold Neffos.Spec.linked at hl ⊢
    simp only [decide_eq_true_eq] at hl ⊢
    show mapGet (mapDel (forceLeaveAll cfg s obj il).connected ns) _ = _
    have e : ({ forceLeaveAll cfg s obj il with
      connected := mapDel (forceLeaveAll cfg s obj il).connected ns } : St).nsName i = s.nsName i := hnm i
    rw [e, hcn, mapGet_mapDel, if_neg]
    · exact hl
    · intro e2
      rw [e2, hn] at hl
      exact b (Option.some.inj hl).symm

theorem neat_replyDisconnect (s : St) (msg : Message) : Neat P s (replyDisconnect cfg s msg) := by
  unfold replyDisconnect
  split
  · exact .refl s
  · split
    · exact neat_writeEmptyReply _ _
    · rename_i obj hn
      split
      · dsimp only
        exact ((neat_forceDel hn).trans (neat_writeEmptyReply _ _)).trans (neat_fire _ _ _)
      · split
        · rename_i t e he
          exact (neat_fire' he).trans (neat_write _ _)
        · rename_i t he
          dsimp only
          intro hc hh
          have hp := ((prims_forceLeaveAll (cfg := cfg) t obj false).tail (.nsDel _ msg.ns)).trans
            ((prims_notifyDisconnect (cfg := cfg) _ msg.ns).trans
            (prims_writeEmptyReply (cfg := cfg) _ msg.wait))
          have hct := closed_of_prims hp hc
          have hnt : t.namespace msg.ns = some obj := by
            have h1 : (fire cfg s obj msg).1.closed = false := by rw [he]; exact hct
            obtain ⟨l, _, _, hs⟩ := fire_open h1
            rw [he] at hs
            exact (hs.namespace _).trans hn
          exact ((neat_fire' he).trans (((neat_forceDel hnt).trans (neat_notifyDisconnect _ _)).trans
            (neat_writeEmptyReply _ _))) hc hh

theorem neat_newObj (s : St) (ns : Bytes) : Neat P s { s with objs := s.objs ++ [⟨ns, []⟩] } := by
  intro h1 h2
  refine ⟨h1, h2, fun h => ?_⟩
  have hnm : ∀ i, i < s.objs.length →
      ({ s with objs := s.objs ++ [⟨ns, []⟩] } : St).nsName i = s.nsName i := by
    intro i hi
    unfold St.nsName
    simp only
    rw [List.getElem?_append_left hi]
  refine ⟨fun n o hn => ?_, fun i r hr => ?_⟩
  · have := h.1 n o hn
    exact ⟨(hnm o this.2).trans this.1, by simp; omega⟩
  · have hr' := (less_newObj s ns).rooms i r hr
    have hi : i < s.objs.length := by
      unfold St.rooms at hr'
      rcases Nat.lt_or_ge i s.objs.length with h | h
      · exact h
      · rw [List.getElem?_eq_none h] at hr'; simp at hr'
    refine (h.2 i r hr').imp_left fun hl => ?_
    unfold Neffos.Spec.linked at hl ⊢
    rw [hnm i hi]; exact hl

/-- connecting a namespace that is not connected, with an NSConn in no room -/
theorem tidy_connect {s : St} {ns : Bytes} {obj : Nat} (ht : Tidy P s) (hn : s.namespace ns = none)
    (h1 : s.nsName obj = ns) (h2 : obj < s.objs.length) :
    Tidy P { s with connected := mapSet s.connected ns obj } := by
  refine ⟨fun n o hno => ?_, fun i r hr => ?_⟩
  · have hno' : mapGet (mapSet s.connected ns obj) n = some o := hno
    rw [mapGet_mapSet] at hno'
    split at hno'
    · cases hno'; rename_i e; exact ⟨h1.trans e.symm, h2⟩
    · exact ht.1 n o hno'
  · refine (ht.2 i r hr).imp_left fun hl => ?_
    unfold Neffos.Spec.linked at hl ⊢
    simp only [decide_eq_true_eq] at hl ⊢
    show mapGet (mapSet s.connected ns obj) (s.nsName i) = _
    rw [mapGet_mapSet, if_neg]
    · exact hl
    · intro e; rw [e, hn] at hl; simp at hl

theorem neat_replyConnect (s : St) (msg : Message) : Neat P s (replyConnect cfg s msg) := by
  unfold replyConnect
  split
  · exact .refl s
  · split
    · exact neat_writeEmptyReply _ _
    · rename_i hn
      split
      · exact neat_write _ _
      · simp only [newObj]
        split
        · rename_i t e he
          exact ((neat_newObj s msg.ns).trans (neat_fire' he)).trans (neat_write _ _)
        · rename_i t he
          refine Neat.trans ?_ ((neat_writeEmptyReply (cfg := cfg) _ _).trans
            (neat_notifyConnected (cfg := cfg) _ _ _))
          intro hc hh
          have h1 : (fire cfg { s with objs := s.objs ++ [⟨msg.ns, []⟩] } s.objs.length msg).1.closed
              = false := by rw [he]; exact hc
          obtain ⟨l, _, _, hs⟩ := fire_open h1
          rw [he] at hs
          have hall := ((neat_newObj (P := P) s msg.ns).trans (neat_fire' he)) hc hh
          refine ⟨hall.1, hall.2.1, fun ht => ?_⟩
          refine tidy_connect (hall.2.2 ht) ((hs.namespace _).trans hn) ?_ ?_
          · rw [hs.nsName]; simp [St.nsName]
          · rw [hs.objs]; simp

theorem neat_replyRoomJoin {s : St} {obj : Nat} {msg : Message}
    (hn : s.namespace msg.ns = some obj) : Neat P s (replyRoomJoin cfg s obj msg) := by
  unfold replyRoomJoin
  split
  · exact .refl s
  · split
    · exact neat_writeEmptyReply _ _
    · split
      · rename_i t e he
        exact (neat_fire' he).trans (neat_write _ _)
      · rename_i t he
        refine Neat.trans ?_ ((neat_fire (cfg := cfg) _ _ _).trans
          (neat_writeEmptyReply (cfg := cfg) _ _))
        intro hc hh
        have h1 : (fire cfg s obj msg).1.closed = false := by rw [he]; exact hc
        obtain ⟨l, _, _, hs⟩ := fire_open h1
        rw [he] at hs
        obtain ⟨a1, a2, a3⟩ := (neat_fire' (P := P) he) hc hh
        refine ⟨a1, a2, fun ht => ?_⟩
        have htt := a3 ht
        have hnt := (hs.namespace msg.ns).trans hn
        refine ⟨fun ns o hno => ?_, fun i r hr => ?_⟩
        · rw [nsName_setRooms]
          exact ⟨(htt.1 ns o hno).1, by simpa [St.setRooms] using (htt.1 ns o hno).2⟩
        · rw [linked_setRooms]
          rcases (rooms_addRoom t obj msg.room (htt.1 _ _ hnt).2 i r).mp hr with h | ⟨rfl, _⟩
          · exact htt.2 i r h
          · refine .inl ?_
            unfold Neffos.Spec.linked
            rw [(htt.1 _ _ hnt).1, hnt]; simp

theorem neat_replyRoomLeave (s : St) (obj : Nat) (msg : Message) :
    Neat P s (replyRoomLeave cfg s obj msg) := by
  unfold replyRoomLeave
  split
  · exact .refl s
  · split
    · exact neat_writeEmptyReply _ _
    · split
      · dsimp only
        exact (((neat_fire _ _ _).trans (neat_del _ _ _)).trans (neat_writeEmptyReply _ _)).trans
          (neat_fire _ _ _)
      · split
        · rename_i t e he
          exact (neat_fire' he).trans (neat_write _ _)
        · rename_i t he
          exact (((neat_fire' he).trans (neat_del _ _ _)).trans (neat_fire _ _ _)).trans
            (neat_writeEmptyReply _ _)

theorem neat_handleEvent (s : St) (obj : Nat) (msg : Message) :
    Neat P s (handleEvent cfg s obj msg) := by
  unfold handleEvent
  dsimp only
  split
  · rename_i t e he
    exact (neat_fire' he).trans (neat_write _ _)
  · rename_i t he
    exact neat_fire' he

theorem neat_afterGate (s : St) (msg : Message) : Neat P s (afterGate cfg s msg) := by
  unfold afterGate
  split
  · exact neat_write _ _
  · rename_i obj hn
    split
    · exact neat_replyRoomJoin hn
    · split
      · exact neat_replyRoomLeave _ _ _
      · exact neat_handleEvent _ _ _

theorem neat_hang (s : St) : Neat P s { s with hung := true } := by
  intro _ h; simp at h

theorem neat_handleMessage (s : St) (msg : Message) : Neat P s (handleMessage cfg s msg) := by
  have hd : Neat P s (dispatch cfg s msg) := by
    unfold dispatch
    split
    · exact neat_replyConnect _ _
    · split
      · exact neat_replyDisconnect _ _
      · split
        · exact neat_congr rfl rfl rfl rfl
        · exact neat_afterGate _ _
  unfold handleMessage
  split
  · exact .refl s
  · split
    · split
      · exact neat_hang _
      · exact neat_fire _ _ _
    · split
      · split
        · exact neat_emit _ _
        · split
          · exact neat_emit _ _
          · split
            · unfold deliver
              split
              · exact .refl s
              · split <;> exact neat_congr rfl rfl rfl rfl
            · exact hd
      · exact hd

theorem neat_readerExit (s : St) : Neat P s (readerExit cfg s) := by
  refine neat_of_closed ?_
  exact closeConn_closed s

theorem neat_drain (q : List (MsgType × Bytes)) (s : St) : Neat P s (drain cfg s q) := by
  induction q generalizing s with
  | nil =>
    unfold drain
    dsimp only
    split
    · unfold finishAck
      dsimp only
      have h0 : Neat P s { s with todo := [], ackAfter := false } := neat_congr rfl rfl rfl rfl
      have h1 := h0.trans (neat_rawWrite (cfg := cfg) { s with todo := [], ackAfter := false } (65 :: s.id) false)
      split
      · exact h1
      · exact h1.trans (neat_readerExit _)
    · exact neat_congr rfl rfl rfl rfl
  | cons p q ih =>
    obtain ⟨t, b⟩ := p
    unfold drain
    dsimp only
    have h0 : Neat P s { s with rd := .idle } := neat_congr rfl rfl rfl rfl
    have h1 := h0.trans (neat_handleMessage (cfg := cfg) _
      (deserializeMessage cfg.known t b cfg.allowNative cfg.onlyNative))
    split
    · exact h1.trans (ih _)
    · exact h1.trans (neat_congr rfl rfl rfl rfl)

theorem neat_ackReady (s : St) (e : Option GoErr) : Neat P s (ackReady cfg s e) := by
  unfold ackReady
  split
  · exact (neat_rawWrite _ _ _).trans (neat_readerExit _)
  · dsimp only
    refine Neat.trans (b := { s with acked := true, queueText := [], queueBinary := [], ackAfter := true, rd := .idle }) ?_ (neat_drain _ _)
    exact neat_congr rfl rfl rfl rfl

theorem neat_signalReady (s : St) (e : Option GoErr) : Neat P s (s.signalReady e) := by
  unfold St.signalReady; split
  · exact .refl _
  · exact neat_congr rfl rfl rfl rfl

theorem neat_recv (s : St) (typ : MsgType) (b : Bytes) : Neat P s (recv cfg s typ b) := by
  unfold recv
  split
  · exact .refl _
  · split
    · exact neat_handleMessage _ _
    · unfold handleACK
      split
      · exact .refl _
      · rename_i c rest _
        split
        · split
          · exact neat_congr rfl rfl rfl rfl
          · exact neat_ackReady _ _
        · split
          · refine Neat.trans (b := { s with id := rest, acked := true }) ?_ (neat_signalReady _ _)
            exact neat_congr rfl rfl rfl rfl
          · split
            · exact (neat_signalReady _ _).trans (neat_readerExit _)
            · split <;> exact neat_congr rfl rfl rfl rfl

/-- what waits for an answer: leaving a room or the user -/
def calmCont : Cont → Bool
  | .leave _ _ => true
  | .user => true
  | _ => false

theorem neat_finish {k : Cont} (hk : calmCont k = true) (s : St) (m : Message) (err : Option GoErr) :
    Neat P s (finish cfg s k m err) := by
  cases k with
  | leave obj msg =>
    cases err with
    | some e => exact neat_emit _ _
    | none =>
      simp only [finish]
      split
      · rename_i t e he
        exact (neat_fire' he).trans (neat_emit _ _)
      · rename_i t he
        exact (((neat_fire' he).trans (neat_del _ _ _)).trans (neat_fire _ _ _)).trans (neat_emit _ _)
  | user => exact neat_emit _ _
  | _ => simp [calmCont] at hk

theorem neat_startAsk {k : Cont} (hk : calmCont k = true) (s : St) (msg : Message) (now : Int)
    (ex : Bool) : Neat P s (startAsk cfg s k msg now ex) := by
  unfold startAsk
  split
  · exact neat_finish hk _ _ _
  · split
    · exact neat_finish hk _ _ _
    · split
      · exact neat_finish hk _ _ _
      · dsimp only
        have h0 : Neat P s (newAsk s (genWait cfg.isClient now) k) := by
          unfold newAsk; split <;> exact neat_congr rfl rfl rfl rfl
        have h1 := h0.trans (neat_write (cfg := cfg) (newAsk s (genWait cfg.isClient now) k)
            { msg with wait := genWait cfg.isClient now })
        revert h1
        generalize write cfg (newAsk s (genWait cfg.isClient now) k)
            { msg with wait := genWait cfg.isClient now } = p
        obtain ⟨t, ok⟩ := p
        intro h1
        cases ok with
        | true => exact h1
        | false =>
          dsimp only
          exact (h1.trans (b := t) (neat_congr (t := endAsk t s.asks.length) rfl rfl rfl rfl)).trans
            (neat_finish hk _ _ _)

theorem neat_exec {s s' : St} {op : Op} (hop : asksMembership op = false)
    (ha : ∀ a ∈ s.asks, calmCont a.cont = true) (h : exec cfg s op = some s') : Neat P s s' := by
  cases op with
  | recv typ b =>
    simp only [exec] at h
    split at h
    · cases h; exact neat_recv _ _ _
    · simp at h
  | readErr e =>
    simp only [exec] at h
    split at h
    · cases h; exact (neat_signalReady _ _).trans (neat_readerExit _)
    · simp at h
  | wake =>
    simp only [exec] at h
    unfold wakeReader at h
    split at h
    · split at h
      · rename_i msg _ _
        dsimp only at h
        have h0 : Neat P s { s with rd := .idle } := neat_congr rfl rfl rfl rfl
        have h1 := h0.trans (neat_afterGate (cfg := cfg) _ msg)
        split at h
        · cases h; exact h1.trans (neat_drain _ _)
        · cases h; exact h1
      · simp at h
    · split at h
      · simp at h
      · cases h; exact neat_ackReady _ _
    · simp at h
  | contReader =>
    simp only [exec, contReader] at h
    split at h
    · cases h; exact neat_drain _ _
    · simp at h
  | connect ns now ex => simp [asksMembership] at hop
  | disconnect obj now ex => simp [asksMembership] at hop
  | join obj room now ex => simp [asksMembership] at hop
  | leave obj room now ex =>
    simp only [exec] at h
    split at h
    · cases h
      unfold leaveRoom
      dsimp only
      split
      · exact neat_startAsk rfl _ _ _ _
      · exact neat_emit _ _
    · simp at h
  | ask msg now ex => cases h; exact neat_startAsk rfl _ _ _ _
  | write msg => cases h; exact neat_write _ _
  | resume i =>
    simp only [exec, resume] at h
    split at h
    · simp at h
    · rename_i a hx
      split at h
      · simp at h
      · split at h
        · simp at h
        · cases h
          have e1 : ∀ t : St, Neat P t (forget t a) := by
            intro t; unfold forget; split
            · exact neat_congr rfl rfl rfl rfl
            · exact .refl _
          have e2 : Neat P s (takeAnswer s i a) := by
            unfold takeAnswer
            split
            · split <;> exact neat_congr rfl rfl rfl rfl
            · exact neat_congr rfl rfl rfl rfl
          have e3 : Neat P (takeAnswer s i a) (endAsk (takeAnswer s i a) i) :=
            neat_congr rfl rfl rfl rfl
          exact ((e2.trans e3).trans (e1 _)).trans (neat_finish (ha a (List.mem_of_getElem? hx)) _ _ _)
  | cancel i e =>
    simp only [exec, cancel] at h
    split at h
    · simp at h
    · rename_i a hx
      split at h
      · simp at h
      · cases h
        have e3 : Neat P s (endAsk s i) := neat_congr rfl rfl rfl rfl
        exact e3.trans (neat_finish (ha a (List.mem_of_getElem? hx)) _ _ _)
  | close => cases h; exact neat_closeConn _
  | steal i typ b =>
    simp only [exec, steal] at h
    split at h
    · simp at h
    · split at h
      · cases h; exact neat_congr rfl rfl rfl rfl
      · simp at h
  | stealErr i e =>
    simp only [exec, steal] at h
    split at h
    · simp at h
    · split at h
      · cases h; exact neat_congr rfl rfl rfl rfl
      · simp at h
  | ready e => cases h; exact neat_signalReady _ _
  | sendAck =>
    simp only [exec] at h
    split at h
    · cases h; exact .refl _
    · have hw := neat_rawWrite (cfg := cfg) (P := P) s (b! "M") false
      revert h hw
      generalize rawWrite cfg s (b! "M") false = p
      obtain ⟨t, ok⟩ := p
      intro h hw
      cases ok with
      | true => cases h; exact hw
      | false => cases h; exact hw.trans (neat_closeConn _)
  | srvAsk tok => cases h; exact neat_congr rfl rfl rfl rfl
  | srvUnask tok => cases h; exact neat_congr rfl rfl rfl rfl

end Neffos
