import Verif.Proofs.ConnCalm
import Verif.Proofs.ConnAsk
/-!
Helper: in which order the callbacks of a membership ran.
-/
namespace Neffos
open Spec

variable {cfg : Cfg} {id : Bytes}

/-- membership shrinks and the history grows -/
structure Less (s s' : St) : Prop where
  ns : ∀ ns obj, s'.namespace ns = some obj → s.namespace ns = some obj
  rooms : ∀ obj r, r ∈ s'.rooms obj → r ∈ s.rooms obj
  log : s.log <+: s'.log

theorem less_calm : Calm Less := by
  have same : ∀ s t : St, t.connected = s.connected → t.objs = s.objs → s.log <+: t.log →
      Less s t := by
    intro s t h1 h2 h3
    refine ⟨fun ns obj h => ?_, fun obj r h => ?_, h3⟩
    · unfold St.namespace at h ⊢; rw [h1] at h; exact h
    · rw [rooms_congr h2] at h; exact h
  refine ⟨fun s => ?_, fun h k => ?_, fun s o => ?_, fun s e => ?_, fun s => ?_, fun s obj room => ?_,
    fun s ns => ?_, fun s => ?_, fun s _ => ?_, fun s _ => ?_⟩
  · exact same _ _ rfl rfl List.prefix_rfl
  · exact ⟨fun _ _ x => h.ns _ _ (k.ns _ _ x), fun _ _ x => h.rooms _ _ (k.rooms _ _ x),
      h.log.trans k.log⟩
  · exact same _ _ rfl rfl (List.prefix_append _ _)
  · exact same _ _ rfl rfl List.prefix_rfl
  · exact same _ _ rfl rfl List.prefix_rfl
  · exact ⟨fun _ _ x => x, fun i r x => ((rooms_delRoom s obj room i r).mp x).1, List.prefix_rfl⟩
  · refine ⟨fun n obj x => ?_, fun _ _ x => x, List.prefix_rfl⟩
    simp only [St.namespace, mapGet_mapDel] at x
    split at x
    · simp at x
    · exact x
  · exact same _ _ rfl rfl List.prefix_rfl
  · exact same _ _ rfl rfl List.prefix_rfl
  · exact same _ _ rfl rfl List.prefix_rfl

theorem less_same {s t : St} (h1 : t.connected = s.connected) (h2 : t.objs = s.objs)
    (h3 : t.log = s.log) : Less s t := by
  refine ⟨fun ns obj h => ?_, fun obj r h => ?_, h3 ▸ List.prefix_rfl⟩
  · unfold St.namespace at h ⊢; rw [h1] at h; exact h
  · rw [rooms_congr h2] at h; exact h

theorem Spec.InOrder.mono {ev1 ev2 : Bytes} {obj : Nat} {room : Option Bytes} {l l' : List Obs}
    (h : InOrder ev1 ev2 obj room l) (hl : l <+: l') : InOrder ev1 ev2 obj room l' := by
  obtain ⟨l1, l2, l3, v1, m1, h1, v2, m2, h2, r2, e, rest⟩ := h
  obtain ⟨t, ht⟩ := hl
  exact ⟨l1, l2, l3 ++ t, v1, m1, h1, v2, m2, h2, r2, by rw [← ht, e]; simp, rest⟩

theorem inOrder_ns {l l' : List Obs} {obj : Nat} {v : View} {msg : Message} {h : Option Bytes}
    {r : Option GoErr} (ha : NsAccepted l obj) (he : msg.event = OnNamespaceConnected)
    (hl : l ++ [Obs.fired obj v msg h r] <+: l') :
    InOrder OnNamespaceConnect OnNamespaceConnected obj none l' := by
  obtain ⟨v1, m1, h1, hm, hev⟩ := ha
  obtain ⟨a, b, rfl⟩ := List.append_of_mem hm
  refine Spec.InOrder.mono ⟨a, b, [], v1, m1, h1, v, msg, h, r, rfl, hev, he, by simp⟩ ?_
  simpa using hl

theorem inOrder_room {l l' : List Obs} {obj : Nat} {v : View} {msg : Message} {h : Option Bytes}
    {r : Option GoErr} (ha : RoomAccepted l obj msg.room) (he : msg.event = OnRoomJoined)
    (hl : l ++ [Obs.fired obj v msg h r] <+: l') :
    InOrder OnRoomJoin OnRoomJoined obj (some msg.room) l' := by
  obtain ⟨v1, m1, h1, hm, hev, hr⟩ := ha
  obtain ⟨a, b, rfl⟩ := List.append_of_mem hm
  refine Spec.InOrder.mono ⟨a, b, [], v1, m1, h1, v, msg, h, r, rfl, hev, he, ?_⟩ ?_
  · intro r' e; cases e; exact ⟨hr, rfl⟩
  · simpa using hl

theorem fire_log (s : St) (obj : Nat) (msg : Message) :
    ∃ v h r, s.log ++ [Obs.fired obj v msg h r] <+: (fire cfg s obj msg).1.log := by
  unfold fire
  dsimp only
  split
  · exact ⟨_, _, _, List.prefix_rfl⟩
  · exact ⟨_, _, _, (less_calm.foldl (runAct cfg) less_calm.runAct _
      (s.emit (Obs.fired obj _ msg _ _))).log⟩

theorem fire_accept {s t : St} {obj : Nat} {msg : Message} (h : fire cfg s obj msg = (t, none)) :
    ∃ v hd, Obs.fired obj v msg hd none ∈ t.log := by
  have hfs := fire_snd (cfg := cfg) s obj msg
  unfold fire at h
  dsimp only at h
  split at h
  · cases h
    exact ⟨_, _, by simp [St.emit]; exact Or.inr ⟨rfl, rfl⟩⟩
  · rename_i hd hp
    simp only [Prod.mk.injEq] at h
    obtain ⟨h1, h2⟩ := h
    rw [← h1, h2]
    refine ⟨s.view obj msg, some hd, (less_calm.foldl (runAct cfg) less_calm.runAct _ _).log.subset ?_⟩
    simp [St.emit]

/-- who is connected has been told, who is in a room has been told -/
structure Told (cfg : Cfg) (s : St) : Prop where
  ns : cfg.onlyNative = false → ∀ ns obj, s.namespace ns = some obj →
    InOrder OnNamespaceConnect OnNamespaceConnected obj none s.log
  room : ∀ obj r, r ∈ s.rooms obj → InOrder OnRoomJoin OnRoomJoined obj (some r) s.log

theorem Less.told {s s' : St} (h : Less s s') (ht : Told cfg s) : Told cfg s' :=
  ⟨fun hn ns obj x => (ht.ns hn ns obj (h.ns _ _ x)).mono h.log,
   fun obj r x => (ht.room obj r (h.rooms _ _ x)).mono h.log⟩

theorem Told.same {s t : St} (ht : Told cfg s) (h1 : t.connected = s.connected)
    (h2 : t.objs = s.objs) (h3 : t.log = s.log) : Told cfg t := (less_same h1 h2 h3).told ht

theorem told_connect {s t u : St} {ns : Bytes} {obj : Nat} {msg : Message} (ht : Told cfg s)
    (ha : NsAccepted s.log obj)
    (h1 : Less { s with connected := mapSet s.connected ns obj } t)
    (hev : msg.event = OnNamespaceConnected) (h2 : Less (fire cfg t obj msg).1 u) : Told cfg u := by
  have h3 : Less { s with connected := mapSet s.connected ns obj } u :=
    less_calm.trans (less_calm.trans h1 (less_calm.fire (cfg := cfg) t obj msg)) h2
  refine ⟨fun hn n o x => ?_, fun o r x => ?_⟩
  · have x' := h3.ns _ _ x
    simp only [St.namespace, mapGet_mapSet] at x'
    split at x'
    · cases x'
      obtain ⟨v, h, r, hp⟩ := fire_log (cfg := cfg) t obj msg
      exact inOrder_ns (ha.mono h1.log) hev (hp.trans h2.log)
    · exact (ht.ns hn n o x').mono h3.log
  · exact (ht.room o r (h3.rooms _ _ x)).mono h3.log

theorem told_join {s u : St} {obj : Nat} {msg : Message} (ht : Told cfg s)
    (ha : RoomAccepted s.log obj msg.room) (hev : msg.event = OnRoomJoined)
    (h2 : Less (fire cfg (s.setRooms obj (addRoom msg.room)) obj msg).1 u) : Told cfg u := by
  have h3 : Less (s.setRooms obj (addRoom msg.room)) u :=
    less_calm.trans (less_calm.fire (cfg := cfg) _ obj msg) h2
  refine ⟨fun hn n o x => ?_, fun o r x => ?_⟩
  · have x' := h3.ns _ _ x
    exact (ht.ns hn n o x').mono h3.log
  · by_cases hx : r ∈ s.rooms o
    · exact (ht.room o r hx).mono h3.log
    · have x' := h3.rooms _ _ x
      have : o = obj ∧ r = msg.room := by
        by_cases ho : obj < s.objs.length
        · rcases (rooms_addRoom s obj msg.room ho o r).mp x' with h | h
          · exact absurd h hx
          · exact h
        · exfalso; apply hx
          have : (s.setRooms obj (addRoom msg.room)).objs = s.objs := by
            unfold St.setRooms; simp only; rw [List.modify_eq_self (by omega)]
          rw [rooms_congr this] at x'
          exact x'
      obtain ⟨rfl, rfl⟩ := this
      obtain ⟨v, h, r, hp⟩ := fire_log (cfg := cfg) (s.setRooms o (addRoom msg.room)) o msg
      exact inOrder_room ha hev (hp.trans h2.log)

/-! ### Every operation -/

theorem less_newObj (s : St) (ns : Bytes) : Less s { s with objs := s.objs ++ [⟨ns, []⟩] } := by
  refine ⟨fun _ _ x => x, fun obj r x => ?_, List.prefix_rfl⟩
  unfold St.rooms at x ⊢
  simp only at x
  by_cases hi : obj < s.objs.length
  · rw [List.getElem?_append_left hi] at x; exact x
  · rw [List.getElem?_append_right (by omega)] at x
    cases hj : obj - s.objs.length <;> simp [hj] at x

theorem contOk_same {s t : St} {k : Cont} (h1 : t.objs = s.objs) (h2 : t.log = s.log)
    (h : ContOk cfg s k) : ContOk cfg t k := by
  cases k <;> simp only [ContOk, h1, h2] at h ⊢ <;> exact h

theorem told_replyConnect {s : St} {msg : Message} (ht : Told cfg s)
    (hev : msg.event = OnNamespaceConnect) : Told cfg (replyConnect cfg s msg) := by
  unfold replyConnect
  split
  · exact ht
  · split
    · exact (less_calm.writeEmptyReply _ _).told ht
    · split
      · exact (less_calm.write _ _).told ht
      · simp only [newObj]
        have h0 := less_newObj s msg.ns
        split
        · rename_i t e he
          exact (less_calm.trans (less_calm.trans h0 (less_calm.fire' he)) (less_calm.write _ _)).told ht
        · rename_i t he
          obtain ⟨v, hd, hm⟩ := fire_accept he
          have h1 := (less_calm.trans h0 (less_calm.fire' he)).told ht
          refine told_connect (ns := msg.ns) h1 ⟨v, msg, hd, hm, hev⟩
            (less_calm.writeEmptyReply (cfg := cfg)
              { t with connected := mapSet t.connected msg.ns s.objs.length } msg.wait)
            (msg := { msg with event := OnNamespaceConnected }) rfl ?_
          unfold notifyConnected
          dsimp only
          split
          · exact less_calm.emit _ _
          · exact less_calm.refl _

theorem told_replyRoomJoin {s : St} {obj : Nat} {msg : Message} (ht : Told cfg s)
    (hev : msg.event = OnRoomJoin) : Told cfg (replyRoomJoin cfg s obj msg) := by
  unfold replyRoomJoin
  split
  · exact ht
  · split
    · exact (less_calm.writeEmptyReply _ _).told ht
    · split
      · rename_i t e he
        exact (less_calm.trans (less_calm.fire' he) (less_calm.write _ _)).told ht
      · rename_i t he
        obtain ⟨v, hd, hm⟩ := fire_accept he
        exact told_join (msg := { msg with event := OnRoomJoined }) ((less_calm.fire' he).told ht)
          ⟨v, msg, hd, hm, hev, rfl⟩ rfl (less_calm.writeEmptyReply (cfg := cfg) _ _)

theorem told_afterGate {s : St} {msg : Message} (ht : Told cfg s) :
    Told cfg (afterGate cfg s msg) := by
  unfold afterGate
  split
  · exact (less_calm.write _ _).told ht
  · split
    · rename_i h; exact told_replyRoomJoin ht h
    · split
      · exact (less_calm.replyRoomLeave _ _ _).told ht
      · exact (less_calm.handleEvent _ _ _).told ht

theorem told_handleMessage {s : St} {msg : Message} (ht : Told cfg s) :
    Told cfg (handleMessage cfg s msg) := by
  have hd : Told cfg (dispatch cfg s msg) := by
    unfold dispatch
    split
    · rename_i h; exact told_replyConnect ht h
    · split
      · exact (less_calm.replyDisconnect _ _).told ht
      · split
        · exact ht.same rfl rfl rfl
        · exact told_afterGate ht
  unfold handleMessage
  split
  · exact ht
  · split
    · split
      · exact (less_calm.hang _).told ht
      · exact (less_calm.fire _ _ _).told ht
    · split
      · split
        · exact (less_calm.emit _ _).told ht
        · split
          · exact (less_calm.emit _ _).told ht
          · split
            · refine (?_ : Less s _).told ht
              unfold deliver
              split
              · exact less_calm.refl _
              · split <;> exact less_same rfl rfl rfl
            · exact hd
      · exact hd

theorem told_drain {q : List (MsgType × Bytes)} {s : St} (ht : Told cfg s) :
    Told cfg (drain cfg s q) := by
  induction q generalizing s with
  | nil =>
    unfold drain
    dsimp only
    split
    · unfold finishAck
      dsimp only
      have h0 : Less s { s with todo := [], ackAfter := false } := less_same rfl rfl rfl
      have h1 := less_calm.trans h0 (less_calm.rawWrite (cfg := cfg)
        { s with todo := [], ackAfter := false } (65 :: s.id) false)
      split
      · exact h1.told ht
      · exact (less_calm.trans h1 (less_calm.readerExit (fun _ _ => less_same rfl rfl rfl) _)).told ht
    · exact ht.same rfl rfl rfl
  | cons p q ih =>
    obtain ⟨t, b⟩ := p
    unfold drain
    dsimp only
    have h0 : Told cfg (handlePayload cfg { s with rd := .idle } t b) :=
      told_handleMessage (ht.same rfl rfl rfl)
    split
    · exact ih h0
    · exact h0.same rfl rfl rfl

theorem told_ackReady {s : St} {e : Option GoErr} (ht : Told cfg s) :
    Told cfg (ackReady cfg s e) := by
  unfold ackReady
  split
  · exact (less_calm.trans (less_calm.rawWrite _ _ _)
      (less_calm.readerExit (fun _ _ => less_same rfl rfl rfl) _)).told ht
  · dsimp only
    exact told_drain (ht.same rfl rfl rfl)

theorem less_signalReady (s : St) (e : Option GoErr) : Less s (s.signalReady e) := by
  unfold St.signalReady; split
  · exact less_calm.refl _
  · exact less_calm.ready _ _

theorem told_recv {s : St} {typ : MsgType} {b : Bytes} (ht : Told cfg s) :
    Told cfg (recv cfg s typ b) := by
  unfold recv
  split
  · exact ht
  · split
    · exact told_handleMessage ht
    · unfold handleACK
      split
      · exact ht
      · split
        · split
          · exact ht.same rfl rfl rfl
          · exact told_ackReady ht
        · split
          · exact (less_signalReady _ _).told (ht.same rfl rfl rfl)
          · split
            · exact (less_calm.trans (less_signalReady _ _)
                (less_calm.readerExit (fun _ _ => less_same rfl rfl rfl) _)).told ht
            · split <;> exact ht.same rfl rfl rfl

theorem less_gateDone (s : St) (ns : Bytes) : Less s (gateDone s ns) := by
  obtain ⟨g1, g2, g3, _⟩ := gateDone_fields s ns
  exact less_same g2 g1 g3

theorem told_finish {s : St} {k : Cont} {m : Message} {err : Option GoErr} (ht : Told cfg s)
    (hk : ContOk cfg s k) : Told cfg (finish cfg s k m err) := by
  cases k with
  | connect ns obj =>
    cases err with
    | some e => exact (less_calm.trans (less_calm.emit _ _) (less_gateDone _ _)).told ht
    | none =>
      simp only [finish]
      refine told_connect (ns := ns) ht hk.2.2 (less_calm.refl _)
        (msg := { ns := ns, event := OnNamespaceConnected, isLocal := true }) rfl ?_
      refine less_calm.trans ?_ (less_calm.trans (less_calm.emit _ _) (less_gateDone _ _))
      unfold notifyConnected
      dsimp only
      split
      · exact less_calm.emit _ _
      · exact less_calm.refl _
  | disconnect obj msg =>
    cases err with
    | some e => exact (less_calm.emit _ _).told ht
    | none =>
      simp only [finish]
      exact (less_calm.trans (less_calm.trans (less_calm.trans (less_calm.trans
        (less_calm.forceLeaveAll _ _ _) (less_calm.nsDel _ _)) (less_calm.fire _ _ _))
        (less_calm.notifyDisconnect _ _)) (less_calm.emit _ _)).told ht
  | join obj msg =>
    cases err with
    | some e => exact (less_calm.emit _ _).told ht
    | none =>
      simp only [finish]
      split
      · rename_i t e he
        exact (less_calm.trans (less_calm.fire' he) (less_calm.emit _ _)).told ht
      · rename_i t he
        obtain ⟨v, hd, hm⟩ := fire_accept he
        exact told_join (msg := { msg with event := OnRoomJoined }) ((less_calm.fire' he).told ht)
          ⟨v, msg, hd, hm, hk.2.1, rfl⟩ rfl (less_calm.emit _ _)
  | leave obj msg =>
    cases err with
    | some e => exact (less_calm.emit _ _).told ht
    | none =>
      simp only [finish]
      split
      · rename_i t e he
        exact (less_calm.trans (less_calm.fire' he) (less_calm.emit _ _)).told ht
      · rename_i t he
        exact (less_calm.trans (less_calm.trans (less_calm.trans (less_calm.fire' he)
          (less_calm.del _ _ _)) (less_calm.fire _ _ _)) (less_calm.emit _ _)).told ht
  | user => exact (less_calm.emit _ _).told ht

theorem less_newAsk (s : St) (tok : Bytes) (k : Cont) : Less s (newAsk s tok k) := by
  obtain ⟨h1, h2, h3, _⟩ := newAsk_fields s tok k
  exact less_same h2 h1 h3

theorem told_startAsk {s : St} {k : Cont} {msg : Message} {now : Int} {ex : Bool}
    (ht : Told cfg s) (hk : ContOk cfg s k) : Told cfg (startAsk cfg s k msg now ex) := by
  unfold startAsk
  split
  · exact told_finish ht hk
  · split
    · exact told_finish ht hk
    · split
      · exact told_finish ht hk
      · dsimp only
        have h1 := less_calm.trans (less_newAsk s (genWait cfg.isClient now) k)
          (less_calm.write (cfg := cfg) (newAsk s (genWait cfg.isClient now) k)
            { msg with wait := genWait cfg.isClient now })
        have hw := rd_write (cfg := cfg) (newAsk s (genWait cfg.isClient now) k)
            { msg with wait := genWait cfg.isClient now }
        have hp := prims_write (cfg := cfg) (newAsk s (genWait cfg.isClient now) k)
            { msg with wait := genWait cfg.isClient now }
        revert h1 hw hp
        generalize write cfg (newAsk s (genWait cfg.isClient now) k)
            { msg with wait := genWait cfg.isClient now } = p
        obtain ⟨t, ok⟩ := p
        intro h1 hw hp
        dsimp only at h1 hw hp
        cases ok with
        | true => exact h1.told ht
        | false =>
          dsimp only
          have hg : Grows s t := by
            refine Grows.trans ?_ (Prims.grows hp)
            have n := newAsk_fields s (genWait cfg.isClient now) k
            refine ⟨fun i nm h => by rw [n.1]; exact h, fun h => by rw [n.2.2.2.1]; exact h, ?_, n.2.2.1 ▸ List.prefix_rfl, ?_, ?_⟩
            · unfold newAsk; split <;> exact fun e h => h
            · unfold newAsk; split <;> exact fun h => h
            · intro i a h
              refine ⟨a, ?_, rfl, rfl, fun h => h⟩
              unfold newAsk
              split <;> (simp only; rw [List.getElem?_append_left (List.getElem?_eq_some_iff.mp h).1]; exact h)
          have hk' : ContOk cfg (endAsk t s.asks.length) k := by
            have := hk.mono hg
            cases k <;> exact this
          exact told_finish ((h1.told ht).same rfl rfl rfl) hk'

theorem less_gateStart (s : St) (ns : Bytes) : Less s (gateStart s ns) := by
  unfold gateStart; exact less_same rfl rfl rfl

theorem told_connectCall {s : St} {ns : Bytes} {now : Int} {ex : Bool} (ht : Told cfg s) :
    Told cfg (connect cfg s ns now ex) := by
  have hm := (less_calm.markReady (cfg := cfg) s).told ht
  unfold connect
  dsimp only
  revert hm
  generalize s.markReady cfg = s0
  intro hm
  split
  · exact hm
  · have hg := (less_gateStart s0 ns).told hm
    revert hg
    generalize gateStart s0 ns = s1
    intro hg
    split
    · exact (less_calm.trans (less_calm.emit _ _) (less_gateDone _ _)).told hg
    · split
      · exact (less_calm.trans (less_calm.emit _ _) (less_gateDone _ _)).told hg
      · rename_i evs hdecl
        simp only [newObj]
        have h0 : Less s1 { s1 with objs := s1.objs ++ [⟨ns, []⟩] } := less_newObj s1 ns
        split
        · rename_i t e he
          exact (less_calm.trans (less_calm.trans (less_calm.trans h0 (less_calm.fire' he))
            (less_calm.emit _ _)) (less_gateDone _ _)).told hg
        · rename_i t he
          obtain ⟨v, hd, hm⟩ := fire_accept he
          refine told_startAsk ((less_calm.trans h0 (less_calm.fire' he)).told hg)
            ⟨by rw [hdecl]; rfl, ?_, v, _, hd, hm, rfl⟩
          have hgr := Prims.grows (prims_fire (cfg := cfg) { s1 with objs := s1.objs ++ [⟨ns, []⟩] }
            s1.objs.length { ns := ns, event := OnNamespaceConnect, isLocal := true })
          rw [he] at hgr
          exact hgr.names _ _ (by simp)

theorem told_exec {s s' : St} {op : Op} (hr : Reach cfg id s) (ht : Told cfg s)
    (h : exec cfg s op = some s') : Told cfg s' := by
  have hao := (reach_ok hr).1
  cases op with
  | recv typ b =>
    simp only [exec] at h
    split at h
    · cases h; exact told_recv ht
    · simp at h
  | readErr e =>
    simp only [exec] at h
    split at h
    · cases h
      exact (less_calm.trans (less_signalReady _ _)
        (less_calm.readerExit (fun _ _ => less_same rfl rfl rfl) _)).told ht
    · simp at h
  | wake =>
    simp only [exec] at h
    unfold wakeReader at h
    split at h
    · split at h
      · rename_i msg _ _
        dsimp only at h
        have h1 : Told cfg (afterGate cfg { s with rd := .idle } msg) :=
          told_afterGate (ht.same rfl rfl rfl)
        split at h
        · cases h; exact told_drain h1
        · cases h; exact h1
      · simp at h
    · split at h
      · simp at h
      · cases h; exact told_ackReady ht
    · simp at h
  | contReader =>
    simp only [exec, contReader] at h
    split at h
    · cases h; exact told_drain ht
    · simp at h
  | connect ns now ex => cases h; exact told_connectCall ht
  | disconnect obj now ex =>
    simp only [exec] at h
    split at h
    · cases h
      unfold disconnect
      dsimp only
      split
      · exact (less_calm.emit _ _).told ht
      · rename_i obj' ho
        exact told_startAsk ht ⟨((reach_ok hr).2 _ _ ho).2, rfl⟩
    · simp at h
  | join obj room now ex =>
    simp only [exec] at h
    split at h
    · rename_i hl
      cases h
      unfold joinRoom
      dsimp only
      split
      · exact (less_calm.emit _ _).told ht
      · refine told_startAsk ht ⟨?_, rfl, rfl⟩
        unfold St.nsName; rw [List.getElem?_eq_getElem hl]; rfl
    · simp at h
  | leave obj room now ex =>
    simp only [exec] at h
    split at h
    · rename_i hl
      cases h
      unfold leaveRoom
      dsimp only
      split
      · refine told_startAsk ht ⟨?_, rfl, rfl⟩
        unfold St.nsName; rw [List.getElem?_eq_getElem hl]; rfl
      · exact (less_calm.emit _ _).told ht
    · simp at h
  | ask msg now ex => cases h; exact told_startAsk ht trivial
  | write msg => cases h; exact (less_calm.write _ _).told ht
  | resume i =>
    simp only [exec, resume] at h
    split at h
    · simp at h
    · rename_i a ha
      split at h
      · simp at h
      · split at h
        · simp at h
        · cases h
          have e1 : ∀ t : St, (forget t a).objs = t.objs ∧ (forget t a).connected = t.connected ∧
              (forget t a).log = t.log := by
            intro t; unfold forget; split <;> exact ⟨rfl, rfl, rfl⟩
          have e2 : (takeAnswer s i a).objs = s.objs ∧ (takeAnswer s i a).connected = s.connected ∧
              (takeAnswer s i a).log = s.log := by
            unfold takeAnswer
            split
            · split <;> exact ⟨rfl, rfl, rfl⟩
            · exact ⟨rfl, rfl, rfl⟩
          obtain ⟨f1, f2, f3⟩ := e1 (endAsk (takeAnswer s i a) i)
          refine told_finish (ht.same (f2.trans e2.2.1) (f1.trans e2.1) (f3.trans e2.2.2)) ?_
          exact contOk_same (f1.trans e2.1) (f3.trans e2.2.2) (hao a (List.mem_of_getElem? ha))
  | cancel i e =>
    simp only [exec, cancel] at h
    split at h
    · simp at h
    · rename_i a ha
      split at h
      · simp at h
      · cases h
        exact told_finish (ht.same rfl rfl rfl) (contOk_same rfl rfl (hao a (List.mem_of_getElem? ha)))
  | close => cases h; exact (less_calm.closeConn _).told ht
  | steal i typ b =>
    simp only [exec, steal] at h
    split at h
    · simp at h
    · split at h
      · cases h; exact ht.same rfl rfl rfl
      · simp at h
  | stealErr i e =>
    simp only [exec, steal] at h
    split at h
    · simp at h
    · split at h
      · cases h; exact ht.same rfl rfl rfl
      · simp at h
  | ready e => cases h; exact (less_signalReady _ _).told ht
  | sendAck =>
    simp only [exec] at h
    split at h
    · cases h; exact ht
    · have hw := less_calm.rawWrite (cfg := cfg) s (b! "M") false
      revert h hw
      generalize rawWrite cfg s (b! "M") false = p
      obtain ⟨t, ok⟩ := p
      intro h hw
      cases ok with
      | true => cases h; exact hw.told ht
      | false => cases h; exact (less_calm.trans hw (less_calm.closeConn _)).told ht
  | srvAsk tok => cases h; exact ht.same rfl rfl rfl
  | srvUnask tok => cases h; exact ht.same rfl rfl rfl

theorem reach_told {s : St} (h : Reach cfg id s) : Told cfg s := by
  induction h with
  | init =>
    unfold newConn
    split
    · rename_i hn
      refine ⟨fun h => absurd hn (by simp [h]), fun obj r hr => ?_⟩
      unfold St.rooms at hr
      rcases obj with _ | _ <;> simp at hr
    · refine ⟨fun _ ns obj h => by simp [St.namespace, mapGet] at h, fun obj r hr => ?_⟩
      unfold St.rooms at hr
      simp at hr
  | step hr hs ih => exact told_exec hr ih (step_exec hs).1

end Neffos
