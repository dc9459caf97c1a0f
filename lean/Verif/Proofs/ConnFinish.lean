import Verif.Proofs.ConnHandlers
/-!
Helper: the exact effects of the completion of a call while the connection stays open, and
how the reader gets to the handlers.
-/
namespace Neffos
open Spec

variable {cfg : Cfg}

/-! ### Completing a call -/

theorem finish_err (s : St) (k : Cont) (m : Message) (e : GoErr) (hk : k ≠ .user) :
    (finish cfg s k m (some e)).objs = s.objs ∧
    (finish cfg s k m (some e)).connected = s.connected ∧
    (finish cfg s k m (some e)).log = s.log ++ [.ret k (.err e)] ∧
    (finish cfg s k m (some e)).closed = s.closed := by
  have gd : ∀ (t : St) (ns : Bytes), (gateDone t ns).objs = t.objs ∧
      (gateDone t ns).connected = t.connected ∧ (gateDone t ns).log = t.log ∧
      (gateDone t ns).closed = t.closed := by
    intro t ns
    unfold gateDone
    split
    · exact ⟨rfl, rfl, rfl, rfl⟩
    · split <;> exact ⟨rfl, rfl, rfl, rfl⟩
  cases k with
  | connect ns obj =>
    simp only [finish]
    obtain ⟨h1, h2, h3, h4⟩ := gd (s.emit (.ret (.connect ns obj) (.err e))) ns
    exact ⟨h1, h2, h3, h4⟩
  | user => exact absurd rfl hk
  | _ => exact ⟨rfl, rfl, rfl, rfl⟩

theorem gateDone_fields (t : St) (ns : Bytes) : (gateDone t ns).objs = t.objs ∧
    (gateDone t ns).connected = t.connected ∧ (gateDone t ns).log = t.log ∧
    (gateDone t ns).closed = t.closed ∧ (gateDone t ns).hung = t.hung := by
  unfold gateDone
  split
  · exact ⟨rfl, rfl, rfl, rfl, rfl⟩
  · split <;> exact ⟨rfl, rfl, rfl, rfl, rfl⟩

theorem finish_connect_ok {s : St} {ns : Bytes} {obj : Nat} {m : Message}
    (hnm : s.nsName obj = ns)
    (h : (finish cfg s (.connect ns obj) m none).closed = false) :
    ∃ l, (finish cfg s (.connect ns obj) m none).objs = s.objs ∧
      (finish cfg s (.connect ns obj) m none).connected = mapSet s.connected ns obj ∧
      (finish cfg s (.connect ns obj) m none).log = s.log ++ l ∧
      Adds cfg l [⟨obj, { ns := ns, event := OnNamespaceConnected, isLocal := true }, true,
          [] ∈ s.rooms obj⟩] []
        [(.connect ns obj, .nsConn obj)] (connNotes cfg ns) := by
  simp only [finish] at h ⊢
  obtain ⟨g1, g2, g3, g4, _⟩ := gateDone_fields
    ((notifyConnected cfg { s with connected := mapSet s.connected ns obj } obj
      { ns := ns, event := OnNamespaceConnect, isLocal := true }).emit
      (.ret (.connect ns obj) (.nsConn obj))) ns
  rw [g4] at h
  obtain ⟨l, hs, ha⟩ := notifyConnected_open (cfg := cfg)
    (s := { s with connected := mapSet s.connected ns obj }) (obj := obj)
    (msg := { ns := ns, event := OnNamespaceConnect, isLocal := true }) h
  refine ⟨l ++ [.ret (.connect ns obj) (.nsConn obj)], ?_, ?_, ?_, ?_⟩
  · rw [g1]; exact hs.objs
  · rw [g2]; exact hs.connected
  · rw [g3]
    simp only [St.emit, hs.log, List.append_assoc]
  · have hlk : linked { s with connected := mapSet s.connected ns obj } obj = true := by
      unfold linked St.namespace
      have : ({ s with connected := mapSet s.connected ns obj } : St).nsName obj = ns := hnm
      rw [this, mapGet_mapSet]
      simp
    have hn2 : ({ s with connected := mapSet s.connected ns obj } : St).nsName obj = ns := hnm
    rw [hlk, hn2] at ha
    have := ha.right (Adds.ret1 (.connect ns obj) (.nsConn obj))
    simp only [List.append_nil, List.nil_append] at this
    exact this

theorem finish_disconnect_ok {s : St} {obj : Nat} {msg m : Message}
    (hnm : s.nsName obj = msg.ns) (hnd : (s.rooms obj).Nodup)
    (h : (finish cfg s (.disconnect obj msg) m none).closed = false)
    (hh : (finish cfg s (.disconnect obj msg) m none).hung = false) :
    ∃ (l : List Obs) (rs : List Bytes), rs.Perm (s.rooms obj) ∧
      (finish cfg s (.disconnect obj msg) m none).connected = mapDel s.connected msg.ns ∧
      (finish cfg s (.disconnect obj msg) m none).log = s.log ++ l ∧
      (∀ i, (finish cfg s (.disconnect obj msg) m none).rooms i =
        if i = obj then [] else s.rooms i) ∧
      Adds cfg l (rs.flatMap (roomLeft obj msg.ns true (linked s obj)) ++
        [⟨obj, { msg with isLocal := true }, false, false⟩]) [] [(.disconnect obj msg, .ok)]
        (discNotes cfg msg.ns) := by
  simp only [finish] at h hh ⊢
  have hp1 := prims_notifyDisconnect (cfg := cfg) (fire cfg { forceLeaveAll cfg s obj true with
      connected := mapDel (forceLeaveAll cfg s obj true).connected msg.ns } obj
      { msg with isLocal := true }).1 msg.ns
  have hc1 := closed_of_prims hp1 h
  have hh1 := hung_of_prims hp1 hh
  have hp2 := prims_fire (cfg := cfg) { forceLeaveAll cfg s obj true with
      connected := mapDel (forceLeaveAll cfg s obj true).connected msg.ns } obj
      { msg with isLocal := true }
  have hc2 := closed_of_prims hp2 hc1
  have hh2 := hung_of_prims hp2 hh1
  obtain ⟨l, rs, o, h1, h2, h3, h6, h7⟩ :=
    forceLeave_remove (cfg := cfg) (ns := msg.ns) (s := s) (obj := obj) (il := true) hnd hc2 hh2
  obtain ⟨l', hs', ha'⟩ := fire_any (cfg := cfg) hc1
  have hnds := notifyDisconnect_same (cfg := cfg) (fire cfg { forceLeaveAll cfg s obj true with
      connected := mapDel (forceLeaveAll cfg s obj true).connected msg.ns } obj
      { msg with isLocal := true }).1 msg.ns
  have hfr := ((h2.same hs').same hnds).same (Same.emit _ (.ret (.disconnect obj msg) .ok))
  obtain ⟨e1, e2, e3⟩ := hfr.rooms_eq
  refine ⟨_, rs, h1, e2, e3, ?_, ?_⟩
  · intro i
    have := h6 i
    rw [← this]
    unfold St.rooms
    rw [e1]
  · obtain ⟨f1, f2, _⟩ := h2.rooms_eq
    have hl2 : linked { forceLeaveAll cfg s obj true with
        connected := mapDel (forceLeaveAll cfg s obj true).connected msg.ns } obj = false := by
      unfold linked St.namespace
      have hnn : ({ forceLeaveAll cfg s obj true with
        connected := mapDel (forceLeaveAll cfg s obj true).connected msg.ns } : St).nsName obj =
          msg.ns := by
        rw [← hnm, ← h7 obj]
        unfold St.nsName
        rw [f1]
      rw [hnn, mapGet_mapDel]
      simp
    have hr2 : ({ forceLeaveAll cfg s obj true with
        connected := mapDel (forceLeaveAll cfg s obj true).connected msg.ns } : St).rooms obj =
          [] := by
      have := h6 obj
      rw [if_pos rfl] at this
      rw [← this]
      unfold St.rooms
      rw [f1]
    rw [hl2, hr2] at ha'
    rw [hnm] at h3
    simpa using ((h3.right ha').right (discNotes_adds (cfg := cfg) msg.ns)).right
      (Adds.ret1 (.disconnect obj msg) .ok)

theorem finish_join_veto {s : St} {obj : Nat} {msg m : Message} {e : GoErr}
    (hv : verdict cfg s obj msg = some e)
    (h : (finish cfg s (.join obj msg) m none).closed = false) :
    ∃ l, Same s l (finish cfg s (.join obj msg) m none) ∧
      Adds cfg l [⟨obj, msg, linked s obj, msg.room ∈ s.rooms obj⟩] [] [(.join obj msg, .err e)] [] := by
  have hfs := fire_snd (cfg := cfg) s obj msg
  rw [hv] at hfs
  simp only [finish] at h ⊢
  split at h
  · rename_i t e' he
    rw [he] at hfs
    cases hfs
    have hfe := fire_eff (cfg := cfg) (s := s) (obj := obj) (msg := msg) (by rw [he]; exact h)
    rw [he, hv] at hfe
    obtain ⟨l, hs, _, ha⟩ := hfe
    exact ⟨_, hs.trans (Same.emit _ _), ha.right (Adds.ret1 _ _)⟩
  · rename_i t he
    rw [he] at hfs
    cases hfs

theorem finish_join_ok {s : St} {obj : Nat} {msg m : Message} (ho : obj < s.objs.length)
    (hv : verdict cfg s obj msg = none)
    (h : (finish cfg s (.join obj msg) m none).closed = false) :
    ∃ l, Same (s.setRooms obj (addRoom msg.room)) l (finish cfg s (.join obj msg) m none) ∧
      Adds cfg l [⟨obj, msg, linked s obj, msg.room ∈ s.rooms obj⟩,
          ⟨obj, { msg with event := OnRoomJoined }, linked s obj, true⟩] []
        [(.join obj msg, .room obj msg.room)] [] := by
  have hfs := fire_snd (cfg := cfg) s obj msg
  rw [hv] at hfs
  simp only [finish] at h ⊢
  split at h
  · rename_i t e' he
    rw [he] at hfs
    cases hfs
  · rename_i t he
    have hc2 : (t.setRooms obj (addRoom msg.room)).closed = false :=
      closed_of_prims (s := t.setRooms obj (addRoom msg.room))
        (s' := (fire cfg (t.setRooms obj (addRoom msg.room)) obj { msg with event := OnRoomJoined }).1)
        (prims_fire (cfg := cfg) (t.setRooms obj (addRoom msg.room)) obj
        { msg with event := OnRoomJoined }) h
    have hfe := fire_eff (cfg := cfg) (s := s) (obj := obj) (msg := msg) (by rw [he]; exact hc2)
    rw [he, hv] at hfe
    obtain ⟨l, hs, _, ha⟩ := hfe
    dsimp only at hs
    obtain ⟨l', hs', ha'⟩ := fire_any (cfg := cfg)
      (s := t.setRooms obj (addRoom msg.room)) (obj := obj)
      (msg := { msg with event := OnRoomJoined }) h
    refine ⟨_, ((hs.setRooms obj (addRoom msg.room)).trans hs').trans (Same.emit _ _), ?_⟩
    rw [linked_setRooms, hs.linked] at ha'
    have hin : msg.room ∈ (t.setRooms obj (addRoom msg.room)).rooms obj :=
      (rooms_addRoom t obj msg.room (by rw [hs.objs]; exact ho) obj msg.room).mpr (Or.inr ⟨rfl, rfl⟩)
    simpa [hin] using (ha.right ha').right (Adds.ret1 (.join obj msg) (.room obj msg.room))

theorem finish_leave_veto {s : St} {obj : Nat} {msg m : Message} {e : GoErr}
    (hv : verdict cfg s obj msg = some e)
    (h : (finish cfg s (.leave obj msg) m none).closed = false) :
    ∃ l, Same s l (finish cfg s (.leave obj msg) m none) ∧
      Adds cfg l [⟨obj, msg, linked s obj, msg.room ∈ s.rooms obj⟩] [] [(.leave obj msg, .err e)] [] := by
  have hfs := fire_snd (cfg := cfg) s obj msg
  rw [hv] at hfs
  simp only [finish] at h ⊢
  split at h
  · rename_i t e' he
    rw [he] at hfs
    cases hfs
    have hfe := fire_eff (cfg := cfg) (s := s) (obj := obj) (msg := msg) (by rw [he]; exact h)
    rw [he, hv] at hfe
    obtain ⟨l, hs, _, ha⟩ := hfe
    exact ⟨_, hs.trans (Same.emit _ _), ha.right (Adds.ret1 _ _)⟩
  · rename_i t he
    rw [he] at hfs
    cases hfs

theorem finish_leave_ok {s : St} {obj : Nat} {msg m : Message}
    (hv : verdict cfg s obj msg = none)
    (h : (finish cfg s (.leave obj msg) m none).closed = false) :
    ∃ l, Same (s.setRooms obj (delRoom msg.room)) l (finish cfg s (.leave obj msg) m none) ∧
      Adds cfg l [⟨obj, msg, linked s obj, msg.room ∈ s.rooms obj⟩,
          ⟨obj, { msg with event := OnRoomLeft }, linked s obj, false⟩] []
        [(.leave obj msg, .ok)] [] := by
  have hfs := fire_snd (cfg := cfg) s obj msg
  rw [hv] at hfs
  simp only [finish] at h ⊢
  split at h
  · rename_i t e' he
    rw [he] at hfs
    cases hfs
  · rename_i t he
    have hc2 : (t.setRooms obj (delRoom msg.room)).closed = false :=
      closed_of_prims (s := t.setRooms obj (delRoom msg.room))
        (s' := (fire cfg (t.setRooms obj (delRoom msg.room)) obj { msg with event := OnRoomLeft }).1)
        (prims_fire (cfg := cfg) (t.setRooms obj (delRoom msg.room)) obj
        { msg with event := OnRoomLeft }) h
    have hfe := fire_eff (cfg := cfg) (s := s) (obj := obj) (msg := msg) (by rw [he]; exact hc2)
    rw [he, hv] at hfe
    obtain ⟨l, hs, _, ha⟩ := hfe
    dsimp only at hs
    obtain ⟨l', hs', ha'⟩ := fire_any (cfg := cfg)
      (s := t.setRooms obj (delRoom msg.room)) (obj := obj)
      (msg := { msg with event := OnRoomLeft }) h
    refine ⟨_, ((hs.setRooms obj (delRoom msg.room)).trans hs').trans (Same.emit _ _), ?_⟩
    rw [linked_setRooms, hs.linked, rooms_setRooms _ _ _ _ (by simp [delRoom])] at ha'
    simpa [delRoom] using (ha.right ha').right (Adds.ret1 (.leave obj msg) .ok)

/-! ### Events -/

theorem handleEvent_ok {s : St} {obj : Nat} {msg : Message}
    (hv : verdict cfg s obj { msg with isLocal := false } = none)
    (h : (handleEvent cfg s obj msg).closed = false) :
    ∃ l, Same s l (handleEvent cfg s obj msg) ∧
      Adds cfg l [⟨obj, { msg with isLocal := false }, linked s obj, msg.room ∈ s.rooms obj⟩] [] [] [] := by
  have hfs := fire_snd (cfg := cfg) s obj { msg with isLocal := false }
  rw [hv] at hfs
  simp only [handleEvent] at h ⊢
  split at h
  · rename_i t e' he
    rw [he] at hfs
    cases hfs
  · rename_i t he
    have hfe := fire_any (cfg := cfg) (s := s) (obj := obj) (msg := { msg with isLocal := false })
      (by rw [he]; exact h)
    rw [he] at hfe
    exact hfe

theorem handleEvent_err {s : St} {obj : Nat} {msg : Message} {e : GoErr}
    (hv : verdict cfg s obj { msg with isLocal := false } = some e)
    (h : (handleEvent cfg s obj msg).closed = false) :
    (MayWrite cfg s msg → ∃ l, Same s l (handleEvent cfg s obj msg) ∧
      Adds cfg l [⟨obj, { msg with isLocal := false }, linked s obj, msg.room ∈ s.rooms obj⟩]
        [(msg.setBinary, wireOf { msg with isLocal := false, err := some e })] [] []) ∧
    (¬ MayWrite cfg s msg → ∃ l, Same s l (handleEvent cfg s obj msg) ∧
      Adds cfg l [⟨obj, { msg with isLocal := false }, linked s obj, msg.room ∈ s.rooms obj⟩] [] [] []) := by
  have hfs := fire_snd (cfg := cfg) s obj { msg with isLocal := false }
  rw [hv] at hfs
  simp only [handleEvent] at h ⊢
  split at h
  · rename_i t e' he
    rw [he] at hfs
    cases hfs
    have hc := closed_of_prims (prims_write (cfg := cfg) t
      { msg with isLocal := false, err := some e }) h
    have hfe := fire_any (cfg := cfg) (s := s) (obj := obj) (msg := { msg with isLocal := false })
      (by rw [he]; exact hc)
    rw [he] at hfe
    obtain ⟨l, hs, ha⟩ := hfe
    dsimp only at hs
    have hm : MayWrite cfg t { msg with isLocal := false, err := some e } ↔ MayWrite cfg s msg := by
      unfold MayWrite IsSender
      simp only [hs.closed, hs.id, hs.namespace, hs.rooms]
    constructor
    · intro hx
      obtain ⟨ok, hs2⟩ := write_may (hm.mpr hx) h
      exact ⟨_, hs.trans hs2, ha.right (Adds.sent1 _ _ _)⟩
    · intro hx
      have hs2 := write_maynot (mt hm.mp hx)
      exact ⟨_, hs.trans hs2, ha.right Adds.nil⟩
  · rename_i t he
    rw [he] at hfs
    cases hfs

theorem afterGate_noNamespace {s : St} {msg : Message} (hn : s.namespace msg.ns = none)
    (h1 : msg.event ≠ OnNamespaceConnect) (h2 : msg.event ≠ OnNamespaceDisconnect) :
    Same s [] (afterGate cfg s msg) := by
  unfold afterGate
  rw [hn]
  apply write_maynot
  rintro ⟨_, _, h | h | ⟨o, ho, _⟩⟩
  · exact h1 h
  · exact h2 h
  · simp only [] at ho
    rw [hn] at ho
    simp at ho

/-! ### Reaching the handlers -/

theorem incoming_recv {s : St} {typ : MsgType} {b : Bytes} {msg : Message}
    (h : Incoming cfg s typ b msg) : recv cfg s typ b = dispatch cfg s msg := by
  unfold recv handlePayload
  rw [if_neg h.nonempty, if_pos h.acked, h.decodes]
  unfold handleMessage
  rw [if_neg (by simp [h.valid]), if_neg (by simp [h.notNative])]
  by_cases hw : msg.isWait cfg.isClient = true
  · rw [if_pos hw]
    have h1 : ¬ (!cfg.isClient && msg.fromStackExchange && cfg.usesExchange) = true := by
      rcases h.notExchange with e | e | e | e
      · simp [e]
      · simp [e]
      · simp [e]
      · rw [hw] at e; simp at e
    have h2 : ¬ (!cfg.isClient && decide (msg.wait ∈ s.srvWaiting)) = true := by
      rcases h.notServerAnswer with e | e | e
      · simp [e]
      · simp [e]
      · rw [hw] at e; simp at e
    have h3 : mapGet s.waiting msg.wait = none := by
      rcases h.notAnswer with e | e
      · exact e
      · rw [hw] at e; simp at e
    rw [if_neg h1, if_neg h2, h3]
  · rw [if_neg hw]

theorem step_recv {s s' : St} {typ : MsgType} {b : Bytes} {msg : Message}
    (h : Incoming cfg s typ b msg) (hs : step cfg s (.recv typ b) = some s') :
    s' = dispatch cfg s msg ∧ s'.hung = false := by
  obtain ⟨he, hh⟩ := step_exec hs
  simp only [exec] at he
  split at he
  · cases he; exact ⟨incoming_recv h, hh⟩
  · simp at he

/-- the state in which a call continues with its answer -/
def resumed (s : St) (i : Nat) (a : AskRec) : St := forget (endAsk (takeAnswer s i a) i) a

theorem resumed_fields (s : St) (i : Nat) (a : AskRec) :
    (resumed s i a).objs = s.objs ∧ (resumed s i a).connected = s.connected ∧
    (resumed s i a).log = s.log ∧ (resumed s i a).closed = s.closed ∧
    (resumed s i a).id = s.id ∧ (resumed s i a).gates = s.gates ∧
    (resumed s i a).acked = s.acked ∧ (resumed s i a).ready = s.ready := by
  unfold resumed forget endAsk takeAnswer
  cases hm : a.mode <;> cases hr : s.rd <;> simp only [] <;> (try split) <;>
    refine ⟨?_, ?_, ?_, ?_, ?_, ?_, ?_, ?_⟩ <;> (try (split <;> rfl)) <;> rfl

theorem step_resume {s s' : St} {i : Nat} {a : AskRec} {m : Message}
    (ha : s.asks[i]? = some a) (hb : a.box = some m)
    (hs : step cfg s (.resume i) = some s') :
    s' = finish cfg (resumed s i a) a.cont m m.err ∧ s'.hung = false := by
  obtain ⟨he, hh⟩ := step_exec hs
  simp only [exec, resume, ha] at he
  split at he
  · simp at he
  · rw [hb] at he
    simp only at he
    cases he
    exact ⟨rfl, hh⟩

theorem verdict_congr {s t : St} (hl : t.log = s.log) (ho : t.objs = s.objs) (obj : Nat)
    (msg : Message) : verdict cfg t obj msg = verdict cfg s obj msg := by
  unfold verdict St.nsName
  rw [hl, ho]

theorem rooms_congr {s t : St} (ho : t.objs = s.objs) (i : Nat) : t.rooms i = s.rooms i := by
  unfold St.rooms; rw [ho]

theorem nsName_congr {s t : St} (ho : t.objs = s.objs) (i : Nat) : t.nsName i = s.nsName i := by
  unfold St.nsName; rw [ho]

end Neffos
