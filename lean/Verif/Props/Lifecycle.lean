import Verif.Props.Membership
/-!
# C21, C22, C23: the order of callbacks, closing, and what follows it

The interleavings of several closing goroutines are in `Props/CloseRace.lean`.
-/
set_option autoImplicit false
namespace Neffos
open Spec

variable {cfg : Cfg} {id : Bytes} {s s' : St}

/-! ## C21 -/

/-- C21: at any time, an NSConn that is connected had its OnNamespaceConnect, which returned
nil, and after that its OnNamespaceConnected. -/
theorem c21_connected_partial (hr : Reach cfg id s) (hn : cfg.onlyNative = false) {ns : Bytes}
    {obj : Nat} (hc : s.namespace ns = some obj) :
    InOrder OnNamespaceConnect OnNamespaceConnected obj none s.log :=
  (reach_told hr).ns hn ns obj hc

/-- C21: at any time, an NSConn that is in a room had OnRoomJoin for that room, which
returned nil, and after that OnRoomJoined for that room. -/
theorem c21_joined_partial (hr : Reach cfg id s) {obj : Nat} {room : Bytes}
    (hm : room ∈ s.rooms obj) : InOrder OnRoomJoin OnRoomJoined obj (some room) s.log :=
  (reach_told hr).room obj room hm

example : ∃ (cfg : Cfg) (id : Bytes) (s : St), Reach cfg id s ∧ cfg.onlyNative = false ∧
    s.namespace (b! "chat") = some 0 ∧ b! "r" ∈ s.rooms 0 :=
  ⟨clientCfg chatDecl noCb, [], after _ _ joinedOps, after_reach (by decide +kernel),
    by decide +kernel, by decide +kernel, by decide +kernel⟩

/-- C21: the callback of any event, request to join or leave a room that the reader handles
comes after both callbacks of its namespace, and a request to leave a room also after both
callbacks of the room. Every callback that runs belongs to the NSConn that is connected. -/
theorem c21_event_partial {msg : Message} (hr : Reach cfg id s) (hs : Handled cfg s msg s')
    (hev : msg.event ≠ OnNamespaceConnect ∧ msg.event ≠ OnNamespaceDisconnect)
    (hnat : cfg.onlyNative = false) (hc : s'.closed = false) :
    ∃ l, s'.log = s.log ++ l ∧ ∀ call ∈ callsOf l,
      s.namespace msg.ns = some call.obj ∧
      InOrder OnNamespaceConnect OnNamespaceConnected call.obj none s.log ∧
      (msg.event = OnRoomLeave → InOrder OnRoomJoin OnRoomJoined call.obj (some msg.room) s.log) := by
  obtain ⟨rfl, _, _⟩ := handled hr hs hev.1 hev.2
  cases hns : s.namespace msg.ns with
  | none =>
    have hns' : ({ s with rd := .idle } : St).namespace msg.ns = none := hns
    unfold afterGate at hc ⊢
    rw [hns'] at hc ⊢
    obtain ⟨_, l, h1, h2⟩ := calls_write (cfg := cfg) _ _ hc
    exact ⟨l, h1, fun c hm => by rw [h2] at hm; simp at hm⟩
  | some obj =>
    have hns' : ({ s with rd := .idle } : St).namespace msg.ns = some obj := hns
    obtain ⟨_, l, h1, h2⟩ := calls_afterGate hns' hc
    refine ⟨l, h1, fun c hm => ?_⟩
    obtain ⟨h3, h4⟩ := h2 c hm
    rw [h3]
    exact ⟨rfl, (reach_told hr).ns hnat _ _ hns, fun he => (reach_told hr).room _ _ (h4 he)⟩

example : ∃ (cfg : Cfg) (id : Bytes) (s s' : St) (msg : Message), Reach cfg id s ∧
    Handled cfg s msg s' ∧
    (msg.event ≠ OnNamespaceConnect ∧ msg.event ≠ OnNamespaceDisconnect) ∧
    cfg.onlyNative = false ∧ s'.closed = false ∧ (callsOf s'.log).length = 6 :=
  ⟨serverCfg chatDecl noCb, b! "1", after _ _ joinedSrvOps, _, leaveReqMsg,
    after_reach (by decide +kernel),
    handled_of (ops := joinedSrvOps) (typ := .text) (b := leaveReq) (by decide +kernel)
      (by decide +kernel) (by decide +kernel), by decide +kernel, by decide +kernel,
    by decide +kernel, by decide +kernel⟩

/-- C21 fails, honest peer: when a client that is in a room asks a server-side connection to
disconnect, OnNamespaceDisconnect comes before OnRoomLeave and OnRoomLeft. -/
theorem c21_refuted : ∃ (cfg : Cfg) (s : St), PassiveReach cfg (b! "1") s ∧
    (callsOf s.log).map (fun c => c.msg.event) =
      [OnNamespaceConnect, OnNamespaceConnected, OnRoomJoin, OnRoomJoined,
        OnNamespaceDisconnect, OnRoomLeave, OnRoomLeft] :=
  ⟨serverCfg chatDecl noCb,
    after _ _ (joinedSrvOps ++ [.recv .text (b! "$11;chat;;_OnNamespaceDisconnect;0;0;")]),
    passive_of (by decide +kernel) (by decide +kernel), by decide +kernel⟩

/-- C21 fails, hostile peer: a client can run OnNamespaceConnected and OnRoomLeft callbacks on
the server as often as it likes by emitting events of that name, so nothing alternates. -/
theorem c21_forged_refuted : ∃ (cfg : Cfg) (s : St), PassiveReach cfg (b! "1") s ∧
    (callsOf s.log).map (fun c => c.msg.event) =
      [OnNamespaceConnect, OnNamespaceConnected, OnNamespaceConnected, OnRoomLeft] :=
  ⟨serverCfg chatDecl noCb,
    after _ _ (chatSrvOps ++ [.recv .text (b! ";chat;;_OnNamespaceConnected;0;0;"),
      .recv .text (b! ";chat;r;_OnRoomLeft;0;0;")]),
    passive_of (by decide +kernel) (by decide +kernel), by decide +kernel⟩

/-! ## C22 -/

/-- C22: Close of an open connection. All namespaces are closed one after the other, in some
order: for each, every room is left by force and then the namespace is disconnected, with the
forced and local flags and while still connected; nothing else is called and nothing written
or returned. Afterwards no namespace is connected and no NSConn that was connected is in a
room, and after all the callbacks the server was told, the close channel closed and the socket
closed, in this order. -/
theorem c22_close (hr : Reach cfg id s) (ho : s.closed = false) (hn : cfg.onlyNative = false)
    (hs : step cfg s .close = some s') :
    s'.closed = true ∧ s'.connected = [] ∧ s'.waiting = [] ∧
    (∀ ns obj, s.namespace ns = some obj → s'.rooms obj = []) ∧
    ∃ (l : List Obs) (nss : List (Bytes × Nat)) (rs : Bytes → List Bytes),
      s'.log = s.log ++ l ++ (if cfg.isClient = true then [.closeCh, .netClosed]
        else [.notifyServer, .closeCh, .netClosed]) ∧ nss.Perm s.connected ∧
      (∀ ns obj, (ns, obj) ∈ nss → (rs ns).Perm (s.rooms obj)) ∧
      callsOf l = nss.flatMap (fun p => namespaceClosed p.2 p.1 (rs p.1)) ∧
      sentOf l = [] ∧ retOf l = [] ∧ otherOf l = [] := by
  have he := (step_exec hs).1
  simp only [exec, Option.some.injEq] at he
  obtain ⟨l, nss, rs, h1, h2, h3, h4, h5, h6, h7, h8, h9⟩ :=
    closeConn_open (cfg := cfg) ho hn (reach_keys hr) (reach_inj hr)
  rw [he] at h5 h8
  refine ⟨by rw [h5], by rw [h5], by rw [h5], h8, l,
    nss.map (fun ns => (ns, (s.namespace ns).getD 0)), rs, by rw [h5]; simp [closeNotes], ?_, ?_, ?_, h4.1, h4.2.1, h4.2.2⟩
  · have hk : (s.connected.map (·.1)).map (fun ns => (ns, (s.namespace ns).getD 0)) = s.connected := by
      rw [List.map_map]
      conv => rhs; rw [← List.map_id s.connected]
      apply List.map_congr_left
      intro p hp
      have := mapGet_of_mem (reach_keys hr) hp
      simp [St.namespace, this]
    rw [← hk]
    exact h1.map _
  · intro ns obj hm
    obtain ⟨n, hn', e⟩ := List.mem_map.mp hm
    have hs2 := (mapGet_isSome_iff s.connected n).mpr (h1.mem_iff.mp hn')
    obtain ⟨o, ho'⟩ := Option.isSome_iff_exists.mp hs2
    have hno : s.namespace n = some o := ho'
    rw [hno] at e
    simp only [Option.getD_some, Prod.mk.injEq] at e
    obtain ⟨rfl, rfl⟩ := e
    exact h2 _ _ hno
  · rw [h3 (reach_nodup hr) (fun _ _ h => reach_nsName hr h), List.flatMap_map]
    apply flatMap_congr_mem
    intro n hm
    have hs2 := (mapGet_isSome_iff s.connected n).mpr (h1.mem_iff.mp hm)
    obtain ⟨o, ho'⟩ := Option.isSome_iff_exists.mp hs2
    have hno : s.namespace n = some o := ho'
    simp [hno]

example : ∃ (cfg : Cfg) (id : Bytes) (s s' : St), Reach cfg id s ∧ s.closed = false ∧
    cfg.onlyNative = false ∧ s.rooms 0 = [b! "r"] ∧ s.connected = [(b! "chat", 0)] ∧
    step cfg s .close = some s' :=
  ⟨clientCfg chatDecl noCb, [], after _ _ joinedOps, _, after_reach (by decide +kernel),
    by decide +kernel, by decide +kernel, by decide +kernel, by decide +kernel,
    after_step (by decide +kernel)⟩

/-- C22: another Close has no effect. -/
theorem c22_again (hr : Reach cfg id s) (hc : s.closed = true) : step cfg s .close = some s := by
  have hh : s.hung = false := reach_hung hr
  unfold step exec closeConn
  simp [hc, hh]

example : ∃ (cfg : Cfg) (id : Bytes) (s : St), Reach cfg id s ∧ s.closed = true :=
  ⟨clientCfg chatDecl noCb, [], after _ _ (joinedOps ++ [.close]), after_reach (by decide +kernel),
    by decide +kernel⟩

/-- C22: in every history the server is told once, the close channel is closed once and the
socket is closed once if the connection is closed, and never otherwise, whoever closed it. -/
theorem c22_once (hr : Reach cfg id s) :
    closingOf s.log = if s.closed = true then
      (if cfg.isClient = true then [.closeCh, .netClosed] else [.notifyServer, .closeCh, .netClosed])
      else [] :=
  reach_closing hr

/-- C22 fails for a connection that handles only native messages: after Close the empty
namespace is still connected. -/
theorem c22_native_refuted : ∃ (cfg : Cfg) (s : St), Reach cfg [] s ∧ s.closed = true ∧
    s.connected ≠ [] ∧ callsOf s.log = [] :=
  ⟨clientCfg [([], [OnNativeMessage])] noCb, after _ _ [.close],
    after_reach (by decide +kernel), by decide +kernel, by decide +kernel, by decide +kernel⟩

/-! ## C23 -/

/-- C23: once closed, a connection stays closed and writes no event: whatever is handed to the
socket is an empty reply to a request or part of the handshake. -/
theorem c23_silent_partial {op : Op} (hr : Reach cfg id s) (hc : s.closed = true)
    (hs : step cfg s op = some s') :
    s'.closed = true ∧ ∃ l, s'.log = s.log ++ l ∧ ∀ binary b ok, Obs.sent binary b ok ∈ l →
      binary = false ∧ ((∃ w, b = genEmptyReplyToWait w) ∨ b = b! "M" ∨ (∃ t, b = 65 :: t) ∨
        ∃ t, b = 72 :: t) :=
  fines_closed (Prims.fines (reach_prims hr hs)) hc

/-- C23: an Ask on a closed connection fails with the close error; nothing is sent and
nothing changes. -/
theorem c23_ask {msg : Message} {now : Int} {ex : Bool} (hc : s.closed = true)
    (hn : cfg.onlyNative = false) (hs : step cfg s (.ask msg now ex) = some s') :
    s' = s.emit (.ret .user (.answer msg (some (.closeErr (-1) (b! "[-1] write closed"))))) := by
  have he := (step_exec hs).1
  simp only [exec, Option.some.injEq] at he
  rw [← he]
  unfold startAsk
  rw [if_neg (by simp [hn]), if_pos hc]
  rfl

example : ∃ (cfg : Cfg) (id : Bytes) (s s' : St) (msg : Message), Reach cfg id s ∧
    s.closed = true ∧ cfg.onlyNative = false ∧ step cfg s (.ask msg 9 false) = some s' :=
  ⟨clientCfg chatDecl noCb, [], after _ _ (joinedOps ++ [.close]), _,
    { ns := b! "chat", event := b! "ev" }, after_reach (by decide +kernel), by decide +kernel,
    by decide +kernel, after_step (by decide +kernel)⟩

/-- C23: when the connection is closed, its reader has ended and no Ask is waiting, nothing is
ever connected or joined again, whatever calls are made, and this remains so. Partial: before
that it can happen, see `c23_refuted`. -/
theorem c23_over_partial {op : Op} (hn : cfg.onlyNative = false) (hc : s.closed = true)
    (hd : s.rd = .dead) (ha : ∀ a ∈ s.asks, a.done = true) (hs : step cfg s op = some s') :
    s'.connected = s.connected ∧ (∀ obj, s'.rooms obj = s.rooms obj) ∧
    s'.closed = true ∧ s'.rd = .dead ∧ ∀ a ∈ s'.asks, a.done = true :=
  have ho : Over cfg s := ⟨hc, hd, ha, hn⟩
  have h := stays_step ho hs
  have h' := ho.step hs
  ⟨h.connected, h.rooms, h'.closed, h'.reader, h'.asks⟩

example : ∃ (cfg : Cfg) (id : Bytes) (s s' : St), Reach cfg id s ∧ cfg.onlyNative = false ∧
    s.closed = true ∧ s.rd = .dead ∧ (∀ a ∈ s.asks, a.done = true) ∧ s.asks ≠ [] ∧
    step cfg s (.connect (b! "chat") 20 false) = some s' :=
  ⟨clientCfg chatDecl noCb, [], after _ _ (joinedOps ++ [.readErr (.text (b! "EOF"))]), _,
    after_reach (by decide +kernel), by decide +kernel, by decide +kernel, by decide +kernel,
    by decide +kernel, by decide +kernel, after_step (by decide +kernel)⟩

/-- a callback that closes its connection on OnNamespaceConnect -/
def closeOnConnectCb : List Obs → Nat → Bytes → Message → List Act × Option GoErr :=
  fun _ _ _ msg => if msg.event = OnNamespaceConnect then ([.close], none) else ([], none)

/-- C23 fails: a server-side OnNamespaceConnect callback that closes the connection. The
namespace is connected afterwards, OnNamespaceConnected runs, and no OnNamespaceDisconnect
ever does: the same happens when Close runs concurrently with the callback. -/
theorem c23_refuted : ∃ (cfg : Cfg) (s : St), PassiveReach cfg (b! "1") s ∧ s.closed = true ∧
    s.connected = [(b! "chat", 0)] ∧
    (callsOf s.log).map (fun c => c.msg.event) = [OnNamespaceConnect, OnNamespaceConnected] :=
  ⟨serverCfg chatDecl closeOnConnectCb, after _ _ chatSrvOps,
    passive_of (by decide +kernel) (by decide +kernel), by decide +kernel, by decide +kernel,
    by decide +kernel⟩

/-- C23 fails: Close between the arrival of the answer to a Connect and the Connect's return.
The namespace is connected after Close. -/
theorem c23_connect_refuted : ∃ (cfg : Cfg) (s s' : St), Reach cfg [] s ∧ s.closed = true ∧
    s.connected = [] ∧ step cfg s (.resume 0) = some s' ∧ s'.connected = [(b! "chat", 0)] ∧
    (callsOf s'.log).map (fun c => c.msg.event) = [OnNamespaceConnect, OnNamespaceConnected] :=
  ⟨clientCfg chatDecl noCb, after _ _ (chatOps.take 3 ++ [.close]), _, after_reach (by decide +kernel),
    by decide +kernel, by decide +kernel, after_step (by decide +kernel), by decide +kernel,
    by decide +kernel⟩

end Neffos
