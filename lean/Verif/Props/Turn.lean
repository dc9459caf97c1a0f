import Verif.Proofs.Turn
import Verif.Props.Namespaces
/-!
# C121: in which order a connection runs callbacks, answers and returns

C15, C17, C18 and C19 say which callbacks run, what is written and what calls return. Here
is the order between all of these.
-/
set_option autoImplicit false
namespace Neffos
open Spec

variable {cfg : Cfg} {id : Bytes} {s s' : St}

/-- C121, a connect request that is accepted: OnNamespaceConnect runs, then the answer is
written, then OnNamespaceConnected runs and the StackExchange is told. When it is refused:
OnNamespaceConnect runs, then the error is written. -/
theorem c121_connect {typ : MsgType} {b : Bytes} {msg : Message} (hi : Incoming cfg s typ b msg)
    (hs : step cfg s (.recv typ b) = some s') (hev : msg.event = OnNamespaceConnect)
    (hw : Wanted msg) (hc : s'.closed = false) (hn : s.namespace msg.ns = none)
    (hd : (mapGet cfg.decl msg.ns).isSome = true) :
    ∃ l, s'.log = s.log ++ l ∧
      (connectVerdict cfg s msg = none →
        Goes cfg l ([.call ⟨s.objs.length, msg, false, false⟩,
          .wire false (genEmptyReplyToWait msg.wait),
          .call ⟨s.objs.length, { msg with event := OnNamespaceConnected }, true, false⟩] ++
          notes (connNotes cfg msg.ns))) ∧
      (∀ e, connectVerdict cfg s msg = some e →
        Goes cfg l [.call ⟨s.objs.length, msg, false, false⟩,
          .wire msg.setBinary (wireOf { msg with err := some e })]) := by
  obtain ⟨rfl, _⟩ := step_recv hi hs
  rw [dispatch_connect hev] at hc ⊢
  have hf := hi.noExplicit hw.1
  obtain ⟨evs, hd⟩ := Option.isSome_iff_exists.mp hd
  cases hv : connectVerdict cfg s msg with
  | some e =>
    obtain ⟨l, h1, h2⟩ := Turn.replyConnect_refused hw hn hd hev hf
      ((verdict_withObj s msg).trans hv) hc
    refine ⟨l, h1.log, fun h => by simp at h, fun e' h => ?_⟩
    cases h; exact h2
  | none =>
    obtain ⟨l, h1, h2⟩ := Turn.replyConnect_accepted hw hn hd ((verdict_withObj s msg).trans hv) hc
    exact ⟨l, h1.rooms_eq.2.2, fun _ => h2, fun e' h => by simp at h⟩

example : ∃ (cfg : Cfg) (id : Bytes) (s s' : St) (typ : MsgType) (b : Bytes) (msg : Message),
    Reach cfg id s ∧ Incoming cfg s typ b msg ∧ step cfg s (.recv typ b) = some s' ∧
    msg.event = OnNamespaceConnect ∧ Wanted msg ∧ s'.closed = false ∧
    s.namespace msg.ns = none ∧ (mapGet cfg.decl msg.ns).isSome = true ∧
    connectVerdict cfg s msg = none :=
  ⟨serverCfg chatDecl noCb, b! "1", after _ _ ackOps, _, .text, connReq, connReqMsg,
    after_reach (by decide +kernel), incoming_of (by decide +kernel),
    after_step (by decide +kernel), rfl, ⟨by decide, by decide⟩, by decide +kernel,
    by decide +kernel, by decide +kernel, by decide +kernel⟩

/-- C121, a disconnect request on the server side that is accepted: OnNamespaceDisconnect
runs, then the rooms are left, then the StackExchange is told, and the answer is written
last. When it is refused: OnNamespaceDisconnect, then the error is written. -/
theorem c121_disconnect_server {typ : MsgType} {b : Bytes} {msg : Message} {obj : Nat}
    (hr : Reach cfg id s) (hi : Incoming cfg s typ b msg)
    (hs : step cfg s (.recv typ b) = some s') (hev : msg.event = OnNamespaceDisconnect)
    (hw : Wanted msg) (hcl : cfg.isClient = false) (hn : s.namespace msg.ns = some obj)
    (hc : s'.closed = false) :
    ∃ l, s'.log = s.log ++ l ∧
      (verdict cfg s obj msg = none → ∃ rs : List Bytes, rs.Perm (s.rooms obj) ∧
        Goes cfg l (calls (⟨obj, msg, true, msg.room ∈ s.rooms obj⟩ ::
            rs.flatMap (roomLeft obj msg.ns false true)) ++ notes (discNotes cfg msg.ns) ++
          [.wire false (genEmptyReplyToWait msg.wait)])) ∧
      (∀ e, verdict cfg s obj msg = some e →
        Goes cfg l [.call ⟨obj, msg, true, msg.room ∈ s.rooms obj⟩,
          .wire msg.setBinary (wireOf { msg with err := some e })]) := by
  obtain ⟨rfl, hh⟩ := step_recv hi hs
  rw [dispatch_disconnect hev] at hc hh ⊢
  cases hv : verdict cfg s obj msg with
  | some e =>
    obtain ⟨l, h1, h2⟩ := Turn.replyDisconnect_refused hw hn hcl hv (hi.noExplicit hw.1) hev hc
    rw [reach_linked hr hn] at h2
    refine ⟨l, h1.log, fun h => by simp at h, fun e' h => ?_⟩
    cases h; exact h2
  | none =>
    obtain ⟨l, rs, o, h1, h2, h3, h4⟩ := Turn.replyDisconnect_accepted hw hn hcl hv
      (reach_nsName hr hn) (reach_nodup hr obj) hc hh
    exact ⟨l, h2.rooms_eq.2.2, fun _ => ⟨rs, h1, h3⟩, fun e' h => by simp at h⟩

example : ∃ (cfg : Cfg) (id : Bytes) (s s' : St) (typ : MsgType) (b : Bytes) (msg : Message) (obj : Nat),
    Reach cfg id s ∧ Incoming cfg s typ b msg ∧ step cfg s (.recv typ b) = some s' ∧
    msg.event = OnNamespaceDisconnect ∧ Wanted msg ∧ cfg.isClient = false ∧
    s.namespace msg.ns = some obj ∧ s'.closed = false ∧ s.rooms obj = [b! "r"] ∧
    verdict cfg s obj msg = none :=
  ⟨serverCfg chatDecl noCb, b! "1", after _ _ joinedSrvOps, _, .text,
    b! "$10;chat;;_OnNamespaceDisconnect;0;0;",
    { ns := b! "chat", event := OnNamespaceDisconnect, wait := b! "$10" }, 0,
    after_reach (by decide +kernel), incoming_of (by decide +kernel),
    after_step (by decide +kernel), rfl, ⟨by decide, by decide⟩, rfl, by decide +kernel,
    by decide +kernel, by decide +kernel, by decide +kernel⟩

/-- C121, a disconnect request on the client side: the rooms are left, then the answer is
written, and OnNamespaceDisconnect runs last. -/
theorem c121_disconnect_client {typ : MsgType} {b : Bytes} {msg : Message} {obj : Nat}
    (hr : Reach cfg id s) (hi : Incoming cfg s typ b msg)
    (hs : step cfg s (.recv typ b) = some s') (hev : msg.event = OnNamespaceDisconnect)
    (hw : Wanted msg) (hcl : cfg.isClient = true) (hn : s.namespace msg.ns = some obj)
    (hc : s'.closed = false) :
    ∃ (l : List Obs) (rs : List Bytes), s'.log = s.log ++ l ∧ rs.Perm (s.rooms obj) ∧
      Goes cfg l (calls (rs.flatMap (roomLeft obj msg.ns false true)) ++
        [.wire false (genEmptyReplyToWait msg.wait), .call ⟨obj, msg, false, false⟩]) := by
  obtain ⟨rfl, hh⟩ := step_recv hi hs
  rw [dispatch_disconnect hev] at hc hh ⊢
  obtain ⟨l, rs, o, h1, h2, h3, h4⟩ := Turn.replyDisconnect_client hw hn hcl (reach_nsName hr hn)
    (reach_nodup hr obj) hc hh
  exact ⟨l, rs, h2.rooms_eq.2.2, h1, h3⟩

example : ∃ (cfg : Cfg) (id : Bytes) (s s' : St) (typ : MsgType) (b : Bytes) (msg : Message) (obj : Nat),
    Reach cfg id s ∧ Incoming cfg s typ b msg ∧ step cfg s (.recv typ b) = some s' ∧
    msg.event = OnNamespaceDisconnect ∧ Wanted msg ∧ cfg.isClient = true ∧
    s.namespace msg.ns = some obj ∧ s'.closed = false ∧ s.rooms obj = [b! "r"] :=
  ⟨clientCfg chatDecl stayCb, [], after _ _ joinedOps, _, .text,
    b! "10;chat;;_OnNamespaceDisconnect;0;0;",
    { ns := b! "chat", event := OnNamespaceDisconnect, wait := b! "10" }, 0,
    after_reach (by decide +kernel), incoming_of (by decide +kernel),
    after_step (by decide +kernel), rfl, ⟨by decide, by decide⟩, rfl, by decide +kernel,
    by decide +kernel, by decide +kernel⟩

/-- C121, a join request: OnRoomJoin, OnRoomJoined, and the answer is written last. When it is
refused: OnRoomJoin, then the error is written. -/
theorem c121_join {msg : Message} {obj : Nat} (hr : Reach cfg id s)
    (hs : Handled cfg s msg s') (hev : msg.event = OnRoomJoin) (hw : Wanted msg)
    (hn : s.namespace msg.ns = some obj) (hj : msg.room ∉ s.rooms obj) (hc : s'.closed = false) :
    ∃ l, s'.log = s.log ++ l ∧
      (verdict cfg s obj msg = none →
        Goes cfg l [.call ⟨obj, msg, true, false⟩,
          .call ⟨obj, { msg with event := OnRoomJoined }, true, true⟩,
          .wire false (genEmptyReplyToWait msg.wait)]) ∧
      (∀ e, verdict cfg s obj msg = some e →
        Goes cfg l [.call ⟨obj, msg, true, false⟩,
          .wire msg.setBinary (wireOf { msg with err := some e })]) := by
  obtain ⟨rfl, _, hdec⟩ := handled hr hs (by rw [hev]; decide) (by rw [hev]; decide)
  have hlk : linked { s with rd := .idle } obj = true := reach_linked hr hn
  have hrg := reach_range hr hn
  rw [afterGate_join (t := { s with rd := .idle }) hev hn] at hc ⊢
  cases hv : verdict cfg s obj msg with
  | none =>
    obtain ⟨l, h1, h2⟩ := Turn.replyRoomJoin_accepted (s := { s with rd := .idle }) hw hj hv hrg hc
    rw [hlk] at h2
    exact ⟨l, h1.log, fun _ => h2, fun e h => by simp at h⟩
  | some e =>
    obtain ⟨l, h1, h2⟩ := Turn.replyRoomJoin_refused (s := { s with rd := .idle }) hw hj hv
      (hdec.noExplicit hw.1) hn hev hc
    rw [hlk] at h2
    refine ⟨l, h1.log, fun h => by simp at h, fun e' h => ?_⟩
    cases h; exact h2

example : ∃ (cfg : Cfg) (id : Bytes) (s s' : St) (msg : Message) (obj : Nat),
    Reach cfg id s ∧ Handled cfg s msg s' ∧ msg.event = OnRoomJoin ∧ Wanted msg ∧
    s.namespace msg.ns = some obj ∧ s'.closed = false ∧ msg.room ∉ s.rooms obj ∧
    verdict cfg s obj msg = none :=
  ⟨serverCfg chatDecl noCb, b! "1", _, _, joinReqMsg, 0, after_reach (by decide +kernel),
    handled_of (ops := chatSrvOps) (typ := .text) (b := joinReq) (by decide +kernel)
      (by decide +kernel) (by decide +kernel), rfl, ⟨by decide, by decide⟩, by decide +kernel, by decide +kernel,
    by decide +kernel, by decide +kernel⟩

/-- C121, a leave request on the server side: OnRoomLeave, OnRoomLeft, and the answer is
written last. When it is refused: OnRoomLeave, then the error is written. -/
theorem c121_leave_server {msg : Message} {obj : Nat} (hr : Reach cfg id s)
    (hs : Handled cfg s msg s') (hev : msg.event = OnRoomLeave) (hw : Wanted msg)
    (hcl : cfg.isClient = false) (hn : s.namespace msg.ns = some obj)
    (hj : msg.room ∈ s.rooms obj) (hc : s'.closed = false) :
    ∃ l, s'.log = s.log ++ l ∧
      (verdict cfg s obj msg = none →
        Goes cfg l [.call ⟨obj, msg, true, true⟩,
          .call ⟨obj, { msg with event := OnRoomLeft }, true, false⟩,
          .wire false (genEmptyReplyToWait msg.wait)]) ∧
      (∀ e, verdict cfg s obj msg = some e →
        Goes cfg l [.call ⟨obj, msg, true, true⟩,
          .wire msg.setBinary (wireOf { msg with err := some e })]) := by
  obtain ⟨rfl, _, hdec⟩ := handled hr hs (by rw [hev]; decide) (by rw [hev]; decide)
  have hlk : linked { s with rd := .idle } obj = true := reach_linked hr hn
  rw [afterGate_leave (t := { s with rd := .idle }) hev hn] at hc ⊢
  cases hv : verdict cfg s obj msg with
  | none =>
    obtain ⟨l, h1, h2⟩ := Turn.replyRoomLeave_accepted (s := { s with rd := .idle }) hw hj hcl hv hc
    rw [hlk] at h2
    exact ⟨l, h1.log, fun _ => h2, fun e h => by simp at h⟩
  | some e =>
    obtain ⟨l, h1, h2⟩ := Turn.replyRoomLeave_refused (s := { s with rd := .idle }) hw hj hcl hv
      (hdec.noExplicit hw.1) hn hc
    rw [hlk] at h2
    refine ⟨l, h1.log, fun h => by simp at h, fun e' h => ?_⟩
    cases h; exact h2

example : ∃ (cfg : Cfg) (id : Bytes) (s s' : St) (msg : Message) (obj : Nat),
    Reach cfg id s ∧ Handled cfg s msg s' ∧ msg.event = OnRoomLeave ∧ Wanted msg ∧
    cfg.isClient = false ∧ s.namespace msg.ns = some obj ∧ s'.closed = false ∧
    msg.room ∈ s.rooms obj ∧ verdict cfg s obj msg = none :=
  ⟨serverCfg chatDecl noCb, b! "1", _, _, leaveReqMsg, 0, after_reach (by decide +kernel),
    handled_of (ops := joinedSrvOps) (typ := .text) (b := leaveReq) (by decide +kernel)
      (by decide +kernel) (by decide +kernel), rfl, ⟨by decide, by decide⟩, rfl,
    by decide +kernel, by decide +kernel, by decide +kernel, by decide +kernel⟩

/-- C121, a leave request on the client side: OnRoomLeave runs, then the answer is written,
then OnRoomLeft runs. -/
theorem c121_leave_client {msg : Message} {obj : Nat} (hr : Reach cfg id s)
    (hs : Handled cfg s msg s') (hev : msg.event = OnRoomLeave) (hw : Wanted msg)
    (hcl : cfg.isClient = true) (hn : s.namespace msg.ns = some obj)
    (hj : msg.room ∈ s.rooms obj) (hc : s'.closed = false) :
    ∃ l, s'.log = s.log ++ l ∧
      Goes cfg l [.call ⟨obj, msg, true, true⟩, .wire false (genEmptyReplyToWait msg.wait),
        .call ⟨obj, { msg with event := OnRoomLeft }, true, false⟩] := by
  obtain ⟨rfl, _, hdec⟩ := handled hr hs (by rw [hev]; decide) (by rw [hev]; decide)
  have hlk : linked { s with rd := .idle } obj = true := reach_linked hr hn
  rw [afterGate_leave (t := { s with rd := .idle }) hev hn] at hc ⊢
  obtain ⟨l, h1, h2⟩ := Turn.replyRoomLeave_client (s := { s with rd := .idle }) hw hj hcl hc
  rw [hlk] at h2
  exact ⟨l, h1.log, h2⟩

example : ∃ (cfg : Cfg) (id : Bytes) (s s' : St) (msg : Message) (obj : Nat),
    Reach cfg id s ∧ Handled cfg s msg s' ∧ msg.event = OnRoomLeave ∧ Wanted msg ∧
    cfg.isClient = true ∧ s.namespace msg.ns = some obj ∧ s'.closed = false ∧
    msg.room ∈ s.rooms obj :=
  ⟨clientCfg chatDecl stayCb, [], _, _, { leaveReqMsg with wait := b! "10" }, 0,
    after_reach (by decide +kernel),
    handled_of (ops := joinedOps) (typ := .text) (b := b! "10;chat;r;_OnRoomLeave;0;0;")
      (by decide +kernel) (by decide +kernel) (by decide +kernel), rfl, ⟨by decide, by decide⟩, rfl,
    by decide +kernel, by decide +kernel, by decide +kernel⟩

/-- C121, a call that goes on with a good answer: its callbacks run, then the StackExchange is
told, and the call returns last. -/
theorem c121_answer {i : Nat} {a : AskRec} {m : Message} (hr : Reach cfg id s)
    (ha : s.asks[i]? = some a) (hb : a.box = some m) (hm : m.err = none)
    (hs : step cfg s (.resume i) = some s') (hc : s'.closed = false) :
    ∃ l, s'.log = s.log ++ l ∧
      (∀ ns obj, a.cont = .connect ns obj →
        Goes cfg l ([.call ⟨obj, { connectMsg ns with event := OnNamespaceConnected }, true,
          [] ∈ s.rooms obj⟩] ++ notes (connNotes cfg ns) ++
          [.ret (.connect ns obj) (.nsConn obj)])) ∧
      (∀ obj msg, a.cont = .disconnect obj msg → ∃ rs : List Bytes, rs.Perm (s.rooms obj) ∧
        Goes cfg l (calls (rs.flatMap (roomLeft obj msg.ns true (linked s obj)) ++
          [⟨obj, { msg with isLocal := true }, false, false⟩]) ++ notes (discNotes cfg msg.ns) ++
          [.ret (.disconnect obj msg) .ok])) ∧
      (∀ obj msg, a.cont = .join obj msg →
        (verdict cfg s obj msg = none →
          Goes cfg l [.call ⟨obj, msg, linked s obj, msg.room ∈ s.rooms obj⟩,
            .call ⟨obj, { msg with event := OnRoomJoined }, linked s obj, true⟩,
            .ret (.join obj msg) (.room obj msg.room)]) ∧
        (∀ e, verdict cfg s obj msg = some e →
          Goes cfg l [.call ⟨obj, msg, linked s obj, msg.room ∈ s.rooms obj⟩,
            .ret (.join obj msg) (.err e)])) ∧
      (∀ obj msg, a.cont = .leave obj msg →
        (verdict cfg s obj msg = none →
          Goes cfg l [.call ⟨obj, msg, linked s obj, msg.room ∈ s.rooms obj⟩,
            .call ⟨obj, { msg with event := OnRoomLeft }, linked s obj, false⟩,
            .ret (.leave obj msg) .ok]) ∧
        (∀ e, verdict cfg s obj msg = some e →
          Goes cfg l [.call ⟨obj, msg, linked s obj, msg.room ∈ s.rooms obj⟩,
            .ret (.leave obj msg) (.err e)])) ∧
      (a.cont = .user → l = [.ret .user (.answer m none)]) := by
  obtain ⟨rfl, hh⟩ := step_resume ha hb hs
  rw [hm] at hc hh ⊢
  obtain ⟨f1, f2, f3, f4, _⟩ := resumed_fields s i a
  have hlk : ∀ obj, linked (resumed s i a) obj = linked s obj := by
    intro obj
    unfold linked St.namespace; rw [nsName_congr f1, f2]
  have hok := (reach_ok hr).1 a (List.mem_of_getElem? ha)
  have hname : ∀ obj n, s.objs[obj]?.map (·.ns) = some n → (resumed s i a).nsName obj = n ∧
      obj < s.objs.length := by
    intro obj n hx
    rw [nsName_congr f1]
    unfold St.nsName
    cases hy : s.objs[obj]? with
    | none => rw [hy] at hx; simp at hx
    | some o => rw [hy] at hx; exact ⟨by simpa using hx, (List.getElem?_eq_some_iff.mp hy).1⟩
  cases hk : a.cont with
  | connect ns obj =>
    rw [hk] at hc hh hok
    obtain ⟨l, h1, h2, h3, h4⟩ := Turn.finish_connect_ok (m := m) (hname _ _ hok.2.1).1 hc
    refine ⟨l, by rw [h3, f3], ?_, fun _ _ h => (by simp at h), fun _ _ h => (by simp at h),
      fun _ _ h => (by simp at h), fun h => (by simp at h)⟩
    intro ns' obj' h
    cases h
    rw [rooms_congr f1] at h4
    exact h4
  | disconnect obj msg =>
    rw [hk] at hc hh hok
    have hnd : ((resumed s i a).rooms obj).Nodup := by rw [rooms_congr f1]; exact reach_nodup hr obj
    obtain ⟨l, rs, h1, h2, h3, h4, h5⟩ :=
      Turn.finish_disconnect_ok (m := m) (hname _ _ hok.1).1 hnd hc hh
    rw [rooms_congr f1] at h1
    rw [hlk] at h5
    refine ⟨l, by rw [h3, f3], fun _ _ h => (by simp at h), ?_, fun _ _ h => (by simp at h),
      fun _ _ h => (by simp at h), fun h => (by simp at h)⟩
    intro obj' msg' h
    cases h
    exact ⟨rs, h1, h5⟩
  | join obj msg =>
    rw [hk] at hc hh hok
    have hvc := verdict_congr (cfg := cfg) f3 f1 obj msg
    cases hv : verdict cfg s obj msg with
    | some e =>
      obtain ⟨l, h1, h2⟩ := Turn.finish_join_veto (m := m) (hvc.trans hv) hc
      refine ⟨l, by rw [h1.log, f3], fun _ _ h => (by simp at h), fun _ _ h => (by simp at h), ?_,
        fun _ _ h => (by simp at h), fun h => (by simp at h)⟩
      intro obj' msg' h
      cases h
      rw [hlk, rooms_congr f1] at h2
      refine ⟨fun h => ?_, fun e' h => ?_⟩
      · rw [hv] at h; simp at h
      · rw [hv] at h; cases h; exact h2
    | none =>
      obtain ⟨l, h1, h2⟩ := Turn.finish_join_ok (m := m) (s := resumed s i a)
        (by rw [f1]; exact (hname _ _ hok.1).2) (hvc.trans hv) hc
      refine ⟨l, by rw [h1.log]; exact congrArg (· ++ l) f3, fun _ _ h => (by simp at h),
        fun _ _ h => (by simp at h), ?_, fun _ _ h => (by simp at h), fun h => (by simp at h)⟩
      intro obj' msg' h
      cases h
      rw [hlk, rooms_congr f1] at h2
      refine ⟨fun _ => h2, fun e' h => ?_⟩
      rw [hv] at h; simp at h
  | leave obj msg =>
    rw [hk] at hc hh hok
    have hvc := verdict_congr (cfg := cfg) f3 f1 obj msg
    cases hv : verdict cfg s obj msg with
    | some e =>
      obtain ⟨l, h1, h2⟩ := Turn.finish_leave_veto (m := m) (hvc.trans hv) hc
      refine ⟨l, by rw [h1.log, f3], fun _ _ h => (by simp at h), fun _ _ h => (by simp at h),
        fun _ _ h => (by simp at h), ?_, fun h => (by simp at h)⟩
      intro obj' msg' h
      cases h
      rw [hlk, rooms_congr f1] at h2
      refine ⟨fun h => ?_, fun e' h => ?_⟩
      · rw [hv] at h; simp at h
      · rw [hv] at h; cases h; exact h2
    | none =>
      obtain ⟨l, h1, h2⟩ := Turn.finish_leave_ok (m := m) (s := resumed s i a) (hvc.trans hv) hc
      refine ⟨l, by rw [h1.log]; exact congrArg (· ++ l) f3, fun _ _ h => (by simp at h),
        fun _ _ h => (by simp at h), fun _ _ h => (by simp at h), ?_, fun h => (by simp at h)⟩
      intro obj' msg' h
      cases h
      rw [hlk, rooms_congr f1] at h2
      refine ⟨fun _ => h2, fun e' h => ?_⟩
      rw [hv] at h; simp at h
  | user =>
    refine ⟨[.ret .user (.answer m none)], ?_, fun _ _ h => (by simp at h), fun _ _ h => (by simp at h),
      fun _ _ h => (by simp at h), fun _ _ h => (by simp at h), fun _ => rfl⟩
    simp [finish, St.emit, f3]

example : ∃ (cfg : Cfg) (id : Bytes) (s s' : St) (a : AskRec) (msg m : Message) (obj : Nat),
    Reach cfg id s ∧ s.asks[1]? = some a ∧ a.cont = .join obj msg ∧ a.box = some m ∧
    m.err = none ∧ verdict cfg s obj msg = none ∧
    step cfg s (.resume 1) = some s' ∧ s'.closed = false :=
  ⟨clientCfg chatDecl noCb, [], after _ _ joinAnsOps, _, joinAsk, _, _, _,
    after_reach (by decide +kernel), by decide +kernel, rfl, rfl, rfl, by decide +kernel,
    after_step (by decide +kernel), by decide +kernel⟩

/-- C121, any other event: its callback runs, then the error, if there is one and the
connection may write it, is written. -/
theorem c121_event {msg : Message} {obj : Nat} (hr : Reach cfg id s)
    (hs : Handled cfg s msg s') (h1 : msg.event ≠ OnNamespaceConnect)
    (h2 : msg.event ≠ OnNamespaceDisconnect) (h3 : msg.event ≠ OnRoomJoin)
    (h4 : msg.event ≠ OnRoomLeave) (hn : s.namespace msg.ns = some obj) (hc : s'.closed = false) :
    ∃ l, s'.log = s.log ++ l ∧
      (∀ e, verdict cfg s obj { msg with isLocal := false } = some e → MayWrite cfg s msg →
        Goes cfg l [.call ⟨obj, { msg with isLocal := false }, true, msg.room ∈ s.rooms obj⟩,
          .wire msg.setBinary (wireOf { msg with isLocal := false, err := some e })]) ∧
      (verdict cfg s obj { msg with isLocal := false } = none ∨ ¬ MayWrite cfg s msg →
        Goes cfg l [.call ⟨obj, { msg with isLocal := false }, true, msg.room ∈ s.rooms obj⟩]) := by
  obtain ⟨rfl, _, hdec⟩ := handled hr hs h1 h2
  have hlk : linked { s with rd := .idle } obj = true := reach_linked hr hn
  have hd : afterGate cfg { s with rd := .idle } msg = handleEvent cfg { s with rd := .idle } obj msg := by
    unfold afterGate
    have hn' : ({ s with rd := .idle } : St).namespace msg.ns = some obj := hn
    rw [hn']
    simp only
    rw [if_neg h3, if_neg h4]
  rw [hd] at hc ⊢
  cases hv : verdict cfg s obj { msg with isLocal := false } with
  | none =>
    obtain ⟨l, e1, e2⟩ := Turn.handleEvent_ok (s := { s with rd := .idle }) hv hc
    rw [hlk] at e2
    exact ⟨l, e1.log, fun e h => by simp at h, fun _ => e2⟩
  | some e =>
    have hx := Turn.handleEvent_err (s := { s with rd := .idle }) hv hc
    by_cases hm : MayWrite cfg s msg
    · obtain ⟨l, e1, e2⟩ := hx.1 hm
      rw [hlk] at e2
      refine ⟨l, e1.log, fun e' h _ => ?_, fun h => ?_⟩
      · cases h; exact e2
      · rcases h with h | h
        · simp at h
        · exact absurd hm h
    · obtain ⟨l, e1, e2⟩ := hx.2 hm
      rw [hlk] at e2
      exact ⟨l, e1.log, fun e' _ h => absurd h hm, fun _ => e2⟩

example : ∃ (cfg : Cfg) (id : Bytes) (s s' : St) (msg : Message) (obj : Nat) (e : GoErr),
    Reach cfg id s ∧ Handled cfg s msg s' ∧ msg.event = b! "ask" ∧
    s.namespace msg.ns = some obj ∧ msg.room ∈ s.rooms obj ∧
    verdict cfg s obj { msg with isLocal := false } = some e ∧ s'.closed = false :=
  ⟨serverCfg chatDecl failCb, b! "1", _, _,
    { ns := b! "chat", room := b! "r", event := b! "ask", wait := b! "$10" }, 0, .text (b! "no"),
    after_reach (by decide +kernel),
    handled_of (ops := joinedSrvOps) (typ := .text) (b := b! "$10;chat;r;ask;0;0;")
      (by decide +kernel) (by decide +kernel) (by decide +kernel), rfl,
    by decide +kernel, by decide +kernel, by decide +kernel, by decide +kernel⟩

/-- C121, a call to Connect for a namespace that is declared and not connected: OnNamespaceConnect of the own side runs
first; if it returns nil the request is written after it, if it returns an error nothing is and the call
returns the error. -/
theorem c121_call_connect {ns : Bytes} {now : Int} (hn : cfg.onlyNative = false)
    (ha : cfg.isClient = true ∨ s.acked = true) (hnm : s.namespace ns = none)
    (hd : (mapGet cfg.decl ns).isSome = true)
    (hs : step cfg s (.connect ns now false) = some s') (hc : s'.closed = false) :
    ∃ l, s'.log = s.log ++ l ∧
      (∀ e, connectVerdict cfg s (connectMsg ns) = some e →
        Goes cfg l [.call ⟨s.objs.length, connectMsg ns, false, false⟩,
          .ret (.connect ns s.objs.length) (.err e)]) ∧
      (connectVerdict cfg s (connectMsg ns) = none → ∃ rs,
        (rs = [] ∨ rs = [.ret (.connect ns s.objs.length) (.err errWrite)]) ∧
        Goes cfg l ([.call ⟨s.objs.length, connectMsg ns, false, false⟩,
          .wire false (wireOf { connectMsg ns with wait := genWait cfg.isClient now })] ++ rs)) := by
  obtain ⟨he, _⟩ := step_exec hs
  simp only [exec, Option.some.injEq] at he
  subst he
  have hg : ∃ g r, gateStart (s.markReady cfg) ns = { s with ready := r, gates := g } := by
    rw [markReady_eq]; exact ⟨_, _, rfl⟩
  obtain ⟨g, r, hg⟩ := hg
  have hack : (s.markReady cfg).acked = s.acked := by rw [markReady_eq]
  unfold connect at hc ⊢
  dsimp only at hc ⊢
  rw [if_neg (by rw [hack]; rcases ha with h | h <;> simp [h]), hg] at hc ⊢
  have e1 : ({ s with ready := r, gates := g } : St).namespace ns = s.namespace ns := rfl
  obtain ⟨evs, hd⟩ := Option.isSome_iff_exists.mp hd
  rw [e1, hnm, hd] at hc ⊢
  simp only [newObj] at hc ⊢
  let t : St := withObj { s with ready := r, gates := g } ns
  have hv : verdict cfg t s.objs.length (connectMsg ns) = connectVerdict cfg s (connectMsg ns) :=
    verdict_withObj (cfg := cfg) { s with ready := r, gates := g } (connectMsg ns)
  have hlk : linked t s.objs.length = false :=
    linked_withObj (s := { s with ready := r, gates := g }) hnm
  have hrm : ([] : Bytes) ∉ t.rooms s.objs.length := by
    simp [t, withObj, St.rooms]
  change (match fire cfg t s.objs.length (connectMsg ns) with
    | (s_1, some e) => gateDone (s_1.emit (.ret (.connect ns s.objs.length) (.err e))) ns
    | (s_1, none) => startAsk cfg s_1 (.connect ns s.objs.length) (connectMsg ns) now false).closed
      = false at hc
  change ∃ l, (match fire cfg t s.objs.length (connectMsg ns) with
    | (s_1, some e) => gateDone (s_1.emit (.ret (.connect ns s.objs.length) (.err e))) ns
    | (s_1, none) => startAsk cfg s_1 (.connect ns s.objs.length) (connectMsg ns) now false).log
      = _ ∧ _
  have hfs := fire_snd (cfg := cfg) t s.objs.length (connectMsg ns)
  have hfa := Turn.fire_any (cfg := cfg) (s := t) (obj := s.objs.length) (msg := connectMsg ns)
  rw [hv] at hfs
  rw [hlk] at hfa
  revert hc hfs hfa
  generalize fire cfg t s.objs.length (connectMsg ns) = q
  obtain ⟨u, ret⟩ := q
  intro hc hfs hfa
  dsimp only at hfs hfa
  have hin : (decide ((connectMsg ns).room ∈ t.rooms s.objs.length)) = false := decide_eq_false hrm
  rw [hin] at hfa
  cases ret with
  | some e =>
    dsimp only at hc ⊢
    obtain ⟨g1, g2, g3, g4, _⟩ := gateDone_fields
      (u.emit (.ret (.connect ns s.objs.length) (.err e))) ns
    rw [g4] at hc
    obtain ⟨l, h1, h2⟩ := hfa hc
    refine ⟨l ++ [.ret (.connect ns s.objs.length) (.err e)], ?_, fun e' h => ?_, fun h => ?_⟩
    · rw [g3]
      show u.log ++ _ = _
      rw [h1.log]; simp [t, withObj]
    · rw [h] at hfs
      cases hfs
      exact h2.append (.ret1 _ _)
    · rw [h] at hfs; simp at hfs
  | none =>
    dsimp only at hc ⊢
    have hcu := startAsk_was_open hn hc
    obtain ⟨l, h1, h2⟩ := hfa hcu
    obtain ⟨_, _, k3, _⟩ := startAsk_open hn (by simp) hcu hc
    obtain ⟨ok, k3⟩ := k3 ⟨hcu, fun h => h.1 rfl, Or.inl rfl⟩
    refine ⟨l ++ askLog (.connect ns s.objs.length) false
      (wireOf { connectMsg ns with wait := genWait cfg.isClient now }) ok, ?_, fun e' h => ?_, fun h => ?_⟩
    · rw [k3, h1.log]; simp [t, withObj, connectMsg]
    · rw [h] at hfs; simp at hfs
    · cases ok with
      | true => exact ⟨[], .inl rfl, h2.append (.wire .nil)⟩
      | false => exact ⟨_, .inr rfl, h2.append (.wire (.ret .nil))⟩

example : ∃ (cfg : Cfg) (id : Bytes) (s s' : St) (ns : Bytes), Reach cfg id s ∧
    cfg.onlyNative = false ∧ cfg.isClient = true ∧ s.namespace ns = none ∧ (mapGet cfg.decl ns).isSome = true ∧
    step cfg s (.connect ns 7 false) = some s' ∧ s'.closed = false ∧
    connectVerdict cfg s (connectMsg ns) = none :=
  ⟨clientCfg chatDecl noCb, [], after _ _ [.recv .text (b! "A1")], _, b! "chat",
    after_reach (by decide +kernel), by decide +kernel, rfl, by decide +kernel, by decide +kernel,
    after_step (by decide +kernel), by decide +kernel, by decide +kernel⟩

end Neffos
