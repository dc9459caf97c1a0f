import Verif.Props.Rooms
/-!
# C15, C19: connecting and disconnecting namespaces, one side

Both sides together are in `Props/Session.lean`.
-/
set_option autoImplicit false
namespace Neffos
open Spec

variable {cfg : Cfg} {id : Bytes} {s s' : St}

theorem verdict_withObj (s : St) (msg : Message) :
    verdict cfg (withObj s msg.ns) s.objs.length msg = connectVerdict cfg s msg := by
  have hn : (withObj s msg.ns).nsName s.objs.length = msg.ns := by simp [withObj, St.nsName]
  unfold verdict connectVerdict
  rw [hn]
  rfl

theorem rooms_append (s : St) (ns : Bytes) (i : Nat) :
    ({ s with objs := s.objs ++ [⟨ns, []⟩] } : St).rooms i = s.rooms i := by
  unfold St.rooms
  simp only
  rcases Nat.lt_trichotomy i s.objs.length with h | h | h
  · rw [List.getElem?_append_left h]
  · subst h; simp
  · have h1 : s.objs[i]? = none := by simp; omega
    have h2 : (s.objs ++ [(⟨ns, []⟩ : NSObj)])[i]? = none := by simp; omega
    rw [h1, h2]

theorem reach_nodup (hr : Reach cfg id s) (obj : Nat) : (s.rooms obj).Nodup := by
  unfold St.rooms
  cases h : s.objs[obj]? with
  | none => simp
  | some o => exact reach_rooms hr o (List.mem_of_getElem? h)

theorem dispatch_connect {t : St} {msg : Message} (hev : msg.event = OnNamespaceConnect) :
    dispatch cfg t msg = replyConnect cfg t msg := by
  unfold dispatch; rw [if_pos hev]

theorem dispatch_disconnect {t : St} {msg : Message} (hev : msg.event = OnNamespaceDisconnect) :
    dispatch cfg t msg = replyDisconnect cfg t msg := by
  unfold dispatch; rw [if_neg (by rw [hev]; decide), if_pos hev]

/-! ## C15 -/

/-- C15, an incoming connect request. A namespace that is connected already: an empty answer
and nothing else. Otherwise the namespace becomes connected, with a new NSConn that is in no
room, exactly when it is declared and OnNamespaceConnect returned nil; nothing else changes.
Not declared: no callback, ErrBadNamespace is the answer. Refused: OnNamespaceConnect only,
before the namespace is connected, and its error is the answer. Accepted: OnNamespaceConnect
before, OnNamespaceConnected after the namespace is connected, and an empty answer. -/
theorem c15_incoming {typ : MsgType} {b : Bytes} {msg : Message} (hi : Incoming cfg s typ b msg)
    (hs : step cfg s (.recv typ b) = some s') (hev : msg.event = OnNamespaceConnect)
    (hw : Wanted msg) (hc : s'.closed = false) :
    (∀ n, s'.namespace n =
      if n = msg.ns ∧ s.namespace msg.ns = none ∧ (mapGet cfg.decl msg.ns).isSome = true ∧
        connectVerdict cfg s msg = none
      then some s.objs.length else s.namespace n) ∧
    (∀ i, s'.rooms i = s.rooms i) ∧
    ∃ l, s'.log = s.log ++ l ∧
      (s.namespace msg.ns ≠ none →
        Adds cfg l [] [(false, genEmptyReplyToWait msg.wait)] [] []) ∧
      (s.namespace msg.ns = none → mapGet cfg.decl msg.ns = none →
        Adds cfg l [] [(msg.setBinary, wireOf { msg with err := some errBadNamespace })] [] []) ∧
      (∀ e, s.namespace msg.ns = none → (mapGet cfg.decl msg.ns).isSome = true →
        connectVerdict cfg s msg = some e →
        Adds cfg l [⟨s.objs.length, msg, false, false⟩]
          [(msg.setBinary, wireOf { msg with err := some e })] [] []) ∧
      (s.namespace msg.ns = none → (mapGet cfg.decl msg.ns).isSome = true →
        connectVerdict cfg s msg = none →
        Adds cfg l [⟨s.objs.length, msg, false, false⟩,
            ⟨s.objs.length, { msg with event := OnNamespaceConnected }, true, false⟩]
          [(false, genEmptyReplyToWait msg.wait)] [] (connNotes cfg msg.ns)) := by
  obtain ⟨rfl, _⟩ := step_recv hi hs
  rw [dispatch_connect hev] at hc ⊢
  have hf := hi.noExplicit hw.1
  cases hn : s.namespace msg.ns with
  | some o =>
    obtain ⟨l, h1, h2⟩ := replyConnect_connected hw hn hc
    refine ⟨fun n => ?_, fun i => h1.rooms i, l, h1.log, fun _ => h2, fun h => by simp at h,
      fun _ h => by simp at h, fun h => by simp at h⟩
    rw [h1.namespace]; simp
  | none =>
    cases hd : mapGet cfg.decl msg.ns with
    | none =>
      obtain ⟨l, h1, h2⟩ := replyConnect_undeclared hw hn hd hev hf hc
      refine ⟨fun n => ?_, fun i => h1.rooms i, l, h1.log, fun h => absurd rfl h, fun _ _ => h2,
        fun _ _ h => by simp at h, fun _ h => by simp at h⟩
      rw [h1.namespace]; simp
    | some evs =>
      cases hv : connectVerdict cfg s msg with
      | some e =>
        obtain ⟨l, h1, h2⟩ := replyConnect_refused hw hn hd hev hf
          ((verdict_withObj s msg).trans hv) hc
        refine ⟨fun n => ?_, fun i => (h1.rooms i).trans (rooms_append s msg.ns i), l, h1.log,
          fun h => absurd rfl h, fun _ h => by simp at h, fun e' _ _ h => ?_, fun _ _ h => by simp at h⟩
        · rw [h1.namespace]; simp [withObj, St.namespace]
        · cases h; exact h2
      | none =>
        obtain ⟨l, h1, h2⟩ := replyConnect_accepted hw hn hd ((verdict_withObj s msg).trans hv) hc
        obtain ⟨r1, r2, r3⟩ := h1.rooms_eq
        refine ⟨fun n => ?_, fun i => ?_, l, r3, fun h => absurd rfl h, fun _ h => by simp at h,
          fun e' _ _ h => by simp at h, fun _ _ _ => h2⟩
        · unfold St.namespace
          rw [r2, mapGet_mapSet]
          by_cases hx : n = msg.ns <;> simp [hx]
        · have := rooms_congr (s := { s with objs := s.objs ++ [⟨msg.ns, []⟩] })
            (t := replyConnect cfg s msg) r1 i
          rw [this]; exact rooms_append s msg.ns i

/-- a server-side connection gets a connect request for `chat` -/
def connReq : Bytes := b! "$7;chat;;_OnNamespaceConnect;0;0;"

def connReqMsg : Message := { ns := b! "chat", event := OnNamespaceConnect, wait := b! "$7" }

def ackOps : List Op := [.ready none, .recv .text (b! "M")]

/-- refuses to connect -/
def denyCb : List Obs → Nat → Bytes → Message → List Act × Option GoErr :=
  fun _ _ _ msg => ([], if msg.event = OnNamespaceConnect then some (.text (b! "no")) else none)

example : ∃ (cfg : Cfg) (id : Bytes) (s s' : St) (typ : MsgType) (b : Bytes) (msg : Message),
    Reach cfg id s ∧ Incoming cfg s typ b msg ∧ step cfg s (.recv typ b) = some s' ∧
    msg.event = OnNamespaceConnect ∧ Wanted msg ∧ s'.closed = false ∧
    s.namespace msg.ns = none ∧ (mapGet cfg.decl msg.ns).isSome = true ∧
    connectVerdict cfg s msg = none :=
  ⟨serverCfg chatDecl noCb, b! "1", after _ _ ackOps, _, .text, connReq, connReqMsg,
    after_reach (by decide +kernel), incoming_of (by decide +kernel),
    after_step (by decide +kernel), rfl, ⟨by decide, by decide⟩, by decide +kernel,
    by decide +kernel, by decide +kernel, by decide +kernel⟩

example : ∃ (cfg : Cfg) (id : Bytes) (s s' : St) (typ : MsgType) (b : Bytes) (msg : Message) (e : GoErr),
    Reach cfg id s ∧ Incoming cfg s typ b msg ∧ step cfg s (.recv typ b) = some s' ∧
    msg.event = OnNamespaceConnect ∧ Wanted msg ∧ s'.closed = false ∧
    s.namespace msg.ns = none ∧ (mapGet cfg.decl msg.ns).isSome = true ∧
    connectVerdict cfg s msg = some e :=
  ⟨serverCfg chatDecl denyCb, b! "1", after _ _ ackOps, _, .text, connReq, connReqMsg,
    .text (b! "no"), after_reach (by decide +kernel), incoming_of (by decide +kernel),
    after_step (by decide +kernel), rfl, ⟨by decide, by decide⟩, by decide +kernel,
    by decide +kernel, by decide +kernel, by decide +kernel⟩

/-- the message of a Connect call -/
def connectMsg (ns : Bytes) : Message := { ns := ns, event := OnNamespaceConnect, isLocal := true }

/-- C15, the call. Connected already: it returns the NSConn and nothing else happens.
Not declared: ErrBadNamespace, no callback and no message. Vetoed by the local
OnNamespaceConnect: its error, no message. Otherwise one request is sent, after the
callback. In every case nothing is connected or joined by the call itself. -/
theorem c15_call {ns : Bytes} {now : Int} (hn : cfg.onlyNative = false)
    (ha : cfg.isClient = true ∨ s.acked = true)
    (hs : step cfg s (.connect ns now false) = some s') (hc : s'.closed = false) :
    (∀ n, s'.namespace n = s.namespace n) ∧ (∀ i, s'.rooms i = s.rooms i) ∧
    ∃ l, s'.log = s.log ++ l ∧
      (∀ obj, s.namespace ns = some obj → l = [.ret (.connect ns obj) (.nsConn obj)]) ∧
      (s.namespace ns = none → mapGet cfg.decl ns = none →
        l = [.ret (.connect ns s.objs.length) (.err errBadNamespace)]) ∧
      (∀ e, s.namespace ns = none → (mapGet cfg.decl ns).isSome = true →
        connectVerdict cfg s (connectMsg ns) = some e →
        Adds cfg l [⟨s.objs.length, connectMsg ns, false, false⟩] []
          [(.connect ns s.objs.length, .err e)] []) ∧
      (s.namespace ns = none → (mapGet cfg.decl ns).isSome = true →
        connectVerdict cfg s (connectMsg ns) = none → ∃ rs,
        (rs = [] ∨ rs = [(.connect ns s.objs.length, .err errWrite)]) ∧
        Adds cfg l [⟨s.objs.length, connectMsg ns, false, false⟩]
          [(false, wireOf { connectMsg ns with wait := genWait cfg.isClient now })] rs []) := by
  obtain ⟨he, _⟩ := step_exec hs
  simp only [exec, Option.some.injEq] at he
  subst he
  have hg : ∃ g r, gateStart (s.markReady cfg) ns = { s with ready := r, gates := g } := by
    rw [markReady_eq]; exact ⟨_, _, rfl⟩
  obtain ⟨g, r, hg⟩ := hg
  have hack : (s.markReady cfg).acked = s.acked := by rw [markReady_eq]
  unfold connect at hc ⊢
  dsimp only at hc ⊢
  rw [if_neg (by rw [hack]; rcases ha with h | h <;> simp [h]), hg] at hc ⊢
  have e1 : ({ s with ready := r, gates := g } : St).namespace ns = s.namespace ns := rfl
  rw [e1] at hc ⊢
  cases hnm : s.namespace ns with
  | some obj =>
    rw [hnm] at hc
    dsimp only at hc ⊢
    obtain ⟨g1, g2, g3, g4, _⟩ := gateDone_fields
      (({ s with ready := r, gates := g } : St).emit (.ret (.connect ns obj) (.nsConn obj))) ns
    refine ⟨fun n => ?_, fun i => ?_, _, g3, fun o h => ?_, fun h => by simp at h,
      fun _ h => by simp at h, fun h => by simp at h⟩
    · unfold St.namespace; rw [g2]; rfl
    · rw [rooms_congr g1]; rfl
    · cases h; rfl
  | none =>
    rw [hnm] at hc
    dsimp only at hc ⊢
    cases hd : mapGet cfg.decl ns with
    | none =>
      rw [hd] at hc
      dsimp only at hc ⊢
      obtain ⟨g1, g2, g3, g4, _⟩ := gateDone_fields
        (({ s with ready := r, gates := g } : St).emit
          (.ret (.connect ns s.objs.length) (.err errBadNamespace))) ns
      refine ⟨fun n => ?_, fun i => ?_, _, g3, fun o h => by simp at h, fun _ _ => rfl,
        fun _ _ h => by simp at h, fun _ h => by simp at h⟩
      · unfold St.namespace; rw [g2]; rfl
      · rw [rooms_congr g1]; rfl
    | some evs =>
      rw [hd] at hc
      simp only [newObj] at hc ⊢
      let t : St := withObj { s with ready := r, gates := g } ns
      have hv : verdict cfg t s.objs.length (connectMsg ns) = connectVerdict cfg s (connectMsg ns) :=
        verdict_withObj (cfg := cfg) { s with ready := r, gates := g } (connectMsg ns)
      have hlk : linked t s.objs.length = false :=
        linked_withObj (s := { s with ready := r, gates := g }) hnm
      have hrm : ([] : Bytes) ∉ t.rooms s.objs.length := by
        simp [t, withObj, St.rooms]
      have hts : ∀ i, t.rooms i = s.rooms i := fun i =>
        rooms_append ({ s with ready := r, gates := g } : St) ns i
      change (match fire cfg t s.objs.length (connectMsg ns) with
        | (s_1, some e) => gateDone (s_1.emit (.ret (.connect ns s.objs.length) (.err e))) ns
        | (s_1, none) => startAsk cfg s_1 (.connect ns s.objs.length) (connectMsg ns) now false).closed
          = false at hc
      change (∀ n, (match fire cfg t s.objs.length (connectMsg ns) with
        | (s_1, some e) => gateDone (s_1.emit (.ret (.connect ns s.objs.length) (.err e))) ns
        | (s_1, none) => startAsk cfg s_1 (.connect ns s.objs.length) (connectMsg ns) now false).namespace n
          = _) ∧ (∀ i, (match fire cfg t s.objs.length (connectMsg ns) with
        | (s_1, some e) => gateDone (s_1.emit (.ret (.connect ns s.objs.length) (.err e))) ns
        | (s_1, none) => startAsk cfg s_1 (.connect ns s.objs.length) (connectMsg ns) now false).rooms i
          = _) ∧ ∃ l, (match fire cfg t s.objs.length (connectMsg ns) with
        | (s_1, some e) => gateDone (s_1.emit (.ret (.connect ns s.objs.length) (.err e))) ns
        | (s_1, none) => startAsk cfg s_1 (.connect ns s.objs.length) (connectMsg ns) now false).log
          = _ ∧ _
      have hfs := fire_snd (cfg := cfg) t s.objs.length (connectMsg ns)
      have hfa := fire_any (cfg := cfg) (s := t) (obj := s.objs.length) (msg := connectMsg ns)
      rw [hv] at hfs
      rw [hlk] at hfa
      revert hc hfs hfa
      generalize fire cfg t s.objs.length (connectMsg ns) = q
      obtain ⟨u, ret⟩ := q
      intro hc hfs hfa
      dsimp only at hfs hfa
      have hin : (decide ((connectMsg ns).room ∈ t.rooms s.objs.length)) = false := by
        exact decide_eq_false hrm
      rw [hin] at hfa
      cases ret with
      | some e =>
        dsimp only at hc ⊢
        obtain ⟨g1, g2, g3, g4, _⟩ := gateDone_fields
          (u.emit (.ret (.connect ns s.objs.length) (.err e))) ns
        rw [g4] at hc
        obtain ⟨l, h1, h2⟩ := hfa hc
        refine ⟨fun n => ?_, fun i => ?_, l ++ [.ret (.connect ns s.objs.length) (.err e)], ?_,
          fun o h => by simp at h, fun _ h => by simp at h, fun e' _ _ h => ?_, fun _ _ h => ?_⟩
        · show mapGet _ n = _
          rw [g2]; exact h1.namespace n
        · rw [rooms_congr g1]; exact (h1.rooms i).trans (hts i)
        · rw [g3]
          show u.log ++ _ = _
          rw [h1.log]; simp [t, withObj]
        · rw [h] at hfs
          cases hfs
          simpa using h2.right (Adds.ret1 (.connect ns s.objs.length) (.err e))
        · rw [h] at hfs; simp at hfs
      | none =>
        dsimp only at hc ⊢
        have hcu := startAsk_was_open hn hc
        obtain ⟨l, h1, h2⟩ := hfa hcu
        obtain ⟨k1, k2, l', k3, k4, k5⟩ := startAsk_eff hn (by simp) hc
        obtain ⟨rs, k6, k7⟩ := k4 ⟨hcu, fun h => h.1 rfl, Or.inl rfl⟩
        refine ⟨fun n => ?_, fun i => ?_, l ++ l', ?_,
          fun o h => by simp at h, fun _ h => by simp at h, fun e' _ _ h => ?_,
          fun _ _ h => ⟨rs, k6, ?_⟩⟩
        · show mapGet _ n = _
          rw [k1]; exact h1.namespace n
        · rw [rooms_congr k2]; exact (h1.rooms i).trans (hts i)
        · rw [k3, h1.log]; simp [t, withObj]
        · rw [h] at hfs; simp at hfs
        · simpa [connectMsg] using h2.right k7

example : ∃ (cfg : Cfg) (id : Bytes) (s s' : St) (ns : Bytes), Reach cfg id s ∧
    cfg.onlyNative = false ∧ cfg.isClient = true ∧ step cfg s (.connect ns 7 false) = some s' ∧
    s'.closed = false ∧ s.namespace ns = none ∧ (mapGet cfg.decl ns).isSome = true ∧
    connectVerdict cfg s (connectMsg ns) = none :=
  ⟨clientCfg chatDecl noCb, [], after _ _ [.recv .text (b! "A1")], _, b! "chat",
    after_reach (by decide +kernel), by decide +kernel, rfl, after_step (by decide +kernel),
    by decide +kernel, by decide +kernel, by decide +kernel, by decide +kernel⟩

example : ∃ (cfg : Cfg) (id : Bytes) (s s' : St) (ns : Bytes) (e : GoErr), Reach cfg id s ∧
    cfg.onlyNative = false ∧ cfg.isClient = true ∧ step cfg s (.connect ns 7 false) = some s' ∧
    s'.closed = false ∧ s.namespace ns = none ∧ (mapGet cfg.decl ns).isSome = true ∧
    connectVerdict cfg s (connectMsg ns) = some e :=
  ⟨clientCfg chatDecl denyCb, [], after _ _ [.recv .text (b! "A1")], _, b! "chat",
    .text (b! "no"), after_reach (by decide +kernel), by decide +kernel, rfl,
    after_step (by decide +kernel), by decide +kernel, by decide +kernel, by decide +kernel,
    by decide +kernel⟩

/-- C15, the answer to a Connect call arrives: an error is returned and nothing is connected;
otherwise the namespace is connected, OnNamespaceConnected runs with it connected, and the
NSConn is returned. -/
theorem c15_answer {i obj : Nat} {ns : Bytes} {a : AskRec} {m : Message} (hr : Reach cfg id s)
    (ha : s.asks[i]? = some a) (hk : a.cont = .connect ns obj) (hb : a.box = some m)
    (hs : step cfg s (.resume i) = some s') (hc : s'.closed = false) :
    (∀ n, s'.namespace n = if n = ns ∧ m.err = none then some obj else s.namespace n) ∧
    (∀ j, s'.rooms j = s.rooms j) ∧
    ∃ l, s'.log = s.log ++ l ∧
      (∀ e, m.err = some e → l = [.ret (.connect ns obj) (.err e)]) ∧
      (m.err = none →
        Adds cfg l [⟨obj, { connectMsg ns with event := OnNamespaceConnected }, true,
            [] ∈ s.rooms obj⟩] []
          [(.connect ns obj, .nsConn obj)] (connNotes cfg ns)) := by
  obtain ⟨rfl, _⟩ := step_resume ha hb hs
  rw [hk] at hc ⊢
  obtain ⟨f1, f2, f3, f4, _⟩ := resumed_fields s i a
  cases he : m.err with
  | some e =>
    rw [he] at hc
    obtain ⟨h1, h2, h3, _⟩ := finish_err (cfg := cfg) (resumed s i a) (.connect ns obj) m e (by simp)
    refine ⟨fun n => ?_, fun j => ?_, [.ret (.connect ns obj) (.err e)], by rw [h3, f3], ?_, ?_⟩
    · unfold St.namespace; rw [h2, f2]; simp
    · rw [rooms_congr h1, rooms_congr f1]
    · intro e' h; cases h; rfl
    · intro h; simp at h
  | none =>
    rw [he] at hc
    have hok := (reach_ok hr).1 a (List.mem_of_getElem? ha)
    rw [hk] at hok
    have hnm : (resumed s i a).nsName obj = ns := by
      rw [nsName_congr f1]
      have := hok.2.1
      unfold St.nsName
      cases hx : s.objs[obj]? with
      | none => rw [hx] at this; simp at this
      | some o => rw [hx] at this; simpa using this
    obtain ⟨l, h1, h2, h3, h4⟩ := finish_connect_ok (m := m) hnm hc
    refine ⟨fun n => ?_, fun j => ?_, l, by rw [h3, f3], ?_, ?_⟩
    · unfold St.namespace; rw [h2, mapGet_mapSet, f2]; simp
    · rw [rooms_congr h1, rooms_congr f1]
    · intro e h; simp at h
    · intro _
      rw [rooms_congr f1] at h4
      exact h4

example : ∃ (cfg : Cfg) (id : Bytes) (s s' : St) (a : AskRec) (ns : Bytes) (m : Message) (obj : Nat),
    Reach cfg id s ∧ s.asks[0]? = some a ∧ a.cont = .connect ns obj ∧ a.box = some m ∧
    m.err = none ∧ step cfg s (.resume 0) = some s' ∧ s'.closed = false :=
  ⟨clientCfg chatDecl noCb, [], after _ _ [.recv .text (b! "A1"), .connect (b! "chat") 7 false,
      .recv .text (b! "$7;;;;;;")], _,
    ⟨b! "$7", .connect (b! "chat") 0, .table, some { wait := b! "$7" }, false⟩, _, _, _,
    after_reach (by decide +kernel), by decide +kernel, rfl, rfl, rfl,
    after_step (by decide +kernel), by decide +kernel⟩

/-- C15: whenever a connection is connected to a namespace, this side declares it and this
side's OnNamespaceConnect ran for its NSConn and returned nil. -/
theorem c15_accepted (hr : Reach cfg id s) {ns : Bytes} {obj : Nat} (h : s.namespace ns = some obj) :
    (∃ p ∈ cfg.decl, p.1 = ns) ∧ (cfg.onlyNative = false →
      ∃ v msg hd, Obs.fired obj v msg hd none ∈ s.log ∧ msg.event = OnNamespaceConnect) := by
  refine ⟨?_, fun hn => (reach_accepted hr).1 hn ns obj h⟩
  have hd := ((reach_ok hr).2 ns obj h).1
  revert hd
  generalize cfg.decl = d
  intro hd
  induction d with
  | nil => simp [mapGet] at hd
  | cons p d ih =>
    obtain ⟨k, v⟩ := p
    simp only [mapGet] at hd
    split at hd
    · rename_i hkk; exact ⟨(k, v), by simp, hkk⟩
    · obtain ⟨p, hp, hpn⟩ := ih hd
      exact ⟨p, List.mem_cons_of_mem _ hp, hpn⟩

example : ∃ (cfg : Cfg) (id : Bytes) (s : St) (ns : Bytes) (obj : Nat), Reach cfg id s ∧
    cfg.onlyNative = false ∧ s.namespace ns = some obj :=
  ⟨clientCfg chatDecl noCb, [], after _ _ chatOps, b! "chat", 0, after_reach (by decide +kernel),
    by decide +kernel, by decide +kernel⟩

/-! ## C19 -/

/-- the message of a Disconnect call -/
def disconnectMsg (ns : Bytes) : Message := { ns := ns, event := OnNamespaceDisconnect }

/-- C19: disconnecting a namespace that is not connected returns ErrBadNamespace and does
nothing else. -/
theorem c19_not_connected {obj : Nat} {now : Int} {ex : Bool}
    (hn : s.namespace (s.nsName obj) = none)
    (hs : step cfg s (.disconnect obj now ex) = some s') :
    s' = s.emit (.ret (.disconnect obj (disconnectMsg (s.nsName obj))) (.err errBadNamespace)) := by
  obtain ⟨he, _⟩ := step_exec hs
  simp only [exec] at he
  split at he
  · cases he
    unfold disconnect
    dsimp only
    rw [hn]; rfl
  · simp at he

example : ∃ (cfg : Cfg) (id : Bytes) (s s' : St), Reach cfg id s ∧
    s.namespace (s.nsName 0) = none ∧ s.nsName 0 = b! "chat" ∧
    step cfg s (.disconnect 0 9 false) = some s' :=
  ⟨clientCfg chatDecl noCb, [], after _ _ (chatOps ++ [.disconnect 0 8 false,
      .recv .text (b! "$8;;;;;;"), .resume 1]), _, after_reach (by decide +kernel),
    by decide +kernel, by decide +kernel, after_step (by decide +kernel)⟩

/-- C19, the call on a connected namespace changes nothing and runs no callback: it sends one
request and waits, or fails when the request cannot be written. -/
theorem c19_call {obj obj' : Nat} {now : Int} (hno : cfg.onlyNative = false)
    (hn : s.namespace (s.nsName obj) = some obj')
    (hs : step cfg s (.disconnect obj now false) = some s') (hc : s'.closed = false) :
    s'.connected = s.connected ∧ s'.objs = s.objs ∧ ∃ l rs, s'.log = s.log ++ l ∧
      (rs = [] ∨ rs = [(.disconnect obj' (disconnectMsg (s.nsName obj)), .err errWrite)]) ∧
      Adds cfg l [] [(false, wireOf { disconnectMsg (s.nsName obj) with
        wait := genWait cfg.isClient now })] rs [] := by
  obtain ⟨he, _⟩ := step_exec hs
  simp only [exec] at he
  split at he
  · cases he
    unfold disconnect at hc ⊢
    dsimp only at hc ⊢
    rw [hn] at hc ⊢
    dsimp only at hc ⊢
    obtain ⟨h1, h2, l, h3, h4, h5⟩ := startAsk_eff hno (by simp) hc
    obtain ⟨rs, h6, h7⟩ := h4 ⟨startAsk_was_open hno hc, fun h => h.1 rfl, Or.inr (Or.inl rfl)⟩
    exact ⟨h1, h2, l, rs, h3, h6, h7⟩
  · simp at he

example : ∃ (cfg : Cfg) (id : Bytes) (s s' : St), Reach cfg id s ∧ cfg.onlyNative = false ∧
    s.namespace (s.nsName 0) = some 0 ∧ step cfg s (.disconnect 0 9 false) = some s' ∧
    s'.closed = false :=
  ⟨clientCfg chatDecl noCb, [], after _ _ chatOps, _, after_reach (by decide +kernel),
    by decide +kernel, by decide +kernel, after_step (by decide +kernel), by decide +kernel⟩

/-- C19, the answer to a Disconnect call arrives. An error of the remote side is returned and
nothing changes. Otherwise every joined room is left by force, the namespace is removed, and
then OnNamespaceDisconnect runs, whose result is ignored. -/
theorem c19_answer {i obj : Nat} {a : AskRec} {msg m : Message} (hr : Reach cfg id s)
    (ha : s.asks[i]? = some a) (hk : a.cont = .disconnect obj msg) (hb : a.box = some m)
    (hs : step cfg s (.resume i) = some s') (hc : s'.closed = false) :
    (∀ n, s'.namespace n = if n = msg.ns ∧ m.err = none then none else s.namespace n) ∧
    (∀ j, s'.rooms j = if j = obj ∧ m.err = none then [] else s.rooms j) ∧
    ∃ l, s'.log = s.log ++ l ∧
      (∀ e, m.err = some e → l = [.ret (.disconnect obj msg) (.err e)]) ∧
      (m.err = none → ∃ rs : List Bytes, rs.Perm (s.rooms obj) ∧
        Adds cfg l (rs.flatMap (roomLeft obj msg.ns true (linked s obj)) ++
          [⟨obj, { msg with isLocal := true }, false, false⟩]) [] [(.disconnect obj msg, .ok)]
          (discNotes cfg msg.ns)) := by
  obtain ⟨rfl, hh⟩ := step_resume ha hb hs
  rw [hk] at hc hh ⊢
  obtain ⟨f1, f2, f3, f4, _⟩ := resumed_fields s i a
  have hlk : linked (resumed s i a) obj = linked s obj := by
    unfold linked St.namespace; rw [nsName_congr f1, f2]
  cases he : m.err with
  | some e =>
    rw [he] at hc
    obtain ⟨h1, h2, h3, _⟩ := finish_err (cfg := cfg) (resumed s i a) (.disconnect obj msg) m e
      (by simp)
    refine ⟨fun n => ?_, fun j => ?_, [.ret (.disconnect obj msg) (.err e)], by rw [h3, f3], ?_, ?_⟩
    · unfold St.namespace; rw [h2, f2]; simp
    · rw [rooms_congr h1, rooms_congr f1]; simp
    · intro e' h; cases h; rfl
    · intro h; simp at h
  | none =>
    rw [he] at hc hh
    have hok : s.objs[obj]?.map (·.ns) = some msg.ns := by
      have := (reach_ok hr).1 a (List.mem_of_getElem? ha)
      rw [hk] at this
      exact this.1
    have hnm : (resumed s i a).nsName obj = msg.ns := by
      rw [nsName_congr f1]
      unfold St.nsName
      cases hx : s.objs[obj]? with
      | none => rw [hx] at hok; simp at hok
      | some o => rw [hx] at hok; simpa using hok
    have hnd : ((resumed s i a).rooms obj).Nodup := by rw [rooms_congr f1]; exact reach_nodup hr obj
    obtain ⟨l, rs, h1, h2, h3, h4, h5⟩ := finish_disconnect_ok (m := m) hnm hnd hc hh
    rw [rooms_congr f1] at h1
    rw [hlk] at h5
    refine ⟨fun n => ?_, fun j => ?_, l, by rw [h3, f3], ?_, fun _ => ⟨rs, h1, h5⟩⟩
    · unfold St.namespace; rw [h2, mapGet_mapDel, f2]; simp
    · rw [h4, rooms_congr f1]; simp
    · intro e h; simp at h

example : ∃ (cfg : Cfg) (id : Bytes) (s s' : St) (a : AskRec) (msg m : Message) (obj : Nat),
    Reach cfg id s ∧ s.asks[2]? = some a ∧ a.cont = .disconnect obj msg ∧ a.box = some m ∧
    m.err = none ∧ s.rooms obj = [b! "r"] ∧
    step cfg s (.resume 2) = some s' ∧ s'.closed = false :=
  ⟨clientCfg chatDecl noCb, [], after _ _ (joinedOps ++ [.disconnect 0 10 false,
      .recv .text (b! "$10;;;;;;")]), _,
    ⟨b! "$10", .disconnect 0 (disconnectMsg (b! "chat")), .table, some { wait := b! "$10" }, false⟩,
    _, _, _, after_reach (by decide +kernel), by decide +kernel, rfl, rfl, rfl, by decide +kernel,
    after_step (by decide +kernel), by decide +kernel⟩

/-- C19, an incoming disconnect request on the server side. Not connected: no callback and an
empty answer. Vetoed by OnNamespaceDisconnect: the error is the answer and nothing changes.
Otherwise every joined room is left by force while the namespace is still connected, then the
namespace is removed, and the answer is empty. -/
theorem c19_incoming_server {typ : MsgType} {b : Bytes} {msg : Message} {obj : Nat}
    (hr : Reach cfg id s) (hi : Incoming cfg s typ b msg)
    (hs : step cfg s (.recv typ b) = some s') (hev : msg.event = OnNamespaceDisconnect)
    (hw : Wanted msg) (hcl : cfg.isClient = false) (hn : s.namespace msg.ns = some obj)
    (hc : s'.closed = false) :
    (∀ n, s'.namespace n = if n = msg.ns ∧ verdict cfg s obj msg = none then none
      else s.namespace n) ∧
    (∀ i, s'.rooms i = if i = obj ∧ verdict cfg s obj msg = none then [] else s.rooms i) ∧
    ∃ l, s'.log = s.log ++ l ∧
      (∀ e, verdict cfg s obj msg = some e →
        Adds cfg l [⟨obj, msg, true, msg.room ∈ s.rooms obj⟩]
          [(msg.setBinary, wireOf { msg with err := some e })] [] []) ∧
      (verdict cfg s obj msg = none → ∃ rs : List Bytes, rs.Perm (s.rooms obj) ∧
        Adds cfg l (⟨obj, msg, true, msg.room ∈ s.rooms obj⟩ ::
            rs.flatMap (roomLeft obj msg.ns false true))
          [(false, genEmptyReplyToWait msg.wait)] [] (discNotes cfg msg.ns)) := by
  obtain ⟨rfl, hh⟩ := step_recv hi hs
  rw [dispatch_disconnect hev] at hc hh ⊢
  cases hv : verdict cfg s obj msg with
  | some e =>
    obtain ⟨l, h1, h2⟩ := replyDisconnect_refused hw hn hcl hv (hi.noExplicit hw.1) hev hc
    rw [reach_linked hr hn] at h2
    refine ⟨fun n => ?_, fun i => ?_, l, h1.log, fun e' h => ?_, fun h => by simp at h⟩
    · rw [h1.namespace]; simp
    · rw [h1.rooms]; simp
    · cases h; exact h2
  | none =>
    obtain ⟨l, rs, o, h1, h2, h3, h4⟩ := replyDisconnect_accepted hw hn hcl hv (reach_nsName hr hn)
      (reach_nodup hr obj) hc hh
    obtain ⟨r1, r2, r3⟩ := h2.rooms_eq
    refine ⟨fun n => ?_, fun i => ?_, l, r3, fun e' h => by simp at h, fun _ => ⟨rs, h1, h3⟩⟩
    · unfold St.namespace; rw [r2, mapGet_mapDel]; simp
    · rw [rooms_congr (s := { s with objs := o }) r1, h4]; simp

example : ∃ (cfg : Cfg) (id : Bytes) (s s' : St) (typ : MsgType) (b : Bytes) (msg : Message) (obj : Nat),
    Reach cfg id s ∧ Incoming cfg s typ b msg ∧ step cfg s (.recv typ b) = some s' ∧
    msg.event = OnNamespaceDisconnect ∧ Wanted msg ∧ cfg.isClient = false ∧
    s.namespace msg.ns = some obj ∧ s'.closed = false ∧ s.rooms obj = [b! "r"] ∧
    verdict cfg s obj msg = none :=
  ⟨serverCfg chatDecl noCb, b! "1", after _ _ joinedSrvOps, _, .text,
    b! "$10;chat;;_OnNamespaceDisconnect;0;0;",
    { ns := b! "chat", event := OnNamespaceDisconnect, wait := b! "$10" }, 0,
    after_reach (by decide +kernel), incoming_of (by decide +kernel),
    after_step (by decide +kernel), rfl, ⟨by decide, by decide⟩, rfl, by decide +kernel,
    by decide +kernel, by decide +kernel, by decide +kernel⟩

example : ∃ (cfg : Cfg) (id : Bytes) (s s' : St) (typ : MsgType) (b : Bytes) (msg : Message) (obj : Nat)
    (e : GoErr),
    Reach cfg id s ∧ Incoming cfg s typ b msg ∧ step cfg s (.recv typ b) = some s' ∧
    msg.event = OnNamespaceDisconnect ∧ Wanted msg ∧ cfg.isClient = false ∧
    s.namespace msg.ns = some obj ∧ s'.closed = false ∧ s.rooms obj = [b! "r"] ∧
    verdict cfg s obj msg = some e :=
  ⟨serverCfg chatDecl stayCb, b! "1", after _ _ joinedSrvOps, _, .text,
    b! "$10;chat;;_OnNamespaceDisconnect;0;0;",
    { ns := b! "chat", event := OnNamespaceDisconnect, wait := b! "$10" }, 0, .text (b! "no"),
    after_reach (by decide +kernel), incoming_of (by decide +kernel),
    after_step (by decide +kernel), rfl, ⟨by decide, by decide⟩, rfl, by decide +kernel,
    by decide +kernel, by decide +kernel, by decide +kernel⟩

/-- C19, an incoming disconnect request on the client side cannot be vetoed: whatever the
callbacks return, every joined room is left by force, the namespace is removed, the answer is
empty and OnNamespaceDisconnect runs. -/
theorem c19_incoming_client {typ : MsgType} {b : Bytes} {msg : Message} {obj : Nat}
    (hr : Reach cfg id s) (hi : Incoming cfg s typ b msg)
    (hs : step cfg s (.recv typ b) = some s') (hev : msg.event = OnNamespaceDisconnect)
    (hw : Wanted msg) (hcl : cfg.isClient = true) (hn : s.namespace msg.ns = some obj)
    (hc : s'.closed = false) :
    (∀ n, s'.namespace n = if n = msg.ns then none else s.namespace n) ∧
    (∀ i, s'.rooms i = if i = obj then [] else s.rooms i) ∧
    ∃ l, s'.log = s.log ++ l ∧ ∃ rs : List Bytes, rs.Perm (s.rooms obj) ∧
      Adds cfg l (rs.flatMap (roomLeft obj msg.ns false true) ++ [⟨obj, msg, false, false⟩])
        [(false, genEmptyReplyToWait msg.wait)] [] [] := by
  obtain ⟨rfl, hh⟩ := step_recv hi hs
  rw [dispatch_disconnect hev] at hc hh ⊢
  obtain ⟨l, rs, o, h1, h2, h3, h4⟩ := replyDisconnect_client hw hn hcl (reach_nsName hr hn)
    (reach_nodup hr obj) hc hh
  obtain ⟨r1, r2, r3⟩ := h2.rooms_eq
  refine ⟨fun n => ?_, fun i => ?_, l, r3, rs, h1, h3⟩
  · unfold St.namespace; rw [r2, mapGet_mapDel]
  · rw [rooms_congr (s := { s with objs := o }) r1, h4]

example : ∃ (cfg : Cfg) (id : Bytes) (s s' : St) (typ : MsgType) (b : Bytes) (msg : Message) (obj : Nat)
    (e : GoErr),
    Reach cfg id s ∧ Incoming cfg s typ b msg ∧ step cfg s (.recv typ b) = some s' ∧
    msg.event = OnNamespaceDisconnect ∧ Wanted msg ∧ cfg.isClient = true ∧
    s.namespace msg.ns = some obj ∧ s'.closed = false ∧ s.rooms obj = [b! "r"] ∧
    verdict cfg s obj msg = some e :=
  ⟨clientCfg chatDecl stayCb, [], after _ _ joinedOps, _, .text,
    b! "10;chat;;_OnNamespaceDisconnect;0;0;",
    { ns := b! "chat", event := OnNamespaceDisconnect, wait := b! "10" }, 0, .text (b! "no"),
    after_reach (by decide +kernel), incoming_of (by decide +kernel),
    after_step (by decide +kernel), rfl, ⟨by decide, by decide⟩, rfl, by decide +kernel,
    by decide +kernel, by decide +kernel, by decide +kernel⟩

/-- C19, an incoming disconnect request for a namespace that is not connected: an empty answer
and nothing else. -/
theorem c19_incoming_not_connected {typ : MsgType} {b : Bytes} {msg : Message}
    (hi : Incoming cfg s typ b msg) (hs : step cfg s (.recv typ b) = some s')
    (hev : msg.event = OnNamespaceDisconnect) (hw : Wanted msg) (hn : s.namespace msg.ns = none)
    (hc : s'.closed = false) :
    s'.connected = s.connected ∧ s'.objs = s.objs ∧ ∃ l, s'.log = s.log ++ l ∧
      Adds cfg l [] [(false, genEmptyReplyToWait msg.wait)] [] [] := by
  obtain ⟨rfl, _⟩ := step_recv hi hs
  rw [dispatch_disconnect hev] at hc ⊢
  obtain ⟨l, h1, h2⟩ := replyDisconnect_notConnected hw hn hc
  exact ⟨h1.connected, h1.objs, l, h1.log, h2⟩

example : ∃ (cfg : Cfg) (id : Bytes) (s s' : St) (typ : MsgType) (b : Bytes) (msg : Message),
    Reach cfg id s ∧ Incoming cfg s typ b msg ∧ step cfg s (.recv typ b) = some s' ∧
    msg.event = OnNamespaceDisconnect ∧ Wanted msg ∧ s.namespace msg.ns = none ∧
    s'.closed = false :=
  ⟨serverCfg chatDecl noCb, b! "1", after _ _ ackOps, _, .text,
    b! "$10;chat;;_OnNamespaceDisconnect;0;0;",
    { ns := b! "chat", event := OnNamespaceDisconnect, wait := b! "$10" },
    after_reach (by decide +kernel), incoming_of (by decide +kernel),
    after_step (by decide +kernel), rfl, ⟨by decide, by decide⟩, by decide +kernel,
    by decide +kernel⟩

/-! ## C54 -/

/-- C54: an incoming join, leave, connect or disconnect request that is refused by its
callback, or a connect request of an undeclared namespace, is answered with that error: see
`c17_incoming`, `c18_incoming_server`, `c15_incoming` and `c19_incoming_server`. Here: an
event whose callback returns an error is answered with it when the sender may be written to,
that is when its room, if any, is joined on this side. -/
theorem c54_event_partial {msg : Message} {obj : Nat} {e : GoErr} (hr : Reach cfg id s)
    (hs : Handled cfg s msg s')
    (hev : msg.event ≠ OnNamespaceConnect ∧ msg.event ≠ OnNamespaceDisconnect ∧
      msg.event ≠ OnRoomJoin ∧ msg.event ≠ OnRoomLeave)
    (hw : msg.wait ≠ []) (hn : s.namespace msg.ns = some obj)
    (hroom : msg.room = [] ∨ msg.room ∈ s.rooms obj)
    (hv : verdict cfg s obj { msg with isLocal := false } = some e) (hc : s'.closed = false) :
    s'.connected = s.connected ∧ s'.objs = s.objs ∧ ∃ l, s'.log = s.log ++ l ∧
      Adds cfg l [⟨obj, { msg with isLocal := false }, true, msg.room ∈ s.rooms obj⟩]
        [(msg.setBinary, wireOf { msg with isLocal := false, err := some e })] [] [] := by
  obtain ⟨rfl, _, hdec⟩ := handled hr hs hev.1 hev.2.1
  have hlk : linked { s with rd := .idle } obj = true := reach_linked hr hn
  have heq : afterGate cfg { s with rd := .idle } msg =
      handleEvent cfg { s with rd := .idle } obj msg := by
    have hn' : ({ s with rd := .idle } : St).namespace msg.ns = some obj := hn
    unfold afterGate; rw [hn']; dsimp only
    rw [if_neg hev.2.2.1, if_neg hev.2.2.2]
  rw [heq] at hc ⊢
  have hco : s.closed = false :=
    closed_of_prims (s := { s with rd := .idle }) (prims_handleEvent (cfg := cfg) _ obj msg) hc
  obtain ⟨l, h1, h2⟩ := (handleEvent_err (s := { s with rd := .idle }) hv hc).1
    ⟨hco, fun h => h.1 (hdec.noExplicit hw), Or.inr (Or.inr ⟨obj, hn, by
      rcases hroom with h | h
      · exact Or.inl h
      · exact Or.inr (Or.inr (Or.inr h))⟩)⟩
  rw [hlk] at h2
  exact ⟨h1.connected, h1.objs, l, h1.log, h2⟩

/-- returns an error for every event -/
def failCb : List Obs → Nat → Bytes → Message → List Act × Option GoErr :=
  fun _ _ _ msg => ([], if msg.event = b! "ask" then some (.text (b! "no")) else none)

example : ∃ (cfg : Cfg) (id : Bytes) (s s' : St) (msg : Message) (obj : Nat) (e : GoErr),
    Reach cfg id s ∧ Handled cfg s msg s' ∧ msg.event = b! "ask" ∧ msg.wait ≠ [] ∧
    s.namespace msg.ns = some obj ∧ msg.room ∈ s.rooms obj ∧
    verdict cfg s obj { msg with isLocal := false } = some e ∧ s'.closed = false :=
  ⟨serverCfg chatDecl failCb, b! "1", _, _,
    { ns := b! "chat", room := b! "r", event := b! "ask", wait := b! "$10" }, 0, .text (b! "no"),
    after_reach (by decide +kernel),
    handled_of (ops := joinedSrvOps) (typ := .text) (b := b! "$10;chat;r;ask;0;0;")
      (by decide +kernel) (by decide +kernel) (by decide +kernel), rfl, by decide,
    by decide +kernel, by decide +kernel, by decide +kernel, by decide +kernel⟩

/-- C54 fails for a namespace that is not connected: whatever the request or event, nothing
is ever sent for it, so an Ask of the other side gets no answer. -/
theorem c54_refuted {msg : Message} (hr : Reach cfg id s) (hs : Handled cfg s msg s')
    (h1 : msg.event ≠ OnNamespaceConnect) (h2 : msg.event ≠ OnNamespaceDisconnect)
    (hn : s.namespace msg.ns = none) : sentOf s'.log = sentOf s.log := by
  rw [(c17_not_connected hr hs h1 h2 hn).2.2.1]

/-- C54 fails for an event to a room that is not joined on this side: the callback runs and
its error is not sent. -/
theorem c54_room_refuted : ∃ (cfg : Cfg) (id : Bytes) (s s' : St) (msg : Message) (obj : Nat) (e : GoErr),
    Reach cfg id s ∧ Handled cfg s msg s' ∧ Wanted msg ∧ s.namespace msg.ns = some obj ∧
    s'.closed = false ∧ verdict cfg s obj msg = some e ∧
    callsOf s'.log = callsOf s.log ++ [⟨obj, msg, true, false⟩] ∧
    sentOf s'.log = sentOf s.log := by
  refine ⟨serverCfg chatDecl failCb, b! "1", after _ _ chatSrvOps, _,
    { ns := b! "chat", room := b! "r", event := b! "ask", wait := b! "$10" }, 0, .text (b! "no"),
    after_reach (by decide +kernel),
    handled_of (ops := chatSrvOps) (typ := .text) (b := b! "$10;chat;r;ask;0;0;")
      (by decide +kernel) (by decide +kernel) (by decide +kernel), ⟨by decide, by decide⟩, ?_⟩
  decide +kernel

end Neffos
