import Verif.Proofs.AgreeRun
import Verif.Props.Session
/-!
# C16: both sides agree on namespaces and rooms; C15, C17, C18, C19 for both sides together
-/
set_option autoImplicit false
namespace Neffos
open Neffos.Spec

variable {cc sc : Cfg} {id : Bytes} {ops : List SessOp} {s s' : Sess}

/-- C16: whenever no request of the client is in flight and both sides are open, they are in the
same namespaces and in the same rooms of each. For every history with one request at a time, with
all events, refusals and closings in between and everything in flight anywhere. Partial: refusals
as `Consistent` says, and requests as `OneRequest` says; without each of these it is false, see
below. -/
theorem c16_agree_partial (hcons : Consistent cc sc) (hnc : cc.allowNative = false)
    (hns : sc.allowNative = false) (hcl : cc.isClient = true) (hsc : sc.isClient = false)
    (h : OneRun cc sc id ops s) (hc : s.c.closed = false) (hd : s.d.closed = false)
    (hn : NoRequest s.c) : Agree s.c s.d := by
  rcases (one_inv hcons hnc hns hcl hsc h).phase with x | x | x
  · rw [hc] at x; cases x
  · rw [hd] at x; cases x
  · exact phase_agree x hn

/-- the state in which a call of the client completes -/
theorem resume_both {i : Nat} (hcons : Consistent cc sc) (hnc : cc.allowNative = false)
    (hns : sc.allowNative = false) (hcl : cc.isClient = true) (hsc : sc.isClient = false)
    (h : OneRun cc sc id ops s) (hst : sstep cc sc s (.client (.resume i)) = some s')
    (hc : s'.c.closed = false) (hd : s'.d.closed = false) :
    s'.d = s.d ∧ step cc s.c (.resume i) = some s'.c ∧ Reach cc [] s.c ∧ Reach cc [] s'.c ∧ Reach sc id s'.d ∧
      Agree s'.c s'.d ∧ ∃ a q m r, s.c.asks[i]? = some a ∧ a.box = some m ∧ Waits q a.cont s.c ∧
        Moves q r.isNone s.c s.d ∧ Carries cc.known r m.err ∧ ∀ e, r = some e → q.No sc s.d e := by
  have hinv := one_inv hcons hnc hns hcl hsc h
  have hinv' := one_inv hcons hnc hns hcl hsc (h.step (op := .client (.resume i)) trivial hst)
  simp only [sstep, Op.reads, Bool.false_eq_true, if_false] at hst
  obtain ⟨t, ht, rfl⟩ := Option.map_eq_some_iff.mp hst
  have hc0 := closed_of_prims (reach_prims hinv.rc ht) hc
  rcases hinv.phase with x | x | x
  · rw [hc0] at x; cases x
  · rw [show s.d.closed = false from hd] at x; cases x
  · obtain ⟨_, hno, hinfo⟩ := phase_resume hcons hinv.rc x ht hc
    refine ⟨rfl, ht, hinv.rc, hinv'.rc, hinv'.rd, ?_, hinfo⟩
    exact c16_agree_partial hcons hnc hns hcl hsc (h.step (op := .client (.resume i)) trivial
      (by simp only [sstep, Op.reads, Bool.false_eq_true, if_false, ht]; rfl)) hc hd hno

/-- this side declares the namespace, is connected to it and its OnNamespaceConnect returned nil -/
def Allowed (cfg : Cfg) (s : St) (ns : Bytes) : Prop :=
  (∃ p ∈ cfg.decl, p.1 = ns) ∧
    ∃ obj v msg hd, s.namespace ns = some obj ∧ Obs.fired obj v msg hd none ∈ s.log ∧
      msg.event = OnNamespaceConnect

theorem allowed_of {cfg : Cfg} {i : Bytes} {s : St} {ns : Bytes} (hr : Reach cfg i s) (hn : cfg.allowNative = false)
    (h : InNs s ns) : Allowed cfg s ns := by
  obtain ⟨obj, ho⟩ := Option.ne_none_iff_exists'.mp h
  obtain ⟨h1, h2⟩ := c15_accepted hr ho
  obtain ⟨v, msg, hd, h3, h4⟩ := h2 (by simp [Cfg.onlyNative, hn])
  exact ⟨h1, obj, v, msg, hd, ho, h3, h4⟩

/-- C15, both sides: when a Connect gets its answer, either it returns the namespace and both sides
are connected, both declare it and both OnNamespaceConnect returned nil; or it returns an error,
neither side is connected, and the error is that of the server, which does not declare the
namespace or whose OnNamespaceConnect returned it. Partial as C16. -/
theorem c15_both_partial {i obj : Nat} {ns : Bytes} {a : AskRec} (hcons : Consistent cc sc)
    (hnc : cc.allowNative = false) (hns : sc.allowNative = false) (hcl : cc.isClient = true)
    (hsc : sc.isClient = false) (h : OneRun cc sc id ops s)
    (ha : s.c.asks[i]? = some a) (hk : a.cont = .connect ns obj)
    (hst : sstep cc sc s (.client (.resume i)) = some s')
    (hc : s'.c.closed = false) (hd : s'.d.closed = false) :
    (retOf s'.c.log = retOf s.c.log ++ [(.connect ns obj, .nsConn obj)] ∧ s'.c.namespace ns = some obj ∧
      Allowed cc s'.c ns ∧ Allowed sc s'.d ns) ∨
    ∃ e e', retOf s'.c.log = retOf s.c.log ++ [(.connect ns obj, .err e')] ∧ ¬ InNs s'.c ns ∧ ¬ InNs s'.d ns ∧
      ResolvesTo cc.known e.errorText e' ∧
        ((e = errBadNamespace ∧ mapGet sc.decl ns = none) ∨ Refused s'.d OnNamespaceConnect ns [] e) := by
  obtain ⟨e1, e2, hr, hr1, hr2, hag, a', q, m, r, ha', hb, hw, hmv, hcar, hno⟩ :=
    resume_both hcons hnc hns hcl hsc h hst hc hd
  rw [ha] at ha'
  cases ha'
  rw [hk] at hw
  cases q with
  | disconnect n => obtain ⟨_, _, x, _⟩ := hw; cases x
  | join n rm => obtain ⟨_, _, x, _⟩ := hw; cases x
  | leave n rm => obtain ⟨_, _, x, _⟩ := hw; cases x
  | connect n =>
    obtain ⟨o, x, hnone, _⟩ := hw
    cases x
    obtain ⟨k1, _, l, hl, k3, k4⟩ := c15_answer hr ha hk hb e2 hc
    cases hm : m.err with
    | none =>
      have hcon : s'.c.namespace ns = some obj := by rw [k1, if_pos ⟨rfl, hm⟩]
      have hin : InNs s'.c ns := by unfold InNs; rw [hcon]; simp
      refine .inl ⟨by rw [hl, retOf_append, (k4 hm).ret], hcon, allowed_of hr1 hnc hin, ?_⟩
      exact allowed_of hr2 hns ((hag.1 ns).mp hin)
    | some e' =>
      have hcon : ¬ InNs s'.c ns := by unfold InNs; rw [k1, if_neg (by simp [hm]), hnone]; simp
      cases r with
      | none => rw [show m.err = none from hcar] at hm; cases hm
      | some e =>
        obtain ⟨e'', hx, hres⟩ := hcar
        rw [hm] at hx
        cases hx
        refine .inr ⟨e, e', by rw [hl, retOf_append, k3 e' hm]; rfl, hcon, fun x => hcon ((hag.1 ns).mpr x), hres, ?_⟩
        rw [e1]
        exact hno e rfl

/-- C17, both sides: when a JoinRoom gets its answer, either it returns the room and both sides are
in it, or it returns the error of the server's OnRoomJoin and neither side is in it. Partial as
C16. -/
theorem c17_both_partial {i obj : Nat} {msg : Message} {a : AskRec} (hcons : Consistent cc sc)
    (hnc : cc.allowNative = false) (hns : sc.allowNative = false) (hcl : cc.isClient = true)
    (hsc : sc.isClient = false) (h : OneRun cc sc id ops s)
    (ha : s.c.asks[i]? = some a) (hk : a.cont = .join obj msg) 
    (hst : sstep cc sc s (.client (.resume i)) = some s')
    (hc : s'.c.closed = false) (hd : s'.d.closed = false) :
    ∃ ns, s.c.namespace ns = some obj ∧
    ((retOf s'.c.log = retOf s.c.log ++ [(.join obj msg, .room obj msg.room)] ∧
      InRoom s'.c ns msg.room ∧ InRoom s'.d ns msg.room) ∨
    ∃ e e', retOf s'.c.log = retOf s.c.log ++ [(.join obj msg, .err e')] ∧
      (InRoom s'.c ns msg.room ↔ InRoom s.c ns msg.room) ∧ (InRoom s'.d ns msg.room ↔ InRoom s.c ns msg.room) ∧
      ResolvesTo cc.known e.errorText e' ∧ Refused s'.d OnRoomJoin ns msg.room e) := by
  obtain ⟨e1, e2, hr, hr1, hr2, hag, a', q, m, r, ha', hb, hw, hmv, hcar, hno⟩ :=
    resume_both hcons hnc hns hcl hsc h hst hc hd
  rw [ha] at ha'
  cases ha'
  rw [hk] at hw
  cases q with
  | disconnect n => obtain ⟨_, _, x, _⟩ := hw; cases x
  | connect n => obtain ⟨_, x, _⟩ := hw; cases x
  | leave n rm => obtain ⟨_, _, x, _⟩ := hw; cases x
  | join n rm =>
    obtain ⟨o, ms, x, rfl, hev, hobj⟩ := hw
    cases x
    refine ⟨n, hobj, ?_⟩
    obtain ⟨k1, k2, l, hl, k3, _, k4⟩ := c17_answer hr ha hk hb e2 hc
    have hns' : s'.c.namespace n = some obj := by unfold St.namespace at hobj ⊢; rw [k1]; exact hobj
    have hwait : msg.wait = [] := by
      have hok := (reach_ok hr).1 a (List.mem_of_getElem? ha)
      rw [hk] at hok
      exact hok.2.2
    have hv : verdict cc s.c obj msg = none := by
      unfold verdict
      split
      · exact hcons.accepts _ _ _ _ (.inl hev) hwait
      · split
        · exact hcons.accepts _ _ _ _ (.inl hev) hwait
        · rfl
    cases hm : m.err with
    | none =>
      have hin : InRoom s'.c n msg.room := ⟨obj, hns', (k2 _ _).mpr (.inr ⟨rfl, rfl, hm, hv⟩)⟩
      exact .inl ⟨by rw [hl, retOf_append, (k4 hm hv).ret], hin, (hag.2 n _).mp hin⟩
    | some e' =>
      have hcon : InRoom s'.c n msg.room ↔ InRoom s.c n msg.room := by
        simp only [InRoom, hns', hobj, Option.some.injEq]
        constructor
        · rintro ⟨o, rfl, h2⟩
          rcases (k2 _ _).mp h2 with y | y
          · exact ⟨_, rfl, y⟩
          · rw [hm] at y; cases y.2.2.1
        · rintro ⟨o, rfl, h2⟩
          exact ⟨_, rfl, (k2 _ _).mpr (.inl h2)⟩
      cases r with
      | none => rw [show m.err = none from hcar] at hm; cases hm
      | some e =>
        obtain ⟨e'', hx, hres⟩ := hcar
        rw [hm] at hx
        cases hx
        refine .inr ⟨e, e', by rw [hl, retOf_append, k3 e' hm]; rfl, hcon, (hag.2 n _).symm.trans hcon, hres, ?_⟩
        rw [e1]
        exact hno e rfl

/-- C18, both sides: when a Leave gets its answer, either it succeeds and neither side is in the
room, or it returns the error of the server's OnRoomLeave and both sides are where they were.
Partial as C16. -/
theorem c18_both_partial {i obj : Nat} {msg : Message} {a : AskRec} (hcons : Consistent cc sc)
    (hnc : cc.allowNative = false) (hns : sc.allowNative = false) (hcl : cc.isClient = true)
    (hsc : sc.isClient = false) (h : OneRun cc sc id ops s)
    (ha : s.c.asks[i]? = some a) (hk : a.cont = .leave obj msg)
    (hst : sstep cc sc s (.client (.resume i)) = some s')
    (hc : s'.c.closed = false) (hd : s'.d.closed = false) :
    ∃ ns, s.c.namespace ns = some obj ∧
    ((retOf s'.c.log = retOf s.c.log ++ [(.leave obj msg, .ok)] ∧
      ¬ InRoom s'.c ns msg.room ∧ ¬ InRoom s'.d ns msg.room) ∨
    ∃ e e', retOf s'.c.log = retOf s.c.log ++ [(.leave obj msg, .err e')] ∧
      (InRoom s'.c ns msg.room ↔ InRoom s.c ns msg.room) ∧ (InRoom s'.d ns msg.room ↔ InRoom s.c ns msg.room) ∧
      ResolvesTo cc.known e.errorText e' ∧ Refused s'.d OnRoomLeave ns msg.room e) := by
  obtain ⟨e1, e2, hr, hr1, hr2, hag, a', q, m, r, ha', hb, hw, hmv, hcar, hno⟩ :=
    resume_both hcons hnc hns hcl hsc h hst hc hd
  rw [ha] at ha'
  cases ha'
  rw [hk] at hw
  cases q with
  | disconnect n => obtain ⟨_, _, x, _⟩ := hw; cases x
  | connect n => obtain ⟨_, x, _⟩ := hw; cases x
  | join n rm => obtain ⟨_, _, x, _⟩ := hw; cases x
  | leave n rm =>
    obtain ⟨o, ms, x, rfl, hev, hobj⟩ := hw
    cases x
    refine ⟨n, hobj, ?_⟩
    obtain ⟨k1, k2, l, hl, k3, _, k4⟩ := c18_answer ha hk hb e2 hc
    have hns' : s'.c.namespace n = some obj := by unfold St.namespace at hobj ⊢; rw [k1]; exact hobj
    have hwait : msg.wait = [] := by
      have hok := (reach_ok hr).1 a (List.mem_of_getElem? ha)
      rw [hk] at hok
      exact hok.2.2
    have hv : verdict cc s.c obj msg = none := by
      unfold verdict
      split
      · exact hcons.accepts _ _ _ _ (.inr hev) hwait
      · split
        · exact hcons.accepts _ _ _ _ (.inr hev) hwait
        · rfl
    cases hm : m.err with
    | none =>
      have hin : ¬ InRoom s'.c n msg.room := by
        rintro ⟨o, h1, h2⟩
        rw [hns'] at h1
        cases h1
        exact ((k2 _ _).mp h2).2 ⟨rfl, rfl, hm, hv⟩
      exact .inl ⟨by rw [hl, retOf_append, (k4 hm hv).ret], hin, fun x => hin ((hag.2 n _).mpr x)⟩
    | some e' =>
      have hcon : InRoom s'.c n msg.room ↔ InRoom s.c n msg.room := by
        simp only [InRoom, hns', hobj, Option.some.injEq]
        constructor
        · rintro ⟨o, rfl, h2⟩
          exact ⟨_, rfl, ((k2 _ _).mp h2).1⟩
        · rintro ⟨o, rfl, h2⟩
          exact ⟨_, rfl, (k2 _ _).mpr ⟨h2, fun y => by rw [hm] at y; cases y.2.2.1⟩⟩
      cases r with
      | none => rw [show m.err = none from hcar] at hm; cases hm
      | some e =>
        obtain ⟨e'', hx, hres⟩ := hcar
        rw [hm] at hx
        cases hx
        refine .inr ⟨e, e', by rw [hl, retOf_append, k3 e' hm]; rfl, hcon, (hag.2 n _).symm.trans hcon, hres, ?_⟩
        rw [e1]
        exact hno e rfl

/-- C19, both sides: when a Disconnect gets its answer, either it succeeds and neither side is
connected, or it returns the error of the server's OnNamespaceDisconnect and both sides are still
connected. Partial as C16. -/
theorem c19_both_partial {i obj : Nat} {msg : Message} {a : AskRec} (hcons : Consistent cc sc)
    (hnc : cc.allowNative = false) (hns : sc.allowNative = false) (hcl : cc.isClient = true)
    (hsc : sc.isClient = false) (h : OneRun cc sc id ops s)
    (ha : s.c.asks[i]? = some a) (hk : a.cont = .disconnect obj msg)
    (hst : sstep cc sc s (.client (.resume i)) = some s')
    (hc : s'.c.closed = false) (hd : s'.d.closed = false) :
    (retOf s'.c.log = retOf s.c.log ++ [(.disconnect obj msg, .ok)] ∧ ¬ InNs s'.c msg.ns ∧ ¬ InNs s'.d msg.ns) ∨
    ∃ e e', retOf s'.c.log = retOf s.c.log ++ [(.disconnect obj msg, .err e')] ∧ InNs s'.c msg.ns ∧ InNs s'.d msg.ns ∧
      ResolvesTo cc.known e.errorText e' ∧ Refused s'.d OnNamespaceDisconnect msg.ns [] e := by
  obtain ⟨e1, e2, hr, hr1, hr2, hag, a', q, m, r, ha', hb, hw, hmv, hcar, hno⟩ :=
    resume_both hcons hnc hns hcl hsc h hst hc hd
  rw [ha] at ha'
  cases ha'
  rw [hk] at hw
  cases q with
  | connect n => obtain ⟨_, x, _⟩ := hw; cases x
  | join n rm => obtain ⟨_, _, x, _⟩ := hw; cases x
  | leave n rm => obtain ⟨_, _, x, _⟩ := hw; cases x
  | disconnect n =>
    obtain ⟨o, ms, x, rfl, hobj⟩ := hw
    cases x
    obtain ⟨k1, _, l, hl, k3, k4⟩ := c19_answer hr ha hk hb e2 hc
    cases hm : m.err with
    | none =>
      have hin : ¬ InNs s'.c msg.ns := by unfold InNs; rw [k1, if_pos ⟨rfl, hm⟩]; simp
      obtain ⟨rs, _, hadd⟩ := k4 hm
      exact .inl ⟨by rw [hl, retOf_append, hadd.ret], hin, fun x => hin ((hag.1 _).mpr x)⟩
    | some e' =>
      have hcon : InNs s'.c msg.ns := by unfold InNs; rw [k1, if_neg (by simp [hm]), hobj]; simp
      cases r with
      | none => rw [show m.err = none from hcar] at hm; cases hm
      | some e =>
        obtain ⟨e'', hx, hres⟩ := hcar
        rw [hm] at hx
        cases hx
        refine .inr ⟨e, e', by rw [hl, retOf_append, k3 e' hm]; rfl, hcon, (hag.1 _).mp hcon, hres, ?_⟩
        rw [e1]
        exact hno e rfl


/-! ## Concrete sessions -/

/-- `OneRequest`, computably, for the operations of the examples -/
def oneOk (s : Sess) : SessOp → Bool
  | .client .sendAck => s.c.log.isEmpty
  | .client (.write m) => s.c.ready == some none && (m.wait == [] && !m.isNative)
  | .client (.connect ns _ _) => may s.c && safe ns
  | .client (.disconnect obj _ _) => may s.c && safe (s.c.nsName obj)
  | .client (.join obj room _ _) => may s.c && linked s.c obj && safe (s.c.nsName obj) && safe room
  | .client (.leave obj room _ _) => may s.c && linked s.c obj && safe (s.c.nsName obj) && safe room
  | .client (.resume _) => true
  | .client .wake => true
  | .server (.write m) => m.wait == [] && !m.isNative
  | .server (.ready _) => true
  | .server .wake => true
  | .up => true
  | .down => true
  | _ => false
where
  may (c : St) : Bool := c.ready == some none && (c.asks.all (·.done) && c.rd = .idle)
  safe (b : Bytes) : Bool := unescape (escape b) == b

theorem oneOk_may {c : St} (h : oneOk.may c = true) : MayRequest c := by
  simp only [oneOk.may, Bool.and_eq_true, beq_iff_eq, List.all_eq_true, decide_eq_true_eq] at h
  exact ⟨h.1, h.2.1, h.2.2⟩

theorem oneOk_safe {b : Bytes} (h : oneOk.safe b = true) : SafeName b :=
  (unescape_escape_iff b).mp (by simpa [oneOk.safe] using h)

theorem oneOk_rules {s : Sess} {op : SessOp} (h : oneOk s op = true) : OneRequest s op := by
  cases op with
  | client o =>
    cases o <;> simp only [oneOk, Bool.and_eq_true, beq_iff_eq, Bool.not_eq_true', List.isEmpty_iff] at h <;>
      first
      | exact h
      | exact trivial
      | exact ⟨h.1, h.2.1, h.2.2⟩
      | exact ⟨oneOk_may h.1, oneOk_safe h.2⟩
      | exact ⟨oneOk_may h.1.1.1, h.1.1.2, oneOk_safe h.1.2, oneOk_safe h.2⟩
      | cases h
  | server o =>
    cases o <;> simp only [oneOk, Bool.and_eq_true, beq_iff_eq, Bool.not_eq_true'] at h <;>
      first
      | exact h
      | exact trivial
      | cases h
  | up => trivial
  | down => trivial
  | upAsk i => cases h
  | downAsk i => cases h

/-- run the steps, checking the rules -/
def oneRun (cc sc : Cfg) (s : Sess) : List SessOp → Option Sess
  | [] => some s
  | op :: ops =>
    if oneOk s op then
      match sstep cc sc s op with
      | some s' => oneRun cc sc s' ops
      | none => none
    else none

theorem oneRun_from {pre ops : List SessOp} {s s' : Sess} (h : OneRun cc sc id pre s)
    (hr : oneRun cc sc s ops = some s') : OneRun cc sc id (pre ++ ops) s' := by
  induction ops generalizing pre s with
  | nil => simp only [oneRun] at hr; cases hr; simpa using h
  | cons op ops ih =>
    simp only [oneRun] at hr
    split at hr
    · rename_i hok
      cases ho : sstep cc sc s op with
      | none => rw [ho] at hr; cases hr
      | some s1 =>
        rw [ho] at hr
        simpa using ih (h.step (oneOk_rules hok) ho) hr
    · cases hr

/-- the session after these steps -/
def ran (cc sc : Cfg) (id : Bytes) (ops : List SessOp) : Sess :=
  (oneRun cc sc (newSess cc sc id) ops).getD (newSess cc sc id)

theorem ran_run {ops : List SessOp} (h : (oneRun cc sc (newSess cc sc id) ops).isSome = true) :
    OneRun cc sc id ops (ran cc sc id ops) := by
  unfold ran
  cases hx : oneRun cc sc (newSess cc sc id) ops with
  | none => rw [hx] at h; cases h
  | some s' => exact oneRun_from .init hx

/-- computable membership -/
theorem not_agree {c d : St} {n r : Bytes} (h : (∃ obj, c.namespace n = some obj ∧ r ∈ c.rooms obj) ∧
    ¬ ∃ obj, d.namespace n = some obj ∧ r ∈ d.rooms obj) : ¬ Agree c d := fun ha => h.2 ((ha.2 n r).mp h.1)

/-- a client connects to `chat` and joins the room `r`, while the server emits -/
def joinSess : List SessOp :=
  dialOps ++ [.client (.connect (b! "chat") 7 false), .server (.write { ns := b! "chat", event := b! "hi" }),
    .up, .down, .client (.resume 0), .server (.write { ns := b! "chat", event := b! "hi" }), .down,
    .client (.join 0 (b! "r") 8 false), .client (.write { ns := b! "chat", event := b! "hi" }), .up, .up, .down,
    .client (.resume 1)]

theorem noCb_consistent : Consistent (clientCfg chatDecl noCb) (serverCfg chatDecl noCb) :=
  ⟨by intro _ _ _ _ _ h; simp [clientCfg, noCb] at h, by intro _ _ _ _ _ h; simp [serverCfg, clientCfg, noCb] at h,
    by intro _ _ _ _ _ _ h; simp [serverCfg, clientCfg, noCb] at h, by intro _ _ _ _ _ _; rfl⟩

/-- C16 at work: all hypotheses hold and both sides are in the room -/
example : ∃ s, Consistent (clientCfg chatDecl noCb) (serverCfg chatDecl noCb) ∧
    (clientCfg chatDecl noCb).allowNative = false ∧ (serverCfg chatDecl noCb).allowNative = false ∧
    OneRun (clientCfg chatDecl noCb) (serverCfg chatDecl noCb) (b! "u1") joinSess s ∧
    s.c.closed = false ∧ s.d.closed = false ∧ NoRequest s.c ∧
    s.c.namespace (b! "chat") = some 0 ∧ b! "r" ∈ s.c.rooms 0 ∧
    s.d.namespace (b! "chat") = some 0 ∧ b! "r" ∈ s.d.rooms 0 :=
  ⟨ran _ _ _ joinSess, noCb_consistent, by decide +kernel, by decide +kernel, ran_run (by decide +kernel),
    by decide +kernel, by decide +kernel, by unfold NoRequest; decide +kernel, by decide +kernel, by decide +kernel,
    by decide +kernel, by decide +kernel⟩


/-- the session after these steps, without checking the rules -/
def went (cc sc : Cfg) (id : Bytes) (ops : List SessOp) : Sess :=
  (srun cc sc (newSess cc sc id) ops).getD (newSess cc sc id)

theorem went_run {ops : List SessOp} (h : (srun cc sc (newSess cc sc id) ops).isSome = true) :
    srun cc sc (newSess cc sc id) ops = some (went cc sc id ops) := by
  unfold went
  cases hx : srun cc sc (newSess cc sc id) ops with
  | none => rw [hx] at h; cases h
  | some s' => rfl

/-- every callback accepts, except that this one returns this error -/
def vetoes (event : Bytes) (e : GoErr) : List Obs → Nat → Bytes → Message → List Act × Option GoErr :=
  fun _ _ _ msg => ([], if msg.event = event then some e else none)

/-- the session after one step -/
def stepped (cc sc : Cfg) (s : Sess) (op : SessOp) : Sess := (sstep cc sc s op).getD s

theorem stepped_eq {s : Sess} {op : SessOp} (h : (sstep cc sc s op).isSome = true) :
    sstep cc sc s op = some (stepped cc sc s op) := by
  unfold stepped
  cases hx : sstep cc sc s op with
  | none => rw [hx] at h; cases h
  | some s' => rfl

theorem has_cont {asks : List AskRec} {k : Nat} {c : Cont} (h : (asks[k]?).map (·.cont) = some c) :
    ∃ a, asks[k]? = some a ∧ a.cont = c := by
  cases hx : asks[k]? with
  | none => rw [hx] at h; cases h
  | some a => rw [hx] at h; exact ⟨a, rfl, Option.some.inj h⟩

theorem vetoes_consistent (event : Bytes) (e : GoErr) (h1 : e.errorText ≠ []) (h2 : ∀ b, e ≠ .reply b) :
    Consistent (clientCfg chatDecl noCb) (serverCfg chatDecl (vetoes event e)) :=
  by
  refine ⟨?_, ?_, ?_, ?_⟩
  · intro _ _ _ _ _ h; simp [clientCfg, noCb] at h
  · intro _ _ _ _ _ h; simp [serverCfg, clientCfg, vetoes] at h
  · intro _ _ _ msg e' _ h
    simp only [serverCfg, clientCfg, vetoes] at h
    split at h
    · cases h; exact ⟨h1, h2⟩
    · cases h
  · intro _ _ _ _ _ _; rfl

/-- connect to `chat` -/
def chatSess : List SessOp := dialOps ++ [.client (.connect (b! "chat") 7 false), .up, .down, .client (.resume 0)]

/-- connect to `chat` and ask to join `r`; the answer has arrived -/
def chatJoinSess : List SessOp := chatSess ++ [.client (.join 0 (b! "r") 8 false), .up, .down]

/-- join `r` and ask to leave it; the answer has arrived -/
def chatLeaveSess : List SessOp :=
  chatJoinSess ++ [.client (.resume 1), .client (.leave 0 (b! "r") 9 false), .up, .down]

/-- ask to disconnect; the answer has arrived -/
def chatLeftSess : List SessOp := chatSess ++ [.client (.disconnect 0 8 false), .up, .down]

/-- the client and the server of these examples; the server refuses this event -/
abbrev chatCli : Cfg := clientCfg chatDecl noCb
abbrev vetoSrv (event : Bytes) : Cfg := serverCfg chatDecl (vetoes event (.text (b! "no")))

/-- the client asked, the answer arrived: the session before and after the request returns -/
abbrev vetoBefore (event : Bytes) (ops : List SessOp) : Sess := ran chatCli (vetoSrv event) (b! "u1") ops
abbrev vetoAfter (event : Bytes) (ops : List SessOp) (k : Nat) : Sess :=
  stepped chatCli (vetoSrv event) (vetoBefore event ops) (.client (.resume k))

/-- C15, both sides: the hypotheses hold and the server refuses -/
example : Consistent chatCli (vetoSrv OnNamespaceConnect) ∧
    chatCli.allowNative = false ∧
    (vetoSrv OnNamespaceConnect).allowNative = false ∧
    OneRun chatCli (vetoSrv OnNamespaceConnect) (b! "u1") (chatSess.dropLast) (vetoBefore OnNamespaceConnect chatSess.dropLast) ∧
    (∃ a, (vetoBefore OnNamespaceConnect chatSess.dropLast).c.asks[0]? = some a ∧ a.cont = .connect (b! "chat") 0) ∧
    sstep chatCli (vetoSrv OnNamespaceConnect) (vetoBefore OnNamespaceConnect chatSess.dropLast) (.client (.resume 0)) = some (vetoAfter OnNamespaceConnect chatSess.dropLast 0) ∧
    (vetoAfter OnNamespaceConnect chatSess.dropLast 0).c.closed = false ∧
    (vetoAfter OnNamespaceConnect chatSess.dropLast 0).d.closed = false ∧
    (retOf (vetoAfter OnNamespaceConnect chatSess.dropLast 0).c.log).drop 0 = [(.connect (b! "chat") 0, .err (.text (b! "no")))] :=
  ⟨vetoes_consistent _ _ (by decide) (by simp),
    by decide +kernel,
    by decide +kernel,
    ran_run (by decide +kernel),
    has_cont (by decide +kernel),
    stepped_eq (by decide +kernel),
    by decide +kernel,
    by decide +kernel,
    by decide +kernel⟩

/-- C17, both sides: the hypotheses hold and the server refuses -/
example : Consistent chatCli (vetoSrv OnRoomJoin) ∧
    chatCli.allowNative = false ∧
    (vetoSrv OnRoomJoin).allowNative = false ∧
    OneRun chatCli (vetoSrv OnRoomJoin) (b! "u1") (chatJoinSess) (vetoBefore OnRoomJoin chatJoinSess) ∧
    (∃ a, (vetoBefore OnRoomJoin chatJoinSess).c.asks[1]? = some a ∧ a.cont = .join 0 (joinMsg (b! "chat") (b! "r"))) ∧
    sstep chatCli (vetoSrv OnRoomJoin) (vetoBefore OnRoomJoin chatJoinSess) (.client (.resume 1)) = some (vetoAfter OnRoomJoin chatJoinSess 1) ∧
    (vetoAfter OnRoomJoin chatJoinSess 1).c.closed = false ∧
    (vetoAfter OnRoomJoin chatJoinSess 1).d.closed = false ∧
    (retOf (vetoAfter OnRoomJoin chatJoinSess 1).c.log).drop 1 = [(.join 0 (joinMsg (b! "chat") (b! "r")), .err (.text (b! "no")))] :=
  ⟨vetoes_consistent _ _ (by decide) (by simp),
    by decide +kernel,
    by decide +kernel,
    ran_run (by decide +kernel),
    has_cont (by decide +kernel),
    stepped_eq (by decide +kernel),
    by decide +kernel,
    by decide +kernel,
    by decide +kernel⟩

/-- C18, both sides: the hypotheses hold and the server refuses -/
example : Consistent chatCli (vetoSrv OnRoomLeave) ∧
    chatCli.allowNative = false ∧
    (vetoSrv OnRoomLeave).allowNative = false ∧
    OneRun chatCli (vetoSrv OnRoomLeave) (b! "u1") (chatLeaveSess) (vetoBefore OnRoomLeave chatLeaveSess) ∧
    (∃ a, (vetoBefore OnRoomLeave chatLeaveSess).c.asks[2]? = some a ∧ a.cont = .leave 0 (leaveMsg (b! "chat") (b! "r"))) ∧
    sstep chatCli (vetoSrv OnRoomLeave) (vetoBefore OnRoomLeave chatLeaveSess) (.client (.resume 2)) = some (vetoAfter OnRoomLeave chatLeaveSess 2) ∧
    (vetoAfter OnRoomLeave chatLeaveSess 2).c.closed = false ∧
    (vetoAfter OnRoomLeave chatLeaveSess 2).d.closed = false ∧
    b! "r" ∈ (vetoAfter OnRoomLeave chatLeaveSess 2).c.rooms 0 ∧
    b! "r" ∈ (vetoAfter OnRoomLeave chatLeaveSess 2).d.rooms 0 ∧
    (retOf (vetoAfter OnRoomLeave chatLeaveSess 2).c.log).drop 2 = [(.leave 0 (leaveMsg (b! "chat") (b! "r")), .err (.text (b! "no")))] :=
  ⟨vetoes_consistent _ _ (by decide) (by simp),
    by decide +kernel,
    by decide +kernel,
    ran_run (by decide +kernel),
    has_cont (by decide +kernel),
    stepped_eq (by decide +kernel),
    by decide +kernel,
    by decide +kernel,
    by decide +kernel,
    by decide +kernel,
    by decide +kernel⟩

/-- C19, both sides: the hypotheses hold and the server refuses -/
example : Consistent chatCli (vetoSrv OnNamespaceDisconnect) ∧
    chatCli.allowNative = false ∧
    (vetoSrv OnNamespaceDisconnect).allowNative = false ∧
    OneRun chatCli (vetoSrv OnNamespaceDisconnect) (b! "u1") (chatLeftSess) (vetoBefore OnNamespaceDisconnect chatLeftSess) ∧
    (∃ a, (vetoBefore OnNamespaceDisconnect chatLeftSess).c.asks[1]? = some a ∧ a.cont = .disconnect 0 (disconnectMsg (b! "chat"))) ∧
    sstep chatCli (vetoSrv OnNamespaceDisconnect) (vetoBefore OnNamespaceDisconnect chatLeftSess) (.client (.resume 1)) = some (vetoAfter OnNamespaceDisconnect chatLeftSess 1) ∧
    (vetoAfter OnNamespaceDisconnect chatLeftSess 1).c.closed = false ∧
    (vetoAfter OnNamespaceDisconnect chatLeftSess 1).d.closed = false ∧
    (vetoAfter OnNamespaceDisconnect chatLeftSess 1).c.namespace (b! "chat") = some 0 ∧
    (retOf (vetoAfter OnNamespaceDisconnect chatLeftSess 1).c.log).drop 1 = [(.disconnect 0 (disconnectMsg (b! "chat")), .err (.text (b! "no")))] :=
  ⟨vetoes_consistent _ _ (by decide) (by simp),
    by decide +kernel,
    by decide +kernel,
    ran_run (by decide +kernel),
    has_cont (by decide +kernel),
    stepped_eq (by decide +kernel),
    by decide +kernel,
    by decide +kernel,
    by decide +kernel,
    by decide +kernel⟩

/-! ## Where C16 fails -/

/-- both sides, open, with nothing in flight anywhere, disagree -/
def Diverged (s : Sess) : Prop :=
  s.c.closed = false ∧ s.d.closed = false ∧ NoRequest s.c ∧ s.up = (pipe s.c.log).length ∧
    s.down = (pipe s.d.log).length ∧ ¬ Agree s.c s.d

theorem diverged_up {s : Sess} {n r : Bytes} {obj : Nat} (h : s.c.closed = false ∧ s.d.closed = false ∧
    (∀ a ∈ s.c.asks, a.done = true) ∧ s.up = (pipe s.c.log).length ∧ s.down = (pipe s.d.log).length)
    (h1 : s.c.namespace n = some obj ∧ r ∈ s.c.rooms obj)
    (h2 : ∀ o, s.d.namespace n = some o → r ∉ s.d.rooms o) : Diverged s :=
  ⟨h.1, h.2.1, h.2.2.1, h.2.2.2.1, h.2.2.2.2,
    fun ha => by obtain ⟨o, x, y⟩ := (ha.2 n r).mp ⟨obj, h1⟩; exact h2 o x y⟩

theorem diverged_down {s : Sess} {n r : Bytes} {obj : Nat} (h : s.c.closed = false ∧ s.d.closed = false ∧
    (∀ a ∈ s.c.asks, a.done = true) ∧ s.up = (pipe s.c.log).length ∧ s.down = (pipe s.d.log).length)
    (h1 : s.d.namespace n = some obj ∧ r ∈ s.d.rooms obj)
    (h2 : ∀ o, s.c.namespace n = some o → r ∉ s.c.rooms o) : Diverged s :=
  ⟨h.1, h.2.1, h.2.2.1, h.2.2.2.1, h.2.2.2.2,
    fun ha => by obtain ⟨o, x, y⟩ := (ha.2 n r).mpr ⟨obj, h1⟩; exact h2 o x y⟩

theorem notIn_of {c : St} {n r : Bytes} {obj : Nat} (h : c.namespace n = some obj) (h2 : r ∉ c.rooms obj) :
    ∀ o, c.namespace n = some o → r ∉ c.rooms o := by
  intro o ho
  rw [h] at ho
  cases ho
  exact h2

/-- the whole of a join -/
def joinedSess : List SessOp := chatJoinSess ++ [.client (.resume 1)]

/-- C16 fails when the client's own OnRoomJoin returns an error: the server was asked first and is in
the room, conn_namespace.go:192-200. Everything else is as required. -/
theorem c16_refuted_local_veto : ∃ (cc sc : Cfg) (id : Bytes) (ops : List SessOp) (s : Sess),
    cc.isClient = true ∧ sc.isClient = false ∧ cc.allowNative = false ∧ sc.allowNative = false ∧
    (∀ log obj h msg, sc.cb log obj h msg = ([], none)) ∧
    (∀ log obj h msg, (cc.cb log obj h msg).1 = []) ∧ OneRun cc sc id ops s ∧ Diverged s := by
  refine ⟨clientCfg chatDecl (vetoes OnRoomJoin (.text (b! "no"))), serverCfg chatDecl noCb, b! "u1", joinedSess,
    ran _ _ _ joinedSess, rfl, rfl, by decide +kernel, by decide +kernel, fun _ _ _ _ => rfl, fun _ _ _ _ => rfl,
    ran_run (by decide +kernel), ?_⟩
  exact diverged_down (n := b! "chat") (r := b! "r") (obj := 0) (by decide +kernel) (by decide +kernel)
    (notIn_of (obj := 0) (by decide +kernel) (by decide +kernel))

/-- C16 fails when the server refuses with a `Reply`: it crosses as an answer without an error. -/
theorem c16_refuted_reply : ∃ (cc sc : Cfg) (id : Bytes) (ops : List SessOp) (s : Sess),
    cc.isClient = true ∧ sc.isClient = false ∧ cc.allowNative = false ∧ sc.allowNative = false ∧
    (∀ log obj h msg, cc.cb log obj h msg = ([], none)) ∧
    (∀ log obj h msg, (sc.cb log obj h msg).1 = []) ∧
    (∀ log obj h msg e, (sc.cb log obj h msg).2 = some e → ∃ b, e = .reply b ∧ b ≠ []) ∧
    OneRun cc sc id ops s ∧ Diverged s := by
  refine ⟨clientCfg chatDecl noCb, serverCfg chatDecl (vetoes OnRoomJoin (.reply (b! "no"))), b! "u1", joinedSess,
    ran _ _ _ joinedSess, rfl, rfl, by decide +kernel, by decide +kernel, fun _ _ _ _ => rfl, fun _ _ _ _ => rfl,
    ?_, ran_run (by decide +kernel), ?_⟩
  · intro log obj h msg e he
    simp only [serverCfg, clientCfg, vetoes] at he
    split at he
    · cases he; exact ⟨_, rfl, by decide⟩
    · cases he
  · exact diverged_up (n := b! "chat") (r := b! "r") (obj := 0) (by decide +kernel) (by decide +kernel)
      (notIn_of (obj := 0) (by decide +kernel) (by decide +kernel))

/-- C16 fails when the server refuses with an error that has an empty text: it is lost on the wire. -/
theorem c16_refuted_empty_error : ∃ (cc sc : Cfg) (id : Bytes) (ops : List SessOp) (s : Sess),
    cc.isClient = true ∧ sc.isClient = false ∧ cc.allowNative = false ∧ sc.allowNative = false ∧
    (∀ log obj h msg, cc.cb log obj h msg = ([], none)) ∧
    (∀ log obj h msg, (sc.cb log obj h msg).1 = []) ∧
    (∀ log obj h msg e, (sc.cb log obj h msg).2 = some e → e = .text []) ∧
    OneRun cc sc id ops s ∧ Diverged s := by
  refine ⟨clientCfg chatDecl noCb, serverCfg chatDecl (vetoes OnRoomJoin (.text [])), b! "u1", joinedSess,
    ran _ _ _ joinedSess, rfl, rfl, by decide +kernel, by decide +kernel, fun _ _ _ _ => rfl, fun _ _ _ _ => rfl,
    ?_, ran_run (by decide +kernel), ?_⟩
  · intro log obj h msg e he
    simp only [serverCfg, clientCfg, vetoes] at he
    split at he
    · cases he; rfl
    · cases he
  · exact diverged_up (n := b! "chat") (r := b! "r") (obj := 0) (by decide +kernel) (by decide +kernel)
      (notIn_of (obj := 0) (by decide +kernel) (by decide +kernel))

/-- C15 fails when the server's OnNamespaceConnect returns an error that has an empty text: Connect returns the namespace
although only the client is connected. -/
theorem c15_refuted_empty_error : ∃ (cc sc : Cfg) (id : Bytes) (ops : List SessOp) (s : Sess),
    cc.isClient = true ∧ sc.isClient = false ∧ cc.allowNative = false ∧ sc.allowNative = false ∧
    (∀ log obj h msg, cc.cb log obj h msg = ([], none)) ∧
    (∀ log obj h msg, (sc.cb log obj h msg).1 = []) ∧
    (∀ log obj h msg e, (sc.cb log obj h msg).2 = some e → e = .text []) ∧
    OneRun cc sc id ops s ∧ s.c.closed = false ∧ s.d.closed = false ∧
    retOf s.c.log = [(.connect (b! "chat") 0, .nsConn 0)] ∧ InNs s.c (b! "chat") ∧ ¬ InNs s.d (b! "chat") := by
  refine ⟨clientCfg chatDecl noCb, serverCfg chatDecl (vetoes OnNamespaceConnect (.text [])), b! "u1", chatSess,
    ran _ _ _ chatSess, rfl, rfl, by decide +kernel, by decide +kernel, fun _ _ _ _ => rfl, fun _ _ _ _ => rfl,
    ?_, ran_run (by decide +kernel), by decide +kernel, by decide +kernel, by decide +kernel,
    by unfold InNs; decide +kernel, by unfold InNs; decide +kernel⟩
  intro log obj h msg e he
  simp only [serverCfg, clientCfg, vetoes] at he
  split at he
  · cases he; rfl
  · cases he

/-- C15 fails when the server's OnNamespaceConnect returns a `Reply`, which it does not accept either. -/
theorem c15_refuted_reply : ∃ (cc sc : Cfg) (id : Bytes) (ops : List SessOp) (s : Sess),
    cc.isClient = true ∧ sc.isClient = false ∧ cc.allowNative = false ∧ sc.allowNative = false ∧
    (∀ log obj h msg, cc.cb log obj h msg = ([], none)) ∧
    (∀ log obj h msg, (sc.cb log obj h msg).1 = []) ∧
    (∀ log obj h msg e, (sc.cb log obj h msg).2 = some e → ∃ b, e = .reply b ∧ b ≠ []) ∧
    OneRun cc sc id ops s ∧ s.c.closed = false ∧ s.d.closed = false ∧
    retOf s.c.log = [(.connect (b! "chat") 0, .nsConn 0)] ∧ InNs s.c (b! "chat") ∧ ¬ InNs s.d (b! "chat") := by
  refine ⟨clientCfg chatDecl noCb, serverCfg chatDecl (vetoes OnNamespaceConnect (.reply (b! "no"))), b! "u1", chatSess,
    ran _ _ _ chatSess, rfl, rfl, by decide +kernel, by decide +kernel, fun _ _ _ _ => rfl, fun _ _ _ _ => rfl,
    ?_, ran_run (by decide +kernel), by decide +kernel, by decide +kernel, by decide +kernel,
    by unfold InNs; decide +kernel, by unfold InNs; decide +kernel⟩
  intro log obj h msg e he
  simp only [serverCfg, clientCfg, vetoes] at he
  split at he
  · cases he; exact ⟨_, rfl, by decide⟩
  · cases he

/-- connect, disconnect, connect again and join through the first NSConn -/
def staleSess : List SessOp :=
  chatLeftSess ++ [.client (.resume 1), .client (.connect (b! "chat") 9 false), .up, .down, .client (.resume 2),
    .client (.join 0 (b! "r") 10 false), .up, .down, .client (.resume 3)]

/-- C16 fails when the client joins through an NSConn of an earlier connection to the namespace: the
server joins the namespace that is connected now, the client the one it was called on. -/
theorem c16_refuted_stale : ∃ (cc sc : Cfg) (id : Bytes) (ops : List SessOp) (s : Sess),
    cc.isClient = true ∧ sc.isClient = false ∧ cc.allowNative = false ∧ sc.allowNative = false ∧
    Consistent cc sc ∧ srun cc sc (newSess cc sc id) ops = some s ∧ Diverged s := by
  refine ⟨clientCfg chatDecl noCb, serverCfg chatDecl noCb, b! "u1", staleSess,
    went _ _ _ staleSess, rfl, rfl, by decide +kernel, by decide +kernel, noCb_consistent,
    went_run (by decide +kernel), ?_⟩
  exact diverged_down (n := b! "chat") (r := b! "r") (obj := 1) (by decide +kernel) (by decide +kernel)
    (notIn_of (obj := 1) (by decide +kernel) (by decide +kernel))

/-- join; the context is done before the server has read the request; the answer comes later -/
def timeoutSess : List SessOp :=
  chatSess ++ [.client (.join 0 (b! "r") 8 false), .client (.cancel 1 errDeadline), .up, .down]

/-- C16 fails when the context of a JoinRoom is done before the answer: the server joins. -/
theorem c16_refuted_timeout : ∃ (cc sc : Cfg) (id : Bytes) (ops : List SessOp) (s : Sess),
    cc.isClient = true ∧ sc.isClient = false ∧ cc.allowNative = false ∧ sc.allowNative = false ∧
    Consistent cc sc ∧ srun cc sc (newSess cc sc id) ops = some s ∧ Diverged s := by
  refine ⟨clientCfg chatDecl noCb, serverCfg chatDecl noCb, b! "u1", timeoutSess,
    went _ _ _ timeoutSess, rfl, rfl, by decide +kernel, by decide +kernel, noCb_consistent,
    went_run (by decide +kernel), ?_⟩
  exact diverged_down (n := b! "chat") (r := b! "r") (obj := 0) (by decide +kernel) (by decide +kernel)
    (notIn_of (obj := 0) (by decide +kernel) (by decide +kernel))

/-- join a room with the name that stands for `;` on the wire -/
def escapedSess : List SessOp :=
  chatSess ++ [.client (.join 0 (b! "@%!semicolon@%!") 8 false), .up, .down, .client (.resume 1)]

/-- C16 fails for a room whose name is what a semicolon is escaped to: the server joins the room
named `;`. -/
theorem c16_refuted_name : ∃ (cc sc : Cfg) (id : Bytes) (ops : List SessOp) (s : Sess),
    cc.isClient = true ∧ sc.isClient = false ∧ cc.allowNative = false ∧ sc.allowNative = false ∧
    Consistent cc sc ∧ srun cc sc (newSess cc sc id) ops = some s ∧ Diverged s := by
  refine ⟨clientCfg chatDecl noCb, serverCfg chatDecl noCb, b! "u1", escapedSess,
    went _ _ _ escapedSess, rfl, rfl, by decide +kernel, by decide +kernel, noCb_consistent,
    went_run (by decide +kernel), ?_⟩
  exact diverged_up (n := b! "chat") (r := b! "@%!semicolon@%!") (obj := 0) (by decide +kernel) (by decide +kernel)
    (notIn_of (obj := 0) (by decide +kernel) (by decide +kernel))

/-- does the log hold such a refusal? -/
def refusedIn (log : List Obs) (event ns room : Bytes) (e : GoErr) : Bool :=
  log.any fun o => match o with
    | .fired _ _ msg (some _) (some e') => decide (msg.event = event ∧ msg.ns = ns ∧ msg.room = room ∧ e' = e)
    | _ => false

theorem refused_of {c : St} {event ns room : Bytes} {e : GoErr} (h : refusedIn c.log event ns room e = true) :
    Refused c event ns room e := by
  obtain ⟨o, ho, h⟩ := List.any_eq_true.mp h
  split at h
  · obtain ⟨h1, h2, h3, h4⟩ := of_decide_eq_true h
    subst h4
    exact ⟨_, _, _, _, ho, h1, h2, h3⟩
  · cases h

/-- C18 fails when the server refuses with a `Reply`: Leave returns nil and the client leaves while
the server keeps it in the room. -/
theorem c18_refuted_reply : ∃ (cc sc : Cfg) (id : Bytes) (ops : List SessOp) (s : Sess),
    cc.isClient = true ∧ sc.isClient = false ∧ cc.allowNative = false ∧ sc.allowNative = false ∧
    OneRun cc sc id ops s ∧
    Refused s.d OnRoomLeave (b! "chat") (b! "r") (.reply (b! "no")) ∧
    (retOf s.c.log).drop 2 = [(.leave 0 (leaveMsg (b! "chat") (b! "r")), .ok)] ∧ Diverged s := by
  refine ⟨chatCli, serverCfg chatDecl (vetoes OnRoomLeave (.reply (b! "no"))), b! "u1",
    chatLeaveSess ++ [.client (.resume 2)], ran _ _ _ (chatLeaveSess ++ [.client (.resume 2)]), rfl, rfl,
    by decide +kernel, by decide +kernel, ran_run (by decide +kernel), ?_, by decide +kernel, ?_⟩
  · exact refused_of (by decide +kernel)
  · exact diverged_down (n := b! "chat") (r := b! "r") (obj := 0) (by decide +kernel) (by decide +kernel)
      (notIn_of (obj := 0) (by decide +kernel) (by decide +kernel))

/-- C19 fails when the server refuses with a `Reply`: Disconnect returns nil and the client is
disconnected while the server is connected. -/
theorem c19_refuted_reply : ∃ (cc sc : Cfg) (id : Bytes) (ops : List SessOp) (s : Sess),
    cc.isClient = true ∧ sc.isClient = false ∧ cc.allowNative = false ∧ sc.allowNative = false ∧
    OneRun cc sc id ops s ∧
    Refused s.d OnNamespaceDisconnect (b! "chat") [] (.reply (b! "no")) ∧
    (retOf s.c.log).drop 1 = [(.disconnect 0 (disconnectMsg (b! "chat")), .ok)] ∧
    s.c.closed = false ∧ s.d.closed = false ∧ ¬ InNs s.c (b! "chat") ∧ InNs s.d (b! "chat") := by
  refine ⟨chatCli, serverCfg chatDecl (vetoes OnNamespaceDisconnect (.reply (b! "no"))), b! "u1",
    chatLeftSess ++ [.client (.resume 1)], ran _ _ _ (chatLeftSess ++ [.client (.resume 1)]), rfl, rfl,
    by decide +kernel, by decide +kernel, ran_run (by decide +kernel), ?_, by decide +kernel, by decide +kernel,
    by decide +kernel, ?_, ?_⟩
  · exact refused_of (by decide +kernel)
  · unfold InNs; decide +kernel
  · unfold InNs; decide +kernel

end Neffos
