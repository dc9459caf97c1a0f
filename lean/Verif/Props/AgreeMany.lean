import Verif.Proofs.AgreeMany
import Verif.Props.Agree
/-!
# C78: both sides agree while any number of calls are in flight
-/
set_option autoImplicit false
namespace Neffos
open Neffos.Spec

variable {cc sc : Cfg} {id : Bytes} {ops : List SessOp} {s s' : Sess}

/-- C78: with any number of calls of the client in flight, none of which clash, both sides are
connected to the same namespaces, except those that a Connect or Disconnect in flight is about. -/
theorem c78_namespaces (hcons : Consistent cc sc) (hnc : cc.allowNative = false)
    (hns : sc.allowNative = false) (hcl : cc.isClient = true) (hsc : sc.isClient = false)
    (h : ManyRun cc sc id ops s) (hc : s.c.closed = false) (hd : s.d.closed = false) {n : Bytes}
    (hn : ∀ a ∈ s.c.asks, a.done = false → about a.cont ≠ some (n, none)) : InNs s.c n ↔ InNs s.d n := by
  rcases (many_inv hcons hnc hns hcl hsc h).phase with x | x | ⟨hf, x, hea⟩ | ⟨A, B, X, x⟩
  · rw [hc] at x; cases x
  · rw [hd] at x; cases x
  · exact (phase_agree x (fun a ha => by rw [hf.asks] at ha; cases ha)).1 n
  · exact x.agree_ns hn

/-- C78: and both have joined the same rooms, except those that a call in flight is about. -/
theorem c78_rooms (hcons : Consistent cc sc) (hnc : cc.allowNative = false)
    (hns : sc.allowNative = false) (hcl : cc.isClient = true) (hsc : sc.isClient = false)
    (h : ManyRun cc sc id ops s) (hc : s.c.closed = false) (hd : s.d.closed = false) {n r : Bytes}
    (hn : Unclaimed s.c (n, some r)) : InRoom s.c n r ↔ InRoom s.d n r := by
  rcases (many_inv hcons hnc hns hcl hsc h).phase with x | x | ⟨hf, x, hea⟩ | ⟨A, B, X, x⟩
  · rw [hc] at x; cases x
  · rw [hd] at x; cases x
  · exact (phase_agree x (fun a ha => by rw [hf.asks] at ha; cases ha)).2 n r
  · exact x.agree_room hn

/-- C78: when all calls have completed, both sides agree about everything. -/
theorem c78_agree (hcons : Consistent cc sc) (hnc : cc.allowNative = false)
    (hns : sc.allowNative = false) (hcl : cc.isClient = true) (hsc : sc.isClient = false)
    (h : ManyRun cc sc id ops s) (hc : s.c.closed = false) (hd : s.d.closed = false)
    (hn : NoRequest s.c) : Agree s.c s.d := by
  have hno : ∀ a ∈ s.c.asks, a.done = false → False := fun a ha hx => by
    rw [hn a ha] at hx; cases hx
  exact ⟨fun n => c78_namespaces hcons hnc hns hcl hsc h hc hd fun a ha hx => (hno a ha hx).elim,
    fun n r => c78_rooms hcons hnc hns hcl hsc h hc hd fun a ha hx => (hno a ha hx).elim⟩

/-- the state in which a call of the client completes, others being in flight -/
theorem resume_many {i : Nat} {a : AskRec} (hcons : Consistent cc sc) (hnc : cc.allowNative = false)
    (hns : sc.allowNative = false) (hcl : cc.isClient = true) (hsc : sc.isClient = false)
    (h : ManyRun cc sc id ops s) (ha : s.c.asks[i]? = some a) (hu : a.cont ≠ .user)
    (hst : sstep cc sc s (.client (.resume i)) = some s')
    (hc : s'.c.closed = false) (hd : s'.d.closed = false) :
    s'.d = s.d ∧ step cc s.c (.resume i) = some s'.c ∧ Reach cc [] s.c ∧ Reach cc [] s'.c ∧ Reach sc id s'.d ∧
      ∃ q m r, a.box = some m ∧ Waits q a.cont s.c ∧
        MovesHere q r.isNone s.c s.d ∧ Carries cc.known r m.err ∧ (∀ e, r = some e → q.No sc s.d e) ∧
        (∀ n, q.onNs n → (InNs s'.c n ↔ InNs s'.d n)) ∧ ∀ n r, q.onRoom n r → (InRoom s'.c n r ↔ InRoom s'.d n r) := by
  have hinv := many_inv hcons hnc hns hcl hsc h
  have hinv' := many_inv hcons hnc hns hcl hsc (h.step (op := .client (.resume i)) trivial hst)
  simp only [sstep, Op.reads, Bool.false_eq_true, if_false] at hst
  obtain ⟨t, ht, rfl⟩ := Option.map_eq_some_iff.mp hst
  have hc0 := closed_of_prims (reach_prims hinv.rc ht) hc
  rcases hinv.phase with x | x | ⟨hf, x, hea⟩ | ⟨A, B, X, x⟩
  · rw [hc0] at x; cases x
  · rw [show s.d.closed = false from hd] at x; cases x
  · rw [hf.asks] at ha; simp at ha
  · obtain ⟨_, a', m, ha', hb, hinfo, _⟩ := many_resume hcons hinv.rc x ht hc
    rw [ha] at ha'
    cases ha'
    obtain ⟨q, r, k1, k2, k3, k4, k5, k6⟩ := hinfo hu
    exact ⟨rfl, ht, hinv.rc, hinv'.rc, hinv'.rd, q, m, r, hb, k1, k2, k3, k4, k5, k6⟩

/-- C78: with any number of other calls in flight, when a Connect gets its answer, either it returns the namespace and both sides
are connected, both declare it and both OnNamespaceConnect returned nil; or it returns an error,
neither side is connected, and the error is that of the server, which does not declare the
namespace or whose OnNamespaceConnect returned it. -/
theorem c78_connect {i obj : Nat} {ns : Bytes} {a : AskRec} (hcons : Consistent cc sc)
    (hnc : cc.allowNative = false) (hns : sc.allowNative = false) (hcl : cc.isClient = true)
    (hsc : sc.isClient = false) (h : ManyRun cc sc id ops s)
    (ha : s.c.asks[i]? = some a) (hk : a.cont = .connect ns obj)
    (hst : sstep cc sc s (.client (.resume i)) = some s')
    (hc : s'.c.closed = false) (hd : s'.d.closed = false) :
    (retOf s'.c.log = retOf s.c.log ++ [(.connect ns obj, .nsConn obj)] ∧ s'.c.namespace ns = some obj ∧
      Allowed cc s'.c ns ∧ Allowed sc s'.d ns) ∨
    ∃ e e', retOf s'.c.log = retOf s.c.log ++ [(.connect ns obj, .err e')] ∧ ¬ InNs s'.c ns ∧ ¬ InNs s'.d ns ∧
      ResolvesTo cc.known e.errorText e' ∧
        ((e = errBadNamespace ∧ mapGet sc.decl ns = none) ∨ Refused s'.d OnNamespaceConnect ns [] e) := by
  obtain ⟨e1, e2, hr, hr1, hr2, q, m, r, hb, hw, _, hcar, hno, hag1, hag2⟩ :=
    resume_many hcons hnc hns hcl hsc h ha (by rw [hk]; simp) hst hc hd
  rw [hk] at hw
  cases q with
  | disconnect n => obtain ⟨_, _, x, _⟩ := hw; cases x
  | join n rm => obtain ⟨_, _, x, _⟩ := hw; cases x
  | leave n rm => obtain ⟨_, _, x, _⟩ := hw; cases x
  | connect n =>
    obtain ⟨o, x, hnone, _⟩ := hw
    cases x
    obtain ⟨k1, _, l, hl, k3, k4⟩ := c15_answer hr ha hk hb e2 hc
    cases hm : m.err with
    | none =>
      have hcon : s'.c.namespace ns = some obj := by rw [k1, if_pos ⟨rfl, hm⟩]
      have hin : InNs s'.c ns := by unfold InNs; rw [hcon]; simp
      refine .inl ⟨by rw [hl, retOf_append, (k4 hm).ret], hcon, allowed_of hr1 hnc hin, ?_⟩
      exact allowed_of hr2 hns ((hag1 _ rfl).mp hin)
    | some e' =>
      have hcon : ¬ InNs s'.c ns := by unfold InNs; rw [k1, if_neg (by simp [hm]), hnone]; simp
      cases r with
      | none => rw [show m.err = none from hcar] at hm; cases hm
      | some e =>
        obtain ⟨e'', hx, hres⟩ := hcar
        rw [hm] at hx
        cases hx
        refine .inr ⟨e, e', by rw [hl, retOf_append, k3 e' hm]; rfl, hcon, fun x => hcon ((hag1 _ rfl).mpr x), hres, ?_⟩
        rw [e1]
        exact hno e rfl

/-- C78: with any number of other calls in flight, when a JoinRoom gets its answer, either it returns the room and both sides are
in it, or it returns the error of the server's OnRoomJoin and neither side is in it. -/
theorem c78_join {i obj : Nat} {msg : Message} {a : AskRec} (hcons : Consistent cc sc)
    (hnc : cc.allowNative = false) (hns : sc.allowNative = false) (hcl : cc.isClient = true)
    (hsc : sc.isClient = false) (h : ManyRun cc sc id ops s)
    (ha : s.c.asks[i]? = some a) (hk : a.cont = .join obj msg) 
    (hst : sstep cc sc s (.client (.resume i)) = some s')
    (hc : s'.c.closed = false) (hd : s'.d.closed = false) :
    ∃ ns, s.c.namespace ns = some obj ∧
    ((retOf s'.c.log = retOf s.c.log ++ [(.join obj msg, .room obj msg.room)] ∧
      InRoom s'.c ns msg.room ∧ InRoom s'.d ns msg.room) ∨
    ∃ e e', retOf s'.c.log = retOf s.c.log ++ [(.join obj msg, .err e')] ∧
      (InRoom s'.c ns msg.room ↔ InRoom s.c ns msg.room) ∧ (InRoom s'.d ns msg.room ↔ InRoom s.c ns msg.room) ∧
      ResolvesTo cc.known e.errorText e' ∧ Refused s'.d OnRoomJoin ns msg.room e) := by
  obtain ⟨e1, e2, hr, hr1, hr2, q, m, r, hb, hw, _, hcar, hno, hag1, hag2⟩ :=
    resume_many hcons hnc hns hcl hsc h ha (by rw [hk]; simp) hst hc hd
  rw [hk] at hw
  cases q with
  | disconnect n => obtain ⟨_, _, x, _⟩ := hw; cases x
  | connect n => obtain ⟨_, x, _⟩ := hw; cases x
  | leave n rm => obtain ⟨_, _, x, _⟩ := hw; cases x
  | join n rm =>
    obtain ⟨o, ms, x, rfl, hev, hobj⟩ := hw
    cases x
    refine ⟨n, hobj, ?_⟩
    obtain ⟨k1, k2, l, hl, k3, _, k4⟩ := c17_answer hr ha hk hb e2 hc
    have hns' : s'.c.namespace n = some obj := by unfold St.namespace at hobj ⊢; rw [k1]; exact hobj
    have hwait : msg.wait = [] := by
      have hok := (reach_ok hr).1 a (List.mem_of_getElem? ha)
      rw [hk] at hok
      exact hok.2.2
    have hv : verdict cc s.c obj msg = none := by
      unfold verdict
      split
      · exact hcons.accepts _ _ _ _ (.inl hev) hwait
      · split
        · exact hcons.accepts _ _ _ _ (.inl hev) hwait
        · rfl
    cases hm : m.err with
    | none =>
      have hin : InRoom s'.c n msg.room := ⟨obj, hns', (k2 _ _).mpr (.inr ⟨rfl, rfl, hm, hv⟩)⟩
      exact .inl ⟨by rw [hl, retOf_append, (k4 hm hv).ret], hin, (hag2 _ _ ⟨rfl, rfl⟩).mp hin⟩
    | some e' =>
      have hcon : InRoom s'.c n msg.room ↔ InRoom s.c n msg.room := by
        simp only [InRoom, hns', hobj, Option.some.injEq]
        constructor
        · rintro ⟨o, rfl, h2⟩
          rcases (k2 _ _).mp h2 with y | y
          · exact ⟨_, rfl, y⟩
          · rw [hm] at y; cases y.2.2.1
        · rintro ⟨o, rfl, h2⟩
          exact ⟨_, rfl, (k2 _ _).mpr (.inl h2)⟩
      cases r with
      | none => rw [show m.err = none from hcar] at hm; cases hm
      | some e =>
        obtain ⟨e'', hx, hres⟩ := hcar
        rw [hm] at hx
        cases hx
        refine .inr ⟨e, e', by rw [hl, retOf_append, k3 e' hm]; rfl, hcon, (hag2 _ _ ⟨rfl, rfl⟩).symm.trans hcon, hres, ?_⟩
        rw [e1]
        exact hno e rfl

/-- C78: with any number of other calls in flight, when a Leave gets its answer, either it succeeds and neither side is in the
room, or it returns the error of the server's OnRoomLeave and both sides are where they were. -/
theorem c78_leave {i obj : Nat} {msg : Message} {a : AskRec} (hcons : Consistent cc sc)
    (hnc : cc.allowNative = false) (hns : sc.allowNative = false) (hcl : cc.isClient = true)
    (hsc : sc.isClient = false) (h : ManyRun cc sc id ops s)
    (ha : s.c.asks[i]? = some a) (hk : a.cont = .leave obj msg)
    (hst : sstep cc sc s (.client (.resume i)) = some s')
    (hc : s'.c.closed = false) (hd : s'.d.closed = false) :
    ∃ ns, s.c.namespace ns = some obj ∧
    ((retOf s'.c.log = retOf s.c.log ++ [(.leave obj msg, .ok)] ∧
      ¬ InRoom s'.c ns msg.room ∧ ¬ InRoom s'.d ns msg.room) ∨
    ∃ e e', retOf s'.c.log = retOf s.c.log ++ [(.leave obj msg, .err e')] ∧
      (InRoom s'.c ns msg.room ↔ InRoom s.c ns msg.room) ∧ (InRoom s'.d ns msg.room ↔ InRoom s.c ns msg.room) ∧
      ResolvesTo cc.known e.errorText e' ∧ Refused s'.d OnRoomLeave ns msg.room e) := by
  obtain ⟨e1, e2, hr, hr1, hr2, q, m, r, hb, hw, _, hcar, hno, hag1, hag2⟩ :=
    resume_many hcons hnc hns hcl hsc h ha (by rw [hk]; simp) hst hc hd
  rw [hk] at hw
  cases q with
  | disconnect n => obtain ⟨_, _, x, _⟩ := hw; cases x
  | connect n => obtain ⟨_, x, _⟩ := hw; cases x
  | join n rm => obtain ⟨_, _, x, _⟩ := hw; cases x
  | leave n rm =>
    obtain ⟨o, ms, x, rfl, hev, hobj⟩ := hw
    cases x
    refine ⟨n, hobj, ?_⟩
    obtain ⟨k1, k2, l, hl, k3, _, k4⟩ := c18_answer ha hk hb e2 hc
    have hns' : s'.c.namespace n = some obj := by unfold St.namespace at hobj ⊢; rw [k1]; exact hobj
    have hwait : msg.wait = [] := by
      have hok := (reach_ok hr).1 a (List.mem_of_getElem? ha)
      rw [hk] at hok
      exact hok.2.2
    have hv : verdict cc s.c obj msg = none := by
      unfold verdict
      split
      · exact hcons.accepts _ _ _ _ (.inr hev) hwait
      · split
        · exact hcons.accepts _ _ _ _ (.inr hev) hwait
        · rfl
    cases hm : m.err with
    | none =>
      have hin : ¬ InRoom s'.c n msg.room := by
        rintro ⟨o, h1, h2⟩
        rw [hns'] at h1
        cases h1
        exact ((k2 _ _).mp h2).2 ⟨rfl, rfl, hm, hv⟩
      exact .inl ⟨by rw [hl, retOf_append, (k4 hm hv).ret], hin, fun x => hin ((hag2 _ _ ⟨rfl, rfl⟩).mpr x)⟩
    | some e' =>
      have hcon : InRoom s'.c n msg.room ↔ InRoom s.c n msg.room := by
        simp only [InRoom, hns', hobj, Option.some.injEq]
        constructor
        · rintro ⟨o, rfl, h2⟩
          exact ⟨_, rfl, ((k2 _ _).mp h2).1⟩
        · rintro ⟨o, rfl, h2⟩
          exact ⟨_, rfl, (k2 _ _).mpr ⟨h2, fun y => by rw [hm] at y; cases y.2.2.1⟩⟩
      cases r with
      | none => rw [show m.err = none from hcar] at hm; cases hm
      | some e =>
        obtain ⟨e'', hx, hres⟩ := hcar
        rw [hm] at hx
        cases hx
        refine .inr ⟨e, e', by rw [hl, retOf_append, k3 e' hm]; rfl, hcon, (hag2 _ _ ⟨rfl, rfl⟩).symm.trans hcon, hres, ?_⟩
        rw [e1]
        exact hno e rfl

/-- C78: with any number of other calls in flight, when a Disconnect gets its answer, either it succeeds and neither side is
connected, or it returns the error of the server's OnNamespaceDisconnect and both sides are still
connected. -/
theorem c78_disconnect {i obj : Nat} {msg : Message} {a : AskRec} (hcons : Consistent cc sc)
    (hnc : cc.allowNative = false) (hns : sc.allowNative = false) (hcl : cc.isClient = true)
    (hsc : sc.isClient = false) (h : ManyRun cc sc id ops s)
    (ha : s.c.asks[i]? = some a) (hk : a.cont = .disconnect obj msg)
    (hst : sstep cc sc s (.client (.resume i)) = some s')
    (hc : s'.c.closed = false) (hd : s'.d.closed = false) :
    (retOf s'.c.log = retOf s.c.log ++ [(.disconnect obj msg, .ok)] ∧ ¬ InNs s'.c msg.ns ∧ ¬ InNs s'.d msg.ns) ∨
    ∃ e e', retOf s'.c.log = retOf s.c.log ++ [(.disconnect obj msg, .err e')] ∧ InNs s'.c msg.ns ∧ InNs s'.d msg.ns ∧
      ResolvesTo cc.known e.errorText e' ∧ Refused s'.d OnNamespaceDisconnect msg.ns [] e := by
  obtain ⟨e1, e2, hr, hr1, hr2, q, m, r, hb, hw, _, hcar, hno, hag1, hag2⟩ :=
    resume_many hcons hnc hns hcl hsc h ha (by rw [hk]; simp) hst hc hd
  rw [hk] at hw
  cases q with
  | connect n => obtain ⟨_, x, _⟩ := hw; cases x
  | join n rm => obtain ⟨_, _, x, _⟩ := hw; cases x
  | leave n rm => obtain ⟨_, _, x, _⟩ := hw; cases x
  | disconnect n =>
    obtain ⟨o, ms, x, rfl, hobj⟩ := hw
    cases x
    obtain ⟨k1, _, l, hl, k3, k4⟩ := c19_answer hr ha hk hb e2 hc
    cases hm : m.err with
    | none =>
      have hin : ¬ InNs s'.c msg.ns := by unfold InNs; rw [k1, if_pos ⟨rfl, hm⟩]; simp
      obtain ⟨rs, _, hadd⟩ := k4 hm
      exact .inl ⟨by rw [hl, retOf_append, hadd.ret], hin, fun x => hin ((hag1 _ rfl).mpr x)⟩
    | some e' =>
      have hcon : InNs s'.c msg.ns := by unfold InNs; rw [k1, if_neg (by simp [hm]), hobj]; simp
      cases r with
      | none => rw [show m.err = none from hcar] at hm; cases hm
      | some e =>
        obtain ⟨e'', hx, hres⟩ := hcar
        rw [hm] at hx
        cases hx
        refine .inr ⟨e, e', by rw [hl, retOf_append, k3 e' hm]; rfl, hcon, (hag1 _ rfl).mp hcon, hres, ?_⟩
        rw [e1]
        exact hno e rfl

/-- C78 covers C16: a history with one request at a time is one with several. -/
theorem c78_covers (h : OneRun cc sc id ops s) : ManyRun cc sc id ops s := by
  induction h with
  | init => exact .init
  | @step ops s s' op _ ho hs ih =>
    refine .step ih ?_ hs
    have hno : NoRequest s.c → ∀ x, Unclaimed s.c x := fun hn x a ha hd => by rw [hn a ha] at hd; cases hd
    have hmay : MayRequest s.c → ∀ now, MayAsk s.c now := fun h now =>
      ⟨h.1, h.2.2, fun a ha hd => by rw [h.2.1 a ha] at hd; cases hd⟩
    cases op with
    | client o =>
      cases o with
      | connect ns now ex => exact ⟨hmay ho.1 now, hno ho.1.2.1 _, ho.2⟩
      | disconnect obj now ex => exact ⟨hmay ho.1 now, hno ho.1.2.1 _, ho.2⟩
      | join obj room now ex => exact ⟨hmay ho.1 now, hno ho.1.2.1 _, ho.2⟩
      | leave obj room now ex => exact ⟨hmay ho.1 now, hno ho.1.2.1 _, ho.2⟩
      | ask m now ex => exact ho.elim
      | _ => exact ho
    | _ => exact ho

/-! ## Concrete sessions -/

/-- `ManyRequests`, computably, for the operations of the examples -/
def manyOk (s : Sess) : SessOp → Bool
  | .client (.connect ns now _) => may s.c now && free s.c (ns, none) && oneOk.safe ns
  | .client (.disconnect obj now _) => may s.c now && free s.c (s.c.nsName obj, none) && oneOk.safe (s.c.nsName obj)
  | .client (.join obj room now _) => may s.c now && free s.c (s.c.nsName obj, some room) &&
      (linked s.c obj && (oneOk.safe (s.c.nsName obj) && oneOk.safe room))
  | .client (.leave obj room now _) => may s.c now && free s.c (s.c.nsName obj, some room) &&
      (linked s.c obj && (oneOk.safe (s.c.nsName obj) && oneOk.safe room))
  | .client (.ask m now _) => may s.c now && (oneOk.safe m.ns && (oneOk.safe m.room && (oneOk.safe m.event &&
      !decide (m.event = OnNamespaceConnect ∨ m.event = OnNamespaceDisconnect ∨ m.event = OnRoomJoin ∨ m.event = OnRoomLeave))))
  | op => oneOk s op
where
  may (c : St) (now : Int) : Bool := c.ready == some none && (c.rd = .idle && c.asks.all fun a => a.done || a.tok != genWait true now)
  free (c : St) (x : Bytes × Option Bytes) : Bool := c.asks.all fun a => a.done || (match about a.cont with
    | some y => !(x.1 == y.1 && (x.2 == none || (y.2 == none || x.2 == y.2)))
    | none => true)

theorem manyOk_may {c : St} {now : Int} (h : manyOk.may c now = true) : MayAsk c now := by
  simp only [manyOk.may, Bool.and_eq_true, beq_iff_eq, List.all_eq_true, decide_eq_true_eq, Bool.or_eq_true, bne_iff_ne] at h
  exact ⟨h.1, h.2.1, fun a ha hd => (h.2.2 a ha).resolve_left (by simp [hd])⟩

theorem manyOk_free {c : St} {x : Bytes × Option Bytes} (h : manyOk.free c x = true) : Unclaimed c x := by
  simp only [manyOk.free, List.all_eq_true] at h
  intro a ha hd y hy
  have := h a ha
  rw [hd, hy] at this
  simp only [Bool.false_or, Bool.not_eq_true', Bool.and_eq_false_iff, beq_eq_false_iff_ne, Bool.or_eq_false_iff] at this
  rintro ⟨e1, e2⟩
  rcases this with k | ⟨k1, k2, k3⟩
  · exact k e1
  · rcases e2 with e | e | e
    · exact k1 e
    · exact k2 e
    · exact k3 e

theorem manyOk_rules {s : Sess} {op : SessOp} (h : manyOk s op = true) : ManyRequests s op := by
  cases op with
  | client o =>
    cases o with
    | connect ns now ex =>
      simp only [manyOk, Bool.and_eq_true] at h
      exact ⟨manyOk_may h.1.1, manyOk_free h.1.2, oneOk_safe h.2⟩
    | disconnect obj now ex =>
      simp only [manyOk, Bool.and_eq_true] at h
      exact ⟨manyOk_may h.1.1, manyOk_free h.1.2, oneOk_safe h.2⟩
    | join obj room now ex =>
      simp only [manyOk, Bool.and_eq_true] at h
      exact ⟨manyOk_may h.1.1, manyOk_free h.1.2, h.2.1, oneOk_safe h.2.2.1, oneOk_safe h.2.2.2⟩
    | leave obj room now ex =>
      simp only [manyOk, Bool.and_eq_true] at h
      exact ⟨manyOk_may h.1.1, manyOk_free h.1.2, h.2.1, oneOk_safe h.2.2.1, oneOk_safe h.2.2.2⟩
    | ask m now ex =>
      simp only [manyOk, Bool.and_eq_true, Bool.not_eq_true', decide_eq_false_iff_not] at h
      exact ⟨manyOk_may h.1, oneOk_safe h.2.1, oneOk_safe h.2.2.1, oneOk_safe h.2.2.2.1, h.2.2.2.2⟩
    | recv t b => exact (oneOk_rules (s := s) (op := .client (.recv t b)) h)
    | readErr e => exact (oneOk_rules (s := s) (op := .client (.readErr e)) h)
    | _ => simp only [manyOk] at h; exact oneOk_rules (s := s) h
  | _ => simp only [manyOk] at h; exact oneOk_rules (s := s) h

/-- run the steps, checking the rules -/
def manyRun (cc sc : Cfg) (s : Sess) : List SessOp → Option Sess
  | [] => some s
  | op :: ops =>
    if manyOk s op then
      match sstep cc sc s op with
      | some s' => manyRun cc sc s' ops
      | none => none
    else none

theorem manyRun_from {pre ops : List SessOp} {s s' : Sess} (h : ManyRun cc sc id pre s)
    (hr : manyRun cc sc s ops = some s') : ManyRun cc sc id (pre ++ ops) s' := by
  induction ops generalizing pre s with
  | nil => simp only [manyRun] at hr; cases hr; simpa using h
  | cons op ops ih =>
    simp only [manyRun] at hr
    split at hr
    · rename_i hok
      cases ho : sstep cc sc s op with
      | none => rw [ho] at hr; cases hr
      | some s1 =>
        rw [ho] at hr
        simpa using ih (h.step (manyOk_rules hok) ho) hr
    · cases hr

/-- the session after these steps -/
def manyRan (cc sc : Cfg) (id : Bytes) (ops : List SessOp) : Sess :=
  (manyRun cc sc (newSess cc sc id) ops).getD (newSess cc sc id)

theorem manyRan_run {ops : List SessOp} (h : (manyRun cc sc (newSess cc sc id) ops).isSome = true) :
    ManyRun cc sc id ops (manyRan cc sc id ops) := by
  unfold manyRan
  cases hx : manyRun cc sc (newSess cc sc id) ops with
  | none => rw [hx] at h; cases h
  | some s' => exact manyRun_from .init hx

/-- three namespaces -/
def busyDecl : List (Bytes × List Bytes) :=
  [(b! "chat", [OnAnyEvent]), (b! "game", [OnAnyEvent]), (b! "quiz", [OnAnyEvent])]

/-- the server refuses to connect to `quiz`, to join `b`, to leave `k` and to disconnect `game`;
it replies to `hi` -/
def busyCb : List Obs → Nat → Bytes → Message → List Act × Option GoErr := fun _ _ _ msg =>
  ([], if msg.event = OnNamespaceConnect ∧ msg.ns = b! "quiz" ∨ msg.event = OnRoomJoin ∧ msg.room = b! "b" ∨
      msg.event = OnRoomLeave ∧ msg.room = b! "k" ∨ msg.event = OnNamespaceDisconnect ∧ msg.ns = b! "game" then
        some (.text (b! "no"))
      else if msg.event = b! "hi" then some (.reply (b! "yo")) else none)

abbrev busyCli : Cfg := clientCfg busyDecl noCb
abbrev busySrv : Cfg := serverCfg busyDecl busyCb

theorem busy_consistent : Consistent busyCli busySrv := by
  refine ⟨?_, ?_, ?_, ?_⟩
  · intro _ _ _ _ _ h; simp [clientCfg, noCb] at h
  · intro _ _ _ _ _ h; simp [serverCfg, clientCfg, busyCb] at h
  · intro _ _ _ msg e' hq h
    simp only [serverCfg, clientCfg, busyCb] at h
    split at h
    · cases h; exact ⟨by decide, by simp⟩
    · split at h
      · rename_i hi
        rw [hi] at hq
        exact absurd hq (by unfold isRequest; decide +kernel)
      · cases h
  · intro _ _ _ _ _ _; rfl

/-- connect to `chat` and `game` at a time; the answers are taken in the other order; then join
`r`, `k` and `b`, connect to `quiz` and ask, all at a time; all answers have arrived -/
def busySess : List SessOp :=
  dialOps ++ [.client (.connect (b! "chat") 7 false), .client (.connect (b! "game") 8 false), .up, .up, .down, .down,
    .client (.resume 1), .client (.resume 0),
    .client (.join 0 (b! "r") 9 false), .client (.join 0 (b! "k") 10 false), .client (.join 0 (b! "b") 11 false),
    .client (.connect (b! "quiz") 12 false), .client (.ask { ns := b! "chat", event := b! "hi" } 13 false),
    .up, .up, .up, .up, .up, .down, .down, .down, .down, .down]

/-- take all but the reply to the ask, then leave `r` and `k` and disconnect `game`, at a time -/
def busierSess : List SessOp :=
  busySess ++ [.client (.resume 4), .client (.resume 5), .client (.resume 3), .client (.resume 2),
    .client (.leave 0 (b! "r") 14 false), .client (.leave 0 (b! "k") 15 false), .client (.disconnect 1 16 false),
    .up, .up, .up, .down, .down, .down]

abbrev busy : Sess := manyRan busyCli busySrv (b! "u1") busySess
abbrev busier : Sess := manyRan busyCli busySrv (b! "u1") busierSess

/-- one call of `busy` or `busier` returns -/
abbrev busyThen (s : Sess) (k : Nat) : Sess := stepped busyCli busySrv s (.client (.resume k))

/-- C78, the premises: two answers out of order, five calls in flight; the hypotheses hold, both
sides are connected to two namespaces and the room `q` is claimed by no call -/
example : Consistent busyCli busySrv ∧ busyCli.allowNative = false ∧ busySrv.allowNative = false ∧
    busyCli.isClient = true ∧ busySrv.isClient = false ∧ ManyRun busyCli busySrv (b! "u1") busySess busy ∧
    busy.c.closed = false ∧ busy.d.closed = false ∧ (busy.c.asks.filter fun a => !a.done).length = 5 ∧
    (∀ a ∈ busy.c.asks, a.done = false → about a.cont ≠ some (b! "game", none)) ∧
    busy.c.namespace (b! "game") = some 1 ∧ busy.d.namespace (b! "game") = some 1 ∧
    Unclaimed busy.c (b! "chat", some (b! "q")) ∧
    b! "r" ∈ busy.d.rooms 0 ∧ b! "r" ∉ busy.c.rooms 0 :=
  ⟨busy_consistent, by decide +kernel, by decide +kernel, by decide +kernel, by decide +kernel,
    manyRan_run (by decide +kernel), by decide +kernel, by decide +kernel, by decide +kernel, by decide +kernel,
    by decide +kernel, by decide +kernel, manyOk_free (by decide +kernel), by decide +kernel, by decide +kernel⟩

/-- C78, Join: with four other calls in flight one is refused; another one is accepted -/
example : ManyRun busyCli busySrv (b! "u1") busySess busy ∧
    (∃ a, busy.c.asks[4]? = some a ∧ a.cont = .join 0 (joinMsg (b! "chat") (b! "b"))) ∧
    sstep busyCli busySrv busy (.client (.resume 4)) = some (busyThen busy 4) ∧
    (busyThen busy 4).c.closed = false ∧ (busyThen busy 4).d.closed = false ∧
    (retOf (busyThen busy 4).c.log).drop 2 = [(.join 0 (joinMsg (b! "chat") (b! "b")), .err (.text (b! "no")))] ∧
    (∃ a, busy.c.asks[2]? = some a ∧ a.cont = .join 0 (joinMsg (b! "chat") (b! "r"))) ∧
    sstep busyCli busySrv busy (.client (.resume 2)) = some (busyThen busy 2) ∧
    (busyThen busy 2).c.closed = false ∧ (busyThen busy 2).d.closed = false ∧
    (retOf (busyThen busy 2).c.log).drop 2 = [(.join 0 (joinMsg (b! "chat") (b! "r")), .room 0 (b! "r"))] :=
  ⟨manyRan_run (by decide +kernel), has_cont (by decide +kernel), stepped_eq (by decide +kernel),
    by decide +kernel, by decide +kernel, by decide +kernel, has_cont (by decide +kernel),
    stepped_eq (by decide +kernel), by decide +kernel, by decide +kernel, by decide +kernel⟩

/-- C78, Connect: refused, with four other calls in flight -/
example : ManyRun busyCli busySrv (b! "u1") busySess busy ∧
    (∃ a, busy.c.asks[5]? = some a ∧ a.cont = .connect (b! "quiz") 2) ∧
    sstep busyCli busySrv busy (.client (.resume 5)) = some (busyThen busy 5) ∧
    (busyThen busy 5).c.closed = false ∧ (busyThen busy 5).d.closed = false ∧
    (retOf (busyThen busy 5).c.log).drop 2 = [(.connect (b! "quiz") 2, .err (.text (b! "no")))] :=
  ⟨manyRan_run (by decide +kernel), has_cont (by decide +kernel), stepped_eq (by decide +kernel),
    by decide +kernel, by decide +kernel, by decide +kernel⟩

/-- C78, Leave and Disconnect: `r` is left, `k` and `game` are refused, with others in flight -/
example : ManyRun busyCli busySrv (b! "u1") busierSess busier ∧
    (busier.c.asks.filter fun a => !a.done).length = 4 ∧
    (∃ a, busier.c.asks[7]? = some a ∧ a.cont = .leave 0 (leaveMsg (b! "chat") (b! "r"))) ∧
    (∃ a, busier.c.asks[8]? = some a ∧ a.cont = .leave 0 (leaveMsg (b! "chat") (b! "k"))) ∧
    (∃ a m, busier.c.asks[9]? = some a ∧ a.cont = .disconnect 1 m ∧ m.ns = b! "game") ∧
    sstep busyCli busySrv busier (.client (.resume 7)) = some (busyThen busier 7) ∧
    sstep busyCli busySrv busier (.client (.resume 8)) = some (busyThen busier 8) ∧
    sstep busyCli busySrv busier (.client (.resume 9)) = some (busyThen busier 9) ∧
    (∀ k ∈ [7, 8, 9], (busyThen busier k).c.closed = false ∧ (busyThen busier k).d.closed = false) ∧
    ((retOf (busyThen busier 7).c.log).drop 6).map (·.2) = [.ok] ∧
    ((retOf (busyThen busier 8).c.log).drop 6).map (·.2) = [.err (.text (b! "no"))] ∧
    ((retOf (busyThen busier 9).c.log).drop 6).map (·.2) = [.err (.text (b! "no"))] ∧
    b! "k" ∈ (busyThen busier 8).c.rooms 0 ∧ b! "k" ∈ (busyThen busier 8).d.rooms 0 :=
  ⟨manyRan_run (by decide +kernel), by decide +kernel, has_cont (by decide +kernel), has_cont (by decide +kernel),
    (has_cont (c := .disconnect 1 { ns := b! "game", event := OnNamespaceDisconnect, setBinary := false }) (by decide +kernel)).imp fun a h => ⟨_, h.1, h.2, rfl⟩,
    stepped_eq (by decide +kernel), stepped_eq (by decide +kernel), stepped_eq (by decide +kernel),
    by decide +kernel, by decide +kernel, by decide +kernel, by decide +kernel, by decide +kernel, by decide +kernel⟩

/-- C78: the rule that calls in flight do not clash is needed. A client calls Connect twice at a
time for the same namespace; both succeed, and the second replaces the namespace of the first, so
that a room joined in between is forgotten: no call is in flight, the server has the client in the
room, the client has not joined it. -/
theorem c78_clash_refuted : ∃ (cc sc : Cfg) (ops : List SessOp) (s : Sess), Consistent cc sc ∧
    cc.allowNative = false ∧ sc.allowNative = false ∧ cc.isClient = true ∧ sc.isClient = false ∧
    srun cc sc (newSess cc sc (b! "u1")) ops = some s ∧
    s.c.closed = false ∧ s.d.closed = false ∧ NoRequest s.c ∧
    (retOf s.c.log).map (·.2) = [.nsConn 0, .room 0 (b! "r"), .nsConn 1] ∧
    InRoom s.d (b! "chat") (b! "r") ∧ ¬ InRoom s.c (b! "chat") (b! "r") :=
  ⟨chatCli, serverCfg chatDecl noCb, dialOps ++ [.client (.connect (b! "chat") 7 false),
      .client (.connect (b! "chat") 8 false), .up, .up, .down, .down, .client (.resume 0),
      .client (.join 0 (b! "r") 9 false), .up, .down, .client (.resume 2), .client (.resume 1)],
    went chatCli (serverCfg chatDecl noCb) (b! "u1") _,
    noCb_consistent, by decide +kernel, by decide +kernel, by decide +kernel, by decide +kernel,
    went_run (by decide +kernel), by decide +kernel, by decide +kernel, by unfold NoRequest; decide +kernel,
    by decide +kernel, ⟨0, by decide +kernel, by decide +kernel⟩, by
      rintro ⟨obj, h1, h2⟩
      have h1' : (some 1 : Option Nat) = some obj := h1.symm ▸ (by decide +kernel)
      cases h1'
      revert h2
      decide +kernel⟩

end Neffos
