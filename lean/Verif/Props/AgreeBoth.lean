import Verif.Proofs.AgreeBoth
import Verif.Props.AgreeMany
/-!
# C89: both sides agree while calls of both are in flight
-/
set_option autoImplicit false
namespace Neffos
open Neffos.Spec

variable {cc sc : Cfg} {id : Bytes} {ops : List SessOp} {s s' : Sess}

/-- C89: with any number of calls of both sides in flight, none of which clash, both sides are
connected to the same namespaces, except those that a Connect or Disconnect in flight is about. -/
theorem c89_namespaces (hcons : BothConsistent cc sc) (hnc : cc.allowNative = false)
    (hns : sc.allowNative = false) (hcl : cc.isClient = true) (hsc : sc.isClient = false)
    (h : BothRun cc sc id ops s) (hc : s.c.closed = false) (hd : s.d.closed = false) {n : Bytes}
    (hn : ∀ a ∈ s.c.asks, a.done = false → about a.cont ≠ some (n, none))
    (hm : ∀ a ∈ s.d.asks, a.done = false → about a.cont ≠ some (n, none)) : InNs s.c n ↔ InNs s.d n := by
  rcases (both_inv hcons hnc hns hcl hsc h).phase with x | x | x
  · rw [hc] at x; cases x
  · rw [hd] at x; cases x
  · cases x with
    | greet h1 h2 => exact (agree_empty h1.connected h2.connected).1 n
    | held h1 h2 => exact (agree_empty h1.connected h2.connected).1 n
    | acked b l1 l2 O I X Y h1 h2 h3 h4 h5 h6 => exact h6.agree_ns hn hm
    | live O I X Y h1 h2 => exact h2.agree_ns hn hm

/-- C89: and both have joined the same rooms, except those that a call in flight is about. -/
theorem c89_rooms (hcons : BothConsistent cc sc) (hnc : cc.allowNative = false)
    (hns : sc.allowNative = false) (hcl : cc.isClient = true) (hsc : sc.isClient = false)
    (h : BothRun cc sc id ops s) (hc : s.c.closed = false) (hd : s.d.closed = false) {n r : Bytes}
    (hn : Free s (n, some r)) : InRoom s.c n r ↔ InRoom s.d n r := by
  rcases (both_inv hcons hnc hns hcl hsc h).phase with x | x | x
  · rw [hc] at x; cases x
  · rw [hd] at x; cases x
  · cases x with
    | greet h1 h2 => exact (agree_empty h1.connected h2.connected).2 n r
    | held h1 h2 => exact (agree_empty h1.connected h2.connected).2 n r
    | acked b l1 l2 O I X Y h1 h2 h3 h4 h5 h6 => exact h6.agree_room hn.1 hn.2
    | live O I X Y h1 h2 => exact h2.agree_room hn.1 hn.2

/-- C89: when all calls of both sides have completed, both sides agree about everything. -/
theorem c89_agree (hcons : BothConsistent cc sc) (hnc : cc.allowNative = false)
    (hns : sc.allowNative = false) (hcl : cc.isClient = true) (hsc : sc.isClient = false)
    (h : BothRun cc sc id ops s) (hc : s.c.closed = false) (hd : s.d.closed = false)
    (hn : NoRequest s.c) (hm : NoRequest s.d) : Agree s.c s.d := by
  have hno : ∀ a ∈ s.c.asks, a.done = false → False := fun a ha hx => by rw [hn a ha] at hx; cases hx
  have hmo : ∀ a ∈ s.d.asks, a.done = false → False := fun a ha hx => by rw [hm a ha] at hx; cases hx
  exact ⟨fun n => c89_namespaces hcons hnc hns hcl hsc h hc hd (fun a ha hx => (hno a ha hx).elim)
      fun a ha hx => (hmo a ha hx).elim,
    fun n r => c89_rooms hcons hnc hns hcl hsc h hc hd
      ⟨fun a ha hx => (hno a ha hx).elim, fun a ha hx => (hmo a ha hx).elim⟩⟩

/-- How a call of one side ends: `x` is its configuration, `s` and `s'` it before and after, `y` and
`t` the other side. Either it succeeds and both sides have moved, or it returns what the error of the
other side's callback, or of its table of namespaces, stands for on this side, and neither has. -/
def CallEnds (x y : Cfg) (s s' t : St) : Cont → Prop
  | .connect ns obj =>
    (retOf s'.log = retOf s.log ++ [(.connect ns obj, .nsConn obj)] ∧ s'.namespace ns = some obj ∧
      Allowed x s' ns ∧ Allowed y t ns) ∨
    ∃ e e', retOf s'.log = retOf s.log ++ [(.connect ns obj, .err e')] ∧ ¬ InNs s' ns ∧ ¬ InNs t ns ∧
      ResolvesTo x.known e.errorText e' ∧
        ((e = errBadNamespace ∧ mapGet y.decl ns = none) ∨ Refused t OnNamespaceConnect ns [] e)
  | .disconnect obj msg =>
    (retOf s'.log = retOf s.log ++ [(.disconnect obj msg, .ok)] ∧ ¬ InNs s' msg.ns ∧ ¬ InNs t msg.ns) ∨
    ∃ e e', retOf s'.log = retOf s.log ++ [(.disconnect obj msg, .err e')] ∧ InNs s' msg.ns ∧ InNs t msg.ns ∧
      ResolvesTo x.known e.errorText e' ∧ Refused t OnNamespaceDisconnect msg.ns [] e
  | .join obj msg => ∃ ns, s.namespace ns = some obj ∧
    ((retOf s'.log = retOf s.log ++ [(.join obj msg, .room obj msg.room)] ∧
      InRoom s' ns msg.room ∧ InRoom t ns msg.room) ∨
    ∃ e e', retOf s'.log = retOf s.log ++ [(.join obj msg, .err e')] ∧
      (InRoom s' ns msg.room ↔ InRoom s ns msg.room) ∧ (InRoom t ns msg.room ↔ InRoom s ns msg.room) ∧
      ResolvesTo x.known e.errorText e' ∧ Refused t OnRoomJoin ns msg.room e)
  | .leave obj msg => ∃ ns, s.namespace ns = some obj ∧
    ((retOf s'.log = retOf s.log ++ [(.leave obj msg, .ok)] ∧ ¬ InRoom s' ns msg.room ∧ ¬ InRoom t ns msg.room) ∨
    ∃ e e', retOf s'.log = retOf s.log ++ [(.leave obj msg, .err e')] ∧
      (InRoom s' ns msg.room ↔ InRoom s ns msg.room) ∧ (InRoom t ns msg.room ↔ InRoom s ns msg.room) ∧
      ResolvesTo x.known e.errorText e' ∧ Refused t OnRoomLeave ns msg.room e)
  | .user => False

theorem both_ends {x y : Cfg} {id : Bytes} {s s' t : St} {po pi : List (MsgType × Bytes)} {O I : List Cargo}
    {X Y : List (Pend × Option GoErr × Option Message)} {i : Nat} {a : AskRec} (hcons : BothConsistent x y)
    (hnx : x.allowNative = false) (hr : Reach x id s) (hrt : ∀ ns, InNs t ns → Allowed y t ns)
    (h : Both x y s t po pi O I X Y) (ha : s.asks[i]? = some a)
    (e2 : step x s (.resume i) = some s') (hc : s'.closed = false) : CallEnds x y s s' t a.cont := by
  have hr1 : Reach x id s' := .step hr e2
  have hacc := hcons.1.accepts
  obtain ⟨a', m, q, r, ha', hb, hw, _, hcar, hno, hag1, hag2⟩ := (both_resume hcons hr h e2 hc).2
  rw [ha] at ha'
  cases ha'
  cases hk : a.cont with
  | user =>
    rw [hk] at hw
    cases q with
    | connect n => obtain ⟨_, y, _⟩ := hw; cases y
    | disconnect n => obtain ⟨_, _, y, _⟩ := hw; cases y
    | join n rm => obtain ⟨_, _, y, _⟩ := hw; cases y
    | leave n rm => obtain ⟨_, _, y, _⟩ := hw; cases y
  | connect ns obj =>
    rw [hk] at hw
    cases q with
    | disconnect n => obtain ⟨_, _, x, _⟩ := hw; cases x
    | join n rm => obtain ⟨_, _, x, _⟩ := hw; cases x
    | leave n rm => obtain ⟨_, _, x, _⟩ := hw; cases x
    | connect n =>
      obtain ⟨o, x, hnone, _⟩ := hw
      cases x
      obtain ⟨k1, _, l, hl, k3, k4⟩ := c15_answer hr ha hk hb e2 hc
      cases hm : m.err with
      | none =>
        have hcon : s'.namespace ns = some obj := by rw [k1, if_pos ⟨rfl, hm⟩]
        have hin : InNs s' ns := by unfold InNs; rw [hcon]; simp
        refine .inl ⟨by rw [hl, retOf_append, (k4 hm).ret], hcon, allowed_of hr1 hnx hin, ?_⟩
        exact hrt _ ((hag1 _ rfl).mp hin)
      | some e' =>
        have hcon : ¬ InNs s' ns := by unfold InNs; rw [k1, if_neg (by simp [hm]), hnone]; simp
        cases r with
        | none => rw [show m.err = none from hcar] at hm; cases hm
        | some e =>
          obtain ⟨e'', hx, hres⟩ := hcar
          rw [hm] at hx
          cases hx
          refine .inr ⟨e, e', by rw [hl, retOf_append, k3 e' hm]; rfl, hcon, fun x => hcon ((hag1 _ rfl).mpr x), hres, ?_⟩
          exact hno e rfl
  | join obj msg =>
    rw [hk] at hw
    cases q with
    | disconnect n => obtain ⟨_, _, x, _⟩ := hw; cases x
    | connect n => obtain ⟨_, x, _⟩ := hw; cases x
    | leave n rm => obtain ⟨_, _, x, _⟩ := hw; cases x
    | join n rm =>
      obtain ⟨o, ms, x, rfl, hev, hobj⟩ := hw
      cases x
      refine ⟨n, hobj, ?_⟩
      obtain ⟨k1, k2, l, hl, k3, _, k4⟩ := c17_answer hr ha hk hb e2 hc
      have hns' : s'.namespace n = some obj := by unfold St.namespace at hobj ⊢; rw [k1]; exact hobj
      have hwait : msg.wait = [] := by
        have hok := (reach_ok hr).1 a (List.mem_of_getElem? ha)
        rw [hk] at hok
        exact hok.2.2
      have hv : verdict x s obj msg = none := by
        unfold verdict
        split
        · exact hacc _ _ _ _ (.inl hev) hwait
        · split
          · exact hacc _ _ _ _ (.inl hev) hwait
          · rfl
      cases hm : m.err with
      | none =>
        have hin : InRoom s' n msg.room := ⟨obj, hns', (k2 _ _).mpr (.inr ⟨rfl, rfl, hm, hv⟩)⟩
        exact .inl ⟨by rw [hl, retOf_append, (k4 hm hv).ret], hin, (hag2 _ _ ⟨rfl, rfl⟩).mp hin⟩
      | some e' =>
        have hcon : InRoom s' n msg.room ↔ InRoom s n msg.room := by
          simp only [InRoom, hns', hobj, Option.some.injEq]
          constructor
          · rintro ⟨o, rfl, h2⟩
            rcases (k2 _ _).mp h2 with y | y
            · exact ⟨_, rfl, y⟩
            · rw [hm] at y; cases y.2.2.1
          · rintro ⟨o, rfl, h2⟩
            exact ⟨_, rfl, (k2 _ _).mpr (.inl h2)⟩
        cases r with
        | none => rw [show m.err = none from hcar] at hm; cases hm
        | some e =>
          obtain ⟨e'', hx, hres⟩ := hcar
          rw [hm] at hx
          cases hx
          refine .inr ⟨e, e', by rw [hl, retOf_append, k3 e' hm]; rfl, hcon, (hag2 _ _ ⟨rfl, rfl⟩).symm.trans hcon, hres, ?_⟩
          exact hno e rfl
  | leave obj msg =>
    rw [hk] at hw
    cases q with
    | disconnect n => obtain ⟨_, _, x, _⟩ := hw; cases x
    | connect n => obtain ⟨_, x, _⟩ := hw; cases x
    | join n rm => obtain ⟨_, _, x, _⟩ := hw; cases x
    | leave n rm =>
      obtain ⟨o, ms, x, rfl, hev, hobj⟩ := hw
      cases x
      refine ⟨n, hobj, ?_⟩
      obtain ⟨k1, k2, l, hl, k3, _, k4⟩ := c18_answer ha hk hb e2 hc
      have hns' : s'.namespace n = some obj := by unfold St.namespace at hobj ⊢; rw [k1]; exact hobj
      have hwait : msg.wait = [] := by
        have hok := (reach_ok hr).1 a (List.mem_of_getElem? ha)
        rw [hk] at hok
        exact hok.2.2
      have hv : verdict x s obj msg = none := by
        unfold verdict
        split
        · exact hacc _ _ _ _ (.inr hev) hwait
        · split
          · exact hacc _ _ _ _ (.inr hev) hwait
          · rfl
      cases hm : m.err with
      | none =>
        have hin : ¬ InRoom s' n msg.room := by
          rintro ⟨o, h1, h2⟩
          rw [hns'] at h1
          cases h1
          exact ((k2 _ _).mp h2).2 ⟨rfl, rfl, hm, hv⟩
        exact .inl ⟨by rw [hl, retOf_append, (k4 hm hv).ret], hin, fun x => hin ((hag2 _ _ ⟨rfl, rfl⟩).mpr x)⟩
      | some e' =>
        have hcon : InRoom s' n msg.room ↔ InRoom s n msg.room := by
          simp only [InRoom, hns', hobj, Option.some.injEq]
          constructor
          · rintro ⟨o, rfl, h2⟩
            exact ⟨_, rfl, ((k2 _ _).mp h2).1⟩
          · rintro ⟨o, rfl, h2⟩
            exact ⟨_, rfl, (k2 _ _).mpr ⟨h2, fun y => by rw [hm] at y; cases y.2.2.1⟩⟩
        cases r with
        | none => rw [show m.err = none from hcar] at hm; cases hm
        | some e =>
          obtain ⟨e'', hx, hres⟩ := hcar
          rw [hm] at hx
          cases hx
          refine .inr ⟨e, e', by rw [hl, retOf_append, k3 e' hm]; rfl, hcon, (hag2 _ _ ⟨rfl, rfl⟩).symm.trans hcon, hres, ?_⟩
          exact hno e rfl
  | disconnect obj msg =>
    rw [hk] at hw
    cases q with
    | connect n => obtain ⟨_, x, _⟩ := hw; cases x
    | join n rm => obtain ⟨_, _, x, _⟩ := hw; cases x
    | leave n rm => obtain ⟨_, _, x, _⟩ := hw; cases x
    | disconnect n =>
      obtain ⟨o, ms, x, rfl, hobj⟩ := hw
      cases x
      obtain ⟨k1, _, l, hl, k3, k4⟩ := c19_answer hr ha hk hb e2 hc
      cases hm : m.err with
      | none =>
        have hin : ¬ InNs s' msg.ns := by unfold InNs; rw [k1, if_pos ⟨rfl, hm⟩]; simp
        obtain ⟨rs, _, hadd⟩ := k4 hm
        exact .inl ⟨by rw [hl, retOf_append, hadd.ret], hin, fun x => hin ((hag1 _ rfl).mpr x)⟩
      | some e' =>
        have hcon : InNs s' msg.ns := by unfold InNs; rw [k1, if_neg (by simp [hm]), hobj]; simp
        cases r with
        | none => rw [show m.err = none from hcar] at hm; cases hm
        | some e =>
          obtain ⟨e'', hx, hres⟩ := hcar
          rw [hm] at hx
          cases hx
          refine .inr ⟨e, e', by rw [hl, retOf_append, k3 e' hm]; rfl, hcon, (hag1 _ rfl).mp hcon, hres, ?_⟩
          exact hno e rfl

/-- C89: when a call of the client gets its answer, with any other calls of both sides in flight, it
succeeds and both sides have moved, or it returns the server's error and neither has. -/
theorem c89_client {i : Nat} {a : AskRec} (hcons : BothConsistent cc sc) (hnc : cc.allowNative = false)
    (hns : sc.allowNative = false) (hcl : cc.isClient = true) (hsc : sc.isClient = false)
    (h : BothRun cc sc id ops s) (ha : s.c.asks[i]? = some a) (hst : sstep cc sc s (.client (.resume i)) = some s')
    (hc : s'.c.closed = false) (hd : s'.d.closed = false) : CallEnds cc sc s.c s'.c s'.d a.cont := by
  have hinv := both_inv hcons hnc hns hcl hsc h
  simp only [sstep, Op.reads, Bool.false_eq_true, if_false] at hst
  obtain ⟨t, ht, rfl⟩ := Option.map_eq_some_iff.mp hst
  have hc0 := closed_of_prims (reach_prims hinv.rc ht) hc
  have hno : CliFresh s.c → False := fun hf => by rw [hf.asks] at ha; simp at ha
  rcases hinv.phase with x | x | x
  · rw [hc0] at x; cases x
  · rw [show s.d.closed = false from hd] at x; cases x
  · cases x with
    | greet h1 => exact (hno h1).elim
    | held h1 => exact (hno h1).elim
    | acked b l1 l2 O I X Y h1 => exact (hno h1).elim
    | live O I X Y h1 h2 => exact both_ends hcons hnc hinv.rc (fun _ => allowed_of hinv.rd hns) h2 ha ht hc

/-- C89: and the same for a call of the server. -/
theorem c89_server {i : Nat} {a : AskRec} (hcons : BothConsistent cc sc) (hnc : cc.allowNative = false)
    (hns : sc.allowNative = false) (hcl : cc.isClient = true) (hsc : sc.isClient = false)
    (h : BothRun cc sc id ops s) (ha : s.d.asks[i]? = some a) (hst : sstep cc sc s (.server (.resume i)) = some s')
    (hc : s'.c.closed = false) (hd : s'.d.closed = false) : CallEnds sc cc s.d s'.d s'.c a.cont := by
  have hinv := both_inv hcons hnc hns hcl hsc h
  simp only [sstep, Op.reads, Bool.false_eq_true, if_false] at hst
  obtain ⟨t, ht, rfl⟩ := Option.map_eq_some_iff.mp hst
  have hc0 := closed_of_prims (reach_prims hinv.rd ht) hd
  rcases hinv.phase with x | x | x
  · rw [show s.c.closed = false from hc] at x; cases x
  · rw [hc0] at x; cases x
  · cases x with
    | greet h1 h2 h3 => rw [h3] at ha; simp at ha
    | held h1 h2 h3 => rw [h3] at ha; simp at ha
    | acked b l1 l2 O I X Y h1 h2 h3 h4 h5 h6 =>
      have k := both_ends hcons.symm hns hinv.rd (t := { s.c with acked := true })
        (fun n hn => (no_ns h1.connected n hn).elim) h6.symm ha ht hd
      cases hk : a.cont with
      | _ => rw [hk] at k; exact k
    | live O I X Y h1 h2 => exact both_ends hcons.symm hns hinv.rd (fun _ => allowed_of hinv.rc hnc) h2.symm ha ht hd

/-! ## Concrete sessions -/

/-- `BothRequests`, computably, for the operations of the examples -/
def bothOk (s : Sess) : SessOp → Bool
  | .client (.connect ns now _) => may true s.c now && free s (ns, none) && oneOk.safe ns
  | .client (.disconnect obj now _) => may true s.c now && free s (s.c.nsName obj, none) && oneOk.safe (s.c.nsName obj)
  | .client (.join obj room now _) => may true s.c now && free s (s.c.nsName obj, some room) &&
      (linked s.c obj && (oneOk.safe (s.c.nsName obj) && oneOk.safe room))
  | .client (.leave obj room now _) => may true s.c now && free s (s.c.nsName obj, some room) &&
      (linked s.c obj && (oneOk.safe (s.c.nsName obj) && oneOk.safe room))
  | .server (.connect ns now _) => may false s.d now && free s (ns, none) && oneOk.safe ns
  | .server (.disconnect obj now _) => may false s.d now && free s (s.d.nsName obj, none) && oneOk.safe (s.d.nsName obj)
  | .server (.join obj room now _) => may false s.d now && free s (s.d.nsName obj, some room) &&
      (linked s.d obj && (oneOk.safe (s.d.nsName obj) && oneOk.safe room))
  | .server (.leave obj room now _) => may false s.d now && free s (s.d.nsName obj, some room) &&
      (linked s.d obj && (oneOk.safe (s.d.nsName obj) && oneOk.safe room))
  | .server (.resume _) => true
  | op => oneOk s op
where
  may (client : Bool) (c : St) (now : Int) : Bool := c.ready == some none && (c.acked && (c.rd = .idle &&
    c.asks.all fun a => a.done || a.tok != genWait client now))
  free (s : Sess) (x : Bytes × Option Bytes) : Bool := manyOk.free s.c x && manyOk.free s.d x

theorem bothOk_may {client : Bool} {c : St} {now : Int} (h : bothOk.may client c now = true) : MayCall client c now := by
  simp only [bothOk.may, Bool.and_eq_true, beq_iff_eq, List.all_eq_true, decide_eq_true_eq, Bool.or_eq_true, bne_iff_ne] at h
  exact ⟨h.1, h.2.1, h.2.2.1, fun a ha hd => (h.2.2.2 a ha).resolve_left (by simp [hd])⟩

theorem bothOk_free {s : Sess} {x : Bytes × Option Bytes} (h : bothOk.free s x = true) : Free s x := by
  simp only [bothOk.free, Bool.and_eq_true] at h
  exact ⟨manyOk_free h.1, manyOk_free h.2⟩

theorem bothOk_rules {s : Sess} {op : SessOp} (h : bothOk s op = true) : BothRequests s op := by
  cases op with
  | client o =>
    cases o with
    | connect ns now ex =>
      simp only [bothOk, Bool.and_eq_true] at h
      exact ⟨bothOk_may h.1.1, bothOk_free h.1.2, oneOk_safe h.2⟩
    | disconnect obj now ex =>
      simp only [bothOk, Bool.and_eq_true] at h
      exact ⟨bothOk_may h.1.1, bothOk_free h.1.2, oneOk_safe h.2⟩
    | join obj room now ex =>
      simp only [bothOk, Bool.and_eq_true] at h
      exact ⟨bothOk_may h.1.1, bothOk_free h.1.2, h.2.1, oneOk_safe h.2.2.1, oneOk_safe h.2.2.2⟩
    | leave obj room now ex =>
      simp only [bothOk, Bool.and_eq_true] at h
      exact ⟨bothOk_may h.1.1, bothOk_free h.1.2, h.2.1, oneOk_safe h.2.2.1, oneOk_safe h.2.2.2⟩
    | recv t b => exact (oneOk_rules (s := s) (op := .client (.recv t b)) h)
    | readErr e => exact (oneOk_rules (s := s) (op := .client (.readErr e)) h)
    | _ => simp only [bothOk] at h; exact oneOk_rules (s := s) h
  | server o =>
    cases o with
    | connect ns now ex =>
      simp only [bothOk, Bool.and_eq_true] at h
      exact .inr ⟨bothOk_may h.1.1, bothOk_free h.1.2, oneOk_safe h.2⟩
    | disconnect obj now ex =>
      simp only [bothOk, Bool.and_eq_true] at h
      exact ⟨bothOk_may h.1.1, bothOk_free h.1.2, oneOk_safe h.2⟩
    | join obj room now ex =>
      simp only [bothOk, Bool.and_eq_true] at h
      exact ⟨bothOk_may h.1.1, bothOk_free h.1.2, h.2.1, oneOk_safe h.2.2.1, oneOk_safe h.2.2.2⟩
    | leave obj room now ex =>
      simp only [bothOk, Bool.and_eq_true] at h
      exact ⟨bothOk_may h.1.1, bothOk_free h.1.2, h.2.1, oneOk_safe h.2.2.1, oneOk_safe h.2.2.2⟩
    | resume i => trivial
    | recv t b => exact (oneOk_rules (s := s) (op := .server (.recv t b)) h)
    | readErr e => exact (oneOk_rules (s := s) (op := .server (.readErr e)) h)
    | _ => simp only [bothOk] at h; exact oneOk_rules (s := s) h
  | _ => simp only [bothOk] at h; exact oneOk_rules (s := s) h

/-- run the steps, checking the rules -/
def bothRun (cc sc : Cfg) (s : Sess) : List SessOp → Option Sess
  | [] => some s
  | op :: ops =>
    if bothOk s op then
      match sstep cc sc s op with
      | some s' => bothRun cc sc s' ops
      | none => none
    else none

theorem bothRun_from {pre ops : List SessOp} {s s' : Sess} (h : BothRun cc sc id pre s)
    (hr : bothRun cc sc s ops = some s') : BothRun cc sc id (pre ++ ops) s' := by
  induction ops generalizing pre s with
  | nil => simp only [bothRun] at hr; cases hr; simpa using h
  | cons op ops ih =>
    simp only [bothRun] at hr
    split at hr
    · rename_i hok
      cases ho : sstep cc sc s op with
      | none => rw [ho] at hr; cases hr
      | some s1 =>
        rw [ho] at hr
        simpa using ih (h.step (bothOk_rules hok) ho) hr
    · cases hr

/-- the session after these steps -/
def bothRan (cc sc : Cfg) (id : Bytes) (ops : List SessOp) : Sess :=
  (bothRun cc sc (newSess cc sc id) ops).getD (newSess cc sc id)

theorem bothRan_run {ops : List SessOp} (h : (bothRun cc sc (newSess cc sc id) ops).isSome = true) :
    BothRun cc sc id ops (bothRan cc sc id ops) := by
  unfold bothRan
  cases hx : bothRun cc sc (newSess cc sc id) ops with
  | none => rw [hx] at h; cases h
  | some s' => exact bothRun_from .init hx

/-- either side refuses the other to connect to `quiz`, to join `b`, to leave `k` and to disconnect
`game` -/
def pickyCb : List Obs → Nat → Bytes → Message → List Act × Option GoErr := fun _ _ _ msg =>
  ([], if msg.wait ≠ [] ∧ (msg.event = OnNamespaceConnect ∧ msg.ns = b! "quiz" ∨ msg.event = OnRoomJoin ∧ msg.room = b! "b" ∨
      msg.event = OnRoomLeave ∧ msg.room = b! "k" ∨ msg.event = OnNamespaceDisconnect ∧ msg.ns = b! "game") then
        some (.text (b! "no")) else none)

abbrev pickyCli : Cfg := clientCfg busyDecl pickyCb
abbrev pickySrv : Cfg := serverCfg busyDecl pickyCb

theorem picky_consistent : BothConsistent pickyCli pickySrv := by
  have h1 : ∀ (log : List Obs) (obj : Nat) (h : Bytes) (msg m : Message), Act.write m ∈ (pickyCb log obj h msg).1 → AppMsg m := by
    intro _ _ _ _ _ h; simp [pickyCb] at h
  have h2 : ∀ (log : List Obs) (obj : Nat) (h : Bytes) (msg : Message) (e : GoErr), isRequest msg.event →
      (pickyCb log obj h msg).2 = some e → e.errorText ≠ [] ∧ ∀ b, e ≠ .reply b := by
    intro _ _ _ msg e' hq h
    simp only [pickyCb] at h
    split at h
    · cases h; exact ⟨by decide, by simp⟩
    · cases h
  have h3 : ∀ (log : List Obs) (obj : Nat) (h : Bytes) (msg : Message), (msg.event = OnRoomJoin ∨ msg.event = OnRoomLeave) →
      msg.wait = [] → (pickyCb log obj h msg).2 = none := by
    intro _ _ _ msg _ hw
    simp only [pickyCb]
    rw [if_neg (fun k => k.1 hw)]
  exact ⟨⟨h1, h1, h2, h3⟩, ⟨h1, h1, h2, h3⟩⟩

/-- each side connects, the client to `chat` and the server to `game`, with the same clock; the
requests cross; then each side makes two calls at a time and all the answers have arrived -/
def mixedSess : List SessOp :=
  dialOps ++ [.client (.connect (b! "chat") 7 false), .server (.connect (b! "game") 7 false),
    .up, .down, .down, .up, .client (.resume 0), .server (.resume 0),
    .client (.join 0 (b! "r") 9 false), .server (.join 1 (b! "k") 9 false), .client (.connect (b! "quiz") 10 false),
    .server (.join 1 (b! "b") 10 false), .up, .up, .down, .down, .down, .down, .up, .up]

/-- all return; then the server leaves `k`, which it joined itself, while the client disconnects `game`,
which the server connected, and leaves `r` -/
def mixedSess2 : List SessOp :=
  mixedSess ++ [.client (.resume 1), .server (.resume 1), .client (.resume 2), .server (.resume 2),
    .server (.leave 1 (b! "k") 12 false), .client (.disconnect 1 12 false), .client (.leave 0 (b! "r") 13 false),
    .up, .up, .down, .down, .down, .up]

abbrev mixed : Sess := bothRan pickyCli pickySrv (b! "u1") mixedSess
abbrev mixed2 : Sess := bothRan pickyCli pickySrv (b! "u1") mixedSess2
abbrev mixedThen (s : Sess) (op : SessOp) : Sess := stepped pickyCli pickySrv s op

/-- C89, the premises: two calls of each side in flight; the hypotheses hold, both sides are
connected to two namespaces, through different NSConns, and one of them is already in the room that
the other joins -/
example : BothConsistent pickyCli pickySrv ∧ pickyCli.allowNative = false ∧ pickySrv.allowNative = false ∧
    pickyCli.isClient = true ∧ pickySrv.isClient = false ∧ BothRun pickyCli pickySrv (b! "u1") mixedSess mixed ∧
    mixed.c.closed = false ∧ mixed.d.closed = false ∧ (mixed.c.asks.filter fun a => !a.done).length = 2 ∧
    (mixed.d.asks.filter fun a => !a.done).length = 2 ∧
    (∀ a ∈ mixed.c.asks, a.done = false → about a.cont ≠ some (b! "chat", none)) ∧
    (∀ a ∈ mixed.d.asks, a.done = false → about a.cont ≠ some (b! "chat", none)) ∧
    mixed.c.namespace (b! "chat") = some 0 ∧ mixed.d.namespace (b! "chat") = some 1 ∧
    mixed.c.namespace (b! "game") = some 1 ∧ mixed.d.namespace (b! "game") = some 0 ∧
    Free mixed (b! "chat", some (b! "q")) ∧
    mixed.c.rooms 0 = [b! "k"] ∧ mixed.d.rooms 1 = [b! "r"] :=
  ⟨picky_consistent, by decide +kernel, by decide +kernel, by decide +kernel, by decide +kernel,
    bothRan_run (by decide +kernel), by decide +kernel, by decide +kernel, by decide +kernel, by decide +kernel,
    by decide +kernel, by decide +kernel, by decide +kernel, by decide +kernel, by decide +kernel, by decide +kernel,
    bothOk_free (by decide +kernel), by decide +kernel, by decide +kernel⟩

/-- C89, the ends: of the calls in flight the join of the client is accepted, its connect is refused;
the join of the server to `k` is accepted, that to `b` is refused -/
example : (∀ op ∈ [SessOp.client (.resume 1), .client (.resume 2), .server (.resume 1), .server (.resume 2)],
      (sstep pickyCli pickySrv mixed op).isSome = true ∧ (mixedThen mixed op).c.closed = false ∧ (mixedThen mixed op).d.closed = false) ∧
    ((retOf (mixedThen mixed (.client (.resume 1))).c.log).drop 1).map (·.2) = [.room 0 (b! "r")] ∧
    ((retOf (mixedThen mixed (.client (.resume 2))).c.log).drop 1).map (·.2) = [.err (.text (b! "no"))] ∧
    ((retOf (mixedThen mixed (.server (.resume 1))).d.log).drop 1).map (·.2) = [.room 1 (b! "k")] ∧
    ((retOf (mixedThen mixed (.server (.resume 2))).d.log).drop 1).map (·.2) = [.err (.text (b! "no"))] :=
  ⟨by decide +kernel, by decide +kernel, by decide +kernel, by decide +kernel, by decide +kernel⟩

/-- C89, the ends: the client's disconnect of `game` is refused and its leave of `r` accepted; the
server's leave of `k` is accepted although the client's callback returned an error, for a client does
not refuse to leave; when all have returned both sides are connected to both namespaces and in no
room -/
example : BothRun pickyCli pickySrv (b! "u1") mixedSess2 mixed2 ∧
    (∀ op ∈ [SessOp.client (.resume 3), .client (.resume 4), .server (.resume 3)],
      (sstep pickyCli pickySrv mixed2 op).isSome = true ∧ (mixedThen mixed2 op).c.closed = false ∧ (mixedThen mixed2 op).d.closed = false) ∧
    ((retOf (mixedThen mixed2 (.client (.resume 3))).c.log).drop 3).map (·.2) = [.err (.text (b! "no"))] ∧
    ((retOf (mixedThen mixed2 (.client (.resume 4))).c.log).drop 3).map (·.2) = [.ok] ∧
    ((retOf (mixedThen mixed2 (.server (.resume 3))).d.log).drop 3).map (·.2) = [.ok] ∧
    (let s := bothRan pickyCli pickySrv (b! "u1") (mixedSess2 ++ [.client (.resume 4), .client (.resume 3), .server (.resume 3)])
     NoRequest s.c ∧ NoRequest s.d ∧ s.c.connected.length = 2 ∧ s.d.connected.length = 2 ∧
      s.c.rooms 0 = [] ∧ s.d.rooms 1 = []) :=
  ⟨bothRan_run (by decide +kernel), by decide +kernel, by decide +kernel, by decide +kernel, by decide +kernel,
    by unfold NoRequest; decide +kernel⟩

/-- C89: the rule that calls of different sides do not clash is needed. The server leaves the room
into which the client's Join, which has not returned, has just taken it. The client takes note of
both in the order of the wire, but its Join returns when its goroutine runs, after the server's
request: no call is in flight, both succeeded, the client is in the room and the server is not. -/
theorem c89_clash_refuted : ∃ (cc sc : Cfg) (ops : List SessOp) (s : Sess), BothConsistent cc sc ∧
    cc.allowNative = false ∧ sc.allowNative = false ∧ cc.isClient = true ∧ sc.isClient = false ∧
    srun cc sc (newSess cc sc (b! "u1")) ops = some s ∧
    s.c.closed = false ∧ s.d.closed = false ∧ NoRequest s.c ∧ NoRequest s.d ∧
    (retOf s.c.log).map (·.2) = [.nsConn 0, .room 0 (b! "r")] ∧ (retOf s.d.log).map (·.2) = [.ok] ∧
    InRoom s.c (b! "chat") (b! "r") ∧ ¬ InRoom s.d (b! "chat") (b! "r") :=
  ⟨chatCli, serverCfg chatDecl noCb, dialOps ++ [.client (.connect (b! "chat") 7 false), .up, .down, .client (.resume 0),
      .client (.join 0 (b! "r") 8 false), .up, .server (.leave 0 (b! "r") 8 false), .down, .down, .up,
      .server (.resume 0), .client (.resume 1)],
    went chatCli (serverCfg chatDecl noCb) (b! "u1") _,
    ⟨noCb_consistent, ⟨noCb_consistent.server, noCb_consistent.client, by intro _ _ _ _ _ _ h; simp [clientCfg, noCb] at h,
      by intro _ _ _ _ _ _; rfl⟩⟩,
    by decide +kernel, by decide +kernel, by decide +kernel, by decide +kernel,
    went_run (by decide +kernel), by decide +kernel, by decide +kernel, by unfold NoRequest; decide +kernel,
    by unfold NoRequest; decide +kernel, by decide +kernel, by decide +kernel, ⟨0, by decide +kernel, by decide +kernel⟩, by
      rintro ⟨obj, h1, h2⟩
      have h1' : (some 0 : Option Nat) = some obj := h1.symm ▸ (by decide +kernel)
      cases h1'
      revert h2
      decide +kernel⟩

end Neffos
