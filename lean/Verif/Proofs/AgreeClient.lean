import Verif.Proofs.Agree
/-!
Helper lemmas for the agreement of the two sides: the client's calls.
-/
set_option autoImplicit false
namespace Neffos
open Neffos.Spec

variable {cfg cc sc : Cfg} {id : Bytes}

/-- membership and the reader are as before -/
structure Kept (s : St) (l : List Obs) (t : St) : Prop where
  ns : ∀ n, t.namespace n = s.namespace n
  rooms : ∀ i, t.rooms i = s.rooms i
  rd : t.rd = s.rd
  todo : t.todo = s.todo
  ackAfter : t.ackAfter = s.ackAfter
  acked : t.acked = s.acked
  log : t.log = s.log ++ l

theorem Kept.refl (s : St) : Kept s [] s := ⟨fun _ => rfl, fun _ => rfl, rfl, rfl, rfl, rfl, by simp⟩

theorem Kept.trans {a b c : St} {l m : List Obs} (h : Kept a l b) (k : Kept b m c) : Kept a (l ++ m) c :=
  ⟨fun n => (k.ns n).trans (h.ns n), fun n => (k.rooms n).trans (h.rooms n), k.rd.trans h.rd,
    k.todo.trans h.todo, k.ackAfter.trans h.ackAfter, k.acked.trans h.acked,
    by rw [k.log, h.log, List.append_assoc]⟩

theorem Same.kept {s t : St} {l : List Obs} (h : Same s l t) : Kept s l t := by
  obtain ⟨r, rfl⟩ := h
  exact ⟨fun _ => rfl, fun _ => rfl, rfl, rfl, rfl, rfl, rfl⟩

theorem Same.asks {s t : St} {l : List Obs} (h : Same s l t) : t.asks = s.asks := by
  obtain ⟨r, rfl⟩ := h; rfl

theorem Same.waiting {s t : St} {l : List Obs} (h : Same s l t) : t.waiting = s.waiting := by
  obtain ⟨r, rfl⟩ := h; rfl

theorem kept_gateDone (s : St) (ns : Bytes) : Kept s [] (gateDone s ns) := by
  unfold gateDone
  split
  · exact .refl _
  · split
    · exact .refl _
    · exact ⟨fun _ => rfl, fun _ => rfl, rfl, rfl, rfl, rfl, by simp⟩

theorem gateDone_asks (s : St) (ns : Bytes) : (gateDone s ns).asks = s.asks := by
  unfold gateDone
  split
  · rfl
  · split <;> rfl

theorem gateDone_waiting (s : St) (ns : Bytes) : (gateDone s ns).waiting = s.waiting := by
  unfold gateDone
  split
  · rfl
  · split <;> rfl

theorem kept_finish_err (s : St) (k : Cont) (m : Message) (e : GoErr) :
    ∃ r, Kept s [.ret k r] (finish cfg s k m (some e)) ∧ (finish cfg s k m (some e)).asks = s.asks ∧
      (finish cfg s k m (some e)).waiting = s.waiting ∧ (finish cfg s k m (some e)).closed = s.closed := by
  have h0 : ∀ r, Kept s [.ret k r] (s.emit (.ret k r)) := fun r => (Same.emit s _).kept
  cases k with
  | connect ns obj =>
    simp only [finish]
    refine ⟨.err e, ?_, ?_, ?_, ?_⟩
    · simpa using (h0 _).trans (kept_gateDone _ ns)
    · rw [gateDone_asks]; rfl
    · rw [gateDone_waiting]; rfl
    · rw [(gateDone_fields _ _).2.2.2.1]; rfl
  | _ => exact ⟨_, h0 _, rfl, rfl, rfl⟩

/-- the calls in flight, other than one with the token `tok`, are as before -/
structure AsksKept (s : St) (tok : Bytes) (t : St) : Prop where
  here : ∀ (j : Nat) a, s.asks[j]? = some a → t.asks[j]? = some a
  back : ∀ (j : Nat) a, t.asks[j]? = some a → s.asks[j]? = some a ∨ a.done = true
  waiting : ∀ x, x ≠ tok → mapGet t.waiting x = mapGet s.waiting x

theorem AsksKept.of {s t : St} (tok : Bytes) (h : t.asks = s.asks) (k : t.waiting = s.waiting) : AsksKept s tok t :=
  ⟨fun j a x => by rw [h]; exact x, fun j a x => .inl (by rw [← h]; exact x), fun x _ => by rw [k]⟩

theorem AsksKept.trans {s t u : St} {tok : Bytes} (h : AsksKept s tok t) (k : AsksKept t tok u) : AsksKept s tok u :=
  ⟨fun j a x => k.here j a (h.here j a x), fun j a x => (k.back j a x).elim (h.back j a) .inr,
    fun x hx => (k.waiting x hx).trans (h.waiting x hx)⟩

/-- a call returned without having written a request -/
def NotSent (s : St) (tok : Bytes) (t : St) : Prop := ∃ l, Kept s l t ∧ CalmLog l ∧ AsksKept s tok t

/-- a call has written this request and waits for the answer -/
def Sent (s : St) (k : Cont) (tok : Bytes) (b : MsgType × Bytes) (t : St) : Prop :=
  ∃ l l1, Kept s l t ∧ pipe l = l1 ++ [b] ∧ (∀ p ∈ l1, CalmP p) ∧
    t.asks = s.asks ++ [⟨tok, k, .table, none, false⟩] ∧ mapGet t.waiting tok = some s.asks.length ∧
    ∀ x, x ≠ tok → mapGet t.waiting x = mapGet s.waiting x

theorem Same.then_notSent {s t u : St} {l : List Obs} {tok : Bytes} (h : Same s l t) (hl : CalmLog l)
    (k : NotSent t tok u) : NotSent s tok u := by
  obtain ⟨m, k1, k2, k3⟩ := k
  exact ⟨l ++ m, h.kept.trans k1, hl.append k2, (AsksKept.of tok h.asks h.waiting).trans k3⟩

theorem Same.then_sent {s t u : St} {l : List Obs} {k : Cont} {tok : Bytes} {b : MsgType × Bytes} (h : Same s l t) (hl : CalmLog l)
    (hs : Sent t k tok b u) : Sent s k tok b u := by
  obtain ⟨m, l1, k1, k2, k3, k4, k5, k6⟩ := hs
  refine ⟨l ++ m, pipe l ++ l1, h.kept.trans k1, by rw [pipe_append, k2]; simp, ?_, ?_, ?_, ?_⟩
  · intro p hp
    exact (List.mem_append.mp hp).elim (hl p) (k3 p)
  · rw [k4, h.asks]
  · rw [k5, h.asks]
  · rw [← h.waiting]; exact k6

theorem calm_ret (k : Cont) (r : Result) : CalmLog [.ret k r] := by intro p h; simp [pipe] at h

theorem endAsk_kept {u : St} {l : List AskRec} {x : AskRec} (hu : u.asks = l ++ [x]) :
    (∀ (j : Nat) a, l[j]? = some a → (endAsk u l.length).asks[j]? = some a) ∧
    ∀ (j : Nat) a, (endAsk u l.length).asks[j]? = some a → l[j]? = some a ∨ a.done = true := by
  constructor
  · intro j a h
    have hlt : j < l.length := (List.getElem?_eq_some_iff.mp h).1
    simp only [endAsk, hu, List.getElem?_modify]
    rw [List.getElem?_append_left hlt, h]
    simp [show ¬ l.length = j by omega]
  · intro i a hi
    simp only [endAsk, hu, List.getElem?_modify] at hi
    by_cases h : l.length = i
    · right
      simp only [if_pos h] at hi
      cases hx : (l ++ [x])[i]? with
      | none => rw [hx] at hi; simp at hi
      | some y => rw [hx] at hi; simp at hi; rw [← hi]
    · left
      simp only [if_neg h, Option.map_eq_map, Option.map_id_fun', id_eq] at hi
      have hlt : i < l.length := by
        have := (List.getElem?_eq_some_iff.mp hi).1
        simp at this
        omega
      rw [List.getElem?_append_left hlt] at hi
      exact hi

theorem startAsk_cli {s : St} {k : Cont} {msg : Message} {now : Int} {ex : Bool} (hn : cfg.onlyNative = false)
    (hrd : s.rd = .idle)
    (h : (startAsk cfg s k msg now ex).closed = false) :
    NotSent s (genWait cfg.isClient now) (startAsk cfg s k msg now ex) ∨
      Sent s k (genWait cfg.isClient now)
        (if msg.setBinary then .binary else .text, wireOf { msg with wait := genWait cfg.isClient now })
        (startAsk cfg s k msg now ex) := by
  have hc := startAsk_was_open hn h
  unfold startAsk at h ⊢
  rw [if_neg (by simp [hn]), if_neg (by simp [hc])] at h ⊢
  cases ex with
  | true =>
    rw [if_pos rfl] at h ⊢
    obtain ⟨_, h1, h2, h3, _⟩ := kept_finish_err (cfg := cfg) s k {} errDeadline
    exact .inl ⟨_, h1, calm_ret _ _, .of _ h2 h3⟩
  | false =>
    rw [if_neg (by simp)] at h ⊢
    dsimp only at h ⊢
    have hT1 : newAsk s (genWait cfg.isClient now) k =
        { s with waiting := mapSet s.waiting (genWait cfg.isClient now) s.asks.length,
                 asks := s.asks ++ [⟨genWait cfg.isClient now, k, .table, none, false⟩] } := by
      unfold newAsk insideHandler; rw [hrd]; simp
    generalize hTT : newAsk s (genWait cfg.isClient now) k = T at h hT1 ⊢
    generalize genWait cfg.isClient now = tok at h hT1 ⊢
    have hTk : Kept s [] T := by subst hT1; exact ⟨fun _ => rfl, fun _ => rfl, rfl, rfl, rfl, rfl, by simp⟩
    have hTa : T.asks = s.asks ++ [⟨tok, k, .table, none, false⟩] := by subst hT1; rfl
    have hTw : mapGet T.waiting tok = some s.asks.length := by subst hT1; simp [mapGet_mapSet]
    have hTo : ∀ x, x ≠ tok → mapGet T.waiting x = mapGet s.waiting x := by
      intro x hx; subst hT1; simp [mapGet_mapSet, hx]
    generalize hM : ({ msg with wait := tok } : Message) = M at h ⊢
    have hbin : M.setBinary = msg.setBinary := by subst hM; rfl
    have hmay := write_may_ok (cfg := cfg) (s := T) (msg := M)
    have hmaynot := write_maynot (cfg := cfg) (s := T) (msg := M)
    have hno : ¬ MayWrite cfg T M → (write cfg T M).2 = false := by
      intro hx
      rw [write_eq, if_neg hx]
      split <;> rfl
    revert h hmay hmaynot hno
    generalize write cfg T M = p
    obtain ⟨t, ok⟩ := p
    intro h hmay hmaynot hno
    dsimp only at hmay hmaynot hno
    cases ok with
    | true =>
      dsimp only at h ⊢
      have hx : MayWrite cfg T M := by
        by_cases hx : MayWrite cfg T M
        · exact hx
        · have := hno hx; simp at this
      have hs := hmay hx h
      refine .inr ⟨_, [], hTk.trans hs.kept, ?_, by simp, hs.asks.trans hTa, by rw [hs.waiting]; exact hTw,
        by rw [hs.waiting]; exact hTo⟩
      simp [pipe, hbin]
    | false =>
      dsimp only at h ⊢
      left
      obtain ⟨_, e1, e2, e3, e4⟩ := kept_finish_err (cfg := cfg) (endAsk t s.asks.length) k {} errWrite
      have hkeep : t.asks = T.asks → t.waiting = T.waiting →
          AsksKept s tok (finish cfg (endAsk t s.asks.length) k {} (some errWrite)) := by
        intro ha hw
        obtain ⟨x1, x2⟩ := endAsk_kept (ha.trans hTa)
        refine ⟨fun j a h => by rw [e2]; exact x1 j a h, fun j a h => x2 j a (by rw [← e2]; exact h), fun x hx => ?_⟩
        rw [e3]
        show mapGet t.waiting x = _
        rw [hw]
        exact hTo x hx
      have ht : t.closed = false := by
        rw [e4] at h; exact h
      have hend : Kept t [] (endAsk t s.asks.length) :=
        ⟨fun _ => rfl, fun _ => rfl, rfl, rfl, rfl, rfl, by simp [endAsk]⟩
      by_cases hx : MayWrite cfg T M
      · have hs := hmay hx ht
        refine ⟨_, (hTk.trans hs.kept).trans (hend.trans e1), ?_, hkeep hs.asks hs.waiting⟩
        intro p hp; simp [pipe] at hp
      · have hs := hmaynot hx
        refine ⟨_, (hTk.trans hs.kept).trans (hend.trans e1), ?_, hkeep hs.asks hs.waiting⟩
        intro p hp; simp [pipe] at hp

/-- the states in which the call of the request `q` waits -/
def Waits (q : Req) (k : Cont) (c : St) : Prop :=
  match q with
  | .connect ns => ∃ obj, k = .connect ns obj ∧ c.namespace ns = none ∧ c.rooms obj = []
  | .disconnect ns => ∃ obj msg, k = .disconnect obj msg ∧ msg.ns = ns ∧ c.namespace ns = some obj
  | .join ns room => ∃ obj msg, k = .join obj msg ∧ msg.room = room ∧ msg.event = OnRoomJoin ∧
      c.namespace ns = some obj
  | .leave ns room => ∃ obj msg, k = .leave obj msg ∧ msg.room = room ∧ msg.event = OnRoomLeave ∧
      c.namespace ns = some obj

theorem Waits.kept {q : Req} {k : Cont} {s t : St} {l : List Obs} (h : Waits q k s) (hk : Kept s l t) : Waits q k t := by
  cases q <;> simp only [Waits, hk.ns, hk.rooms] at h ⊢ <;> exact h

theorem Kept.agree {s t : St} {l : List Obs} (h : Kept s l t) : Agree s t := agree_of h.ns fun _ i _ => h.rooms i

/-- what a request is about -/
def Req.about : Req → Bytes × Option Bytes
  | .connect ns => (ns, none)
  | .disconnect ns => (ns, none)
  | .join ns room => (ns, some room)
  | .leave ns room => (ns, some room)

/-- a call either returns without a request, or has sent it and waits -/
def Called (x : Bytes × Option Bytes) (tok : Bytes) (c t : St) : Prop :=
  NotSent c tok t ∨ ∃ q k, q.about = x ∧ Spec.about k = some x ∧ q.Safe ∧ Waits q k c ∧
    Sent c k tok (.text, wireOf (q.msg tok)) t

theorem wire_congr {m m' : Message} (h : m.wait = m'.wait ∧ m.ns = m'.ns ∧ m.room = m'.room ∧ m.event = m'.event ∧
    m.body = m'.body ∧ m.err = m'.err ∧ m.isNoOp = m'.isNoOp ∧ m.isNative = m'.isNative) : wireOf m = wireOf m' := by
  obtain ⟨h1, h2, h3, h4, h5, h6, h7, h8⟩ := h
  unfold wireOf serializeMessage
  simp only [h1, h2, h3, h4, h5, h6, h7, h8]

theorem side_disconnect {c t : St} {obj : Nat} {now : Int} {ex : Bool} (hn : cfg.onlyNative = false) (hrd : c.rd = .idle) (hs : SafeName (c.nsName obj))
    (h : step cfg c (.disconnect obj now ex) = some t) (hc : t.closed = false) :
    Called (c.nsName obj, none) (genWait cfg.isClient now) c t := by
  obtain ⟨he, _⟩ := step_exec h
  simp only [exec] at he
  split at he
  · cases he
    unfold disconnect at hc ⊢
    dsimp only at hc ⊢
    split at hc
    · exact .inl ⟨_, (Same.emit c _).kept, calm_ret _ _, .of _ rfl rfl⟩
    · rename_i obj' h0
      rcases startAsk_cli hn hrd hc with x | x
      · exact .inl x
      · refine .inr ⟨.disconnect (c.nsName obj), .disconnect obj' (disconnectMsg (c.nsName obj)), rfl, rfl, hs,
          ⟨obj', _, rfl, rfl, h0⟩, ?_⟩
        exact x
  · cases he

theorem cli_disconnect {c t : St} {obj : Nat} {now : Int} {ex : Bool} (hcl : cfg.isClient = true)
    (hn : cfg.onlyNative = false) (hrd : c.rd = .idle) (hs : SafeName (c.nsName obj))
    (h : step cfg c (.disconnect obj now ex) = some t) (hc : t.closed = false) :
    Called (c.nsName obj, none) (genWait true now) c t := by
  have := side_disconnect hn hrd hs h hc
  rwa [hcl] at this

theorem side_join {c t : St} {obj : Nat} {room : Bytes} {now : Int} {ex : Bool} (hn : cfg.onlyNative = false) (hrd : c.rd = .idle) (hlk : linked c obj = true) (hs : SafeName (c.nsName obj))
    (hs2 : SafeName room)
    (h : step cfg c (.join obj room now ex) = some t) (hc : t.closed = false) :
    Called (c.nsName obj, some room) (genWait cfg.isClient now) c t := by
  obtain ⟨he, _⟩ := step_exec h
  simp only [exec] at he
  split at he
  · cases he
    unfold joinRoom at hc ⊢
    dsimp only at hc ⊢
    split at hc
    · rename_i h0
      rw [if_pos h0]
      exact .inl ⟨_, (Same.emit c _).kept, calm_ret _ _, .of _ rfl rfl⟩
    · rename_i h0
      rw [if_neg h0]
      rcases startAsk_cli hn hrd hc with x | x
      · exact .inl x
      · refine .inr ⟨.join (c.nsName obj) room, .join obj (joinMsg (c.nsName obj) room), rfl, rfl, ⟨hs, hs2⟩,
          ⟨obj, _, rfl, rfl, rfl, by simpa [linked] using hlk⟩, ?_⟩
        exact x
  · cases he

theorem cli_join {c t : St} {obj : Nat} {room : Bytes} {now : Int} {ex : Bool} (hcl : cfg.isClient = true)
    (hn : cfg.onlyNative = false) (hrd : c.rd = .idle) (hlk : linked c obj = true) (hs : SafeName (c.nsName obj))
    (hs2 : SafeName room)
    (h : step cfg c (.join obj room now ex) = some t) (hc : t.closed = false) :
    Called (c.nsName obj, some room) (genWait true now) c t := by
  have := side_join hn hrd hlk hs hs2 h hc
  rwa [hcl] at this

theorem side_leave {c t : St} {obj : Nat} {room : Bytes} {now : Int} {ex : Bool} (hn : cfg.onlyNative = false) (hrd : c.rd = .idle) (hlk : linked c obj = true) (hs : SafeName (c.nsName obj))
    (hs2 : SafeName room)
    (h : step cfg c (.leave obj room now ex) = some t) (hc : t.closed = false) :
    Called (c.nsName obj, some room) (genWait cfg.isClient now) c t := by
  obtain ⟨he, _⟩ := step_exec h
  simp only [exec] at he
  split at he
  · cases he
    unfold leaveRoom at hc ⊢
    dsimp only at hc ⊢
    split at hc
    · rename_i h0
      rw [if_pos h0]
      rcases startAsk_cli hn hrd hc with x | x
      · exact .inl x
      · refine .inr ⟨.leave (c.nsName obj) room, .leave obj (leaveMsg (c.nsName obj) room), rfl, rfl, ⟨hs, hs2⟩,
          ⟨obj, _, rfl, rfl, rfl, by simpa [linked] using hlk⟩, ?_⟩
        exact x
    · rename_i h0
      rw [if_neg h0]
      exact .inl ⟨_, (Same.emit c _).kept, calm_ret _ _, .of _ rfl rfl⟩
  · cases he

theorem cli_leave {c t : St} {obj : Nat} {room : Bytes} {now : Int} {ex : Bool} (hcl : cfg.isClient = true)
    (hn : cfg.onlyNative = false) (hrd : c.rd = .idle) (hlk : linked c obj = true) (hs : SafeName (c.nsName obj))
    (hs2 : SafeName room)
    (h : step cfg c (.leave obj room now ex) = some t) (hc : t.closed = false) :
    Called (c.nsName obj, some room) (genWait true now) c t := by
  have := side_leave hn hrd hlk hs hs2 h hc
  rwa [hcl] at this

theorem Kept.then_notSent {s t u : St} {l : List Obs} {tok : Bytes} (h : Kept s l t) (ha : t.asks = s.asks)
    (hw : t.waiting = s.waiting) (hl : CalmLog l) (k : NotSent t tok u) : NotSent s tok u := by
  obtain ⟨m, k1, k2, k3⟩ := k
  exact ⟨l ++ m, h.trans k1, hl.append k2, (AsksKept.of tok ha hw).trans k3⟩

theorem Kept.then_sent {s t u : St} {l : List Obs} {k : Cont} {tok : Bytes} {b : MsgType × Bytes} (h : Kept s l t)
    (ha : t.asks = s.asks) (hw : t.waiting = s.waiting) (hl : CalmLog l) (hs : Sent t k tok b u) : Sent s k tok b u := by
  obtain ⟨m, l1, k1, k2, k3, k4, k5, k6⟩ := hs
  refine ⟨l ++ m, pipe l ++ l1, h.trans k1, by rw [pipe_append, k2]; simp, ?_, ?_, ?_, ?_⟩
  · intro p hp
    exact (List.mem_append.mp hp).elim (hl p) (k3 p)
  · rw [k4, ha]
  · rw [k5, ha]
  · rw [← hw]; exact k6

theorem notSent_done (s : St) (k : Cont) (r : Result) (ns tok : Bytes) :
    NotSent s tok (gateDone (s.emit (.ret k r)) ns) :=
  ⟨[.ret k r] ++ [], (Same.emit s _).kept.trans (kept_gateDone _ ns), by simpa using calm_ret k r,
    .of _ (gateDone_asks _ _) (gateDone_waiting _ _)⟩

theorem side_connect {c t : St} {ns : Bytes} {now : Int} {ex : Bool} (hs0 : cfg.isClient = true ∨ (c.ready = some none ∧ c.acked = true))
    (hn : cfg.onlyNative = false) (hcb : CbCalm cfg) (hrd : c.rd = .idle) (hs : SafeName ns)
    (h : step cfg c (.connect ns now ex) = some t) (hc : t.closed = false) :
    Called (ns, none) (genWait cfg.isClient now) c t := by
  obtain ⟨he, _⟩ := step_exec h
  simp only [exec] at he
  cases he
  unfold connect at hc ⊢
  have hm : c.markReady cfg = c := by
    unfold St.markReady
    split
    · rfl
    · unfold St.signalReady
      rw [(hs0.resolve_left (by assumption)).1]
  have hack : ¬ ((!cfg.isClient && !c.acked) = true) := by
    rcases hs0 with x | x
    · simp [x]
    · simp [x.2]
  dsimp only at hc ⊢
  rw [hm, if_neg (by simpa using hack)] at hc ⊢
  have hg : Kept c [] (gateStart c ns) := ⟨fun _ => rfl, fun _ => rfl, rfl, rfl, rfl, rfl, by simp [gateStart]⟩
  have hga : (gateStart c ns).asks = c.asks := rfl
  have hgw : (gateStart c ns).waiting = c.waiting := rfl
  have hgr : (gateStart c ns).rd = .idle := hrd
  revert hc hg hga hgw hgr
  generalize gateStart c ns = g
  intro hc hg hga hgw hgr
  split at hc
  · exact .inl (hg.then_notSent hga hgw .nil (notSent_done _ _ _ _ _))
  · rename_i h0
    split at hc
    · exact .inl (hg.then_notSent hga hgw .nil (notSent_done _ _ _ _ _))
    · simp only [newObj] at hc ⊢
      have hrn : g.rooms g.objs.length = [] := by
        unfold St.rooms; rw [List.getElem?_eq_none (Nat.le_refl _)]
      have hgo : Kept g [] { g with objs := g.objs ++ [⟨ns, []⟩] } :=
        ⟨fun _ => rfl, fun i => rooms_append g ns i, rfl, rfl, rfl, rfl, by simp⟩
      have hgoa : ({ g with objs := g.objs ++ [⟨ns, []⟩] } : St).asks = g.asks := rfl
      have hgow : ({ g with objs := g.objs ++ [⟨ns, []⟩] } : St).waiting = g.waiting := rfl
      have hfire := calm_fire hcb (s := { g with objs := g.objs ++ [⟨ns, []⟩] }) (obj := g.objs.length)
        (msg := { ns := ns, event := OnNamespaceConnect, isLocal := true })
      revert hc hfire hgo hgoa hgow
      generalize ({ g with objs := g.objs ++ [⟨ns, []⟩] } : St) = g'
      intro hc hgo hgoa hgow hfire
      have hk' : Kept c [] g' := hg.trans hgo
      have ha' : g'.asks = c.asks := hgoa.trans hga
      have hw' : g'.waiting = c.waiting := hgow.trans hgw
      revert hc hfire
      generalize fire cfg g' g.objs.length { ns := ns, event := OnNamespaceConnect, isLocal := true } = p
      obtain ⟨u, r⟩ := p
      intro hc hfire
      cases r with
      | some e =>
        dsimp only at hc ⊢ hfire
        have hu : u.closed = false := by
          rw [(gateDone_fields _ _).2.2.2.1] at hc; exact hc
        obtain ⟨l, h2, h3⟩ := hfire hu
        exact .inl (hk'.then_notSent ha' hw' .nil (h2.then_notSent h3 (notSent_done _ _ _ _ _)))
      | none =>
        dsimp only at hc ⊢ hfire
        have hu := startAsk_was_open hn hc
        obtain ⟨l, h2, h3⟩ := hfire hu
        have hur : u.rd = .idle := by rw [h2.kept.rd, hk'.rd, hrd]
        rcases startAsk_cli hn hur hc with x | x
        · exact .inl (hk'.then_notSent ha' hw' .nil (h2.then_notSent h3 x))
        · refine .inr ⟨.connect ns, .connect ns g.objs.length, rfl, rfl, hs,
            ⟨_, rfl, by rw [← hg.ns]; exact h0, by rw [← hg.rooms]; exact hrn⟩, ?_⟩
          have := hk'.then_sent ha' hw' .nil (h2.then_sent h3 x)
          exact this

theorem cli_connect {c t : St} {ns : Bytes} {now : Int} {ex : Bool} (hcl : cfg.isClient = true)
    (hn : cfg.onlyNative = false) (hcb : CbCalm cfg) (hrd : c.rd = .idle) (hs : SafeName ns)
    (h : step cfg c (.connect ns now ex) = some t) (hc : t.closed = false) :
    Called (ns, none) (genWait true now) c t := by
  have := side_connect (.inl hcl) hn hcb hrd hs h hc
  rwa [hcl] at this

/-- a call completes with its answer -/
theorem side_answer {c t : St} {q : Req} {k : Cont} {i : Nat} {a : AskRec} {m : Message}
    (hcb : CbCalm cc)
    (hcons : ∀ log obj h msg, (msg.event = OnRoomJoin ∨ msg.event = OnRoomLeave) → msg.wait = [] →
      (cc.cb log obj h msg).2 = none) (hr : Reach cc id c) (ha : c.asks[i]? = some a) (hk : a.cont = k)
    (hw : Waits q k c) (hb : a.box = some m) (h : step cc c (.resume i) = some t) (hc : t.closed = false) :
    Moves q m.err.isNone c t ∧ ∃ l, t.log = c.log ++ l ∧ CalmLog l := by
  have hacc : ∀ obj msg, (msg.event = OnRoomJoin ∨ msg.event = OnRoomLeave) → msg.wait = [] →
      verdict cc c obj msg = none := by
    intro obj msg hm hw
    unfold verdict
    split
    · exact hcons _ _ _ _ hm hw
    · split
      · exact hcons _ _ _ _ hm hw
      · rfl
  subst hk
  cases q with
  | connect ns =>
    obtain ⟨obj, hk, hnone, hrm⟩ := hw
    obtain ⟨k1, k2, l, hl, k3, k4⟩ := c15_answer hr ha hk hb h hc
    refine ⟨⟨fun n => ?_, fun n r => ?_⟩, l, hl, ?_⟩
    · simp only [InNs, k1, Req.ns, Option.isNone_iff_eq_none]
      by_cases hx : n = ns <;> cases hm : m.err <;> simp [hx]
    · simp only [InRoom, k1, k2, Req.room]
      by_cases hx : n = ns
      · subst hx
        cases hm : m.err <;> simp [hnone, hrm]
      · simp [hx]
    · cases hm : m.err with
      | some e => rw [k3 e hm]; exact calm_ret _ _
      | none => exact adds_calm hcb (k4 hm)
  | disconnect ns =>
    obtain ⟨obj, msg, hk, rfl, hobj⟩ := hw
    obtain ⟨k1, k2, l, hl, k3, k4⟩ := c19_answer hr ha hk hb h hc
    refine ⟨⟨fun n => ?_, fun n r => ?_⟩, l, hl, ?_⟩
    · simp only [InNs, k1, Req.ns, Option.isNone_iff_eq_none]
      by_cases hx : n = msg.ns <;> cases hm : m.err <;> simp [hx]
    · simp only [InRoom, k1, k2, Req.room, Option.isNone_iff_eq_none]
      cases hm : m.err with
      | some e => simp
      | none =>
        by_cases hx : n = msg.ns
        · simp [hx]
        · simp only [hx, and_true, if_false, not_false_eq_true, and_false]
          constructor
          · rintro ⟨o, h1, h2⟩
            have : o ≠ obj := fun x => hx (reach_inj hr n msg.ns obj (by rw [← x]; exact h1) hobj)
            rw [if_neg this] at h2
            exact ⟨o, h1, h2⟩
          · rintro ⟨o, h1, h2⟩
            have : o ≠ obj := fun x => hx (reach_inj hr n msg.ns obj (by rw [← x]; exact h1) hobj)
            exact ⟨o, h1, by rw [if_neg this]; exact h2⟩
    · cases hm : m.err with
      | some e => rw [k3 e hm]; exact calm_ret _ _
      | none => obtain ⟨rs, _, x⟩ := k4 hm; exact adds_calm hcb x
  | join ns room =>
    obtain ⟨obj, msg, hk, rfl, hev, hobj⟩ := hw
    have hok := (reach_ok hr).1 a (List.mem_of_getElem? ha)
    rw [hk] at hok
    have hv := hacc obj msg (.inl hev) hok.2.2
    obtain ⟨k1, k2, l, hl, k3, _, k4⟩ := c17_answer hr ha hk hb h hc
    have hns : ∀ n, t.namespace n = c.namespace n := fun n => by unfold St.namespace; rw [k1]
    refine ⟨⟨fun n => by simp [InNs, hns, Req.ns], fun n r => ?_⟩, l, hl, ?_⟩
    · simp only [InRoom, hns, k2, Req.room, Option.isNone_iff_eq_none, hv, and_true]
      constructor
      · rintro ⟨o, h1, h2 | ⟨rfl, rfl, h3⟩⟩
        · exact .inl ⟨o, h1, h2⟩
        · exact .inr ⟨h3, reach_inj hr n ns o h1 hobj, rfl⟩
      · rintro (⟨o, h1, h2⟩ | ⟨h1, rfl, rfl⟩)
        · exact ⟨o, h1, .inl h2⟩
        · exact ⟨obj, hobj, .inr ⟨rfl, rfl, h1⟩⟩
    · cases hm : m.err with
      | some e => rw [k3 e hm]; exact calm_ret _ _
      | none => exact adds_calm hcb (k4 hm hv)
  | leave ns room =>
    obtain ⟨obj, msg, hk, rfl, hev, hobj⟩ := hw
    have hok := (reach_ok hr).1 a (List.mem_of_getElem? ha)
    rw [hk] at hok
    have hv := hacc obj msg (.inr hev) hok.2.2
    obtain ⟨k1, k2, l, hl, k3, _, k4⟩ := c18_answer ha hk hb h hc
    have hns : ∀ n, t.namespace n = c.namespace n := fun n => by unfold St.namespace; rw [k1]
    refine ⟨⟨fun n => by simp [InNs, hns, Req.ns], fun n r => ?_⟩, l, hl, ?_⟩
    · simp only [InRoom, hns, k2, Req.room, Option.isNone_iff_eq_none, hv, and_true]
      constructor
      · rintro ⟨o, h1, h2, h3⟩
        refine ⟨⟨o, h1, h2⟩, ?_⟩
        rintro ⟨h4, rfl, rfl⟩
        rw [hobj] at h1
        cases h1
        exact h3 ⟨rfl, rfl, h4⟩
      · rintro ⟨⟨o, h1, h2⟩, h3⟩
        refine ⟨o, h1, h2, ?_⟩
        rintro ⟨rfl, rfl, h4⟩
        exact h3 ⟨h4, reach_inj hr n ns o h1 hobj, rfl⟩
    · cases hm : m.err with
      | some e => rw [k3 e hm]; exact calm_ret _ _
      | none => exact adds_calm hcb (k4 hm hv)

/-- the client's call completes with its answer -/
theorem cli_answer {c t : St} {q : Req} {k : Cont} {i : Nat} {a : AskRec} {m : Message}
    (hcons : Consistent cc sc) (hr : Reach cc id c) (ha : c.asks[i]? = some a) (hk : a.cont = k)
    (hw : Waits q k c) (hb : a.box = some m) (h : step cc c (.resume i) = some t) (hc : t.closed = false) :
    Moves q m.err.isNone c t ∧ ∃ l, t.log = c.log ++ l ∧ CalmLog l :=
  side_answer hcons.client hcons.accepts hr ha hk hw hb h hc

end Neffos
