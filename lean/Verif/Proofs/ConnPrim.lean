import Verif.Model.Conn
import Mathlib.Logic.Relation
/-!
Helper: every operation of a connection is a sequence of primitive changes. Safety
invariants are then checked on the primitive changes only.
-/
namespace Neffos
open Relation (ReflTransGen)

/-- observations that are not a callback, a write or part of closing -/
def Obs.isNote : Obs → Bool
  | .subscribe _ | .unsubscribe _ | .notifyAsk _ | .toServerAsk _ | .ret _ _ => true
  | _ => false

def Obs.isCloseObs : Obs → Bool
  | .notifyServer | .closeCh | .netClosed => true
  | _ => false

/-- the connect callback of this NSConn accepted -/
def NsAccepted (l : List Obs) (obj : Nat) : Prop :=
  ∃ v msg h, Obs.fired obj v msg h none ∈ l ∧ msg.event = OnNamespaceConnect

/-- the join callback of this NSConn accepted this room -/
def RoomAccepted (l : List Obs) (obj : Nat) (room : Bytes) : Prop :=
  ∃ v msg h, Obs.fired obj v msg h none ∈ l ∧ msg.event = OnRoomJoin ∧ msg.room = room

theorem NsAccepted.mono {l l' : List Obs} {obj : Nat} (h : NsAccepted l obj) (hl : l <+: l') :
    NsAccepted l' obj := by
  obtain ⟨ns, msg, e, hm, he⟩ := h
  exact ⟨ns, msg, e, hl.subset hm, he⟩

theorem RoomAccepted.mono {l l' : List Obs} {obj : Nat} {room : Bytes}
    (h : RoomAccepted l obj room) (hl : l <+: l') : RoomAccepted l' obj room := by
  obtain ⟨ns, msg, e, hm, he⟩ := h
  exact ⟨ns, msg, e, hl.subset hm, he⟩

/-- a continuation refers to NSConns that exist -/
def ContOk (cfg : Cfg) (s : St) : Cont → Prop
  | .connect ns obj => (mapGet cfg.decl ns).isSome ∧ s.objs[obj]?.map (·.ns) = some ns ∧
      NsAccepted s.log obj
  | .disconnect obj msg => s.objs[obj]?.map (·.ns) = some msg.ns ∧ msg.event = OnNamespaceDisconnect
  | .join obj msg => s.objs[obj]?.map (·.ns) = some msg.ns ∧ msg.event = OnRoomJoin ∧ msg.wait = []
  | .leave obj msg => s.objs[obj]?.map (·.ns) = some msg.ns ∧ msg.event = OnRoomLeave ∧ msg.wait = []
  | .user => True

/-- a message that was decoded from a payload -/
def Decoded (cfg : Cfg) (msg : Message) : Prop :=
  ∃ typ b, deserializeMessage cfg.known typ b cfg.allowNative cfg.onlyNative = msg

/-- the message is an answer to the Ask: decoded from a payload, with its token -/
def AnswerTo (cfg : Cfg) (a : AskRec) (m : Message) : Prop :=
  a.mode = .table ∧ m.wait = a.tok ∧ Decoded cfg m

/-- the message the reader holds at the gate was decoded from a payload, and the one it
sends to an Ask is an answer to that -/
def RdOk (cfg : Cfg) (s : St) (rd : Rd) : Prop :=
  (∀ msg, rd = .gate msg → s.rd = .gate msg ∨ Decoded cfg msg) ∧
  ∀ i m, rd = .send i m → s.rd = .send i m ∨ ∃ a, s.asks[i]? = some a ∧ AnswerTo cfg a m

/-- what an Ask's channel may be changed to -/
def BoxOk (cfg : Cfg) (a : AskRec) (mode : AskMode) (box : Option Message) : Prop :=
  (mode = a.mode ∨ (a.mode = .reading ∧ mode = .read)) ∧
  ∀ m, box = some m → a.box = some m ∨ a.mode = .reading ∨ AnswerTo cfg a m ∨ a.mode = .read

/-- Primitive changes with what is known when they happen; closing is split up. -/
inductive Fine (cfg : Cfg) : St → St → Prop
  | note (s : St) (o : Obs) : o.isNote = true → Fine cfg s (s.emit o)
  | fired (s : St) (obj : Nat) (msg : Message) (h : Option Bytes) (ret : Option GoErr) :
      pick (cfg.events (s.nsName obj)) msg.event = h → (h = none → ret = none) →
      Fine cfg s (s.emit (.fired obj (s.view obj msg) msg h ret))
  | sentMsg (s : St) (msg : Message) (b : Bytes) (ok : Bool) :
      s.closed = false → membershipAllows s msg = true → s.is cfg msg.fromExplicit = false →
      serializeMessage { msg with fromExplicit := [] } = some b →
      ok = (cfg.sock s.log msg.setBinary b).isNone →
      Fine cfg s (s.emit (.sent msg.setBinary b ok))
  | sentReply (s : St) (w : Bytes) (ok : Bool) :
      ok = (cfg.sock s.log false (genEmptyReplyToWait w)).isNone →
      Fine cfg s (s.emit (.sent false (genEmptyReplyToWait w) ok))
  | sentAck (s : St) (b : Bytes) (ok : Bool) :
      (b = b! "M" ∨ b = 65 :: s.id ∨ ∃ t, b = 72 :: t) →
      ok = (cfg.sock s.log false b).isNone → Fine cfg s (s.emit (.sent false b ok))
  | ready (s : St) (e : Option GoErr) : s.ready = none → Fine cfg s { s with ready := some e }
  | newObj (s : St) (ns : Bytes) : Fine cfg s { s with objs := s.objs ++ [⟨ns, []⟩] }
  | addRoom (s : St) (obj : Nat) (room : Bytes) : RoomAccepted s.log obj room →
      Fine cfg s (s.setRooms obj (addRoom room))
  | delRoom (s : St) (obj : Nat) (room : Bytes) : Fine cfg s (s.setRooms obj (delRoom room))
  | nsAdd (s : St) (ns : Bytes) (obj : Nat) :
      (mapGet cfg.decl ns).isSome → s.objs[obj]?.map (·.ns) = some ns → NsAccepted s.log obj →
      Fine cfg s { s with connected := mapSet s.connected ns obj }
  | nsDel (s : St) (ns : Bytes) : Fine cfg s { s with connected := mapDel s.connected ns }
  | setClosed (s : St) : s.closed = false → Fine cfg s { s with closed := true }
  | clearWaiting (s : St) : s.closed = true → Fine cfg s { s with waiting := [] }
  | unack (s : St) : s.closed = true → Fine cfg s { s with acked := false }
  | closeObs (s : St) (o : Obs) : s.closed = true → o.isCloseObs = true → Fine cfg s (s.emit o)
  | gates (s : St) (g : List (Bytes × Gate)) : Fine cfg s { s with gates := g }
  | reader (s : St) (rd : Rd) (todo : List (MsgType × Bytes)) (aa : Bool) (qt qb : List Bytes) :
      RdOk cfg s rd → Fine cfg s { s with rd := rd, todo := todo, ackAfter := aa, queueText := qt, queueBinary := qb }
  | setAcked (s : St) : s.ready = some none → Fine cfg s { s with acked := true }
  | ident (s : St) (id : Bytes) : s.acked = false → Fine cfg s { s with id := id, acked := true }
  | newAsk (s : St) (tok : Bytes) (k : Cont) : ContOk cfg s k → s.closed = false →
      Fine cfg s { s with waiting := mapSet s.waiting tok s.asks.length,
                          asks := s.asks ++ [⟨tok, k, .table, none, false⟩] }
  | newDirect (s : St) (tok : Bytes) (k : Cont) : ContOk cfg s k → s.closed = false →
      Fine cfg s { s with asks := s.asks ++ [⟨tok, k, .reading, none, false⟩] }
  | askUpd (s : St) (i : Nat) (a : AskRec) (mode : AskMode) (box : Option Message) (done : Bool) :
      s.asks[i]? = some a → (a.done = true → done = true) → BoxOk cfg a mode box →
      Fine cfg s { s with asks := s.asks.set i { a with mode := mode, box := box, done := done } }
  | waitDel (s : St) (tok : Bytes) : Fine cfg s { s with waiting := mapDel s.waiting tok }
  | srv (s : St) (l : List Bytes) : Fine cfg s { s with srvWaiting := l }
  | hang (s : St) : Fine cfg s { s with hung := true }

/-- a sequence of these -/
abbrev Fines (cfg : Cfg) : St → St → Prop := ReflTransGen (Fine cfg)

theorem Fines.single {cfg : Cfg} {s s' : St} (h : Fine cfg s s') : Fines cfg s s' :=
  ReflTransGen.single h

/-! ### What no primitive change undoes -/

structure Grows (s s' : St) : Prop where
  names : ∀ (i : Nat) (n : Bytes), s.objs[i]?.map NSObj.ns = some n → s'.objs[i]?.map NSObj.ns = some n
  closed : s.closed = true → s'.closed = true
  ready : ∀ e, s.ready = some e → s'.ready = some e
  log : s.log <+: s'.log
  hung : s.hung = true → s'.hung = true
  asks : ∀ (i : Nat) (a : AskRec), s.asks[i]? = some a → ∃ a' : AskRec, s'.asks[i]? = some a' ∧ a'.tok = a.tok ∧
    a'.cont = a.cont ∧ (a.done = true → a'.done = true)

theorem Grows.refl (s : St) : Grows s s :=
  ⟨fun _ _ h => h, fun h => h, fun _ h => h, List.prefix_rfl, id, fun _ a h => ⟨a, h, rfl, rfl, id⟩⟩

theorem Grows.trans {a b c : St} (h1 : Grows a b) (h2 : Grows b c) : Grows a c := by
  refine ⟨fun i n h => h2.names i n (h1.names i n h), fun h => h2.closed (h1.closed h),
    fun e h => h2.ready e (h1.ready e h), h1.log.trans h2.log, fun h => h2.hung (h1.hung h), ?_⟩
  intro i x hx
  obtain ⟨y, hy, e1, e2, e3⟩ := h1.asks i x hx
  obtain ⟨z, hz, f1, f2, f3⟩ := h2.asks i y hy
  exact ⟨z, hz, f1.trans e1, f2.trans e2, fun h => f3 (e3 h)⟩

theorem setRooms_names (s : St) (obj : Nat) (f : List Bytes → List Bytes) (i : Nat) :
    (s.setRooms obj f).objs[i]?.map (·.ns) = s.objs[i]?.map (·.ns) := by
  unfold St.setRooms
  simp only [List.getElem?_modify]
  by_cases h : obj = i
  · subst h; simp [Option.map_map, Function.comp_def]
  · simp [h]

theorem Fine.grows {cfg : Cfg} {s s' : St} (h : Fine cfg s s') : Grows s s' := by
  have same : ∀ t : St, t.objs = s.objs → t.closed = s.closed → t.ready = s.ready →
      s.log <+: t.log → t.asks = s.asks → (s.hung = true → t.hung = true) → Grows s t := by
    intro t h1 h2 h3 h4 h5 h6
    exact ⟨fun i n h => by rw [h1]; exact h, fun h => by rw [h2]; exact h,
      fun e h => by rw [h3]; exact h, h4, h6, fun i a h => ⟨a, by rw [h5]; exact h, rfl, rfl, id⟩⟩
  have pre : ∀ o : Obs, s.log <+: (s.emit o).log := fun o => ⟨[o], rfl⟩
  cases h with
  | note o _ => exact same _ rfl rfl rfl (pre o) rfl id
  | fired obj msg h ret _ _ => exact same _ rfl rfl rfl (pre _) rfl id
  | sentMsg msg b ok _ _ _ _ _ => exact same _ rfl rfl rfl (pre _) rfl id
  | sentReply w ok _ => exact same _ rfl rfl rfl (pre _) rfl id
  | sentAck b ok _ _ => exact same _ rfl rfl rfl (pre _) rfl id
  | ready e hr =>
    refine ⟨fun _ _ h => h, fun h => h, ?_, List.prefix_rfl, id, fun _ a h => ⟨a, h, rfl, rfl, id⟩⟩
    intro e' h; rw [hr] at h; simp at h
  | newObj ns =>
    refine ⟨?_, fun h => h, fun _ h => h, List.prefix_rfl, id, fun _ a h => ⟨a, h, rfl, rfl, id⟩⟩
    intro i n h
    simp only [Option.map_eq_some_iff] at h ⊢
    obtain ⟨o, ho, hn⟩ := h
    exact ⟨o, by rw [List.getElem?_append_left]; exact ho; exact (List.getElem?_eq_some_iff.mp ho).1, hn⟩
  | addRoom obj room _ =>
    refine ⟨?_, fun h => h, fun _ h => h, List.prefix_rfl, id, fun _ a h => ⟨a, h, rfl, rfl, id⟩⟩
    intro i n h; rw [setRooms_names]; exact h
  | delRoom obj room =>
    refine ⟨?_, fun h => h, fun _ h => h, List.prefix_rfl, id, fun _ a h => ⟨a, h, rfl, rfl, id⟩⟩
    intro i n h; rw [setRooms_names]; exact h
  | nsAdd ns obj _ _ _ => exact same _ rfl rfl rfl List.prefix_rfl rfl id
  | nsDel ns => exact same _ rfl rfl rfl List.prefix_rfl rfl id
  | setClosed _ =>
    exact ⟨fun _ _ h => h, fun _ => rfl, fun _ h => h, List.prefix_rfl, id,
      fun _ a h => ⟨a, h, rfl, rfl, id⟩⟩
  | clearWaiting _ => exact same _ rfl rfl rfl List.prefix_rfl rfl id
  | unack _ => exact same _ rfl rfl rfl List.prefix_rfl rfl id
  | closeObs o _ _ => exact same _ rfl rfl rfl (pre o) rfl id
  | gates g => exact same _ rfl rfl rfl List.prefix_rfl rfl id
  | reader rd todo aa qt qb _ => exact same _ rfl rfl rfl List.prefix_rfl rfl id
  | setAcked _ => exact same _ rfl rfl rfl List.prefix_rfl rfl id
  | ident nid _ => exact same _ rfl rfl rfl List.prefix_rfl rfl id
  | newAsk tok k _ _ =>
    refine ⟨fun _ _ h => h, fun h => h, fun _ h => h, List.prefix_rfl, id, ?_⟩
    intro i a h
    refine ⟨a, ?_, rfl, rfl, id⟩
    simp only
    rw [List.getElem?_append_left (List.getElem?_eq_some_iff.mp h).1]; exact h
  | newDirect tok k _ _ =>
    refine ⟨fun _ _ h => h, fun h => h, fun _ h => h, List.prefix_rfl, id, ?_⟩
    intro i a h
    refine ⟨a, ?_, rfl, rfl, id⟩
    simp only
    rw [List.getElem?_append_left (List.getElem?_eq_some_iff.mp h).1]; exact h
  | askUpd i a mode box done ha hd _ =>
    refine ⟨fun _ _ h => h, fun h => h, fun _ h => h, List.prefix_rfl, id, ?_⟩
    intro j x hx
    by_cases hij : i = j
    · subst hij
      rw [ha] at hx
      cases hx
      refine ⟨{ a with mode := mode, box := box, done := done }, ?_, rfl, rfl, hd⟩
      simp only
      rw [List.getElem?_set_self (List.getElem?_eq_some_iff.mp ha).1]
    · exact ⟨x, by simp only; rw [List.getElem?_set_ne hij]; exact hx, rfl, rfl, id⟩
  | waitDel tok => exact same _ rfl rfl rfl List.prefix_rfl rfl id
  | srv l => exact same _ rfl rfl rfl List.prefix_rfl rfl id
  | hang => exact same _ rfl rfl rfl List.prefix_rfl rfl (fun _ => rfl)

theorem Fines.grows {cfg : Cfg} {s s' : St} (h : Fines cfg s s') : Grows s s' := by
  induction h with
  | refl => exact Grows.refl s
  | tail _ h ih => exact ih.trans h.grows

theorem ContOk.mono {cfg : Cfg} {s s' : St} (h : Grows s s') {k : Cont} (hk : ContOk cfg s k) :
    ContOk cfg s' k := by
  cases k with
  | connect ns obj => exact ⟨hk.1, h.names _ _ hk.2.1, hk.2.2.mono h.log⟩
  | disconnect obj msg => exact ⟨h.names _ _ hk.1, hk.2⟩
  | join obj msg => exact ⟨h.names _ _ hk.1, hk.2⟩
  | leave obj msg => exact ⟨h.names _ _ hk.1, hk.2⟩
  | user => trivial

/-- all Asks in flight refer to NSConns that exist -/
def AsksOk (cfg : Cfg) (s : St) : Prop := ∀ a ∈ s.asks, ContOk cfg s a.cont

theorem Fine.asksOk {cfg : Cfg} {s s' : St} (h : Fine cfg s s') (hs : AsksOk cfg s) :
    AsksOk cfg s' := by
  have hg := h.grows
  have same : s'.asks = s.asks → AsksOk cfg s' := fun e a ha => (hs a (e ▸ ha)).mono hg
  cases h with
  | newAsk tok k hk _ =>
    intro a ha
    rcases List.mem_append.mp ha with ha | ha
    · exact (hs a ha).mono hg
    · simp at ha; subst ha; exact hk.mono hg
  | newDirect tok k hk _ =>
    intro a ha
    rcases List.mem_append.mp ha with ha | ha
    · exact (hs a ha).mono hg
    · simp at ha; subst ha; exact hk.mono hg
  | askUpd i a mode box done ha hd _ =>
    intro x hx
    rcases List.mem_or_eq_of_mem_set hx with hx | rfl
    · exact (hs x hx).mono hg
    · exact (hs a (List.mem_of_getElem? ha)).mono hg
  | _ => exact same rfl

/-- the table of Asks refers to Asks with that token, which get only answers to themselves -/
structure WaitOk (cfg : Cfg) (s : St) : Prop where
  table : ∀ tok i, mapGet s.waiting tok = some i →
    ∃ a, s.asks[i]? = some a ∧ a.tok = tok ∧ a.mode = .table
  box : ∀ (i : Nat) (a : AskRec) (m : Message), s.asks[i]? = some a → a.mode = .table → a.box = some m → AnswerTo cfg a m
  send : ∀ i m, s.rd = .send i m → ∃ a, s.asks[i]? = some a ∧ AnswerTo cfg a m

theorem mapGet_mapDel {α : Type} (m : List (Bytes × α)) (k k' : Bytes) :
    mapGet (mapDel m k) k' = if k' = k then none else mapGet m k' := by
  induction m with
  | nil => simp [mapDel, mapGet]
  | cons p m ih =>
    obtain ⟨a, v⟩ := p
    unfold mapDel at ih ⊢
    rw [List.filter_cons]
    by_cases ha : a = k
    · subst ha
      simp only [ne_eq, not_true_eq_false, decide_false, Bool.false_eq_true, if_false, ih]
      by_cases hk : k' = a
      · simp [hk]
      · simp [hk, mapGet, Ne.symm hk]
    · simp only [ne_eq, ha, not_false_eq_true, decide_true, if_true, mapGet, ih]
      by_cases hk : a = k'
      · subst hk; simp [ha]
      · simp [hk]

theorem mapGet_mapSet {α : Type} (m : List (Bytes × α)) (k k' : Bytes) (v : α) :
    mapGet (mapSet m k v) k' = if k' = k then some v else mapGet m k' := by
  unfold mapSet
  simp only [mapGet, mapGet_mapDel]
  by_cases h : k = k'
  · subst h; simp
  · simp [h, Ne.symm h]

theorem Fine.waitOk {cfg : Cfg} {s s' : St} (h : Fine cfg s s') (hs : WaitOk cfg s) :
    WaitOk cfg s' := by
  cases h with
  | clearWaiting _ => exact ⟨by intro tok i h; simp [mapGet] at h, hs.box, hs.send⟩
  | waitDel tok =>
    refine ⟨?_, hs.box, hs.send⟩
    intro t i h
    simp only [mapGet_mapDel] at h
    split at h
    · simp at h
    · exact hs.table t i h
  | reader rd todo aa qt qb h =>
    refine ⟨hs.table, hs.box, ?_⟩
    intro i m hm
    rcases h.2 i m hm with h | h
    · exact hs.send i m h
    · exact h
  | newAsk tok k _ _ =>
    have old : ∀ (i : Nat) (a : AskRec), s.asks[i]? = some a →
        (s.asks ++ [(⟨tok, k, .table, none, false⟩ : AskRec)])[i]? = some a := by
      intro i a h
      rw [List.getElem?_append_left (List.getElem?_eq_some_iff.mp h).1]; exact h
    refine ⟨?_, ?_, ?_⟩
    · intro t i h
      simp only [mapGet_mapSet] at h
      split at h
      · rename_i e
        cases h
        exact ⟨_, by simp; rfl, e.symm, rfl⟩
      · obtain ⟨a, h1, h2⟩ := hs.table t i h
        exact ⟨a, old i a h1, h2⟩
    · intro i a m h1 h2 h3
      by_cases hi : i < s.asks.length
      · rw [List.getElem?_append_left hi] at h1
        exact hs.box i a m h1 h2 h3
      · rw [List.getElem?_append_right (by omega)] at h1
        cases hj : i - s.asks.length with
        | zero => rw [hj] at h1; simp at h1; subst h1; simp at h3
        | succ n => rw [hj] at h1; simp at h1
    · intro i m h
      obtain ⟨a, h1, h2⟩ := hs.send i m h
      exact ⟨a, old i a h1, h2⟩
  | newDirect tok k _ _ =>
    have old : ∀ (i : Nat) (a : AskRec), s.asks[i]? = some a →
        (s.asks ++ [(⟨tok, k, .reading, none, false⟩ : AskRec)])[i]? = some a := by
      intro i a h
      rw [List.getElem?_append_left (List.getElem?_eq_some_iff.mp h).1]; exact h
    refine ⟨?_, ?_, ?_⟩
    · intro t i h
      obtain ⟨a, h1, h2⟩ := hs.table t i h
      exact ⟨a, old i a h1, h2⟩
    · intro i a m h1 h2 h3
      by_cases hi : i < s.asks.length
      · rw [List.getElem?_append_left hi] at h1
        exact hs.box i a m h1 h2 h3
      · rw [List.getElem?_append_right (by omega)] at h1
        cases hj : i - s.asks.length with
        | zero => rw [hj] at h1; simp at h1; subst h1; simp at h3
        | succ n => rw [hj] at h1; simp at h1
    · intro i m h
      obtain ⟨a, h1, h2⟩ := hs.send i m h
      exact ⟨a, old i a h1, h2⟩
  | askUpd j a mode box done ha hd hb =>
    have hlt : j < s.asks.length := (List.getElem?_eq_some_iff.mp ha).1
    have key : ∀ (i : Nat) (x : AskRec), s.asks[i]? = some x → x.mode = .table → ∃ y : AskRec,
        (s.asks.set j { a with mode := mode, box := box, done := done })[i]? = some y ∧
        y.tok = x.tok ∧ y.mode = .table := by
      intro i x hx hm
      by_cases e : j = i
      · subst e
        rw [ha] at hx
        cases hx
        refine ⟨{ a with mode := mode, box := box, done := done }, by simp [hlt], rfl, ?_⟩
        rcases hb.1 with h | ⟨h, _⟩
        · exact h.trans hm
        · rw [hm] at h; simp at h
      · exact ⟨x, by rw [List.getElem?_set_ne e]; exact hx, rfl, hm⟩
    refine ⟨?_, ?_, ?_⟩
    · intro t i h
      obtain ⟨x, h1, h2, h3⟩ := hs.table t i h
      obtain ⟨y, e1, e2, e3⟩ := key i x h1 h3
      exact ⟨y, e1, e2.trans h2, e3⟩
    · intro i x m h1 h2 h3
      by_cases e : j = i
      · subst e
        have : (s.asks.set j { a with mode := mode, box := box, done := done })[j]? =
            some { a with mode := mode, box := box, done := done } := by simp [hlt]
        dsimp only at h1
        rw [this] at h1
        cases h1
        have hm : a.mode = .table := by
          rcases hb.1 with h | ⟨_, h⟩
          · exact h.symm.trans h2
          · rw [show mode = .table from h2] at h; simp at h
        rcases hb.2 m h3 with h | h | h | h
        · obtain ⟨_, p, q⟩ := hs.box j a m ha hm h
          exact ⟨h2, p, q⟩
        · rw [hm] at h; simp at h
        · exact ⟨h2, h.2.1, h.2.2⟩
        · rw [hm] at h; simp at h
      · dsimp only at h1
        rw [List.getElem?_set_ne e] at h1
        exact hs.box i x m h1 h2 h3
    · intro i m h
      obtain ⟨x, h1, h2, h3, h4⟩ := hs.send i m h
      obtain ⟨y, e1, e2, e3⟩ := key i x h1 h2
      exact ⟨y, e1, e3, h3.trans e2.symm, h4⟩
  | _ => exact ⟨hs.table, hs.box, hs.send⟩

theorem Fines.waitOk {cfg : Cfg} {s s' : St} (h : Fines cfg s s') (hs : WaitOk cfg s) :
    WaitOk cfg s' := by
  induction h with
  | refl => exact hs
  | tail _ h ih => exact h.waitOk ih

theorem Fines.asksOk {cfg : Cfg} {s s' : St} (h : Fines cfg s s') (hs : AsksOk cfg s) :
    AsksOk cfg s' := by
  induction h with
  | refl => exact hs
  | tail _ h ih => exact h.asksOk ih

/-! ### Refinement of each function -/

variable {cfg : Cfg}

theorem fines_signalReady (s : St) (e : Option GoErr) : Fines cfg s (s.signalReady e) := by
  unfold St.signalReady
  split
  · exact .refl
  · rename_i h; exact .single (.ready s e h)

theorem fines_fireClosed (s : St) (obj : Nat) (msg : Message) :
    Fines cfg s (fireClosed cfg s obj msg) := by
  unfold fireClosed
  dsimp only
  split
  · rename_i h; exact .single (.fired s obj msg none none h (fun _ => rfl))
  · rename_i h' h; exact .single (.fired s obj msg (some h') _ h (by simp))

theorem fines_foldl {α : Type} (f : St → α → St) (l : List α)
    (hf : ∀ s x, Fines cfg s (f s x)) (s : St) : Fines cfg s (l.foldl f s) := by
  induction l generalizing s with
  | nil => exact .refl
  | cons x l ih => exact (hf s x).trans (ih _)

theorem fines_leaveOneClosed (obj : Nat) (il : Bool) (s : St) (room : Bytes) :
    Fines cfg s (leaveOneClosed cfg obj il s room) := by
  unfold leaveOneClosed
  dsimp only
  exact ((fines_fireClosed _ _ _).tail (.delRoom _ _ _)).trans (fines_fireClosed _ _ _)

theorem fines_forceLeaveClosed (s : St) (obj : Nat) (il : Bool) :
    Fines cfg s (forceLeaveClosed cfg s obj il) :=
  fines_foldl _ _ (fun s x => fines_leaveOneClosed obj il s x) s

theorem fines_closeOne (s : St) (ns : Bytes) : Fines cfg s (closeOne cfg s ns) := by
  unfold closeOne
  split
  · exact .refl
  · dsimp only
    exact ((fines_forceLeaveClosed _ _ _).trans (fines_fireClosed _ _ _)).tail (.nsDel _ _)

theorem fines_closeAll (s : St) (h : s.closed = true) : Fines cfg s (closeAll cfg s) := by
  unfold closeAll
  have h2 := fines_foldl (cfg := cfg) (closeOne cfg) (cfg.order s.log (s.connected.map (·.1)))
    (fun s x => fines_closeOne s x) s
  exact h2.tail (.clearWaiting _ ((Fines.grows h2).closed h))

theorem fines_closeEnd (s : St) (h : s.closed = true) : Fines cfg s (closeEnd cfg s) := by
  unfold closeEnd
  have h2 : Fines cfg s { s with acked := false } := .single (.unack s h)
  split
  · exact (h2.tail (.closeObs _ _ h rfl)).tail (.closeObs _ _ h rfl)
  · exact ((h2.tail (.closeObs _ _ h rfl)).tail (.closeObs _ _ h rfl)).tail (.closeObs _ _ h rfl)

theorem fines_closeConn (s : St) : Fines cfg s (closeConn cfg s) := by
  unfold closeConn
  split
  · exact .refl
  · rename_i hc
    have h0 : Fines cfg s { s with closed := true } := .single (.setClosed s (by simpa using hc))
    split
    · exact h0.trans (fines_closeEnd _ rfl)
    · have h1 := fines_closeAll (cfg := cfg) { s with closed := true } rfl
      exact (h0.trans h1).trans (fines_closeEnd _ ((Fines.grows h1).closed rfl))

/-! ### Closing as one change -/

/-- The same, with a call of `Close` as one change. -/
inductive Prim (cfg : Cfg) : St → St → Prop
  | note (s : St) (o : Obs) : o.isNote = true → Prim cfg s (s.emit o)
  | fired (s : St) (obj : Nat) (msg : Message) (h : Option Bytes) (ret : Option GoErr) :
      pick (cfg.events (s.nsName obj)) msg.event = h → (h = none → ret = none) →
      Prim cfg s (s.emit (.fired obj (s.view obj msg) msg h ret))
  | sentMsg (s : St) (msg : Message) (b : Bytes) (ok : Bool) :
      s.closed = false → membershipAllows s msg = true → s.is cfg msg.fromExplicit = false →
      serializeMessage { msg with fromExplicit := [] } = some b →
      ok = (cfg.sock s.log msg.setBinary b).isNone →
      Prim cfg s (s.emit (.sent msg.setBinary b ok))
  | sentReply (s : St) (w : Bytes) (ok : Bool) :
      ok = (cfg.sock s.log false (genEmptyReplyToWait w)).isNone →
      Prim cfg s (s.emit (.sent false (genEmptyReplyToWait w) ok))
  | sentAck (s : St) (b : Bytes) (ok : Bool) :
      (b = b! "M" ∨ b = 65 :: s.id ∨ ∃ t, b = 72 :: t) →
      ok = (cfg.sock s.log false b).isNone → Prim cfg s (s.emit (.sent false b ok))
  | ready (s : St) (e : Option GoErr) : s.ready = none → Prim cfg s { s with ready := some e }
  | newObj (s : St) (ns : Bytes) : Prim cfg s { s with objs := s.objs ++ [⟨ns, []⟩] }
  | addRoom (s : St) (obj : Nat) (room : Bytes) : RoomAccepted s.log obj room →
      Prim cfg s (s.setRooms obj (addRoom room))
  | delRoom (s : St) (obj : Nat) (room : Bytes) : Prim cfg s (s.setRooms obj (delRoom room))
  | nsAdd (s : St) (ns : Bytes) (obj : Nat) :
      (mapGet cfg.decl ns).isSome → s.objs[obj]?.map (·.ns) = some ns → NsAccepted s.log obj →
      Prim cfg s { s with connected := mapSet s.connected ns obj }
  | nsDel (s : St) (ns : Bytes) : Prim cfg s { s with connected := mapDel s.connected ns }
  | gates (s : St) (g : List (Bytes × Gate)) : Prim cfg s { s with gates := g }
  | reader (s : St) (rd : Rd) (todo : List (MsgType × Bytes)) (aa : Bool) (qt qb : List Bytes) :
      RdOk cfg s rd → Prim cfg s { s with rd := rd, todo := todo, ackAfter := aa, queueText := qt, queueBinary := qb }
  | setAcked (s : St) : s.ready = some none → Prim cfg s { s with acked := true }
  | ident (s : St) (id : Bytes) : s.acked = false → Prim cfg s { s with id := id, acked := true }
  | newAsk (s : St) (tok : Bytes) (k : Cont) : ContOk cfg s k → s.closed = false →
      Prim cfg s { s with waiting := mapSet s.waiting tok s.asks.length,
                          asks := s.asks ++ [⟨tok, k, .table, none, false⟩] }
  | newDirect (s : St) (tok : Bytes) (k : Cont) : ContOk cfg s k → s.closed = false →
      Prim cfg s { s with asks := s.asks ++ [⟨tok, k, .reading, none, false⟩] }
  | askUpd (s : St) (i : Nat) (a : AskRec) (mode : AskMode) (box : Option Message) (done : Bool) :
      s.asks[i]? = some a → (a.done = true → done = true) → BoxOk cfg a mode box →
      Prim cfg s { s with asks := s.asks.set i { a with mode := mode, box := box, done := done } }
  | waitDel (s : St) (tok : Bytes) : Prim cfg s { s with waiting := mapDel s.waiting tok }
  | srv (s : St) (l : List Bytes) : Prim cfg s { s with srvWaiting := l }
  | hang (s : St) : Prim cfg s { s with hung := true }
  | close (s : St) : s.closed = false → Prim cfg s (closeConn cfg s)

/-- a sequence of primitive changes -/
abbrev Prims (cfg : Cfg) : St → St → Prop := ReflTransGen (Prim cfg)

theorem Prims.single {s s' : St} (h : Prim cfg s s') : Prims cfg s s' :=
  ReflTransGen.single h

theorem Prim.fines {s s' : St} (h : Prim cfg s s') : Fines cfg s s' := by
  cases h with
  | note o h => exact .single (.note s o h)
  | fired obj msg h ret h1 h2 => exact .single (.fired s obj msg h ret h1 h2)
  | sentMsg msg b ok h1 h2 h3 h4 h5 => exact .single (.sentMsg s msg b ok h1 h2 h3 h4 h5)
  | sentReply w ok h => exact .single (.sentReply s w ok h)
  | sentAck b ok h h' => exact .single (.sentAck s b ok h h')
  | ready e h => exact .single (.ready s e h)
  | newObj ns => exact .single (.newObj s ns)
  | addRoom obj room h => exact .single (.addRoom s obj room h)
  | delRoom obj room => exact .single (.delRoom s obj room)
  | nsAdd ns obj h1 h2 h3 => exact .single (.nsAdd s ns obj h1 h2 h3)
  | nsDel ns => exact .single (.nsDel s ns)
  | gates g => exact .single (.gates s g)
  | reader rd todo aa qt qb h => exact .single (.reader s rd todo aa qt qb h)
  | setAcked h => exact .single (.setAcked s h)
  | ident nid h => exact .single (.ident s nid h)
  | newAsk tok k h1 h2 => exact .single (.newAsk s tok k h1 h2)
  | newDirect tok k h1 h2 => exact .single (.newDirect s tok k h1 h2)
  | askUpd i a mode box done h1 h2 h3 => exact .single (.askUpd s i a mode box done h1 h2 h3)
  | waitDel tok => exact .single (.waitDel s tok)
  | srv l => exact .single (.srv s l)
  | hang => exact .single (.hang s)
  | close h => exact fines_closeConn s

theorem Prims.fines {s s' : St} (h : Prims cfg s s') : Fines cfg s s' := by
  induction h with
  | refl => exact .refl
  | tail _ h ih => exact ih.trans h.fines

theorem Prims.grows {s s' : St} (h : Prims cfg s s') : Grows s s' := Fines.grows (Prims.fines h)

theorem Prims.waitOk {s s' : St} (h : Prims cfg s s') (hs : WaitOk cfg s) : WaitOk cfg s' :=
  Fines.waitOk (Prims.fines h) hs

theorem Prims.asksOk {s s' : St} (h : Prims cfg s s') (hs : AsksOk cfg s) : AsksOk cfg s' :=
  Fines.asksOk (Prims.fines h) hs

theorem prims_signalReady (s : St) (e : Option GoErr) : Prims cfg s (s.signalReady e) := by
  unfold St.signalReady
  split
  · exact .refl
  · rename_i h; exact .single (.ready s e h)

theorem prims_foldl {α : Type} (f : St → α → St) (l : List α)
    (hf : ∀ s x, Prims cfg s (f s x)) (s : St) : Prims cfg s (l.foldl f s) := by
  induction l generalizing s with
  | nil => exact .refl
  | cons x l ih => exact (hf s x).trans (ih _)

theorem prims_closeConn (s : St) : Prims cfg s (closeConn cfg s) := by
  cases h : s.closed with
  | true => simp only [closeConn, h, if_true]; exact .refl
  | false => exact .single (.close s h)

theorem prims_afterSent (s : St) (binary : Bool) (b : Bytes)
    (h : ∀ ok, ok = (cfg.sock s.log binary b).isNone → Prim cfg s (s.emit (.sent binary b ok))) :
    Prims cfg s (rawWrite cfg s b binary).1 := by
  unfold rawWrite
  dsimp only
  split
  · exact .single (h _ rfl)
  · split
    · exact (Prims.single (h _ rfl)).trans (prims_closeConn _)
    · exact .single (h _ rfl)

theorem prims_writeEmptyReply (s : St) (w : Bytes) : Prims cfg s (writeEmptyReply cfg s w) :=
  prims_afterSent s false _ (fun ok h => .sentReply s w ok h)

theorem prims_markReady (s : St) : Prims cfg s (s.markReady cfg) := by
  unfold St.markReady
  split
  · exact .refl
  · exact prims_signalReady _ _

@[simp] theorem signalReady_closed (s : St) (e : Option GoErr) :
    (s.signalReady e).closed = s.closed := by
  unfold St.signalReady; split <;> rfl

@[simp] theorem markReady_closed (s : St) : (s.markReady cfg).closed = s.closed := by
  unfold St.markReady; split <;> simp

@[simp] theorem signalReady_id (s : St) (e : Option GoErr) : (s.signalReady e).id = s.id := by
  unfold St.signalReady; split <;> rfl

@[simp] theorem markReady_is (s : St) (x : Bytes) :
    St.is cfg (s.markReady cfg) x = St.is cfg s x := by
  unfold St.is St.markReady; split <;> (try rfl) <;> split <;> simp_all

theorem prims_canWrite (s : St) (msg : Message) : Prims cfg s (canWrite cfg s msg).1 := by
  unfold canWrite
  split
  · exact .refl
  · exact prims_markReady _

theorem canWrite_true (s : St) (msg : Message) (h : (canWrite cfg s msg).2 = true) :
    (canWrite cfg s msg).1.closed = false ∧ membershipAllows (canWrite cfg s msg).1 msg = true ∧
      (canWrite cfg s msg).1.is cfg msg.fromExplicit = false := by
  unfold canWrite at h ⊢
  split at h
  · simp at h
  · rename_i hc
    rw [if_neg hc]
    simp only [Bool.and_eq_true, Bool.not_eq_true'] at h
    refine ⟨by simpa using hc, h.1, by simpa using h.2⟩

theorem prims_write (s : St) (msg : Message) : Prims cfg s (write cfg s msg).1 := by
  have h1 := prims_canWrite (cfg := cfg) s msg
  unfold write
  dsimp only
  split
  · rename_i hok
    obtain ⟨hc, hm, hi⟩ := canWrite_true s msg hok
    split
    · rename_i b hb
      exact h1.trans (prims_afterSent _ _ _ (fun ok h => .sentMsg _ msg b ok hc hm hi hb h))
    · exact h1.tail (.hang _)
  · exact h1

theorem prims_runAct (s : St) (a : Act) : Prims cfg s (runAct cfg s a) := by
  cases a with
  | write m => exact prims_write s m
  | close => exact prims_closeConn s

theorem prims_fire (s : St) (obj : Nat) (msg : Message) : Prims cfg s (fire cfg s obj msg).1 := by
  unfold fire
  dsimp only
  split
  · rename_i h; exact .single (.fired s obj msg none none h (fun _ => rfl))
  · rename_i h' h
    exact (Prims.single (.fired s obj msg (some h') _ h (by simp))).trans
      (prims_foldl _ _ (fun s x => prims_runAct s x) _)

theorem prims_runActLocked (obj : Nat) (s : St) (a : Act) :
    Prims cfg s (runActLocked cfg obj s a) := by
  unfold runActLocked
  split
  · exact (prims_runAct s a).tail (.hang _)
  · exact prims_runAct s a

theorem prims_fireLocked (s : St) (obj : Nat) (msg : Message) :
    Prims cfg s (fireLocked cfg s obj msg) := by
  unfold fireLocked
  dsimp only
  split
  · rename_i h; exact .single (.fired s obj msg none none h (fun _ => rfl))
  · rename_i h' h
    exact (Prims.single (.fired s obj msg (some h') _ h (by simp))).trans
      (prims_foldl _ _ (fun s x => prims_runActLocked obj s x) _)

theorem prims_leaveOne (obj : Nat) (il : Bool) (s : St) (room : Bytes) :
    Prims cfg s (leaveOne cfg obj il s room) := by
  unfold leaveOne
  dsimp only
  exact ((prims_fireLocked _ _ _).tail (.delRoom _ _ _)).trans (prims_fireLocked _ _ _)

theorem prims_forceLeaveAll (s : St) (obj : Nat) (il : Bool) :
    Prims cfg s (forceLeaveAll cfg s obj il) :=
  prims_foldl _ _ (fun s x => prims_leaveOne obj il s x) s

theorem prims_gateStart (s : St) (ns : Bytes) : Prims cfg s (gateStart s ns) :=
  .single (.gates s _)

theorem prims_gateDone (s : St) (ns : Bytes) : Prims cfg s (gateDone s ns) := by
  unfold gateDone
  split
  · exact .refl
  · split
    · exact .refl
    · exact .single (.gates s _)

theorem prims_notifyConnected (s : St) (obj : Nat) (msg : Message) :
    Prims cfg s (notifyConnected cfg s obj msg) := by
  unfold notifyConnected
  dsimp only
  split
  · exact (prims_fire _ _ _).tail (.note _ _ rfl)
  · exact prims_fire _ _ _

theorem prims_notifyDisconnect (s : St) (ns : Bytes) : Prims cfg s (notifyDisconnect cfg s ns) := by
  unfold notifyDisconnect
  split
  · exact .single (.note _ _ rfl)
  · exact .refl

theorem newObj_name (s : St) (ns : Bytes) :
    (newObj s ns).1.objs[(newObj s ns).2]?.map (·.ns) = some ns := by
  simp [newObj]

theorem fire_fst (s : St) (obj : Nat) (msg : Message) {t : St} {r : Option GoErr}
    (h : fire cfg s obj msg = (t, r)) : Prims cfg s t := by
  have := prims_fire (cfg := cfg) s obj msg
  rwa [h] at this

/-- what a callback that returned nil leaves in the history -/
theorem fire_logs (s : St) (obj : Nat) (msg : Message) {t : St} {r : Option GoErr}
    (h : fire cfg s obj msg = (t, r)) : ∃ e, Obs.fired obj (s.view obj msg) msg e r ∈ t.log := by
  unfold fire at h
  dsimp only at h
  split at h
  · cases h
    exact ⟨_, List.mem_append_right _ (List.mem_singleton.mpr rfl)⟩
  · rename_i hh he
    cases h
    have hg := Prims.grows (prims_foldl (cfg := cfg) (runAct cfg) (cfg.cb s.log obj hh msg).1
      (fun s x => prims_runAct s x) (s.emit (.fired obj (s.view obj msg) msg (some hh)
        (cfg.cb s.log obj hh msg).2)))
    exact ⟨_, hg.log.subset (List.mem_append_right _ (List.mem_singleton.mpr rfl))⟩

theorem prims_replyConnect (s : St) (msg : Message) (hev : msg.event = OnNamespaceConnect) :
    Prims cfg s (replyConnect cfg s msg) := by
  unfold replyConnect
  split
  · exact .refl
  · split
    · exact prims_writeEmptyReply _ _
    · split
      · exact prims_write _ _
      · rename_i evs hd
        dsimp only
        have h0 : Prims cfg s (newObj s msg.ns).1 := .single (.newObj s msg.ns)
        split
        · rename_i t e he
          exact (h0.trans (fire_fst _ _ _ he)).trans (prims_write _ _)
        · rename_i t he
          have h1 := fire_fst _ _ _ he
          have hn := (Prims.grows h1).names _ _ (newObj_name s msg.ns)
          obtain ⟨ee, hl⟩ := fire_logs _ _ _ he
          refine (((h0.trans h1).tail (.nsAdd _ msg.ns _ (by simp [hd]) hn
            ⟨_, _, _, hl, hev⟩)).trans
            (prims_writeEmptyReply _ _)).trans (prims_notifyConnected _ _ _)

theorem prims_replyDisconnect (s : St) (msg : Message) :
    Prims cfg s (replyDisconnect cfg s msg) := by
  unfold replyDisconnect
  split
  · exact .refl
  · split
    · exact prims_writeEmptyReply _ _
    · split
      · dsimp only
        exact (((prims_forceLeaveAll _ _ _).tail (.nsDel _ _)).trans (prims_writeEmptyReply _ _)).trans
          (prims_fire _ _ _)
      · split
        · rename_i t e he
          exact (fire_fst _ _ _ he).trans (prims_write _ _)
        · rename_i t he
          dsimp only
          exact ((((fire_fst _ _ _ he).trans (prims_forceLeaveAll _ _ _)).tail (.nsDel _ _)).trans
            (prims_notifyDisconnect _ _)).trans (prims_writeEmptyReply _ _)

theorem prims_replyRoomJoin (s : St) (obj : Nat) (msg : Message) (hev : msg.event = OnRoomJoin) :
    Prims cfg s (replyRoomJoin cfg s obj msg) := by
  unfold replyRoomJoin
  split
  · exact .refl
  · split
    · exact prims_writeEmptyReply _ _
    · split
      · rename_i t e he
        exact (fire_fst _ _ _ he).trans (prims_write _ _)
      · rename_i t he
        dsimp only
        obtain ⟨ee, hl⟩ := fire_logs _ _ _ he
        exact (((fire_fst _ _ _ he).tail (.addRoom _ _ _ ⟨_, _, _, hl, hev, rfl⟩)).trans (prims_fire _ _ _)).trans
          (prims_writeEmptyReply _ _)

theorem prims_replyRoomLeave (s : St) (obj : Nat) (msg : Message) :
    Prims cfg s (replyRoomLeave cfg s obj msg) := by
  unfold replyRoomLeave
  split
  · exact .refl
  · split
    · exact prims_writeEmptyReply _ _
    · split
      · dsimp only
        exact (((prims_fire _ _ _).tail (.delRoom _ _ _)).trans (prims_writeEmptyReply _ _)).trans
          (prims_fire _ _ _)
      · split
        · rename_i t e he
          exact (fire_fst _ _ _ he).trans (prims_write _ _)
        · rename_i t he
          dsimp only
          exact (((fire_fst _ _ _ he).tail (.delRoom _ _ _)).trans (prims_fire _ _ _)).trans
            (prims_writeEmptyReply _ _)

theorem prims_handleEvent (s : St) (obj : Nat) (msg : Message) :
    Prims cfg s (handleEvent cfg s obj msg) := by
  unfold handleEvent
  dsimp only
  split
  · rename_i t e he
    exact (fire_fst _ _ _ he).trans (prims_write _ _)
  · rename_i t he
    exact fire_fst _ _ _ he

theorem prims_afterGate (s : St) (msg : Message) : Prims cfg s (afterGate cfg s msg) := by
  unfold afterGate
  split
  · exact prims_write _ _
  · split
    · exact prims_replyRoomJoin _ _ _ (by assumption)
    · split
      · exact prims_replyRoomLeave _ _ _
      · exact prims_handleEvent _ _ _

theorem prims_deliver (s : St) (i : Nat) (msg : Message) (hw : WaitOk cfg s)
    (hd : Decoded cfg msg) (hi : mapGet s.waiting msg.wait = some i) :
    Prims cfg s (deliver s i msg) := by
  obtain ⟨a', h1, h2, h3⟩ := hw.table msg.wait i hi
  unfold deliver
  split
  · exact .refl
  · rename_i a ha
    rw [h1] at ha
    cases ha
    have hto : AnswerTo cfg a' msg := ⟨h3, h2.symm, hd⟩
    split
    · exact .single (.askUpd s i a' a'.mode (some msg) a'.done h1 id
        ⟨Or.inl rfl, by intro m h; cases h; exact Or.inr (Or.inr (Or.inl hto))⟩)
    · exact .single (.reader s _ s.todo s.ackAfter s.queueText s.queueBinary
        ⟨by intro m h; simp at h, by intro j m h; cases h; exact Or.inr ⟨a', h1, hto⟩⟩)

theorem prims_dispatch (s : St) (msg : Message) (hd : Decoded cfg msg) : Prims cfg s (dispatch cfg s msg) := by
  unfold dispatch
  split
  · exact prims_replyConnect _ _ (by assumption)
  · split
    · exact prims_replyDisconnect _ _
    · split
      · exact .single (.reader s _ s.todo s.ackAfter s.queueText s.queueBinary ⟨by intro m h; cases h; exact Or.inr hd,
          by intro i m h; simp at h⟩)
      · exact prims_afterGate _ _

theorem prims_handleMessage (s : St) (msg : Message) (hd : Decoded cfg msg) (hw : WaitOk cfg s) :
    Prims cfg s (handleMessage cfg s msg) := by
  unfold handleMessage
  split
  · exact .refl
  · split
    · split
      · exact .single (.hang s)
      · exact prims_fire _ _ _
    · split
      · split
        · exact .single (.note _ _ rfl)
        · split
          · exact .single (.note _ _ rfl)
          · split
            · exact prims_deliver _ _ _ hw hd (by assumption)
            · exact prims_dispatch _ _ hd
      · exact prims_dispatch _ _ hd

theorem prims_handlePayload (s : St) (typ : MsgType) (b : Bytes) (hw : WaitOk cfg s) :
    Prims cfg s (handlePayload cfg s typ b) := prims_handleMessage _ _ ⟨typ, b, rfl⟩ hw

theorem prims_readerExit (s : St) : Prims cfg s (readerExit cfg s) := by
  unfold readerExit
  exact (prims_closeConn s).tail (.reader _ _ (closeConn cfg s).todo (closeConn cfg s).ackAfter
    (closeConn cfg s).queueText (closeConn cfg s).queueBinary ⟨by intro m h; simp at h, by intro i m h; simp at h⟩)

theorem prims_finishAck (s : St) : Prims cfg s (finishAck cfg s) := by
  unfold finishAck
  dsimp only
  have h0 : Prims cfg s { s with ackAfter := false } :=
    .single (.reader s s.rd s.todo false s.queueText s.queueBinary ⟨fun _ h => Or.inl h, fun _ _ h => Or.inl h⟩)
  have h1 := prims_afterSent (cfg := cfg) { s with ackAfter := false } false (65 :: s.id)
    (fun ok h => .sentAck _ _ ok (Or.inr (Or.inl rfl)) h)
  split
  · exact h0.trans h1
  · exact (h0.trans h1).trans (prims_readerExit _)

theorem prims_drain (l : List (MsgType × Bytes)) (s : St) (hw : WaitOk cfg s) : Prims cfg s (drain cfg s l) := by
  induction l generalizing s with
  | nil =>
    unfold drain
    dsimp only
    have h0 : Prims cfg s { s with todo := [] } :=
      .single (.reader s s.rd [] s.ackAfter s.queueText s.queueBinary ⟨fun _ h => Or.inl h, fun _ _ h => Or.inl h⟩)
    split
    · exact h0.trans (prims_finishAck _)
    · exact h0
  | cons p l ih =>
    unfold drain
    dsimp only
    have h0 : Prims cfg s { s with rd := .idle } :=
      .single (.reader s .idle s.todo s.ackAfter s.queueText s.queueBinary ⟨by intro m h; simp at h, by intro i m h; simp at h⟩)
    have h1 := h0.trans (prims_handlePayload { s with rd := .idle } p.1 p.2 (Prims.waitOk h0 hw))
    split
    · exact h1.trans (ih _ (Prims.waitOk h1 hw))
    · exact h1.tail (.reader _ _ l _ _ _ ⟨fun _ h => Or.inl h, fun _ _ h => Or.inl h⟩)

theorem prims_ackReady (s : St) (err : Option GoErr) (hr : s.ready = some err) (hw : WaitOk cfg s) :
    Prims cfg s (ackReady cfg s err) := by
  unfold ackReady
  split
  · rename_i e
    exact (prims_afterSent _ false _ (fun ok h => .sentAck _ _ ok (Or.inr (Or.inr ⟨_, rfl⟩)) h)).trans
      (prims_readerExit _)
  · dsimp only
    have h1 := (Prims.single (cfg := cfg) (.setAcked s hr)).tail
      (.reader { s with acked := true } .idle s.todo true [] [] ⟨by intro m h; simp at h, by intro i m h; simp at h⟩)
    exact ReflTransGen.trans h1 (prims_drain _ _ (Prims.waitOk h1 hw))

theorem prims_handleACK (s : St) (typ : MsgType) (b : Bytes) (ha : s.acked = false)
    (hw : WaitOk cfg s) :
    Prims cfg s (handleACK cfg s typ b) := by
  unfold handleACK
  split
  · exact .refl
  · split
    · split
      · exact .single (.reader s .ack s.todo s.ackAfter s.queueText s.queueBinary ⟨by intro m h; simp at h, by intro i m h; simp at h⟩)
      · rename_i e he
        exact prims_ackReady s e he hw
    · split
      · rename_i rest _ _
        exact (Prims.single (.ident s rest ha)).trans (prims_signalReady _ _)
      · split
        · exact (prims_signalReady _ _).trans (prims_readerExit _)
        · split
          · exact .single (.reader s s.rd s.todo s.ackAfter _ s.queueBinary ⟨fun _ h => Or.inl h, fun _ _ h => Or.inl h⟩)
          · exact .single (.reader s s.rd s.todo s.ackAfter s.queueText _ ⟨fun _ h => Or.inl h, fun _ _ h => Or.inl h⟩)

theorem prims_recv (s : St) (typ : MsgType) (b : Bytes) (hw : WaitOk cfg s) : Prims cfg s (recv cfg s typ b) := by
  unfold recv
  split
  · exact .refl
  · split
    · exact prims_handlePayload _ _ _ hw
    · rename_i h; exact prims_handleACK _ _ _ (by simpa using h) hw

theorem prims_wakeReader {s s' : St} (hw : WaitOk cfg s) (h : wakeReader cfg s = some s') : Prims cfg s s' := by
  unfold wakeReader at h
  split at h
  · rename_i msg _
    split at h
    · dsimp only at h
      have h0 : Prims cfg s { s with rd := .idle } :=
        .single (.reader s .idle s.todo s.ackAfter s.queueText s.queueBinary ⟨by intro m h; simp at h, by intro i m h; simp at h⟩)
      have h1 := h0.trans (prims_afterGate { s with rd := .idle } msg)
      split at h
      · cases h; exact h1.trans (prims_drain _ _ (Prims.waitOk h1 hw))
      · cases h; exact h1
    · simp at h
  · split at h
    · simp at h
    · rename_i e he
      cases h; exact prims_ackReady s e he hw
  · simp at h

theorem prims_finish (s : St) (k : Cont) (m : Message) (err : Option GoErr)
    (hk : ContOk cfg s k) : Prims cfg s (finish cfg s k m err) := by
  cases k with
  | connect ns obj =>
    unfold finish
    dsimp only
    cases err with
    | some e => exact (Prims.single (.note _ _ rfl)).trans (prims_gateDone _ _)
    | none =>
      exact (((Prims.single (.nsAdd s ns obj hk.1 hk.2.1 hk.2.2)).trans (prims_notifyConnected _ _ _)).tail
        (.note _ _ rfl)).trans (prims_gateDone _ _)
  | disconnect obj msg =>
    unfold finish
    dsimp only
    cases err with
    | some e => exact .single (.note _ _ rfl)
    | none =>
      exact ((((prims_forceLeaveAll _ _ _).tail (.nsDel _ _)).trans (prims_fire _ _ _)).trans
        (prims_notifyDisconnect _ _)).tail (.note _ _ rfl)
  | join obj msg =>
    unfold finish
    dsimp only
    cases err with
    | some e => exact .single (.note _ _ rfl)
    | none =>
      dsimp only
      split
      · rename_i t e he; exact (fire_fst _ _ _ he).tail (.note _ _ rfl)
      · rename_i t he
        obtain ⟨ee, hl⟩ := fire_logs _ _ _ he
        exact (((fire_fst _ _ _ he).tail (.addRoom _ _ _ ⟨_, _, _, hl, hk.2.1, rfl⟩)).trans
          (prims_fire _ _ _)).tail
          (.note _ _ rfl)
  | leave obj msg =>
    unfold finish
    dsimp only
    cases err with
    | some e => exact .single (.note _ _ rfl)
    | none =>
      dsimp only
      split
      · rename_i t e he; exact (fire_fst _ _ _ he).tail (.note _ _ rfl)
      · rename_i t he
        exact (((fire_fst _ _ _ he).tail (.delRoom _ _ _)).trans (prims_fire _ _ _)).tail
          (.note _ _ rfl)
  | user => exact .single (.note _ _ rfl)

theorem prims_newAsk (s : St) (tok : Bytes) (k : Cont) (hk : ContOk cfg s k)
    (hc : s.closed = false) : Prims cfg s (newAsk s tok k) := by
  unfold newAsk
  split
  · exact .single (.newDirect s _ k hk hc)
  · exact .single (.newAsk s _ k hk hc)

theorem prims_endAsk (s : St) (i : Nat) : Prims cfg s (endAsk s i) := by
  unfold endAsk
  cases h : s.asks[i]? with
  | none =>
    rw [List.modify_eq_self (by simpa using h)]
  | some a =>
    have e : s.asks.modify i (fun a => { a with done := true }) =
        s.asks.set i { a with mode := a.mode, box := a.box, done := true } := by
      apply List.ext_getElem?
      intro j
      rw [List.getElem?_modify, List.getElem?_set]
      by_cases hij : i = j
      · subst hij
        obtain ⟨hl, rfl⟩ := List.getElem?_eq_some_iff.mp h
        simp [hl]
      · simp [hij]
    rw [e]
    exact .single (.askUpd s i a a.mode a.box true h (fun _ => rfl) ⟨Or.inl rfl, fun _ h => Or.inl h⟩)

theorem prims_startAsk (s : St) (k : Cont) (msg : Message) (now : Int) (ex : Bool)
    (hk : ContOk cfg s k) : Prims cfg s (startAsk cfg s k msg now ex) := by
  unfold startAsk
  split
  · exact prims_finish _ _ _ _ hk
  · split
    · exact prims_finish _ _ _ _ hk
    · rename_i hc
      split
      · exact prims_finish _ _ _ _ hk
      · dsimp only
        have hn := prims_newAsk s (genWait cfg.isClient now) k hk (by simpa using hc)
        have hw := prims_write (cfg := cfg) (newAsk s (genWait cfg.isClient now) k)
          { msg with wait := genWait cfg.isClient now }
        split
        · rename_i t he
          rw [he] at hw; exact hn.trans hw
        · rename_i t he
          rw [he] at hw
          have h2 := (hn.trans hw).trans (prims_endAsk t s.asks.length)
          exact h2.trans (prims_finish _ _ _ _ (hk.mono (Prims.grows h2)))

theorem prims_connect (s : St) (ns : Bytes) (now : Int) (ex : Bool) :
    Prims cfg s (connect cfg s ns now ex) := by
  unfold connect
  dsimp only
  have h0 := prims_markReady (cfg := cfg) s
  generalize s.markReady cfg = t at h0 ⊢
  split
  · exact h0
  · have h1 := h0.trans (prims_gateStart t ns)
    generalize gateStart t ns = t at h1 ⊢
    split
    · exact (h1.tail (.note _ _ rfl)).trans (prims_gateDone _ _)
    · split
      · exact (h1.tail (.note _ _ rfl)).trans (prims_gateDone _ _)
      · rename_i hd
        have h2 : Prims cfg s (newObj t ns).1 := h1.tail (.newObj t ns)
        split
        · rename_i u e he
          exact ((h2.trans (fire_fst _ _ _ he)).tail (.note _ _ rfl)).trans (prims_gateDone _ _)
        · rename_i u he
          have h3 := fire_fst _ _ _ he
          refine (h2.trans h3).trans (prims_startAsk _ _ _ _ _ ?_)
          obtain ⟨ee, hl⟩ := fire_logs _ _ _ he
          exact ⟨by simp [hd], (Prims.grows h3).names _ _ (newObj_name t ns), _, _, _, hl, rfl⟩

theorem nsName_some {s : St} {obj : Nat} (h : obj < s.objs.length) :
    s.objs[obj]?.map (·.ns) = some (s.nsName obj) := by
  unfold St.nsName
  rw [List.getElem?_eq_getElem h]; rfl

/-- what connected entries refer to -/
def ConnOk (cfg : Cfg) (s : St) : Prop :=
  ∀ ns obj, mapGet s.connected ns = some obj →
    (mapGet cfg.decl ns).isSome ∧ s.objs[obj]?.map (·.ns) = some ns

theorem Fine.connOk {s s' : St} (h : Fine cfg s s') (hs : ConnOk cfg s) : ConnOk cfg s' := by
  have hg := h.grows
  have same : s'.connected = s.connected → ConnOk cfg s' := by
    intro e ns obj hm
    rw [e] at hm
    exact ⟨(hs ns obj hm).1, hg.names _ _ (hs ns obj hm).2⟩
  cases h with
  | nsAdd ns obj hd hn _ =>
    intro ns' obj' hm
    simp only [mapGet_mapSet] at hm
    split at hm
    · rename_i e; cases hm; subst e; exact ⟨hd, hn⟩
    · exact hs ns' obj' hm
  | nsDel ns =>
    intro ns' obj' hm
    simp only [mapGet_mapDel] at hm
    split at hm
    · simp at hm
    · exact hs ns' obj' hm
  | _ => exact same rfl

theorem Fines.connOk {s s' : St} (h : Fines cfg s s') (hs : ConnOk cfg s) : ConnOk cfg s' := by
  induction h with
  | refl => exact hs
  | tail _ h ih => exact h.connOk ih

theorem Prims.connOk {s s' : St} (h : Prims cfg s s') (hs : ConnOk cfg s) : ConnOk cfg s' :=
  Fines.connOk (Prims.fines h) hs

theorem prims_disconnect (s : St) (obj : Nat) (now : Int) (ex : Bool) (hc : ConnOk cfg s) :
    Prims cfg s (disconnect cfg s obj now ex) := by
  unfold disconnect
  dsimp only
  split
  · exact .single (.note _ _ rfl)
  · rename_i obj' ho
    exact prims_startAsk _ _ _ _ _ ⟨(hc _ _ ho).2, rfl⟩

theorem prims_joinRoom (s : St) (obj : Nat) (room : Bytes) (now : Int) (ex : Bool)
    (ho : obj < s.objs.length) : Prims cfg s (joinRoom cfg s obj room now ex) := by
  unfold joinRoom
  dsimp only
  split
  · exact .single (.note _ _ rfl)
  · exact prims_startAsk _ _ _ _ _ ⟨nsName_some ho, rfl, rfl⟩

theorem prims_leaveRoom (s : St) (obj : Nat) (room : Bytes) (now : Int) (ex : Bool)
    (ho : obj < s.objs.length) : Prims cfg s (leaveRoom cfg s obj room now ex) := by
  unfold leaveRoom
  dsimp only
  split
  · exact prims_startAsk _ _ _ _ _ ⟨nsName_some ho, rfl, rfl⟩
  · exact .single (.note _ _ rfl)

theorem prims_takeAnswer (s : St) (i : Nat) (a : AskRec) (h : s.asks[i]? = some a)
    (hw : WaitOk cfg s) : Prims cfg s (takeAnswer s i a) := by
  have hset : ∀ bx : Option Message, (∀ m, bx = some m → AnswerTo cfg a m) →
      Prims cfg s { s with asks := s.asks.set i { a with box := bx } } :=
    fun bx hb => .single (.askUpd s i a a.mode bx a.done h id
      ⟨Or.inl rfl, fun m hm => Or.inr (Or.inr (Or.inl (hb m hm)))⟩)
  unfold takeAnswer
  split
  · rename_i j m' hs
    split
    · rename_i e
      subst e
      obtain ⟨x, h1, h2⟩ := hw.send j m' hs
      rw [h] at h1
      cases h1
      exact (hset _ (by intro m h; cases h; exact h2)).tail
        (.reader _ .idle s.todo s.ackAfter s.queueText s.queueBinary
          ⟨by intro m h; simp at h, by intro i m h; simp at h⟩)
    · exact hset _ (by intro m h; simp at h)
  · exact hset _ (by intro m h; simp at h)

theorem prims_forget (s : St) (a : AskRec) : Prims cfg s (forget s a) := by
  unfold forget
  split
  · exact .single (.waitDel s a.tok)
  · exact .refl

theorem prims_resume {s s' : St} {i : Nat} (ha : AsksOk cfg s) (hw : WaitOk cfg s)
    (h : resume cfg s i = some s') : Prims cfg s s' := by
  unfold resume at h
  split at h
  · simp at h
  · rename_i a hi
    split at h
    · simp at h
    · split at h
      · simp at h
      · rename_i m hm
        cases h
        have h1 : Prims cfg s (forget (endAsk (takeAnswer s i a) i) a) :=
          ((prims_takeAnswer s i a hi hw).trans (prims_endAsk _ i)).trans (prims_forget _ a)
        exact h1.trans (prims_finish _ _ _ _ ((ha a (List.mem_of_getElem? hi)).mono (Prims.grows h1)))

theorem prims_steal {s s' : St} {i : Nat} {m : Message} (h : steal s i m = some s') :
    Prims cfg s s' := by
  unfold steal at h
  split at h
  · simp at h
  · rename_i a hi
    split at h
    · rename_i hm
      cases h
      exact .single (.askUpd s i a .read (some m) a.done hi id
        ⟨Or.inr ⟨hm, rfl⟩, fun _ _ => Or.inr (Or.inl hm)⟩)
    · simp at h

theorem prims_cancel {s s' : St} {i : Nat} {e : GoErr} (ha : AsksOk cfg s)
    (h : cancel cfg s i e = some s') : Prims cfg s s' := by
  unfold cancel at h
  split at h
  · simp at h
  · rename_i a hi
    split at h
    · simp at h
    · cases h
      have h1 := prims_endAsk (cfg := cfg) s i
      exact h1.trans (prims_finish _ _ _ _ ((ha a (List.mem_of_getElem? hi)).mono (Prims.grows h1)))

/-- Every operation is a sequence of primitive changes. -/
theorem exec_prims {s s' : St} {op : Op} (ha : AsksOk cfg s) (hc : ConnOk cfg s) (hw : WaitOk cfg s)
    (h : exec cfg s op = some s') : Prims cfg s s' := by
  cases op with
  | recv typ b =>
    simp only [exec] at h; split at h
    · cases h; exact prims_recv _ _ _ hw
    · simp at h
  | readErr e =>
    simp only [exec] at h; split at h
    · cases h; exact (prims_signalReady _ _).trans (prims_readerExit _)
    · simp at h
  | wake => exact prims_wakeReader hw h
  | contReader =>
    simp only [exec, contReader] at h; split at h
    · cases h; exact prims_drain _ _ hw
    · simp at h
  | connect ns now ex => simp only [exec] at h; cases h; exact prims_connect _ _ _ _
  | disconnect obj now ex =>
    simp only [exec] at h; split at h
    · cases h; exact prims_disconnect _ _ _ _ hc
    · simp at h
  | join obj room now ex =>
    simp only [exec] at h; split at h
    · rename_i ho; cases h; exact prims_joinRoom _ _ _ _ _ ho
    · simp at h
  | leave obj room now ex =>
    simp only [exec] at h; split at h
    · rename_i ho; cases h; exact prims_leaveRoom _ _ _ _ _ ho
    · simp at h
  | ask msg now ex => simp only [exec] at h; cases h; exact prims_startAsk _ _ _ _ _ trivial
  | write msg => simp only [exec] at h; cases h; exact prims_write _ _
  | resume i => exact prims_resume ha hw h
  | cancel i e => exact prims_cancel ha h
  | close => simp only [exec] at h; cases h; exact prims_closeConn _
  | steal i typ b => exact prims_steal h
  | stealErr i e => exact prims_steal h
  | ready err => simp only [exec] at h; cases h; exact prims_signalReady _ _
  | sendAck =>
    simp only [exec] at h
    split at h
    · cases h; exact .refl
    · have h1 := prims_afterSent (cfg := cfg) s false (b! "M")
        (fun ok h => .sentAck _ _ ok (Or.inl rfl) h)
      split at h
      · rename_i t he; cases h; rw [he] at h1; exact h1
      · rename_i t he; cases h; rw [he] at h1; exact h1.trans (prims_closeConn _)
  | srvAsk tok => simp only [exec] at h; cases h; exact .single (.srv _ _)
  | srvUnask tok => simp only [exec] at h; cases h; exact .single (.srv _ _)

theorem step_exec {s s' : St} {op : Op} (h : step cfg s op = some s') :
    exec cfg s op = some s' ∧ s'.hung = false := by
  unfold step at h
  split at h
  · rename_i t ht
    split at h
    · simp at h
    · rename_i hh; cases h; exact ⟨ht, by simpa using hh⟩
  · simp at h

theorem newConn_asks (id : Bytes) : (newConn cfg id).asks = [] := by
  unfold newConn; split <;> rfl

theorem reach_all {id : Bytes} {s : St} (h : Reach cfg id s) :
    (AsksOk cfg s ∧ ConnOk cfg s) ∧ WaitOk cfg s := by
  induction h with
  | init =>
    refine ⟨⟨?_, ?_⟩, ?_⟩
    rotate_right
    · unfold newConn
      split <;> exact ⟨by intro t i h; simp [mapGet] at h, by intro i a m h; simp at h,
        by intro i m h; simp at h⟩
    · intro a ha; rw [newConn_asks] at ha; simp at ha
    · intro ns obj hm
      unfold newConn at hm ⊢
      by_cases hc : cfg.onlyNative = true
      · rw [if_pos hc] at hm ⊢
        simp only [mapGet] at hm
        split at hm
        · rename_i e
          cases hm
          subst e
          refine ⟨?_, by simp⟩
          unfold Cfg.onlyNative at hc
          cases hd : mapGet cfg.decl [] with
          | none => rw [hd] at hc; simp at hc
          | some _ => rfl
        · simp at hm
      · rw [if_neg hc] at hm
        simp [mapGet] at hm
  | step _ hs ih =>
    have hp := exec_prims ih.1.1 ih.1.2 ih.2 (step_exec hs).1
    exact ⟨⟨Prims.asksOk hp ih.1.1, Prims.connOk hp ih.1.2⟩, Prims.waitOk hp ih.2⟩

theorem reach_ok {id : Bytes} {s : St} (h : Reach cfg id s) : AsksOk cfg s ∧ ConnOk cfg s :=
  (reach_all h).1

/-- the changes of an operation -/
theorem reach_prims {id : Bytes} {s s' : St} {op : Op} (hr : Reach cfg id s)
    (hs : step cfg s op = some s') : Prims cfg s s' :=
  exec_prims (reach_ok hr).1 (reach_ok hr).2 (reach_all hr).2 (step_exec hs).1

/-- Induction over all reachable states through changes, Close being one of them. -/
theorem reach_macro {id : Bytes} (P : St → Prop) (h0 : P (newConn cfg id))
    (hp : ∀ s s', Prim cfg s s' → P s → P s') {s : St} (h : Reach cfg id s) : P s := by
  induction h with
  | init => exact h0
  | step hr hs ih =>
    have hps := reach_prims hr hs
    clear hs
    induction hps with
    | refl => exact ih
    | tail _ h ih' => exact hp _ _ h ih'

/-- Induction over all reachable states through primitive changes. -/
theorem reach_invariant {id : Bytes} (P : St → Prop) (h0 : P (newConn cfg id))
    (hp : ∀ s s', Fine cfg s s' → P s → P s') {s : St} (h : Reach cfg id s) : P s := by
  induction h with
  | init => exact h0
  | step hr hs ih =>
    have hps := Prims.fines (reach_prims hr hs)
    clear hs
    induction hps with
    | refl => exact ih
    | tail _ h ih' => exact hp _ _ h ih'

end Neffos
