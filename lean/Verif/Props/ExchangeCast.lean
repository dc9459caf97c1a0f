import Verif.Model.ExchangeCast
import Verif.Props.BroadcastExact
import Verif.Props.WireExact
import Verif.Props.Publish
import Verif.Props.OffersExact
set_option autoImplicit false
/-!
# C119: exactly what a broadcast through an exchange writes to a connection
-/
namespace Neffos
open Spec
variable {cfg : Cfg}

/-- The messages about which the exchange loses nothing that the write gate needs: not native ones, with
no error, with names that survive the wire and a head that does (C88). -/
structure Crosses (m : Message) : Prop where
  native : m.isNative = false
  event : m.event ≠ OnNativeMessage
  head : GoodHead m
  one : m.fromExplicit = [] ∨ m.wait = []
  ns : SafeName m.ns
  room : SafeName m.room
  name : SafeName m.event
  body : ∃ x, outcome m.body m.err = .body x

/-- the message that the connection decodes from the payload of a message -/
def decoded (cfg : Cfg) (m : Message) : Message :=
  { deserializeMessage cfg.known .text ((serializeMessage m).getD []) cfg.allowNative cfg.onlyNative with
    fromStackExchange := true }

theorem psReceive_eq (s : St) (ms : List Message) :
    psReceive cfg s (ms.map (fun m => (serializeMessage m).getD [])) =
      (ms.map (decoded cfg)).foldl (fun s m => (write cfg s m).1) s := by
  unfold psReceive
  rw [List.foldl_map, List.foldl_map]
  rfl

theorem decoded_arrives (hon : cfg.onlyNative = false) {m : Message} (h : Crosses m) :
    let d := decoded cfg m
    d.wait = m.wait ∧ d.fromExplicit = m.fromExplicit ∧ d.ns = m.ns ∧ d.room = m.room ∧ d.event = m.event ∧
      d.isNoOp = m.isNoOp ∧ outcome d.body d.err = outcome m.body m.err ∧ d.setBinary = false ∧ d.isNative = false := by
  obtain ⟨b, hb⟩ := Option.isSome_iff_exists.mp ((serializeMessage_isSome_iff m).mpr (.inr h.one))
  have ha := (c88_arrives cfg.known .text cfg.allowNative m b (by simp [h.native]) hb).mpr
    ⟨h.head, h.ns, h.room, h.name, by obtain ⟨x, hx⟩ := h.body; rw [hx]; simp⟩
  obtain ⟨a1, a2, a3, a4, a5, a6, a7, a8, a9⟩ := ha
  obtain ⟨x, hx⟩ := h.body
  rw [hx] at a9 ⊢
  simp only [decoded, hb, hon, Option.getD_some] at a9 ⊢
  refine ⟨a2, a3, a5, a6, a7, a8, by rw [a9.1, a9.2.1]; rfl, rfl, ?_⟩
  have hn : (deserializeMessage cfg.known .text b cfg.allowNative false).isNative = true →
      (deserializeMessage cfg.known .text b cfg.allowNative false).event = OnNativeMessage := by
    intro hn
    simp only [deserializeMessage, Bool.and_eq_true, decide_eq_true_eq] at hn ⊢
    rw [hn.2]
    decide +kernel
  rw [a7] at hn
  cases hb : (deserializeMessage cfg.known .text b cfg.allowNative false).isNative with
  | false => rfl
  | true => exact absurd (hn hb) h.event

theorem wireOf_decoded (hon : cfg.onlyNative = false) {m : Message} (h : Crosses m) :
    wireOf (decoded cfg m) = wireOf m := by
  obtain ⟨d1, d2, d3, d4, d5, d6, d7, d8, d9⟩ := decoded_arrives hon h
  have e1 := serialize_wireOf (decoded cfg m)
  have e2 := serialize_wireOf m
  have hw : (59 : UInt8) ∉ m.wait := by
    rcases h.head with ⟨_, h1⟩ | ⟨h1, _⟩
    · exact h1.1
    · rcases h.one with h2 | h2
      · exact absurd h2 h1
      · rw [h2]; simp
  refine (c88_same_bytes _ _ _ _ (by simp [d9]) (by simp [h.native]) e1 e2 (by simpa [d1] using hw) (by simpa using hw)).mpr ?_
  exact ⟨by simp [d1], by simp [d3, sameEscaped_iff], by simp [d4, sameEscaped_iff], by simp [d5, sameEscaped_iff], d6, d7⟩

theorem mayWrite_decoded (hon : cfg.onlyNative = false) {m : Message} (h : Crosses m) (s : St) :
    MayWrite cfg s (decoded cfg m) ↔ MayWrite cfg s m := by
  obtain ⟨d1, d2, d3, d4, d5, d6, d7, d8, d9⟩ := decoded_arrives hon h
  simp only [MayWrite, IsSender, d2, d3, d4, d5]

open Classical in
/-- writes in a row, seen from the wire -/
theorem writes_sent {s : St} (hk : (s.connected.map (·.1)).Nodup)
    (hinj : ∀ (n n' : Bytes) (obj : Nat), s.namespace n = some obj → s.namespace n' = some obj → n = n')
    (ms : List Message) :
    ∃ l, l <+: (ms.filter (fun m => decide (MayWrite cfg s m))).map (fun m => (m.setBinary, wireOf m)) ∧
      sentOf (ms.foldl (fun s m => (write cfg s m).1) s).log = sentOf s.log ++ l ∧
      ((ms.foldl (fun s m => (write cfg s m).1) s).closed = false →
        l = (ms.filter (fun m => decide (MayWrite cfg s m))).map (fun m => (m.setBinary, wireOf m))) := by
  induction ms generalizing s with
  | nil => exact ⟨[], by simp, by simp, by simp⟩
  | cons m ms' ih =>
    rw [List.foldl_cons]
    obtain ⟨w1, w2⟩ := write_sent (cfg := cfg) s m hk hinj
    by_cases hc : (write cfg s m).1.closed = false
    · have ho := write_open hc
      have e1 : (write cfg s m).1.connected = s.connected := by rw [ho]
      have e2 : (write cfg s m).1.objs = s.objs := by rw [ho]
      have e3 : (write cfg s m).1.closed = s.closed := by rw [ho]
      have e4 : (write cfg s m).1.id = s.id := by rw [ho]
      have hmay := fun x => mayWrite_of (cfg := cfg) e3 e4 e1 e2 x
      obtain ⟨l, h1, h2, h3⟩ := ih (s := (write cfg s m).1) (by rw [e1]; exact hk)
        (by
          intro n n' obj a1 a2
          unfold St.namespace at a1 a2
          rw [e1] at a1 a2
          exact hinj n n' obj a1 a2)
      have hf : ms'.filter (fun x => decide (MayWrite cfg (write cfg s m).1 x)) = ms'.filter (fun x => decide (MayWrite cfg s x)) := by
        apply List.filter_congr
        intro x _
        rw [decide_eq_decide]
        exact hmay x
      rw [hf] at h1 h3
      by_cases hm : MayWrite cfg s m
      · rw [List.filter_cons_of_pos (by simpa using hm), List.map_cons]
        refine ⟨_ :: l, List.cons_prefix_cons.mpr ⟨rfl, h1⟩, ?_, fun h => by rw [h3 h]⟩
        rw [h2, w1 hm, List.append_assoc]
        rfl
      · rw [List.filter_cons_of_neg (by simpa using hm)]
        exact ⟨l, h1, by rw [h2, w2 hm], h3⟩
    · have hc : (write cfg s m).1.closed = true := by simpa using hc
      rw [writes_closed _ _ hc]
      by_cases hm : MayWrite cfg s m
      · rw [List.filter_cons_of_pos (by simpa using hm), List.map_cons]
        refine ⟨[(m.setBinary, wireOf m)], List.cons_prefix_cons.mpr ⟨rfl, List.nil_prefix⟩, w1 hm, fun h => ?_⟩
        rw [hc] at h; simp at h
      · refine ⟨[], List.nil_prefix, by rw [w2 hm]; simp, fun h => ?_⟩
        rw [hc] at h; simp at h

open Classical in
/-- the frames that the connection gets when the broker offers it these messages: those that its write
gate (C13) lets through, as text frames, without the identity of the sender -/
noncomputable def framesFor (cfg : Cfg) (s : St) (ms : List Message) : List (Bool × Bytes) :=
  (ms.filter (fun m => decide (MayWrite cfg s m))).map (fun m => (false, wireOf m))

/-- C119: whatever messages the broker offers, in whatever order: the connection gets exactly the frames
of those that its write gate lets through, in that order, once per offer; if a failing socket closes it
meanwhile, the first of them up to then. -/
theorem c119_received {id0 : Bytes} {s : St} (hr : Reach cfg id0 s) (hon : cfg.onlyNative = false)
    (ms : List Message) (hms : ∀ m ∈ ms, Crosses m) :
    let t := psReceive cfg s (ms.map (fun m => (serializeMessage m).getD []))
    ∃ l, l <+: framesFor cfg s ms ∧ sentOf t.log = sentOf s.log ++ l ∧ (t.closed = false → l = framesFor cfg s ms) := by
  classical
  have he : ((ms.map (decoded cfg)).filter (fun m => decide (MayWrite cfg s m))).map (fun m => (m.setBinary, wireOf m)) =
      framesFor cfg s ms := by
    unfold framesFor
    induction ms with
    | nil => rfl
    | cons m ms ih =>
      have hm := hms m (by simp)
      have ih := ih (fun x hx => hms x (by simp [hx]))
      have hb : (decoded cfg m).setBinary = false := (decoded_arrives hon hm).2.2.2.2.2.2.2.1
      rw [List.map_cons]
      by_cases h : MayWrite cfg s m
      · have h' := (mayWrite_decoded hon hm s).mpr h
        rw [List.filter_cons_of_pos (by simpa using h'), List.filter_cons_of_pos (by simpa using h), List.map_cons,
          List.map_cons, ih, wireOf_decoded hon hm, hb]
      · have h' : ¬ MayWrite cfg s (decoded cfg m) := fun x => h ((mayWrite_decoded hon hm s).mp x)
        rw [List.filter_cons_of_neg (by simpa using h'), List.filter_cons_of_neg (by simpa using h), ih]
  intro t
  have := writes_sent (cfg := cfg) (reach_keys hr) (reach_inj hr) (ms.map (decoded cfg))
  rw [he, ← psReceive_eq] at this
  exact this

theorem redisTarget_some {pre : Bytes} {m : Message} {ch : Bytes} (h : redisTarget pre m = some ch) :
    ch = pre ++ b! "." ++ (if m.to = [] then m.ns else m.to) ++ b! "." := by
  unfold redisTarget at h
  split at h
  · cases h
  · rename_i x hx
    split at h
    · cases h; exact (c91_channel pre m.ns m.room m.to).2.2.1 _ hx
    · cases h

theorem redisTarget_none {pre : Bytes} {m : Message} : redisTarget pre m = none ↔
    (m.to = [] ∧ m.ns = [] ∧ m.room ≠ []) ∨
      (m.fromExplicit ≠ [] ∧ m.wait ≠ []) := by
  have h1 := (c91_channel pre m.ns m.room m.to).1
  have h2 := serializeMessage_isSome_iff m
  unfold redisTarget
  split
  · rename_i hx
    simp only [true_iff]
    exact .inl (h1.mp hx)
  · rename_i x hx
    have h3 : ¬ (m.to = [] ∧ m.ns = [] ∧ m.room ≠ []) := fun h => by rw [h1.mpr h] at hx; cases hx
    split
    · rename_i hs
      simp only [reduceCtorEq, false_iff]
      rintro (h | ⟨h, h'⟩)
      · exact h3 h
      · rcases h2.mp hs with ⟨_, h4⟩ | h4 | h4 <;> contradiction
    · rename_i hs
      simp only [true_iff]
      rw [h2] at hs
      exact .inr ⟨fun h => hs (.inr (.inl h)), fun h => hs (.inr (.inr h))⟩

/-- C119: a broadcast through redis panics in the caller iff, before the broker fails, it comes to a
message for a room of no namespace, or to one with both a sender and the token of an Ask. -/
theorem c119_panics (pre : Bytes) (fails : Nat → Bool) (r : Redis) (c : Nat) (ex : Except) (ms : List Message) (s : St) :
    redisBroadcast pre fails r c ex ms cfg s = none ↔
      ∃ (i : Nat) (m : Message), (ms.map (marked [ex]))[i]? = some m ∧ (∀ j, j < i → fails j = false) ∧
        ((m.to = [] ∧ m.ns = [] ∧ m.room ≠ []) ∨ (m.fromExplicit ≠ [] ∧ m.wait ≠ [])) := by
  have hst : stamp ex ms = ms.map (marked [ex]) := c77_marks [ex] ms
  unfold redisBroadcast
  rw [hst, Option.map_eq_none_iff, (c50_publish _ _ _).1]
  constructor
  · rintro ⟨i, m, h1, h2, h3⟩
    exact ⟨i, m, h1, h3, redisTarget_none.mp h2⟩
  · rintro ⟨i, m, h1, h3, h2⟩
    exact ⟨i, m, h1, redisTarget_none.mpr h2, h3⟩

/-- C119: a broadcast through redis. The messages up to the first one at which the broker fails are
published, each on the channel of its receiver or else of its namespace. A connection of whatever server
gets from it exactly the frames that its write gate (C13) lets through: in the order of the messages, and of each
message as many as the connection has subscriptions, to its own ID and to namespaces, that match the channel. -/
theorem c119_redis {id0 : Bytes} {s t : St} (hr : Reach cfg id0 s) (hon : cfg.onlyNative = false)
    (pre : Bytes) (fails : Nat → Bool) (acts : List PsAct) (c : Nat) (ex : Except) (ms : List Message)
    (hms : ∀ m ∈ ms, Crosses (marked [ex] m))
    (ht : redisBroadcast pre fails (redisRun pre acts) c ex ms cfg s = some t) :
    ∃ (k : Nat) (times : Message → Nat), k ≤ ms.length ∧ (∀ j, j < k → fails j = false) ∧ (k < ms.length → fails k = true) ∧
      (∀ m, ∃ names : List Bytes, names.Nodup ∧ times m = names.length ∧
        ∀ x, x ∈ names ↔ (Subscribed acts c x ∨ OwnId acts c x) ∧
          GlobMatch (pre ++ b! "." ++ x ++ b! ".") (pre ++ b! "." ++ (if m.to = [] then m.ns else m.to) ++ b! ".")) ∧
      let frames := framesFor cfg s (((ms.take k).map (marked [ex])).flatMap (fun m => List.replicate (times m) m))
      ∃ l, l <+: frames ∧ sentOf t.log = sentOf s.log ++ l ∧ (t.closed = false → l = frames) := by
  have hst : stamp ex ms = ms.map (marked [ex]) := c77_marks [ex] ms
  unfold redisBroadcast at ht
  rw [hst, Option.map_eq_some_iff] at ht
  obtain ⟨⟨l, ok⟩, hp, rfl⟩ := ht
  obtain ⟨k, h1, h2, h3, h4, h5, h6⟩ := (c50_publish _ _ _).2 l ok hp
  rw [List.length_map] at h1 h5 h6
  rw [← List.map_take] at h2
  refine ⟨k, fun m => redisOffers (redisRun pre acts) (pre ++ b! "." ++ (if m.to = [] then m.ns else m.to) ++ b! ".") c,
    h1, h4, ?_, ?_, ?_⟩
  · intro hk
    cases ok with
    | false => exact (h6 rfl).2
    | true => have := h5 rfl; omega
  · intro m
    obtain ⟨names, n1, n2, n3⟩ := c91_redis pre acts (pre ++ b! "." ++ (if m.to = [] then m.ns else m.to) ++ b! ".") c
    exact ⟨names, n1, n3, n2⟩
  · have he : l.flatMap (fun q => List.replicate (redisOffers (redisRun pre acts) q.1 c) ((serializeMessage q.2).getD [])) =
        (((ms.take k).map (marked [ex])).flatMap (fun m => List.replicate
          (redisOffers (redisRun pre acts) (pre ++ b! "." ++ (if m.to = [] then m.ns else m.to) ++ b! ".") c) m)).map
          (fun m => (serializeMessage m).getD []) := by
      rw [← h2]
      clear h2 hp h5 h6
      induction l with
      | nil => rfl
      | cons q l ih =>
        rw [List.flatMap_cons, List.map_cons, List.flatMap_cons, List.map_append, ih (fun p hp => h3 p (by simp [hp])),
          redisTarget_some (h3 q (by simp)), List.map_replicate]
    dsimp only
    rw [he]
    refine c119_received hr hon _ ?_
    intro m hm
    obtain ⟨m', hm', hx⟩ := List.mem_flatMap.mp hm
    obtain ⟨m0, h0, rfl⟩ := List.mem_map.mp hm'
    rw [(List.mem_replicate.mp hx).2]
    exact hms m0 (List.mem_of_mem_take h0)

/-- C119: who is left out. A broadcast with a `*Conn` or `*NSConn` as its first argument writes nothing to
the connection with that identity, and the argument makes no difference to any other. -/
theorem c119_except {s : St} (hc : cfg.isClient = false) (sid : Bytes) (hne : sid ≠ []) (ms : List Message) :
    (sid = cfg.serverConnID → framesFor cfg s (ms.map (marked [.conn sid])) = []) ∧
    (sid ≠ cfg.serverConnID → framesFor cfg s (ms.map (marked [.conn sid])) =
      framesFor cfg s (ms.map (marked [.stringer []]))) ∧
    ∀ x, x ≠ [] → framesFor cfg s (ms.map (marked [.stringer x])) = framesFor cfg s ms := by
  classical
  have hmark : ∀ m : Message, (marked [.conn sid] m).fromExplicit = sid := fun m => by simp [marked, explicitMark]
  refine ⟨?_, ?_, ?_⟩
  · intro h
    unfold framesFor
    rw [List.filter_eq_nil_iff.mpr ?_]
    · rfl
    · intro m hm
      obtain ⟨m0, _, rfl⟩ := List.mem_map.mp hm
      rw [decide_eq_true_eq]
      rintro ⟨_, h2, _⟩
      refine h2 ⟨?_, ?_⟩
      · rw [hmark]; exact hne
      · rw [hmark]; simp [hc, h]
  · intro h
    unfold framesFor
    induction ms with
    | nil => rfl
    | cons m ms ih =>
      rw [List.map_cons, List.map_cons]
      have e : MayWrite cfg s (marked [.conn sid] m) ↔ MayWrite cfg s (marked [.stringer []] m) := by
        have a1 : ¬ IsSender cfg s (marked [.conn sid] m) := by
          rintro ⟨_, h2⟩
          rw [hmark] at h2
          simp only [hc, Bool.false_eq_true, if_false] at h2
          exact h h2
        have a2 : ¬ IsSender cfg s (marked [.stringer []] m) := by
          rintro ⟨h1, _⟩
          simp [marked, explicitMark] at h1
        unfold MayWrite
        simp only [a1, a2]
        rfl
      have w : wireOf (marked [.conn sid] m) = wireOf (marked [.stringer []] m) := rfl
      by_cases hm : MayWrite cfg s (marked [.stringer []] m)
      · rw [List.filter_cons_of_pos (by simpa using e.mpr hm), List.filter_cons_of_pos (by simpa using hm),
          List.map_cons, List.map_cons, ih, w]
      · rw [List.filter_cons_of_neg (by simpa using fun x => hm (e.mp x)), List.filter_cons_of_neg (by simpa using hm), ih]
  · intro x hx
    unfold framesFor
    induction ms with
    | nil => rfl
    | cons m ms ih =>
      rw [List.map_cons]
      have hf : (marked [.stringer x] m).fromExplicit = m.fromExplicit := by simp [marked, explicitMark, hx]
      have e : MayWrite cfg s (marked [.stringer x] m) ↔ MayWrite cfg s m := by
        unfold MayWrite IsSender
        rw [hf]
        rfl
      have w : wireOf (marked [.stringer x] m) = wireOf m := rfl
      by_cases hm : MayWrite cfg s m
      · rw [List.filter_cons_of_pos (by simpa using e.mpr hm), List.filter_cons_of_pos (by simpa using hm),
          List.map_cons, List.map_cons, ih, w]
      · rw [List.filter_cons_of_neg (by simpa using fun x => hm (e.mp x)), List.filter_cons_of_neg (by simpa using hm), ih]

/-- C119: a connection for native messages only gets every payload that is offered to it as it is, with the
identity of the sender in it and without regard to the namespace, the room and the sender. -/
theorem c119_native_only {id0 : Bytes} {s : St} (hr : Reach cfg id0 s) (hon : cfg.onlyNative = true)
    (han : cfg.allowNative = true) (p : Bytes) (hp : p ≠ []) :
    ((s.closed = false ∧ (s.namespace []).isSome) → sentOf (psReceive cfg s [p]).log = sentOf s.log ++ [(false, p)]) ∧
    (¬ (s.closed = false ∧ (s.namespace []).isSome) → sentOf (psReceive cfg s [p]).log = sentOf s.log) := by
  have hd : deserializeMessage cfg.known .text p cfg.allowNative cfg.onlyNative =
      { event := OnNativeMessage, body := p, isNative := true } := by
    have hl : p.length ≠ 0 := by simpa using hp
    have hin : deserializeInput cfg.known p true true = { event := OnNativeMessage, body := p } := by
      simp [deserializeInput, hl]
    unfold deserializeMessage
    rw [hon, han, hin]
    rfl
  have hw := write_sent (cfg := cfg) s { (({ event := OnNativeMessage, body := p, isNative := true } : Message)) with fromStackExchange := true }
    (reach_keys hr) (reach_inj hr)
  have hm : MayWrite cfg s { (({ event := OnNativeMessage, body := p, isNative := true } : Message)) with fromStackExchange := true } ↔
      (s.closed = false ∧ (s.namespace []).isSome) := by
    unfold MayWrite IsSender
    constructor
    · rintro ⟨h1, _, h3⟩
      refine ⟨h1, ?_⟩
      rcases h3 with h3 | h3 | ⟨obj, h3, _⟩
      · exact absurd (show OnNativeMessage = _ from h3) (by decide +kernel)
      · exact absurd (show OnNativeMessage = _ from h3) (by decide +kernel)
      · show (s.namespace []).isSome = true
        rw [h3]; rfl
    · rintro ⟨h1, h2⟩
      obtain ⟨obj, h2⟩ := Option.isSome_iff_exists.mp h2
      exact ⟨h1, fun h => h.1 rfl, .inr (.inr ⟨obj, h2, .inl rfl⟩)⟩
  have hs : psReceive cfg s [p] =
      (write cfg s { (({ event := OnNativeMessage, body := p, isNative := true } : Message)) with fromStackExchange := true }).1 := by
    unfold psReceive psDeliver
    rw [List.foldl_cons, List.foldl_nil, hd]
  rw [hs, ← hm]
  exact hw

/-- two messages by another connection of another server: one to the namespace, one to a room the
connection is not in; the connection is subscribed by the namespace and by a pattern, so it gets the first twice -/
example :
    let cfg := serverCfg chatDecl noCb
    let s := after cfg (b! "u1") chatSrvOps
    let acts : List PsAct := [.add 1 (b! "u1"), .subscribe 1 (b! "chat"), .subscribe 1 (b! "c*")]
    let ms : List Message := [{ ns := b! "chat", event := b! "e", body := b! "x" }, { ns := b! "chat", room := b! "r", event := b! "e" }]
    let sid := genServerConnID (b! "u") (b! "a") (b! "0xc0")
    (redisBroadcast (b! "n") (fun _ => false) (redisRun (b! "n") acts) 1 (.conn sid) ms cfg s).map
      (fun t => (t.closed, sentOf t.log = sentOf s.log ++ [(false, b! ";chat;;e;0;0;x"), (false, b! ";chat;;e;0;0;x")])) =
      some (false, True) ∧
    (∀ m ∈ ms, Crosses (marked [.conn sid] m)) := by
  refine ⟨?_, ?_⟩
  · simp only [Option.map_eq_some_iff, Prod.mk.injEq, eq_iff_iff, iff_true]
    exact ⟨_, rfl, by decide +kernel, by decide +kernel⟩
  · intro m hm
    have safe : ∀ x : Bytes, unescape (escape x) = x → SafeName x := fun x h => (unescape_escape_iff x).mp h
    rcases List.mem_cons.mp hm with rfl | hm
    · exact ⟨rfl, by decide, .inr ⟨by decide, by decide, by decide⟩, .inr rfl, safe _ (by decide +kernel),
        safe _ (by decide +kernel), safe _ (by decide +kernel), _, rfl⟩
    · obtain rfl := List.mem_singleton.mp hm
      exact ⟨rfl, by decide, .inr ⟨by decide, by decide, by decide⟩, .inr rfl, safe _ (by decide +kernel),
        safe _ (by decide +kernel), safe _ (by decide +kernel), _, rfl⟩

/-- a connection for native messages only, which nothing subscribes to the empty namespace (conn.go:120-133):
a broadcast does not reach it, and a message to its ID shows its client the identity of the sender -/
example :
    let cfg := serverCfg [([], [OnNativeMessage])] noCb
    let s := after cfg (b! "u1") []
    let sid := genServerConnID (b! "u") (b! "a") (b! "0xc0")
    cfg.onlyNative = true ∧ cfg.allowNative = true ∧ s.closed = false ∧ (s.namespace []).isSome = true ∧
    (redisBroadcast (b! "n") (fun _ => false) (redisRun (b! "n") [.add 1 (b! "u1")]) 1 (.conn sid)
      [{ event := b! "e", body := b! "all" }, { to := b! "u1", event := b! "e", body := b! "x" }] cfg s).map (fun t => sentOf t.log) =
      some (sentOf s.log ++ [(false, sid ++ b! ";;;e;0;0;x")]) := by
  decide +kernel

end Neffos
