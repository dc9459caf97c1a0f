import Verif.Spec.Verdict
import Verif.Props.Answer
import Verif.Props.AskEnd
import Verif.Props.Rooms
/-!
# C122: what a call makes of the decision of the other side, and where the two sides then stand

One request over the wire: `d` handles it and answers with the bytes `x`, `c` reads them and the call goes on.
-/
set_option autoImplicit false
namespace Neffos
open Neffos.Spec

namespace Verdict

variable {cc sc : Cfg} {idc ids : Bytes} {c c1 c2 d d' : St} {req : Message}

theorem decoded (hr : Reach sc ids d) (hs : Served sc d req d') : Decoded sc req := by
  cases hs with
  | request typ b hi _ _ => exact ⟨typ, b, hi.decodes⟩
  | other h1 h2 h => exact (handled hr h h1 h2).2.2

/-- the four requests -/
def IsRequest (m : Message) : Prop :=
  m.event = OnNamespaceConnect ∨ m.event = OnNamespaceDisconnect ∨ m.event = OnRoomJoin ∨ m.event = OnRoomLeave

theorem answer_decision {x : Bool × Bytes} (hq : IsRequest req) (hx : answerTo sc d req = some x) :
    x = verdictAnswer req (decision sc d req) := by
  unfold answerTo at hx
  unfold decision
  rcases hq with h | h | h | h
  · rw [if_pos h] at hx ⊢
    split at hx
    · rename_i k; rw [if_pos k]; cases hx; rfl
    · rename_i k
      rw [if_neg k]
      split at hx
      · rename_i k'; rw [if_pos k']; cases hx; rfl
      · rename_i k'; rw [if_neg k']; cases hx; rfl
  · rw [if_neg (by rw [h]; decide)] at hx ⊢
    split at hx
    · rename_i k; rw [if_pos h] at hx; cases hx; rw [k]; rfl
    · rename_i obj k
      rw [if_pos h] at hx
      rw [k]
      dsimp only
      rw [if_neg (by rw [h]; decide)]
      cases hx
      cases hc : sc.isClient with
      | true => simp [verdictAnswer]
      | false => rw [if_neg (by decide), if_neg (by decide), if_neg (by rw [h]; decide)]
  · rw [if_neg (by rw [h]; decide)] at hx ⊢
    split at hx
    · rename_i k; rw [if_neg (by rw [h]; decide)] at hx; cases hx
    · rename_i obj k
      rw [if_neg (by rw [h]; decide), if_pos h] at hx
      rw [k]
      dsimp only
      rw [if_pos h]
      cases hx
      split
      · rfl
      · rfl
  · rw [if_neg (by rw [h]; decide)] at hx ⊢
    split at hx
    · rename_i k; rw [if_neg (by rw [h]; decide)] at hx; cases hx
    · rename_i obj k
      rw [if_neg (by rw [h]; decide), if_neg (by rw [h]; decide), if_pos h] at hx
      rw [k]
      dsimp only
      rw [if_neg (by rw [h]; decide)]
      cases hx
      cases hc : sc.isClient with
      | true => simp [verdictAnswer]
      | false =>
        rw [if_neg (by decide : ¬ (false = true)), if_pos h]
        by_cases hj : req.room ∈ d.rooms obj
        · rw [if_neg (by simp [hj]), if_pos hj]
        · rw [if_pos (.inl hj), if_neg hj]; rfl

/-- what the answer decodes to -/
structure Reads (known : List KnownErr) (tok : Bytes) (v : Option GoErr) (r : Message) : Prop where
  wait : r.wait = tok
  valid : r.isInvalid = false
  plain : r.fromStackExchange = false
  fine : Swallowed v → r.err = none
  error : ¬ Swallowed v → ∃ e e', v = some e ∧ r.err = some e' ∧ ResolvesTo known e.errorText e'

theorem reads_answer (hdec : Decoded sc req) (htok : PlainToken req.wait) (hne : req.wait ≠ []) (v : Option GoErr)
    (known : List KnownErr) (typ : MsgType) (an : Bool) :
    Reads known req.wait v (deserializeMessage known typ (verdictAnswer req v).2 an false) := by
  cases v with
  | none =>
    have he : (verdictAnswer req none).2 = genEmptyReplyToWait req.wait := by
      simp [verdictAnswer, emptyAnswer, genEmptyReplyToWait, validMessageSepCount, List.replicate, sepByte]
    rw [he]
    obtain ⟨h, _⟩ := c55_empty_answer known typ an req.wait htok.1
    rw [h htok]
    exact ⟨rfl, rfl, rfl, fun _ => rfl, fun k => absurd trivial k⟩
  | some e =>
    have h : Says known req e (deserializeMessage known typ (verdictAnswer req (some e)).2 an false) :=
      says_wire (e := e) hdec htok hne known typ an req.isLocal
    refine ⟨h.wait, h.valid, h.plain, ?_, ?_⟩
    · rintro (⟨b, rfl⟩ | k)
      · exact (h.reply b rfl).2
      · by_cases hr : ∃ b, e = .reply b
        · obtain ⟨b, rfl⟩ := hr; exact (h.reply b rfl).2
        · exact h.empty (fun b hb => hr ⟨b, hb⟩) k
    · intro k
      have k1 : ∀ b, e ≠ .reply b := fun b hb => k (.inl ⟨b, hb⟩)
      obtain ⟨e', h1, h2⟩ := h.error k1 (fun ht => k (.inr ht))
      exact ⟨e, e', rfl, h1, h2⟩

/-- the answer gets into the channel of the Ask -/
theorem arrives {i : Nat} {a : AskRec} {now : Int} {typ : MsgType} {q : Bytes} {v : Option GoErr} (hrc : Reach cc idc c)
    (hp : Pending cc c i a now) (hq : q ≠ [])
    (hread : Reads cc.known a.tok v (deserializeMessage cc.known typ q cc.allowNative false))
    (h1 : step cc c (.recv typ q) = some c1) :
    c1 = { c with asks := c.asks.set i { a with box := some (deserializeMessage cc.known typ q cc.allowNative false) } } := by
  generalize hg : deserializeMessage cc.known typ q cc.allowNative false = r at hread ⊢
  have hans : Answering cc c typ q r := by
    refine ⟨hq, hp.acked, by rw [hp.notNative]; exact hg, hread.valid, hp.notNative, ?_⟩
    rw [hread.wait, hp.token]
    unfold genWait
    split
    · rename_i hcl; exact ⟨_, _, rfl, fun _ => hcl⟩
    · cases hd : decimalInt now with
      | nil => exact absurd hd (decimalInt_ne_nil now)
      | cons x t =>
        refine ⟨x, t, rfl, ?_⟩
        intro hx
        have := decimalInt_byte now x (by rw [hd]; simp)
        exact absurd this (by rw [hx]; decide)
  have hx : ¬ FromExchange cc r := fun h => by
    have := h.2.2; rw [hread.plain] at this; cases this
  have hf : ¬ ForServer cc c r := by
    rintro ⟨k1, k2⟩
    rcases hp.notServer with h | h
    · rw [h] at k1; cases k1
    · rw [hread.wait] at k2; exact h k2
  obtain ⟨b, h2, _, h3, _⟩ := c61_own hrc hans hx hf (by rw [hread.wait]; exact hp.waits) h1
  rw [hp.ask] at h2
  cases h2
  exact h3 hp.empty

/-- everything about the caller's side until it goes on -/
theorem round {i : Nat} {a : AskRec} {now : Int} {x : Bool × Bytes} {typ : MsgType}
    (h : Round cc sc idc ids c i a now d d' req x typ c1 c2) (hq : IsRequest req) :
    ∃ r, Reads cc.known a.tok (decision sc d req) r ∧ Reach cc idc c1 ∧
      c1 = { c with asks := c.asks.set i { a with box := some r } } ∧
      c1.asks[i]? = some { a with box := some r } := by
  have htok : PlainToken req.wait := by
    rw [h.token, h.pending.token]; exact (c01_generated_tokens_plain _ _).1
  have hx := answer_decision hq h.answer
  have hread := reads_answer (decoded h.asked h.served) htok h.wanted.1 (decision sc d req) cc.known typ cc.allowNative
  rw [← hx, h.token] at hread
  have hne : x.2 ≠ [] := by
    intro k
    have := c101_token h.asked h.served h.wanted h.answer
    rw [k] at this
    exact h.wanted.1 this.symm
  have h1 := arrives h.caller h.pending hne hread h.read
  refine ⟨_, hread, .step h.caller h.read, h1, ?_⟩
  have hi : i < c.asks.length := (List.getElem?_eq_some_iff.mp h.pending.ask).1
  rw [h1]
  simp [hi]

end Verdict

open Verdict

variable {cc sc : Cfg} {idc ids : Bytes} {c c1 c2 d d' : St} {req : Message} {i : Nat} {a : AskRec} {now : Int}
  {x : Bool × Bytes} {typ : MsgType}

/-- C122: the error of a refusal comes back, as the error that its text stands for, unless it is a `Reply` or has no
text: then the answer that the caller reads has no error. -/
theorem c122_answer (hr : Reach sc ids d) (hs : Served sc d req d') (hw : Wanted req) (htok : PlainToken req.wait)
    (hq : req.event = OnNamespaceConnect ∨ req.event = OnNamespaceDisconnect ∨ req.event = OnRoomJoin ∨
      req.event = OnRoomLeave) (hx : answerTo sc d req = some x) (known : List KnownErr) (an : Bool) :
    let r := deserializeMessage known typ x.2 an false
    r.wait = req.wait ∧ (r.err = none ↔ Swallowed (decision sc d req)) ∧
      ∀ e', r.err = some e' → ∃ e, decision sc d req = some e ∧ ResolvesTo known e.errorText e' := by
  have h := reads_answer (decoded hr hs) htok hw.1 (decision sc d req) known typ an
  rw [← answer_decision hq hx] at h
  refine ⟨h.wait, ⟨fun k => ?_, h.fine⟩, fun e' k => ?_⟩
  · refine Classical.byContradiction fun hn => ?_
    obtain ⟨_, _, _, h2, _⟩ := h.error hn
    rw [k] at h2; cases h2
  · by_cases hn : Swallowed (decision sc d req)
    · rw [h.fine hn] at k; cases k
    · obtain ⟨e, e'', h1, h2, h3⟩ := h.error hn
      rw [k] at h2
      cases h2
      exact ⟨e, h1, h3⟩

/-- C122: Connect. The caller is connected exactly if it does not learn of a refusal, the other side exactly if there
is none. -/
theorem c122_connect {ns : Bytes} {obj : Nat} (h : Round cc sc idc ids c i a now d d' req x typ c1 c2)
    (hk : a.cont = .connect ns obj) (hev : req.event = OnNamespaceConnect) (hns : req.ns = ns) :
    (Swallowed (decision sc d req) → c2.namespace ns = some obj ∧
      retOf c2.log = retOf c.log ++ [(.connect ns obj, .nsConn obj)]) ∧
    (¬ Swallowed (decision sc d req) → c2.namespace ns = c.namespace ns ∧
      ∃ e e', decision sc d req = some e ∧ ResolvesTo cc.known e.errorText e' ∧
        retOf c2.log = retOf c.log ++ [(.connect ns obj, .err e')]) ∧
    (d'.namespace ns ≠ none ↔ decision sc d req = none) := by
  obtain ⟨r, hr, h1, h2, h3⟩ := round h (.inl hev)
  obtain ⟨k1, _, l, k2, k3, k4⟩ := c15_answer (m := r) h1 h3 hk rfl h.goesOn h.callerOpen
  have hl : c1.log = c.log := by rw [h2]
  have hn : ∀ n, c1.namespace n = c.namespace n := fun n => by rw [h2]; rfl
  refine ⟨fun hp => ?_, fun hp => ?_, ?_⟩
  · have he := hr.fine hp
    refine ⟨by rw [k1, if_pos ⟨rfl, he⟩], ?_⟩
    rw [k2, retOf_append, hl, (k4 he).ret]
  · obtain ⟨e, e', v1, v2, v3⟩ := hr.error hp
    refine ⟨by rw [k1, if_neg (by rw [v2]; simp), hn], e, e', v1, v3, ?_⟩
    rw [k2, retOf_append, hl, k3 e' v2]
    rfl
  · cases h.served with
    | other g1 _ _ => exact absurd hev g1
    | request t b hi _ hs =>
      obtain ⟨g1, _⟩ := c15_incoming hi hs hev h.wanted h.askedOpen
      rw [g1, hns.symm]
      unfold decision
      rw [if_pos hev]
      cases hd : d.namespace req.ns with
      | some o => simp
      | none =>
        cases hm : mapGet sc.decl req.ns with
        | none => simp
        | some evs =>
          cases hv : connectVerdict sc d req with
          | none => simp
          | some e => simp

/-- C122: Disconnect. -/
theorem c122_disconnect {obj : Nat} {msg : Message} (h : Round cc sc idc ids c i a now d d' req x typ c1 c2)
    (hk : a.cont = .disconnect obj msg) (hev : req.event = OnNamespaceDisconnect) (hns : req.ns = msg.ns) :
    (Swallowed (decision sc d req) → c2.namespace msg.ns = none ∧
      retOf c2.log = retOf c.log ++ [(.disconnect obj msg, .ok)]) ∧
    (¬ Swallowed (decision sc d req) → c2.namespace msg.ns = c.namespace msg.ns ∧
      ∃ e e', decision sc d req = some e ∧ ResolvesTo cc.known e.errorText e' ∧
        retOf c2.log = retOf c.log ++ [(.disconnect obj msg, .err e')]) ∧
    (d'.namespace msg.ns = none ↔ decision sc d req = none) := by
  obtain ⟨r, hr, h1, h2, h3⟩ := round h (.inr (.inl hev))
  obtain ⟨k1, _, l, k2, k3, k4⟩ := c19_answer (m := r) h1 h3 hk rfl h.goesOn h.callerOpen
  have hl : c1.log = c.log := by rw [h2]
  have hn : ∀ n, c1.namespace n = c.namespace n := fun n => by rw [h2]; rfl
  refine ⟨fun hp => ?_, fun hp => ?_, ?_⟩
  · have he := hr.fine hp
    obtain ⟨_, _, k4⟩ := k4 he
    refine ⟨by rw [k1, if_pos ⟨rfl, he⟩], ?_⟩
    rw [k2, retOf_append, hl, k4.ret]
  · obtain ⟨e, e', v1, v2, v3⟩ := hr.error hp
    refine ⟨by rw [k1, if_neg (by rw [v2]; simp), hn], e, e', v1, v3, ?_⟩
    rw [k2, retOf_append, hl, k3 e' v2]
    rfl
  · cases h.served with
    | other _ g1 _ => exact absurd hev g1
    | request t b hi _ hs =>
      unfold decision
      rw [if_neg (by rw [hev]; decide), ← hns]
      cases hd : d.namespace req.ns with
      | none =>
        obtain ⟨g1, _⟩ := c19_incoming_not_connected hi hs hev h.wanted hd h.askedOpen
        have : d'.namespace req.ns = none := by
          unfold St.namespace at hd ⊢; rw [g1]; exact hd
        simp [this]
      | some o =>
        dsimp only
        rw [if_neg (by rw [hev]; decide)]
        cases hc : sc.isClient with
        | true =>
          obtain ⟨g1, _⟩ := c19_incoming_client h.asked hi hs hev h.wanted hc hd h.askedOpen
          rw [g1]
          simp
        | false =>
          obtain ⟨g1, _⟩ := c19_incoming_server h.asked hi hs hev h.wanted hc hd h.askedOpen
          rw [g1, if_neg (c := false = true) (by decide), if_neg (c := req.event = OnRoomLeave) (by rw [hev]; decide)]
          cases hv : verdict sc d o req with
          | none => simp
          | some e => simp [hd]

/-- C122: JoinRoom; `o` is the namespace on the other side. The caller's own OnRoomJoin is asked last: if it refuses,
the other side stays in the room. -/
theorem c122_join {obj o : Nat} {msg : Message} (h : Round cc sc idc ids c i a now d d' req x typ c1 c2)
    (hk : a.cont = .join obj msg) (hev : req.event = OnRoomJoin) (hroom : req.room = msg.room)
    (ho : d.namespace req.ns = some o) :
    (Swallowed (decision sc d req) → verdict cc c obj msg = none →
      (∀ r, r ∈ c2.rooms obj ↔ r ∈ c.rooms obj ∨ r = msg.room) ∧
      retOf c2.log = retOf c.log ++ [(.join obj msg, .room obj msg.room)]) ∧
    (∀ e, Swallowed (decision sc d req) → verdict cc c obj msg = some e →
      (∀ r, r ∈ c2.rooms obj ↔ r ∈ c.rooms obj) ∧
      retOf c2.log = retOf c.log ++ [(.join obj msg, .err e)]) ∧
    (¬ Swallowed (decision sc d req) → (∀ r, r ∈ c2.rooms obj ↔ r ∈ c.rooms obj) ∧
      ∃ e e', decision sc d req = some e ∧ ResolvesTo cc.known e.errorText e' ∧
        retOf c2.log = retOf c.log ++ [(.join obj msg, .err e')]) ∧
    (msg.room ∈ d'.rooms o ↔ decision sc d req = none) := by
  obtain ⟨r, hr, h1, h2, h3⟩ := round h (.inr (.inr (.inl hev)))
  obtain ⟨_, k1, l, k2, k3, k4, k5⟩ := c17_answer (m := r) h1 h3 hk rfl h.goesOn h.callerOpen
  have hl : c1.log = c.log := by rw [h2]
  have hn : ∀ n, c1.rooms n = c.rooms n := fun n => by rw [h2]; rfl
  have hv : verdict cc c1 obj msg = verdict cc c obj msg := by rw [h2]; rfl
  rw [hv] at k1 k4 k5
  refine ⟨fun hp hv' => ?_, fun e hp hv' => ?_, fun hp => ?_, ?_⟩
  · have he := hr.fine hp
    refine ⟨fun r' => by rw [k1, hn]; simp [he, hv'], ?_⟩
    rw [k2, retOf_append, hl, (k5 he hv').ret]
  · have he := hr.fine hp
    refine ⟨fun r' => by rw [k1, hn]; simp [he, hv'], ?_⟩
    rw [k2, retOf_append, hl, (k4 e he hv').ret]
  · obtain ⟨e, e', v1, v2, v3⟩ := hr.error hp
    refine ⟨fun r' => by rw [k1, hn]; simp [v2], e, e', v1, v3, ?_⟩
    rw [k2, retOf_append, hl, k3 e' v2]
    rfl
  · cases h.served with
    | request t b hi g1 hs => rw [hev] at g1; exact absurd g1 (by decide)
    | other _ _ hs =>
      obtain ⟨_, g1, _⟩ := c17_incoming h.asked hs hev h.wanted ho h.askedOpen
      rw [g1, ← hroom]
      unfold decision
      rw [if_neg (by rw [hev]; decide), ho]
      dsimp only
      rw [if_pos hev]
      by_cases hj : req.room ∈ d.rooms o <;> simp [hj]

/-- C122: LeaveRoom. -/
theorem c122_leave {obj o : Nat} {msg : Message} (h : Round cc sc idc ids c i a now d d' req x typ c1 c2)
    (hk : a.cont = .leave obj msg) (hev : req.event = OnRoomLeave) (hroom : req.room = msg.room)
    (ho : d.namespace req.ns = some o) :
    (Swallowed (decision sc d req) → verdict cc c obj msg = none →
      (∀ r, r ∈ c2.rooms obj ↔ r ∈ c.rooms obj ∧ r ≠ msg.room) ∧
      retOf c2.log = retOf c.log ++ [(.leave obj msg, .ok)]) ∧
    (∀ e, Swallowed (decision sc d req) → verdict cc c obj msg = some e →
      (∀ r, r ∈ c2.rooms obj ↔ r ∈ c.rooms obj) ∧
      retOf c2.log = retOf c.log ++ [(.leave obj msg, .err e)]) ∧
    (¬ Swallowed (decision sc d req) → (∀ r, r ∈ c2.rooms obj ↔ r ∈ c.rooms obj) ∧
      ∃ e e', decision sc d req = some e ∧ ResolvesTo cc.known e.errorText e' ∧
        retOf c2.log = retOf c.log ++ [(.leave obj msg, .err e')]) ∧
    (msg.room ∉ d'.rooms o ↔ decision sc d req = none) := by
  obtain ⟨r, hr, h1, h2, h3⟩ := round h (.inr (.inr (.inr hev)))
  obtain ⟨_, k1, l, k2, k3, k4, k5⟩ := c18_answer (m := r) h3 hk rfl h.goesOn h.callerOpen
  have hl : c1.log = c.log := by rw [h2]
  have hn : ∀ n, c1.rooms n = c.rooms n := fun n => by rw [h2]; rfl
  have hv : verdict cc c1 obj msg = verdict cc c obj msg := by rw [h2]; rfl
  rw [hv] at k1 k4 k5
  refine ⟨fun hp hv' => ?_, fun e hp hv' => ?_, fun hp => ?_, ?_⟩
  · have he := hr.fine hp
    refine ⟨fun r' => by rw [k1, hn]; simp [he, hv'], ?_⟩
    rw [k2, retOf_append, hl, (k5 he hv').ret]
  · have he := hr.fine hp
    refine ⟨fun r' => by rw [k1, hn]; simp [he, hv'], ?_⟩
    rw [k2, retOf_append, hl, (k4 e he hv').ret]
  · obtain ⟨e, e', v1, v2, v3⟩ := hr.error hp
    refine ⟨fun r' => by rw [k1, hn]; simp [v2], e, e', v1, v3, ?_⟩
    rw [k2, retOf_append, hl, k3 e' v2]
    rfl
  · cases h.served with
    | request t b hi g1 hs => rw [hev] at g1; exact absurd g1 (by decide)
    | other _ _ hs =>
      unfold decision
      rw [if_neg (by rw [hev]; decide), ho]
      dsimp only
      rw [if_neg (by rw [hev]; decide)]
      cases hc : sc.isClient with
      | true =>
        obtain ⟨_, g1, _⟩ := c18_incoming_client h.asked hs hev h.wanted hc ho h.askedOpen
        rw [g1, ← hroom]
        simp
      | false =>
        obtain ⟨_, g1, _⟩ := c18_incoming_server h.asked hs hev h.wanted hc ho h.askedOpen
        rw [g1, ← hroom, if_neg (c := false = true) (by decide), if_pos hev]
        by_cases hj : req.room ∈ d.rooms o <;> simp [hj]

namespace Verdict

/-- the parts of `Round` that can be computed -/
def roundB (cc sc : Cfg) (c : St) (i : Nat) (a : AskRec) (now : Int) (d d' : St) (req : Message) (x : Bool × Bytes)
    (c2 : St) : Bool :=
  (c.acked = true ∧ cc.onlyNative = false ∧ c.asks[i]? = some a) ∧ (a.box = none ∧ a.tok = genWait cc.isClient now ∧
    mapGet c.waiting a.tok = some i ∧ (cc.isClient = true ∨ a.tok ∉ c.srvWaiting)) ∧
    ((req.wait ≠ [] ∧ req.isNoOp = false) ∧ req.wait = a.tok) ∧
    answerTo sc d req = some x ∧ d'.closed = false ∧ c2.closed = false

theorem round_of {cops sops : List Op} {w : Bytes}
    (h1 : (runOps cc (newConn cc idc) cops).isSome = true) (h2 : (runOps sc (newConn sc ids) sops).isSome = true)
    (h3 : (runOps cc (newConn cc idc) (cops ++ [.recv .text x.2])).isSome = true)
    (h4 : (runOps cc (newConn cc idc) (cops ++ [.recv .text x.2] ++ [.resume i])).isSome = true)
    (hs : Served sc (after sc ids sops) req (after sc ids (sops ++ [.recv .text w])))
    (hb : roundB cc sc (after cc idc cops) i a now (after sc ids sops) (after sc ids (sops ++ [.recv .text w])) req x
      (after cc idc (cops ++ [.recv .text x.2] ++ [.resume i])) = true) :
    Round cc sc idc ids (after cc idc cops) i a now (after sc ids sops) (after sc ids (sops ++ [.recv .text w])) req x .text
      (after cc idc (cops ++ [.recv .text x.2])) (after cc idc (cops ++ [.recv .text x.2] ++ [.resume i])) := by
  simp only [roundB, decide_eq_true_eq] at hb
  obtain ⟨⟨b1, b2, b3⟩, ⟨b4, b5, b6, b7⟩, ⟨b8, b9⟩, b10, b11, b12⟩ := hb
  exact ⟨after_reach h1, ⟨b1, b2, b3, b4, b5, b6, b7⟩, after_reach h2, hs, b8, b9, b10, b11, after_step h3,
    after_step h4, b12⟩

/-- a client without callbacks, and a server that returns `e` for this event -/
abbrev cli : Cfg := clientCfg chatDecl noCb
abbrev srv (event : Bytes) (e : GoErr) : Cfg :=
  serverCfg chatDecl fun _ _ _ msg => ([], if msg.event = event then some e else none)

/-- the request to connect is on its way -/
def connOps : List Op := [.recv .text (b! "A1"), .connect (b! "chat") 7 false]

/-- an Ask that has just been sent -/
abbrev sent (tok : Bytes) (k : Cont) : AskRec := ⟨tok, k, .table, none, false⟩

end Verdict

/-- The server refuses the namespace with an error without a text: all hypotheses of `c122_connect` hold, Connect
returns the namespace, and only the client is connected. -/
example : let sc := srv OnNamespaceConnect (.text [])
    ∃ c c1 c2 d d' x, Round cli sc [] (b! "1") c 0 (sent (b! "$7") (.connect (b! "chat") 0)) 7 d d' connReqMsg x .text c1 c2 ∧
      Swallowed (decision sc d connReqMsg) ∧ decision sc d connReqMsg = some (.text []) ∧
      retOf c2.log = [(.connect (b! "chat") 0, .nsConn 0)] ∧ c2.namespace (b! "chat") = some 0 ∧
      d'.namespace (b! "chat") = none := by
  intro sc
  refine ⟨_, _, _, _, _, (false, b! "$7;chat;;_OnNamespaceConnect;1;0;"), round_of (cops := connOps) (sops := ackOps)
    (w := connReq) (by decide +kernel) (by decide +kernel) (by decide +kernel) (by decide +kernel)
    (.request .text connReq (incoming_of (by decide +kernel)) (.inl rfl) (after_step (by decide +kernel)))
    (by decide +kernel), ?_, ?_, by decide +kernel, by decide +kernel, by decide +kernel⟩
  · rw [show decision sc (after sc (b! "1") ackOps) connReqMsg = some (.text []) by decide +kernel]
    exact .inr rfl
  · decide +kernel

/-- The server refuses with a text: Connect returns it. -/
example : let sc := srv OnNamespaceConnect (.text (b! "no"))
    ∃ c c1 c2 d d' x, Round cli sc [] (b! "1") c 0 (sent (b! "$7") (.connect (b! "chat") 0)) 7 d d' connReqMsg x .text c1 c2 ∧
      decision sc d connReqMsg = some (.text (b! "no")) ∧ ¬ Swallowed (some (.text (b! "no"))) ∧
      retOf c2.log = [(.connect (b! "chat") 0, .err (.text (b! "no")))] ∧ c2.namespace (b! "chat") = none := by
  intro sc
  exact ⟨_, _, _, _, _, (false, b! "$7;chat;;_OnNamespaceConnect;1;0;no"), round_of (cops := connOps) (sops := ackOps)
    (w := connReq) (by decide +kernel) (by decide +kernel) (by decide +kernel) (by decide +kernel)
    (.request .text connReq (incoming_of (by decide +kernel)) (.inl rfl) (after_step (by decide +kernel)))
    (by decide +kernel), by decide +kernel, by simp [Swallowed, GoErr.errorText], by decide +kernel, by decide +kernel⟩

/-- The server refuses to let the client out with a `Reply`: Disconnect succeeds, and only the server stays. -/
example : let sc := srv OnNamespaceDisconnect (.reply (b! "stay"))
    let req : Message := { ns := b! "chat", event := OnNamespaceDisconnect, wait := b! "$8" }
    let msg : Message := { ns := b! "chat", event := OnNamespaceDisconnect }
    ∃ c c1 c2 d d' x, Round cli sc [] (b! "1") c 1 (sent (b! "$8") (.disconnect 0 msg)) 8 d d' req x .text c1 c2 ∧
      decision sc d req = some (.reply (b! "stay")) ∧ Swallowed (some (.reply (b! "stay"))) ∧
      (retOf c2.log).drop 1 = [(.disconnect 0 msg, .ok)] ∧ c2.namespace (b! "chat") = none ∧
      d'.namespace (b! "chat") = some 0 := by
  intro sc req msg
  exact ⟨_, _, _, _, _, (false, b! "$8;chat;;_OnNamespaceDisconnect;0;0;stay"),
    round_of (cops := chatOps ++ [.disconnect 0 8 false]) (sops := chatSrvOps)
    (w := b! "$8;chat;;_OnNamespaceDisconnect;0;0;") (by decide +kernel) (by decide +kernel) (by decide +kernel) (by decide +kernel)
    (.request .text _ (incoming_of (by decide +kernel)) (.inr rfl) (after_step (by decide +kernel)))
    (by decide +kernel), by decide +kernel, .inl ⟨_, rfl⟩, by decide +kernel, by decide +kernel, by decide +kernel⟩

/-- The server refuses the room with an error without a text: JoinRoom succeeds, and only the client is in the room. -/
example : let sc := srv OnRoomJoin (.text [])
    let msg : Message := { ns := b! "chat", room := b! "r", event := OnRoomJoin, isLocal := true }
    ∃ c c1 c2 d d' x, Round cli sc [] (b! "1") c 1 (sent (b! "$9") (.join 0 msg)) 9 d d' joinReqMsg x .text c1 c2 ∧
      d.namespace (b! "chat") = some 0 ∧ decision sc d joinReqMsg = some (.text []) ∧ Swallowed (some (.text [])) ∧
      verdict cli c 0 msg = none ∧
      (retOf c2.log).drop 1 = [(.join 0 msg, .room 0 (b! "r"))] ∧ c2.rooms 0 = [b! "r"] ∧ d'.rooms 0 = [] := by
  intro sc msg
  exact ⟨_, _, _, _, _, (false, b! "$9;chat;r;_OnRoomJoin;1;0;"),
    round_of (cops := chatOps ++ [.join 0 (b! "r") 9 false]) (sops := chatSrvOps)
    (w := joinReq) (by decide +kernel) (by decide +kernel) (by decide +kernel) (by decide +kernel)
    (.other (by decide) (by decide) (handled_of (by decide +kernel) (by decide +kernel) (by decide +kernel)))
    (by decide +kernel), by decide +kernel, by decide +kernel, .inr rfl, by decide +kernel, by decide +kernel,
    by decide +kernel, by decide +kernel⟩

/-- The server refuses to let the client out of the room with a text: LeaveRoom returns it, and both stay. -/
example : let sc := srv OnRoomLeave (.text (b! "no"))
    let msg : Message := { ns := b! "chat", room := b! "r", event := OnRoomLeave }
    ∃ c c1 c2 d d' x, Round cli sc [] (b! "1") c 2 (sent (b! "$10") (.leave 0 msg)) 10 d d' leaveReqMsg x .text c1 c2 ∧
      d.namespace (b! "chat") = some 0 ∧ decision sc d leaveReqMsg = some (.text (b! "no")) ∧
      ¬ Swallowed (some (.text (b! "no"))) ∧
      (retOf c2.log).drop 2 = [(.leave 0 msg, .err (.text (b! "no")))] ∧ c2.rooms 0 = [b! "r"] ∧ d'.rooms 0 = [b! "r"] := by
  intro sc msg
  exact ⟨_, _, _, _, _, (false, b! "$10;chat;r;_OnRoomLeave;1;0;no"),
    round_of (cops := chatOps ++ [.join 0 (b! "r") 9 false, .recv .text (b! "$9;;;;;;"), .resume 1,
      .leave 0 (b! "r") 10 false]) (sops := chatSrvOps ++ [.recv .text joinReq])
    (w := leaveReq) (by decide +kernel) (by decide +kernel) (by decide +kernel) (by decide +kernel)
    (.other (by decide) (by decide) (handled_of (by decide +kernel) (by decide +kernel) (by decide +kernel)))
    (by decide +kernel), by decide +kernel, by decide +kernel, by simp [Swallowed, GoErr.errorText], by decide +kernel,
    by decide +kernel, by decide +kernel⟩

end Neffos
