import Verif.Spec.Audience
import Verif.Spec.Net
import Verif.Props.AgreeBoth
import Verif.Props.Broadcast
import Verif.Props.Delivery
import Verif.Props.GateConn
/-!
# C123: who hears a broadcast
-/
set_option autoImplicit false
namespace Neffos
open Spec

variable {cc sc : Cfg} {id : Bytes} {ops : List SessOp} {s : Sess}

namespace Audience

theorem excluded_iff {d : St} {ex : Except} : Excluded sc d ex ↔ LeftOut sc d ex := by cases ex <;> rfl

theorem free_ns {m : Message} (h : PlaceFree s m) :
    (∀ a ∈ s.c.asks, a.done = false → about a.cont ≠ some (m.ns, none)) ∧
    ∀ a ∈ s.d.asks, a.done = false → about a.cont ≠ some (m.ns, none) := by
  unfold PlaceFree at h
  split at h
  · exact ⟨fun a ha => h a (List.mem_append_left _ ha), fun a ha => h a (List.mem_append_right _ ha)⟩
  · exact ⟨fun a ha hd e => h.1 a ha hd _ e ⟨rfl, .inr (.inl rfl)⟩, fun a ha hd e => h.2 a ha hd _ e ⟨rfl, .inr (.inl rfl)⟩⟩

theorem isIn_iff {m : Message} (hcons : BothConsistent cc sc) (hnc : cc.allowNative = false)
    (hns : sc.allowNative = false) (hcl : cc.isClient = true) (hsc : sc.isClient = false)
    (h : BothRun cc sc id ops s) (hc : s.c.closed = false) (hd : s.d.closed = false) (hf : PlaceFree s m) :
    IsIn s.c m ↔ IsIn s.d m := by
  have hn := free_ns hf
  have h1 := c89_namespaces hcons hnc hns hcl hsc h hc hd hn.1 hn.2
  unfold IsIn
  rw [h1]
  by_cases hr : m.room = []
  · simp [hr]
  · unfold PlaceFree at hf
    rw [if_neg hr] at hf
    rw [c89_rooms hcons hnc hns hcl hsc h hc hd hf]

theorem stamp_one (ex : Except) (m : Message) : ∃ m', stamp ex [m] = [m'] ∧ m'.wait = m.wait ∧ m'.ns = m.ns ∧ m'.room = m.room ∧
    m'.event = m.event ∧ m'.body = m.body ∧ m'.err = m.err ∧ m'.isNative = m.isNative ∧ m'.setBinary = m.setBinary ∧ m'.to = m.to := by
  cases ex with
  | nil => exact ⟨m, rfl, rfl, rfl, rfl, rfl, rfl, rfl, rfl, rfl, rfl⟩
  | conn sid => exact ⟨_, rfl, rfl, rfl, rfl, rfl, rfl, rfl, rfl, rfl, rfl⟩
  | nsConn sid => exact ⟨_, rfl, rfl, rfl, rfl, rfl, rfl, rfl, rfl, rfl, rfl⟩
  | stringer x =>
    refine ⟨_, rfl, ?_⟩
    split <;> exact ⟨rfl, rfl, rfl, rfl, rfl, rfl, rfl, rfl, rfl⟩

theorem publish_one (d : St) (m : Message) :
    (publishMessages sc d [m]).1 = d ∨ (publishMessages sc d [m]).1 = (write sc d m).1 := by
  unfold publishMessages
  split
  · exact .inl rfl
  · split
    · exact .inl rfl
    · refine .inr ?_
      generalize write sc d m = w
      obtain ⟨t, ok⟩ := w
      dsimp only
      split <;> rfl

end Audience

/-- C123: with calls of both sides in flight elsewhere, a broadcast of one event is written to the connection of a client
exactly if the client is in its namespace and room by its own records and the broadcast neither leaves it out nor is
addressed to another. Otherwise nothing happens to the connection. -/
theorem c123_written (hcons : BothConsistent cc sc) (hnc : cc.allowNative = false)
    (hns : sc.allowNative = false) (hcl : cc.isClient = true) (hsc : sc.isClient = false)
    (h : BothRun cc sc id ops s) (hc : s.c.closed = false) (hd : s.d.closed = false) (hid : s.d.id ≠ [])
    (ex : Except) (hex : ex.Real) (m : Message) (hm : Ordinary m) (hf : PlaceFree s m) :
    ∃ b, serializeMessage m = some b ∧
      (ForClient sc s ex m →
        sentOf (publishMessages sc s.d (stamp ex [m])).1.log = sentOf s.d.log ++ [(m.setBinary, b)]) ∧
      (¬ ForClient sc s ex m → (publishMessages sc s.d (stamp ex [m])).1.log = s.d.log) := by
  have hin := Audience.isIn_iff hcons hnc hns hcl hsc h hc hd hf
  obtain ⟨b, hb, h1, h2⟩ := c37_recipient_partial (both_inv hcons hnc hns hcl hsc h).rd hsc hid ex hex m hm
  have e : ForClient sc s ex m ↔ Recipient sc s.d ex m := by
    constructor
    · rintro ⟨k1, k2, k3⟩
      obtain ⟨k4, k5⟩ := hin.mp k1
      obtain ⟨obj, ho⟩ := Option.ne_none_iff_exists'.mp k4
      refine ⟨hd, fun x => k2 (Audience.excluded_iff.mp x), k3, obj, ho, ?_⟩
      rcases k5 with k5 | ⟨obj', k6, k7⟩
      · exact .inl k5
      · rw [ho] at k6; cases k6; exact .inr k7
    · rintro ⟨_, k2, k3, obj, k4, k5⟩
      refine ⟨hin.mpr ⟨by unfold InNs; rw [k4]; simp, ?_⟩, fun x => k2 (Audience.excluded_iff.mpr x), k3⟩
      rcases k5 with k5 | k5
      · exact .inl k5
      · exact .inr ⟨obj, k4, k5⟩
  exact ⟨b, hb, fun x => h1 (e.mp x), fun x => h2 (fun y => x (e.mpr y))⟩

/-- C123: when the client has read everything that came before and its reader is free, it hears the event next, once and
with everything it says, if the broadcast is for it by its own records; otherwise there is nothing to read. -/
theorem c123_heard (hcons : BothConsistent cc sc) (hnc : cc.allowNative = false)
    (hns : sc.allowNative = false) (hcl : cc.isClient = true) (hsc : sc.isClient = false)
    (h : BothRun cc sc id ops s) (hc : s.c.closed = false) (hd : s.d.closed = false) (hid : s.d.id ≠ [])
    (ex : Except) (hex : ex.Real) (m : Message) (hm : Ordinary m) (hp : PlainEvent m) (hf : PlaceFree s m)
    (hw : Working s.c) (hrd : s.c.rd = .idle) (hall : s.down = (pipe s.d.log).length) {s' : Sess}
    (hs : s' = { s with d := (publishMessages sc s.d (stamp ex [m])).1 })
    (htook : ∀ bin b, Obs.sent bin b false ∉ s'.d.log) :
    (ForClient sc s ex m → (∃ p, pipe s'.d.log = pipe s.d.log ++ [p]) ∧
      ∀ s2, sstep cc sc s' .down = some s2 →
        ∃ r, heard s2.c.log = heard s.c.log ++ [r] ∧ said r = said m ∧ s2.c.rd = .idle) ∧
    (¬ ForClient sc s ex m → sstep cc sc s' .down = none) := by
  have hi := both_inv hcons hnc hns hcl hsc h
  have honc : cc.onlyNative = false := by simp [Cfg.onlyNative, hnc]
  obtain ⟨b, _, h1, h2⟩ := c123_written hcons hnc hns hcl hsc h hc hd hid ex hex m hm hf
  subst hs
  constructor
  · intro hfor
    have h1 := h1 hfor
    obtain ⟨m', hst, e1, e2, e3, e4, e5, e6, e7, e8, e9⟩ := Audience.stamp_one ex m
    rw [hst] at h1 htook ⊢
    have hpub : (publishMessages sc s.d [m']).1 = (write sc s.d m').1 := by
      rcases Audience.publish_one (sc := sc) s.d m' with e | e
      · rw [e] at h1; simp at h1
      · exact e
    rw [hpub] at h1 htook ⊢
    have hem := c62_emitted hi.rd (m := m') ⟨e1.trans hp.app.1, e7.trans hp.app.2⟩ (e6.trans hp.err) (e2 ▸ hp.ns) (e3 ▸ hp.room)
      (e4 ▸ hp.event) (by rw [e4]; exact hp.life)
    have hok : (write sc s.d m').2 = true := by
      obtain ⟨b', _, hy, hn⟩ := c13_write hi.rd m'
      by_cases hmw : MayWrite sc s.d m'
      · obtain ⟨rest, k1, _, _, k4⟩ := hy hmw
        rw [k4]
        cases hk : (sc.sock s.d.log m'.setBinary b').isNone with
        | true => rfl
        | false =>
          refine absurd ?_ (htook m'.setBinary b')
          show _ ∈ (write sc s.d m').1.log
          rw [k1, hk]
          simp
      · rw [(hn hmw).1] at h1; simp at h1
    obtain ⟨p, hpipe, hcar⟩ := hem.1 hok
    obtain ⟨r, r1, r2, r3, r4, r5, r6, r7⟩ := hcar cc honc
    refine ⟨⟨p, hpipe⟩, fun s2 hs2 => ⟨r, ?_⟩⟩
    have hat : (pipe (write sc s.d m').1.log)[s.down]? = some (p.1, p.2) := by
      rw [hpipe, hall]; simp
    simp only [sstep, hat] at hs2
    obtain ⟨c', hstep, rfl⟩ := Option.map_eq_some_iff.mp hs2
    have hinv : (deserializeMessage cc.known p.1 p.2 cc.allowNative cc.onlyNative).isInvalid = false ∧
        ¬ Life (deserializeMessage cc.known p.1 p.2 cc.allowNative cc.onlyNative).event ∧
        deserializeMessage cc.known p.1 p.2 cc.allowNative cc.onlyNative = r := by
      unfold carried at r1
      dsimp only at r1
      split at r1
      · cases r1
      · rename_i hn
        cases r1
        exact ⟨by simpa using fun x => hn (.inl x), fun x => hn (.inr x), rfl⟩
    have hne : p.2 ≠ [] := by
      intro e
      have h0 := hinv.1
      rw [e] at h0
      revert h0
      simp [deserializeMessage, deserializeInput]
    have hnw : r.isWait cc.isClient = false := by unfold Message.isWait; simp [r2.2]
    have hinc : Incoming cc s.c p.1 p.2 r :=
      ⟨hne, hw.acked, hinv.2.2, hinv.2.2 ▸ hinv.1, honc, .inr (.inr (.inr hnw)), .inr (.inr hnw), .inr hnw⟩
    have hlife : ¬ Life r.event := hinv.2.2 ▸ hinv.2.1
    have hnp : ¬ InProgress s.c r.ns := by
      rintro ⟨i, obj, a, k1, k2, k3⟩
      refine (Audience.free_ns hf).1 a (List.mem_of_getElem? k1) k2 ?_
      rw [k3, r2.1, e2]; rfl
    have hpass := c32_event_passes_partial hi.rc hinc (fun e => hlife (e ▸ life_connect)) (fun e => hlife (e ▸ life_disconnect)) hnp hstep
    have hh := handled hi.rc hpass.1 (fun e => hlife (e ▸ life_connect)) (fun e => hlife (e ▸ life_disconnect))
    have hin : s.c.namespace r.ns ≠ none := by rw [r2.1, e2]; exact hfor.place.1
    have hg := heard_afterGate (cfg := cc) { s.c with rd := .idle } (decoded_remote ⟨p.1, p.2, hinv.2.2⟩)
    rw [if_neg (fun x => x.elim hlife hin)] at hg
    refine ⟨?_, ?_, hpass.2⟩
    · show heard c'.log = _
      rw [hh.1]
      exact hg
    · simp [said, r2.1, r3, r4, r5, r7, e2, e3, e4, e5, e8]
  · intro hnot
    have e := h2 hnot
    simp only [sstep, e, hall]
    simp

/-- the client is in `chat` and in `q`, with calls of both sides in flight elsewhere -/
def audienceSess : List SessOp :=
  dialOps ++ [.client (.connect (b! "chat") 7 false), .up, .down, .client (.resume 0),
    .client (.join 0 (b! "q") 9 false), .up, .down, .client (.resume 1), .server (.connect (b! "game") 8 false), .down,
    .client (.connect (b! "quiz") 10 false)]

abbrev inQ : Sess := bothRan pickyCli pickySrv (b! "u1") audienceSess
abbrev toRoom (r : Bytes) : Message := { ns := b! "chat", room := r, event := b! "hi", body := b! "x" }
abbrev castTo (ex : Except) (m : Message) : Sess := { inQ with d := (publishMessages pickySrv inQ.d (stamp ex [m])).1 }

/-- a broadcast to `q` is heard, one to `r` and one that leaves the connection out are not -/
example : BothConsistent pickyCli pickySrv ∧ BothRun pickyCli pickySrv (b! "u1") audienceSess inQ ∧
    inQ.c.closed = false ∧ inQ.d.closed = false ∧ inQ.d.id ≠ [] ∧
    (inQ.c.asks.filter fun a => !a.done).length = 1 ∧ (inQ.d.asks.filter fun a => !a.done).length = 1 ∧
    inQ.c.acked = true ∧ inQ.c.todo = [] ∧ inQ.c.ackAfter = false ∧ inQ.c.rd = .idle ∧
    inQ.down = (pipe inQ.d.log).length ∧
    b! "q" ∈ inQ.c.rooms 0 ∧ inQ.c.namespace (b! "chat") = some 0 := by
  refine ⟨picky_consistent, bothRan_run (by decide +kernel), ?_⟩
  decide +kernel

example : (sstep pickyCli pickySrv (castTo .nil (toRoom (b! "q"))) .down).map (fun t => (heard t.c.log).map (·.body)) =
      some [b! "x"] ∧
    (sstep pickyCli pickySrv (castTo .nil (toRoom (b! "r"))) .down).isNone = true ∧
    (sstep pickyCli pickySrv (castTo (.stringer (b! "u1")) (toRoom (b! "q"))) .down).isNone = true := by
  decide +kernel

example (r : Bytes) (hr : r = b! "q" ∨ r = b! "r") : Ordinary (toRoom r) ∧ PlainEvent (toRoom r) ∧ PlaceFree inQ (toRoom r) := by
  have hs : ∀ x : Bytes, unescape (escape x) = x → SafeName x := fun x h => (unescape_escape_iff x).mp h
  have hfree : ∀ r, r ≠ [] → PlaceFree inQ (toRoom r) := by
    intro r hne
    unfold PlaceFree
    rw [if_neg hne]
    have hc : ∀ a ∈ inQ.c.asks, a.done = false → ∀ y, about a.cont = some y → (b! "chat") ≠ y.1 := by
      have : inQ.c.asks.all (fun a => a.done || (match about a.cont with | some y => decide ((b! "chat") ≠ y.1) | none => true)) = true := by
        decide +kernel
      intro a ha hd y hy
      have := List.all_eq_true.mp this a ha
      simpa [hd, hy] using this
    have hd : ∀ a ∈ inQ.d.asks, a.done = false → ∀ y, about a.cont = some y → (b! "chat") ≠ y.1 := by
      have : inQ.d.asks.all (fun a => a.done || (match about a.cont with | some y => decide ((b! "chat") ≠ y.1) | none => true)) = true := by
        decide +kernel
      intro a ha hd y hy
      have := List.all_eq_true.mp this a ha
      simpa [hd, hy] using this
    exact ⟨fun a ha h1 y hy h2 => hc a ha h1 y hy h2.1, fun a ha h1 y hy h2 => hd a ha h1 y hy h2.1⟩
  have hne : r ≠ [] := by rcases hr with rfl | rfl <;> decide
  have hev : (b! "hi") ≠ OnNamespaceConnect ∧ (b! "hi") ≠ OnNamespaceDisconnect ∧ (b! "hi") ≠ OnRoomJoin ∧ (b! "hi") ≠ OnRoomLeft ∧
      ¬ Life (b! "hi") := by decide
  refine ⟨⟨hev.1, hev.2.1, hev.2.2.1, hev.2.2.2.1, rfl, rfl⟩,
    ⟨⟨rfl, rfl⟩, rfl, hs (b! "chat") (by decide +kernel), ?_, hs (b! "hi") (by decide +kernel), hev.2.2.2.2⟩, hfree r hne⟩
  rcases hr with rfl | rfl
  · exact hs (b! "q") (by decide +kernel)
  · exact hs (b! "r") (by decide +kernel)

end Neffos
