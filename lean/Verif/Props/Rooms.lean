import Verif.Proofs.ConnAsk
import Verif.Proofs.ConnRun
/-!
# C17, C18: joining and leaving rooms
-/
set_option autoImplicit false
namespace Neffos
open Spec

variable {cfg : Cfg} {id : Bytes} {s s' : St}

/-! ## C17 -/

/-- C17, an incoming join request of a connected namespace: the room is in the namespace
afterwards exactly when it was before or OnRoomJoin returned nil; no other membership
changes. Already joined: no callback, an empty answer. Accepted: OnRoomJoin, then
OnRoomJoined with the room joined, then an empty answer. Refused: OnRoomJoin only, and the
error as the answer. -/
theorem c17_incoming {msg : Message} {obj : Nat} (hr : Reach cfg id s)
    (hs : Handled cfg s msg s') (hev : msg.event = OnRoomJoin) (hw : Wanted msg)
    (hn : s.namespace msg.ns = some obj) (hc : s'.closed = false) :
    s'.connected = s.connected ∧
    (∀ i r, r ∈ s'.rooms i ↔ r ∈ s.rooms i ∨
      (i = obj ∧ r = msg.room ∧ verdict cfg s obj msg = none)) ∧
    ∃ l, s'.log = s.log ++ l ∧
      (msg.room ∈ s.rooms obj → Adds cfg l [] [(false, genEmptyReplyToWait msg.wait)] [] []) ∧
      (msg.room ∉ s.rooms obj → verdict cfg s obj msg = none →
        Adds cfg l [⟨obj, msg, true, false⟩, ⟨obj, { msg with event := OnRoomJoined }, true, true⟩]
          [(false, genEmptyReplyToWait msg.wait)] [] []) ∧
      (∀ e, msg.room ∉ s.rooms obj → verdict cfg s obj msg = some e →
        Adds cfg l [⟨obj, msg, true, false⟩]
          [(msg.setBinary, wireOf { msg with err := some e })] [] []) := by
  obtain ⟨rfl, _, hdec⟩ := handled hr hs (by rw [hev]; decide) (by rw [hev]; decide)
  have hlk := reach_linked hr hn
  have hrg := reach_range hr hn
  rw [afterGate_join (t := { s with rd := .idle }) hev hn] at hc ⊢
  by_cases hj : msg.room ∈ s.rooms obj
  · obtain ⟨l, h1, h2⟩ := replyRoomJoin_joined (s := { s with rd := .idle }) hw hj hc
    refine ⟨h1.connected, ?_, l, h1.log, fun _ => h2, fun h => absurd hj h, fun _ h => absurd hj h⟩
    intro i r
    rw [h1.rooms]
    constructor
    · exact Or.inl
    · rintro (h | ⟨rfl, rfl, _⟩)
      · exact h
      · exact hj
  · cases hv : verdict cfg s obj msg with
    | none =>
      obtain ⟨l, h1, h2⟩ := replyRoomJoin_accepted (s := { s with rd := .idle }) hw hj hv hrg hc
      refine ⟨h1.connected, ?_, l, h1.log, fun h => absurd h hj, fun _ _ => ?_, fun _ _ h => by simp at h⟩
      · intro i r
        rw [h1.rooms, rooms_addRoom _ _ _ (by exact hrg)]
        simp [St.rooms]
      · have : linked { s with rd := .idle } obj = true := hlk
        rw [this] at h2
        exact h2
    | some e =>
      obtain ⟨l, h1, h2⟩ := replyRoomJoin_refused (s := { s with rd := .idle }) hw hj hv
        (hdec.noExplicit hw.1) hn hev hc
      refine ⟨h1.connected, ?_, l, h1.log, fun h => absurd h hj, fun _ h => by simp at h, ?_⟩
      · intro i r
        rw [h1.rooms]
        simp [St.rooms]
      · rintro e' _ h
        cases h
        have : linked { s with rd := .idle } obj = true := hlk
        rw [this] at h2
        exact h2

/-- the server-side connection gets a join request for the room `r` of `chat` -/
def joinReq : Bytes := b! "$9;chat;r;_OnRoomJoin;0;0;"

def joinReqMsg : Message :=
  { ns := b! "chat", room := b! "r", event := OnRoomJoin, wait := b! "$9" }

/-- refuses the room `r` -/
def refuseCb : List Obs → Nat → Bytes → Message → List Act × Option GoErr :=
  fun _ _ _ msg => ([], if msg.event = OnRoomJoin ∨ msg.event = OnRoomLeave ∨
    msg.event = OnNamespaceDisconnect then some (.text (b! "no")) else none)

example : ∃ (cfg : Cfg) (id : Bytes) (s s' : St) (msg : Message) (obj : Nat),
    Reach cfg id s ∧ Handled cfg s msg s' ∧ msg.event = OnRoomJoin ∧ Wanted msg ∧
    s.namespace msg.ns = some obj ∧ s'.closed = false ∧ msg.room ∉ s.rooms obj ∧
    verdict cfg s obj msg = none :=
  ⟨serverCfg chatDecl noCb, b! "1", _, _, joinReqMsg, 0, after_reach (by decide +kernel),
    handled_of (ops := chatSrvOps) (typ := .text) (b := joinReq) (by decide +kernel)
      (by decide +kernel) (by decide +kernel), rfl, ⟨by decide, by decide⟩, by decide +kernel, by decide +kernel,
    by decide +kernel, by decide +kernel⟩

example : ∃ (cfg : Cfg) (id : Bytes) (s s' : St) (msg : Message) (obj : Nat) (e : GoErr),
    Reach cfg id s ∧ Handled cfg s msg s' ∧ msg.event = OnRoomJoin ∧ Wanted msg ∧
    s.namespace msg.ns = some obj ∧ s'.closed = false ∧ msg.room ∉ s.rooms obj ∧
    verdict cfg s obj msg = some e :=
  ⟨serverCfg chatDecl refuseCb, b! "1", _, _, joinReqMsg, 0, .text (b! "no"),
    after_reach (by decide +kernel),
    handled_of (ops := chatSrvOps) (typ := .text) (b := joinReq) (by decide +kernel)
      (by decide +kernel) (by decide +kernel), rfl, ⟨by decide, by decide⟩, by decide +kernel, by decide +kernel,
    by decide +kernel, by decide +kernel⟩

/-- C17: when the namespace is not connected, an incoming join or leave request or event has
no effect on membership, runs no callback and sends nothing. -/
theorem c17_not_connected {msg : Message} (hr : Reach cfg id s) (hs : Handled cfg s msg s')
    (h1 : msg.event ≠ OnNamespaceConnect) (h2 : msg.event ≠ OnNamespaceDisconnect)
    (hn : s.namespace msg.ns = none) :
    s'.connected = s.connected ∧ s'.objs = s.objs ∧ s'.log = s.log ∧ s'.closed = s.closed := by
  obtain ⟨rfl, _, _⟩ := handled hr hs h1 h2
  have h := afterGate_noNamespace (cfg := cfg) (s := { s with rd := .idle }) (msg := msg) hn h1 h2
  exact ⟨h.connected, h.objs, by rw [h.log]; simp, h.closed⟩

example : ∃ (cfg : Cfg) (id : Bytes) (s s' : St) (msg : Message),
    Reach cfg id s ∧ Handled cfg s msg s' ∧ msg.event = OnRoomJoin ∧ Wanted msg ∧
    s.namespace msg.ns = none :=
  ⟨serverCfg chatDecl noCb, b! "1", _, _, joinReqMsg, after_reach (by decide +kernel),
    handled_of (ops := [.ready none, .recv .text (b! "M")]) (typ := .text) (b := joinReq)
      (by decide +kernel) (by decide +kernel) (by decide +kernel), rfl, ⟨by decide, by decide⟩,
    by decide +kernel⟩

/-- C17, a request that wants no answer is ignored. -/
theorem c17_unwanted {msg : Message} {obj : Nat} (hr : Reach cfg id s) (hs : Handled cfg s msg s')
    (hev : msg.event = OnRoomJoin ∨ msg.event = OnRoomLeave) (hw : ¬ Wanted msg)
    (hn : s.namespace msg.ns = some obj) :
    s' = { s with rd := .idle } := by
  obtain ⟨rfl, _, _⟩ := handled hr hs (by rcases hev with h | h <;> rw [h] <;> decide)
    (by rcases hev with h | h <;> rw [h] <;> decide)
  have hx : msg.wait = [] ∨ msg.isNoOp = true := by
    by_cases h : msg.wait = []
    · exact Or.inl h
    · cases h' : msg.isNoOp with
      | true => exact Or.inr rfl
      | false => exact absurd ⟨h, h'⟩ hw
  rcases hev with hev | hev
  · rw [afterGate_join (t := { s with rd := .idle }) hev hn]
    unfold replyRoomJoin; rw [if_pos hx]
  · rw [afterGate_leave (t := { s with rd := .idle }) hev hn]
    unfold replyRoomLeave; rw [if_pos hx]

example : ∃ (cfg : Cfg) (id : Bytes) (s s' : St) (msg : Message) (obj : Nat),
    Reach cfg id s ∧ Handled cfg s msg s' ∧ msg.event = OnRoomJoin ∧ ¬ Wanted msg ∧
    s.namespace msg.ns = some obj :=
  ⟨serverCfg chatDecl noCb, b! "1", _, _, { joinReqMsg with wait := [] }, 0,
    after_reach (by decide +kernel),
    handled_of (ops := chatSrvOps) (typ := .text) (b := b! ";chat;r;_OnRoomJoin;0;0;")
      (by decide +kernel) (by decide +kernel) (by decide +kernel), rfl, fun h => h.1 rfl,
    by decide +kernel⟩

/-- the message of a JoinRoom call -/
def joinMsg (ns room : Bytes) : Message :=
  { ns := ns, room := room, event := OnRoomJoin, isLocal := true }

/-- C17, the call on a joined room returns at once: no message, no callback. -/
theorem c17_call_again {obj : Nat} {room : Bytes} {now : Int} {ex : Bool}
    (hj : room ∈ s.rooms obj) (hs : step cfg s (.join obj room now ex) = some s') :
    s' = s.emit (.ret (.join obj (joinMsg (s.nsName obj) room)) (.room obj room)) := by
  obtain ⟨he, _⟩ := step_exec hs
  simp only [exec] at he
  split at he
  · cases he
    unfold joinRoom
    dsimp only
    rw [if_pos hj]; rfl
  · simp at he

/-- a client that asked to join the room `r`, got the answer and completed the call -/
def joinOps : List Op := chatOps ++ [.join 0 (b! "r") 9 false]
def joinAnsOps : List Op := joinOps ++ [.recv .text (b! "$9;;;;;;")]
def joinedOps : List Op := joinAnsOps ++ [.resume 1]

example : ∃ (cfg : Cfg) (id : Bytes) (s s' : St), Reach cfg id s ∧ b! "r" ∈ s.rooms 0 ∧
    step cfg s (.join 0 (b! "r") 10 false) = some s' :=
  ⟨clientCfg chatDecl noCb, [], after _ _ joinedOps, _, after_reach (by decide +kernel),
    by decide +kernel, after_step (by decide +kernel)⟩

/-- C17, the call on a room that is not joined changes no membership and runs no callback:
it sends one request and waits, or fails when the request cannot be written. -/
theorem c17_call {obj : Nat} {room : Bytes} {now : Int} (hn : cfg.onlyNative = false)
    (hj : room ∉ s.rooms obj) (hs : step cfg s (.join obj room now false) = some s')
    (hc : s'.closed = false) :
    s'.connected = s.connected ∧ s'.objs = s.objs ∧ ∃ l, s'.log = s.log ++ l ∧
      ((s.namespace (s.nsName obj) ≠ none → ∃ rs,
        (rs = [] ∨ rs = [(.join obj (joinMsg (s.nsName obj) room), .err errWrite)]) ∧
        Adds cfg l [] [(false, wireOf { joinMsg (s.nsName obj) room with
          wait := genWait cfg.isClient now })] rs []) ∧
       (s.namespace (s.nsName obj) = none →
        l = [.ret (.join obj (joinMsg (s.nsName obj) room)) (.err errWrite)])) := by
  obtain ⟨he, _⟩ := step_exec hs
  simp only [exec] at he
  split at he
  · cases he
    unfold joinRoom at hc ⊢
    dsimp only at hc ⊢
    rw [if_neg hj] at hc ⊢
    obtain ⟨h1, h2, l, h3, h4, h5⟩ := startAsk_eff hn (by simp) hc
    refine ⟨h1, h2, l, h3, fun h => ?_, fun h => ?_⟩
    · obtain ⟨o, ho⟩ := Option.ne_none_iff_exists'.mp h
      exact h4 ⟨startAsk_was_open hn hc, fun h => h.1 rfl, Or.inr (Or.inr ⟨o, ho, by simp⟩)⟩
    · refine h5 ?_
      rintro ⟨_, _, h' | h' | ⟨o, ho, _⟩⟩
      · exact absurd (show OnRoomJoin = _ from h') (by decide)
      · exact absurd (show OnRoomJoin = _ from h') (by decide)
      · rw [h] at ho; simp at ho
  · simp at he

example : ∃ (cfg : Cfg) (id : Bytes) (s s' : St), Reach cfg id s ∧ cfg.onlyNative = false ∧
    b! "r" ∉ s.rooms 0 ∧ s.namespace (s.nsName 0) ≠ none ∧
    step cfg s (.join 0 (b! "r") 9 false) = some s' ∧ s'.closed = false :=
  ⟨clientCfg chatDecl noCb, [], after _ _ chatOps, _, after_reach (by decide +kernel),
    by decide +kernel, by decide +kernel, by decide +kernel, after_step (by decide +kernel),
    by decide +kernel⟩

/-- C17, the answer arrives. An error is returned and nothing changes; otherwise the local
OnRoomJoin decides, and only if it returns nil the room is added, OnRoomJoined runs with
the room joined, and the room is returned. -/
theorem c17_answer {i obj : Nat} {a : AskRec} {msg m : Message} (hr : Reach cfg id s)
    (ha : s.asks[i]? = some a) (hk : a.cont = .join obj msg) (hb : a.box = some m)
    (hs : step cfg s (.resume i) = some s') (hc : s'.closed = false) :
    s'.connected = s.connected ∧
    (∀ j r, r ∈ s'.rooms j ↔ r ∈ s.rooms j ∨
      (j = obj ∧ r = msg.room ∧ m.err = none ∧ verdict cfg s obj msg = none)) ∧
    ∃ l, s'.log = s.log ++ l ∧
      (∀ e, m.err = some e → l = [.ret (.join obj msg) (.err e)]) ∧
      (∀ e, m.err = none → verdict cfg s obj msg = some e →
        Adds cfg l [⟨obj, msg, linked s obj, msg.room ∈ s.rooms obj⟩] []
          [(.join obj msg, .err e)] []) ∧
      (m.err = none → verdict cfg s obj msg = none →
        Adds cfg l [⟨obj, msg, linked s obj, msg.room ∈ s.rooms obj⟩,
            ⟨obj, { msg with event := OnRoomJoined }, linked s obj, true⟩] []
          [(.join obj msg, .room obj msg.room)] []) := by
  obtain ⟨rfl, _⟩ := step_resume ha hb hs
  rw [hk] at hc ⊢
  obtain ⟨f1, f2, f3, f4, _⟩ := resumed_fields s i a
  have hlk : linked (resumed s i a) obj = linked s obj := by
    unfold linked St.namespace; rw [nsName_congr f1, f2]
  cases he : m.err with
  | some e =>
    rw [he] at hc
    obtain ⟨h1, h2, h3, _⟩ := finish_err (cfg := cfg) (resumed s i a) (.join obj msg) m e (by simp)
    refine ⟨h2.trans f2, ?_, [.ret (.join obj msg) (.err e)], by rw [h3, f3], ?_, ?_, ?_⟩
    · intro j r
      rw [rooms_congr h1, rooms_congr f1]
      simp
    · intro e' h; cases h; rfl
    · intro e' h; simp at h
    · intro h; simp at h
  | none =>
    rw [he] at hc
    have hvc := verdict_congr (cfg := cfg) f3 f1 obj msg
    cases hv : verdict cfg s obj msg with
    | some e =>
      obtain ⟨l, h1, h2⟩ := finish_join_veto (m := m) (hvc.trans hv) hc
      refine ⟨h1.connected.trans f2, ?_, l, by rw [h1.log, f3], ?_, ?_, ?_⟩
      · intro j r
        rw [h1.rooms, rooms_congr f1]
        simp
      · intro e' h; simp at h
      · intro e' _ h
        cases h
        rw [hlk, rooms_congr f1] at h2
        exact h2
      · intro _ h; simp at h
    | none =>
      have hrange : obj < s.objs.length := by
        have h := (reach_ok hr).1 a (List.mem_of_getElem? ha)
        rw [hk] at h
        have h := h.1
        cases hx : s.objs[obj]? with
        | none => rw [hx] at h; simp at h
        | some o => exact (List.getElem?_eq_some_iff.mp hx).1
      obtain ⟨l, h1, h2⟩ := finish_join_ok (m := m) (s := resumed s i a) (by rw [f1]; exact hrange)
        (hvc.trans hv) hc
      refine ⟨h1.connected.trans f2, ?_, l, by rw [h1.log]; exact congrArg (· ++ l) f3, ?_, ?_, ?_⟩
      · intro j r
        rw [h1.rooms, rooms_addRoom _ _ _ (by rw [f1]; exact hrange), rooms_congr f1]
        simp
      · intro e' h; simp at h
      · intro e' _ h; simp at h
      · intro _ _
        rw [hlk, rooms_congr f1] at h2
        exact h2

/-- the Ask of that JoinRoom with its answer -/
def joinAsk : AskRec := ⟨b! "$9", .join 0 (joinMsg (b! "chat") (b! "r")), .table,
  some { wait := b! "$9" }, false⟩

example : ∃ (cfg : Cfg) (id : Bytes) (s s' : St) (a : AskRec) (msg m : Message) (obj : Nat),
    Reach cfg id s ∧ s.asks[1]? = some a ∧ a.cont = .join obj msg ∧ a.box = some m ∧
    m.err = none ∧ verdict cfg s obj msg = none ∧
    step cfg s (.resume 1) = some s' ∧ s'.closed = false :=
  ⟨clientCfg chatDecl noCb, [], after _ _ joinAnsOps, _, joinAsk, _, _, _,
    after_reach (by decide +kernel), by decide +kernel, rfl, rfl, rfl, by decide +kernel,
    after_step (by decide +kernel), by decide +kernel⟩

example : ∃ (cfg : Cfg) (id : Bytes) (s s' : St) (a : AskRec) (msg m : Message) (obj : Nat) (e : GoErr),
    Reach cfg id s ∧ s.asks[1]? = some a ∧ a.cont = .join obj msg ∧ a.box = some m ∧
    m.err = none ∧ verdict cfg s obj msg = some e ∧
    step cfg s (.resume 1) = some s' ∧ s'.closed = false :=
  ⟨clientCfg chatDecl refuseCb, [], after _ _ joinAnsOps, _, joinAsk, _, _, _, .text (b! "no"),
    after_reach (by decide +kernel), by decide +kernel, rfl, rfl, rfl, by decide +kernel,
    after_step (by decide +kernel), by decide +kernel⟩

/-- C17: whenever a connection is in a room, the local OnRoomJoin callback for that room ran
on that NSConn and returned nil. -/
theorem c17_accepted (hr : Reach cfg id s) {obj : Nat} {room : Bytes} (h : room ∈ s.rooms obj) :
    ∃ v msg hd, Obs.fired obj v msg hd none ∈ s.log ∧ msg.event = OnRoomJoin ∧ msg.room = room :=
  (reach_accepted hr).2 obj room h

example : ∃ (cfg : Cfg) (id : Bytes) (s : St), Reach cfg id s ∧ b! "r" ∈ s.rooms 0 :=
  ⟨clientCfg chatDecl noCb, [], after _ _ joinedOps, after_reach (by decide +kernel),
    by decide +kernel⟩

/-- C17, what the answer to a JoinRoom is. An Ask that was registered by its token gets only
a payload of the remote side with that token. Partial: an Ask made while the reader is
inside a handler is not registered, see `c17_refuted`. -/
theorem c17_remote_partial {i : Nat} {a : AskRec} {m : Message} (hr : Reach cfg id s)
    (ha : s.asks[i]? = some a) (hm : a.mode = .table) (hb : a.box = some m) :
    m.wait = a.tok ∧
      ∃ typ b, deserializeMessage cfg.known typ b cfg.allowNative cfg.onlyNative = m :=
  ((reach_all hr).2.box i a m ha hm hb).2


example : ∃ (cfg : Cfg) (id : Bytes) (s : St) (a : AskRec) (m : Message),
    Reach cfg id s ∧ s.asks[1]? = some a ∧ a.mode = .table ∧ a.box = some m :=
  ⟨clientCfg chatDecl noCb, [], after _ _ joinAnsOps, joinAsk, _, after_reach (by decide +kernel),
    by decide +kernel, rfl, rfl⟩

/-- the payloads that were read, by the reader or by an Ask -/
def payloads : List Op → List (MsgType × Bytes)
  | [] => []
  | .recv typ b :: t => (typ, b) :: payloads t
  | .steal _ typ b :: t => (typ, b) :: payloads t
  | _ :: t => payloads t

/-- a JoinRoom while the reader waits for the Connect to the namespace `b` -/
def stealOps : List Op :=
  chatOps ++ [.connect (b! "b") 8 false, .recv .text (b! ";b;;news;0;0;"),
    .join 0 (b! "r") 9 false, .steal 2 .text (b! ";chat;;hello;0;0;"), .resume 2]

/-- C17 fails: a JoinRoom returns the room although the remote side has not answered it. The
reader is held back in another handler, here by a Connect to the namespace `b`, and the
JoinRoom takes the next message of the connection, whatever it is, for the answer. -/
theorem c17_refuted : ∃ (cfg : Cfg) (ops : List Op) (s : St) (now : Int),
    runOps cfg (newConn cfg []) ops = some s ∧ Op.join 0 (b! "r") now false ∈ ops ∧
    (Cont.join 0 (joinMsg (b! "chat") (b! "r")), Result.room 0 (b! "r")) ∈ retOf s.log ∧
    b! "r" ∈ s.rooms 0 ∧
    ∀ p ∈ payloads ops, (deserializeMessage cfg.known p.1 p.2 cfg.allowNative cfg.onlyNative).wait ≠
      genWait cfg.isClient now := by
  refine ⟨clientCfg (chatDecl ++ [(b! "b", [OnAnyEvent])]) noCb, stealOps, after _ [] stealOps, 9,
    after_run (by decide +kernel), by simp [stealOps], ?_, ?_, ?_⟩
  all_goals decide +kernel

/-! ## C18 -/

/-- the message of a Leave call -/
def leaveMsg (ns room : Bytes) : Message := { ns := ns, room := room, event := OnRoomLeave }

/-- C18: leaving a room that is not joined returns ErrBadRoom and does nothing else. -/
theorem c18_not_joined {obj : Nat} {room : Bytes} {now : Int} {ex : Bool}
    (hj : room ∉ s.rooms obj) (hs : step cfg s (.leave obj room now ex) = some s') :
    s' = s.emit (.ret (.leave obj (leaveMsg (s.nsName obj) room)) (.err errBadRoom)) := by
  obtain ⟨he, _⟩ := step_exec hs
  simp only [exec] at he
  split at he
  · cases he
    unfold leaveRoom
    dsimp only
    rw [if_neg hj]; rfl
  · simp at he

example : ∃ (cfg : Cfg) (id : Bytes) (s s' : St), Reach cfg id s ∧ b! "r" ∉ s.rooms 0 ∧
    step cfg s (.leave 0 (b! "r") 9 false) = some s' :=
  ⟨clientCfg chatDecl noCb, [], after _ _ chatOps, _, after_reach (by decide +kernel),
    by decide +kernel, after_step (by decide +kernel)⟩

/-- C18, the call on a joined room changes no membership and runs no callback: it sends one
request and waits, or fails when the request cannot be written. -/
theorem c18_call {obj : Nat} {room : Bytes} {now : Int} (hn : cfg.onlyNative = false)
    (hl : s.namespace (s.nsName obj) = some obj)
    (hj : room ∈ s.rooms obj) (hs : step cfg s (.leave obj room now false) = some s')
    (hc : s'.closed = false) :
    s'.connected = s.connected ∧ s'.objs = s.objs ∧ ∃ l rs, s'.log = s.log ++ l ∧
      (rs = [] ∨ rs = [(.leave obj (leaveMsg (s.nsName obj) room), .err errWrite)]) ∧
      Adds cfg l [] [(false, wireOf { leaveMsg (s.nsName obj) room with
        wait := genWait cfg.isClient now })] rs [] := by
  obtain ⟨he, _⟩ := step_exec hs
  simp only [exec] at he
  split at he
  · cases he
    unfold leaveRoom at hc ⊢
    dsimp only at hc ⊢
    rw [if_pos hj] at hc ⊢
    obtain ⟨h1, h2, l, h3, h4, h5⟩ := startAsk_eff hn (by simp) hc
    obtain ⟨rs, h6, h7⟩ := h4 ⟨startAsk_was_open hn hc, fun h => h.1 rfl,
      Or.inr (Or.inr ⟨obj, hl, Or.inr (Or.inr (Or.inr hj))⟩)⟩
    exact ⟨h1, h2, l, rs, h3, h6, h7⟩
  · simp at he

/-- a client in the room `r` that asked to leave it and got the answer -/
def leaveOps : List Op := joinedOps ++ [.leave 0 (b! "r") 10 false]
def leaveAnsOps : List Op := leaveOps ++ [.recv .text (b! "$10;;;;;;")]

example : ∃ (cfg : Cfg) (id : Bytes) (s s' : St), Reach cfg id s ∧ cfg.onlyNative = false ∧
    s.namespace (s.nsName 0) = some 0 ∧ b! "r" ∈ s.rooms 0 ∧
    step cfg s (.leave 0 (b! "r") 10 false) = some s' ∧ s'.closed = false :=
  ⟨clientCfg chatDecl noCb, [], after _ _ joinedOps, _, after_reach (by decide +kernel),
    by decide +kernel, by decide +kernel, by decide +kernel, after_step (by decide +kernel),
    by decide +kernel⟩

/-- C18, the answer to a Leave call arrives. An error of the remote side is returned, no
callback runs and the room stays. Otherwise the room is left exactly when the local
OnRoomLeave returns nil, and then OnRoomLeft runs out of the room. -/
theorem c18_answer {i obj : Nat} {a : AskRec} {msg m : Message}
    (ha : s.asks[i]? = some a) (hk : a.cont = .leave obj msg) (hb : a.box = some m)
    (hs : step cfg s (.resume i) = some s') (hc : s'.closed = false) :
    s'.connected = s.connected ∧
    (∀ j r, r ∈ s'.rooms j ↔ r ∈ s.rooms j ∧
      ¬ (j = obj ∧ r = msg.room ∧ m.err = none ∧ verdict cfg s obj msg = none)) ∧
    ∃ l, s'.log = s.log ++ l ∧
      (∀ e, m.err = some e → l = [.ret (.leave obj msg) (.err e)]) ∧
      (∀ e, m.err = none → verdict cfg s obj msg = some e →
        Adds cfg l [⟨obj, msg, linked s obj, msg.room ∈ s.rooms obj⟩] []
          [(.leave obj msg, .err e)] []) ∧
      (m.err = none → verdict cfg s obj msg = none →
        Adds cfg l [⟨obj, msg, linked s obj, msg.room ∈ s.rooms obj⟩,
            ⟨obj, { msg with event := OnRoomLeft }, linked s obj, false⟩] []
          [(.leave obj msg, .ok)] []) := by
  obtain ⟨rfl, _⟩ := step_resume ha hb hs
  rw [hk] at hc ⊢
  obtain ⟨f1, f2, f3, f4, _⟩ := resumed_fields s i a
  have hlk : linked (resumed s i a) obj = linked s obj := by
    unfold linked St.namespace; rw [nsName_congr f1, f2]
  cases he : m.err with
  | some e =>
    rw [he] at hc
    obtain ⟨h1, h2, h3, _⟩ := finish_err (cfg := cfg) (resumed s i a) (.leave obj msg) m e (by simp)
    refine ⟨h2.trans f2, ?_, [.ret (.leave obj msg) (.err e)], by rw [h3, f3], ?_, ?_, ?_⟩
    · intro j r
      rw [rooms_congr h1, rooms_congr f1]
      simp
    · intro e' h; cases h; rfl
    · intro e' h; simp at h
    · intro h; simp at h
  | none =>
    rw [he] at hc
    have hvc := verdict_congr (cfg := cfg) f3 f1 obj msg
    cases hv : verdict cfg s obj msg with
    | some e =>
      obtain ⟨l, h1, h2⟩ := finish_leave_veto (m := m) (hvc.trans hv) hc
      refine ⟨h1.connected.trans f2, ?_, l, by rw [h1.log, f3], ?_, ?_, ?_⟩
      · intro j r
        rw [h1.rooms, rooms_congr f1]
        simp
      · intro e' h; simp at h
      · intro e' _ h
        cases h
        rw [hlk, rooms_congr f1] at h2
        exact h2
      · intro _ h; simp at h
    | none =>
      obtain ⟨l, h1, h2⟩ := finish_leave_ok (m := m) (s := resumed s i a) (hvc.trans hv) hc
      refine ⟨h1.connected.trans f2, ?_, l, by rw [h1.log]; exact congrArg (· ++ l) f3, ?_, ?_, ?_⟩
      · intro j r
        rw [h1.rooms, rooms_delRoom, rooms_congr f1]
        simp
      · intro e' h; simp at h
      · intro e' _ h; simp at h
      · intro _ _
        rw [hlk, rooms_congr f1] at h2
        exact h2

example : ∃ (cfg : Cfg) (id : Bytes) (s s' : St) (a : AskRec) (msg m : Message) (obj : Nat),
    Reach cfg id s ∧ s.asks[2]? = some a ∧ a.cont = .leave obj msg ∧ a.box = some m ∧
    m.err = none ∧ verdict cfg s obj msg = none ∧ msg.room ∈ s.rooms obj ∧
    step cfg s (.resume 2) = some s' ∧ s'.closed = false :=
  ⟨clientCfg chatDecl noCb, [], after _ _ leaveAnsOps, _,
    ⟨b! "$10", .leave 0 (leaveMsg (b! "chat") (b! "r")), .table, some { wait := b! "$10" }, false⟩,
    _, _, _, after_reach (by decide +kernel), by decide +kernel, rfl, rfl, rfl, by decide +kernel,
    by decide +kernel, after_step (by decide +kernel), by decide +kernel⟩

/-- the server vetoed the leave -/
example : ∃ (cfg : Cfg) (id : Bytes) (s s' : St) (a : AskRec) (msg m : Message) (obj : Nat) (e : GoErr),
    Reach cfg id s ∧ s.asks[2]? = some a ∧ a.cont = .leave obj msg ∧ a.box = some m ∧
    m.err = some e ∧ msg.room ∈ s.rooms obj ∧
    step cfg s (.resume 2) = some s' ∧ s'.closed = false :=
  ⟨clientCfg chatDecl noCb, [],
    after _ _ (leaveOps ++ [.recv .text (b! "$10;chat;r;_OnRoomLeave;1;0;no")]), _,
    ⟨b! "$10", .leave 0 (leaveMsg (b! "chat") (b! "r")), .table,
      some { wait := b! "$10", ns := b! "chat", room := b! "r", event := OnRoomLeave,
             isError := true, err := some (.text (b! "no")) }, false⟩,
    _, _, _, _, after_reach (by decide +kernel), by decide +kernel, rfl, rfl, rfl,
    by decide +kernel, after_step (by decide +kernel), by decide +kernel⟩

/-- C18, an incoming leave request on the server side: the room is left exactly when
OnRoomLeave returns nil; no other membership changes. Not joined: no callback, an empty
answer. Accepted: OnRoomLeave in the room, OnRoomLeft out of it, an empty answer. Vetoed:
OnRoomLeave only, the error is the answer. -/
theorem c18_incoming_server {msg : Message} {obj : Nat} (hr : Reach cfg id s)
    (hs : Handled cfg s msg s') (hev : msg.event = OnRoomLeave) (hw : Wanted msg)
    (hcl : cfg.isClient = false) (hn : s.namespace msg.ns = some obj) (hc : s'.closed = false) :
    s'.connected = s.connected ∧
    (∀ i r, r ∈ s'.rooms i ↔ r ∈ s.rooms i ∧
      ¬ (i = obj ∧ r = msg.room ∧ verdict cfg s obj msg = none)) ∧
    ∃ l, s'.log = s.log ++ l ∧
      (msg.room ∉ s.rooms obj → Adds cfg l [] [(false, genEmptyReplyToWait msg.wait)] [] []) ∧
      (msg.room ∈ s.rooms obj → verdict cfg s obj msg = none →
        Adds cfg l [⟨obj, msg, true, true⟩, ⟨obj, { msg with event := OnRoomLeft }, true, false⟩]
          [(false, genEmptyReplyToWait msg.wait)] [] []) ∧
      (∀ e, msg.room ∈ s.rooms obj → verdict cfg s obj msg = some e →
        Adds cfg l [⟨obj, msg, true, true⟩]
          [(msg.setBinary, wireOf { msg with err := some e })] [] []) := by
  obtain ⟨rfl, _, hdec⟩ := handled hr hs (by rw [hev]; decide) (by rw [hev]; decide)
  have hlk : linked { s with rd := .idle } obj = true := reach_linked hr hn
  rw [afterGate_leave (t := { s with rd := .idle }) hev hn] at hc ⊢
  by_cases hj : msg.room ∈ s.rooms obj
  · cases hv : verdict cfg s obj msg with
    | none =>
      obtain ⟨l, h1, h2⟩ := replyRoomLeave_accepted (s := { s with rd := .idle }) hw hj hcl hv hc
      rw [hlk] at h2
      refine ⟨h1.connected, ?_, l, h1.log, fun h => absurd hj h, fun _ _ => h2,
        fun _ _ h => by simp at h⟩
      intro i r
      rw [h1.rooms, rooms_delRoom]
      simp [St.rooms]
    | some e =>
      obtain ⟨l, h1, h2⟩ := replyRoomLeave_refused (s := { s with rd := .idle }) hw hj hcl hv
        (hdec.noExplicit hw.1) hn hc
      rw [hlk] at h2
      refine ⟨h1.connected, ?_, l, h1.log, fun h => absurd hj h, fun _ h => by simp at h, ?_⟩
      · intro i r
        rw [h1.rooms]
        simp [St.rooms]
      · rintro e' _ h
        cases h
        exact h2
  · obtain ⟨l, h1, h2⟩ := replyRoomLeave_notJoined (s := { s with rd := .idle }) hw hj hc
    refine ⟨h1.connected, ?_, l, h1.log, fun _ => h2, fun h => absurd h hj, fun _ h => absurd h hj⟩
    intro i r
    rw [h1.rooms]
    constructor
    · intro h
      refine ⟨h, ?_⟩
      rintro ⟨rfl, rfl, _⟩
      exact hj h
    · exact fun h => h.1

/-- the server-side connection is in the room `r` and gets a request to leave it -/
def joinedSrvOps : List Op := chatSrvOps ++ [.recv .text joinReq]

def leaveReq : Bytes := b! "$10;chat;r;_OnRoomLeave;0;0;"

def leaveReqMsg : Message :=
  { ns := b! "chat", room := b! "r", event := OnRoomLeave, wait := b! "$10" }

/-- refuses to leave -/
def stayCb : List Obs → Nat → Bytes → Message → List Act × Option GoErr :=
  fun _ _ _ msg => ([], if msg.event = OnRoomLeave ∨ msg.event = OnNamespaceDisconnect then
    some (.text (b! "no")) else none)

example : ∃ (cfg : Cfg) (id : Bytes) (s s' : St) (msg : Message) (obj : Nat),
    Reach cfg id s ∧ Handled cfg s msg s' ∧ msg.event = OnRoomLeave ∧ Wanted msg ∧
    cfg.isClient = false ∧ s.namespace msg.ns = some obj ∧ s'.closed = false ∧
    msg.room ∈ s.rooms obj ∧ verdict cfg s obj msg = none :=
  ⟨serverCfg chatDecl noCb, b! "1", _, _, leaveReqMsg, 0, after_reach (by decide +kernel),
    handled_of (ops := joinedSrvOps) (typ := .text) (b := leaveReq) (by decide +kernel)
      (by decide +kernel) (by decide +kernel), rfl, ⟨by decide, by decide⟩, rfl,
    by decide +kernel, by decide +kernel, by decide +kernel, by decide +kernel⟩

example : ∃ (cfg : Cfg) (id : Bytes) (s s' : St) (msg : Message) (obj : Nat) (e : GoErr),
    Reach cfg id s ∧ Handled cfg s msg s' ∧ msg.event = OnRoomLeave ∧ Wanted msg ∧
    cfg.isClient = false ∧ s.namespace msg.ns = some obj ∧ s'.closed = false ∧
    msg.room ∈ s.rooms obj ∧ verdict cfg s obj msg = some e :=
  ⟨serverCfg chatDecl stayCb, b! "1", _, _, leaveReqMsg, 0, .text (b! "no"),
    after_reach (by decide +kernel),
    handled_of (ops := joinedSrvOps) (typ := .text) (b := leaveReq) (by decide +kernel)
      (by decide +kernel) (by decide +kernel), rfl, ⟨by decide, by decide⟩, rfl,
    by decide +kernel, by decide +kernel, by decide +kernel, by decide +kernel⟩

/-- C18, an incoming leave request on the client side cannot be vetoed: whatever OnRoomLeave
returns, the room is left, OnRoomLeft runs out of the room and the answer is empty. -/
theorem c18_incoming_client {msg : Message} {obj : Nat} (hr : Reach cfg id s)
    (hs : Handled cfg s msg s') (hev : msg.event = OnRoomLeave) (hw : Wanted msg)
    (hcl : cfg.isClient = true) (hn : s.namespace msg.ns = some obj) (hc : s'.closed = false) :
    s'.connected = s.connected ∧
    (∀ i r, r ∈ s'.rooms i ↔ r ∈ s.rooms i ∧ ¬ (i = obj ∧ r = msg.room)) ∧
    ∃ l, s'.log = s.log ++ l ∧
      (msg.room ∉ s.rooms obj → Adds cfg l [] [(false, genEmptyReplyToWait msg.wait)] [] []) ∧
      (msg.room ∈ s.rooms obj →
        Adds cfg l [⟨obj, msg, true, true⟩, ⟨obj, { msg with event := OnRoomLeft }, true, false⟩]
          [(false, genEmptyReplyToWait msg.wait)] [] []) := by
  obtain ⟨rfl, _, hdec⟩ := handled hr hs (by rw [hev]; decide) (by rw [hev]; decide)
  have hlk : linked { s with rd := .idle } obj = true := reach_linked hr hn
  rw [afterGate_leave (t := { s with rd := .idle }) hev hn] at hc ⊢
  by_cases hj : msg.room ∈ s.rooms obj
  · obtain ⟨l, h1, h2⟩ := replyRoomLeave_client (s := { s with rd := .idle }) hw hj hcl hc
    rw [hlk] at h2
    refine ⟨h1.connected, ?_, l, h1.log, fun h => absurd hj h, fun _ => h2⟩
    intro i r
    rw [h1.rooms, rooms_delRoom]
    simp [St.rooms]
  · obtain ⟨l, h1, h2⟩ := replyRoomLeave_notJoined (s := { s with rd := .idle }) hw hj hc
    refine ⟨h1.connected, ?_, l, h1.log, fun _ => h2, fun h => absurd h hj⟩
    intro i r
    rw [h1.rooms]
    constructor
    · intro h
      refine ⟨h, ?_⟩
      rintro ⟨rfl, rfl⟩
      exact hj h
    · exact fun h => h.1

example : ∃ (cfg : Cfg) (id : Bytes) (s s' : St) (msg : Message) (obj : Nat) (e : GoErr),
    Reach cfg id s ∧ Handled cfg s msg s' ∧ msg.event = OnRoomLeave ∧ Wanted msg ∧
    cfg.isClient = true ∧ s.namespace msg.ns = some obj ∧ s'.closed = false ∧
    msg.room ∈ s.rooms obj ∧ verdict cfg s obj msg = some e :=
  ⟨clientCfg chatDecl stayCb, [], _, _, { leaveReqMsg with wait := b! "10" }, 0, .text (b! "no"),
    after_reach (by decide +kernel),
    handled_of (ops := joinedOps) (typ := .text) (b := b! "10;chat;r;_OnRoomLeave;0;0;")
      (by decide +kernel) (by decide +kernel) (by decide +kernel), rfl, ⟨by decide, by decide⟩, rfl,
    by decide +kernel, by decide +kernel, by decide +kernel, by decide +kernel⟩

end Neffos
