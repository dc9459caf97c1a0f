import Verif.Props.EmitMany
import Verif.Props.NoDeadlock
/-!
# C82: what becomes of the error that the callback of an emitted event returns
-/
set_option autoImplicit false
namespace Neffos
open Neffos.Spec

section one
variable {cfg : Cfg} {id : Bytes} {s s' : St}

/-- C82: an event that is handled is answered with exactly one message if its callback returned an error (or a
`Reply`) and this side may write to the room, and with none otherwise; whether it was asked or emitted, and whether it
is itself such an answer, does not matter. -/
theorem c82_answer {obj : Nat} {m : Message} (hr : Reach cfg id s) (hs : Handled cfg s m s') (hev : NotRequest m.event)
    (hn : s.namespace m.ns = some obj) (hc : s'.closed = false) :
    ∃ l ws, s'.log = s.log ++ l ∧
      Adds cfg l [⟨obj, { m with isLocal := false }, true, m.room ∈ s.rooms obj⟩] ws [] [] ∧
      (∀ e, verdict cfg s obj { m with isLocal := false } = some e → MayWrite cfg s m →
        ws = [(m.setBinary, wireOf { m with isLocal := false, err := some e })]) ∧
      (verdict cfg s obj { m with isLocal := false } = none ∨ ¬ MayWrite cfg s m → ws = []) := by
  obtain ⟨rfl, _, hdec⟩ := handled hr hs hev.1 hev.2.1
  have hlk : linked { s with rd := .idle } obj = true := reach_linked hr hn
  have heq : afterGate cfg { s with rd := .idle } m = handleEvent cfg { s with rd := .idle } obj m := by
    have hn' : ({ s with rd := .idle } : St).namespace m.ns = some obj := hn
    unfold afterGate; rw [hn']; dsimp only
    rw [if_neg hev.2.2.1, if_neg hev.2.2.2]
  rw [heq] at hc ⊢
  cases hv : verdict cfg s obj { m with isLocal := false } with
  | none =>
    obtain ⟨l, h1, h2⟩ := handleEvent_ok (s := { s with rd := .idle }) hv hc
    rw [hlk] at h2
    exact ⟨l, [], h1.log, h2, fun e he => (by cases he), fun _ => rfl⟩
  | some e =>
    have hx := handleEvent_err (s := { s with rd := .idle }) hv hc
    by_cases hm : MayWrite cfg s m
    · obtain ⟨l, h1, h2⟩ := hx.1 hm
      rw [hlk] at h2
      exact ⟨l, _, h1.log, h2, fun e' he _ => (by cases he; rfl), fun h => (by
        rcases h with h | h
        · cases h
        · exact absurd hm h)⟩
    · obtain ⟨l, h1, h2⟩ := hx.2 hm
      rw [hlk] at h2
      exact ⟨l, [], h1.log, h2, fun e' he h => absurd h hm, fun _ => rfl⟩

/-- a connection that is open, acknowledged, with an idle reader, connected to the namespace and not
about to connect to it -/
structure InPlay (s : St) (ns : Bytes) : Prop where
  isOpen : s.closed = false
  acked : s.acked = true
  rd : s.rd = .idle
  todo : s.todo = []
  ackAfter : s.ackAfter = false
  connected : InNs s ns
  calm : ¬ InProgress s ns

/-- the callback of the event of this namespace exists, always returns an error and does nothing else; the socket
takes everything -/
structure Objects (cfg : Cfg) (ns ev : Bytes) : Prop where
  has : ev ∈ cfg.events ns ∨ OnAnyEvent ∈ cfg.events ns
  quiet : ∀ log obj h msg, msg.ns = ns → msg.event = ev → (cfg.cb log obj h msg).1 = []
  objects : ∀ log obj h msg, msg.ns = ns → msg.event = ev → (cfg.cb log obj h msg).2 ≠ none
  takes : ∀ log bin b, cfg.sock log bin b = none

/-- a payload that is read as this event, without a room and not asked -/
structure Ball (ns ev : Bytes) (x : MsgType × Bytes) : Prop where
  ne : x.2 ≠ []
  reads : ∀ known, let m := deserializeMessage known x.1 x.2 false false
    m.wait = [] ∧ m.fromExplicit = [] ∧ m.ns = ns ∧ m.room = [] ∧ m.event = ev ∧ m.isInvalid = false

theorem plain_nil : PlainToken [] :=
  ⟨by simp, by decide, by simp⟩

theorem ball_wire {ns ev : Bytes} {m : Message} (ht : m.wait = []) (hn : m.isNative = false)
    (h1 : m.ns = ns) (h2 : m.room = []) (h3 : m.event = ev) (hns : SafeName ns) (hev : SafeName ev) :
    Ball ns ev (if m.setBinary then .binary else .text, wireOf m) := by
  refine ⟨?_, fun known => ?_⟩
  · obtain ⟨t, h⟩ := wire_calm ht hn
    show wireOf m ≠ []
    rw [h]; simp
  · obtain ⟨b, hb, g1, g2, g3, g4, _, g5, g6, _⟩ := c01_round_trip_result known (if m.setBinary then .binary else .text) false
      { m with fromExplicit := [] } (.inl hn) rfl (by show PlainToken m.wait; rw [ht]; exact plain_nil)
      (by show SafeName m.ns; rw [h1]; exact hns) (by show SafeName m.room; rw [h2]; exact safe_nil)
      (by show SafeName m.event; rw [h3]; exact hev)
    rw [serialize_wireOf] at hb
    cases hb
    exact ⟨g1.trans ht, g6, g2.trans h1, g3.trans h2, g4.trans h3, g5⟩

theorem pipe_one_sent (l : List Obs) (bin : Bool) (b : Bytes) :
    pipe (l ++ [.sent bin b true]) = pipe l ++ [(if bin then .binary else .text, b)] := by
  induction l with
  | nil => rfl
  | cons o l ih =>
    cases o with
    | sent x y z => cases z <;> simp [pipe, ih]
    | _ => simpa [pipe] using ih

theorem pipe_one_fired (l : List Obs) (obj : Nat) (v : View) (m : Message) (h : Option Bytes) (e : Option GoErr) :
    pipe (l ++ [.fired obj v m h e]) = pipe l := by
  induction l with
  | nil => rfl
  | cons o l ih =>
    cases o with
    | sent x y z => cases z <;> simp [pipe, ih]
    | _ => simpa [pipe] using ih

/-- one side reads the event, its callback objects, and the event goes back -/
theorem bounce {ns ev : Bytes} {x : MsgType × Bytes} (hn : cfg.allowNative = false) (hr : Reach cfg id s)
    (hp : InPlay s ns) (ho : Objects cfg ns ev) (hx : Ball ns ev x) (hns : SafeName ns) (hsv : SafeName ev)
    (hev : NotRequest ev) :
    ∃ s' y, step cfg s (.recv x.1 x.2) = some s' ∧ InPlay s' ns ∧ pipe s'.log = pipe s.log ++ [y] ∧ Ball ns ev y ∧
      (callsOf s'.log).length = (callsOf s.log).length + 1 := by
  have hon : cfg.onlyNative = false := by simp [Cfg.onlyNative, hn]
  obtain ⟨h1, h2, h3, h4, h5, h6⟩ := hx.reads cfg.known
  have hnat : (deserializeMessage cfg.known x.1 x.2 false false).isNative = false := by simp [deserializeMessage]
  generalize hM : deserializeMessage cfg.known x.1 x.2 false false = M at h1 h2 h3 h4 h5 h6 hnat
  obtain ⟨obj, hobj⟩ : ∃ obj, s.namespace ns = some obj := by
    cases hx : s.namespace ns with
    | none => exact absurd hx hp.connected
    | some obj => exact ⟨obj, rfl⟩
  have hname : s.nsName obj = ns := reach_nsName hr hobj
  have hgate : gateBlocks s M.ns = false := by
    rw [h3, gateBlocks_eq]
    cases hd : (gateOf s ns).done with
    | true => rfl
    | false =>
      have h := (reach_gateOk hr ns).2.1 hd
      have hz : ¬ 1 ≤ pend s ns := fun h => hp.calm (pend_pos.1 h)
      have : (gateOf s ns).count = 0 := by
        dsimp only at h
        omega
      simp [this]
  obtain ⟨h, hh⟩ : ∃ h, pick (cfg.events ns) ev = some h := by
    unfold pick
    split
    · exact ⟨_, rfl⟩
    · split
      · exact ⟨_, rfl⟩
      · rcases ho.has with k | k
        · contradiction
        · contradiction
  let m : Message := { M with isLocal := false }
  obtain ⟨e, he⟩ : ∃ e, (cfg.cb s.log obj h m).2 = some e := by
    cases hx : (cfg.cb s.log obj h m).2 with
    | none => exact absurd hx (ho.objects _ _ _ _ h3 h5)
    | some e => exact ⟨e, rfl⟩
  have hq := ho.quiet s.log obj h m h3 h5
  let t : St := s.emit (.fired obj (s.view obj m) m (some h) (some e))
  have hfire : fire cfg s obj m = (t, some e) := by
    unfold fire
    rw [hname, show m.event = ev from h5]
    dsimp only
    rw [hh]
    dsimp only
    rw [hq, he]
    rfl
  have hmay : MayWrite cfg t { m with err := some e } :=
    ⟨hp.isOpen, fun k => k.1 h2, .inr (.inr ⟨obj, by rw [show ({ m with err := some e } : Message).ns = ns from h3]; exact hobj, .inl h4⟩)⟩
  have hwr : (write cfg t { m with err := some e }).1 =
      (t.markReady cfg).emit (.sent m.setBinary (wireOf { m with err := some e }) true) := by
    rw [write_eq, if_pos hmay, rawWrite_accept (ho.takes _ _ _)]
  have hrecv : recv cfg s x.1 x.2 = (t.markReady cfg).emit (.sent m.setBinary (wireOf { m with err := some e }) true) := by
    unfold recv
    rw [if_neg hx.ne, if_pos hp.acked]
    unfold handlePayload
    rw [hn, hon, hM]
    unfold handleMessage
    rw [if_neg (by simp [h6]), if_neg (by simp [hnat]), if_neg (by simp [Message.isWait, h1])]
    unfold dispatch
    rw [if_neg (by rw [h5]; exact hev.1), if_neg (by rw [h5]; exact hev.2.1), if_neg (by simp [hgate])]
    unfold afterGate
    rw [show s.namespace M.ns = some obj from (by rw [h3]; exact hobj)]
    dsimp only
    rw [if_neg (by rw [h5]; exact hev.2.2.1), if_neg (by rw [h5]; exact hev.2.2.2)]
    unfold handleEvent
    dsimp only
    show (match fire cfg s obj m with
      | (s, some e) => (write cfg s { m with err := some e }).1
      | (s, none) => s) = _
    rw [hfire]
    dsimp only
    exact hwr
  have hmr : ∀ (u : St), u = (t.markReady cfg).emit (.sent m.setBinary (wireOf { m with err := some e }) true) →
      u.closed = s.closed ∧ u.acked = s.acked ∧ u.rd = s.rd ∧ u.todo = s.todo ∧ u.ackAfter = s.ackAfter ∧
        u.connected = s.connected ∧ u.asks = s.asks ∧ u.hung = s.hung ∧
        u.log = s.log ++ [.fired obj (s.view obj m) m (some h) (some e)] ++ [.sent m.setBinary (wireOf { m with err := some e }) true] := by
    rintro u rfl
    rw [markReady_eq]
    exact ⟨rfl, rfl, rfl, rfl, rfl, rfl, rfl, rfl, rfl⟩
  obtain ⟨k1, k2, k3, k4, k5, k6, k7, k8, k9⟩ := hmr _ hrecv
  refine ⟨recv cfg s x.1 x.2, (if m.setBinary then .binary else .text, wireOf { m with err := some e }), ?_, ?_, ?_, ?_, ?_⟩
  · exact step_of_exec (by simp [exec, hp.rd, hp.todo, hp.ackAfter]) (by rw [k8]; exact reach_hung hr)
  · refine ⟨k1.trans hp.isOpen, k2.trans hp.acked, k3.trans hp.rd, k4.trans hp.todo, k5.trans hp.ackAfter, ?_, ?_⟩
    · unfold InNs St.namespace
      rw [k6]; exact hp.connected
    · unfold InProgress
      rw [k7]; exact hp.calm
  · rw [k9, pipe_one_sent, pipe_one_fired]
  · exact ball_wire (m := { m with err := some e }) h1 hnat h3 h4 h5 hns hsv
  · rw [k9, callsOf_append, callsOf_append]
    simp [callsOf]

end one

variable {cc sc : Cfg} {idc ids : Bytes} {s s' : Sess}

/-- the server reads and the client reads, `n` times -/
def rounds : Nat → List SessOp
  | 0 => []
  | n + 1 => .up :: .down :: rounds n

/-- C82: an error is answered with an error without end. When the callbacks of both sides return errors for an
event, one emitted event goes back and forth for ever: however often the two sides have read it, it is on its way
again, and each time both callbacks ran. -/
theorem c82_endless {ns ev : Bytes} {m : Message} (n : Nat) (hnc : cc.allowNative = false) (hns : sc.allowNative = false)
    (hrc : Reach cc idc s.c) (hrd : Reach sc ids s.d) (hc : InPlay s.c ns) (hd : InPlay s.d ns)
    (hoc : Objects cc ns ev) (hos : Objects sc ns ev) (h1 : SafeName ns) (h2 : SafeName ev) (hev : NotRequest ev)
    (hu : s.up = (pipe s.c.log).length) (hw : s.down = (pipe s.d.log).length)
    (hm : AppMsg m) (hmx : m.fromExplicit = []) (hmn : m.ns = ns) (hmr : m.room = []) (hme : m.event = ev) :
    ∃ s', srun cc sc s (.client (.write m) :: rounds n) = some s' ∧
      (callsOf s'.c.log).length = (callsOf s.c.log).length + n ∧
      (callsOf s'.d.log).length = (callsOf s.d.log).length + n ∧ s'.up < (pipe s'.c.log).length := by
  have key : ∀ (n : Nat) (s : Sess) (x : MsgType × Bytes), Reach cc idc s.c → Reach sc ids s.d → InPlay s.c ns → InPlay s.d ns →
      (pipe s.c.log)[s.up]? = some x → s.up + 1 = (pipe s.c.log).length → s.down = (pipe s.d.log).length → Ball ns ev x →
      ∃ s', srun cc sc s (rounds n) = some s' ∧ (callsOf s'.c.log).length = (callsOf s.c.log).length + n ∧
        (callsOf s'.d.log).length = (callsOf s.d.log).length + n ∧ s'.up < (pipe s'.c.log).length := by
    intro n
    induction n with
    | zero => exact fun s x _ _ _ _ _ hl _ _ => ⟨s, rfl, rfl, rfl, by omega⟩
    | succ n ih =>
      intro s x hrc hrd hc hd hx hl hw hb
      obtain ⟨d', y, b1, b2, b3, b4, b5⟩ := bounce hns hrd hd hos hb h1 h2 hev
      obtain ⟨c', z, a1, a2, a3, a4, a5⟩ := bounce hnc hrc hc hoc b4 h1 h2 hev
      have e1 : sstep cc sc s .up = some { s with d := d', up := s.up + 1 } := by
        obtain ⟨t, b⟩ := x
        simp only [sstep, hx, b1, Option.map_some]
      have hy : (pipe d'.log)[s.down]? = some y := by
        rw [b3, hw]; simp
      have e2 : sstep cc sc { s with d := d', up := s.up + 1 } .down = some ⟨c', d', s.up + 1, s.down + 1⟩ := by
        obtain ⟨t, b⟩ := y
        simp only [sstep, hy, a1, Option.map_some]
      obtain ⟨s', k1, k2, k3, k4⟩ := ih ⟨c', d', s.up + 1, s.down + 1⟩ z (.step hrc a1) (.step hrd b1) a2 b2
        (by show (pipe c'.log)[s.up + 1]? = some z; rw [a3, hl]; simp)
        (by show s.up + 1 + 1 = (pipe c'.log).length; rw [a3]; simp; omega)
        (by show s.down + 1 = (pipe d'.log).length; rw [b3]; simp; omega) a4
      refine ⟨s', ?_, ?_, ?_, k4⟩
      · simp only [rounds, srun, e1, e2]; exact k1
      · rw [k2]; show (callsOf c'.log).length + n = _; omega
      · rw [k3]; show (callsOf d'.log).length + n = _; omega
  have hon : cc.onlyNative = false := by simp [Cfg.onlyNative, hnc]
  obtain ⟨obj, hobj⟩ : ∃ obj, s.c.namespace ns = some obj := by
    cases hx : s.c.namespace ns with
    | none => exact absurd hx hc.connected
    | some obj => exact ⟨obj, rfl⟩
  have hmay : MayWrite cc s.c m :=
    ⟨hc.isOpen, fun k => k.1 hmx, .inr (.inr ⟨obj, by rw [hmn]; exact hobj, .inl hmr⟩)⟩
  have hwr : (write cc s.c m).1 = (s.c.markReady cc).emit (.sent m.setBinary (wireOf m) true) := by
    rw [write_eq, if_pos hmay, rawWrite_accept (hoc.takes _ _ _)]
  have hst : step cc s.c (.write m) = some (write cc s.c m).1 :=
    step_of_exec rfl (by rw [hung_write]; exact reach_hung hrc)
  have e0 : sstep cc sc s (.client (.write m)) = some { s with c := (write cc s.c m).1 } := by
    simp only [sstep, Op.reads, Bool.false_eq_true, if_false, hst, Option.map_some]
  have hf : InPlay (write cc s.c m).1 ns ∧ (write cc s.c m).1.log = s.c.log ++ [.sent m.setBinary (wireOf m) true] := by
    rw [hwr, markReady_eq]
    exact ⟨⟨hc.isOpen, hc.acked, hc.rd, hc.todo, hc.ackAfter, hc.connected, hc.calm⟩, rfl⟩
  obtain ⟨s', k1, k2, k3, k4⟩ := key n { s with c := (write cc s.c m).1 }
    (if m.setBinary then .binary else .text, wireOf m) (.step hrc hst) hrd hf.1 hd
    (by show (pipe (write cc s.c m).1.log)[s.up]? = _; rw [hf.2, pipe_one_sent, hu]; simp)
    (by show s.up + 1 = (pipe (write cc s.c m).1.log).length; rw [hf.2, pipe_one_sent, hu]; simp) hw
    (ball_wire hm.1 hm.2 hmn hmr hme h1 h2)
  refine ⟨s', ?_, ?_, k3, k4⟩
  · simp only [srun, e0]; exact k1
  · rw [k2]
    show (callsOf (write cc s.c m).1.log).length + n = _
    rw [hf.2, callsOf_append]; simp [callsOf]

/-! ## Concrete cases -/

/-- a callback that objects to `hi` -/
def noHi : List Obs → Nat → Bytes → Message → List Act × Option GoErr :=
  fun _ _ _ m => ([], if m.event = b! "hi" then some (.text (b! "no")) else none)

/-- a callback that objects to `hi` unless the message tells of an error itself -/
def noHiOnce : List Obs → Nat → Bytes → Message → List Act × Option GoErr :=
  fun _ _ _ m => ([], if m.event = b! "hi" ∧ m.err = none then some (.text (b! "no")) else none)

def hiCli : Cfg := clientCfg busyDecl noHi
def hiSrv : Cfg := serverCfg busyDecl noHi

def inPlay (s : St) (ns : Bytes) : Bool :=
  !s.closed && s.acked && s.rd == .idle && s.todo.isEmpty && !s.ackAfter && (s.namespace ns).isSome && pend s ns == 0

theorem inPlay_of {s : St} {ns : Bytes} (h : inPlay s ns = true) : InPlay s ns := by
  simp only [inPlay, Bool.and_eq_true, Bool.not_eq_true', beq_iff_eq] at h
  obtain ⟨⟨⟨⟨⟨⟨h1, h2⟩, h3⟩, h4⟩, h5⟩, h6⟩, h7⟩ := h
  refine ⟨h1, h2, h3, (by simpa using h4), h5, ?_, fun hi => ?_⟩
  · intro hx; rw [hx] at h6; cases h6
  · have := pend_pos.2 hi; omega

theorem noHi_objects : Objects hiCli (b! "chat") (b! "hi") ∧ Objects hiSrv (b! "chat") (b! "hi") := by
  constructor <;>
  exact ⟨.inr (by decide +kernel), fun _ _ _ _ _ _ => rfl, fun _ _ _ m _ h => (by simp [hiCli, hiSrv, clientCfg, serverCfg, noHi, h]),
    fun _ _ _ => rfl⟩

/-- both sides are connected to `chat`, and everything written was read -/
def hiUp : Sess :=
  { c := after hiCli [] chatOps, d := after hiSrv (b! "1") chatSrvOps, up := 1, down := 2 }

/-- the hypotheses of `c82_endless` hold, for every number of rounds -/
example (n : Nat) : ∃ s', srun hiCli hiSrv hiUp (.client (.write hiMsg) :: rounds n) = some s' ∧
    (callsOf s'.c.log).length = (callsOf hiUp.c.log).length + n ∧
    (callsOf s'.d.log).length = (callsOf hiUp.d.log).length + n ∧ s'.up < (pipe s'.c.log).length :=
  c82_endless n rfl rfl (after_reach (ops := chatOps) (by decide +kernel)) (after_reach (ops := chatSrvOps) (by decide +kernel))
    (inPlay_of (by decide +kernel)) (inPlay_of (by decide +kernel)) noHi_objects.1 noHi_objects.2
    (oneOk_safe (by decide +kernel)) (oneOk_safe (by decide +kernel)) (by unfold NotRequest; decide +kernel)
    (by decide +kernel) (by decide +kernel) ⟨rfl, rfl⟩ rfl rfl rfl rfl

/-- what the first three rounds show: the error comes and goes -/
example : (srun hiCli hiSrv hiUp (.client (.write hiMsg) :: rounds 3)).map (fun s =>
      ((callsOf (s.c.log.drop hiUp.c.log.length)).map fun c => (c.msg.event, c.msg.err),
        (callsOf (s.d.log.drop hiUp.d.log.length)).map fun c => (c.msg.event, c.msg.err))) =
    some ([(b! "hi", some (.text (b! "no"))), (b! "hi", some (.text (b! "no"))), (b! "hi", some (.text (b! "no")))],
      [(b! "hi", none), (b! "hi", some (.text (b! "no"))), (b! "hi", some (.text (b! "no")))]) := by
  decide +kernel

/-- a side whose callback accepts errors ends it -/
example : let cc := clientCfg busyDecl noHiOnce
    (srun cc hiSrv { hiUp with c := after cc [] chatOps } (.client (.write hiMsg) :: rounds 1)).map
      (fun s => (s.up == (pipe s.c.log).length, s.down == (pipe s.d.log).length)) = some (true, true) := by
  decide +kernel

/-- the hypotheses of `c82_answer` hold: the server handles `hi`, which was not asked, and objects -/
example : let p := (pipe (stepped hiCli hiSrv hiUp (.client (.write hiMsg))).c.log)[1]?.getD (.text, [])
    let m := deserializeMessage hiSrv.known p.1 p.2 false false
    Reach hiSrv (b! "1") hiUp.d ∧ Handled hiSrv hiUp.d m (after hiSrv (b! "1") (chatSrvOps ++ [.recv p.1 p.2])) ∧
    NotRequest m.event ∧ hiUp.d.namespace m.ns = some 0 ∧
    (after hiSrv (b! "1") (chatSrvOps ++ [.recv p.1 p.2])).closed = false ∧ m.wait = [] ∧
    verdict hiSrv hiUp.d 0 { m with isLocal := false } = some (.text (b! "no")) := by
  refine ⟨after_reach (ops := chatSrvOps) (by decide +kernel), handled_of (ops := chatSrvOps) (cfg := hiSrv) (id := b! "1") (by decide +kernel) (by decide +kernel) (by decide +kernel), by unfold NotRequest; decide +kernel,
    by decide +kernel, by decide +kernel, by decide +kernel, by decide +kernel⟩

end Neffos
