import Verif.Proofs.ConnFinish
import Verif.Proofs.ConnRun
/-!
# C61: where an incoming answer goes

C28 and C27 follow the goroutines of Asks one instruction at a time (`Model/AskRace.lean`). Here
is what the reader of a connection does with a payload that carries a token.
-/
set_option autoImplicit false
namespace Neffos
open Spec

variable {cfg : Cfg} {id : Bytes} {s s' : St} {typ : MsgType} {b : Bytes} {msg : Message}

namespace Spec

/-- The reader of an acknowledged connection reads `b`, which decodes to a well-formed message
with a token of this side's Asks: one that starts with `#`, that starts with `$` on a client, or
that starts with neither. -/
structure Answering (cfg : Cfg) (s : St) (typ : MsgType) (b : Bytes) (msg : Message) : Prop where
  nonempty : b ≠ []
  acked : s.acked = true
  decodes : deserializeMessage cfg.known typ b cfg.allowNative cfg.onlyNative = msg
  valid : msg.isInvalid = false
  notNative : cfg.onlyNative = false
  token : ∃ c t, msg.wait = c :: t ∧ (c = 36 → cfg.isClient = true)

/-- a StackExchange forwarded it to a server that has one -/
def FromExchange (cfg : Cfg) (msg : Message) : Prop :=
  cfg.isClient = false ∧ cfg.usesExchange = true ∧ msg.fromStackExchange = true

/-- a `Server.Ask` waits for it -/
def ForServer (cfg : Cfg) (s : St) (msg : Message) : Prop :=
  cfg.isClient = false ∧ msg.wait ∈ s.srvWaiting

/-- the reader is blocked while it handles a payload that is not of the queue: at the connect
gate or at the full channel of an Ask -/
def InHandler (s : St) : Prop :=
  ((∃ m, s.rd = .gate m) ∨ ∃ i m, s.rd = .send i m) ∧ s.ackAfter = false

end Spec

theorem Spec.Answering.isWait (h : Answering cfg s typ b msg) : msg.isWait cfg.isClient = true := by
  obtain ⟨c, t, h1, h2⟩ := h.token
  unfold Message.isWait
  rw [h1]
  dsimp only
  split
  · rfl
  · split
    · rename_i hc; exact h2 hc
    · rfl

/-- the first part of `handleMessage` for a message with a token -/
theorem answering_recv (h : Answering cfg s typ b msg) (hs : step cfg s (.recv typ b) = some s') :
    s' = (if (!cfg.isClient && msg.fromStackExchange && cfg.usesExchange) = true then s.emit (.notifyAsk msg)
      else if (!cfg.isClient && decide (msg.wait ∈ s.srvWaiting)) = true then s.emit (.toServerAsk msg)
      else match mapGet s.waiting msg.wait with
        | some i => deliver s i msg
        | none => dispatch cfg s msg) := by
  obtain ⟨he, _⟩ := step_exec hs
  simp only [exec] at he
  split at he
  · cases he
    unfold recv handlePayload
    rw [if_neg h.nonempty, if_pos h.acked, h.decodes]
    unfold handleMessage
    rw [if_neg (by simp [h.valid]), if_neg (by simp [h.notNative]), if_pos h.isWait]
    rfl
  · cases he

/-- C61: a message forwarded by the StackExchange is handed back to it, and that is all that
happens. -/
theorem c61_exchange (h : Answering cfg s typ b msg) (hx : FromExchange cfg msg)
    (hs : step cfg s (.recv typ b) = some s') :
    s' = { s with log := s.log ++ [.notifyAsk msg] } := by
  rw [answering_recv h hs, if_pos (by simp [hx.1, hx.2.1, hx.2.2])]
  rfl

/-- C61: otherwise the answer to a `Server.Ask` is handed to it, and that is all that happens,
even if an Ask of the connection has the same token. -/
theorem c61_server (h : Answering cfg s typ b msg) (hx : ¬ FromExchange cfg msg) (hw : ForServer cfg s msg)
    (hs : step cfg s (.recv typ b) = some s') :
    s' = { s with log := s.log ++ [.toServerAsk msg] } := by
  rw [answering_recv h hs, if_neg, if_pos (by simp [hw.1, hw.2])]
  · rfl
  · intro hy
    simp only [Bool.and_eq_true, Bool.not_eq_true'] at hy
    exact hx ⟨hy.1.1, hy.2, hy.1.2⟩

theorem answering_own {i : Nat} (h : Answering cfg s typ b msg) (hx : ¬ FromExchange cfg msg)
    (hw : ¬ ForServer cfg s msg) (ht : mapGet s.waiting msg.wait = some i)
    (hs : step cfg s (.recv typ b) = some s') : s' = deliver s i msg := by
  rw [answering_recv h hs, if_neg, if_neg, ht]
  · intro hy
    simp only [Bool.and_eq_true, Bool.not_eq_true', decide_eq_true_eq] at hy
    exact hw hy
  · intro hy
    simp only [Bool.and_eq_true, Bool.not_eq_true'] at hy
    exact hx ⟨hy.1.1, hy.2, hy.1.2⟩

/-- C61: otherwise, if an Ask of the connection waits under this token, it is the Ask that was
made with this token. The first answer is left in its channel; with an answer already there, the
reader blocks with the new one and the channel keeps the old one. Nothing else happens. -/
theorem c61_own {i : Nat} (hr : Reach cfg id s) (h : Answering cfg s typ b msg)
    (hx : ¬ FromExchange cfg msg) (hw : ¬ ForServer cfg s msg)
    (ht : mapGet s.waiting msg.wait = some i) (hs : step cfg s (.recv typ b) = some s') :
    ∃ a, s.asks[i]? = some a ∧ a.tok = msg.wait ∧
      (a.box = none → s' = { s with asks := s.asks.set i { a with box := some msg } }) ∧
      (∀ m, a.box = some m → s' = { s with rd := .send i msg }) := by
  obtain ⟨a, h1, h2, _⟩ := (reach_all hr).2.table _ _ ht
  refine ⟨a, h1, h2, ?_, ?_⟩
  · intro hb
    rw [answering_own h hx hw ht hs]
    unfold deliver
    rw [h1]; dsimp only; rw [hb]
  · intro m hb
    rw [answering_own h hx hw ht hs]
    unfold deliver
    rw [h1]; dsimp only; rw [hb]

/-- C61: a token that nobody waits for does not matter: the message is handled like any request
or event (`Incoming` is the hypothesis of C15, C17 to C21 and C32). -/
theorem c61_unclaimed (h : Answering cfg s typ b msg) (hx : ¬ FromExchange cfg msg)
    (hw : ¬ ForServer cfg s msg) (ht : mapGet s.waiting msg.wait = none) : Incoming cfg s typ b msg := by
  refine ⟨h.nonempty, h.acked, h.decodes, h.valid, h.notNative, ?_, ?_, .inl ht⟩
  · cases hc : cfg.isClient with
    | true => exact .inl rfl
    | false =>
      cases hf : msg.fromStackExchange with
      | false => exact .inr (.inl rfl)
      | true =>
        cases hu : cfg.usesExchange with
        | false => exact .inr (.inr (.inl rfl))
        | true => exact absurd ⟨hc, hu, hf⟩ hx
  · cases hc : cfg.isClient with
    | true => exact .inl rfl
    | false => exact .inr (.inl fun hm => hw ⟨hc, hm⟩)

/-- C61: a reader that is blocked with a second answer reads nothing and handles nothing until
the Ask takes the first. -/
theorem c61_blocked {i : Nat} (hb : s.rd = .send i msg) :
    (∀ typ b, step cfg s (.recv typ b) = none) ∧ (∀ e, step cfg s (.readErr e) = none) ∧
      step cfg s .wake = none ∧ step cfg s .contReader = none := by
  refine ⟨fun _ _ => ?_, fun _ => ?_, ?_, ?_⟩ <;>
    simp [step, exec, wakeReader, contReader, hb]

/-- C61: an Ask with an answer in its channel returns exactly that answer, with the error that the
answer carries, and is no longer registered and does not return again; a reader that is blocked on this channel goes on. -/
theorem c61_returns {i : Nat} {a : AskRec} {m : Message} (ha : s.asks[i]? = some a) (hc : a.cont = .user)
    (ht : a.mode = .table) (hb : a.box = some m) (hs : step cfg s (.resume i) = some s') :
    s'.log = s.log ++ [.ret .user (.answer m m.err)] ∧ mapGet s'.waiting a.tok = none ∧
      (∀ tok, tok ≠ a.tok → mapGet s'.waiting tok = mapGet s.waiting tok) ∧
      s'.rd = (match s.rd with
        | .send j m' => if j = i then .idle else .send j m'
        | r => r) ∧
      step cfg s' (.resume i) = none := by
  obtain ⟨rfl, _⟩ := step_resume ha hb hs
  rw [hc]
  have e : finish cfg (resumed s i a) .user m m.err = (resumed s i a).emit (.ret .user (.answer m m.err)) := rfl
  rw [e]
  refine ⟨?_, ?_, ?_, ?_, ?_⟩
  · show (resumed s i a).log ++ _ = _
    rw [(resumed_fields s i a).2.2.1]
  · show mapGet (resumed s i a).waiting a.tok = none
    unfold resumed forget
    rw [if_pos ht]
    simp [mapGet_mapDel]
  · intro tok hne
    show mapGet (resumed s i a).waiting tok = _
    unfold resumed forget
    rw [if_pos ht]
    show mapGet (mapDel (takeAnswer s i a).waiting a.tok) tok = _
    rw [mapGet_mapDel, if_neg hne]
    unfold takeAnswer
    split <;> (try split) <;> rfl
  · show (resumed s i a).rd = _
    unfold resumed forget
    rw [if_pos ht]
    show (takeAnswer s i a).rd = _
    unfold takeAnswer
    cases hr : s.rd with
    | send j m' =>
      dsimp only
      by_cases hj : j = i
      · rw [if_pos hj, if_pos hj]
      · rw [if_neg hj, if_neg hj]
    | _ => rfl
  · have hd : ∃ x, (resumed s i a).asks[i]? = some x ∧ x.done = true := by
      have hi : i < s.asks.length := (List.getElem?_eq_some_iff.mp ha).1
      unfold resumed forget
      rw [if_pos ht]
      unfold endAsk takeAnswer
      split
      · split <;> exact ⟨_, by simp [hi]; rfl, rfl⟩
      · exact ⟨_, by simp [hi]; rfl, rfl⟩
    obtain ⟨x, h1, h2⟩ := hd
    have : resume cfg ((resumed s i a).emit (.ret .user (.answer m m.err))) i = none := by
      unfold resume
      show (match (resumed s i a).asks[i]? with
        | none => none
        | some a => _) = _
      rw [h1]
      dsimp only
      rw [if_pos h2]
    simp only [step, exec, this]

/-- C61: an Ask that was sent is registered under its token, unless the reader is blocked while it
handles a payload: then it is not registered and its own goroutine waits for the next payload,
whatever that is. -/
theorem c61_ask {now : Int} (hn : cfg.onlyNative = false)
    (hs : step cfg s (.ask msg now false) = some s') (ho : s'.closed = false)
    (hw : retOf s'.log = retOf s.log) :
    ∃ a, s'.asks = s.asks ++ [a] ∧ a.tok = genWait cfg.isClient now ∧ a.cont = .user ∧ a.box = none ∧
      a.done = false ∧
      (InHandler s → a.mode = .reading ∧ s'.waiting = s.waiting) ∧
      (¬ InHandler s → a.mode = .table ∧ mapGet s'.waiting a.tok = some s.asks.length ∧
        ∀ tok, tok ≠ a.tok → mapGet s'.waiting tok = mapGet s.waiting tok) := by
  have hin : insideHandler s = true ↔ InHandler s := by
    unfold insideHandler InHandler
    cases s.rd <;> simp
  obtain ⟨he, _⟩ := step_exec hs
  simp only [exec, Option.some.injEq] at he
  subst he
  unfold startAsk at ho hw ⊢
  rw [if_neg (by simp [hn])] at ho hw ⊢
  by_cases hc : s.closed = true
  · rw [if_pos hc] at hw
    simp only [finish, St.emit, retOf_append, retOf] at hw
    simp at hw
  rw [if_neg hc, if_neg (by simp)] at ho hw ⊢
  dsimp only at ho hw ⊢
  cases hwr : write cfg (newAsk s (genWait cfg.isClient now) .user)
      { msg with wait := genWait cfg.isClient now } with
  | mk t ok =>
    rw [hwr] at ho hw
    have key : t.closed = false → ∃ l r, AllSent l ∧
        t = { newAsk s (genWait cfg.isClient now) .user with ready := r, log := s.log ++ l } := by
      intro hcl
      have e := write_open (cfg := cfg) (s := newAsk s (genWait cfg.isClient now) .user)
        (msg := { msg with wait := genWait cfg.isClient now }) (by rw [hwr]; exact hcl)
      rw [hwr] at e
      dsimp only at e
      refine ⟨writeLog cfg (newAsk s (genWait cfg.isClient now) .user)
        { msg with wait := genWait cfg.isClient now },
        (St.markReady cfg (newAsk s (genWait cfg.isClient now) .user)).ready, writeLog_sent _ _, ?_⟩
      rw [e]
      have : (newAsk s (genWait cfg.isClient now) .user).log = s.log := by
        unfold newAsk; split <;> rfl
      rw [this]
    cases ok with
    | false =>
      have hcl : t.closed = false := ho
      obtain ⟨l, r, hl, rfl⟩ := key hcl
      simp only [finish, St.emit, endAsk, retOf_append, retOf] at hw
      rw [hl.projections.2.1] at hw
      simp at hw
    | true =>
      obtain ⟨l, r, hl, rfl⟩ := key ho
      dsimp only
      unfold newAsk
      by_cases hi : insideHandler s = true
      · rw [if_pos hi]
        exact ⟨_, rfl, rfl, rfl, rfl, rfl, fun _ => ⟨rfl, rfl⟩, fun hx => absurd (hin.mp hi) hx⟩
      · rw [if_neg hi]
        refine ⟨_, rfl, rfl, rfl, rfl, rfl, fun hx => absurd (hin.mpr hx) hi, fun _ => ⟨rfl, ?_, ?_⟩⟩
        · simp [mapGet_mapSet]
        · intro tok hne
          simp only at hne
          simp [mapGet_mapSet, hne]

/-- C61: what the goroutine of such an Ask reads goes to that Ask and to nobody else: no callback
runs, no other Ask and no table changes. -/
theorem c61_next {i : Nat} {a : AskRec} (ha : s.asks[i]? = some a) (hm : a.mode = .reading)
    (hs : step cfg s (.steal i typ b) = some s') :
    ∃ m, m = deserializeMessage cfg.known typ b cfg.allowNative cfg.onlyNative ∧
      s' = { s with asks := s.asks.set i { a with mode := .read, box := some m } } := by
  refine ⟨_, rfl, ?_⟩
  obtain ⟨he, _⟩ := step_exec hs
  simp only [exec, steal, ha, hm, if_true, Option.some.injEq] at he
  exact he.symm

/-- A client in `chat` asks; two answers with its token arrive: the first is in the channel, the
reader is blocked with the second. The Ask returns the first, the reader goes on. -/
example : let cfg := clientCfg chatDecl noCb
    let ops := chatOps ++ [.ask { ns := b! "chat", event := b! "q" } 9 false,
      .recv .text (b! "$9;chat;;q;0;0;one"), .recv .text (b! "$9;chat;;q;0;0;two")]
    let s := after cfg [] ops
    (runOps cfg (newConn cfg []) ops).isSome = true ∧
      (match s.rd with | .send 1 m => decide (m.body = b! "two") | _ => false) = true ∧
      s.asks[1]?.bind (fun a => a.box.map (·.body)) = some (b! "one") ∧
      (runOps cfg s [.resume 1]).map (fun t => (t.rd, (retOf t.log).length)) = some (.idle, 2) := by
  decide +kernel

/-- a server-side connection: an answer for a `Server.Ask`, one that nobody waits for, and one
that a StackExchange forwarded -/
example : let cfg := { serverCfg chatDecl noCb with usesExchange := true }
    let s := after cfg (b! "1") (chatSrvOps ++ [.srvAsk (b! "5")])
    (runOps cfg (newConn cfg (b! "1")) (chatSrvOps ++ [.srvAsk (b! "5")])).isSome = true ∧
      (runOps cfg s [.recv .text (b! "5;chat;;q;0;0;one")]).map (fun t => (t.log.drop s.log.length).map
        (fun o => match o with | .toServerAsk m => m.body | _ => [])) = some [b! "one"] ∧
      (runOps cfg s [.recv .text (b! "6;chat;;q;0;0;one")]).map (fun t =>
        (callsOf (t.log.drop s.log.length)).map (·.msg.body)) = some [b! "one"] ∧
      (runOps cfg s [.recv .text (b! "7!8;chat;;q;0;0;one")]).map (fun t => (t.log.drop s.log.length).map
        (fun o => match o with | .notifyAsk m => m.wait | _ => [])) = some [b! "78"] := by
  decide +kernel

/-- a client whose reader is held at the connect gate: an Ask takes the next payload, an event of
another namespace, whose callback does not run -/
example : let cfg := clientCfg [(b! "chat", [OnAnyEvent]), (b! "game", [OnAnyEvent])] noCb
    let ops := chatOps ++ [.connect (b! "game") 8 false, .recv .text (b! ";game;;x;0;0;"),
      .ask { ns := b! "chat", event := b! "q" } 9 false]
    let s := after cfg [] ops
    (runOps cfg (newConn cfg []) ops).isSome = true ∧ s.closed = false ∧
      (match s.rd with | .gate m => decide (m.ns = b! "game") | _ => false) = true ∧
      s.asks[2]?.map (·.mode) = some .reading ∧
      (runOps cfg s [.steal 2 .text (b! ";chat;;y;0;0;lost")]).map (fun t =>
        (t.asks[2]?.bind (fun a => a.box.map (·.body)), (callsOf (t.log.drop s.log.length)).length)) =
        some (some (b! "lost"), 0) := by
  decide +kernel

end Neffos
