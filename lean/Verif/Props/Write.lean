import Verif.Model.Api
import Verif.Proofs.ConnFrame
import Verif.Proofs.ConnRun
import Verif.Proofs.ConnHandlers
/-!
# C13: what may be written
-/
namespace Neffos
open Spec

variable {cfg : Cfg}

theorem closeConn_sent (s : St) (hc : s.closed = false)
    (hk : (s.connected.map (·.1)).Nodup)
    (hinj : ∀ (n m : Bytes) (obj : Nat), s.namespace n = some obj → s.namespace m = some obj → n = m) :
    ∃ rest, (closeConn cfg s).log = s.log ++ rest ∧ sentOf rest = [] := by
  obtain ⟨l, h1, h2⟩ := closeConn_log_notes (cfg := cfg) s hc hk hinj
  refine ⟨l ++ closeNotes cfg, by rw [h1, List.append_assoc], ?_⟩
  rw [sentOf_append, h2.1]
  unfold closeNotes
  split <;> rfl

/-- C13. In every reachable state, `Write` hands bytes to the socket exactly when the
connection is open, is not the explicit sender and is a member of what the message is
addressed to; then it hands over the serialization, once, and reports what the socket
said. Otherwise it reports failure, nothing is written and nothing changes but the
readiness mark. -/
theorem c13_write {id : Bytes} {s : St} (hr : Reach cfg id s) (msg : Message) :
    ∃ b, serializeMessage { msg with fromExplicit := [] } = some b ∧
      (MayWrite cfg s msg →
        ∃ rest, (write cfg s msg).1.log =
            s.log ++ .sent msg.setBinary b (cfg.sock s.log msg.setBinary b).isNone :: rest ∧
          sentOf rest = [] ∧
          ((write cfg s msg).1.closed = false → rest = [] ∧
            (write cfg s msg).1.connected = s.connected ∧ (write cfg s msg).1.objs = s.objs) ∧
          (write cfg s msg).2 = (cfg.sock s.log msg.setBinary b).isNone) ∧
      (¬ MayWrite cfg s msg →
        (write cfg s msg).1.log = s.log ∧ (write cfg s msg).2 = false ∧
        (write cfg s msg).1.connected = s.connected ∧ (write cfg s msg).1.objs = s.objs ∧
        (write cfg s msg).1.closed = s.closed) := by
  refine ⟨wireOf msg, serialize_wireOf msg, fun hm => ?_, fun hm => ?_⟩
  · have hc := hm.1
    rw [write_eq, if_pos hm]
    have e := markReady_eq (cfg := cfg) s
    have hl : (s.markReady cfg).log = s.log := by rw [e]
    have hcc : (s.markReady cfg).closed = s.closed := by rw [e]
    unfold rawWrite
    dsimp only
    rw [hl]
    split
    · rename_i h
      refine ⟨[], by simp [St.emit, hl], rfl, fun _ => ⟨rfl, ?_, ?_⟩, h.symm⟩
      · simp only [St.emit]; rw [e]
      · simp only [St.emit]; rw [e]
    · rename_i h
      split
      · obtain ⟨rest, h1, h2⟩ := closeConn_sent (cfg := cfg)
          ((s.markReady cfg).emit (.sent msg.setBinary (wireOf msg)
            (cfg.sock s.log msg.setBinary (wireOf msg)).isNone))
          (by simp only [St.emit]; rw [hcc]; exact hc)
          (by simp only [St.emit]; rw [e]; exact reach_keys (cfg := cfg) (s := s) hr)
          (by
            intro n m obj a1 a2
            unfold St.namespace at a1 a2
            simp only [St.emit] at a1 a2
            rw [e] at a1 a2
            exact reach_inj hr n m obj a1 a2)
        refine ⟨rest, by rw [h1]; simp [St.emit, hl], h2, ?_, ?_⟩
        · intro hx
          rw [closeConn_closed] at hx
          simp at hx
        · exact (Bool.eq_false_iff.mpr h).symm
      · refine ⟨[], by simp [St.emit, hl], rfl, fun _ => ⟨rfl, ?_, ?_⟩, (Bool.eq_false_iff.mpr h).symm⟩
        · simp only [St.emit]; rw [e]
        · simp only [St.emit]; rw [e]
  · have h1 := write_maynot hm
    refine ⟨by rw [h1.log]; simp, ?_, h1.connected, h1.objs, h1.closed⟩
    rw [write_eq, if_neg hm]
    split <;> rfl

/-- C13 for `NSConn.Emit` and `EmitBinary` with an ordinary event, on a working socket: the
message goes out as text or binary exactly when the connection is open and still connected
to that namespace; a nil NSConn sends nothing. -/
theorem c13_emit_iff {id : Bytes} {s : St} (hr : Reach cfg id s) (obj : Nat) (event body : Bytes)
    (h1 : event ≠ OnNamespaceConnect) (h2 : event ≠ OnNamespaceDisconnect)
    (hs : ∀ l x b, cfg.sock l x b = none) :
    (sentOf (nsEmit cfg s (some obj) event body).1.log =
      if s.closed = false ∧ (s.namespace (s.nsName obj)).isSome = true then
        sentOf s.log ++ [(false,
          (serializeMessage { ns := s.nsName obj, event := event, body := body }).getD [])]
      else sentOf s.log) ∧
    (sentOf (nsEmitBinary cfg s (some obj) event body).1.log =
      if s.closed = false ∧ (s.namespace (s.nsName obj)).isSome = true then
        sentOf s.log ++ [(true, (serializeMessage
          { ns := s.nsName obj, event := event, body := body, setBinary := true }).getD [])]
      else sentOf s.log) ∧
    ((nsEmit cfg s (some obj) event body).2 = true ↔
      s.closed = false ∧ (s.namespace (s.nsName obj)).isSome = true) ∧
    ((nsEmitBinary cfg s (some obj) event body).2 = true ↔
      s.closed = false ∧ (s.namespace (s.nsName obj)).isSome = true) ∧
    nsEmit cfg s none event body = (s, false) ∧ nsEmitBinary cfg s none event body = (s, false) := by
  have key : ∀ bin, (sentOf (write cfg s
        { ns := s.nsName obj, event := event, body := body, setBinary := bin }).1.log =
      if s.closed = false ∧ (s.namespace (s.nsName obj)).isSome = true then
        sentOf s.log ++ [(bin, (serializeMessage
          { ns := s.nsName obj, event := event, body := body, setBinary := bin }).getD [])]
      else sentOf s.log) ∧
      ((write cfg s { ns := s.nsName obj, event := event, body := body, setBinary := bin }).2 = true ↔
        s.closed = false ∧ (s.namespace (s.nsName obj)).isSome = true) := by
    intro bin
    obtain ⟨b, hb, hy, hn⟩ :=
      c13_write hr { ns := s.nsName obj, event := event, body := body, setBinary := bin }
    have hm : MayWrite cfg s { ns := s.nsName obj, event := event, body := body, setBinary := bin } ↔
        s.closed = false ∧ (s.namespace (s.nsName obj)).isSome = true := by
      unfold MayWrite IsSender
      constructor
      · rintro ⟨hc, _, h | h | ⟨o, ho, _⟩⟩
        · exact absurd h h1
        · exact absurd h h2
        · exact ⟨hc, by simp only [] at ho; rw [ho]; rfl⟩
      · rintro ⟨hc, ho⟩
        obtain ⟨o, ho⟩ := Option.isSome_iff_exists.mp ho
        exact ⟨hc, by simp, Or.inr (Or.inr ⟨o, ho, Or.inl rfl⟩)⟩
    by_cases hx : MayWrite cfg s
        { ns := s.nsName obj, event := event, body := body, setBinary := bin }
    · obtain ⟨rest, k1, k2, _, k4⟩ := hy hx
      rw [if_pos (hm.mp hx), k1, k4, hs]
      refine ⟨?_, ⟨fun _ => hm.mp hx, fun _ => rfl⟩⟩
      simp only [] at hb
      rw [sentOf_append, sentOf, k2, hb]
      rfl
    · obtain ⟨k1, k2, _⟩ := hn hx
      have hx' := mt hm.mpr hx
      rw [if_neg hx', k1, k2]
      exact ⟨rfl, ⟨fun h => by simp at h, fun h => absurd h hx'⟩⟩
  exact ⟨(key false).1, (key true).1, (key false).2, (key true).2, rfl, rfl⟩

/-- C13 for `Room.Emit` with an ordinary event. -/
theorem c13_room_emit_iff {id : Bytes} {s : St} (hr : Reach cfg id s) (obj : Nat)
    (room event body : Bytes) (hroom : room ≠ [])
    (h1 : event ≠ OnNamespaceConnect) (h2 : event ≠ OnNamespaceDisconnect)
    (h3 : event ≠ OnRoomJoin) (h4 : event ≠ OnRoomLeft)
    (hs : ∀ l x b, cfg.sock l x b = none) :
    (roomEmit cfg s obj room event body).2 = true ↔
      s.closed = false ∧ ∃ o, s.namespace (s.nsName obj) = some o ∧ room ∈ s.rooms o := by
  obtain ⟨b, _, hy, hn⟩ :=
    c13_write hr { ns := s.nsName obj, room := room, event := event, body := body }
  have hm : MayWrite cfg s { ns := s.nsName obj, room := room, event := event, body := body } ↔
      s.closed = false ∧ ∃ o, s.namespace (s.nsName obj) = some o ∧ room ∈ s.rooms o := by
    unfold MayWrite IsSender
    constructor
    · rintro ⟨hc, _, h | h | ⟨o, ho, h | h | h | h⟩⟩
      · exact absurd h h1
      · exact absurd h h2
      · exact absurd h hroom
      · exact absurd h h3
      · exact absurd h h4
      · exact ⟨hc, o, ho, h⟩
    · rintro ⟨hc, o, ho, h⟩
      exact ⟨hc, by simp, Or.inr (Or.inr ⟨o, ho, Or.inr (Or.inr (Or.inr h))⟩)⟩
  rw [← hm]
  show (write cfg s _).2 = true ↔ _
  constructor
  · intro h
    by_cases hx : MayWrite cfg s { ns := s.nsName obj, room := room, event := event, body := body }
    · exact hx
    · rw [(hn hx).2.1] at h; simp at h
  · intro h
    obtain ⟨_, _, _, _, h4⟩ := hy h
    rw [h4, hs]; rfl

/-- C13 for `Ask`: a call that finds the connection open, with a live context, puts the
message with its token on the socket exactly under the same rule, and otherwise returns
ErrWrite at once. -/
theorem c13_ask {id : Bytes} {s : St} (hr : Reach cfg id s) (msg : Message) (now : Int)
    (hn : cfg.onlyNative = false) (hc : s.closed = false) :
    ∃ b, serializeMessage { msg with wait := genWait cfg.isClient now, fromExplicit := [] } = some b ∧
      (MayWrite cfg s msg →
        ∃ rest, (startAsk cfg s .user msg now false).log =
            s.log ++ .sent msg.setBinary b (cfg.sock s.log msg.setBinary b).isNone :: rest ∧
          sentOf rest = []) ∧
      (¬ MayWrite cfg s msg →
        (startAsk cfg s .user msg now false).log =
          s.log ++ [.ret .user (.answer {} (some errWrite))]) := by
  obtain ⟨b, hb, hy, hno⟩ := c13_write hr { msg with wait := genWait cfg.isClient now }
  refine ⟨b, hb, ?_, ?_⟩
  all_goals
    have hm : ∀ t : St, t = newAsk s (genWait cfg.isClient now) .user →
        (t.log = s.log ∧ t.closed = s.closed ∧ t.connected = s.connected ∧ t.objs = s.objs ∧
          t.id = s.id) := by
      intro t ht
      subst ht
      unfold newAsk
      split <;> exact ⟨rfl, rfl, rfl, rfl, rfl⟩
    obtain ⟨m1, m2, m3, m4, m5⟩ := hm _ rfl
    have hmay : MayWrite cfg (newAsk s (genWait cfg.isClient now) .user)
        { msg with wait := genWait cfg.isClient now } ↔ MayWrite cfg s msg := by
      unfold MayWrite IsSender St.namespace St.rooms
      rw [m2, m3, m4, m5]
    unfold startAsk
    rw [if_neg (by simp [hn]), if_neg (by simp [hc])]
    simp only [Bool.false_eq_true, if_false]
    intro h
  · have hw := hmay.mpr h
    have hbb : b = wireOf { msg with wait := genWait cfg.isClient now } := by
      have := serialize_wireOf { msg with wait := genWait cfg.isClient now }
      rw [hb] at this
      exact Option.some.inj this
    rw [write_eq, if_pos hw]
    subst hbb
    have e := markReady_eq (cfg := cfg) (newAsk s (genWait cfg.isClient now) .user)
    have hl : ((newAsk s (genWait cfg.isClient now) .user).markReady cfg).log = s.log := by
      rw [e]; exact m1
    unfold rawWrite
    dsimp only
    rw [hl]
    by_cases h1 : (cfg.sock s.log msg.setBinary
        (wireOf { msg with wait := genWait cfg.isClient now })).isNone = true
    · rw [if_pos h1]
      exact ⟨[], by simp [St.emit, hl], rfl⟩
    · rw [if_neg h1]
      by_cases h2 : isCloseError (cfg.sock s.log msg.setBinary
          (wireOf { msg with wait := genWait cfg.isClient now })) = true
      · rw [if_pos h2]
        obtain ⟨rest, k1, k2⟩ := closeConn_sent (cfg := cfg)
          (((newAsk s (genWait cfg.isClient now) .user).markReady cfg).emit (.sent msg.setBinary
            (wireOf { msg with wait := genWait cfg.isClient now })
            (cfg.sock s.log msg.setBinary
              (wireOf { msg with wait := genWait cfg.isClient now })).isNone))
          (by simp only [St.emit]; rw [e]; exact m2.trans hc)
          (by simp only [St.emit]; rw [e]; simp only; rw [m3]; exact reach_keys hr)
          (by
            intro n m obj a1 a2
            unfold St.namespace at a1 a2
            simp only [St.emit] at a1 a2
            rw [e] at a1 a2
            simp only [m3] at a1 a2
            exact reach_inj hr n m obj a1 a2)
        refine ⟨rest ++ [.ret .user (.answer {} (some errWrite))], ?_, by simp [k2, sentOf]⟩
        simp only [finish, St.emit, endAsk] at k1 ⊢
        rw [k1]
        simp [hl]
      · rw [if_neg h2]
        refine ⟨[.ret .user (.answer {} (some errWrite))], ?_, rfl⟩
        simp [finish, St.emit, endAsk, hl]
  · have hw := mt hmay.mp h
    have hmn := write_maynot (cfg := cfg) hw
    have h2 : (write cfg (newAsk s (genWait cfg.isClient now) .user)
        { msg with wait := genWait cfg.isClient now }).2 = false := by
      rw [write_eq, if_neg hw]; split <;> rfl
    split
    · rename_i t ht
      rw [ht] at h2; simp at h2
    · rename_i t ht
      rw [ht] at hmn
      have := hmn.log
      simp only [finish, St.emit, endAsk]
      rw [this, m1]
      simp

/-- a client that joined a room, and one message it may and one it may not write -/
example : let s := after (clientCfg chatDecl noCb) [] (chatOps ++
      [.join 0 (b! "r") 8 false, .recv .text (b! "$8;;;;;;"), .resume 1])
    (s.closed, s.namespace (b! "chat"), s.rooms 0,
      (roomEmit (clientCfg chatDecl noCb) s 0 (b! "r") (b! "e") (b! "x")).2,
      (roomEmit (clientCfg chatDecl noCb) s 0 (b! "other") (b! "e") (b! "x")).2) =
      (false, some 0, [b! "r"], true, false) := by
  decide +kernel

end Neffos
