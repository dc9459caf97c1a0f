import Verif.Spec.Session
import Verif.Proofs.ConnShut
import Verif.Proofs.ConnId
import Verif.Proofs.Codec
import Verif.Props.Handshake
/-!
Helper lemmas for sessions: the pipes, and the two sides during the handshake.
-/
set_option autoImplicit false
namespace Neffos
open Neffos.Spec

variable {cfg cc sc : Cfg} {id : Bytes}

theorem pipe_append (a b : List Obs) : pipe (a ++ b) = pipe a ++ pipe b := by
  induction a with
  | nil => rfl
  | cons o a ih =>
    cases o with
    | sent bin b ok => cases ok <;> simp [pipe, ih]
    | _ => simp [pipe, ih]

/-- a payload of the handshake: its first byte is `A`, `H` or `M` -/
def isAck (p : MsgType × Bytes) : Bool :=
  match p.2 with
  | [] => false
  | c :: _ => c = 65 || c = 72 || c = 77

/-- the first handshake payload of this side -/
def firstAck (log : List Obs) : Option (MsgType × Bytes) := (pipe log).find? isAck

theorem firstAck_mono {l l' : List Obs} (h : l <+: l') {p : MsgType × Bytes}
    (hp : firstAck l = some p) : firstAck l' = some p := by
  obtain ⟨t, rfl⟩ := h
  simp only [firstAck, pipe_append, List.find?_append] at hp ⊢
  rw [hp]; rfl

/-- a side before the handshake: no namespaces, nothing queued to be handled -/
structure Fresh (s : St) : Prop where
  acked : s.acked = false
  objs : s.objs = []
  connected : s.connected = []
  todo : s.todo = []
  ackAfter : s.ackAfter = false
  rd : s.rd = .idle ∨ s.rd = .ack ∨ (s.rd = .dead ∧ s.closed = true)
  asks : ∀ a ∈ s.asks, a.cont = .user ∧ a.mode = .table ∧ a.box = none

/-- the log grew by nothing that belongs to the handshake -/
def Plainly (s s' : St) : Prop := ∃ l, s'.log = s.log ++ l ∧ ∀ p ∈ pipe l, isAck p = false

theorem Plainly.refl (s : St) : Plainly s s := ⟨[], by simp, by simp [pipe]⟩

theorem Plainly.trans {a b c : St} (h : Plainly a b) (k : Plainly b c) : Plainly a c := by
  obtain ⟨l, h1, h2⟩ := h
  obtain ⟨m, k1, k2⟩ := k
  refine ⟨l ++ m, by rw [k1, h1, List.append_assoc], ?_⟩
  intro p hp
  rw [pipe_append] at hp
  rcases List.mem_append.mp hp with hp | hp
  · exact h2 p hp
  · exact k2 p hp

theorem Plainly.none {s s' : St} (h : Plainly s s') (hn : firstAck s.log = none) :
    firstAck s'.log = none := by
  obtain ⟨l, h1, h2⟩ := h
  simp only [firstAck] at hn ⊢
  rw [h1, pipe_append, List.find?_append, hn]
  simpa [List.find?_eq_none] using h2

theorem plainly_log {s s' : St} (h : s'.log = s.log) : Plainly s s' := ⟨[], by simp [h], by simp [pipe]⟩

theorem plainly_note (s : St) (o : Obs) (h : pipe [o] = []) : Plainly s (s.emit o) :=
  ⟨[o], rfl, by simp [h]⟩

/-- closing a side that has no namespaces -/
theorem closeConn_empty {s : St} (hn : cfg.onlyNative = false) (hs : s.connected = []) :
    closeConn cfg s = s ∨
      closeConn cfg s = closeEnd cfg { s with closed := true, waiting := [] } := by
  unfold closeConn
  split
  · exact .inl rfl
  · right
    rw [hn, if_neg (by simp)]
    unfold closeAll
    have : cfg.order s.log [] = [] := (cfg.order_perm s.log []).eq_nil
    simp [hs, this]

theorem pipe_closeEnd (s : St) : ∃ l, (closeEnd cfg s).log = s.log ++ l ∧ pipe l = [] := by
  unfold closeEnd
  split
  · exact ⟨[.closeCh, .netClosed], by simp [St.emit], rfl⟩
  · exact ⟨[.notifyServer, .closeCh, .netClosed], by simp [St.emit], rfl⟩

theorem fresh_closeConn {s : St} (hn : cfg.onlyNative = false) (h : Fresh s) :
    Fresh (closeConn cfg s) ∧ (closeConn cfg s).ready = s.ready ∧
      (closeConn cfg s).queueText = s.queueText ∧ (closeConn cfg s).queueBinary = s.queueBinary ∧
      (closeConn cfg s).rd = s.rd ∧
      ∃ l, (closeConn cfg s).log = s.log ++ l ∧ pipe l = [] := by
  rcases closeConn_empty hn h.connected with e | e
  · rw [e]; exact ⟨h, rfl, rfl, rfl, rfl, [], by simp, rfl⟩
  · have hl := pipe_closeEnd (cfg := cfg) { s with closed := true, waiting := [] }
    rw [e]
    refine ⟨?_, ?_, ?_, ?_, ?_, hl⟩
    · obtain ⟨h1, h2, h3, h4, h5, h6, h7⟩ := h
      have h6' : s.rd = .idle ∨ s.rd = .ack ∨ (s.rd = .dead ∧ true = true) := by
        rcases h6 with h6 | h6 | h6
        · exact .inl h6
        · exact .inr (.inl h6)
        · exact .inr (.inr ⟨h6.1, rfl⟩)
      unfold closeEnd
      split <;> exact ⟨rfl, h2, h3, h4, h5, h6', h7⟩
    all_goals (unfold closeEnd; split <;> rfl)

theorem fresh_rawWrite {s : St} (hn : cfg.onlyNative = false) (h : Fresh s) (b : Bytes) (bin : Bool) :
    Fresh (rawWrite cfg s b bin).1 ∧ (rawWrite cfg s b bin).1.ready = s.ready ∧
      (rawWrite cfg s b bin).1.queueText = s.queueText ∧
      (rawWrite cfg s b bin).1.queueBinary = s.queueBinary ∧
      (rawWrite cfg s b bin).1.rd = s.rd ∧
      ∃ l, (rawWrite cfg s b bin).1.log = s.log ++ .sent bin b (rawWrite cfg s b bin).2 :: l ∧ pipe l = [] := by
  have h' : ∀ o, Fresh (s.emit o) := fun o => ⟨h.1, h.2, h.3, h.4, h.5, h.6, h.7⟩
  unfold rawWrite
  dsimp only
  split
  · rename_i hs
    exact ⟨h' _, rfl, rfl, rfl, rfl, [], by simp [St.emit, hs], rfl⟩
  · rename_i hs
    have hs : (cfg.sock s.log bin b).isNone = false := Bool.eq_false_iff.mpr hs
    split
    · obtain ⟨h1, h2, h3, h4, h5, l, h6, h7⟩ := fresh_closeConn hn (h' (.sent bin b (cfg.sock s.log bin b).isNone))
      exact ⟨h1, h2, h3, h4, h5, l, by rw [h6]; simp [St.emit, hs], h7⟩
    · exact ⟨h' _, rfl, rfl, rfl, rfl, [], by simp [St.emit, hs], rfl⟩

theorem pipe_sent {p : MsgType × Bytes} {bin ok : Bool} {b : Bytes} {l : List Obs} (hl : pipe l = [])
    (h : p ∈ pipe (.sent bin b ok :: l)) : p.2 = b := by
  cases ok with
  | false => simp [pipe, hl] at h
  | true => simp [pipe, hl] at h; rw [h]

theorem fresh_write {s : St} (hn : cfg.onlyNative = false) (h : Fresh s) (m : Message)
    (hm : ∀ t, isAck (t, wireOf m) = false) :
    Fresh (write cfg s m).1 ∧ Plainly s (write cfg s m).1 ∧
      (write cfg s m).1.queueText = s.queueText ∧ (write cfg s m).1.queueBinary = s.queueBinary ∧
      (write cfg s m).1.rd = s.rd ∧
      ((write cfg s m).1.ready = s.ready ∨
        (s.ready = none ∧ cfg.isClient = false ∧ (write cfg s m).1.ready = some none)) := by
  have hmr : Fresh (s.markReady cfg) ∧ (s.markReady cfg).log = s.log ∧
      (s.markReady cfg).queueText = s.queueText ∧ (s.markReady cfg).queueBinary = s.queueBinary ∧
      (s.markReady cfg).rd = s.rd ∧ ((s.markReady cfg).ready = s.ready ∨
        (s.ready = none ∧ cfg.isClient = false ∧ (s.markReady cfg).ready = some none)) := by
    unfold St.markReady St.signalReady
    split
    · exact ⟨h, rfl, rfl, rfl, rfl, .inl rfl⟩
    · rename_i hc
      split
      · exact ⟨h, rfl, rfl, rfl, rfl, .inl rfl⟩
      · rename_i hr
        exact ⟨⟨h.1, h.2, h.3, h.4, h.5, h.6, h.7⟩, rfl, rfl, rfl, rfl,
          .inr ⟨hr, by simpa using hc, rfl⟩⟩
  obtain ⟨m1, m2, m3, m4, m5, m6⟩ := hmr
  unfold write canWrite
  by_cases hc : s.closed = true
  · simp only [hc, if_true]
    exact ⟨h, .refl s, rfl, rfl, rfl, .inl rfl⟩
  · simp only [hc, Bool.false_eq_true, if_false]
    split
    · rw [serialize_wireOf]
      obtain ⟨r1, r2, r3, r4, r5, l, r6, r7⟩ := fresh_rawWrite hn m1 (wireOf m) m.setBinary
      refine ⟨r1, ⟨_, by rw [r6, m2], ?_⟩, by rw [r3, m3], by rw [r4, m4], by rw [r5, m5], ?_⟩
      · intro p hp
        have := pipe_sent r7 hp
        obtain ⟨t, b⟩ := p
        simp only at this
        rw [this]; exact hm t
      · rw [r2]; exact m6
    · exact ⟨m1, plainly_log m2, m3, m4, m5, m6⟩

theorem wire_plain {m : Message} (hn : m.isNative = false) (hw : m.wait = []) (t : MsgType) :
    isAck (t, wireOf m) = false := by
  have := serialize_wireOf m
  simp [serializeMessage, hn, hw, serializeOutput, joinBytes, sepByte] at this
  rw [← this]
  rfl

theorem wire_token {m : Message} {cl : Bool} {now : Int} (hw : m.wait = genWait cl now) (t : MsgType) :
    isAck (t, wireOf m) = false := by
  have hs := serialize_wireOf m
  have hne : genWait cl now ≠ [] := by
    unfold genWait
    split
    · simp
    · exact decimalInt_ne_nil now
  have hb := genWait_byte cl now
  cases hg : genWait cl now with
  | nil => exact absurd hg hne
  | cons c r =>
    have hc := hb c (by rw [hg]; simp)
    simp [serializeMessage, hw, hg, serializeOutput, joinBytes] at hs
    rw [← hs]
    simp only [isAck]
    rcases hc with rfl | rfl | ⟨h1, h2⟩
    · rfl
    · rfl
    · have : c ≠ 65 ∧ c ≠ 72 ∧ c ≠ 77 := by
        refine ⟨?_, ?_, ?_⟩ <;> (rintro rfl; revert h2; decide)
      simp [this]

/-! ### The server during the handshake -/

/-- the stages of the server's side; `up` is the number of payloads it has read -/
inductive SrvStage (id : Bytes) (up : Nat) (s : St) : Prop
  /-- it has not answered the handshake -/
  | fresh : Fresh s → s.queueText = [] → s.queueBinary = [] → firstAck s.log = none → s.id = id →
      (s.rd = .idle → up = 0) → SrvStage id up s
  /-- it was closed before it could answer -/
  | dead : s.closed = true → s.rd = .dead → (∀ a ∈ s.asks, a.cont = .user ∧ a.mode = .table ∧ a.box = none) →
      firstAck s.log = none → SrvStage id up s
  /-- it accepted -/
  | acc : firstAck s.log = some (.text, 65 :: id) → s.ready = some none →
      (s.acked = true ∨ s.closed = true) → (s.closed = false → s.id = id) → SrvStage id up s
  /-- it refused -/
  | rej (e : GoErr) : firstAck s.log = some (.text, 72 :: e.errorText) → s.ready = some (some e) →
      s.closed = true → SrvStage id up s

theorem firstAck_sent {s : St} {t : St} {bin : Bool} {b : Bytes} {l : List Obs}
    (hn : firstAck s.log = none) (h : t.log = s.log ++ .sent bin b true :: l) (hb : ∀ t, isAck (t, b) = true) :
    firstAck t.log = some (if bin then .binary else .text, b) := by
  unfold firstAck at hn ⊢
  rw [h, pipe_append, List.find?_append, hn]
  simp [pipe, hb]

theorem firstAck_unsent {s : St} {t : St} {bin : Bool} {b : Bytes} {l : List Obs}
    (hn : firstAck s.log = none) (h : t.log = s.log ++ .sent bin b false :: l) (hl : pipe l = []) :
    firstAck t.log = none := by
  unfold firstAck at hn ⊢
  rw [h, pipe_append, List.find?_append, hn]
  simp [pipe, hl]

theorem readerExit_fields (s : St) : (readerExit cfg s).log = (closeConn cfg s).log ∧
    (readerExit cfg s).ready = (closeConn cfg s).ready ∧ (readerExit cfg s).asks = (closeConn cfg s).asks ∧
    (readerExit cfg s).closed = (closeConn cfg s).closed ∧ (readerExit cfg s).rd = .dead :=
  ⟨rfl, rfl, rfl, rfl, rfl⟩

/-- the fields that closing a side without namespaces leaves -/
theorem closeConn_keeps {s : St} (hn : cfg.onlyNative = false) (hs : s.connected = []) :
    (closeConn cfg s).ready = s.ready ∧ (closeConn cfg s).asks = s.asks ∧
      (closeConn cfg s).id = s.id ∧ (closeConn cfg s).connected = [] ∧
      ∃ l, (closeConn cfg s).log = s.log ++ l ∧ pipe l = [] := by
  rcases closeConn_empty hn hs with e | e
  · rw [e]; exact ⟨rfl, rfl, rfl, hs, [], by simp, rfl⟩
  · have hl := pipe_closeEnd (cfg := cfg) { s with closed := true, waiting := [] }
    rw [e]
    refine ⟨?_, ?_, ?_, ?_, hl⟩
    all_goals (unfold closeEnd; split <;> first | rfl | exact hs)

theorem rawWrite_keeps {s : St} (hn : cfg.onlyNative = false) (hs : s.connected = []) (b : Bytes) (bin : Bool) :
    (rawWrite cfg s b bin).1.ready = s.ready ∧ (rawWrite cfg s b bin).1.asks = s.asks ∧
      (rawWrite cfg s b bin).1.id = s.id ∧ (rawWrite cfg s b bin).1.connected = [] ∧
      ((rawWrite cfg s b bin).2 = true → (rawWrite cfg s b bin).1 = s.emit (.sent bin b true)) ∧
      ∃ l, (rawWrite cfg s b bin).1.log = s.log ++ .sent bin b (rawWrite cfg s b bin).2 :: l ∧ pipe l = [] := by
  unfold rawWrite
  dsimp only
  split
  · rename_i h
    exact ⟨rfl, rfl, rfl, hs, fun _ => by rw [h], [], by simp [St.emit, h], rfl⟩
  · rename_i h
    have h : (cfg.sock s.log bin b).isNone = false := Bool.eq_false_iff.mpr h
    split
    · obtain ⟨h1, h2, h3, h4, l, h5, h6⟩ := closeConn_keeps (cfg := cfg)
        (s := s.emit (.sent bin b (cfg.sock s.log bin b).isNone)) hn hs
      exact ⟨h1, h2, h3, h4, (fun e => by cases e), l, by rw [h5]; simp [St.emit, h], h6⟩
    · exact ⟨rfl, rfl, rfl, hs, (fun e => by cases e), [], by simp [St.emit, h], rfl⟩

theorem srv_ackReady {s : St} {r : Option GoErr} (hn : cfg.onlyNative = false) (hf : Fresh s)
    (hqt : s.queueText = []) (hqb : s.queueBinary = []) (hfa : firstAck s.log = none) (hid : s.id = id)
    {up : Nat} (hr : s.ready = some r) :
    SrvStage id up (ackReady cfg s r) ∧ (ackReady cfg s r).ready = s.ready := by
  unfold ackReady
  cases r with
  | some e =>
    dsimp only
    obtain ⟨r1, r2, r3, r4, _, l, r5, r6⟩ := rawWrite_keeps (cfg := cfg) hn hf.connected (72 :: e.errorText) false
    revert r1 r2 r3 r4 r5
    generalize (rawWrite cfg s (72 :: e.errorText) false).2 = ok
    generalize (rawWrite cfg s (72 :: e.errorText) false).1 = t
    intro r1 r2 r3 r4 r5
    obtain ⟨c1, c2, c3, c4, m, c5, c6⟩ := closeConn_keeps (cfg := cfg) hn r4
    obtain ⟨x1, x2, x3, x4, x5⟩ := readerExit_fields (cfg := cfg) t
    have hlog : (readerExit cfg t).log = s.log ++ .sent false (72 :: e.errorText) ok :: (l ++ m) := by
      rw [x1, c5, r5]; simp
    have hcl : (readerExit cfg t).closed = true := by rw [x4]; exact closeConn_closed t
    refine ⟨?_, by rw [x2, c1, r1]⟩
    cases ok with
    | true => exact .rej e (firstAck_sent hfa hlog (fun _ => rfl)) (by rw [x2, c1, r1, hr]) hcl
    | false =>
      exact .dead hcl x5 (by rw [x3, c2, r2]; exact hf.asks)
        (firstAck_unsent hfa hlog (by rw [pipe_append, r6, c6]; rfl))
  | none =>
    dsimp only
    have hq : (if cfg.textFirst s.log = true then
        s.queueText.map (MsgType.text, ·) ++ s.queueBinary.map (MsgType.binary, ·)
      else s.queueBinary.map (MsgType.binary, ·) ++ s.queueText.map (MsgType.text, ·)) = [] := by
      rw [hqt, hqb]; split <;> rfl
    rw [hq]
    have key : ∀ u : St, u.ready = s.ready → u.asks = s.asks → u.id = s.id → u.connected = [] →
        u.log = s.log → u.acked = true →
        SrvStage id up (if (rawWrite cfg u (65 :: u.id) false).2 = true then (rawWrite cfg u (65 :: u.id) false).1
          else readerExit cfg (rawWrite cfg u (65 :: u.id) false).1) ∧
        (if (rawWrite cfg u (65 :: u.id) false).2 = true then (rawWrite cfg u (65 :: u.id) false).1
          else readerExit cfg (rawWrite cfg u (65 :: u.id) false).1).ready = s.ready := by
      intro u u1 u2 u3 u4 u5 u6
      obtain ⟨r1, r2, r3, r4, r0, l, r5, r6⟩ := rawWrite_keeps (cfg := cfg) hn u4 (65 :: u.id) false
      revert r0 r1 r2 r3 r4 r5
      generalize rawWrite cfg u (65 :: u.id) false = p
      obtain ⟨t, ok⟩ := p
      intro r1 r2 r3 r4 r0 r5
      dsimp only at r0 r1 r2 r3 r4 r5
      cases ok with
      | true =>
        simp only [if_true]
        refine ⟨.acc ?_ ?_ ?_ ?_, ?_⟩
        · rw [← hid, ← u3]; exact firstAck_sent hfa (t := t) (bin := false) (by rw [r5, u5]) (fun _ => rfl)
        · rw [r1, u1, hr]
        · left; rw [r0 rfl]; exact u6
        · intro _; rw [r3, u3, hid]
        · rw [r1, u1]
      | false =>
        simp only [Bool.false_eq_true, if_false]
        obtain ⟨c1, c2, c3, c4, m, c5, c6⟩ := closeConn_keeps (cfg := cfg) hn r4
        obtain ⟨x1, x2, x3, x4, x5⟩ := readerExit_fields (cfg := cfg) t
        have hlog : (readerExit cfg t).log = s.log ++ .sent false (65 :: u.id) false :: (l ++ m) := by
          rw [x1, c5, r5, u5]; simp
        refine ⟨.dead (by rw [x4]; exact closeConn_closed t) x5 (by rw [x3, c2, r2, u2]; exact hf.asks)
          (firstAck_unsent hfa hlog (by rw [pipe_append, r6, c6]; rfl)), by rw [x2, c1, r1, u1]⟩

    simp only [drain, if_true]
    unfold finishAck
    exact key _ rfl rfl rfl hf.connected rfl rfl

/-- readiness changed only because of this operation -/
def RdyFrom (op : Op) (s t : St) : Prop :=
  t.ready = s.ready ∨ (s.ready = none ∧ ∃ x, t.ready = some x ∧ Decides op x)

theorem signalReady_from (s : St) (e : Option GoErr) :
    (s.signalReady e).ready = s.ready ∨ (s.ready = none ∧ (s.signalReady e).ready = some e) := by
  unfold St.signalReady
  split
  · exact .inl rfl
  · rename_i h; exact .inr ⟨h, rfl⟩

theorem signalReady_keeps (s : St) (e : Option GoErr) :
    (s.signalReady e).log = s.log ∧ (s.signalReady e).queueText = s.queueText ∧
      (s.signalReady e).queueBinary = s.queueBinary ∧ (s.signalReady e).rd = s.rd ∧
      (s.signalReady e).asks = s.asks ∧ (s.signalReady e).connected = s.connected ∧
      (s.signalReady e).closed = s.closed ∧ (Fresh s → Fresh (s.signalReady e)) := by
  unfold St.signalReady
  split
  · exact ⟨rfl, rfl, rfl, rfl, rfl, rfl, rfl, fun h => h⟩
  · exact ⟨rfl, rfl, rfl, rfl, rfl, rfl, rfl, fun h => ⟨h.1, h.2, h.3, h.4, h.5, h.6, h.7⟩⟩

/-- plain Asks that wait for an answer which has not come -/
def PlainAsks (s : St) : Prop := ∀ a ∈ s.asks, a.cont = .user ∧ a.mode = .table ∧ a.box = none

theorem plainAsks_end {s : St} (h : PlainAsks s) (i : Nat) : PlainAsks (endAsk s i) := by
  intro a ha
  obtain ⟨j, hj⟩ := List.getElem?_of_mem ha
  have hj : (s.asks.modify i (fun a => { a with done := true }))[j]? = some a := hj
  rw [List.getElem?_modify] at hj
  cases hx : s.asks[j]? with
  | none => rw [hx] at hj; simp at hj
  | some x =>
    rw [hx] at hj
    have := h x (List.mem_of_getElem? hx)
    by_cases e : i = j
    · simp only [e, if_true, Option.map_eq_map, Option.map_some, Option.some.injEq] at hj
      rw [← hj]; exact this
    · simp only [e, if_false, Option.map_eq_map, Option.map_some, Option.some.injEq] at hj
      rw [← hj]; exact this

theorem srv_fresh_step {s s' : St} {op : Op} (hc : cfg.isClient = false) (hn : cfg.onlyNative = false)
    (hf : Fresh s) (hqt : s.queueText = []) (hqb : s.queueBinary = []) (hfa : firstAck s.log = none)
    (hid : s.id = id) {up : Nat} (hup : s.rd = .idle → up = 0) (hop : op.reads = false) (hack : op ≠ .sendAck)
    (hw : ∀ m, op = .write m → m.isNative = false ∧ m.wait = []) (h : step cfg s op = some s') :
    SrvStage id up s' ∧ RdyFrom op s s' := by
  have he := (step_exec h).1
  have hid' : s'.id = id := by
    rcases idSame_exec he with h1 | ⟨_, typ, rest, rfl, _⟩
    · rw [← hid]; exact h1
    · simp [Op.reads] at hop
  cases op with
  | recv typ b => simp [Op.reads] at hop
  | steal i typ b => simp [Op.reads] at hop
  | sendAck => exact absurd rfl hack
  | readErr e =>
    simp only [exec] at he
    split at he
    · cases he
      obtain ⟨g1, g2, g3, g4, g5, g6, g7, g8⟩ := signalReady_keeps s (some e)
      obtain ⟨c1, c2, c3, c4, l, c5, c6⟩ := closeConn_keeps (cfg := cfg) hn (g6.trans hf.connected)
      obtain ⟨x1, x2, x3, x4, x5⟩ := readerExit_fields (cfg := cfg) (s.signalReady (some e))
      refine ⟨.dead (by rw [x4]; exact closeConn_closed _) x5 (by rw [x3, c2, g5]; exact hf.asks) ?_, ?_⟩
      · refine Plainly.none ⟨l, by rw [x1, c5, g1], by simp [c6]⟩ hfa
      · unfold RdyFrom
        rw [x2, c1]
        rcases signalReady_from s (some e) with h | ⟨h1, h2⟩
        · exact .inl h
        · exact .inr ⟨h1, _, h2, .readFailed e⟩
    · cases he
  | wake =>
    simp only [exec, wakeReader] at he
    rcases hf.rd with hr | hr | ⟨hr, _⟩ <;> rw [hr] at he <;> dsimp only at he
    · cases he
    · cases hy : s.ready with
      | none => rw [hy] at he; cases he
      | some r =>
        rw [hy] at he; cases he
        obtain ⟨h1, h2⟩ := srv_ackReady hn hf hqt hqb hfa hid hy
        exact ⟨h1, .inl h2⟩
    · cases he
  | contReader => simp [exec, contReader, hf.todo, hf.ackAfter] at he
  | connect ns now ex =>
    simp only [exec, connect] at he
    obtain ⟨g1, g2, g3, g4, g5, g6, g7, g8⟩ := signalReady_keeps s none
    have hm : s.markReady cfg = s.signalReady none := by simp [St.markReady, hc]
    rw [hm] at he
    rw [if_pos (by simp [hc, (g8 hf).acked])] at he
    cases he
    refine ⟨.fresh (g8 hf) (g2.trans hqt) (g3.trans hqb) (by rw [g1]; exact hfa) hid' (by rw [g4]; exact hup), ?_⟩
    rcases signalReady_from s none with h | ⟨h1, h2⟩
    · exact .inl h
    · exact .inr ⟨h1, _, h2, .used _ rfl⟩
  | disconnect obj now ex => simp [exec, hf.objs] at he
  | join obj room now ex => simp [exec, hf.objs] at he
  | leave obj room now ex => simp [exec, hf.objs] at he
  | ask msg now ex =>
    simp only [exec, startAsk, hn, Bool.false_eq_true, if_false] at he
    have emitF : ∀ (t : St) (o : Obs), Fresh t → Fresh (t.emit o) :=
      fun t o h => ⟨h.1, h.2, h.3, h.4, h.5, h.6, h.7⟩
    have notePlain : ∀ (t : St) (k : Cont) (r : Result), Plainly t (t.emit (.ret k r)) :=
      fun t k r => plainly_note t _ rfl
    split at he
    · cases he
      exact ⟨.fresh (emitF _ _ hf) hqt hqb ((notePlain _ _ _).none hfa) hid' hup, .inl rfl⟩
    · split at he
      · cases he
        exact ⟨.fresh (emitF _ _ hf) hqt hqb ((notePlain _ _ _).none hfa) hid' hup, .inl rfl⟩
      · have hin : insideHandler s = false := by
          unfold insideHandler
          rcases hf.rd with hr | hr | ⟨hr, _⟩ <;> rw [hr]
        have hna : Fresh (newAsk s (genWait cfg.isClient now) .user) := by
          unfold newAsk
          rw [hin]
          refine ⟨hf.1, hf.2, hf.3, hf.4, hf.5, hf.6, ?_⟩
          intro a ha
          rcases List.mem_append.mp ha with ha | ha
          · exact hf.asks a ha
          · rw [List.mem_singleton.mp ha]; exact ⟨rfl, rfl, rfl⟩
        have hnf : (newAsk s (genWait cfg.isClient now) .user).log = s.log ∧
            (newAsk s (genWait cfg.isClient now) .user).queueText = s.queueText ∧
            (newAsk s (genWait cfg.isClient now) .user).queueBinary = s.queueBinary ∧
            (newAsk s (genWait cfg.isClient now) .user).ready = s.ready := by
          unfold newAsk; rw [hin]; exact ⟨rfl, rfl, rfl, rfl⟩
        obtain ⟨n1, n2, n3, n4⟩ := hnf
        obtain ⟨w1, w2, w3, w4, w5, w6⟩ := fresh_write (cfg := cfg) hn hna
          { msg with wait := genWait cfg.isClient now } (fun t => wire_token rfl t)
        have hrdy : ∀ t : St, t.ready = (write cfg (newAsk s (genWait cfg.isClient now) .user)
            { msg with wait := genWait cfg.isClient now }).1.ready → RdyFrom (.ask msg now ex) s t := by
          intro t ht
          unfold RdyFrom
          rw [ht]
          rcases w6 with w6 | ⟨w6, _, w7⟩
          · left; rw [w6, n4]
          · right; exact ⟨n4 ▸ w6, _, w7, .used _ rfl⟩
        have hp : Plainly s (write cfg (newAsk s (genWait cfg.isClient now) .user)
            { msg with wait := genWait cfg.isClient now }).1 := (plainly_log n1).trans w2
        rw [n2] at w3; rw [n3] at w4
        have n5 : (newAsk s (genWait cfg.isClient now) .user).rd = s.rd := by
          unfold newAsk; rw [hin]; rfl
        have hup' : (write cfg (newAsk s (genWait cfg.isClient now) .user)
            { msg with wait := genWait cfg.isClient now }).1.rd = .idle → up = 0 := by
          rw [w5, n5]; exact hup
        split at he
        · rename_i t hwt
          cases he
          rw [hwt] at w1 w3 w4 hp hrdy hup'
          exact ⟨.fresh w1 (w3.trans hqt) (w4.trans hqb) (hp.none hfa) hid' hup', hrdy _ rfl⟩
        · rename_i t hwt
          cases he
          rw [hwt] at w1 w3 w4 hp hrdy hup'
          dsimp only at w1 w3 w4 hp hrdy hup'
          have hE : Fresh (endAsk t s.asks.length) :=
            ⟨w1.1, w1.2, w1.3, w1.4, w1.5, w1.6, plainAsks_end w1.asks _⟩
          exact ⟨.fresh (emitF _ _ hE) (w3.trans hqt) (w4.trans hqb)
            ((hp.trans (⟨_, rfl, by simp [pipe]⟩ : Plainly t (finish cfg (endAsk t s.asks.length) .user {} (some errWrite)))).none hfa)
            hid' hup', hrdy _ rfl⟩
  | write m =>
    cases he
    obtain ⟨m1, m2⟩ := hw m rfl
    obtain ⟨w1, w2, w3, w4, w5, w6⟩ := fresh_write (cfg := cfg) hn hf m (wire_plain m1 m2)
    refine ⟨.fresh w1 (w3.trans hqt) (w4.trans hqb) (w2.none hfa) hid' (by rw [w5]; exact hup), ?_⟩
    rcases w6 with w6 | ⟨w6, _, w7⟩
    · exact .inl w6
    · exact .inr ⟨w6, _, w7, .used _ rfl⟩
  | resume i =>
    simp only [exec, resume] at he
    split at he
    · cases he
    · rename_i a ha
      split at he
      · cases he
      · rw [(hf.asks a (List.mem_of_getElem? ha)).2.2] at he; cases he
  | cancel i e =>
    simp only [exec, cancel] at he
    split at he
    · cases he
    · rename_i a ha
      split at he
      · cases he
      · have ha' := hf.asks a (List.mem_of_getElem? ha)
        rw [ha'.1] at he
        cases he
        refine ⟨.fresh ⟨hf.1, hf.2, hf.3, hf.4, hf.5, hf.6, ?_⟩ hqt hqb ?_ hid' hup, .inl rfl⟩
        · exact plainAsks_end hf.asks i
        · exact Plainly.none (s := s) ⟨_, rfl, by simp [pipe]⟩ hfa
  | close =>
    cases he
    obtain ⟨h1, h2, h3, h4, h5, l, h6, h7⟩ := fresh_closeConn (cfg := cfg) hn hf
    exact ⟨.fresh h1 (h3.trans hqt) (h4.trans hqb) (Plainly.none ⟨l, h6, by simp [h7]⟩ hfa) hid'
      (by rw [h5]; exact hup), .inl h2⟩
  | stealErr i e =>
    simp only [exec, steal] at he
    split at he
    · cases he
    · rename_i a ha
      rw [(hf.asks a (List.mem_of_getElem? ha)).2.1] at he
      simp at he
  | ready e =>
    cases he
    obtain ⟨g1, g2, g3, g4, g5, g6, g7, g8⟩ := signalReady_keeps s e
    refine ⟨.fresh (g8 hf) (g2.trans hqt) (g3.trans hqb) (by rw [g1]; exact hfa) hid' (by rw [g4]; exact hup), ?_⟩
    rcases signalReady_from s e with h | ⟨h1, h2⟩
    · exact .inl h
    · exact .inr ⟨h1, _, h2, .returned e⟩
  | srvAsk tok =>
    cases he
    exact ⟨.fresh ⟨hf.1, hf.2, hf.3, hf.4, hf.5, hf.6, hf.7⟩ hqt hqb hfa hid' hup, .inl rfl⟩
  | srvUnask tok =>
    cases he
    exact ⟨.fresh ⟨hf.1, hf.2, hf.3, hf.4, hf.5, hf.6, hf.7⟩ hqt hqb hfa hid' hup, .inl rfl⟩

/-- a closed side does something that nobody notices -/
structure Mute (s t : St) : Prop where
  closed : t.closed = s.closed
  rd : t.rd = s.rd
  asks : t.asks = s.asks
  log : Plainly s t
  ready : t.ready = s.ready

theorem Mute.refl (s : St) : Mute s s := ⟨rfl, rfl, rfl, .refl s, rfl⟩

theorem Mute.trans {a b c : St} (h : Mute a b) (k : Mute b c) : Mute a c :=
  ⟨k.closed.trans h.closed, k.rd.trans h.rd, k.asks.trans h.asks, h.log.trans k.log, k.ready.trans h.ready⟩

theorem mute_emit (s : St) (o : Obs) (h : pipe [o] = []) : Mute s (s.emit o) :=
  ⟨rfl, rfl, rfl, plainly_note s o h, rfl⟩

theorem mute_gateDone (s : St) (ns : Bytes) : Mute s (gateDone s ns) := by
  unfold gateDone
  split
  · exact .refl s
  · split
    · exact .refl s
    · exact ⟨rfl, rfl, rfl, plainly_log rfl, rfl⟩

theorem mute_fire {s : St} (hc : s.closed = true) (obj : Nat) (msg : Message) :
    Mute s (fire cfg s obj msg).1 := by
  rw [fire_shut hc]; exact mute_emit _ _ rfl

theorem mute_finish_err (s : St) (k : Cont) (m : Message) (e : GoErr) :
    Mute s (finish cfg s k m (some e)) := by
  cases k with
  | connect ns obj => exact (mute_emit _ _ rfl).trans (mute_gateDone _ _)
  | _ => exact mute_emit _ _ rfl

theorem mute_startAsk {s : St} (hc : s.closed = true) (hn : cfg.onlyNative = false) (k : Cont)
    (msg : Message) (now : Int) (ex : Bool) : Mute s (startAsk cfg s k msg now ex) := by
  unfold startAsk
  rw [if_neg (by simp [hn]), if_pos hc]
  exact mute_finish_err _ _ _ _

theorem srv_dead_step {s s' : St} {op : Op} (hn : cfg.onlyNative = false)
    (hcl : s.closed = true) (hrd : s.rd = .dead) (ha : PlainAsks s)
    (hfa : firstAck s.log = none) {up : Nat} (hop : op ≠ .sendAck) (h : step cfg s op = some s') :
    SrvStage id up s' ∧ RdyFrom op s s' := by
  have he := (step_exec h).1
  have fin : ∀ t, Mute s t → SrvStage id up t ∧ RdyFrom op s t := fun t m =>
    ⟨.dead (m.closed.trans hcl) (m.rd.trans hrd) (by rw [m.asks]; exact ha) (m.log.none hfa), .inl m.ready⟩
  have fin2 : ∀ (e : Option GoErr) (t : St), Decides op e → Mute (s.signalReady e) t →
      SrvStage id up t ∧ RdyFrom op s t := by
    intro e t hd m
    obtain ⟨g1, g2, g3, g4, g5, g6, g7, g8⟩ := signalReady_keeps s e
    refine ⟨.dead ((m.closed.trans g7).trans hcl) ((m.rd.trans g4).trans hrd)
      (by rw [m.asks, g5]; exact ha) (((plainly_log g1).trans m.log).none hfa), ?_⟩
    unfold RdyFrom
    rw [m.ready]
    rcases signalReady_from s e with h | ⟨h1, h2⟩
    · exact .inl h
    · exact .inr ⟨h1, _, h2, hd⟩
  cases op with
  | recv typ b => simp [exec, hrd] at he
  | readErr e => simp [exec, hrd] at he
  | wake => simp [exec, wakeReader, hrd] at he
  | contReader => simp [exec, contReader, hrd] at he
  | connect ns now ex =>
    cases he
    have key : ∀ s0 : St, s0.closed = true → ∀ b : Bool,
        Mute s0 (if b = true then s0 else
          match (gateStart s0 ns).namespace ns with
          | some obj => gateDone ((gateStart s0 ns).emit (.ret (.connect ns obj) (.nsConn obj))) ns
          | none =>
            match mapGet cfg.decl ns with
            | none => gateDone ((gateStart s0 ns).emit (.ret (.connect ns (gateStart s0 ns).objs.length) (.err errBadNamespace))) ns
            | some _ =>
              match fire cfg { gateStart s0 ns with objs := (gateStart s0 ns).objs ++ [⟨ns, []⟩] } (gateStart s0 ns).objs.length
                { ns := ns, event := OnNamespaceConnect, isLocal := true } with
              | (s, some e) => gateDone (s.emit (.ret (.connect ns (gateStart s0 ns).objs.length) (.err e))) ns
              | (s, none) => startAsk cfg s (.connect ns (gateStart s0 ns).objs.length)
                  { ns := ns, event := OnNamespaceConnect, isLocal := true } now ex) := by
      intro s0 h0 b
      split
      · exact .refl _
      · have hg : Mute s0 (gateStart s0 ns) := ⟨rfl, rfl, rfl, plainly_log rfl, rfl⟩
        revert hg
        generalize gateStart s0 ns = s1
        intro hg
        split
        · exact (hg.trans (mute_emit _ _ rfl)).trans (mute_gateDone _ _)
        · split
          · exact (hg.trans (mute_emit _ _ rfl)).trans (mute_gateDone _ _)
          · have h1 : Mute s0 { s1 with objs := s1.objs ++ [⟨ns, []⟩] } :=
              hg.trans ⟨rfl, rfl, rfl, plainly_log rfl, rfl⟩
            have hc1 : ({ s1 with objs := s1.objs ++ [⟨ns, []⟩] } : St).closed = true := h1.closed.trans h0
            have hf := mute_fire (cfg := cfg) hc1 s1.objs.length
              { ns := ns, event := OnNamespaceConnect, isLocal := true }
            split
            · rename_i t e hfe
              rw [hfe] at hf
              exact ((h1.trans hf).trans (mute_emit _ _ rfl)).trans (mute_gateDone _ _)
            · rename_i t hfe
              rw [hfe] at hf
              exact (h1.trans hf).trans (mute_startAsk (hf.closed.trans hc1) hn _ _ _ _)
    unfold connect newObj
    dsimp only
    unfold St.markReady
    split
    · exact fin _ (key s hcl _)
    · exact fin2 none _ (.used _ rfl) (key _ (by rw [signalReady_closed]; exact hcl) _)
  | disconnect obj now ex =>
    simp only [exec] at he
    split at he
    · cases he
      refine fin _ ?_
      unfold disconnect
      dsimp only
      split
      · exact mute_emit _ _ rfl
      · exact mute_startAsk hcl hn _ _ _ _
    · simp at he
  | join obj room now ex =>
    simp only [exec] at he
    split at he
    · cases he
      refine fin _ ?_
      unfold joinRoom
      dsimp only
      split
      · exact mute_emit _ _ rfl
      · exact mute_startAsk hcl hn _ _ _ _
    · simp at he
  | leave obj room now ex =>
    simp only [exec] at he
    split at he
    · cases he
      refine fin _ ?_
      unfold leaveRoom
      dsimp only
      split
      · exact mute_startAsk hcl hn _ _ _ _
      · exact mute_emit _ _ rfl
    · simp at he
  | ask msg now ex => cases he; exact fin _ (mute_startAsk hcl hn _ _ _ _)
  | write msg => cases he; rw [write_shut hcl]; exact fin _ (.refl s)
  | resume i =>
    simp only [exec, resume] at he
    split at he
    · simp at he
    · rename_i a hx
      rw [(ha a (List.mem_of_getElem? hx)).2.2] at he
      split at he <;> cases he
  | cancel i e =>
    simp only [exec, cancel] at he
    split at he
    · simp at he
    · rename_i a hx
      rw [(ha a (List.mem_of_getElem? hx)).1] at he
      split at he
      · cases he
      · cases he
        exact ⟨.dead hcl hrd (plainAsks_end ha i) (Plainly.none (s := s) ⟨_, rfl, by simp [pipe]⟩ hfa), .inl rfl⟩
  | close => cases he; rw [closeConn_shut hcl]; exact fin _ (.refl s)
  | steal i typ b =>
    simp only [exec, steal] at he
    split at he
    · cases he
    · rename_i a hx
      rw [(ha a (List.mem_of_getElem? hx)).2.1] at he
      simp at he
  | stealErr i e =>
    simp only [exec, steal] at he
    split at he
    · cases he
    · rename_i a hx
      rw [(ha a (List.mem_of_getElem? hx)).2.1] at he
      simp at he
  | ready e => cases he; exact fin2 e _ (.returned e) (.refl _)
  | sendAck => exact absurd rfl hop
  | srvAsk tok => cases he; exact fin _ ⟨rfl, rfl, rfl, plainly_log rfl, rfl⟩
  | srvUnask tok => cases he; exact fin _ ⟨rfl, rfl, rfl, plainly_log rfl, rfl⟩

/-- a server that has answered has answered for good -/
theorem srv_answered_step {s s' : St} {op : Op} {id0 : Bytes} {up : Nat} (hr : Reach cfg id0 s) (h : step cfg s op = some s')
    (hs : (firstAck s.log = some (.text, 65 :: id) ∧ s.ready = some none ∧
      (s.acked = true ∨ s.closed = true) ∧ (s.closed = false → s.id = id)) ∨
      ∃ e : GoErr, firstAck s.log = some (.text, 72 :: e.errorText) ∧ s.ready = some (some e) ∧ s.closed = true) :
    SrvStage id up s' ∧ s'.ready = s.ready := by
  have g := Prims.grows (reach_prims hr h)
  rcases hs with ⟨h1, h2, h3, h4⟩ | ⟨e, h1, h2, h3⟩
  · refine ⟨.acc (firstAck_mono g.log h1) (g.ready _ h2) (step_acked hr h h3) ?_, by rw [h2]; exact g.ready _ h2⟩
    intro hc
    have hc0 : s.closed = false := by
      cases hx : s.closed with
      | false => rfl
      | true => rw [g.closed hx] at hc; cases hc
    have ha : s.acked = true := by
      rcases h3 with h3 | h3
      · exact h3
      · rw [hc0] at h3; cases h3
    rcases idSame_exec (step_exec h).1 with h5 | ⟨h5, _⟩
    · exact Eq.trans h5 (h4 hc0)
    · rw [ha] at h5; cases h5
  · exact ⟨.rej e (firstAck_mono g.log h1) (g.ready _ h2) (g.closed h3), by rw [h2]; exact g.ready _ h2⟩

/-- the server reads the client's acknowledgement -/
theorem srv_fresh_recv {s s' : St} (hn : cfg.onlyNative = false)
    (hf : Fresh s) (hqt : s.queueText = []) (hqb : s.queueBinary = []) (hfa : firstAck s.log = none)
    (hid : s.id = id) {up : Nat} {t : MsgType} (h : step cfg s (.recv t (b! "M")) = some s') :
    SrvStage id up s' ∧ s'.ready = s.ready := by
  have he := (step_exec h).1
  simp only [exec] at he
  split at he
  · cases he
    have e : recv cfg s t (b! "M") = handleACK cfg s t (b! "M") := by
      unfold recv; rw [hf.acked]; rfl
    rw [e]
    have e2 : handleACK cfg s t (b! "M") = (match s.ready with
      | none => { s with rd := .ack }
      | some e => ackReady cfg s e) := rfl
    rw [e2]
    cases hy : s.ready with
    | none =>
      exact ⟨.fresh ⟨hf.1, hf.2, hf.3, hf.4, hf.5, .inr (.inl rfl), hf.7⟩ hqt hqb hfa hid (by simp), rfl⟩
    | some r =>
      obtain ⟨h1, h2⟩ := srv_ackReady hn hf hqt hqb hfa hid hy
      exact ⟨h1, h2.trans hy⟩
  · cases he

/-! ### The client during the handshake -/

/-- the stages of the client's side; `log` is the server's log and `down` the number of payloads
read from it -/
inductive CliStage (id : Bytes) (log : List Obs) (down : Nat) (s : St) : Prop
  /-- Dial has no answer yet, or has an error -/
  | fresh : Fresh s → (pipe s.log = [] ∨ pipe s.log = [(.text, b! "M")]) →
      (s.ready = none ∨ (s.rd = .dead ∧ s.ready ≠ some none)) → s.rd ≠ .ack →
      (s.rd = .dead ∨ ∀ p ∈ (pipe log).take down, isAck p = false) →
      CliStage id log down s
  /-- Dial has succeeded -/
  | acc : firstAck log = some (.text, 65 :: id) → s.ready = some none →
      (s.acked = true ∨ s.closed = true) → (s.closed = false → s.id = id) → CliStage id log down s

theorem CliStage.mono {log log' : List Obs} {down : Nat} {s : St} (hp : log <+: log')
    (hd : down ≤ (pipe log).length) (h : CliStage id log down s) : CliStage id log' down s := by
  cases h with
  | fresh h1 h2 h3 h5 h4 =>
    refine .fresh h1 h2 h3 h5 ?_
    rcases h4 with h4 | h4
    · exact .inl h4
    · right
      obtain ⟨t, rfl⟩ := hp
      rw [pipe_append, List.take_append_of_le_length hd]
      exact h4
  | acc h1 h2 h3 h4 => exact .acc (firstAck_mono hp h1) h2 h3 h4

/-- the errors that Dial can have: what the server wrote after `H`, or its own read's error -/
def CliErr (log : List Obs) (op : Op) (s t : St) : Prop :=
  t.ready = s.ready ∨ (s.ready = none ∧ ∃ e, t.ready = some (some e) ∧
    ((∃ x, e = .text x ∧ firstAck log = some (.text, 72 :: x)) ∨ op = .readErr e))

theorem cli_step {s s' : St} {op : Op} {log : List Obs} {down : Nat} (hn : cfg.onlyNative = false)
    (hr : Reach cfg [] s)
    (hs : CliStage id log down s) (hop : s.ready = some none ∨ (op = .sendAck ∧ s.log = []) ∨ op = .close ∨
      ∃ e, op = .readErr e) (h : step cfg s op = some s') :
    CliStage id log down s' ∧ CliErr log op s s' := by
  cases hs with
  | acc h1 h2 h3 h4 =>
    have g := Prims.grows (reach_prims hr h)
    refine ⟨.acc h1 (g.ready _ h2) (step_acked hr h h3) ?_, .inl (by rw [h2]; exact g.ready _ h2)⟩
    intro hc
    have hc0 : s.closed = false := by
      cases hx : s.closed with
      | false => rfl
      | true => rw [g.closed hx] at hc; cases hc
    have ha : s.acked = true := by
      rcases h3 with h3 | h3
      · exact h3
      · rw [hc0] at h3; cases h3
    rcases idSame_exec (step_exec h).1 with h5 | ⟨h5, _⟩
    · exact Eq.trans h5 (h4 hc0)
    · rw [ha] at h5; cases h5
  | fresh hf hp hy hk hd =>
    have he := (step_exec h).1
    rcases hop with h0 | ⟨rfl, h0⟩ | rfl | ⟨e, rfl⟩
    · rcases hy with hy | hy
      · rw [hy] at h0; cases h0
      · exact absurd h0 hy.2
    · simp only [exec, hn, Bool.false_eq_true, if_false] at he
      obtain ⟨r1, r2, r3, r4, r5, l, r6, r7⟩ := fresh_rawWrite (cfg := cfg) hn hf (b! "M") false
      revert he r1 r2 r3 r4 r5 r6
      generalize rawWrite cfg s (b! "M") false = p
      obtain ⟨t, ok⟩ := p
      intro he r1 r2 r3 r4 r5 r6
      dsimp only at r1 r2 r3 r4 r5 r6
      cases ok with
      | true =>
        cases he
        refine ⟨.fresh r1 (.inr ?_) (by rw [r2, r5]; exact hy) (by rw [r5]; exact hk) (by rw [r5]; exact hd), .inl r2⟩
        rw [r6, h0]; simp [pipe, r7]
      | false =>
        cases he
        obtain ⟨c1, c2, c3, c4, c5, m, c6, c7⟩ := fresh_closeConn (cfg := cfg) hn r1
        refine ⟨.fresh c1 (.inl ?_) (by rw [c2, r2, c5, r5]; exact hy) (by rw [c5, r5]; exact hk) (by rw [c5, r5]; exact hd), .inl (c2.trans r2)⟩
        rw [c6, r6, h0]; simp [pipe, pipe_append, r7, c7]
    · cases he
      obtain ⟨c1, c2, c3, c4, c5, m, c6, c7⟩ := fresh_closeConn (cfg := cfg) hn hf
      refine ⟨.fresh c1 ?_ (by rw [c2, c5]; exact hy) (by rw [c5]; exact hk) (by rw [c5]; exact hd), .inl c2⟩
      rw [c6, pipe_append, c7, List.append_nil]; exact hp
    · simp only [exec] at he
      split at he
      · cases he
        obtain ⟨g1, g2, g3, g4, g5, g6, g7, g8⟩ := signalReady_keeps s (some e)
        obtain ⟨c1, c2, c3, c4, c5, m, c6, c7⟩ := fresh_closeConn (cfg := cfg) hn (g8 hf)
        have hrd : (readerExit cfg (s.signalReady (some e))).ready = (s.signalReady (some e)).ready := c2
        refine ⟨.fresh ⟨c1.1, c1.2, c1.3, c1.4, c1.5, .inr (.inr ⟨rfl, closeConn_closed _⟩), c1.7⟩ ?_ ?_ (fun e => by cases e) (.inl rfl), ?_⟩
        · have : (readerExit cfg (s.signalReady (some e))).log = s.log ++ m := by
            rw [← g1]; exact c6
          rw [this, pipe_append, c7, List.append_nil]; exact hp
        · right
          refine ⟨rfl, ?_⟩
          rw [hrd]
          rcases signalReady_from s (some e) with h | ⟨_, h⟩
          · rw [h]
            rcases hy with hy | hy
            · rw [hy]; simp
            · exact hy.2
          · rw [h]; simp
        · unfold CliErr
          rw [hrd]
          rcases signalReady_from s (some e) with h | ⟨h1, h⟩
          · exact .inl h
          · exact .inr ⟨h1, e, h, .inr rfl⟩
      · cases he

theorem find_first {α : Type} {l : List α} {p : α → Bool} {n : Nat} {x : α} (hx : l[n]? = some x)
    (hb : ∀ y ∈ l.take n, p y = false) (hp : p x = true) : l.find? p = some x := by
  induction l generalizing n with
  | nil => simp at hx
  | cons a l ih =>
    cases n with
    | zero => simp at hx; subst hx; simp [hp]
    | succ n =>
      simp only [List.take_succ_cons, List.mem_cons, forall_eq_or_imp] at hb
      rw [List.find?_cons, hb.1]
      exact ih (by simpa using hx) hb.2

/-- the client reads the next payload of the server -/
theorem cli_recv {s s' d : St} {up down : Nat} {t : MsgType} {b : Bytes} (hn : cfg.onlyNative = false)
    (hr : Reach cfg [] s) (hs : CliStage id d.log down s) (hd : SrvStage id up d)
    (hx : (pipe d.log)[down]? = some (t, b)) (h : step cfg s (.recv t b) = some s') :
    CliStage id d.log (down + 1) s' ∧ (CliErr d.log (.recv t b) s s' ∨ s'.ready = some none) := by
  cases hs with
  | acc h1 h2 h3 h4 =>
    have g := Prims.grows (reach_prims hr h)
    refine ⟨.acc h1 (g.ready _ h2) (step_acked hr h h3) ?_, .inr (g.ready _ h2)⟩
    intro hc
    have hc0 : s.closed = false := by
      cases hx : s.closed with
      | false => rfl
      | true => rw [g.closed hx] at hc; cases hc
    have ha : s.acked = true := by
      rcases h3 with h3 | h3
      · exact h3
      · rw [hc0] at h3; cases h3
    rcases idSame_exec (step_exec h).1 with h5 | ⟨h5, _⟩
    · exact Eq.trans h5 (h4 hc0)
    · rw [ha] at h5; cases h5
  | fresh hf hp hy hk hb =>
    have he := (step_exec h).1
    simp only [exec] at he
    split at he
    · rename_i hi
      cases he
      have hb : ∀ p ∈ (pipe d.log).take down, isAck p = false := by
        rcases hb with hb | hb
        · rw [hi.1] at hb; cases hb
        · exact hb
      have hry : s.ready = none := by
        rcases hy with hy | hy
        · exact hy
        · rw [hi.1] at hy; exact absurd hy.1 (by simp)
      have hnext : isAck (t, b) = false → ∀ p ∈ (pipe d.log).take (down + 1), isAck p = false := by
        intro h0 p hp
        rw [List.take_add_one, hx] at hp
        rcases List.mem_append.mp hp with hp | hp
        · exact hb p hp
        · simp at hp; rw [hp]; exact h0
      unfold recv
      split
      · rename_i hnil
        exact ⟨.fresh hf hp hy hk (.inr (hnext (by simp [isAck, hnil]))), .inl (.inl rfl)⟩
      · rw [hf.acked]
        simp only [Bool.false_eq_true, if_false]
        cases b with
        | nil => rename_i hnil; exact absurd rfl hnil
        | cons c rest =>
          have first : isAck (t, c :: rest) = true → firstAck d.log = some (t, c :: rest) :=
            fun h0 => find_first hx hb h0
          by_cases e1 : c = 77
          · exfalso
            subst e1
            have h0 := first rfl
            cases hd with
            | fresh _ _ _ h _ _ => rw [h] at h0; cases h0
            | dead _ _ _ h => rw [h] at h0; cases h0
            | acc h _ _ _ => rw [h] at h0; simp at h0
            | rej e h _ _ => rw [h] at h0; simp at h0
          · by_cases e2 : c = 65
            · subst e2
              have h0 := first rfl
              have hrest : t = .text ∧ rest = id := by
                cases hd with
                | fresh _ _ _ h _ _ => rw [h] at h0; cases h0
                | dead _ _ _ h => rw [h] at h0; cases h0
                | acc h _ _ _ => rw [h] at h0; simp at h0; exact ⟨h0.1.symm, h0.2.symm⟩
                | rej e h _ _ => rw [h] at h0; simp at h0
              obtain ⟨rfl, rfl⟩ := hrest
              have e : handleACK cfg s .text (65 :: rest) =
                  ({ s with id := rest, acked := true } : St).signalReady none := rfl
              rw [e]
              have : ({ s with id := rest, acked := true } : St).signalReady none =
                  { s with id := rest, acked := true, ready := some none } := by
                unfold St.signalReady; dsimp only; rw [hry]
              rw [this]
              exact ⟨.acc h0 rfl (.inl rfl) (fun _ => rfl), .inr rfl⟩
            · by_cases e3 : c = 72
              · subst e3
                have h0 := first rfl
                have ht : t = .text := by
                  cases hd with
                  | fresh _ _ _ h _ _ => rw [h] at h0; cases h0
                  | dead _ _ _ h => rw [h] at h0; cases h0
                  | acc h _ _ _ => rw [h] at h0; simp at h0
                  | rej e h _ _ => rw [h] at h0; simp at h0; exact h0.1.symm
                subst ht
                have e : handleACK cfg s .text (72 :: rest) =
                    readerExit cfg (s.signalReady (some (.text rest))) := rfl
                rw [e]
                obtain ⟨g1, g2, g3, g4, g5, g6, g7, g8⟩ := signalReady_keeps s (some (.text rest))
                obtain ⟨c1, c2, c3, c4, c5, m, c6, c7⟩ := fresh_closeConn (cfg := cfg) hn (g8 hf)
                have hrd : (readerExit cfg (s.signalReady (some (.text rest)))).ready =
                    (s.signalReady (some (.text rest))).ready := c2
                refine ⟨.fresh ⟨c1.1, c1.2, c1.3, c1.4, c1.5, .inr (.inr ⟨rfl, closeConn_closed _⟩), c1.7⟩ ?_ ?_ (fun e => by cases e) (.inl rfl), .inl ?_⟩
                · have : (readerExit cfg (s.signalReady (some (.text rest)))).log = s.log ++ m := by
                    rw [← g1]; exact c6
                  rw [this, pipe_append, c7, List.append_nil]; exact hp
                · right
                  refine ⟨rfl, ?_⟩
                  rw [hrd]
                  rcases signalReady_from s (some (.text rest)) with h | ⟨_, h⟩
                  · rw [h, hry]; simp
                  · rw [h]; simp
                · unfold CliErr
                  rw [hrd]
                  rcases signalReady_from s (some (.text rest)) with h | ⟨h1, h⟩
                  · exact .inl h
                  · exact .inr ⟨h1, _, h, .inl ⟨rest, rfl, h0⟩⟩
              · have hna : isAck (t, c :: rest) = false := by simp [isAck, e1, e2, e3]
                unfold handleACK
                simp only [e1, e2, e3, if_false]
                cases t with
                | text => exact ⟨.fresh ⟨hf.1, hf.2, hf.3, hf.4, hf.5, hf.6, hf.7⟩ hp hy hk (.inr (hnext hna)), .inl (.inl rfl)⟩
                | binary => exact ⟨.fresh ⟨hf.1, hf.2, hf.3, hf.4, hf.5, hf.6, hf.7⟩ hp hy hk (.inr (hnext hna)), .inl (.inl rfl)⟩
    · cases he

/-! ### Both sides -/

structure DialInv (cc sc : Cfg) (id : Bytes) (ops : List SessOp) (s : Sess) : Prop where
  rc : Reach cc [] s.c
  rd : Reach sc id s.d
  srv : SrvStage id s.up s.d
  cli : CliStage id s.d.log s.down s.c
  len : s.down ≤ (pipe s.d.log).length
  from_ : ∀ x, s.d.ready = some x → ∃ pre op post, ops = pre ++ SessOp.server op :: post ∧ Decides op x ∧
    ∀ r, SessOp.server (.ready r) ∉ pre
  none_ : s.d.ready = none → ∀ r, SessOp.server (.ready r) ∉ ops
  err : ∀ e, s.c.ready = some (some e) → (∃ x, e = .text x ∧ firstAck s.d.log = some (.text, 72 :: x)) ∨
    SessOp.client (.readErr e) ∈ ops

theorem steal_plain {s : St} {i : Nat} {t : MsgType} {b : Bytes} (h : PlainAsks s) :
    step cfg s (.steal i t b) = none := by
  unfold step
  have : exec cfg s (.steal i t b) = none := by
    simp only [exec, steal]
    split
    · rfl
    · rename_i a ha
      rw [(h a (List.mem_of_getElem? ha)).2.1]; simp
  rw [this]

/-- a step of the server -/
theorem DialInv.server {ops : List SessOp} {s : Sess} {d' : St} {o : Op} {op : SessOp} {up' : Nat}
    (h : DialInv cc sc id ops s) (hs : step sc s.d o = some d')
    (hst : SrvStage id up' d') (hrd : RdyFrom o s.d d')
    (hop : op = .server o ∨ (d'.ready = s.d.ready ∧ ∀ r, op ≠ .server (.ready r))) :
    DialInv cc sc id (ops ++ [op]) { s with d := d', up := up' } := by
  have g := Prims.grows (reach_prims h.rd hs)
  obtain ⟨l, hl⟩ := g.log
  refine ⟨h.rc, .step h.rd hs, hst, h.cli.mono g.log h.len, ?_, ?_, ?_, ?_⟩
  · dsimp only
    rw [← hl, pipe_append, List.length_append]
    have := h.len
    omega
  · intro x hx
    dsimp only at hx
    have old : s.d.ready = some x → ∃ pre o' post, ops ++ [op] = pre ++ SessOp.server o' :: post ∧ Decides o' x ∧
        ∀ r, SessOp.server (.ready r) ∉ pre := by
      intro hx
      obtain ⟨pre, o', post, h1, h2, h3⟩ := h.from_ x hx
      exact ⟨pre, o', post ++ [op], by rw [h1]; simp, h2, h3⟩
    rcases hrd with hrd | ⟨h0, y, hy, hd⟩
    · exact old (hrd ▸ hx)
    · rcases hop with rfl | ⟨hop, _⟩
      · rw [hx] at hy; cases hy
        exact ⟨ops, o, [], rfl, hd, h.none_ h0⟩
      · exact old (hop ▸ hx)
  · intro hx r
    dsimp only at hx
    have h0 : s.d.ready = none := by
      cases hy : s.d.ready with
      | none => rfl
      | some y => rw [g.ready y hy] at hx; cases hx
    intro hm
    rcases List.mem_append.mp hm with hm | hm
    · exact h.none_ h0 r hm
    · rcases hop with rfl | ⟨_, hop⟩
      · simp at hm; subst hm
        have he := (step_exec hs).1
        cases he
        unfold St.signalReady at hx
        rw [h0] at hx
        cases hx
      · exact hop r (List.mem_singleton.mp hm).symm
  · intro e he
    rcases h.err e he with ⟨x, h1, h2⟩ | h1
    · exact .inl ⟨x, h1, firstAck_mono g.log h2⟩
    · exact .inr (List.mem_append_left _ h1)

/-- a step of the client -/
theorem DialInv.client {ops : List SessOp} {s : Sess} {c' : St} {o : Op} {op : SessOp} {down' : Nat}
    (h : DialInv cc sc id ops s) (hs : step cc s.c o = some c')
    (hst : CliStage id s.d.log down' c') (hlen : down' ≤ (pipe s.d.log).length)
    (herr : CliErr s.d.log o s.c c' ∨ c'.ready = some none)
    (hsrv : ∀ o', op ≠ .server o') (hop : op = .client o ∨ ∀ e, o ≠ .readErr e) :
    DialInv cc sc id (ops ++ [op]) { s with c := c', down := down' } := by
  refine ⟨.step h.rc hs, h.rd, h.srv, hst, hlen, ?_, ?_, ?_⟩
  · intro x hx
    obtain ⟨pre, o', post, h1, h2, h3⟩ := h.from_ x hx
    exact ⟨pre, o', post ++ [op], by rw [h1]; simp, h2, h3⟩
  · intro hx r hm
    rcases List.mem_append.mp hm with hm | hm
    · exact h.none_ hx r hm
    · exact hsrv _ (List.mem_singleton.mp hm).symm
  · intro e he
    dsimp only at he
    rcases herr with herr | herr
    · rcases herr with h1 | ⟨h0, e', h1, h2⟩
      · rw [h1] at he
        rcases h.err e he with h2 | h2
        · exact .inl h2
        · exact .inr (List.mem_append_left _ h2)
      · rw [he] at h1; cases h1
        rcases h2 with h2 | h2
        · exact .inl h2
        · rcases hop with rfl | hop
          · exact .inr (by rw [h2]; simp)
          · exact absurd h2 (hop e)
    · rw [he] at herr; cases herr

theorem newConn_eq (hn : cfg.onlyNative = false) (id : Bytes) : newConn cfg id = { id := id } := by
  unfold newConn; rw [hn]; rfl

theorem dial_inv {ops : List SessOp} {s : Sess} (hcn : cc.onlyNative = false)
    (hsc : sc.isClient = false) (hsn : sc.onlyNative = false) (h : DialRun cc sc id ops s) :
    DialInv cc sc id ops s := by
  induction h with
  | init =>
    refine ⟨.init, .init, ?_, ?_, Nat.zero_le _, ?_, ?_, ?_⟩
    · simp only [newSess, newConn_eq hsn]
      exact .fresh ⟨rfl, rfl, rfl, rfl, rfl, .inl rfl, by simp⟩ rfl rfl rfl rfl (fun _ => rfl)
    · simp only [newSess, newConn_eq hcn]
      exact .fresh ⟨rfl, rfl, rfl, rfl, rfl, .inl rfl, by simp⟩ (.inl rfl) (.inl rfl) (by simp) (.inr (by simp))
    · intro x hx; simp [newSess, newConn_eq hsn] at hx
    · simp
    · intro e he; simp [newSess, newConn_eq hcn] at he
  | @step ops s s' op hr hrule hs ih =>
    have hsrv : ∀ o d', op = .server o ∨ op = .up ∨ (∃ i, op = .upAsk i) → step sc s.d o = some d' →
        (firstAck s.d.log ≠ none) → SrvStage id s'.up d' ∧ d'.ready = s.d.ready := by
      intro o d' _ ho hfa
      apply srv_answered_step ih.rd ho
      cases ih.srv with
      | fresh _ _ _ h _ _ => exact absurd h hfa
      | dead _ _ _ h => exact absurd h hfa
      | acc h1 h2 h3 h4 => exact .inl ⟨h1, h2, h3, h4⟩
      | rej e h1 h2 h3 => exact .inr ⟨e, h1, h2, h3⟩
    -- while the server has not answered, the client has sent at most its acknowledgement
    have hcli : firstAck s.d.log = none → (pipe s.c.log = [] ∨ pipe s.c.log = [(.text, b! "M")]) := by
      intro hfa
      cases ih.cli with
      | fresh _ h2 _ _ _ => exact h2
      | acc h _ _ _ => rw [hfa] at h; cases h
    cases op with
    | client o =>
      simp only [sstep] at hs
      split at hs
      · cases hs
      · rename_i hro
        cases ho : step cc s.c o with
        | none => rw [ho] at hs; cases hs
        | some c' =>
          rw [ho] at hs; cases hs
          obtain ⟨h1, h2⟩ := cli_step hcn ih.rc ih.cli hrule ho
          exact ih.client ho h1 ih.len (.inl h2) (by intro o' e; cases e) (.inl rfl)
    | server o =>
      simp only [sstep] at hs
      split at hs
      · cases hs
      · rename_i hro
        cases ho : step sc s.d o with
        | none => rw [ho] at hs; cases hs
        | some d' =>
          rw [ho] at hs; cases hs
          by_cases hfa : firstAck s.d.log = none
          · have : SrvStage id s.up d' ∧ RdyFrom o s.d d' := by
              cases hst : ih.srv with
              | fresh h1 h2 h3 h4 h5 h6 =>
                refine srv_fresh_step hsc hsn h1 h2 h3 h4 h5 h6 (by simpa using hro) hrule.1 ?_ ho
                intro m hm
                rcases hrule.2 m hm with h | h
                · rw [h1.acked] at h; cases h
                · exact h
              | dead h1 h2 h3 h4 => exact srv_dead_step hsn h1 h2 h3 h4 hrule.1 ho
              | acc h _ _ _ => rw [hfa] at h; cases h
              | rej e h _ _ => rw [hfa] at h; cases h
            exact ih.server ho this.1 this.2 (.inl rfl)
          · obtain ⟨h1, h2⟩ := hsrv o d' (.inl rfl) ho hfa
            exact ih.server ho h1 (.inl h2) (.inl rfl)
    | up =>
      simp only [sstep] at hs
      split at hs
      · cases hs
      · rename_i t b hx
        cases ho : step sc s.d (.recv t b) with
        | none => rw [ho] at hs; cases hs
        | some d' =>
          rw [ho] at hs; cases hs
          by_cases hfa : firstAck s.d.log = none
          · have hM : s.up = 0 ∧ t = .text ∧ b = b! "M" := by
              rcases hcli hfa with h | h
              · rw [h] at hx; simp at hx
              · rw [h] at hx
                cases hu : s.up with
                | zero => rw [hu] at hx; simp at hx; exact ⟨rfl, hx.1.symm, hx.2.symm⟩
                | succ n => rw [hu] at hx; simp at hx
            obtain ⟨hu, rfl, rfl⟩ := hM
            have : SrvStage id (s.up + 1) d' ∧ d'.ready = s.d.ready := by
              cases hst : ih.srv with
              | fresh h1 h2 h3 h4 h5 h6 => exact srv_fresh_recv hsn h1 h2 h3 h4 h5 ho
              | dead h1 h2 h3 h4 =>
                exfalso
                have := (step_exec ho).1
                simp [exec, h2] at this
              | acc h _ _ _ => rw [hfa] at h; cases h
              | rej e h _ _ => rw [hfa] at h; cases h
            exact ih.server ho this.1 (.inl this.2) (.inr ⟨this.2, by intro r e; cases e⟩)
          · obtain ⟨h1, h2⟩ := hsrv _ d' (.inr (.inl rfl)) ho hfa
            exact ih.server ho h1 (.inl h2) (.inr ⟨h2, by intro r e; cases e⟩)
    | upAsk i =>
      simp only [sstep] at hs
      split at hs
      · cases hs
      · rename_i t b hx
        cases ho : step sc s.d (.steal i t b) with
        | none => rw [ho] at hs; cases hs
        | some d' =>
          rw [ho] at hs; cases hs
          by_cases hfa : firstAck s.d.log = none
          · exfalso
            have : PlainAsks s.d := by
              cases hst : ih.srv with
              | fresh h1 h2 h3 h4 h5 h6 => exact h1.asks
              | dead h1 h2 h3 h4 => exact h3
              | acc h _ _ _ => rw [hfa] at h; cases h
              | rej e h _ _ => rw [hfa] at h; cases h
            rw [steal_plain this] at ho; cases ho
          · obtain ⟨h1, h2⟩ := hsrv _ d' (.inr (.inr ⟨i, rfl⟩)) ho hfa
            exact ih.server ho h1 (.inl h2) (.inr ⟨h2, by intro r e; cases e⟩)
    | down =>
      simp only [sstep] at hs
      split at hs
      · cases hs
      · rename_i t b hx
        cases ho : step cc s.c (.recv t b) with
        | none => rw [ho] at hs; cases hs
        | some c' =>
          rw [ho] at hs; cases hs
          obtain ⟨h1, h2⟩ := cli_recv hcn ih.rc ih.cli ih.srv hx ho
          have hlt : s.down < (pipe s.d.log).length := (List.getElem?_eq_some_iff.mp hx).1
          exact ih.client ho h1 hlt h2 (by intro o' e; cases e) (.inr (by intro e h; cases h))
    | downAsk i =>
      simp only [sstep] at hs
      split at hs
      · cases hs
      · rename_i t b hx
        cases ho : step cc s.c (.steal i t b) with
        | none => rw [ho] at hs; cases hs
        | some c' =>
          rw [ho] at hs; cases hs
          have hlt : s.down < (pipe s.d.log).length := (List.getElem?_eq_some_iff.mp hx).1
          cases hst : ih.cli with
          | fresh h1 h2 h3 h4 h5 => rw [steal_plain h1.asks] at ho; cases ho
          | acc h1 h2 h3 h4 =>
            obtain ⟨k1, k2⟩ := cli_step hcn ih.rc ih.cli (.inl h2) ho
            refine ih.client ho ?_ hlt (.inl k2) (by intro o' e; cases e) (.inr (by intro e h; cases h))
            cases k1 with
            | fresh _ _ h _ _ =>
              have := (Prims.grows (reach_prims ih.rc ho)).ready _ h2
              rcases h with h | h
              · rw [h] at this; cases this
              · exact absurd this h.2
            | acc h1 h2 h3 h4 => exact .acc h1 h2 h3 h4

/-! ### The handshake completes -/

theorem step_of_exec {s t : St} {op : Op} (h : exec cfg s op = some t) (hh : t.hung = false) :
    step cfg s op = some t := by
  unfold step; rw [h]; simp [hh]

theorem rawWrite_accept {s : St} {b : Bytes} {bin : Bool} (h : cfg.sock s.log bin b = none) :
    rawWrite cfg s b bin = (s.emit (.sent bin b true), true) := by
  unfold rawWrite; simp [h]

theorem closeConn_hung_empty {s : St} (hn : cfg.onlyNative = false) (hs : s.connected = []) :
    (closeConn cfg s).hung = s.hung := by
  rcases closeConn_empty hn hs with e | e <;> rw [e]
  unfold closeEnd; split <;> rfl

theorem ackReady_answers {s : St} {r : Option GoErr} (hn : cfg.onlyNative = false) (hf : Fresh s)
    (hqt : s.queueText = []) (hqb : s.queueBinary = []) (hsock : ∀ l b p, cfg.sock l b p = none) :
    (ackReady cfg s r).hung = s.hung ∧ ∃ p ∈ pipe (ackReady cfg s r).log, isAck p = true := by
  unfold ackReady
  cases r with
  | some e =>
    dsimp only
    rw [rawWrite_accept (hsock _ _ _)]
    dsimp only
    obtain ⟨_, _, _, _, l, h1, h2⟩ := closeConn_keeps (cfg := cfg)
      (s := s.emit (.sent false (72 :: e.errorText) true)) hn hf.connected
    refine ⟨closeConn_hung_empty (s := s.emit (.sent false (72 :: e.errorText) true)) hn hf.connected,
      (.text, 72 :: e.errorText), ?_, rfl⟩
    show _ ∈ pipe (closeConn cfg (s.emit (.sent false (72 :: e.errorText) true))).log
    rw [h1, pipe_append]
    simp [St.emit, pipe_append, pipe]
  | none =>
    dsimp only
    have hq : (if cfg.textFirst s.log = true then
        s.queueText.map (MsgType.text, ·) ++ s.queueBinary.map (MsgType.binary, ·)
      else s.queueBinary.map (MsgType.binary, ·) ++ s.queueText.map (MsgType.text, ·)) = [] := by
      rw [hqt, hqb]; split <;> rfl
    rw [hq]
    simp only [drain, if_true]
    unfold finishAck
    dsimp only
    rw [rawWrite_accept (hsock _ _ _)]
    refine ⟨rfl, (.text, 65 :: s.id), ?_, rfl⟩
    simp [St.emit, pipe_append, pipe]

theorem firstAck_ne {log : List Obs} (h : ∃ p ∈ pipe log, isAck p = true) : firstAck log ≠ none := by
  obtain ⟨p, h1, h2⟩ := h
  intro hn
  unfold firstAck at hn
  rw [List.find?_eq_none] at hn
  exact hn p h1 h2

/-- the client reads one payload while it waits for the answer -/
theorem cli_read {s : St} {t : MsgType} {b : Bytes} (hn : cfg.onlyNative = false) (hf : Fresh s)
    (hr : s.ready = none) : (recv cfg s t b).hung = s.hung ∧
      ((recv cfg s t b).ready ≠ none ∨
        ((recv cfg s t b).ready = none ∧ (recv cfg s t b).closed = s.closed)) := by
  unfold recv
  split
  · exact ⟨rfl, .inr ⟨hr, rfl⟩⟩
  · rw [hf.acked]
    simp only [Bool.false_eq_true, if_false]
    unfold handleACK
    split
    · exact ⟨rfl, .inr ⟨hr, rfl⟩⟩
    · split
      · rw [hr]; exact ⟨rfl, .inr ⟨rfl, rfl⟩⟩
      · split
        · unfold St.signalReady
          dsimp only
          rw [hr]
          exact ⟨rfl, .inl (by simp)⟩
        · split
          · unfold readerExit
            rename_i rest _ _ _ _
            have hg : (s.signalReady (some (.text rest))).connected = [] := by
              unfold St.signalReady; rw [hr]; exact hf.connected
            obtain ⟨c1, _⟩ := closeConn_keeps (cfg := cfg) hn hg
            refine ⟨?_, .inl ?_⟩
            · show (closeConn cfg _).hung = _
              rw [closeConn_hung_empty hn hg]
              unfold St.signalReady; rw [hr]
            · show (closeConn cfg _).ready ≠ none
              rw [c1]
              unfold St.signalReady; rw [hr]; simp
          · cases t <;> exact ⟨rfl, .inr ⟨hr, rfl⟩⟩

theorem reads_until {ops0 : List SessOp} {s : Sess} (hcn : cc.onlyNative = false)
    (h : DialInv cc sc id ops0 s) (ho : s.c.closed = false) (hr : s.c.ready = none)
    (ha : ∃ p ∈ pipe s.d.log, isAck p = true) :
    ∃ n s', srun cc sc s (List.replicate n .down) = some s' ∧ s'.c.ready ≠ none := by
  generalize hm : (pipe s.d.log).length - s.down = m
  induction m generalizing s ops0 with
  | zero =>
    exfalso
    cases h.cli with
    | acc _ h2 _ _ => rw [hr] at h2; cases h2
    | fresh h1 h2 h3 h4 h5 =>
      rcases h5 with h5 | h5
      · rcases h1.rd with h | h | h
        · rw [h] at h5; cases h5
        · rw [h] at h5; cases h5
        · rw [ho] at h; cases h.2
      · obtain ⟨p, p1, p2⟩ := ha
        rw [List.take_of_length_le (by omega)] at h5
        rw [h5 p p1] at p2; cases p2
  | succ m ih =>
    cases hst : h.cli with
    | acc _ h2 _ _ => rw [hr] at h2; cases h2
    | fresh h1 h2 h3 h4 h5 =>
      have hrd : s.c.rd = .idle := by
        rcases h1.rd with h | h | h
        · exact h
        · exact absurd h h4
        · rw [ho] at h; cases h.2
      have hlt : s.down < (pipe s.d.log).length := by omega
      obtain ⟨t, b, hx⟩ : ∃ t b, (pipe s.d.log)[s.down]? = some (t, b) :=
        ⟨_, _, List.getElem?_eq_getElem hlt⟩
      obtain ⟨k1, k2⟩ := cli_read (cfg := cc) (t := t) (b := b) hcn h1 hr
      have hstep : step cc s.c (.recv t b) = some (recv cc s.c t b) := by
        refine step_of_exec ?_ (by rw [k1]; exact reach_hung h.rc)
        simp [exec, hrd, h1.todo, h1.ackAfter]
      have hs : sstep cc sc s .down = some { s with c := recv cc s.c t b, down := s.down + 1 } := by
        simp [sstep, hx, hstep]
      rcases k2 with k2 | ⟨k2, k3⟩
      · refine ⟨1, { s with c := recv cc s.c t b, down := s.down + 1 }, ?_, k2⟩
        simp only [List.replicate_succ, List.replicate_zero, srun, hs]
      · obtain ⟨c1, c2⟩ := cli_recv hcn h.rc h.cli h.srv hx hstep
        have hinv := h.client hstep c1 hlt c2 (op := .down) (by intro o e; cases e) (.inr (by intro e h; cases h))
        obtain ⟨n, s', n1, n2⟩ := ih hinv (k3.trans ho) k2 ha (by dsimp only; omega)
        exact ⟨n + 1, s', by simp only [List.replicate_succ, srun, hs]; exact n1, n2⟩

/-- steps that only pass payloads on -/
def Passes (op : SessOp) : Prop := op = .up ∨ op = .down ∨ op = .server .wake

theorem sstep_server_ready {s s' : Sess} {op : SessOp} {r : Option GoErr} (hd : Reach sc id s.d)
    (hr : s.d.ready = some r) (h : sstep cc sc s op = some s') : s'.d.ready = some r := by
  cases op with
  | client o =>
    simp only [sstep] at h
    split at h
    · cases h
    · cases ho : step cc s.c o <;> rw [ho] at h <;> cases h
      exact hr
  | server o =>
    simp only [sstep] at h
    split at h
    · cases h
    · cases ho : step sc s.d o <;> rw [ho] at h <;> cases h
      exact (Prims.grows (reach_prims hd ho)).ready _ hr
  | up =>
    simp only [sstep] at h
    split at h
    · cases h
    · rename_i t b _
      cases ho : step sc s.d (.recv t b) <;> rw [ho] at h <;> cases h
      exact (Prims.grows (reach_prims hd ho)).ready _ hr
  | down =>
    simp only [sstep] at h
    split at h
    · cases h
    · rename_i t b _
      cases ho : step cc s.c (.recv t b) <;> rw [ho] at h <;> cases h
      exact hr
  | upAsk i =>
    simp only [sstep] at h
    split at h
    · cases h
    · rename_i t b _
      cases ho : step sc s.d (.steal i t b) <;> rw [ho] at h <;> cases h
      exact (Prims.grows (reach_prims hd ho)).ready _ hr
  | downAsk i =>
    simp only [sstep] at h
    split at h
    · cases h
    · rename_i t b _
      cases ho : step cc s.c (.steal i t b) <;> rw [ho] at h <;> cases h
      exact hr

theorem dial_passes {ops ops' : List SessOp} {s s' : Sess} {r : Option GoErr} (hcn : cc.onlyNative = false)
    (hsc : sc.isClient = false) (hsn : sc.onlyNative = false) (h : DialRun cc sc id ops s)
    (hp : ∀ op ∈ ops', Passes op) (hr : s.d.ready = some r) (hs : srun cc sc s ops' = some s') :
    DialRun cc sc id (ops ++ ops') s' ∧ s'.d.ready = some r := by
  induction ops' generalizing ops s with
  | nil => simp only [srun] at hs; cases hs; simpa using ⟨h, hr⟩
  | cons op ops' ih =>
    simp only [srun] at hs
    cases ho : sstep cc sc s op with
    | none => rw [ho] at hs; cases hs
    | some s1 =>
      rw [ho] at hs
      have hrule : DialRules s op := by
        rcases hp op (by simp) with rfl | rfl | rfl
        · trivial
        · trivial
        · exact ⟨by simp, by intro m hm; cases hm⟩
      have := ih (h.step hrule ho) (fun o ho => hp o (by simp [ho]))
        (sstep_server_ready (dial_inv hcn hsc hsn h).rd hr ho) hs
      simpa using this

theorem recv_ack_M {s : St} {t : MsgType} (hc : s.closed = false) (ha : s.acked = false) :
    recv cfg s t [77] = match s.ready with
      | some r => ackReady cfg s r
      | none => { s with rd := .ack } := by
  unfold recv
  simp only [hc, Bool.false_eq_true, if_false, ha]
  unfold handleACK
  simp
  cases s.ready <;> simp [hc, ha]

/-- the server's verdict is there and the client's acknowledgement on its way: the server
answers next -/
theorem srv_answers {ops : List SessOp} {s : Sess} {r : Option GoErr} (hsn : sc.onlyNative = false)
    (hi : DialInv cc sc id ops s) (hsock : ∀ l b p, sc.sock l b p = none)
    (hM : pipe s.c.log ≠ []) (hr : s.d.ready = some r) (hc : s.d.closed = false)
    (hfa : firstAck s.d.log = none) :
    ∃ op s', Passes op ∧ sstep cc sc s op = some s' ∧ s'.c = s.c ∧ ∃ p ∈ pipe s'.d.log, isAck p = true := by
  have hM : pipe s.c.log = [(.text, [77])] := by
    cases hi.cli with
    | fresh _ h2 _ _ _ => exact h2.resolve_left hM
    | acc h _ _ _ => rw [hfa] at h; cases h
  cases hi.srv with
  | dead h _ _ _ => rw [hc] at h; cases h
  | acc h _ _ _ => rw [hfa] at h; cases h
  | rej e h _ _ => rw [hfa] at h; cases h
  | fresh h1 h2 h3 h4 h5 h6 =>
    obtain ⟨k1, k2⟩ := ackReady_answers (r := r) hsn h1 h2 h3 hsock
    rcases h1.rd with hrd | hrd | hrd
    · have hup : s.up = 0 := h6 hrd
      have e : recv sc s.d .text [77] = ackReady sc s.d r := by
        rw [recv_ack_M hc h1.acked, hr]
      refine ⟨.up, { s with d := ackReady sc s.d r, up := s.up + 1 }, .inl rfl, ?_, rfl, k2⟩
      have hs : step sc s.d (.recv .text [77]) = some (ackReady sc s.d r) := by
        refine step_of_exec ?_ (by rw [k1]; exact reach_hung hi.rd)
        simp [exec, hrd, h1.todo, h1.ackAfter, e]
      simp [sstep, hM, hup, hs]
    · refine ⟨.server .wake, { s with d := ackReady sc s.d r }, .inr (.inr rfl), ?_, rfl, k2⟩
      have hs : step sc s.d .wake = some (ackReady sc s.d r) := by
        refine step_of_exec ?_ (by rw [k1]; exact reach_hung hi.rd)
        simp [exec, wakeReader, hrd, hr]
      simp [sstep, hs, Op.reads]
    · rw [hc] at hrd; cases hrd.2

end Neffos
