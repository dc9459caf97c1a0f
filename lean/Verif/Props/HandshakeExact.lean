import Verif.Props.Handshake
import Verif.Proofs.GateHeld
/-!
# C92: the handshake, exactly
-/
set_option autoImplicit false
namespace Neffos
open Spec

variable {cfg : Cfg} {id : Bytes}

/-! ## Spec: what the first byte of a payload says before the acknowledgement -/

/-- the non-empty payloads that the reader read, in order -/
def payloadsRead (ops : List Op) : List (MsgType × Bytes) :=
  ops.filterMap fun
    | .recv t b => if b = [] then none else some (t, b)
    | _ => none

/-- the payload starts with `M`, `A` or `H` -/
def isMark (p : MsgType × Bytes) : Bool := p.2.head? = some 77 || p.2.head? = some 65 || p.2.head? = some 72

/-- the first payload that does -/
def firstMark (ops : List Op) : Option (MsgType × Bytes) := (payloadsRead ops).find? isMark

/-- the payloads before it -/
def beforeMark (ops : List Op) : List (MsgType × Bytes) := (payloadsRead ops).takeWhile (fun p => !isMark p)

/-- these payloads, by type, are the two queues -/
def QueuesAre (s : St) (ps : List (MsgType × Bytes)) : Prop :=
  s.queueText = ofType .text ps ∧ s.queueBinary = ofType .binary ps

/-- what the handshake of an open connection looks like after these operations -/
def HandshakeIs (id : Bytes) (ops : List Op) (s : St) : Prop :=
  match firstMark ops with
  | none => s.acked = false ∧ s.rd ≠ .ack ∧ s.id = id ∧ QueuesAre s (beforeMark ops)
  | some (_, c :: rest) =>
    if c = 65 then s.acked = true ∧ s.rd ≠ .ack ∧ s.id = rest ∧ QueuesAre s (beforeMark ops)
    else c = 77 ∧ s.id = id ∧
      ((s.acked = false ∧ s.rd = .ack ∧ QueuesAre s (beforeMark ops)) ∨
       (s.acked = true ∧ s.rd ≠ .ack ∧ QueuesAre s []))
  | some (_, []) => False

/-! ## Frames -/

/-- what the handshake consists of stays -/
def HsSame (s t : St) : Prop :=
  (t.queueText = s.queueText ∧ t.queueBinary = s.queueBinary ∧ t.id = s.id) ∧ (s.rd ≠ .ack → t.rd ≠ .ack) ∧
    (t.closed = false → t.acked = s.acked ∧ s.closed = false)

theorem hs_whole : Whole HsSame where
  refl _ := ⟨⟨rfl, rfl, rfl⟩, _root_.id, fun h => ⟨rfl, h⟩⟩
  trans h k := ⟨⟨k.1.1.trans h.1.1, k.1.2.1.trans h.1.2.1, k.1.2.2.trans h.1.2.2⟩, fun x => k.2.1 (h.2.1 x),
    fun x => ⟨(k.2.2 x).1.trans (h.2.2 (k.2.2 x).2).1, (h.2.2 (k.2.2 x).2).2⟩⟩
  emit _ _ := ⟨⟨rfl, rfl, rfl⟩, _root_.id, fun h => ⟨rfl, h⟩⟩
  ready _ _ := ⟨⟨rfl, rfl, rfl⟩, _root_.id, fun h => ⟨rfl, h⟩⟩
  hang _ := ⟨⟨rfl, rfl, rfl⟩, _root_.id, fun h => ⟨rfl, h⟩⟩
  del _ _ _ := ⟨⟨rfl, rfl, rfl⟩, _root_.id, fun h => ⟨rfl, h⟩⟩
  nsDel _ _ := ⟨⟨rfl, rfl, rfl⟩, _root_.id, fun h => ⟨rfl, h⟩⟩
  closed _ := ⟨⟨rfl, rfl, rfl⟩, _root_.id, fun h => by cases h⟩
  waiting _ _ := ⟨⟨rfl, rfl, rfl⟩, _root_.id, fun h => ⟨rfl, h⟩⟩
  unack _ hc := ⟨⟨rfl, rfl, rfl⟩, _root_.id, fun h => by rw [show _ = true from hc] at h; cases h⟩
  newObj _ _ := ⟨⟨rfl, rfl, rfl⟩, _root_.id, fun h => ⟨rfl, h⟩⟩
  addRoom _ _ _ := ⟨⟨rfl, rfl, rfl⟩, _root_.id, fun h => ⟨rfl, h⟩⟩
  nsAdd _ _ _ := ⟨⟨rfl, rfl, rfl⟩, _root_.id, fun h => ⟨rfl, h⟩⟩
  rd _ _ h := ⟨⟨rfl, rfl, rfl⟩, fun _ => h, fun h => ⟨rfl, h⟩⟩
  todo _ _ _ := ⟨⟨rfl, rfl, rfl⟩, _root_.id, fun h => ⟨rfl, h⟩⟩
  asks _ _ := ⟨⟨rfl, rfl, rfl⟩, _root_.id, fun h => ⟨rfl, h⟩⟩
  wait _ _ := ⟨⟨rfl, rfl, rfl⟩, _root_.id, fun h => ⟨rfl, h⟩⟩
  gates _ _ := ⟨⟨rfl, rfl, rfl⟩, _root_.id, fun h => ⟨rfl, h⟩⟩
  srv _ _ := ⟨⟨rfl, rfl, rfl⟩, _root_.id, fun h => ⟨rfl, h⟩⟩

/-- only `wake` ends the reader's wait for OnConnect -/
theorem ack_stays {s s' : St} {op : Op} (hrd : s.rd = .ack) (ho : op ≠ .wake) (hs : step cfg s op = some s') :
    s'.rd = .ack := by
  have q := rdKeep_outer
  have keep : RdKeep s s' → s'.rd = .ack := fun k => (show s'.rd = s.rd from k).trans hrd
  obtain ⟨he, _⟩ := step_exec hs
  cases op with
  | recv t b => simp [exec, hrd] at he
  | readErr e => simp [exec, hrd] at he
  | wake => exact absurd rfl ho
  | contReader => simp [exec, contReader, hrd] at he
  | connect ns now ex => simp only [exec] at he; cases he; exact keep (q.connect _ _ _ _ trivial)
  | disconnect obj now ex =>
    simp only [exec] at he
    split at he
    · cases he
      refine keep ?_
      unfold disconnect
      dsimp only
      split
      · exact q.emit _ _
      · exact q.startAsk _ _ _ _ _ trivial
    · cases he
  | join obj room now ex =>
    simp only [exec] at he
    split at he
    · cases he
      refine keep ?_
      unfold joinRoom
      dsimp only
      split
      · exact q.emit _ _
      · exact q.startAsk _ _ _ _ _ trivial
    · cases he
  | leave obj room now ex =>
    simp only [exec] at he
    split at he
    · cases he
      refine keep ?_
      unfold leaveRoom
      dsimp only
      split
      · exact q.startAsk _ _ _ _ _ trivial
      · exact q.emit _ _
    · cases he
  | ask msg now ex => simp only [exec] at he; cases he; exact keep (q.startAsk _ _ _ _ _ trivial)
  | write m => simp only [exec] at he; cases he; exact keep (q.toCalm.write _ _)
  | resume i =>
    simp only [exec, resume] at he
    split at he
    · cases he
    · rename_i a ha
      split at he
      · cases he
      · split at he
        · cases he
        · cases he
          refine ((show _ = _ from q.finish _ _ _ _) : _ = (forget (endAsk (takeAnswer s i a) i) a).rd).trans ?_
          have tk : (takeAnswer s i a).rd = .ack := by
            unfold takeAnswer
            rw [hrd]
          unfold forget endAsk
          (repeat' split) <;> exact tk
  | cancel i e =>
    simp only [exec, cancel] at he
    split at he
    · cases he
    · split at he
      · cases he
      · cases he
        exact keep (q.trans (q.endAsk _ _ trivial) (q.finish _ _ _ _))
  | close => simp only [exec] at he; cases he; exact keep (q.toCalm.closeConn _)
  | steal i t b =>
    simp only [exec, steal] at he
    split at he
    · cases he
    · split at he
      · cases he; exact hrd
      · cases he
  | stealErr i e =>
    simp only [exec, steal] at he
    split at he
    · cases he
    · split at he
      · cases he; exact hrd
      · cases he
  | ready e =>
    simp only [exec] at he
    cases he
    unfold St.signalReady
    split <;> exact hrd
  | sendAck =>
    simp only [exec] at he
    split at he
    · cases he; exact hrd
    · have k := q.toCalm.rawWrite (cfg := cfg) s (b! "M") false
      revert he k
      generalize rawWrite cfg s (b! "M") false = p
      obtain ⟨t, ok⟩ := p
      intro he k
      cases ok with
      | true => cases he; exact keep k
      | false => cases he; exact keep (q.trans k (q.toCalm.closeConn _))
  | srvAsk tok => simp only [exec] at he; cases he; exact hrd
  | srvUnask tok => simp only [exec] at he; cases he; exact hrd

/-! ## One step -/

theorem firstMark_append (ops ops' : List Op) :
    firstMark (ops ++ ops') = (firstMark ops).or (firstMark ops') := by
  simp [firstMark, payloadsRead, List.find?_append]

theorem beforeMark_marked {ops : List Op} (h : (firstMark ops).isSome = true) (ops' : List Op) :
    beforeMark (ops ++ ops') = beforeMark ops := by
  unfold firstMark at h
  unfold beforeMark
  have e : payloadsRead (ops ++ ops') = payloadsRead ops ++ payloadsRead ops' := by simp [payloadsRead]
  rw [e]
  generalize payloadsRead ops = l at h
  induction l with
  | nil => cases h
  | cons p l ih =>
    by_cases hp : isMark p = true
    · simp [hp]
    · have hp' : isMark p = false := by simpa using hp
      rw [List.find?_cons_of_neg (by simp [hp'])] at h
      simp [hp', ih h]

theorem beforeMark_plain {ops : List Op} (h : firstMark ops = none) (ops' : List Op) :
    beforeMark (ops ++ ops') = beforeMark ops ++ beforeMark ops' := by
  unfold firstMark at h
  unfold beforeMark
  have e : payloadsRead (ops ++ ops') = payloadsRead ops ++ payloadsRead ops' := by simp [payloadsRead]
  rw [e]
  generalize payloadsRead ops = l at h
  induction l with
  | nil => rfl
  | cons p l ih =>
    rw [List.find?_cons] at h
    split at h
    · cases h
    · rename_i hp; simp [hp, ih h]

/-- operations other than a receive of a payload say nothing -/
theorem handshakeIs_quiet {ops : List Op} {op : Op} {s : St} (ho : payloadsRead [op] = []) :
    HandshakeIs id (ops ++ [op]) s ↔ HandshakeIs id ops s := by
  have h1 : firstMark (ops ++ [op]) = firstMark ops := by
    rw [firstMark_append]; simp [firstMark, ho]
  have h2 : beforeMark (ops ++ [op]) = beforeMark ops := by
    simp only [beforeMark, payloadsRead, List.filterMap_append] at ho ⊢
    rw [ho, List.append_nil]
  unfold HandshakeIs
  rw [h1, h2]

theorem ofType_snoc (t u : MsgType) (ps : List (MsgType × Bytes)) (b : Bytes) :
    ofType t (ps ++ [(u, b)]) = ofType t ps ++ if u = t then [b] else [] := by
  by_cases h : u = t <;> simp [ofType, h]

/-- after the mark nothing changes any more, but for the reader's wait -/
theorem handshakeIs_marked {ops : List Op} {op : Op} {s : St} (hm : (firstMark ops).isSome = true) :
    HandshakeIs id (ops ++ [op]) s ↔ HandshakeIs id ops s := by
  have h1 : firstMark (ops ++ [op]) = firstMark ops := by
    rw [firstMark_append]
    obtain ⟨x, hx⟩ := Option.isSome_iff_exists.mp hm
    rw [hx]; rfl
  unfold HandshakeIs
  rw [h1, beforeMark_marked hm]

theorem HandshakeIs.same {ops : List Op} {s t : St} (h : HandshakeIs id ops s) (hs : HsSame s t)
    (hc : t.closed = false) (hrd : s.rd = .ack → t.rd = .ack) : HandshakeIs id ops t := by
  obtain ⟨⟨h1, h2, h3⟩, h4, h5⟩ := hs
  obtain ⟨h5, _⟩ := h5 hc
  have hq : ∀ ps, QueuesAre s ps → QueuesAre t ps := fun ps h => ⟨h1.trans h.1, h2.trans h.2⟩
  unfold HandshakeIs at h ⊢
  split
  · rename_i hm; rw [hm] at h
    exact ⟨h5.trans h.1, h4 h.2.1, h3.trans h.2.2.1, hq _ h.2.2.2⟩
  · rename_i typ c rest hm
    rw [hm] at h
    dsimp only at h
    split at h
    · rename_i hc; rw [if_pos hc]
      exact ⟨h5.trans h.1, h4 h.2.1, h3.trans h.2.2.1, hq _ h.2.2.2⟩
    · rename_i hc; rw [if_neg hc]
      refine ⟨h.1, h3.trans h.2.1, h.2.2.imp ?_ ?_⟩
      · rintro ⟨a, b, c⟩; exact ⟨h5.trans a, hrd b, hq _ c⟩
      · rintro ⟨a, b, c⟩; exact ⟨h5.trans a, h4 b, hq _ c⟩
  · rename_i hm; rw [hm] at h; exact h

theorem ackReady_hs {s : St} (hc : (ackReady cfg s s.ready.join).closed = false) (e : Option GoErr)
    (he : s.ready.join = e) :
    (ackReady cfg s e).acked = true ∧ (ackReady cfg s e).rd ≠ .ack ∧ QueuesAre (ackReady cfg s e) [] ∧
      (ackReady cfg s e).id = s.id := by
  subst he
  unfold ackReady at hc ⊢
  split
  · rename_i e he
    rw [he] at hc
    dsimp only at hc
    rw [show (readerExit cfg (rawWrite cfg s (72 :: e.errorText) false).1).closed = true from closeConn_closed _] at hc
    cases hc
  · rename_i he
    rw [he] at hc
    dsimp only at hc
    have h := fun l => hs_whole.drain (cfg := cfg) l
      { s with acked := true, queueText := [], queueBinary := [], ackAfter := true, rd := .idle }
    obtain ⟨⟨h1, h2, h3⟩, h4, h5⟩ := h _
    exact ⟨(h5 hc).1, h4 (by simp), ⟨h1, h2⟩, h3⟩

theorem handshake_recv {ops : List Op} {typ : MsgType} {b : Bytes} {s s' : St} (h : HandshakeIs id ops s)
    (ha : s.acked = false) (he : exec cfg s (.recv typ b) = some s') (hc : s'.closed = false) :
    HandshakeIs id (ops ++ [.recv typ b]) s' := by
  simp only [exec] at he
  split at he
  · rename_i hen
    cases he
    have hrd : s.rd = .idle := hen.1
    match b with
    | [] => exact (handshakeIs_quiet rfl).mpr (by simpa [recv] using h)
    | c :: rest =>
      have hm : firstMark ops = none := by
        unfold HandshakeIs at h
        split at h
        · assumption
        · split at h
          · rw [ha] at h; exact absurd h.1 (by simp)
          · rcases h.2.2 with k | k
            · rw [hrd] at k; exact absurd k.2.1 (by simp)
            · rw [ha] at k; exact absurd k.1 (by simp)
        · exact h.elim
      have hh := h
      unfold HandshakeIs at h
      rw [hm] at h
      obtain ⟨_, _, hid, hq⟩ := h
      have hrec : recv cfg s typ (c :: rest) = handleACK cfg s typ (c :: rest) := by simp [recv, ha]
      rw [hrec] at hc ⊢
      have hp : payloadsRead [.recv typ (c :: rest)] = [(typ, c :: rest)] := rfl
      have hb := beforeMark_plain hm [.recv typ (c :: rest)]
      have hf := firstMark_append ops [.recv typ (c :: rest)]
      rw [hm] at hf
      unfold HandshakeIs
      by_cases h77 : c = 77
      · subst h77
        have hf' : firstMark (ops ++ [.recv typ (77 :: rest)]) = some (typ, 77 :: rest) := hf
        have hb' : beforeMark (ops ++ [.recv typ (77 :: rest)]) = beforeMark ops := by
          rw [hb]; exact List.append_nil _
        rw [hf', hb']
        dsimp only
        rw [if_neg (by decide)]
        refine ⟨rfl, ?_⟩
        unfold handleACK at hc ⊢
        simp only [if_true] at hc ⊢
        split
        · exact ⟨hid, .inl ⟨ha, rfl, hq⟩⟩
        · rename_i e hready
          rw [hready] at hc
          dsimp only at hc
          obtain ⟨k1, k2, k3, k4⟩ := ackReady_hs (cfg := cfg) (s := s) (by rw [hready]; exact hc) e (by rw [hready]; rfl)
          exact ⟨k4.trans hid, .inr ⟨k1, k2, k3⟩⟩
      by_cases h65 : c = 65
      · subst h65
        have hf' : firstMark (ops ++ [.recv typ (65 :: rest)]) = some (typ, 65 :: rest) := hf
        have hb' : beforeMark (ops ++ [.recv typ (65 :: rest)]) = beforeMark ops := by
          rw [hb]; exact List.append_nil _
        rw [hf', hb']
        dsimp only
        rw [if_pos rfl]
        unfold handleACK at hc ⊢
        simp only [h77, if_false, if_true] at hc ⊢
        have hne : s.rd ≠ .ack := by rw [hrd]; simp
        unfold St.signalReady
        split <;> exact ⟨rfl, hne, rfl, hq.1, hq.2⟩
      by_cases h72 : c = 72
      · subst h72
        exfalso
        unfold handleACK at hc
        simp only [h77, h65, if_false, if_true] at hc
        rw [show (readerExit cfg (s.signalReady (some (.text rest)))).closed = true from closeConn_closed _] at hc
        cases hc
      have hmk : isMark (typ, c :: rest) = false := by simp [isMark, h77, h65, h72]
      have hf' : firstMark (ops ++ [.recv typ (c :: rest)]) = none := by
        rw [hf]; simp [firstMark, hp, hmk]
      have hb' : beforeMark (ops ++ [.recv typ (c :: rest)]) = beforeMark ops ++ [(typ, c :: rest)] := by
        rw [hb]; simp [beforeMark, hp, hmk]
      rw [hf', hb']
      dsimp only
      unfold handleACK
      simp only [h77, h65, h72, if_false]
      unfold QueuesAre
      rw [ofType_snoc, ofType_snoc]
      cases typ with
      | text => exact ⟨ha, by rw [hrd]; simp, hid, by simp [hq.1], by simp [hq.2]⟩
      | binary => exact ⟨ha, by rw [hrd]; simp, hid, by simp [hq.1], by simp [hq.2]⟩
  · cases he

theorem handshake_step {ops : List Op} {op : Op} {s s' : St} (h : HandshakeIs id ops s)
    (hs : step cfg s op = some s') (hc : s'.closed = false) : HandshakeIs id (ops ++ [op]) s' := by
  have he := (step_exec hs).1
  rcases hs_whole.exec he with hw | ⟨ha, typ, b, rfl⟩ | ⟨rfl, hrd⟩
  · by_cases hq : payloadsRead [op] = []
    · refine (handshakeIs_quiet hq).mpr (h.same hw hc fun hrd => ?_)
      by_cases ho : op = .wake
      · subst ho
        -- the wait ends only by acknowledging, or closing
        simp only [exec, wakeReader, hrd] at he
        split at he
        · cases he
        · rename_i e hready
          cases he
          have := ackReady_hs (cfg := cfg) (s := s) (by rw [hready]; exact hc) e (by rw [hready]; rfl)
          have h1 := (hw.2.2 hc).1
          rw [this.1] at h1
          exfalso
          -- an unacknowledged connection waits
          unfold HandshakeIs at h
          split at h
          · rw [← h1] at h; exact absurd h.1 (by simp)
          · split at h
            · exact h.2.1 hrd
            · rcases h.2.2 with k | k
              · rw [← h1] at k; exact absurd k.1 (by simp)
              · exact k.2.1 hrd
          · exact h
      · exact ack_stays hrd ho hs
    · -- a payload
      cases op with
      | recv typ b =>
        have hb : b ≠ [] := by intro e; subst e; exact hq rfl
        have hen : s.rd = .idle := by
          simp only [exec] at he
          split at he
          · rename_i k; exact k.1
          · cases he
        by_cases ha : s.acked = true
        · have hm : (firstMark ops).isSome = true := by
            unfold HandshakeIs at h
            split at h
            · rw [ha] at h; exact absurd h.1 (by simp)
            · rename_i hm; rw [hm]; rfl
            · exact h.elim
          exact (handshakeIs_marked hm).mpr (h.same hw hc fun k => by rw [hen] at k; cases k)
        · have ha' : s.acked = false := by simpa using ha
          -- the general case below
          exact handshake_recv h ha' he hc
      | _ => exact absurd rfl hq
  · exact handshake_recv h ha he hc
  · simp only [exec, wakeReader, hrd] at he
    split at he
    · cases he
    · rename_i e hready
      cases he
      refine (handshakeIs_quiet rfl).mpr ?_
      obtain ⟨k1, k2, k3, k4⟩ := ackReady_hs (cfg := cfg) (s := s) (by rw [hready]; exact hc) e (by rw [hready]; rfl)
      unfold HandshakeIs at h ⊢
      split
      · rename_i hm; rw [hm] at h; exact absurd hrd h.2.1
      · rename_i typ c rest hm
        rw [hm] at h
        dsimp only at h
        split at h
        · exact absurd hrd h.2.1
        · rename_i hc; rw [if_neg hc]
          exact ⟨h.1, k4.trans h.2.1, .inr ⟨k1, k2, k3⟩⟩
      · rename_i hm; rw [hm] at h; exact h

/-! ## C92 -/

/-- C92: while a connection is open, its handshake state is what the payloads read so far say. -/
theorem c92_state {ops : List Op} {s : St} (hn : cfg.onlyNative = false)
    (h : runOps cfg (newConn cfg id) ops = some s) (hc : s.closed = false) : HandshakeIs id ops s := by
  have gen : ∀ (l : List Op) (s : St), runOps cfg (newConn cfg id) l.reverse = some s → s.closed = false →
      HandshakeIs id l.reverse s := by
    intro l
    induction l with
    | nil =>
      intro s h _
      cases h
      unfold newConn
      rw [hn]
      exact ⟨rfl, by simp, rfl, rfl, rfl⟩
    | cons op l ih =>
      intro s h hc
      rw [List.reverse_cons, runOps_append] at h
      cases ht : runOps cfg (newConn cfg id) l.reverse with
      | none => rw [ht] at h; cases h
      | some t =>
        rw [ht] at h
        have hr : Reach cfg id t := runOps_reach .init ht
        have htc : t.closed = false := by
          cases k : t.closed with
          | false => rfl
          | true => rw [run_closed hr h k] at hc; cases hc
        simp only [Option.bind_some, runOps] at h
        split at h
        · rename_i u hu
          cases h
          rw [List.reverse_cons]
          exact handshake_step (ih t ht htc) hu hc
        · cases h
  have := gen ops.reverse s
  rw [List.reverse_reverse] at this
  exact this h hc

/-- C92: a connection whose first mark is `H` is closed. -/
theorem c92_refused {ops : List Op} {s : St} {typ : MsgType} {rest : Bytes} (hn : cfg.onlyNative = false)
    (h : runOps cfg (newConn cfg id) ops = some s) (hm : firstMark ops = some (typ, 72 :: rest)) : s.closed = true := by
  cases hc : s.closed with
  | true => rfl
  | false =>
    have k := c92_state hn h hc
    unfold HandshakeIs at k
    rw [hm] at k
    simp at k

/-- C92: the reader that waits for OnConnect goes on exactly when the result is there; an error closes the
connection and no error acknowledges it, unless it got closed meanwhile. -/
theorem c92_wait {s : St} (hrd : s.rd = .ack) :
    (exec cfg s .wake = none ↔ s.ready = none) ∧
    (∀ e s', s.ready = some (some e) → exec cfg s .wake = some s' → s'.closed = true) ∧
    (∀ s', s.ready = some none → exec cfg s .wake = some s' → s'.closed = false →
      s'.acked = true ∧ QueuesAre s' []) := by
  refine ⟨?_, ?_, ?_⟩
  · simp only [exec, wakeReader, hrd]
    split <;> simp_all
  · intro e s' he h
    simp only [exec, wakeReader, hrd, he] at h
    cases h
    exact closeConn_closed _
  · intro s' he h hc
    simp only [exec, wakeReader, hrd, he] at h
    cases h
    obtain ⟨k1, _, k3, _⟩ := ackReady_hs (cfg := cfg) (s := s) (by rw [he]; exact hc) none (by rw [he]; rfl)
    exact ⟨k1, k3⟩

/-- C92: an open native-only connection is acknowledged from the start, whatever it reads. -/
theorem c92_native {ops : List Op} {s : St} (hn : cfg.onlyNative = true)
    (h : runOps cfg (newConn cfg id) ops = some s) (hc : s.closed = false) :
    s.acked = true ∧ s.id = id ∧ QueuesAre s [] := by
  have ha : (newConn cfg id).acked = true ∧ (newConn cfg id).rd ≠ .ack ∧ (newConn cfg id).id = id ∧
      QueuesAre (newConn cfg id) [] := by
    unfold newConn
    rw [if_pos hn]
    exact ⟨rfl, by simp, rfl, rfl, rfl⟩
  obtain ⟨h1, h2, h3, h4⟩ := ha
  obtain ⟨k1, k2⟩ := c25_fixed_partial .init h1 h hc
  obtain ⟨k3, k4⟩ := queue_run .init h1 h2 h hc
  exact ⟨k2, k1.trans h3, k3.trans h4.1, k4.trans h4.2⟩

/-- a server connection that read a message, then `M`, while its OnConnect runs -/
example : let ops : List Op := [.recv .text (b! "1;chat;;_OnNamespaceConnect;0;0;"), .recv .binary (b! "M")]
    firstMark ops = some (.binary, b! "M") ∧
    (runOps (serverCfg chatDecl noCb) (newConn (serverCfg chatDecl noCb) (b! "u1")) ops).map
      (fun s => (s.closed, s.acked, s.rd, s.queueText)) =
      some (false, false, .ack, [b! "1;chat;;_OnNamespaceConnect;0;0;"]) :=
  ⟨by decide +kernel, by decide +kernel⟩

/-- the same after OnConnect returned -/
example : let ops : List Op := [.recv .text (b! "1;chat;;_OnNamespaceConnect;0;0;"), .recv .binary (b! "M"),
      .ready none, .wake]
    (runOps (serverCfg chatDecl noCb) (newConn (serverCfg chatDecl noCb) (b! "u1")) ops).map
      (fun s => (s.closed, s.acked, s.queueText, (s.namespace (b! "chat")).isSome)) =
      some (false, true, [], true) := by
  intro ops
  decide +kernel

/-- a client that read a message, the acknowledgement, and another message starting with `A` -/
example : let ops : List Op := [.recv .text (b! "1;;;"), .recv .text (b! "Au1"), .recv .text (b! "Aroot")]
    firstMark ops = some (.text, b! "Au1") ∧
    (runOps (clientCfg chatDecl noCb) (newConn (clientCfg chatDecl noCb) []) ops).map
      (fun s => (s.closed, s.acked, s.id, s.queueText)) = some (false, true, b! "u1", [b! "1;;;"]) :=
  ⟨by decide +kernel, by decide +kernel⟩

/-- a client whose server refused -/
example : firstMark [.recv .text (b! "Hno")] = some (.text, b! "Hno") ∧
    (after (clientCfg chatDecl noCb) [] [.recv .text (b! "Hno")]).rd = .dead := ⟨by decide, by decide +kernel⟩

end Neffos
