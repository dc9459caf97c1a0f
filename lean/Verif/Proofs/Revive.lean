import Verif.Proofs.ConnOuter
import Verif.Proofs.ConnGate
import Verif.Proofs.Settle
import Verif.Proofs.Robust
import Verif.Proofs.AgreeBoth
import Verif.Props.Wire
import Verif.Spec.Revive
/-!
Helper lemmas for C108: relations that the steps of other goroutines than the reader respect, and those that the
steps of the reader respect, with what is known of the Ask that gets an answer.
-/
set_option autoImplicit false
namespace Neffos.Revive
open Neffos Neffos.Spec

variable {cfg : Cfg} {id : Bytes} {R : St → St → Prop} {ok : Nat → Prop}

/-- the basic changes that calls make, where only the Asks with `ok` change -/
structure Others (cl : Bool) (ok : Nat → Prop) (R : St → St → Prop) : Prop extends Mid R where
  gStart : ∀ s ns, R s (gateStart s ns)
  gDone : ∀ s ns, R s (gateDone s ns)
  newAsk : ∀ s now k, R s (newAsk s (genWait cl now) k)
  endAsk : ∀ s i, ok i → R s (endAsk s i)
  setAsk : ∀ s (i : Nat) (a : AskRec) mode box, ok i → s.asks[i]? = some a →
    R s { s with asks := s.asks.set i { a with mode := mode, box := box } }
  forget : ∀ s a, R s (forget s a)
  srv : ∀ s l, R s { s with srvWaiting := l }

theorem mid_finish (q : Mid R) (hg : ∀ s ns, R s (gateDone s ns)) (s : St) (k : Cont) (m : Message) (err : Option GoErr) :
    R s (finish cfg s k m err) := by
  cases k with
  | connect ns obj =>
    cases err with
    | some e => exact q.trans (q.emit _ _) (hg _ _)
    | none =>
      simp only [Neffos.finish]
      have h1 : R s { s with connected := mapSet s.connected ns obj } := q.nsAdd _ _ _
      exact q.trans (q.trans (q.trans h1 (q.notifyConnected _ _ _)) (q.emit _ _)) (hg _ _)
  | disconnect obj msg =>
    cases err with
    | some e => exact q.emit _ _
    | none =>
      simp only [Neffos.finish]
      exact q.trans (q.trans (q.trans (q.trans
        (q.forceLeaveAll _ _ _) (q.nsDel _ _)) (q.fire _ _ _))
        (q.notifyDisconnect _ _)) (q.emit _ _)
  | join obj msg =>
    cases err with
    | some e => exact q.emit _ _
    | none =>
      simp only [Neffos.finish]
      split
      · rename_i t e he
        exact q.trans (q.fire' he) (q.emit _ _)
      · rename_i t he
        have h2 : R t (t.setRooms obj (Neffos.addRoom msg.room)) := q.addRoom _ _ _
        exact q.trans (q.trans (q.trans (q.fire' he) h2) (q.fire _ _ _)) (q.emit _ _)
  | leave obj msg =>
    cases err with
    | some e => exact q.emit _ _
    | none =>
      simp only [Neffos.finish]
      split
      · rename_i t e he
        exact q.trans (q.fire' he) (q.emit _ _)
      · rename_i t he
        exact q.trans (q.trans (q.trans (q.fire' he) (q.del _ _ _)) (q.fire _ _ _)) (q.emit _ _)
  | user => exact q.emit _ _

theorem Others.finish {cl : Bool} (q : Others cl ok R) (s : St) (k : Cont) (m : Message) (err : Option GoErr) :
    R s (finish cfg s k m err) := mid_finish q.toMid q.gDone s k m err

theorem Others.startAsk (q : Others cfg.isClient ok R) (s : St) (k : Cont) (msg : Message) (now : Int) (ex : Bool)
    (ho : ok s.asks.length) : R s (startAsk cfg s k msg now ex) := by
  unfold Neffos.startAsk
  split
  · exact q.finish _ _ _ _
  · split
    · exact q.finish _ _ _ _
    · split
      · exact q.finish _ _ _ _
      · dsimp only
        have h1 := q.trans (q.newAsk s now k)
          (q.write (cfg := cfg) (Neffos.newAsk s (genWait cfg.isClient now) k)
            { msg with wait := genWait cfg.isClient now })
        revert h1
        generalize write cfg (Neffos.newAsk s (genWait cfg.isClient now) k)
            { msg with wait := genWait cfg.isClient now } = p
        obtain ⟨t, o⟩ := p
        intro h1
        cases o with
        | true => exact h1
        | false =>
          dsimp only
          exact q.trans (q.trans h1 (q.endAsk _ _ ho)) (q.finish _ _ _ _)

theorem Others.connect (q : Others cfg.isClient ok R) (s : St) (ns : Bytes) (now : Int) (ex : Bool)
    (ho : ok s.asks.length) : R s (connect cfg s ns now ex) := by
  have hm := q.markReady (cfg := cfg) s
  have ha : (s.markReady cfg).asks = s.asks := (rd_markReady s).asks
  unfold Neffos.connect
  dsimp only
  revert hm ha
  generalize s.markReady cfg = s0
  intro hm ha
  split
  · exact hm
  · have hg : R s (gateStart s0 ns) := q.trans hm (q.gStart _ _)
    have ha : (gateStart s0 ns).asks = s.asks := ha
    revert hg ha
    generalize gateStart s0 ns = s1
    intro hg ha
    split
    · exact q.trans (q.trans hg (q.emit _ _)) (q.gDone _ _)
    · split
      · exact q.trans (q.trans hg (q.emit _ _)) (q.gDone _ _)
      · simp only [Neffos.newObj]
        have h0 : R s { s1 with objs := s1.objs ++ [⟨ns, []⟩] } :=
          q.trans hg (q.newObj _ _)
        split
        · rename_i t e he
          exact q.trans (q.trans (q.trans h0 (q.fire' he)) (q.emit _ _)) (q.gDone _ _)
        · rename_i t he
          have hb := (rd_fire' (cfg := cfg) _ _ _ he).asks
          dsimp only at hb
          exact q.trans (q.trans h0 (q.fire' he)) (q.startAsk _ _ _ _ _ (by rw [hb, ha]; exact ho))

/-- the step is one of the reader -/
def byReader : Op → Bool
  | .recv _ _ | .readErr _ | .wake | .contReader => true
  | _ => false

/-- the step may change the Ask `i` -/
def Touches (op : Op) (i : Nat) (a : AskRec) : Prop :=
  (op = .resume i ∧ a.done = false ∧ a.box ≠ none) ∨ (∃ e, op = .cancel i e) ∨
    (((∃ t b, op = .steal i t b) ∨ ∃ e, op = .stealErr i e) ∧ a.mode = .reading)

theorem Others.exec (q : Others cfg.isClient ok R) {s s' : St} {op : Op} (hop : byReader op = false)
    (hne : ok s.asks.length) (hok : ∀ i a, s.asks[i]? = some a → Touches op i a → ok i)
    (hsend : ∀ j m, s.rd = .send j m → op ≠ .resume j) (h : exec cfg s op = some s') : R s s' := by
  have c := q.toCalm
  cases op with
  | recv typ b => cases hop
  | readErr e => cases hop
  | wake => cases hop
  | contReader => cases hop
  | connect ns now ex => cases h; exact q.connect _ _ _ _ hne
  | disconnect obj now ex =>
    simp only [Neffos.exec] at h
    split at h
    · cases h
      unfold disconnect
      dsimp only
      split
      · exact c.emit _ _
      · exact q.startAsk _ _ _ _ _ hne
    · simp at h
  | join obj room now ex =>
    simp only [Neffos.exec] at h
    split at h
    · cases h
      unfold joinRoom
      dsimp only
      split
      · exact c.emit _ _
      · exact q.startAsk _ _ _ _ _ hne
    · simp at h
  | leave obj room now ex =>
    simp only [Neffos.exec] at h
    split at h
    · cases h
      unfold leaveRoom
      dsimp only
      split
      · exact q.startAsk _ _ _ _ _ hne
      · exact c.emit _ _
    · simp at h
  | ask msg now ex => cases h; exact q.startAsk _ _ _ _ _ hne
  | write msg => cases h; exact c.write _ _
  | resume j =>
    simp only [Neffos.exec, resume] at h
    split at h
    · simp at h
    · rename_i a' hx
      split at h
      · simp at h
      · rename_i hd
        split at h
        · simp at h
        · rename_i m hbx
          have hj : ok j := hok j a' hx (.inl ⟨rfl, by simpa using hd, by rw [hbx]; simp⟩)
          cases h
          have e2 : R s (takeAnswer s j a') := by
            unfold takeAnswer
            split
            · rename_i j' m' hx'
              have : j' ≠ j := fun e => hsend j' m' hx' (by rw [e])
              rw [if_neg this]
              exact q.setAsk _ _ _ _ _ hj hx
            · exact q.setAsk _ _ _ _ _ hj hx
          exact q.trans (q.trans (q.trans e2 (q.endAsk _ _ hj)) (q.forget _ _)) (q.finish _ _ _ _)
  | cancel j e =>
    simp only [Neffos.exec, cancel] at h
    split at h
    · simp at h
    · rename_i a' hx
      have hj : ok j := hok j a' hx (.inr (.inl ⟨e, rfl⟩))
      split at h
      · simp at h
      · cases h
        exact q.trans (q.endAsk _ _ hj) (q.finish _ _ _ _)
  | close => cases h; exact c.closeConn _
  | steal j typ b =>
    simp only [Neffos.exec, steal] at h
    split at h
    · simp at h
    · rename_i a' hx
      split at h
      · rename_i hmd
        cases h; exact q.setAsk _ _ _ _ _ (hok j a' hx (.inr (.inr ⟨.inl ⟨_, _, rfl⟩, hmd⟩))) hx
      · simp at h
  | stealErr j e =>
    simp only [Neffos.exec, steal] at h
    split at h
    · simp at h
    · rename_i a' hx
      split at h
      · rename_i hmd
        cases h; exact q.setAsk _ _ _ _ _ (hok j a' hx (.inr (.inr ⟨.inr ⟨_, rfl⟩, hmd⟩))) hx
      · simp at h
  | ready e =>
    cases h
    unfold St.signalReady
    split
    · exact c.refl _
    · exact c.ready _ _
  | sendAck =>
    simp only [Neffos.exec] at h
    split at h
    · cases h; exact c.refl _
    · have hw := c.rawWrite (cfg := cfg) s (b! "M") false
      revert h hw
      generalize rawWrite cfg s (b! "M") false = p
      obtain ⟨t, ok⟩ := p
      intro h hw
      cases ok with
      | true => cases h; exact hw
      | false => cases h; exact c.trans hw (c.closeConn _)
  | srvAsk tok => cases h; exact q.srv _ _
  | srvUnask tok => cases h; exact q.srv _ _

/-! ### Gates that cannot open -/

/-- the gate of `ns` can open no more -/
def GateLost (ns : Bytes) (s : St) : Prop :=
  ((gateOf s ns).done = true ∧ 1 ≤ (gateOf s ns).count) ∨ ((gateOf s ns).done = false ∧ 2 ≤ (gateOf s ns).count)

/-- the gates stay -/
def GateStays (ns : Bytes) (s t : St) : Prop := GateLost ns s → GateLost ns t

theorem gateStays_eq {ns : Bytes} {s t : St} (h : t.gates = s.gates) : GateStays ns s t := by
  intro hs; unfold GateLost gateOf at *; rw [h]; exact hs

theorem gateOf_done (s : St) (ns n : Bytes) :
    gateOf (gateDone s ns) n = if n = ns ∧ (mapGet s.gates ns).isSome ∧ (gateOf s ns).done = false
      then ⟨(gateOf s ns).count - 1, true⟩ else gateOf s n := by
  unfold gateDone
  cases hg : mapGet s.gates ns with
  | none => simp
  | some g =>
    have e : gateOf s ns = g := by unfold gateOf; rw [hg]; rfl
    rw [e]
    cases hd : g.done with
    | true => simp [hd]
    | false =>
      by_cases hn : n = ns
      · subst hn; simp [gateOf, mapGet_mapSet, hd]
      · simp [gateOf, mapGet_mapSet, hn, hd]

theorem gateStays_others (cl : Bool) (ns : Bytes) : Others cl (fun _ => True) (GateStays ns) where
  refl _ := id
  trans h k := fun x => k (h x)
  emit _ _ := gateStays_eq rfl
  ready _ _ := gateStays_eq rfl
  hang _ := gateStays_eq rfl
  del _ _ _ := gateStays_eq rfl
  nsDel _ _ := gateStays_eq rfl
  closed _ := gateStays_eq rfl
  waiting _ _ := gateStays_eq rfl
  unack _ _ := gateStays_eq rfl
  newObj _ _ := gateStays_eq rfl
  addRoom _ _ _ := gateStays_eq rfl
  nsAdd _ _ _ := gateStays_eq rfl
  gStart s n := by
    intro h
    unfold GateLost at *
    rw [gateOf_start]
    by_cases e : ns = n
    · subst e
      simp only [if_true]
      rcases h with ⟨h1, h2⟩ | ⟨h1, h2⟩
      · exact .inl ⟨h1, by omega⟩
      · exact .inr ⟨h1, by omega⟩
    · rw [if_neg e]; exact h
  gDone s n := by
    intro h
    unfold GateLost at *
    rw [gateOf_done]
    split
    · rename_i hx
      obtain ⟨rfl, _, hd⟩ := hx
      rw [hd] at h
      simp at h
      simp
      omega
    · exact h
  newAsk s now k := by unfold Neffos.newAsk; split <;> exact gateStays_eq rfl
  endAsk _ _ _ := gateStays_eq rfl
  setAsk _ _ _ _ _ _ _ := gateStays_eq rfl
  forget s a := by unfold Neffos.forget; split <;> exact gateStays_eq rfl
  srv _ _ := gateStays_eq rfl

theorem holdAsk_others (cl : Bool) (i : Nat) : Others cl (· ≠ i) (HoldAsk i) where
  toMid := (holdAsk_outer i).toMid
  gStart s ns := (holdAsk_outer i).gates s _
  gDone s ns := (holdAsk_outer i).gateDone s ns
  newAsk s now k := (holdAsk_outer i).newAsk' s _ k
  endAsk s j h := (holdAsk_outer i).endAsk s j h
  setAsk s j a _ _ h _ := holdAsk_set i s _ h
  forget s a := by unfold Neffos.forget; split <;> exact holdAsk_eq rfl rfl rfl rfl
  srv _ _ := holdAsk_eq rfl rfl rfl rfl

/-! ### Asks that nothing refers to -/

/-- the Ask `i` is `a` and no token leads to it -/
def Loose (i : Nat) (a : AskRec) (s : St) : Prop := s.asks[i]? = some a ∧ ∀ w, mapGet s.waiting w ≠ some i

def LooseStays (i : Nat) (a : AskRec) (s t : St) : Prop := Loose i a s → Loose i a t

theorem looseStays_eq {i : Nat} {a : AskRec} {s t : St} (h : t.asks = s.asks) (h2 : t.waiting = s.waiting) :
    LooseStays i a s t := by
  intro hs; unfold Loose at *; rw [h, h2]; exact hs

theorem looseStays_forget {i : Nat} {a : AskRec} (s : St) (b : AskRec) : LooseStays i a s (forget s b) := by
  intro h
  unfold forget
  split
  · refine ⟨h.1, fun w => ?_⟩
    simp only [mapGet_mapDel]
    split
    · simp
    · exact h.2 w
  · exact h

theorem looseStays_mid (i : Nat) (a : AskRec) : Mid (LooseStays i a) where
  refl _ := id
  trans h k := fun x => k (h x)
  emit _ _ := looseStays_eq rfl rfl
  ready _ _ := looseStays_eq rfl rfl
  hang _ := looseStays_eq rfl rfl
  del _ _ _ := looseStays_eq rfl rfl
  nsDel _ _ := looseStays_eq rfl rfl
  closed _ := looseStays_eq rfl rfl
  waiting _ _ := fun h => ⟨h.1, fun w => by simp [mapGet]⟩
  unack _ _ := looseStays_eq rfl rfl
  newObj _ _ := looseStays_eq rfl rfl
  addRoom _ _ _ := looseStays_eq rfl rfl
  nsAdd _ _ _ := looseStays_eq rfl rfl

theorem looseStays_others (cl : Bool) (i : Nat) (a : AskRec) : Others cl (· ≠ i) (LooseStays i a) where
  toMid := looseStays_mid i a
  gStart _ _ := looseStays_eq rfl rfl
  gDone s n := by
    unfold gateDone
    split
    · exact id
    · split
      · exact id
      · exact looseStays_eq rfl rfl
  newAsk s now k := by
    intro h
    have hl : i < s.asks.length := (List.getElem?_eq_some_iff.mp h.1).1
    unfold Neffos.newAsk
    split
    · exact ⟨by simp only; rw [List.getElem?_append_left hl]; exact h.1, h.2⟩
    · refine ⟨by simp only; rw [List.getElem?_append_left hl]; exact h.1, fun w => ?_⟩
      simp only [mapGet_mapSet]
      split
      · simp; omega
      · exact h.2 w
  endAsk s j hj := fun h => ⟨by unfold Neffos.endAsk; simp only; rw [List.getElem?_modify]; simp [hj, h.1], h.2⟩
  setAsk s j b _ _ hj _ := fun h => ⟨by simp only; rw [List.getElem?_set_ne hj]; exact h.1, h.2⟩
  forget s b := looseStays_forget s b
  srv _ _ := looseStays_eq rfl rfl

/-- the basic changes that the reader makes -/
structure Reads (R : St → St → Prop) : Prop extends Mid R where
  rd : ∀ s rd, R s { s with rd := rd }
  todo : ∀ s todo aa, R s { s with todo := todo, ackAfter := aa }
  box : ∀ s (i : Nat) (a : AskRec) m w, mapGet s.waiting w = some i → s.asks[i]? = some a →
    R s { s with asks := s.asks.set i { a with box := some m } }
  text : ∀ s q, R s { s with queueText := q }
  binary : ∀ s q, R s { s with queueBinary := q }
  setAcked : ∀ s, R s { s with acked := true }
  ident : ∀ s i, R s { s with id := i }

theorem Reads.replyRoomJoin (q : Reads R) (s : St) (obj : Nat) (msg : Message) :
    R s (replyRoomJoin cfg s obj msg) := by
  have c := q.toCalm
  unfold Neffos.replyRoomJoin
  split
  · exact c.refl s
  · split
    · exact c.writeEmptyReply _ _
    · split
      · rename_i t e he
        exact c.trans (c.fire' he) (c.write _ _)
      · rename_i t he
        exact c.trans (c.trans (c.trans (c.fire' he) (q.addRoom _ _ _))
          (c.fire _ _ _)) (c.writeEmptyReply _ _)

theorem Reads.afterGate (q : Reads R) (s : St) (msg : Message) : R s (afterGate cfg s msg) := by
  have c := q.toCalm
  unfold Neffos.afterGate
  split
  · exact c.write _ _
  · split
    · exact q.replyRoomJoin _ _ _
    · split
      · exact c.replyRoomLeave _ _ _
      · exact c.handleEvent _ _ _

theorem Reads.handleMessage (q : Reads R) (s : St) (msg : Message) : R s (handleMessage cfg s msg) := by
  have c := q.toCalm
  have hd : R s (dispatch cfg s msg) := by
    unfold dispatch
    split
    · exact q.toMid.replyConnect _ _
    · split
      · exact c.replyDisconnect _ _
      · split
        · exact q.rd _ _
        · exact q.afterGate _ _
  unfold Neffos.handleMessage
  split
  · exact c.refl s
  · split
    · split
      · exact c.hang _
      · exact c.fire _ _ _
    · split
      · split
        · exact c.emit _ _
        · split
          · exact c.emit _ _
          · split
            · rename_i i hi
              unfold deliver
              split
              · exact c.refl s
              · rename_i a ha
                split
                · exact q.box _ _ a _ _ hi ha
                · exact q.rd _ _
            · exact hd
      · exact hd

theorem Reads.exit (q : Reads R) (s : St) : R s (readerExit cfg s) :=
  q.toCalm.readerExit (fun s r => q.rd s r) s

theorem Reads.drain (q : Reads R) (l : List (MsgType × Bytes)) (s : St) : R s (drain cfg s l) := by
  have c := q.toCalm
  induction l generalizing s with
  | nil =>
    unfold Neffos.drain
    dsimp only
    split
    · unfold finishAck
      dsimp only
      have h1 := c.trans (q.todo s [] false) (c.rawWrite (cfg := cfg)
        { s with todo := [], ackAfter := false } (65 :: s.id) false)
      split
      · exact h1
      · exact c.trans h1 (q.exit _)
    · exact q.todo s [] s.ackAfter
  | cons p l ih =>
    obtain ⟨t, b⟩ := p
    unfold Neffos.drain
    dsimp only
    have h0 := c.trans (q.rd s .idle) (q.handleMessage (cfg := cfg) _
      (deserializeMessage cfg.known t b cfg.allowNative cfg.onlyNative))
    split
    · exact c.trans h0 (ih _)
    · exact c.trans h0 (q.todo _ l _)

theorem Reads.ackReady (q : Reads R) (s : St) (e : Option GoErr) : R s (ackReady cfg s e) := by
  have c := q.toCalm
  unfold Neffos.ackReady
  split
  · exact c.trans (c.rawWrite _ _ _) (q.exit _)
  · dsimp only
    exact c.trans (c.trans (c.trans (c.trans (c.trans (q.setAcked s) (q.text _ [])) (q.binary _ []))
      (q.todo _ _ true)) (q.rd _ .idle)) (q.drain _ _)

theorem Reads.signalReady (q : Reads R) (s : St) (e : Option GoErr) : R s (s.signalReady e) := by
  unfold St.signalReady; split
  · exact q.refl s
  · exact q.ready _ _

theorem Reads.recv (q : Reads R) (s : St) (typ : MsgType) (b : Bytes) : R s (recv cfg s typ b) := by
  have c := q.toCalm
  unfold Neffos.recv
  split
  · exact c.refl s
  · split
    · exact q.handleMessage _ _
    · unfold handleACK
      split
      · exact c.refl s
      · rename_i ch rest _
        split
        · split
          · exact q.rd _ _
          · exact q.ackReady _ _
        · split
          · exact c.trans (c.trans (q.ident s rest) (q.setAcked _)) (q.signalReady _ _)
          · split
            · exact c.trans (q.signalReady _ _) (q.exit _)
            · split
              · exact q.text _ _
              · exact q.binary _ _

theorem Reads.wake (q : Reads R) {s s' : St} (h : wakeReader cfg s = some s') : R s s' := by
  have c := q.toCalm
  unfold wakeReader at h
  split at h
  · split at h
    · rename_i msg _ _
      dsimp only at h
      have h1 := c.trans (q.rd s .idle) (q.afterGate (cfg := cfg) _ msg)
      split at h
      · cases h; exact c.trans h1 (q.drain _ _)
      · cases h; exact h1
    · simp at h
  · split at h
    · simp at h
    · cases h; exact q.ackReady _ _
  · simp at h

theorem Reads.exec (q : Reads R) {s s' : St} {op : Op} (hop : byReader op = true) (h : exec cfg s op = some s') :
    R s s' := by
  have c := q.toCalm
  cases op with
  | recv typ b =>
    simp only [Neffos.exec] at h
    split at h
    · cases h; exact q.recv _ _ _
    · simp at h
  | readErr e =>
    simp only [Neffos.exec] at h
    split at h
    · cases h; exact c.trans (q.signalReady _ _) (q.exit _)
    · simp at h
  | wake => exact q.wake h
  | contReader =>
    simp only [Neffos.exec, contReader] at h
    split at h
    · cases h; exact q.drain _ _
    · simp at h
  | _ => cases hop

theorem looseStays_reads (i : Nat) (a : AskRec) : Reads (LooseStays i a) where
  toMid := looseStays_mid i a
  rd _ _ := looseStays_eq rfl rfl
  todo _ _ _ := looseStays_eq rfl rfl
  box s j b m w hw hj := by
    intro h
    have : j ≠ i := fun e => h.2 w (by rw [hw, e])
    exact ⟨by simp only; rw [List.getElem?_set_ne this]; exact h.1, h.2⟩
  text _ _ := looseStays_eq rfl rfl
  binary _ _ := looseStays_eq rfl rfl
  setAcked _ := looseStays_eq rfl rfl
  ident _ _ := looseStays_eq rfl rfl

/-! ### Tokens -/

/-- the tokens come from the clock -/
def Toks (cl : Bool) (s : St) : Prop := ∀ a ∈ s.asks, ∃ now, a.tok = genWait cl now

def ToksStay (cl : Bool) (s t : St) : Prop := Toks cl s → Toks cl t

theorem toksStay_eq {cl : Bool} {s t : St} (h : t.asks = s.asks) : ToksStay cl s t := by
  intro hs; unfold Toks at *; rw [h]; exact hs

theorem toksStay_set {cl : Bool} {s : St} {i : Nat} {a b : AskRec} (h : s.asks[i]? = some a) (hb : b.tok = a.tok) :
    ToksStay cl s { s with asks := s.asks.set i b } := by
  intro hs x hx
  rcases List.mem_or_eq_of_mem_set hx with hx | rfl
  · exact hs x hx
  · rw [hb]; exact hs a (List.mem_of_getElem? h)

theorem toksStay_mid (cl : Bool) : Mid (ToksStay cl) where
  refl _ := id
  trans h k := fun x => k (h x)
  emit _ _ := toksStay_eq rfl
  ready _ _ := toksStay_eq rfl
  hang _ := toksStay_eq rfl
  del _ _ _ := toksStay_eq rfl
  nsDel _ _ := toksStay_eq rfl
  closed _ := toksStay_eq rfl
  waiting _ _ := toksStay_eq rfl
  unack _ _ := toksStay_eq rfl
  newObj _ _ := toksStay_eq rfl
  addRoom _ _ _ := toksStay_eq rfl
  nsAdd _ _ _ := toksStay_eq rfl

theorem toksStay_reads (cl : Bool) : Reads (ToksStay cl) where
  toMid := toksStay_mid cl
  rd _ _ := toksStay_eq rfl
  todo _ _ _ := toksStay_eq rfl
  box _ _ _ _ _ _ h := toksStay_set h rfl
  text _ _ := toksStay_eq rfl
  binary _ _ := toksStay_eq rfl
  setAcked _ := toksStay_eq rfl
  ident _ _ := toksStay_eq rfl

theorem toksStay_others (cl : Bool) : Others cl (fun _ => True) (ToksStay cl) where
  toMid := toksStay_mid cl
  gStart _ _ := toksStay_eq rfl
  gDone s n := by
    unfold gateDone
    split
    · exact id
    · split
      · exact id
      · exact toksStay_eq rfl
  newAsk s now k := by
    intro h
    unfold Neffos.newAsk
    split
    all_goals
      intro x hx
      rcases List.mem_append.mp hx with hx | hx
      · exact h x hx
      · rw [List.mem_singleton.mp hx]; exact ⟨now, rfl⟩
  endAsk s i _ := by
    intro h x hx
    unfold Neffos.endAsk at hx
    obtain ⟨j, hj⟩ := List.mem_iff_getElem?.mp hx
    rw [List.getElem?_modify] at hj
    cases hg : s.asks[j]? with
    | none => rw [hg] at hj; simp at hj
    | some a =>
      rw [hg] at hj
      simp only [Option.map_eq_map, Option.map_some, Option.some.injEq] at hj
      have : x.tok = a.tok := by rw [← hj]; split <;> rfl
      rw [this]; exact h a (List.mem_of_getElem? hg)
  setAsk _ _ _ _ _ _ h := toksStay_set h rfl
  forget s b := by unfold Neffos.forget; split <;> exact toksStay_eq rfl
  srv _ _ := toksStay_eq rfl

theorem reach_toks {s : St} (hr : Reach cfg id s) : Toks cfg.isClient s := by
  induction hr with
  | init => intro a ha; rw [newConn_asks] at ha; cases ha
  | @step s s' op hr hs ih =>
    have he := (step_exec hs).1
    cases hop : byReader op with
    | true => exact (toksStay_reads _).exec hop he ih
    | false =>
      by_cases hres : ∃ j, op = .resume j ∧ ∃ m, s.rd = .send j m
      · obtain ⟨j, rfl, m, hrd⟩ := hres
        simp only [exec, resume] at he
        split at he
        · cases he
        · rename_i b hj
          split at he
          · cases he
          · split at he
            · cases he
            · cases he
              have q := toksStay_others cfg.isClient
              refine q.finish _ _ _ _ (q.forget _ _ (q.endAsk _ _ trivial ?_))
              unfold takeAnswer
              rw [hrd]
              simp only [if_true]
              exact toksStay_set (b := { b with box := some m }) hj rfl ih
      · exact (toksStay_others _).exec hop trivial (fun _ _ _ _ => trivial) (fun j m hrd e => hres ⟨j, e, m, hrd⟩) he ih

/-! ### Calls that cannot return -/

/-- the Ask does not return while the Ask with token `tok` is in the table -/
def Mute (tok : Bytes) (b : AskRec) : Prop :=
  b.mode ≠ .reading ∧ (b.box = none ∨ (b.mode = .table ∧ b.tok = tok))

/-- the reader cannot get back to reading messages before the Ask with token `tok` is out of the table -/
inductive Blocked (tok : Bytes) (s : St) : Prop
  | dead : s.rd = .dead → Blocked tok s
  | lost (msg : Message) : s.rd = .gate msg → GateLost msg.ns s → Blocked tok s
  | send (j : Nat) (m : Message) (b : AskRec) : s.rd = .send j m → s.asks[j]? = some b → (b.done = true ∨ Mute tok b) →
      Blocked tok s
  | gate (msg : Message) (j obj : Nat) (b : AskRec) : s.rd = .gate msg → s.asks[j]? = some b → b.done = false →
      b.cont = .connect msg.ns obj → Mute tok b → Blocked tok s

/-- the Ask `i` is `a` and cannot return -/
def Lost (i : Nat) (a : AskRec) (s : St) : Prop := s.asks[i]? = some a ∧ (Loose i a s ∨ Blocked a.tok s)

theorem gateLost_shut {s : St} {ns : Bytes} (h : GateLost ns s) : gateReleased s ns = false := by
  rw [gateReleased_eq, decide_eq_false_iff_not]
  unfold GateLost at h
  omega

theorem pend_shut {s : St} {j obj : Nat} {b : AskRec} {ns : Bytes} (hr : Reach cfg id s) (hj : s.asks[j]? = some b)
    (hd : b.done = false) (hk : b.cont = .connect ns obj) : gateReleased s ns = false := by
  rw [gateReleased_eq, decide_eq_false_iff_not]
  have h1 := (reach_gateOk hr ns).1
  have h2 : 0 < pend s ns := by
    unfold pend
    rw [List.countP_pos_iff]
    exact ⟨b, List.mem_of_getElem? hj, by unfold pendOf; rw [hd, hk]; simp⟩
  dsimp only at h1
  omega

theorem Blocked.idle {tok : Bytes} {s : St} (h : Blocked tok s) : s.rd ≠ .idle := by
  cases h <;> rename_i h <;> simp_all

/-- the reader makes no step -/
theorem Blocked.still {tok : Bytes} {s s' : St} {op : Op} (hr : Reach cfg id s) (h : Blocked tok s)
    (he : exec cfg s op = some s') : byReader op = false := by
  have hi := h.idle
  cases op with
  | recv typ b => simp [exec, hi] at he
  | readErr e => simp [exec, hi] at he
  | contReader => simp [exec, contReader, hi] at he
  | wake =>
    exfalso
    simp only [exec, wakeReader] at he
    cases h with
    | dead h => simp [h] at he
    | lost msg h hl => simp [h, gateLost_shut hl] at he
    | send j m b h => simp [h] at he
    | gate msg j obj b h hj hd hk => simp [h, pend_shut hr hj hd hk] at he
  | _ => rfl

theorem resume_loose {s s' : St} {i j : Nat} {a b : AskRec} (hw : WaitOk cfg s) (hi : s.asks[i]? = some a)
    (hj : s.asks[j]? = some b) (hne : j ≠ i) (hm : b.mode = .table) (ht : b.tok = a.tok)
    (h : resume cfg s j = some s') : Loose i a s' := by
  unfold resume at h
  rw [hj] at h
  dsimp only at h
  split at h
  · cases h
  · split at h
    · cases h
    · cases h
      refine (looseStays_others cfg.isClient i a).finish _ _ _ _ ?_
      unfold forget
      rw [if_pos hm]
      have e1 : (takeAnswer s j b).waiting = s.waiting := by
        unfold takeAnswer; split
        · split <;> rfl
        · rfl
      have e2 : (takeAnswer s j b).asks[i]? = some a := by
        unfold takeAnswer; split
        · split <;> (simp only; rw [List.getElem?_set_ne hne]; exact hi)
        · simp only; rw [List.getElem?_set_ne hne]; exact hi
      refine ⟨?_, fun w => ?_⟩
      · unfold endAsk; simp only; rw [List.getElem?_modify]; simp [hne, e2]
      · show mapGet (mapDel (takeAnswer s j b).waiting b.tok) w ≠ some i
        rw [e1, mapGet_mapDel, ht]
        split
        · simp
        · rename_i hwt
          intro hx
          obtain ⟨a', h1, h2, _⟩ := hw.table w i hx
          rw [hi] at h1
          cases h1
          exact hwt h2.symm

theorem lost_step {s s' : St} {i : Nat} {a : AskRec} {op : Op} (hr : Reach cfg id s) (hb : a.box = none)
    (hm : a.mode ≠ .reading) (h : Lost i a s) (hc : ∀ j e, op ≠ .cancel j e)
    (hs : step cfg s op = some s') : Lost i a s' := by
  have he := (step_exec hs).1
  obtain ⟨hi, h⟩ := h
  have hne : s.asks.length ≠ i := by have := (List.getElem?_eq_some_iff.mp hi).1; omega
  have hti : ∀ j b, s.asks[j]? = some b → Touches op j b → j ≠ i := by
    rintro j b hj ht rfl
    rw [hi] at hj
    cases hj
    rcases ht with ⟨_, _, h⟩ | ⟨e, h⟩ | ⟨_, h⟩
    · exact h hb
    · exact hc _ _ h
    · exact hm h
  rcases h with h | h
  · have : Loose i a s' := by
      cases hop : byReader op with
      | true => exact (looseStays_reads i a).exec hop he h
      | false =>
        by_cases hres : ∃ j, op = .resume j ∧ ∃ m, s.rd = .send j m
        · obtain ⟨j, rfl, m, hrd⟩ := hres
          simp only [exec, resume] at he
          split at he
          · cases he
          · rename_i b hj
            split at he
            · cases he
            · rename_i hd
              split at he
              · cases he
              · rename_i m' hbx
                have hji := hti j b hj (.inl ⟨rfl, by simpa using hd, by rw [hbx]; simp⟩)
                cases he
                have q := looseStays_others cfg.isClient i a
                refine q.finish _ _ _ _ (q.forget _ _ (q.endAsk _ _ hji ?_))
                unfold takeAnswer
                rw [hrd]
                simp only [if_true]
                exact ⟨by simp only; rw [List.getElem?_set_ne hji]; exact h.1, h.2⟩
        · exact (looseStays_others cfg.isClient i a).exec hop hne hti (fun j m hrd e => hres ⟨j, e, m, hrd⟩) he h
    exact ⟨this.1, .inl this⟩
  · have hop := h.still hr he
    have hold : ∀ j, s.asks.length ≠ j → (∀ k b, s.asks[k]? = some b → Touches op k b → k ≠ j) →
        (∀ k m, s.rd = .send k m → op ≠ .resume k) → HoldAsk j s s' :=
      fun j h1 h2 h3 => (holdAsk_others cfg.isClient j).exec hop h1 h2 h3 he
    -- a call that is mute, unless it is the one that returns now
    have mute : ∀ j b, s.asks[j]? = some b → b.done = false → Mute a.tok b → op = .resume j → Loose i a s' := by
      rintro j b hj hd hmu rfl
      have hbx : b.box ≠ none := by
        intro hbx; simp [exec, resume, hj, hd, hbx] at he
      obtain ⟨hm1, hm2⟩ := hmu
      obtain ⟨h1, h2⟩ := hm2.resolve_left hbx
      exact resume_loose (reach_all hr).2 hi hj (hti j b hj (.inl ⟨rfl, hd, hbx⟩)) h1 h2 he
    cases h with
    | dead h =>
      have k := hold i hne hti (fun _ _ e => by rw [h] at e; cases e)
      exact ⟨(k.ask (List.getElem?_eq_some_iff.mp hi).1).2.trans hi, .inr (.dead (k.rd.trans h))⟩
    | lost msg h hl =>
      have hx : ∀ k m, s.rd = .send k m → op ≠ .resume k := fun _ _ e => by rw [h] at e; cases e
      have k := hold i hne hti hx
      exact ⟨(k.ask (List.getElem?_eq_some_iff.mp hi).1).2.trans hi, .inr (.lost msg (k.rd.trans h)
        ((gateStays_others cfg.isClient msg.ns).exec hop trivial (fun _ _ _ _ => trivial) hx he hl))⟩
    | send j m b h hj hb' =>
      by_cases hres : op = .resume j
      · have hd : b.done = false := by
          cases hd : b.done with
          | false => rfl
          | true => subst hres; simp [exec, resume, hj, hd] at he
        have hl := mute j b hj hd (hb'.resolve_left (by simp [hd])) hres
        exact ⟨hl.1, .inl hl⟩
      · have hx : ∀ k m, s.rd = .send k m → op ≠ .resume k := fun k m' e => by
          rw [h] at e; cases e; exact hres
        have k := hold i hne hti hx
        have k2 := hold j (by have := (List.getElem?_eq_some_iff.mp hj).1; omega) (fun l b' hl ht e => by
          subst e
          rw [hj] at hl
          cases hl
          obtain ⟨b', hb1, hb2, _⟩ := (reach_all hr).2.send l m h
          rw [hj] at hb1
          cases hb1
          rcases ht with ⟨h1, _⟩ | ⟨e, h1⟩ | ⟨_, h1⟩
          · exact hres h1
          · exact hc _ _ h1
          · rw [hb2] at h1; cases h1) hx
        exact ⟨(k.ask (List.getElem?_eq_some_iff.mp hi).1).2.trans hi, .inr (.send j m b (k.rd.trans h)
          ((k2.ask (List.getElem?_eq_some_iff.mp hj).1).2.trans hj) hb')⟩
    | gate msg j obj b h hj hd hk hmu =>
      by_cases hres : op = .resume j
      · have hl := mute j b hj hd hmu hres
        exact ⟨hl.1, .inl hl⟩
      · have hx : ∀ k m, s.rd = .send k m → op ≠ .resume k := fun k m' e => by rw [h] at e; cases e
        have k := hold i hne hti hx
        have k2 := hold j (by have := (List.getElem?_eq_some_iff.mp hj).1; omega) (fun l b' hl ht e => by
          subst e
          rw [hj] at hl
          cases hl
          rcases ht with ⟨h1, _⟩ | ⟨e, h1⟩ | ⟨_, h1⟩
          · exact hres h1
          · exact hc _ _ h1
          · exact hmu.1 h1) hx
        exact ⟨(k.ask (List.getElem?_eq_some_iff.mp hi).1).2.trans hi, .inr (.gate msg j obj b (k.rd.trans h)
          ((k2.ask (List.getElem?_eq_some_iff.mp hj).1).2.trans hj) hd hk hmu)⟩

theorem lost_run {s s' : St} {i : Nat} {a : AskRec} {ops : List Op} (hr : Reach cfg id s) (hb : a.box = none)
    (hm : a.mode ≠ .reading) (h : Lost i a s) (hc : NoCancel ops) (hs : runOps cfg s ops = some s') : Lost i a s' := by
  induction ops generalizing s with
  | nil => cases hs; exact h
  | cons op ops ih =>
    simp only [runOps] at hs
    split at hs
    · rename_i t ht
      exact ih (Reach.step hr ht) (lost_step hr hb hm h (fun j e x => hc j e (by rw [x]; exact List.mem_cons_self ..)) ht)
        (fun j e x => hc j e (List.mem_cons_of_mem _ x)) hs
    · cases hs

/-! ### Readers that go on -/

theorem step_of_exec {s s' : St} {op : Op} (hn : cfg.onlyNative = false) (hq : LeavesQuietly cfg) (hr : Reach cfg id s)
    (h : exec cfg s op = some s') : step cfg s op = some s' := by
  have hh : s'.hung = false := by
    rw [Robust.hung_exec hn hq (reach_all hr).1.2 (reach_all hr).2 h]
    exact reach_hung hr
  simp [step, h, hh]

theorem still_leaves (h : StillCbs cfg) : LeavesQuietly cfg := by
  intro log obj hd msg _ _ a ha
  rw [h] at ha
  cases ha

theorem gate_finish {s : St} {ns : Bytes} (obj : Nat) (m : Message) (err : Option GoErr)
    (hi : (mapGet s.gates ns).isSome = true) (hd : (gateOf s ns).done = false) :
    (gateOf (finish cfg s (.connect ns obj) m err) ns).count = (gateOf s ns).count - 1 := by
  have key : ∀ t : St, t.gates = s.gates → (gateOf (gateDone t ns) ns).count = (gateOf s ns).count - 1 := by
    intro t ht
    have e : gateOf t ns = gateOf s ns := by unfold gateOf; rw [ht]
    rw [gateOf_done, e, ht, if_pos ⟨rfl, hi, hd⟩]
  cases err with
  | some e => exact key _ rfl
  | none =>
    exact key _ (rdSame_mid.toCalm.notifyConnected (cfg := cfg) { s with connected := mapSet s.connected ns obj } obj
      { ns := ns, event := OnNamespaceConnect, isLocal := true }).gates

theorem gateOf_some {s : St} {ns : Bytes} (h : (gateOf s ns).count ≠ 0) : (mapGet s.gates ns).isSome = true := by
  unfold gateOf at h
  cases hg : mapGet s.gates ns with
  | none => rw [hg] at h; simp at h
  | some g => rfl

/-- the one Connect that holds the reader returns -/
theorem freed {s s' : St} {j obj : Nat} {b : AskRec} {msg : Message} {op : Op} (hg : s.rd = .gate msg)
    (hj : s.asks[j]? = some b) (hk : b.cont = .connect msg.ns obj) (hd : (gateOf s msg.ns).done = false)
    (h1 : (gateOf s msg.ns).count = 1) (hop : op = .resume j ∨ ∃ e, op = .cancel j e)
    (he : exec cfg s op = some s') : s'.rd = .gate msg ∧ (gateOf s' msg.ns).count = 0 := by
  have hl := (List.getElem?_eq_some_iff.mp hj).1
  have hi := gateOf_some (s := s) (ns := msg.ns) (by omega)
  have hb : byReader op = false := by
    rcases hop with rfl | ⟨e, rfl⟩ <;> rfl
  have hh : HoldAsk (s.asks.length + 1) s s' := (holdAsk_others cfg.isClient _).exec hb (by omega) (fun k a hk _ => by
    have := (List.getElem?_eq_some_iff.mp hk).1; omega) (fun k m e => by rw [hg] at e; cases e) he
  refine ⟨hh.rd.trans hg, ?_⟩
  rcases hop with rfl | ⟨e, rfl⟩
  · simp only [exec, resume, hj] at he
    split at he
    · cases he
    · split at he
      · cases he
      · cases he
        have eg : (forget (endAsk (takeAnswer s j b) j) b).gates = s.gates := by
          unfold forget
          have : (takeAnswer s j b).gates = s.gates := by
            unfold takeAnswer; split
            · split <;> rfl
            · rfl
          split <;> exact this
        have e2 : gateOf (forget (endAsk (takeAnswer s j b) j) b) msg.ns = gateOf s msg.ns := by
          unfold gateOf; rw [eg]
        rw [hk, gate_finish obj _ _ (by rw [eg]; exact hi) (by rw [e2]; exact hd), e2, h1]
  · simp only [exec, cancel, hj] at he
    split at he
    · cases he
    · cases he
      rw [hk, gate_finish obj _ _ (s := endAsk s j) hi hd]
      show (gateOf s msg.ns).count - 1 = 0
      rw [h1]

theorem wake_exec {s : St} {msg : Message} (hg : s.rd = .gate msg) (h0 : (gateOf s msg.ns).count = 0) :
    ∃ s', exec cfg s .wake = some s' := by
  simp only [exec, wakeReader, hg]
  rw [gateReleased_eq, if_pos (by simpa using h0)]
  split <;> exact ⟨_, rfl⟩

/-- a Connect that is served returns, after reading if it must -/
theorem served_ops {s : St} {j : Nat} {b : AskRec} (hn : cfg.onlyNative = false) (hq : LeavesQuietly cfg)
    (hr : Reach cfg id s) (hj : s.asks[j]? = some b) (hb : HasAnswer b) :
    ∃ ops s1 m, NoCancel ops ∧ runOps cfg s ops = some s1 ∧
      ((ops = [] ∧ s1 = s ∧ b.box = some m) ∨ (b.mode = .reading ∧
        s1 = { s with asks := s.asks.set j { b with mode := .read, box := some m } })) := by
  rcases hb with hb | hb
  · obtain ⟨m, hm⟩ := Option.ne_none_iff_exists'.mp hb
    exact ⟨[], s, m, (fun _ _ h => by cases h), rfl, .inl ⟨rfl, rfl, hm⟩⟩
  · have he : exec cfg s (.stealErr j errWrite) = some
        { s with asks := s.asks.set j { b with mode := .read, box := some { err := some errWrite, isError := true } } } := by
      simp [exec, steal, hj, hb]
    exact ⟨[.stealErr j errWrite], _, { err := some errWrite, isError := true }, (fun _ _ h => by simp at h),
      by simp only [runOps, step_of_exec hn hq hr he], .inr ⟨hb, rfl⟩⟩

theorem asksSame_mid : Mid (fun s t : St => t.asks = s.asks) where
  refl _ := rfl
  trans h k := k.trans h
  emit _ _ := rfl
  ready _ _ := rfl
  hang _ := rfl
  del _ _ _ := rfl
  nsDel _ _ := rfl
  closed _ := rfl
  waiting _ _ := rfl
  unack _ _ := rfl
  newObj _ _ := rfl
  addRoom _ _ _ := rfl
  nsAdd _ _ _ := rfl

theorem resume_done {s s' : St} {i : Nat} (h : resume cfg s i = some s') :
    ∃ a', s'.asks[i]? = some a' ∧ a'.done = true := by
  unfold resume at h
  split at h
  · cases h
  · rename_i a ha
    split at h
    · cases h
    · split at h
      · cases h
      · rename_i m _
        cases h
        have e : (finish cfg (forget (endAsk (takeAnswer s i a) i) a) a.cont m m.err).asks =
            (forget (endAsk (takeAnswer s i a) i) a).asks :=
          mid_finish asksSame_mid (fun s ns => by
            unfold gateDone
            split
            · rfl
            · split <;> rfl) _ _ _ _
        rw [e]
        have e2 : (forget (endAsk (takeAnswer s i a) i) a).asks = (endAsk (takeAnswer s i a) i).asks := by
          unfold forget; split <;> rfl
        rw [e2]
        have hlt := (List.getElem?_eq_some_iff.mp ha).1
        have e3 : ∃ b, (takeAnswer s i a).asks[i]? = some b := by
          unfold takeAnswer
          split
          · split
            · exact ⟨_, by simp only; rw [List.getElem?_set_self hlt]⟩
            · exact ⟨_, by simp only; rw [List.getElem?_set_self hlt]⟩
          · exact ⟨_, by simp only; rw [List.getElem?_set_self hlt]⟩
        obtain ⟨b, hb⟩ := e3
        refine ⟨{ b with done := true }, ?_, rfl⟩
        unfold endAsk
        simp only
        rw [List.getElem?_modify, hb]
        simp

/-- The reader can read the answer to the Ask `i`. -/
structure Awaits (i : Nat) (a : AskRec) (s : St) : Prop where
  closed : s.closed = false
  acked : s.acked = true
  todo : s.todo = []
  ackAfter : s.ackAfter = false
  ask : s.asks[i]? = some a
  waiting : mapGet s.waiting a.tok = some i

theorem openSame_mid : Mid OpenSame where
  toCalm := openSame_steady.toCalm
  newObj := openSame_steady.newObj
  addRoom := openSame_steady.addRoom
  nsAdd := openSame_steady.nsAdd

theorem openSame_gateDone (s : St) (ns : Bytes) : OpenSame s (gateDone s ns) := by
  unfold gateDone
  split
  · exact openSame_steady.refl _
  · split
    · exact openSame_steady.refl _
    · exact openSame_eq rfl rfl rfl rfl

theorem Awaits.resume {s s' : St} {i j : Nat} {a b : AskRec} (hcb : StillCbs cfg) (h : Awaits i a s) (hne : j ≠ i)
    (hj : s.asks[j]? = some b) (hl : Leaves a.tok b) (he : resume cfg s j = some s') :
    Awaits i a s' ∧ ((∃ m, s.rd = .send j m) → s'.rd = .idle) := by
  unfold Neffos.resume at he
  rw [hj] at he
  dsimp only at he
  split at he
  · cases he
  · split at he
    · cases he
    · cases he
      have h0 : Awaits i a (takeAnswer s j b) ∧ ((∃ m, s.rd = .send j m) → (takeAnswer s j b).rd = .idle) := by
        have set : ∀ c, (s.asks.set j c)[i]? = some a := fun c => by rw [List.getElem?_set_ne hne]; exact h.ask
        unfold takeAnswer
        split
        · rename_i j' m' hrd
          split
          · exact ⟨⟨h.closed, h.acked, h.todo, h.ackAfter, set _, h.waiting⟩, fun _ => rfl⟩
          · rename_i hx
            exact ⟨⟨h.closed, h.acked, h.todo, h.ackAfter, set _, h.waiting⟩,
              fun ⟨m, e⟩ => by rw [hrd] at e; cases e; exact absurd rfl hx⟩
        · rename_i hx
          exact ⟨⟨h.closed, h.acked, h.todo, h.ackAfter, set _, h.waiting⟩, fun ⟨m, e⟩ => absurd e (hx _ _)⟩
      generalize takeAnswer s j b = t at h0
      obtain ⟨h0, hrd⟩ := h0
      have h1 : Awaits i a (forget (endAsk t j) b) ∧ (forget (endAsk t j) b).rd = t.rd := by
        have e1 : (endAsk t j).asks[i]? = some a := by
          unfold endAsk; simp only; rw [List.getElem?_modify]; simp [hne, h0.ask]
        unfold forget
        split
        · rename_i hm
          refine ⟨⟨h0.closed, h0.acked, h0.todo, h0.ackAfter, e1, ?_⟩, rfl⟩
          show mapGet (mapDel t.waiting b.tok) a.tok = some i
          rw [mapGet_mapDel, if_neg (fun e => hl ⟨hm, e.symm⟩)]
          exact h0.waiting
        · exact ⟨⟨h0.closed, h0.acked, h0.todo, h0.ackAfter, e1, h0.waiting⟩, rfl⟩
      generalize forget (endAsk t j) b = u at h1
      obtain ⟨h1, hu⟩ := h1
      rename_i m _
      have hp := puts_finish hcb u b.cont m m.err
      have ho : OpenSame u (finish cfg u b.cont m m.err) := mid_finish openSame_mid openSame_gateDone u b.cont m m.err
      have hc := hp.closed.trans h1.closed
      exact ⟨⟨hc, ho.acked hc h1.acked, hp.todo.trans h1.todo, hp.ackAfter.trans h1.ackAfter, by rw [hp.asks]; exact h1.ask,
        by rw [ho.waiting hc]; exact h1.waiting⟩, fun x => hp.rd.trans (hu.trans (hrd x))⟩

theorem Awaits.wake {s s' : St} {i : Nat} {a : AskRec} {msg : Message} (hcb : StillCbs cfg) (ht : TakesAll cfg)
    (h : Awaits i a s) (hg : s.rd = .gate msg) (he : exec cfg s .wake = some s') : Awaits i a s' ∧ s'.rd = .idle := by
  simp only [exec, wakeReader, hg] at he
  split at he
  · have hp := puts_afterGate hcb ht { s with rd := .idle } msg
    have ho : OpenSame { s with rd := .idle } (afterGate cfg { s with rd := .idle } msg) :=
      openSame_steady.afterGate { s with rd := .idle } msg
    have hrd : (afterGate cfg { s with rd := .idle } msg).rd = .idle := hp.rd
    have hc := hp.closed.trans h.closed
    have htd : (afterGate cfg { s with rd := .idle } msg).todo = [] := hp.todo.trans h.todo
    have haa : (afterGate cfg { s with rd := .idle } msg).ackAfter = false := hp.ackAfter.trans h.ackAfter
    have has : (afterGate cfg { s with rd := .idle } msg).asks[i]? = some a := by rw [hp.asks]; exact h.ask
    have hw : mapGet (afterGate cfg { s with rd := .idle } msg).waiting a.tok = some i := by
      rw [ho.waiting hc]; exact h.waiting
    have hak := ho.acked hc h.acked
    revert he hrd hc htd haa has hw hak
    generalize afterGate cfg { s with rd := .idle } msg = t
    intro he hrd hc htd haa has hw hak
    rw [if_pos hrd, htd] at he
    simp only [drain, haa, Bool.false_eq_true, if_false, Option.some.injEq] at he
    subst he
    exact ⟨⟨hc, hak, rfl, rfl, has, hw⟩, hrd⟩
  · cases he

/-- the answer comes and the call returns -/
theorem Awaits.answered {s : St} {i : Nat} {a : AskRec} (hn : cfg.onlyNative = false) (hq : LeavesQuietly cfg)
    (hr : Reach cfg id s) (h : Awaits i a s) (hrd : s.rd = .idle) (hb : a.box = none) (hd : a.done = false) :
    ∃ ops s' a', NoCancel ops ∧ runOps cfg s ops = some s' ∧ s'.asks[i]? = some a' ∧ a'.done = true := by
  obtain ⟨now, htok⟩ := reach_toks hr a (List.mem_of_getElem? h.ask)
  have hplain : PlainToken a.tok := by rw [htok]; exact plainToken_genWait _ _
  have hside : SideTok cfg.isClient a.tok := by rw [htok]; exact sideTok_genWait _ _
  have e1 : exec cfg s (.srvUnask a.tok) = some { s with srvWaiting := s.srvWaiting.filter (· ≠ a.tok) } := rfl
  have s1 := step_of_exec hn hq hr e1
  have r1 := Reach.step hr s1
  have a1 : Awaits i a { s with srvWaiting := s.srvWaiting.filter (· ≠ a.tok) } :=
    ⟨h.closed, h.acked, h.todo, h.ackAfter, h.ask, h.waiting⟩
  have hrd1 : ({ s with srvWaiting := s.srvWaiting.filter (· ≠ a.tok) } : St).rd = .idle := hrd
  have hsrv : a.tok ∉ ({ s with srvWaiting := s.srvWaiting.filter (· ≠ a.tok) } : St).srvWaiting := by simp
  generalize ({ s with srvWaiting := s.srvWaiting.filter (· ≠ a.tok) } : St) = t at e1 s1 r1 a1 hrd1 hsrv
  have hdec := (c55_empty_answer cfg.known .text cfg.allowNative a.tok hplain.1).1 hplain
  have hne : genEmptyReplyToWait a.tok ≠ [] := by
    simp [genEmptyReplyToWait, validMessageSepCount]
  have e2 : exec cfg t (.recv .text (genEmptyReplyToWait a.tok)) = some
      { t with asks := t.asks.set i { a with box := some { wait := a.tok, setBinary := false } } } := by
    simp only [exec]
    rw [if_pos ⟨hrd1, a1.todo, a1.ackAfter⟩]
    unfold recv
    rw [if_neg hne, if_pos a1.acked]
    unfold handlePayload
    rw [hn]
    rw [hdec]
    unfold handleMessage
    have hw : ({ wait := a.tok, setBinary := decide (MsgType.text = MsgType.binary) } : Message).isWait cfg.isClient = true :=
      SideTok.own (m := { wait := a.tok, setBinary := decide (MsgType.text = MsgType.binary) }) hside
    rw [hw]
    simp only [Bool.false_eq_true, if_false, Bool.and_false, Bool.false_and, if_true]
    rw [if_neg (by simp [hsrv])]
    rw [a1.waiting]
    simp [deliver, a1.ask, hb]
  have s2 := step_of_exec hn hq r1 e2
  have r2 := Reach.step r1 s2
  have hlt := (List.getElem?_eq_some_iff.mp a1.ask).1
  have ha2 : (t.asks.set i { a with box := some { wait := a.tok, setBinary := false } })[i]? =
      some { a with box := some { wait := a.tok, setBinary := false } } := by simp [hlt]
  have e3 : ∃ s', exec cfg { t with asks := t.asks.set i { a with box := some { wait := a.tok, setBinary := false } } }
      (.resume i) = some s' := by
    have : ∃ s', Neffos.resume cfg { t with asks := t.asks.set i { a with box := some { wait := a.tok, setBinary := false } } } i =
        some s' := by
      unfold Neffos.resume
      rw [ha2]
      simp only [hd, Bool.false_eq_true, if_false]
      exact ⟨_, rfl⟩
    exact this
  obtain ⟨s', e3⟩ := e3
  have s3 := step_of_exec hn hq r2 e3
  obtain ⟨a', ha', hd'⟩ := resume_done e3
  refine ⟨[.srvUnask a.tok, .recv .text (genEmptyReplyToWait a.tok), .resume i], s', a', (fun _ _ h => by simp at h), ?_, ha', hd'⟩
  simp only [runOps, s1, s2, s3]

end Neffos.Revive
