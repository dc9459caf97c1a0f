import Verif.Proofs.ConnSteady
/-!
Helper: relations that the calls made by other goroutines than the reader respect.
-/
set_option autoImplicit false
namespace Neffos

variable {cfg : Cfg} {R : St → St → Prop} {ok : Nat → Prop}

/-- the basic changes of membership -/
structure Mid (R : St → St → Prop) : Prop extends Calm R where
  newObj : ∀ s ns, R s { s with objs := s.objs ++ [⟨ns, []⟩] }
  addRoom : ∀ s obj room, R s (s.setRooms obj (addRoom room))
  nsAdd : ∀ s ns obj, R s { s with connected := mapSet s.connected ns obj }

/-- and those of Asks, where only the Asks with `ok` may end -/
structure Outer (ok : Nat → Prop) (R : St → St → Prop) : Prop extends Mid R where
  wait : ∀ s w, R s { s with waiting := w }
  gates : ∀ s g, R s { s with gates := g }
  newAsk : ∀ s a, R s { s with asks := s.asks ++ [a] }
  endAsk : ∀ s i, ok i → R s (endAsk s i)

theorem Mid.replyConnect (q : Mid R) (s : St) (msg : Message) :
    R s (replyConnect cfg s msg) := by
  have c := q.toCalm
  unfold Neffos.replyConnect
  split
  · exact c.refl s
  · split
    · exact c.writeEmptyReply _ _
    · split
      · exact c.write _ _
      · simp only [Neffos.newObj]
        have h0 : R s { s with objs := s.objs ++ [⟨msg.ns, []⟩] } := q.newObj _ _
        split
        · rename_i t e he
          exact c.trans (c.trans h0 (c.fire' he)) (c.write _ _)
        · rename_i t he
          have h1 : R t { t with connected := mapSet t.connected msg.ns s.objs.length } := q.nsAdd _ _ _
          exact c.trans (c.trans (c.trans (c.trans h0 (c.fire' he)) h1) (c.writeEmptyReply _ _))
            (c.notifyConnected _ _ _)

theorem Outer.gateDone (q : Outer ok R) (s : St) (ns : Bytes) : R s (gateDone s ns) := by
  unfold Neffos.gateDone
  split
  · exact q.refl _
  · split
    · exact q.refl _
    · exact q.gates _ _

theorem Outer.finish (q : Outer ok R) (s : St) (k : Cont) (m : Message) (err : Option GoErr) :
    R s (finish cfg s k m err) := by
  cases k with
  | connect ns obj =>
    cases err with
    | some e => exact q.trans (q.emit _ _) (q.gateDone _ _)
    | none =>
      simp only [Neffos.finish]
      have h1 : R s { s with connected := mapSet s.connected ns obj } := q.nsAdd _ _ _
      exact q.trans (q.trans (q.trans h1 (q.notifyConnected _ _ _))
        (q.emit _ _)) (q.gateDone _ _)
  | disconnect obj msg =>
    cases err with
    | some e => exact q.emit _ _
    | none =>
      simp only [Neffos.finish]
      exact q.trans (q.trans (q.trans (q.trans
        (q.forceLeaveAll _ _ _) (q.nsDel _ _)) (q.fire _ _ _))
        (q.notifyDisconnect _ _)) (q.emit _ _)
  | join obj msg =>
    cases err with
    | some e => exact q.emit _ _
    | none =>
      simp only [Neffos.finish]
      split
      · rename_i t e he
        exact q.trans (q.fire' he) (q.emit _ _)
      · rename_i t he
        have h2 : R t (t.setRooms obj (Neffos.addRoom msg.room)) := q.addRoom _ _ _
        exact q.trans (q.trans (q.trans (q.fire' he) h2)
          (q.fire _ _ _)) (q.emit _ _)
  | leave obj msg =>
    cases err with
    | some e => exact q.emit _ _
    | none =>
      simp only [Neffos.finish]
      split
      · rename_i t e he
        exact q.trans (q.fire' he) (q.emit _ _)
      · rename_i t he
        exact q.trans (q.trans (q.trans (q.fire' he)
          (q.del _ _ _)) (q.fire _ _ _)) (q.emit _ _)
  | user => exact q.emit _ _

theorem Outer.newAsk' (q : Outer ok R) (s : St) (tok : Bytes) (k : Cont) : R s (Neffos.newAsk s tok k) := by
  unfold Neffos.newAsk
  split
  · exact q.newAsk _ _
  · exact q.trans (q.wait s (mapSet s.waiting tok s.asks.length)) (q.newAsk _ _)

theorem Outer.startAsk (q : Outer ok R) (s : St) (k : Cont) (msg : Message) (now : Int) (ex : Bool)
    (ho : ok s.asks.length) : R s (startAsk cfg s k msg now ex) := by
  unfold Neffos.startAsk
  split
  · exact q.finish _ _ _ _
  · split
    · exact q.finish _ _ _ _
    · split
      · exact q.finish _ _ _ _
      · dsimp only
        have h1 := q.trans (q.newAsk' s (genWait cfg.isClient now) k)
          (q.write (cfg := cfg) (Neffos.newAsk s (genWait cfg.isClient now) k)
            { msg with wait := genWait cfg.isClient now })
        revert h1
        generalize write cfg (Neffos.newAsk s (genWait cfg.isClient now) k)
            { msg with wait := genWait cfg.isClient now } = p
        obtain ⟨t, o⟩ := p
        intro h1
        cases o with
        | true => exact h1
        | false =>
          dsimp only
          exact q.trans (q.trans h1 (q.endAsk _ _ ho)) (q.finish _ _ _ _)

theorem Outer.connect (q : Outer ok R) (s : St) (ns : Bytes) (now : Int) (ex : Bool)
    (ho : ok s.asks.length) : R s (connect cfg s ns now ex) := by
  have hm := q.markReady (cfg := cfg) s
  have ha : (s.markReady cfg).asks = s.asks := (rd_markReady s).asks
  unfold Neffos.connect
  dsimp only
  revert hm ha
  generalize s.markReady cfg = s0
  intro hm ha
  split
  · exact hm
  · have hg : R s (gateStart s0 ns) := q.trans hm (q.gates _ _)
    have ha : (gateStart s0 ns).asks = s.asks := ha
    revert hg ha
    generalize gateStart s0 ns = s1
    intro hg ha
    split
    · exact q.trans (q.trans hg (q.emit _ _)) (q.gateDone _ _)
    · split
      · exact q.trans (q.trans hg (q.emit _ _)) (q.gateDone _ _)
      · simp only [Neffos.newObj]
        have h0 : R s { s1 with objs := s1.objs ++ [⟨ns, []⟩] } :=
          q.trans hg (q.newObj _ _)
        split
        · rename_i t e he
          exact q.trans (q.trans (q.trans h0 (q.fire' he))
            (q.emit _ _)) (q.gateDone _ _)
        · rename_i t he
          have hb := (rd_fire' (cfg := cfg) _ _ _ he).asks
          dsimp only at hb
          exact q.trans (q.trans h0 (q.fire' he)) (q.startAsk _ _ _ _ _ (by rw [hb, ha]; exact ho))

/-- the reader, the queue, the Asks and the gates stay -/
theorem rdSame_mid : Mid RdSame where
  refl _ := .refl _
  trans h k := h.trans k
  emit _ _ := ⟨rfl, rfl, rfl, rfl, rfl⟩
  ready _ _ := ⟨rfl, rfl, rfl, rfl, rfl⟩
  hang _ := ⟨rfl, rfl, rfl, rfl, rfl⟩
  del _ _ _ := ⟨rfl, rfl, rfl, rfl, rfl⟩
  nsDel _ _ := ⟨rfl, rfl, rfl, rfl, rfl⟩
  closed _ := ⟨rfl, rfl, rfl, rfl, rfl⟩
  waiting _ _ := ⟨rfl, rfl, rfl, rfl, rfl⟩
  unack _ _ := ⟨rfl, rfl, rfl, rfl, rfl⟩
  newObj _ _ := ⟨rfl, rfl, rfl, rfl, rfl⟩
  addRoom _ _ _ := ⟨rfl, rfl, rfl, rfl, rfl⟩
  nsAdd _ _ _ := ⟨rfl, rfl, rfl, rfl, rfl⟩

/-- as long as the connection is open it keeps its Asks' tokens and stays acknowledged -/
structure OpenSame (s t : St) : Prop where
  closed : s.closed = true → t.closed = true
  waiting : t.closed = false → t.waiting = s.waiting
  srv : t.srvWaiting = s.srvWaiting
  acked : t.closed = false → s.acked = true → t.acked = true

theorem openSame_eq {s t : St} (h1 : t.closed = s.closed) (h2 : t.waiting = s.waiting) (h3 : t.acked = s.acked)
    (h4 : t.srvWaiting = s.srvWaiting) :
    OpenSame s t := ⟨fun h => by rw [h1]; exact h, fun _ => h2, h4, fun _ h => by rw [h3]; exact h⟩

theorem openSame_steady : Steady OpenSame where
  refl _ := openSame_eq rfl rfl rfl rfl
  trans {a b c} h k := by
    have hb : c.closed = false → b.closed = false := fun hc => by
      cases hb : b.closed with
      | false => rfl
      | true => rw [k.closed hb] at hc; cases hc
    exact ⟨fun x => k.closed (h.closed x), fun x => (k.waiting x).trans (h.waiting (hb x)),
      k.srv.trans h.srv, fun x y => k.acked x (h.acked (hb x) y)⟩
  emit _ _ := openSame_eq rfl rfl rfl rfl
  ready _ _ := openSame_eq rfl rfl rfl rfl
  hang _ := openSame_eq rfl rfl rfl rfl
  del _ _ _ := openSame_eq rfl rfl rfl rfl
  nsDel _ _ := openSame_eq rfl rfl rfl rfl
  closed _ := ⟨fun _ => rfl, (fun h => by cases h), rfl, (fun h => by cases h)⟩
  waiting s h := ⟨fun x => x, fun x => by simp_all, rfl, fun x => by simp_all⟩
  unack s h := ⟨fun x => x, fun x => by simp_all, rfl, fun x => by simp_all⟩
  newObj _ _ := openSame_eq rfl rfl rfl rfl
  addRoom _ _ _ := openSame_eq rfl rfl rfl rfl
  nsAdd _ _ _ := openSame_eq rfl rfl rfl rfl
  rd _ _ := openSame_eq rfl rfl rfl rfl
  todo _ _ _ := openSame_eq rfl rfl rfl rfl
  box _ _ _ _ _ := openSame_eq rfl rfl rfl rfl
  text _ _ := openSame_eq rfl rfl rfl rfl
  binary _ _ := openSame_eq rfl rfl rfl rfl
  setAcked _ := ⟨fun x => x, fun _ => rfl, rfl, fun _ _ => rfl⟩
  ident _ _ := openSame_eq rfl rfl rfl rfl

/-- the reader and the Ask `i` stay -/
structure HoldAsk (i : Nat) (s t : St) : Prop where
  rd : t.rd = s.rd
  todo : t.todo = s.todo
  ackAfter : t.ackAfter = s.ackAfter
  ask : i < s.asks.length → i < t.asks.length ∧ t.asks[i]? = s.asks[i]?

theorem holdAsk_eq {i : Nat} {s t : St} (h1 : t.rd = s.rd) (h2 : t.todo = s.todo) (h3 : t.ackAfter = s.ackAfter)
    (h4 : t.asks = s.asks) : HoldAsk i s t := ⟨h1, h2, h3, fun h => by rw [h4]; exact ⟨h, rfl⟩⟩

theorem HoldAsk.trans {i : Nat} {a b c : St} (h : HoldAsk i a b) (k : HoldAsk i b c) : HoldAsk i a c :=
  ⟨k.rd.trans h.rd, k.todo.trans h.todo, k.ackAfter.trans h.ackAfter, fun x =>
    ⟨(k.ask (h.ask x).1).1, ((k.ask (h.ask x).1).2).trans (h.ask x).2⟩⟩

theorem holdAsk_set (i : Nat) (s : St) {j : Nat} (b : AskRec) (h : j ≠ i) :
    HoldAsk i s { s with asks := s.asks.set j b } :=
  ⟨rfl, rfl, rfl, fun x => ⟨by simpa using x, by simp only; rw [List.getElem?_set_ne h]⟩⟩

theorem holdAsk_endAsk (i : Nat) (s : St) {j : Nat} (h : j ≠ i) : HoldAsk i s (endAsk s j) :=
  ⟨rfl, rfl, rfl, fun x => ⟨by unfold endAsk; simpa using x, by
    unfold endAsk; simp only; rw [List.getElem?_modify]; simp [h]⟩⟩

theorem holdAsk_outer (i : Nat) : Outer (· ≠ i) (HoldAsk i) where
  refl _ := holdAsk_eq rfl rfl rfl rfl
  trans h k := h.trans k
  emit _ _ := holdAsk_eq rfl rfl rfl rfl
  ready _ _ := holdAsk_eq rfl rfl rfl rfl
  hang _ := holdAsk_eq rfl rfl rfl rfl
  del _ _ _ := holdAsk_eq rfl rfl rfl rfl
  nsDel _ _ := holdAsk_eq rfl rfl rfl rfl
  closed _ := holdAsk_eq rfl rfl rfl rfl
  waiting _ _ := holdAsk_eq rfl rfl rfl rfl
  unack _ _ := holdAsk_eq rfl rfl rfl rfl
  newObj _ _ := holdAsk_eq rfl rfl rfl rfl
  addRoom _ _ _ := holdAsk_eq rfl rfl rfl rfl
  nsAdd _ _ _ := holdAsk_eq rfl rfl rfl rfl
  wait _ _ := holdAsk_eq rfl rfl rfl rfl
  gates _ _ := holdAsk_eq rfl rfl rfl rfl
  newAsk s a := ⟨rfl, rfl, rfl, fun x => ⟨by simp only [List.length_append]; omega, by
    simp only; rw [List.getElem?_append_left x]⟩⟩
  endAsk s j h := holdAsk_endAsk i s h

/-- a reader that waits for a Connect, and an Ask that has no answer and does not read the socket:
what the other goroutines do changes neither -/
theorem holdAsk_exec {s s' : St} {op : Op} {i : Nat} {msg : Message} (hg : s.rd = .gate msg)
    (ha : ∀ a, s.asks[i]? = some a → a.mode = .table ∧ a.box = none ∧ ∀ e, op ≠ .cancel i e)
    (hne : s.asks.length ≠ i) (hw : op = .wake → gateReleased s msg.ns = false)
    (h : exec cfg s op = some s') : HoldAsk i s s' := by
  have q := holdAsk_outer i
  have c := q.toCalm
  cases op with
  | recv typ b =>
    simp only [exec] at h
    split at h
    · rename_i hx; rw [hg] at hx; simp at hx
    · simp at h
  | readErr e =>
    simp only [exec] at h
    split at h
    · rename_i hx; rw [hg] at hx; simp at hx
    · simp at h
  | wake =>
    simp only [exec, wakeReader, hg] at h
    rw [hw rfl] at h
    simp at h
  | contReader =>
    simp only [exec, contReader] at h
    split at h
    · rename_i hx; rw [hg] at hx; simp at hx
    · simp at h
  | connect ns now ex => cases h; exact q.connect _ _ _ _ hne
  | disconnect obj now ex =>
    simp only [exec] at h
    split at h
    · cases h
      unfold disconnect
      dsimp only
      split
      · exact c.emit _ _
      · exact q.startAsk _ _ _ _ _ hne
    · simp at h
  | join obj room now ex =>
    simp only [exec] at h
    split at h
    · cases h
      unfold joinRoom
      dsimp only
      split
      · exact c.emit _ _
      · exact q.startAsk _ _ _ _ _ hne
    · simp at h
  | leave obj room now ex =>
    simp only [exec] at h
    split at h
    · cases h
      unfold leaveRoom
      dsimp only
      split
      · exact q.startAsk _ _ _ _ _ hne
      · exact c.emit _ _
    · simp at h
  | ask msg now ex => cases h; exact q.startAsk _ _ _ _ _ hne
  | write msg => cases h; exact c.write _ _
  | resume j =>
    simp only [exec, resume] at h
    split at h
    · simp at h
    · rename_i a' hx
      split at h
      · simp at h
      · split at h
        · simp at h
        · rename_i m hbx
          have hj : j ≠ i := by
            rintro rfl
            rw [(ha a' hx).2.1] at hbx; cases hbx
          cases h
          have e1 : ∀ t : St, HoldAsk i t (forget t a') := by
            intro t; unfold forget; split <;> exact holdAsk_eq rfl rfl rfl rfl
          have e2 : HoldAsk i s (takeAnswer s j a') := by
            unfold takeAnswer
            split
            · rename_i hx; rw [hg] at hx; cases hx
            · exact holdAsk_set i s _ hj
          exact ((e2.trans (holdAsk_endAsk i _ hj)).trans (e1 _)).trans (q.finish _ _ _ _)
  | cancel j e =>
    simp only [exec, cancel] at h
    split at h
    · simp at h
    · rename_i a' hx
      have hj : j ≠ i := by
        rintro rfl
        exact (ha a' hx).2.2 e rfl
      split at h
      · simp at h
      · cases h
        exact (holdAsk_endAsk i _ hj).trans (q.finish _ _ _ _)
  | close => cases h; exact c.closeConn _
  | steal j typ b =>
    simp only [exec, steal] at h
    split at h
    · simp at h
    · rename_i a' hx
      split at h
      · rename_i hmd
        have hj : j ≠ i := by
          rintro rfl
          rw [(ha a' hx).1] at hmd; cases hmd
        cases h; exact holdAsk_set i s _ hj
      · simp at h
  | stealErr j e =>
    simp only [exec, steal] at h
    split at h
    · simp at h
    · rename_i a' hx
      split at h
      · rename_i hmd
        have hj : j ≠ i := by
          rintro rfl
          rw [(ha a' hx).1] at hmd; cases hmd
        cases h; exact holdAsk_set i s _ hj
      · simp at h
  | ready e =>
    cases h
    unfold St.signalReady
    split <;> exact holdAsk_eq rfl rfl rfl rfl
  | sendAck =>
    simp only [exec] at h
    split at h
    · cases h; exact c.refl _
    · have hw := c.rawWrite (cfg := cfg) s (b! "M") false
      revert h hw
      generalize rawWrite cfg s (b! "M") false = p
      obtain ⟨t, ok⟩ := p
      intro h hw
      cases ok with
      | true => cases h; exact hw
      | false => cases h; exact c.trans hw (c.closeConn _)
  | srvAsk tok => cases h; exact holdAsk_eq rfl rfl rfl rfl
  | srvUnask tok => cases h; exact holdAsk_eq rfl rfl rfl rfl

/-! ### What does not hang -/

theorem hung_foldl {α : Type} (f : St → α → St) (hf : ∀ s a, (f s a).hung = s.hung) (l : List α) (s : St) :
    (l.foldl f s).hung = s.hung := by
  induction l generalizing s with
  | nil => rfl
  | cons a l ih => rw [List.foldl_cons, ih, hf]

theorem hung_fireClosed (s : St) (obj : Nat) (msg : Message) : (fireClosed cfg s obj msg).hung = s.hung := by
  unfold fireClosed; dsimp only; split <;> rfl

theorem hung_closeOne (s : St) (ns : Bytes) : (closeOne cfg s ns).hung = s.hung := by
  unfold closeOne
  split
  · rfl
  · rename_i obj _
    have h : (forceLeaveClosed cfg s obj true).hung = s.hung :=
      hung_foldl _ (fun s r => by
        unfold leaveOneClosed; dsimp only
        rw [hung_fireClosed]
        exact hung_fireClosed _ _ _) _ _
    rw [← h]
    exact hung_fireClosed _ _ _

theorem hung_closeConn (s : St) : (closeConn cfg s).hung = s.hung := by
  have e : ∀ t : St, (closeEnd cfg t).hung = t.hung := by intro t; unfold closeEnd; split <;> rfl
  unfold closeConn
  split
  · rfl
  · split
    · rw [e]
    · rw [e]
      unfold closeAll
      exact hung_foldl (closeOne cfg) hung_closeOne _ { s with closed := true }

theorem hung_rawWrite (s : St) (b : Bytes) (binary : Bool) : (rawWrite cfg s b binary).1.hung = s.hung := by
  unfold rawWrite
  dsimp only
  split
  · rfl
  · split
    · rw [hung_closeConn]; rfl
    · rfl

theorem hung_write (s : St) (msg : Message) : (write cfg s msg).1.hung = s.hung := by
  rw [write_eq]
  have hm : (s.markReady cfg).hung = s.hung := by
    unfold St.markReady St.signalReady; split
    · rfl
    · split <;> rfl
  split
  · rw [hung_rawWrite, hm]
  · split
    · rfl
    · exact hm

theorem hung_fire (s : St) (obj : Nat) (msg : Message) : (fire cfg s obj msg).1.hung = s.hung := by
  unfold fire
  dsimp only
  split
  · rfl
  · exact hung_foldl (runAct cfg) (fun s a => by
      cases a with
      | write m => exact hung_write s m
      | close => exact hung_closeConn s) _ (s.emit _)

theorem hung_gateDone (s : St) (ns : Bytes) : (gateDone s ns).hung = s.hung := by
  unfold gateDone
  split
  · rfl
  · split <;> rfl

end Neffos
