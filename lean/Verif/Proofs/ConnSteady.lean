import Verif.Proofs.ConnPassive
/-!
Helper: relations that every change of a connection respects, except the start and the end
of Asks and the connect gate.
-/
namespace Neffos

variable {cfg : Cfg} {R : St → St → Prop}

structure Steady (R : St → St → Prop) : Prop extends Calm R where
  newObj : ∀ s ns, R s { s with objs := s.objs ++ [⟨ns, []⟩] }
  addRoom : ∀ s obj room, R s (s.setRooms obj (addRoom room))
  nsAdd : ∀ s ns obj, R s { s with connected := mapSet s.connected ns obj }
  rd : ∀ s rd, R s { s with rd := rd }
  todo : ∀ s todo aa, R s { s with todo := todo, ackAfter := aa }
  box : ∀ s (i : Nat) (a : AskRec) m, s.asks[i]? = some a →
    R s { s with asks := s.asks.set i { a with box := some m } }
  text : ∀ s q, R s { s with queueText := q }
  binary : ∀ s q, R s { s with queueBinary := q }
  setAcked : ∀ s, R s { s with acked := true }
  ident : ∀ s i, R s { s with id := i }

theorem Steady.replyConnect (q : Steady R) (s : St) (msg : Message) :
    R s (replyConnect cfg s msg) := by
  have c := q.toCalm
  unfold Neffos.replyConnect
  split
  · exact c.refl s
  · split
    · exact c.writeEmptyReply _ _
    · split
      · exact c.write _ _
      · simp only [Neffos.newObj]
        have h0 := q.newObj s msg.ns
        split
        · rename_i t e he
          exact c.trans (c.trans h0 (c.fire' he)) (c.write _ _)
        · rename_i t he
          exact c.trans (c.trans (c.trans (c.trans h0 (c.fire' he)) (q.nsAdd _ _ _))
            (c.writeEmptyReply _ _)) (c.notifyConnected _ _ _)

theorem Steady.replyRoomJoin (q : Steady R) (s : St) (obj : Nat) (msg : Message) :
    R s (replyRoomJoin cfg s obj msg) := by
  have c := q.toCalm
  unfold Neffos.replyRoomJoin
  split
  · exact c.refl s
  · split
    · exact c.writeEmptyReply _ _
    · split
      · rename_i t e he
        exact c.trans (c.fire' he) (c.write _ _)
      · rename_i t he
        exact c.trans (c.trans (c.trans (c.fire' he) (q.addRoom _ _ _))
          (c.fire _ _ _)) (c.writeEmptyReply _ _)

theorem Steady.afterGate (q : Steady R) (s : St) (msg : Message) : R s (afterGate cfg s msg) := by
  have c := q.toCalm
  unfold Neffos.afterGate
  split
  · exact c.write _ _
  · split
    · exact q.replyRoomJoin _ _ _
    · split
      · exact c.replyRoomLeave _ _ _
      · exact c.handleEvent _ _ _

theorem Steady.handleMessage (q : Steady R) (s : St) (msg : Message) :
    R s (handleMessage cfg s msg) := by
  have c := q.toCalm
  have hd : R s (dispatch cfg s msg) := by
    unfold dispatch
    split
    · exact q.replyConnect _ _
    · split
      · exact c.replyDisconnect _ _
      · split
        · exact q.rd _ _
        · exact q.afterGate _ _
  unfold Neffos.handleMessage
  split
  · exact c.refl s
  · split
    · split
      · exact c.hang _
      · exact c.fire _ _ _
    · split
      · split
        · exact c.emit _ _
        · split
          · exact c.emit _ _
          · split
            · unfold deliver
              split
              · exact c.refl s
              · rename_i a ha
                split
                · exact q.box _ _ a _ ha
                · exact q.rd _ _
            · exact hd
      · exact hd

theorem Steady.exit (q : Steady R) (s : St) : R s (readerExit cfg s) :=
  q.toCalm.readerExit (fun s r => q.rd s r) s

theorem Steady.drain (q : Steady R) (l : List (MsgType × Bytes)) (s : St) : R s (drain cfg s l) := by
  have c := q.toCalm
  induction l generalizing s with
  | nil =>
    unfold Neffos.drain
    dsimp only
    split
    · unfold finishAck
      dsimp only
      have h1 := c.trans (q.todo s [] false) (c.rawWrite (cfg := cfg)
        { s with todo := [], ackAfter := false } (65 :: s.id) false)
      split
      · exact h1
      · exact c.trans h1 (q.exit _)
    · exact q.todo s [] s.ackAfter
  | cons p l ih =>
    obtain ⟨t, b⟩ := p
    unfold Neffos.drain
    dsimp only
    have h0 := c.trans (q.rd s .idle) (q.handleMessage (cfg := cfg) _
      (deserializeMessage cfg.known t b cfg.allowNative cfg.onlyNative))
    split
    · exact c.trans h0 (ih _)
    · exact c.trans h0 (q.todo _ l _)

theorem Steady.ackReady (q : Steady R) (s : St) (e : Option GoErr) : R s (ackReady cfg s e) := by
  have c := q.toCalm
  unfold Neffos.ackReady
  split
  · exact c.trans (c.rawWrite _ _ _) (q.exit _)
  · dsimp only
    exact c.trans (c.trans (c.trans (c.trans (c.trans (q.setAcked s) (q.text _ [])) (q.binary _ []))
      (q.todo _ _ true)) (q.rd _ .idle)) (q.drain _ _)

theorem Steady.signalReady (q : Steady R) (s : St) (e : Option GoErr) : R s (s.signalReady e) := by
  unfold St.signalReady; split
  · exact q.refl s
  · exact q.ready _ _

theorem Steady.recv (q : Steady R) (s : St) (typ : MsgType) (b : Bytes) : R s (recv cfg s typ b) := by
  have c := q.toCalm
  unfold Neffos.recv
  split
  · exact c.refl s
  · split
    · exact q.handleMessage _ _
    · unfold handleACK
      split
      · exact c.refl s
      · rename_i ch rest _
        split
        · split
          · exact q.rd _ _
          · exact q.ackReady _ _
        · split
          · exact c.trans (c.trans (q.ident s rest) (q.setAcked _)) (q.signalReady _ _)
          · split
            · exact c.trans (q.signalReady _ _) (q.exit _)
            · split
              · exact q.text _ _
              · exact q.binary _ _

/-- the operations of the reader -/
theorem Steady.wake (q : Steady R) {s s' : St} (h : wakeReader cfg s = some s') : R s s' := by
  have c := q.toCalm
  unfold wakeReader at h
  split at h
  · split at h
    · rename_i msg _ _
      dsimp only at h
      have h1 := c.trans (q.rd s .idle) (q.afterGate (cfg := cfg) _ msg)
      split at h
      · cases h; exact c.trans h1 (q.drain _ _)
      · cases h; exact h1
    · simp at h
  · split at h
    · simp at h
    · cases h; exact q.ackReady _ _
  · simp at h

/-! ### The continuations of Asks -/

/-- no Ask has a new continuation -/
def AskKeep (s t : St) : Prop := ∀ a ∈ t.asks, ∃ a' ∈ s.asks, a'.cont = a.cont

theorem askKeep_eq {s t : St} (h : t.asks = s.asks) : AskKeep s t :=
  fun a ha => ⟨a, h ▸ ha, rfl⟩

theorem AskKeep.trans {a b c : St} (h : AskKeep a b) (k : AskKeep b c) : AskKeep a c := by
  intro x hx
  obtain ⟨y, hy, e⟩ := k x hx
  obtain ⟨z, hz, e'⟩ := h y hy
  exact ⟨z, hz, e'.trans e⟩

theorem askKeep_set {s : St} {i : Nat} {a b : AskRec} (h : s.asks[i]? = some a) (hb : b.cont = a.cont) :
    AskKeep s { s with asks := s.asks.set i b } := by
  intro x hx
  rcases List.mem_or_eq_of_mem_set hx with hx | rfl
  · exact ⟨x, hx, rfl⟩
  · exact ⟨a, List.mem_of_getElem? h, hb.symm⟩

theorem askKeep_steady : Steady AskKeep where
  refl _ := askKeep_eq rfl
  trans h k := h.trans k
  emit _ _ := askKeep_eq rfl
  ready _ _ := askKeep_eq rfl
  hang _ := askKeep_eq rfl
  del _ _ _ := askKeep_eq rfl
  nsDel _ _ := askKeep_eq rfl
  closed _ := askKeep_eq rfl
  waiting _ _ := askKeep_eq rfl
  unack _ _ := askKeep_eq rfl
  newObj _ _ := askKeep_eq rfl
  addRoom _ _ _ := askKeep_eq rfl
  nsAdd _ _ _ := askKeep_eq rfl
  rd _ _ := askKeep_eq rfl
  todo _ _ _ := askKeep_eq rfl
  box _ _ _ _ h := askKeep_set h rfl
  text _ _ := askKeep_eq rfl
  binary _ _ := askKeep_eq rfl
  setAcked _ := askKeep_eq rfl
  ident _ _ := askKeep_eq rfl

theorem askKeep_endAsk (s : St) (i : Nat) : AskKeep s (endAsk s i) := by
  intro x hx
  unfold endAsk at hx
  simp only at hx
  obtain ⟨j, hj⟩ := List.mem_iff_getElem?.mp hx
  rw [List.getElem?_modify] at hj
  cases hg : s.asks[j]? with
  | none => rw [hg] at hj; simp at hj
  | some a =>
    rw [hg] at hj
    simp only [Option.map_eq_map, Option.map_some, Option.some.injEq] at hj
    refine ⟨a, List.mem_of_getElem? hg, ?_⟩
    rw [← hj]; split <;> rfl

theorem askKeep_finish {k : Cont} (hk : calmCont k = true) (s : St) (m : Message) (err : Option GoErr) :
    AskKeep s (finish cfg s k m err) := by
  have c := askKeep_steady.toCalm
  cases k with
  | leave obj msg =>
    cases err with
    | some e => exact c.emit _ _
    | none =>
      simp only [finish]
      split
      · rename_i t e he
        exact c.trans (c.fire' he) (c.emit _ _)
      · rename_i t he
        exact c.trans (c.trans (c.trans (c.fire' he) (c.del _ _ _)) (c.fire _ _ _)) (c.emit _ _)
  | user => exact c.emit _ _
  | _ => simp [calmCont] at hk

theorem calm_startAsk {k : Cont} (hk : calmCont k = true) (s : St) (msg : Message) (now : Int)
    (ex : Bool) (ha : ∀ a ∈ s.asks, calmCont a.cont = true) :
    ∀ a ∈ (startAsk cfg s k msg now ex).asks, calmCont a.cont = true := by
  have keep : ∀ {s t : St}, AskKeep s t → (∀ a ∈ s.asks, calmCont a.cont = true) →
      ∀ a ∈ t.asks, calmCont a.cont = true := by
    intro s t h hs a hx
    obtain ⟨b, hb, e⟩ := h a hx
    rw [← e]; exact hs b hb
  unfold startAsk
  split
  · exact keep (askKeep_finish hk _ _ _) ha
  · split
    · exact keep (askKeep_finish hk _ _ _) ha
    · split
      · exact keep (askKeep_finish hk _ _ _) ha
      · dsimp only
        have h0 : ∀ a ∈ (newAsk s (genWait cfg.isClient now) k).asks, calmCont a.cont = true := by
          unfold newAsk
          split
          all_goals
            intro a hx
            rcases List.mem_append.mp hx with hx | hx
            · exact ha a hx
            · rw [List.mem_singleton.mp hx]; exact hk
        have h1 := keep (askKeep_steady.toCalm.write (cfg := cfg) (newAsk s (genWait cfg.isClient now) k)
            { msg with wait := genWait cfg.isClient now }) h0
        revert h1
        generalize write cfg (newAsk s (genWait cfg.isClient now) k)
            { msg with wait := genWait cfg.isClient now } = p
        obtain ⟨t, ok⟩ := p
        intro h1
        cases ok with
        | true => exact h1
        | false =>
          dsimp only
          exact keep ((askKeep_endAsk _ _).trans (askKeep_finish hk _ _ _)) h1

theorem calm_exec {s s' : St} {op : Op} (hop : Spec.asksMembership op = false)
    (ha : ∀ a ∈ s.asks, calmCont a.cont = true) (h : exec cfg s op = some s') :
    ∀ a ∈ s'.asks, calmCont a.cont = true := by
  have q := askKeep_steady
  have c := q.toCalm
  have keep : ∀ {t : St}, AskKeep s t → ∀ a ∈ t.asks, calmCont a.cont = true := by
    intro t h a hx
    obtain ⟨b, hb, e⟩ := h a hx
    rw [← e]; exact ha b hb
  cases op with
  | recv typ b =>
    simp only [exec] at h
    split at h
    · cases h; exact keep (q.recv _ _ _)
    · simp at h
  | readErr e =>
    simp only [exec] at h
    split at h
    · cases h; exact keep (c.trans (q.signalReady _ _) (q.exit _))
    · simp at h
  | wake => exact keep (q.wake h)
  | contReader =>
    simp only [exec, contReader] at h
    split at h
    · cases h; exact keep (q.drain _ _)
    · simp at h
  | connect ns now ex => simp [Spec.asksMembership] at hop
  | disconnect obj now ex => simp [Spec.asksMembership] at hop
  | join obj room now ex => simp [Spec.asksMembership] at hop
  | leave obj room now ex =>
    simp only [exec] at h
    split at h
    · cases h
      unfold leaveRoom
      dsimp only
      split
      · exact calm_startAsk rfl _ _ _ _ ha
      · exact ha
    · simp at h
  | ask msg now ex => cases h; exact calm_startAsk rfl _ _ _ _ ha
  | write msg => cases h; exact keep (c.write _ _)
  | resume i =>
    simp only [exec, resume] at h
    split at h
    · simp at h
    · rename_i a hx
      split at h
      · simp at h
      · split at h
        · simp at h
        · cases h
          have e1 : ∀ t : St, AskKeep t (forget t a) := by
            intro t; unfold forget; split <;> exact askKeep_eq rfl
          have e2 : AskKeep s (takeAnswer s i a) := by
            unfold takeAnswer
            split
            · split
              · exact askKeep_set hx rfl
              · exact askKeep_set hx rfl
            · exact askKeep_set hx rfl
          exact keep (((e2.trans (askKeep_endAsk _ _)).trans (e1 _)).trans
            (askKeep_finish (ha a (List.mem_of_getElem? hx)) _ _ _))
  | cancel i e =>
    simp only [exec, cancel] at h
    split at h
    · simp at h
    · rename_i a hx
      split at h
      · simp at h
      · cases h
        exact keep ((askKeep_endAsk _ _).trans (askKeep_finish (ha a (List.mem_of_getElem? hx)) _ _ _))
  | close => cases h; exact keep (c.closeConn _)
  | steal i typ b =>
    simp only [exec, steal] at h
    split at h
    · simp at h
    · rename_i a hx
      split at h
      · cases h; exact keep (askKeep_set hx rfl)
      · simp at h
  | stealErr i e =>
    simp only [exec, steal] at h
    split at h
    · simp at h
    · rename_i a hx
      split at h
      · cases h; exact keep (askKeep_set hx rfl)
      · simp at h
  | ready e => cases h; exact keep (q.signalReady _ _)
  | sendAck =>
    simp only [exec] at h
    split at h
    · cases h; exact ha
    · have hw := c.rawWrite (cfg := cfg) s (b! "M") false
      revert h hw
      generalize rawWrite cfg s (b! "M") false = p
      obtain ⟨t, ok⟩ := p
      intro h hw
      cases ok with
      | true => cases h; exact keep hw
      | false => cases h; exact keep (c.trans hw (c.closeConn _))
  | srvAsk tok => cases h; exact ha
  | srvUnask tok => cases h; exact ha

end Neffos
