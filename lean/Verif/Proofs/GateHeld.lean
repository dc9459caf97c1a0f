import Verif.Proofs.AgreeBoth
import Verif.Props.GateConn
/-!
Helper lemmas for the absence of deadlocks when both sides call: what a reader that waits at a gate waits for.
-/
set_option autoImplicit false
namespace Neffos
open Neffos.Spec

variable {cfg x y cc sc : Cfg} {id : Bytes} {known : List KnownErr} {s s' : St}

/-- the gate that the reader waits at, if it does, was not open before -/
def GateHeld (s : St) : Prop :=
  ∀ M, s.rd = .gate M → (gateOf s M.ns).done = false ∨ (gateOf s M.ns).count = 0

/-- the reader is not waiting at a gate -/
def NotHeld (s : St) : Prop := ∀ M, s.rd ≠ .gate M

theorem NotHeld.gateHeld (h : NotHeld s) : GateHeld s := fun M hM => absurd hM (h M)

theorem GateHeld.same (h : GateHeld s) (h1 : s'.rd = s.rd) (h2 : s'.gates = s.gates) : GateHeld s' := by
  intro M hM
  rw [h1] at hM
  have := h M hM
  unfold gateOf at this ⊢
  rw [h2]
  exact this

theorem GateHeld.rdSame (h : GateHeld s) (k : RdSame s s') : GateHeld s' := h.same k.rd k.gates

theorem held_dispatch (s : St) (msg : Message) (h : GateHeld s) : GateHeld (dispatch cfg s msg) := by
  unfold dispatch
  split
  · exact h.rdSame (rdSame_mid.replyConnect _ _)
  · split
    · exact h.rdSame (rdSame_mid.toCalm.replyDisconnect _ _)
    · split
      · rename_i hg
        intro M hM
        cases hM
        rw [gateBlocks_eq] at hg
        simp only [Bool.and_eq_true, Bool.not_eq_true'] at hg
        exact .inl hg.1
      · exact h.rdSame (rd_afterGate _ _)

theorem held_handleMessage (s : St) (msg : Message) (h : GateHeld s) : GateHeld (handleMessage cfg s msg) := by
  unfold handleMessage
  split
  · exact h
  · split
    · split
      · exact h.same rfl rfl
      · exact h.rdSame (rdSame_mid.toCalm.fire _ _ _)
    · split
      · split
        · exact h.same rfl rfl
        · split
          · exact h.same rfl rfl
          · split
            · unfold deliver
              split
              · exact h
              · split
                · exact h.same rfl rfl
                · intro M hM; cases hM
            · exact held_dispatch _ _ h
      · exact held_dispatch _ _ h

theorem held_exit (s : St) : GateHeld (readerExit cfg s) := by
  intro M hM
  cases hM

theorem held_finishAck (s : St) (h : GateHeld s) : GateHeld (finishAck cfg s) := by
  unfold finishAck
  have k := rd_rawWrite (cfg := cfg) { s with ackAfter := false } (65 :: s.id) false
  dsimp only
  split
  · exact GateHeld.rdSame (s := { s with ackAfter := false }) h k
  · exact held_exit _

theorem held_drain (l : List (MsgType × Bytes)) : ∀ s : St, GateHeld s → GateHeld (drain cfg s l) := by
  induction l with
  | nil =>
    intro s h
    unfold drain
    dsimp only
    split
    · exact held_finishAck _ h
    · exact h
  | cons p l ih =>
    intro s h
    obtain ⟨t, b⟩ := p
    unfold drain
    dsimp only
    have k : GateHeld (handlePayload cfg { s with rd := .idle } t b) :=
      held_handleMessage _ _ fun M hM => by cases hM
    split
    · exact ih _ k
    · exact k.same rfl rfl

theorem held_ackReady (s : St) (e : Option GoErr) : GateHeld (ackReady cfg s e) := by
  unfold ackReady
  split
  · exact held_exit _
  · exact held_drain _ _ fun M hM => by cases hM

theorem held_recv (s : St) (t : MsgType) (b : Bytes) (h : GateHeld s) : GateHeld (recv cfg s t b) := by
  unfold recv
  split
  · exact h
  · split
    · exact held_handleMessage _ _ h
    · unfold handleACK
      split
      · exact h
      · split
        · split
          · intro M hM; cases hM
          · exact held_ackReady _ _
        · split
          · exact GateHeld.rdSame (s := { s with id := _, acked := true }) h (rd_signalReady _ _)
          · split
            · exact held_exit _
            · split
              · exact h.same rfl rfl
              · exact h.same rfl rfl

theorem held_wake {t : St} (h : wakeReader cfg s = some t) : GateHeld t := by
  unfold wakeReader at h
  split at h
  · rename_i msg _
    split at h
    · have k : GateHeld (afterGate cfg { s with rd := .idle } msg) :=
        GateHeld.rdSame (s := { s with rd := .idle }) (fun M hM => by cases hM) (rd_afterGate _ _)
      dsimp only at h
      split at h
      · cases h; exact held_drain _ _ k
      · cases h; exact k
    · cases h
  · split at h
    · cases h
    · cases h; exact held_ackReady _ _
  · cases h

theorem held_finish (k : Cont) (m : Message) (e : Option GoErr) (h : GateHeld s)
    (hp : ∀ n obj, k = .connect n obj → (gateOf s n).done = false → (gateOf s n).count ≤ 1) :
    GateHeld (finish cfg s k m e) := by
  intro M hM
  rw [(rdAsk_finish s k m e).rd] at hM
  have h0 := h M hM
  by_cases hk : ∃ obj, k = .connect M.ns obj
  · obtain ⟨obj, rfl⟩ := hk
    have hfin := finish_gate_done (cfg := cfg) s M.ns obj m e
    cases hd : (gateOf s M.ns).done with
    | true =>
      rw [hfin.1 hd]
      exact h0
    | false =>
      right
      rw [hfin.2 hd]
      have := hp M.ns obj rfl hd
      omega
  · rw [finish_gate s k m e M.ns fun obj e => hk ⟨obj, e⟩]
    exact h0

/-- the reader stays where it is -/
def RdKeep (s t : St) : Prop := t.rd = s.rd

theorem rdKeep_outer : Outer (fun _ => True) RdKeep where
  refl _ := rfl
  trans h k := Eq.trans k h
  emit _ _ := rfl
  ready _ _ := rfl
  hang _ := rfl
  del _ _ _ := rfl
  nsDel _ _ := rfl
  closed _ := rfl
  waiting _ _ := rfl
  unack _ _ := rfl
  newObj _ _ := rfl
  addRoom _ _ _ := rfl
  nsAdd _ _ _ := rfl
  wait _ _ := rfl
  gates _ _ := rfl
  newAsk _ _ := rfl
  endAsk _ _ _ := rfl

theorem NotHeld.keep (h : NotHeld s) (k : RdKeep s s') : GateHeld s' :=
  NotHeld.gateHeld fun M hM => h M ((show s'.rd = s.rd from k).symm.trans hM)

/-- the calls that open gates or may complete -/
def Op.isCall : Op → Bool
  | .connect .. => true
  | .disconnect .. => true
  | .join .. => true
  | .leave .. => true
  | .ask .. => true
  | _ => false

theorem held_step {op : Op} (hr : Reach cfg id s) (hp : ∀ n, pend s n ≤ 1) (hcall : op.isCall = true → NotHeld s)
    (h : GateHeld s) (hs : step cfg s op = some s') : GateHeld s' := by
  have q := rdKeep_outer
  have hcount : ∀ n, (gateOf s n).done = false → (gateOf s n).count ≤ 1 := by
    intro n hd
    have h1 := (reach_gateOk hr n).2.1 hd
    have h2 := hp n
    simp only [Nat.add_zero] at h1
    omega
  obtain ⟨he, _⟩ := step_exec hs
  cases op with
  | recv t b =>
    simp only [exec] at he
    split at he
    · cases he; exact held_recv _ _ _ h
    · cases he
  | readErr e =>
    simp only [exec] at he
    split at he
    · cases he; exact held_exit _
    · cases he
  | wake => exact held_wake he
  | contReader =>
    simp only [exec, contReader] at he
    split at he
    · cases he; exact held_drain _ _ h
    · cases he
  | connect ns now ex => simp only [exec] at he; cases he; exact (hcall rfl).keep (q.connect _ _ _ _ trivial)
  | disconnect obj now ex =>
    simp only [exec] at he
    split at he
    · cases he
      refine (hcall rfl).keep ?_
      unfold disconnect
      dsimp only
      split
      · exact q.emit _ _
      · exact q.startAsk _ _ _ _ _ trivial
    · cases he
  | join obj room now ex =>
    simp only [exec] at he
    split at he
    · cases he
      refine (hcall rfl).keep ?_
      unfold joinRoom
      dsimp only
      split
      · exact q.emit _ _
      · exact q.startAsk _ _ _ _ _ trivial
    · cases he
  | leave obj room now ex =>
    simp only [exec] at he
    split at he
    · cases he
      refine (hcall rfl).keep ?_
      unfold leaveRoom
      dsimp only
      split
      · exact q.startAsk _ _ _ _ _ trivial
      · exact q.emit _ _
    · cases he
  | ask msg now ex => simp only [exec] at he; cases he; exact (hcall rfl).keep (q.startAsk _ _ _ _ _ trivial)
  | write m => simp only [exec] at he; cases he; exact h.rdSame (rdSame_mid.toCalm.write _ _)
  | resume i =>
    simp only [exec, resume] at he
    split at he
    · cases he
    · rename_i a ha
      split at he
      · cases he
      · split at he
        · cases he
        · cases he
          have hg : (forget (endAsk (takeAnswer s i a) i) a).gates = s.gates := by
            unfold forget endAsk takeAnswer; (repeat' split) <;> rfl
          have hrd : ∀ M, (forget (endAsk (takeAnswer s i a) i) a).rd = .gate M → s.rd = .gate M := by
            intro M
            unfold forget endAsk takeAnswer
            (repeat' split) <;> intro hM <;> first | exact hM | cases hM
          have hgo : ∀ n, gateOf (forget (endAsk (takeAnswer s i a) i) a) n = gateOf s n := by
            intro n; unfold gateOf; rw [hg]
          refine held_finish _ _ _ ?_ fun n obj _ hd => ?_
          · intro M hM
            rw [hgo]
            exact h M (hrd M hM)
          · rw [hgo] at hd ⊢
            exact hcount n hd
  | cancel i e =>
    simp only [exec, cancel] at he
    split at he
    · cases he
    · split at he
      · cases he
      · cases he
        exact held_finish _ _ _ (h.same rfl rfl) fun n obj _ hd => hcount n hd
  | close => simp only [exec] at he; cases he; exact h.rdSame (rd_closeConn _)
  | steal i t b =>
    simp only [exec, steal] at he
    split at he
    · cases he
    · split at he
      · cases he; exact h.same rfl rfl
      · cases he
  | stealErr i e =>
    simp only [exec, steal] at he
    split at he
    · cases he
    · split at he
      · cases he; exact h.same rfl rfl
      · cases he
  | ready e => simp only [exec] at he; cases he; exact h.rdSame (rd_signalReady _ _)
  | sendAck =>
    simp only [exec] at he
    split at he
    · cases he; exact h
    · have k := rd_rawWrite (cfg := cfg) s (b! "M") false
      revert he k
      generalize rawWrite cfg s (b! "M") false = p
      obtain ⟨t, ok⟩ := p
      intro he k
      cases ok with
      | true => cases he; exact h.rdSame k
      | false => cases he; exact (h.rdSame k).rdSame (rd_closeConn _)
  | srvAsk tok => simp only [exec] at he; cases he; exact h.same rfl rfl
  | srvUnask tok => simp only [exec] at he; cases he; exact h.same rfl rfl

/-! ### Sessions -/

variable {cl : Bool} {A : List Pend} {B : List (Pend × Option GoErr)} {X : List (Pend × Option GoErr × Option Message)}

/-- a Connect in flight is a request to connect -/
theorem Flying.connect {p : Pend} {n : Bytes} {obj : Nat} (h : Flying cl s p) (hk : p.k = .connect n obj) :
    p.req = some (.connect n) := by
  obtain ⟨q, h1, _, h2, _⟩ := h.req
  rw [hk] at h2
  rw [h1]
  cases q with
  | connect ns => obtain ⟨_, k, _⟩ := h2; cases k; rfl
  | disconnect ns => obtain ⟨_, _, k, _⟩ := h2; cases k
  | join ns r => obtain ⟨_, _, k, _⟩ := h2; cases k
  | leave ns r => obtain ⟨_, _, k, _⟩ := h2; cases k

theorem half_pend (h : Half cl known s A B X) (n : Bytes) : pend s n ≤ 1 := by
  rcases Nat.lt_or_ge (pend s n) 1 with h0 | h0
  · omega
  · obtain ⟨i, obj, a, ha, hd, hk⟩ := pend_pos.1 h0
    refine Nat.le_of_eq (pend_one ha (by simp [pendOf, hk, hd]) fun j b hj hne hb => hne ?_)
    simp only [pendOf, Bool.and_eq_true, Bool.not_eq_true'] at hb
    obtain ⟨p, h1, h2⟩ := h.cover j b hj hb.1
    obtain ⟨p', h1', h2'⟩ := h.cover i a ha hd
    obtain ⟨box, hbx⟩ := h.askOf h1
    obtain ⟨box', hbx'⟩ := h.askOf h1'
    unfold AskIs at hbx hbx'
    rw [h2, hj] at hbx
    rw [h2', ha] at hbx'
    cases hbx
    cases hbx'
    have hb2 := hb.2
    dsimp only at hb2 hk
    cases hpk : p.k with
    | connect n' obj' =>
      rw [hpk] at hb2
      simp only [decide_eq_true_eq] at hb2
      subst hb2
      have hap : p = p' ∨ Apart p p' := by
        have key : ∀ {l : List Pend}, l.Pairwise Apart → p ∈ l → p' ∈ l → p = p' ∨ Apart p p' := by
          intro l hl
          induction hl with
          | nil => intro hp; cases hp
          | cons g1 _ ih =>
            intro hp hp'
            rcases List.mem_cons.mp hp with e | k
            · rcases List.mem_cons.mp hp' with e' | k'
              · exact .inl (e.trans e'.symm)
              · rw [e]; exact .inr (g1 _ k')
            · rcases List.mem_cons.mp hp' with e' | k'
              · rw [e']; exact .inr (g1 _ k).symm
              · exact ih k k'
        exact key h.apart h1 h1'
      rcases hap with e | e
      · rw [← h2, ← h2', e]
      · exact absurd ⟨rfl, .inl rfl⟩ (e.2 _ _ ((h.ready p h1).connect hpk) ((h.ready p' h1').connect hk))
    | _ => rw [hpk] at hb2; cases hb2

theorem pend_nil (h : s.asks = []) (n : Bytes) : pend s n ≤ 1 := by
  unfold pend
  rw [h]
  exact Nat.zero_le _

theorem phase_pend {c d : St} {pu pd : List (MsgType × Bytes)} (h : BPhase cc sc c d pu pd) :
    (∀ n, pend c n ≤ 1) ∧ ∀ n, pend d n ≤ 1 := by
  cases h with
  | greet h1 _ h3 => exact ⟨pend_nil h1.asks, pend_nil h3⟩
  | held h1 _ h3 => exact ⟨pend_nil h1.asks, pend_nil h3⟩
  | acked b l1 l2 O I X Y h1 _ _ _ _ h6 => exact ⟨pend_nil h1.asks, half_pend h6.yours⟩
  | live O I X Y _ h2 => exact ⟨half_pend h2.mine, half_pend h2.yours⟩

/-- in these sessions a side calls only when its reader is not held back -/
theorem both_callC {u : Sess} {op : Op} (ho : BothRequests u (.client op)) (h : op.isCall = true) : NotHeld u.c := by
  have key : u.c.rd = .idle := by
    cases op with
    | connect ns now ex => exact ho.1.2.2.1
    | disconnect obj now ex => exact ho.1.2.2.1
    | join obj room now ex => exact ho.1.2.2.1
    | leave obj room now ex => exact ho.1.2.2.1
    | ask m now ex => exact (show False from ho).elim
    | _ => cases h
  intro M hM
  rw [key] at hM
  cases hM

theorem both_callS {u : Sess} {op : Op} {pu pd : List (MsgType × Bytes)} (hp : BPhase cc sc u.c u.d pu pd)
    (ho : BothRequests u (.server op)) (h : op.isCall = true) : NotHeld u.d := by
  have key : u.d.acked = false ∨ u.d.rd = .idle := by
    cases op with
    | connect ns now ex => exact ho.imp (fun k => k) fun k => k.1.2.2.1
    | disconnect obj now ex => exact .inr ho.1.2.2.1
    | join obj room now ex => exact .inr ho.1.2.2.1
    | leave obj room now ex => exact .inr ho.1.2.2.1
    | ask m now ex => exact (show False from ho).elim
    | _ => cases h
  intro M hM
  rcases key with key | key
  · cases hp with
    | greet _ _ _ h4 => rw [h4] at hM; cases hM
    | held _ _ _ h4 => rw [h4] at hM; cases hM
    | acked b l1 l2 O I X Y _ _ _ _ _ h6 => rw [h6.okT.acked] at key; cases key
    | live O I X Y _ h2 => rw [h2.okT.acked] at key; cases key
  · rw [key] at hM; cases hM

theorem both_held {ops : List SessOp} {u : Sess} (hcons : BothConsistent cc sc) (hnc : cc.allowNative = false)
    (hns : sc.allowNative = false) (hcl : cc.isClient = true) (hsc : sc.isClient = false)
    (h : BothRun cc sc id ops u) (hc : u.c.closed = false) (hd : u.d.closed = false) : GateHeld u.c ∧ GateHeld u.d := by
  induction h with
  | init =>
    have honc : cc.onlyNative = false := by simp [Cfg.onlyNative, hnc]
    have hons : sc.onlyNative = false := by simp [Cfg.onlyNative, hns]
    simp only [newSess, newConn_eq honc, newConn_eq hons]
    exact ⟨fun M hM => (by cases hM), fun M hM => (by cases hM)⟩
  | @step ops u u' op hrun ho hstep ih =>
    have hinv := both_inv hcons hnc hns hcl hsc hrun
    have hph : u.c.closed = false → u.d.closed = false →
        BPhase cc sc u.c u.d ((pipe u.c.log).drop u.up) ((pipe u.d.log).drop u.down) := by
      intro k1 k2
      rcases hinv.phase with x | x | x
      · rw [k1] at x; cases x
      · rw [k2] at x; cases x
      · exact x
    cases op with
    | client op =>
      simp only [sstep] at hstep
      split at hstep
      · cases hstep
      · obtain ⟨t, ht, rfl⟩ := Option.map_eq_some_iff.mp hstep
        have hc0 := closed_of_prims (reach_prims hinv.rc ht) hc
        obtain ⟨i1, i2⟩ := ih hc0 hd
        exact ⟨held_step hinv.rc (phase_pend (hph hc0 hd)).1 (both_callC ho) i1 ht, i2⟩
    | server op =>
      simp only [sstep] at hstep
      split at hstep
      · cases hstep
      · obtain ⟨t, ht, rfl⟩ := Option.map_eq_some_iff.mp hstep
        have hd0 := closed_of_prims (reach_prims hinv.rd ht) hd
        obtain ⟨i1, i2⟩ := ih hc hd0
        exact ⟨i1, held_step hinv.rd (phase_pend (hph hc hd0)).2 (both_callS (hph hc hd0) ho) i2 ht⟩
    | up =>
      simp only [sstep] at hstep
      split at hstep
      · cases hstep
      · obtain ⟨t, ht, rfl⟩ := Option.map_eq_some_iff.mp hstep
        have hd0 := closed_of_prims (reach_prims hinv.rd ht) hd
        obtain ⟨i1, i2⟩ := ih hc hd0
        exact ⟨i1, held_step hinv.rd (phase_pend (hph hc hd0)).2 (fun k => by cases k) i2 ht⟩
    | down =>
      simp only [sstep] at hstep
      split at hstep
      · cases hstep
      · obtain ⟨t, ht, rfl⟩ := Option.map_eq_some_iff.mp hstep
        have hc0 := closed_of_prims (reach_prims hinv.rc ht) hc
        obtain ⟨i1, i2⟩ := ih hc0 hd
        exact ⟨held_step hinv.rc (phase_pend (hph hc0 hd)).1 (fun k => by cases k) i1 ht, i2⟩
    | upAsk i => exact (show False from ho).elim
    | downAsk i => exact (show False from ho).elim

end Neffos
