import Verif.Proofs.ConnSteady
/-!
Helper: the count of the connect gate against the Connects in progress.
-/
set_option autoImplicit false
namespace Neffos

variable {cfg : Cfg}

/-- this is a Connect of `ns` waiting for its answer -/
def pendOf (ns : Bytes) (a : AskRec) : Bool :=
  !a.done && (match a.cont with
    | .connect n _ => decide (n = ns)
    | _ => false)

/-- the Connects of `ns` in progress -/
def pend (s : St) (ns : Bytes) : Nat := s.asks.countP (pendOf ns)

theorem countP_set_eq {α : Type} (p : α → Bool) {l : List α} {i : Nat} {a : α} (h : l[i]? = some a) (b : α) :
    (l.set i b).countP p + (p a).toNat = l.countP p + (p b).toNat := by
  induction l generalizing i with
  | nil => cases h
  | cons x l ih =>
    cases i with
    | zero =>
      simp only [List.getElem?_cons_zero, Option.some.injEq] at h
      subst h
      simp only [List.set_cons_zero, List.countP_cons]
      cases p x <;> cases p b <;> simp <;> omega
    | succ i =>
      simp only [List.getElem?_cons_succ] at h
      have := ih h
      simp only [List.set_cons_succ, List.countP_cons]
      omega

structure GateKeep (s t : St) : Prop where
  gates : t.gates = s.gates
  pend : ∀ ns, pend t ns = pend s ns
  log : ∀ o, o ∈ s.log → o ∈ t.log

theorem gateKeep_eq {s t : St} (h1 : t.gates = s.gates) (h2 : t.asks = s.asks) (h3 : t.log = s.log) : GateKeep s t :=
  ⟨h1, fun ns => by unfold Neffos.pend; rw [h2], fun o h => by rw [h3]; exact h⟩

theorem GateKeep.trans {a b c : St} (h : GateKeep a b) (k : GateKeep b c) : GateKeep a c :=
  ⟨k.gates.trans h.gates, fun ns => (k.pend ns).trans (h.pend ns), fun o ho => k.log o (h.log o ho)⟩

theorem gateKeep_set {s : St} {i : Nat} {a b : AskRec} (h : s.asks[i]? = some a) (h1 : b.cont = a.cont)
    (h2 : b.done = a.done) : GateKeep s { s with asks := s.asks.set i b } := by
  refine ⟨rfl, fun ns => ?_, fun o h => h⟩
  have := countP_set_eq (pendOf ns) h b
  have e : pendOf ns b = pendOf ns a := by unfold pendOf; rw [h1, h2]
  rw [e] at this
  unfold Neffos.pend
  dsimp only
  omega

theorem gateKeep_steady : Steady GateKeep where
  refl _ := gateKeep_eq rfl rfl rfl
  trans h k := h.trans k
  emit _ _ := ⟨rfl, fun _ => rfl, fun _ h => List.mem_append_left _ h⟩
  ready _ _ := gateKeep_eq rfl rfl rfl
  hang _ := gateKeep_eq rfl rfl rfl
  del _ _ _ := gateKeep_eq rfl rfl rfl
  nsDel _ _ := gateKeep_eq rfl rfl rfl
  closed _ := gateKeep_eq rfl rfl rfl
  waiting _ _ := gateKeep_eq rfl rfl rfl
  unack _ _ := gateKeep_eq rfl rfl rfl
  newObj _ _ := gateKeep_eq rfl rfl rfl
  addRoom _ _ _ := gateKeep_eq rfl rfl rfl
  nsAdd _ _ _ := gateKeep_eq rfl rfl rfl
  rd _ _ := gateKeep_eq rfl rfl rfl
  todo _ _ _ := gateKeep_eq rfl rfl rfl
  box _ _ _ _ h := gateKeep_set h rfl rfl
  text _ _ := gateKeep_eq rfl rfl rfl
  binary _ _ := gateKeep_eq rfl rfl rfl
  setAcked _ := gateKeep_eq rfl rfl rfl
  ident _ _ := gateKeep_eq rfl rfl rfl

/-- the gate of `ns` -/
def gateOf (s : St) (ns : Bytes) : Gate := (mapGet s.gates ns).getD ⟨0, false⟩

theorem gateBlocks_eq (s : St) (ns : Bytes) :
    gateBlocks s ns = (!(gateOf s ns).done && decide ((gateOf s ns).count ≠ 0)) := by
  unfold gateBlocks gateOf
  cases mapGet s.gates ns <;> simp

theorem gateReleased_eq (s : St) (ns : Bytes) : gateReleased s ns = decide ((gateOf s ns).count = 0) := by
  unfold gateReleased gateOf
  cases mapGet s.gates ns <;> simp

/-- the gates, when the Connects counted by `x` are in progress besides those that wait -/
def GateOk (x : Bytes → Nat) (s : St) : Prop :=
  ∀ ns, pend s ns + x ns ≤ (gateOf s ns).count ∧
    ((gateOf s ns).done = false → (gateOf s ns).count = pend s ns + x ns) ∧
    ((gateOf s ns).done = true → ∃ obj r, Obs.ret (.connect ns obj) r ∈ s.log)

/-- one Connect of `ns` -/
def oneMore (ns : Bytes) : Bytes → Nat := fun n => if n = ns then 1 else 0

/-- the Connect that this call is -/
def extra : Cont → Bytes → Nat
  | .connect ns _ => oneMore ns
  | _ => fun _ => 0

theorem GateOk.keep {x : Bytes → Nat} {s t : St} (h : GateOk x s) (k : GateKeep s t) : GateOk x t := by
  intro ns
  obtain ⟨h1, h2, h3⟩ := h ns
  have e : gateOf t ns = gateOf s ns := by unfold gateOf; rw [k.gates]
  rw [e, k.pend]
  refine ⟨h1, h2, fun hd => ?_⟩
  obtain ⟨obj, r, hm⟩ := h3 hd
  exact ⟨obj, r, k.log _ hm⟩

theorem gateOf_start (s : St) (ns n : Bytes) :
    gateOf (gateStart s ns) n =
      if n = ns then { gateOf s ns with count := (gateOf s ns).count + 1 } else gateOf s n := by
  unfold gateOf gateStart
  simp only [mapGet_mapSet]
  by_cases h : n = ns
  · subst h; simp
  · simp [h]

theorem gateOk_start {s : St} (h : GateOk (fun _ => 0) s) (ns : Bytes) :
    GateOk (oneMore ns) (gateStart s ns) := by
  intro n
  obtain ⟨h1, h2, h3⟩ := h n
  dsimp only at h1 h2
  rw [gateOf_start]
  have hp : pend (gateStart s ns) n = pend s n := rfl
  rw [hp]
  unfold oneMore
  by_cases hn : n = ns
  · subst hn
    simp only [if_true]
    exact ⟨by omega, fun hd => by have := h2 hd; omega, h3⟩
  · simp only [if_neg hn]
    exact ⟨h1, h2, h3⟩

theorem gateOk_done {s : St} {ns : Bytes} (h : GateOk (oneMore ns) s) (obj : Nat) (r : Result) :
    GateOk (fun _ => 0) (gateDone (s.emit (.ret (.connect ns obj) r)) ns) := by
  have hns := h ns
  have hc : 1 ≤ (gateOf s ns).count := by
    have := hns.1
    simp only [oneMore, if_true] at this
    omega
  unfold gateDone
  have eg : (s.emit (Obs.ret (.connect ns obj) r)).gates = s.gates := rfl
  rw [eg]
  cases hg : mapGet s.gates ns with
  | none => unfold gateOf at hc; rw [hg] at hc; simp at hc
  | some g =>
    have hg' : gateOf s ns = g := by unfold gateOf; rw [hg]; rfl
    rw [hg'] at hns hc
    dsimp only
    cases hd : g.done with
    | true =>
      simp only [if_true]
      intro n
      obtain ⟨h1, h2, h3⟩ := h n
      have e1 : gateOf (s.emit (Obs.ret (.connect ns obj) r)) n = gateOf s n := rfl
      have e2 : pend (s.emit (Obs.ret (.connect ns obj) r)) n = pend s n := rfl
      rw [e1, e2]
      dsimp only
      refine ⟨by omega, fun hx => ?_, fun hx => ?_⟩
      · have := h2 hx
        unfold oneMore at this
        by_cases hn : n = ns
        · subst hn; rw [hg'] at hx; rw [hd] at hx; cases hx
        · rw [if_neg hn] at this; exact this
      · obtain ⟨o, r', hm⟩ := h3 hx
        exact ⟨o, r', List.mem_append_left _ hm⟩
    | false =>
      simp only [Bool.false_eq_true, if_false]
      intro n
      obtain ⟨h1, h2, h3⟩ := h n
      have e2 : ∀ t : St, t.asks = s.asks → pend t n = pend s n := fun t ht => by unfold pend; rw [ht]
      rw [e2 { s.emit (Obs.ret (.connect ns obj) r) with
            gates := mapSet s.gates ns { count := g.count - 1, done := true } } rfl]
      dsimp only
      have e1 : gateOf { s.emit (Obs.ret (.connect ns obj) r) with
            gates := mapSet s.gates ns { count := g.count - 1, done := true } } n =
          if n = ns then { count := g.count - 1, done := true } else gateOf s n := by
        unfold gateOf
        simp only [mapGet_mapSet]
        by_cases hn : n = ns
        · subst hn; simp
        · simp only [if_neg hn]
      rw [e1]
      by_cases hn : n = ns
      · subst hn
        simp only [if_true]
        have := hns.1
        simp only [oneMore, if_true] at this
        exact ⟨by omega, And.intro (fun hx => by cases hx) (fun _ => ⟨obj, r, List.mem_append_right _ (by simp)⟩)⟩
      · simp only [if_neg hn]
        unfold oneMore at h1 h2
        rw [if_neg hn] at h1 h2
        refine ⟨h1, h2, fun hx => ?_⟩
        obtain ⟨o, r', hm⟩ := h3 hx
        exact ⟨o, r', List.mem_append_left _ hm⟩

theorem gateOk_congr {x y : Bytes → Nat} {s : St} (h : GateOk x s) (e : ∀ n, y n = x n) : GateOk y s := by
  intro n; rw [e]; exact h n

theorem gateOk_finish {s : St} {k : Cont} (h : GateOk (extra k) s) (m : Message) (err : Option GoErr) :
    GateOk (fun _ => 0) (finish cfg s k m err) := by
  have c := gateKeep_steady.toCalm
  cases k with
  | connect ns obj =>
    cases err with
    | some e => exact gateOk_done h _ _
    | none =>
      simp only [finish]
      have h1 : GateKeep s { s with connected := mapSet s.connected ns obj } := gateKeep_steady.nsAdd _ _ _
      exact gateOk_done (h.keep (h1.trans (c.notifyConnected _ _ _))) _ _
  | disconnect obj msg =>
    cases err with
    | some e => exact h.keep (c.emit _ _)
    | none =>
      simp only [finish]
      exact h.keep (c.trans (c.trans (c.trans (c.trans
        (c.forceLeaveAll _ _ _) (c.nsDel _ _)) (c.fire _ _ _))
        (c.notifyDisconnect _ _)) (c.emit _ _))
  | join obj msg =>
    cases err with
    | some e => exact h.keep (c.emit _ _)
    | none =>
      simp only [finish]
      split
      · rename_i t e he
        exact h.keep (c.trans (c.fire' he) (c.emit _ _))
      · rename_i t he
        have h2 : GateKeep t (t.setRooms obj (Neffos.addRoom msg.room)) := gateKeep_steady.addRoom _ _ _
        exact h.keep (c.trans (c.trans (c.trans (c.fire' he) h2) (c.fire _ _ _)) (c.emit _ _))
  | leave obj msg =>
    cases err with
    | some e => exact h.keep (c.emit _ _)
    | none =>
      simp only [finish]
      split
      · rename_i t e he
        exact h.keep (c.trans (c.fire' he) (c.emit _ _))
      · rename_i t he
        exact h.keep (c.trans (c.trans (c.trans (c.fire' he) (c.del _ _ _)) (c.fire _ _ _)) (c.emit _ _))
  | user => exact h.keep (c.emit _ _)

theorem pendOf_cont (ns tok : Bytes) (k : Cont) (mode : AskMode) (box : Option Message) :
    (pendOf ns ⟨tok, k, mode, box, false⟩).toNat = extra k ns := by
  unfold pendOf extra oneMore
  cases k with
  | connect n o =>
    by_cases h : n = ns
    · subst h; simp
    · have h' : ¬ ns = n := fun e => h e.symm
      simp [h, h']
  | _ => simp

theorem gateOk_newAsk {s : St} {k : Cont} (h : GateOk (extra k) s) (tok : Bytes) :
    GateOk (fun _ => 0) (newAsk s tok k) := by
  have hp : ∀ n, pend (newAsk s tok k) n = pend s n + extra k n := by
    intro n
    have one : ∀ mode, [(⟨tok, k, mode, none, false⟩ : AskRec)].countP (pendOf n) = extra k n := by
      intro mode
      rw [← pendOf_cont n tok k mode none, List.countP_singleton]
      cases pendOf n ⟨tok, k, mode, none, false⟩ <;> rfl
    unfold newAsk
    split
    · simp only [pend, List.countP_append]; rw [one]
    · simp only [pend, List.countP_append]; rw [one]
  intro n
  obtain ⟨h1, h2, h3⟩ := h n
  have e1 : gateOf (newAsk s tok k) n = gateOf s n := by unfold gateOf newAsk; split <;> rfl
  have e2 : (newAsk s tok k).log = s.log := by unfold newAsk; split <;> rfl
  rw [e1, e2, hp]
  exact ⟨h1, h2, h3⟩

theorem gateOk_endAsk {s : St} {i : Nat} {a : AskRec} (h : GateOk (fun _ => 0) s) (ha : s.asks[i]? = some a)
    (hd : a.done = false) : GateOk (extra a.cont) (endAsk s i) := by
  have hp : ∀ n, pend (endAsk s i) n + extra a.cont n = pend s n := by
    intro n
    have e : (endAsk s i).asks = s.asks.set i { a with done := true } := by
      apply List.ext_getElem?
      intro j
      unfold endAsk
      simp only
      rw [List.getElem?_modify, List.getElem?_set]
      by_cases hj : i = j
      · subst hj
        rw [ha, if_pos rfl, if_pos (List.getElem?_eq_some_iff.mp ha).1]
        simp
      · simp [hj]
    have := countP_set_eq (pendOf n) ha { a with done := true }
    have e0 : pendOf n { a with done := true } = false := by unfold pendOf; simp
    have e1 : (pendOf n a).toNat = extra a.cont n := by
      rw [← pendOf_cont n a.tok a.cont a.mode a.box]
      congr 1
      rw [← hd]
    rw [e0, e1] at this
    unfold pend
    rw [e]
    simpa using this
  intro n
  obtain ⟨h1, h2, h3⟩ := h n
  have := hp n
  have e1 : gateOf (endAsk s i) n = gateOf s n := rfl
  rw [e1]
  dsimp only at h1 h2
  exact ⟨by omega, fun hx => by have := h2 hx; omega, h3⟩

theorem gateOk_startAsk {s : St} {k : Cont} (h : GateOk (extra k) s) (msg : Message) (now : Int) (ex : Bool) :
    GateOk (fun _ => 0) (startAsk cfg s k msg now ex) := by
  unfold startAsk
  split
  · exact gateOk_finish h _ _
  · split
    · exact gateOk_finish h _ _
    · split
      · exact gateOk_finish h _ _
      · dsimp only
        have h0 := gateOk_newAsk h (genWait cfg.isClient now)
        have hl : ∃ mode, (newAsk s (genWait cfg.isClient now) k).asks[s.asks.length]? =
            some ⟨genWait cfg.isClient now, k, mode, none, false⟩ := by
          unfold newAsk; split
          · exact ⟨.reading, by simp⟩
          · exact ⟨.table, by simp⟩
        have h1 := gateKeep_steady.toCalm.write (cfg := cfg) (newAsk s (genWait cfg.isClient now) k)
            { msg with wait := genWait cfg.isClient now }
        have h2 := rd_write (cfg := cfg) (newAsk s (genWait cfg.isClient now) k)
            { msg with wait := genWait cfg.isClient now }
        revert h1 h2
        generalize write cfg (newAsk s (genWait cfg.isClient now) k)
            { msg with wait := genWait cfg.isClient now } = p
        obtain ⟨t, ok⟩ := p
        intro h1 h2
        cases ok with
        | true => exact h0.keep h1
        | false =>
          dsimp only
          obtain ⟨mode, hl⟩ := hl
          have h2 := h2.asks
          dsimp only at h2
          rw [← h2] at hl
          exact gateOk_finish (gateOk_endAsk (h0.keep h1) hl rfl) _ _

theorem gateOk_connect {s : St} (h : GateOk (fun _ => 0) s) (ns : Bytes) (now : Int) (ex : Bool) :
    GateOk (fun _ => 0) (connect cfg s ns now ex) := by
  have c := gateKeep_steady.toCalm
  have hm := h.keep (c.markReady (cfg := cfg) s)
  unfold connect
  dsimp only
  revert hm
  generalize s.markReady cfg = s0
  intro hm
  split
  · exact hm
  · have hg := gateOk_start hm ns
    revert hg
    generalize gateStart s0 ns = s1
    intro hg
    split
    · exact gateOk_done hg _ _
    · split
      · exact gateOk_done hg _ _
      · simp only [newObj]
        have h0 := hg.keep (gateKeep_steady.newObj s1 ns)
        split
        · rename_i t e he
          exact gateOk_done (h0.keep (c.fire' he)) _ _
        · rename_i t he
          exact gateOk_startAsk (k := .connect ns s1.objs.length) (h0.keep (c.fire' he)) _ _ _

theorem gateOk_exec {s s' : St} {op : Op} (hs : GateOk (fun _ => 0) s) (h : exec cfg s op = some s') :
    GateOk (fun _ => 0) s' := by
  have q := gateKeep_steady
  have c := q.toCalm
  cases op with
  | recv typ b =>
    simp only [exec] at h
    split at h
    · cases h; exact hs.keep (q.recv _ _ _)
    · simp at h
  | readErr e =>
    simp only [exec] at h
    split at h
    · cases h; exact hs.keep (c.trans (q.signalReady _ _) (q.exit _))
    · simp at h
  | wake => exact hs.keep (q.wake h)
  | contReader =>
    simp only [exec, contReader] at h
    split at h
    · cases h; exact hs.keep (q.drain _ _)
    · simp at h
  | connect ns now ex => cases h; exact gateOk_connect hs _ _ _
  | disconnect obj now ex =>
    simp only [exec] at h
    split at h
    · cases h
      unfold disconnect
      dsimp only
      split
      · exact hs.keep (c.emit _ _)
      · exact gateOk_startAsk (k := .disconnect _ _) hs _ _ _
    · simp at h
  | join obj room now ex =>
    simp only [exec] at h
    split at h
    · cases h
      unfold joinRoom
      dsimp only
      split
      · exact hs.keep (c.emit _ _)
      · exact gateOk_startAsk (k := .join _ _) hs _ _ _
    · simp at h
  | leave obj room now ex =>
    simp only [exec] at h
    split at h
    · cases h
      unfold leaveRoom
      dsimp only
      split
      · exact gateOk_startAsk (k := .leave _ _) hs _ _ _
      · exact hs.keep (c.emit _ _)
    · simp at h
  | ask msg now ex => cases h; exact gateOk_startAsk (k := .user) hs _ _ _
  | write msg => cases h; exact hs.keep (c.write _ _)
  | resume i =>
    simp only [exec, resume] at h
    split at h
    · simp at h
    · rename_i a hx
      split at h
      · simp at h
      · rename_i hd
        split at h
        · simp at h
        · cases h
          have e1 : ∀ t : St, GateKeep t (forget t a) := by
            intro t; unfold forget; split <;> exact gateKeep_eq rfl rfl rfl
          have e2 : GateKeep s (takeAnswer s i a) ∧ ∃ b, (takeAnswer s i a).asks[i]? = some b ∧
              b.cont = a.cont ∧ b.done = false := by
            have hlt := (List.getElem?_eq_some_iff.mp hx).1
            have hd' : a.done = false := by simpa using hd
            unfold takeAnswer
            split
            · split
              · rename_i m' _ _
                exact ⟨(gateKeep_set (b := { a with box := some m' }) hx rfl rfl).trans (gateKeep_eq rfl rfl rfl),
                  { a with box := some m' }, by simp [hlt], rfl, hd'⟩
              · exact ⟨gateKeep_set hx rfl rfl, { a with box := none }, by simp [hlt], rfl, hd'⟩
            · exact ⟨gateKeep_set hx rfl rfl, { a with box := none }, by simp [hlt], rfl, hd'⟩
          obtain ⟨e2, b, hb, hb1, hb2⟩ := e2
          have h3 := gateOk_endAsk (hs.keep e2) hb hb2
          rw [hb1] at h3
          exact gateOk_finish (h3.keep (e1 _)) _ _
  | cancel i e =>
    simp only [exec, cancel] at h
    split at h
    · simp at h
    · rename_i a hx
      split at h
      · simp at h
      · rename_i hd
        cases h
        exact gateOk_finish (gateOk_endAsk hs hx (by simpa using hd)) _ _
  | close => cases h; exact hs.keep (c.closeConn _)
  | steal i typ b =>
    simp only [exec, steal] at h
    split at h
    · simp at h
    · rename_i a hx
      split at h
      · cases h; exact hs.keep (gateKeep_set hx rfl rfl)
      · simp at h
  | stealErr i e =>
    simp only [exec, steal] at h
    split at h
    · simp at h
    · rename_i a hx
      split at h
      · cases h; exact hs.keep (gateKeep_set hx rfl rfl)
      · simp at h
  | ready e => cases h; exact hs.keep (q.signalReady _ _)
  | sendAck =>
    simp only [exec] at h
    split at h
    · cases h; exact hs
    · have hw := c.rawWrite (cfg := cfg) s (b! "M") false
      revert h hw
      generalize rawWrite cfg s (b! "M") false = p
      obtain ⟨t, ok⟩ := p
      intro h hw
      cases ok with
      | true => cases h; exact hs.keep hw
      | false => cases h; exact hs.keep (c.trans hw (c.closeConn _))
  | srvAsk tok => cases h; exact hs.keep (gateKeep_eq rfl rfl rfl)
  | srvUnask tok => cases h; exact hs.keep (gateKeep_eq rfl rfl rfl)

theorem reach_gateOk {id : Bytes} {s : St} (h : Reach cfg id s) : GateOk (fun _ => 0) s := by
  induction h with
  | init =>
    intro ns
    unfold newConn
    split <;> exact ⟨Nat.le_refl _, fun _ => rfl, fun h => by cases h⟩
  | step _ hs ih => exact gateOk_exec ih (step_exec hs).1

end Neffos
