import Verif.Proofs.ConnGate
/-!
Helper: how often the connect gate of a namespace is used.
-/
set_option autoImplicit false
namespace Neffos
namespace Tally

variable {cfg : Cfg} {c : Bytes → Nat}

/-- the Connects in progress and whether one has ended, for each namespace -/
def Once (c x : Bytes → Nat) (s : St) : Prop := ∀ ns, pend s ns + x ns + (gateOf s ns).done.toNat ≤ c ns

theorem Once.keep {x : Bytes → Nat} {s t : St} (h : Once c x s) (k : GateKeep s t) : Once c x t := by
  intro ns
  have e : gateOf t ns = gateOf s ns := by unfold gateOf; rw [k.gates]
  rw [e, k.pend]
  exact h ns

theorem once_start {s : St} (h : Once c (fun _ => 0) s) (ns : Bytes) :
    Once (fun n => c n + oneMore ns n) (oneMore ns) (gateStart s ns) := by
  intro n
  have h1 := h n
  dsimp only at h1 ⊢
  rw [gateOf_start]
  have hp : pend (gateStart s ns) n = pend s n := rfl
  rw [hp]
  by_cases hn : n = ns
  · subst hn
    simp only [if_true]
    omega
  · simp only [if_neg hn]
    omega

theorem once_done {s : St} {ns : Bytes} (h : Once c (oneMore ns) s) (obj : Nat) (r : Result) :
    Once c (fun _ => 0) (gateDone (s.emit (.ret (.connect ns obj) r)) ns) := by
  unfold gateDone
  have eg : (s.emit (Obs.ret (.connect ns obj) r)).gates = s.gates := rfl
  rw [eg]
  have keep : Once c (fun _ => 0) (s.emit (Obs.ret (.connect ns obj) r)) := by
    intro n
    have h1 := h n
    have e1 : gateOf (s.emit (Obs.ret (.connect ns obj) r)) n = gateOf s n := rfl
    have e2 : pend (s.emit (Obs.ret (.connect ns obj) r)) n = pend s n := rfl
    rw [e1, e2]
    dsimp only
    omega
  cases hg : mapGet s.gates ns with
  | none => exact keep
  | some g =>
    dsimp only
    cases hd : g.done with
    | true => exact keep
    | false =>
      simp only [Bool.false_eq_true, if_false]
      intro n
      have h1 := h n
      have e2 : ∀ t : St, t.asks = s.asks → pend t n = pend s n := fun t ht => by unfold pend; rw [ht]
      rw [e2 { s.emit (Obs.ret (.connect ns obj) r) with
            gates := mapSet s.gates ns { count := g.count - 1, done := true } } rfl]
      dsimp only
      have e1 : gateOf { s.emit (Obs.ret (.connect ns obj) r) with
            gates := mapSet s.gates ns { count := g.count - 1, done := true } } n =
          if n = ns then { count := g.count - 1, done := true } else gateOf s n := by
        unfold gateOf
        simp only [mapGet_mapSet]
        by_cases hn : n = ns
        · subst hn; simp
        · simp only [if_neg hn]
      rw [e1]
      by_cases hn : n = ns
      · subst hn
        simp only [if_true, Bool.toNat_true]
        unfold oneMore at h1
        rw [if_pos rfl] at h1
        omega
      · simp only [if_neg hn]
        omega

theorem once_congr {x y : Bytes → Nat} {s : St} (h : Once c x s) (e : ∀ n, y n = x n) : Once c y s := by
  intro n; rw [e]; exact h n

theorem once_finish {s : St} {k : Cont} (h : Once c (extra k) s) (m : Message) (err : Option GoErr) :
    Once c (fun _ => 0) (finish cfg s k m err) := by
  have q0 := gateKeep_steady.toCalm
  cases k with
  | connect ns obj =>
    cases err with
    | some e => exact once_done h _ _
    | none =>
      simp only [finish]
      have h1 : GateKeep s { s with connected := mapSet s.connected ns obj } := gateKeep_steady.nsAdd _ _ _
      exact once_done (h.keep (h1.trans (q0.notifyConnected _ _ _))) _ _
  | disconnect obj msg =>
    cases err with
    | some e => exact h.keep (q0.emit _ _)
    | none =>
      simp only [finish]
      exact h.keep (q0.trans (q0.trans (q0.trans (q0.trans
        (q0.forceLeaveAll _ _ _) (q0.nsDel _ _)) (q0.fire _ _ _))
        (q0.notifyDisconnect _ _)) (q0.emit _ _))
  | join obj msg =>
    cases err with
    | some e => exact h.keep (q0.emit _ _)
    | none =>
      simp only [finish]
      split
      · rename_i t e he
        exact h.keep (q0.trans (q0.fire' he) (q0.emit _ _))
      · rename_i t he
        have h2 : GateKeep t (t.setRooms obj (Neffos.addRoom msg.room)) := gateKeep_steady.addRoom _ _ _
        exact h.keep (q0.trans (q0.trans (q0.trans (q0.fire' he) h2) (q0.fire _ _ _)) (q0.emit _ _))
  | leave obj msg =>
    cases err with
    | some e => exact h.keep (q0.emit _ _)
    | none =>
      simp only [finish]
      split
      · rename_i t e he
        exact h.keep (q0.trans (q0.fire' he) (q0.emit _ _))
      · rename_i t he
        exact h.keep (q0.trans (q0.trans (q0.trans (q0.fire' he) (q0.del _ _ _)) (q0.fire _ _ _)) (q0.emit _ _))
  | user => exact h.keep (q0.emit _ _)

theorem once_newAsk {s : St} {k : Cont} (h : Once c (extra k) s) (tok : Bytes) :
    Once c (fun _ => 0) (newAsk s tok k) := by
  have hp : ∀ n, pend (newAsk s tok k) n = pend s n + extra k n := by
    intro n
    have one : ∀ mode, [(⟨tok, k, mode, none, false⟩ : AskRec)].countP (pendOf n) = extra k n := by
      intro mode
      rw [← pendOf_cont n tok k mode none, List.countP_singleton]
      cases pendOf n ⟨tok, k, mode, none, false⟩ <;> rfl
    unfold newAsk
    split
    · simp only [pend, List.countP_append]; rw [one]
    · simp only [pend, List.countP_append]; rw [one]
  intro n
  have h1 := h n
  have e1 : gateOf (newAsk s tok k) n = gateOf s n := by unfold gateOf newAsk; split <;> rfl
  rw [e1, hp]
  exact h1

theorem once_endAsk {s : St} {i : Nat} {a : AskRec} (h : Once c (fun _ => 0) s) (ha : s.asks[i]? = some a)
    (hd : a.done = false) : Once c (extra a.cont) (endAsk s i) := by
  have hp : ∀ n, pend (endAsk s i) n + extra a.cont n = pend s n := by
    intro n
    have e : (endAsk s i).asks = s.asks.set i { a with done := true } := by
      apply List.ext_getElem?
      intro j
      unfold endAsk
      simp only
      rw [List.getElem?_modify, List.getElem?_set]
      by_cases hj : i = j
      · subst hj
        rw [ha, if_pos rfl, if_pos (List.getElem?_eq_some_iff.mp ha).1]
        simp
      · simp [hj]
    have := countP_set_eq (pendOf n) ha { a with done := true }
    have e0 : pendOf n { a with done := true } = false := by unfold pendOf; simp
    have e1 : (pendOf n a).toNat = extra a.cont n := by
      rw [← pendOf_cont n a.tok a.cont a.mode a.box]
      congr 1
      rw [← hd]
    rw [e0, e1] at this
    unfold pend
    rw [e]
    simpa using this
  intro n
  have h1 := h n
  have := hp n
  have e1 : gateOf (endAsk s i) n = gateOf s n := rfl
  rw [e1]
  dsimp only at h1
  omega

theorem once_startAsk {s : St} {k : Cont} (h : Once c (extra k) s) (msg : Message) (now : Int) (ex : Bool) :
    Once c (fun _ => 0) (startAsk cfg s k msg now ex) := by
  unfold startAsk
  split
  · exact once_finish h _ _
  · split
    · exact once_finish h _ _
    · split
      · exact once_finish h _ _
      · dsimp only
        have h0 := once_newAsk h (genWait cfg.isClient now)
        have hl : ∃ mode, (newAsk s (genWait cfg.isClient now) k).asks[s.asks.length]? =
            some ⟨genWait cfg.isClient now, k, mode, none, false⟩ := by
          unfold newAsk; split
          · exact ⟨.reading, by simp⟩
          · exact ⟨.table, by simp⟩
        have h1 := gateKeep_steady.toCalm.write (cfg := cfg) (newAsk s (genWait cfg.isClient now) k)
            { msg with wait := genWait cfg.isClient now }
        have h2 := rd_write (cfg := cfg) (newAsk s (genWait cfg.isClient now) k)
            { msg with wait := genWait cfg.isClient now }
        revert h1 h2
        generalize write cfg (newAsk s (genWait cfg.isClient now) k)
            { msg with wait := genWait cfg.isClient now } = p
        obtain ⟨t, ok⟩ := p
        intro h1 h2
        cases ok with
        | true => exact h0.keep h1
        | false =>
          dsimp only
          obtain ⟨mode, hl⟩ := hl
          have h2 := h2.asks
          dsimp only at h2
          rw [← h2] at hl
          exact once_finish (once_endAsk (h0.keep h1) hl rfl) _ _

theorem once_connect {s : St} (h : Once c (fun _ => 0) s) (ns : Bytes) (now : Int) (ex : Bool) :
    Once (fun n => c n + oneMore ns n) (fun _ => 0) (connect cfg s ns now ex) := by
  have q0 := gateKeep_steady.toCalm
  have hm := h.keep (q0.markReady (cfg := cfg) s)
  unfold connect
  dsimp only
  revert hm
  generalize s.markReady cfg = s0
  intro hm
  split
  · intro n
    have := hm n
    dsimp only at this ⊢
    omega
  · have hg := once_start hm ns
    revert hg
    generalize gateStart s0 ns = s1
    intro hg
    split
    · exact once_done hg _ _
    · split
      · exact once_done hg _ _
      · simp only [newObj]
        have h0 := hg.keep (gateKeep_steady.newObj s1 ns)
        split
        · rename_i t e he
          exact once_done (h0.keep (q0.fire' he)) _ _
        · rename_i t he
          exact once_startAsk (k := .connect ns s1.objs.length) (h0.keep (q0.fire' he)) _ _ _

theorem once_exec {s s' : St} {op : Op} (hs : Once c (fun _ => 0) s) (hne : ∀ ns now ex, op ≠ .connect ns now ex) (h : exec cfg s op = some s') :
    Once c (fun _ => 0) s' := by
  have q := gateKeep_steady
  have q0 := q.toCalm
  cases op with
  | recv typ b =>
    simp only [exec] at h
    split at h
    · cases h; exact hs.keep (q.recv _ _ _)
    · simp at h
  | readErr e =>
    simp only [exec] at h
    split at h
    · cases h; exact hs.keep (q0.trans (q.signalReady _ _) (q.exit _))
    · simp at h
  | wake => exact hs.keep (q.wake h)
  | contReader =>
    simp only [exec, contReader] at h
    split at h
    · cases h; exact hs.keep (q.drain _ _)
    · simp at h
  | connect ns now ex => exact absurd rfl (hne ns now ex)
  | disconnect obj now ex =>
    simp only [exec] at h
    split at h
    · cases h
      unfold disconnect
      dsimp only
      split
      · exact hs.keep (q0.emit _ _)
      · exact once_startAsk (k := .disconnect _ _) hs _ _ _
    · simp at h
  | join obj room now ex =>
    simp only [exec] at h
    split at h
    · cases h
      unfold joinRoom
      dsimp only
      split
      · exact hs.keep (q0.emit _ _)
      · exact once_startAsk (k := .join _ _) hs _ _ _
    · simp at h
  | leave obj room now ex =>
    simp only [exec] at h
    split at h
    · cases h
      unfold leaveRoom
      dsimp only
      split
      · exact once_startAsk (k := .leave _ _) hs _ _ _
      · exact hs.keep (q0.emit _ _)
    · simp at h
  | ask msg now ex => cases h; exact once_startAsk (k := .user) hs _ _ _
  | write msg => cases h; exact hs.keep (q0.write _ _)
  | resume i =>
    simp only [exec, resume] at h
    split at h
    · simp at h
    · rename_i a hx
      split at h
      · simp at h
      · rename_i hd
        split at h
        · simp at h
        · cases h
          have e1 : ∀ t : St, GateKeep t (forget t a) := by
            intro t; unfold forget; split <;> exact gateKeep_eq rfl rfl rfl
          have e2 : GateKeep s (takeAnswer s i a) ∧ ∃ b, (takeAnswer s i a).asks[i]? = some b ∧
              b.cont = a.cont ∧ b.done = false := by
            have hlt := (List.getElem?_eq_some_iff.mp hx).1
            have hd' : a.done = false := by simpa using hd
            unfold takeAnswer
            split
            · split
              · rename_i m' _ _
                exact ⟨(gateKeep_set (b := { a with box := some m' }) hx rfl rfl).trans (gateKeep_eq rfl rfl rfl),
                  { a with box := some m' }, by simp [hlt], rfl, hd'⟩
              · exact ⟨gateKeep_set hx rfl rfl, { a with box := none }, by simp [hlt], rfl, hd'⟩
            · exact ⟨gateKeep_set hx rfl rfl, { a with box := none }, by simp [hlt], rfl, hd'⟩
          obtain ⟨e2, b, hb, hb1, hb2⟩ := e2
          have h3 := once_endAsk (hs.keep e2) hb hb2
          rw [hb1] at h3
          exact once_finish (h3.keep (e1 _)) _ _
  | cancel i e =>
    simp only [exec, cancel] at h
    split at h
    · simp at h
    · rename_i a hx
      split at h
      · simp at h
      · rename_i hd
        cases h
        exact once_finish (once_endAsk hs hx (by simpa using hd)) _ _
  | close => cases h; exact hs.keep (q0.closeConn _)
  | steal i typ b =>
    simp only [exec, steal] at h
    split at h
    · simp at h
    · rename_i a hx
      split at h
      · cases h; exact hs.keep (gateKeep_set hx rfl rfl)
      · simp at h
  | stealErr i e =>
    simp only [exec, steal] at h
    split at h
    · simp at h
    · rename_i a hx
      split at h
      · cases h; exact hs.keep (gateKeep_set hx rfl rfl)
      · simp at h
  | ready e => cases h; exact hs.keep (q.signalReady _ _)
  | sendAck =>
    simp only [exec] at h
    split at h
    · cases h; exact hs
    · have hw := q0.rawWrite (cfg := cfg) s (b! "M") false
      revert h hw
      generalize rawWrite cfg s (b! "M") false = p
      obtain ⟨t, ok⟩ := p
      intro h hw
      cases ok with
      | true => cases h; exact hs.keep hw
      | false => cases h; exact hs.keep (q0.trans hw (q0.closeConn _))
  | srvAsk tok => cases h; exact hs.keep (gateKeep_eq rfl rfl rfl)
  | srvUnask tok => cases h; exact hs.keep (gateKeep_eq rfl rfl rfl)

end Tally
end Neffos
