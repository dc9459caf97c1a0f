import Verif.Proofs.ConnPassive
import Verif.Proofs.ConnFinish
import Verif.Spec.Orphan
/-!
Helper: how an NSConn gets to be in a room without being connected.
-/
set_option autoImplicit false
namespace Neffos.Orphan
open Neffos.Spec

variable {cfg : Cfg} {id : Bytes} {P : Nat → Bytes → Prop}

theorem neat_gateDone (s : St) (ns : Bytes) : Neat P s (gateDone s ns) := by
  unfold gateDone
  split
  · exact .refl s
  · split
    · exact .refl s
    · exact neat_congr rfl rfl rfl rfl

theorem neat_finish_err (s : St) (k : Cont) (m : Message) (e : GoErr) : Neat P s (finish cfg s k m (some e)) := by
  cases k with
  | connect ns obj => exact (neat_emit _ _).trans (neat_gateDone _ _)
  | _ => exact neat_emit _ _

theorem neat_start {k : Cont} (hn : cfg.onlyNative = false) (s : St) (msg : Message) (now : Int)
    (ex : Bool) : Neat P s (startAsk cfg s k msg now ex) := by
  unfold startAsk
  rw [if_neg (by simp [hn])]
  split
  · exact neat_finish_err _ _ _ _
  · split
    · exact neat_finish_err _ _ _ _
    · dsimp only
      have h0 : Neat P s (newAsk s (genWait cfg.isClient now) k) := by
        unfold newAsk; split <;> exact neat_congr rfl rfl rfl rfl
      have h1 := h0.trans (neat_write (cfg := cfg) (newAsk s (genWait cfg.isClient now) k)
          { msg with wait := genWait cfg.isClient now })
      revert h1
      generalize write cfg (newAsk s (genWait cfg.isClient now) k)
          { msg with wait := genWait cfg.isClient now } = p
      obtain ⟨t, ok⟩ := p
      intro h1
      cases ok with
      | true => exact h1
      | false =>
        dsimp only
        exact (h1.trans (b := t) (neat_congr (t := endAsk t s.asks.length) rfl rfl rfl rfl)).trans
          (neat_finish_err _ _ _ _)

theorem neat_taken (s : St) (i : Nat) (a : AskRec) : Neat P s (forget (endAsk (takeAnswer s i a) i) a) := by
  have e1 : ∀ t : St, Neat P t (forget t a) := by
    intro t; unfold forget; split
    · exact neat_congr rfl rfl rfl rfl
    · exact .refl _
  have e2 : Neat P s (takeAnswer s i a) := by
    unfold takeAnswer
    split
    · split <;> exact neat_congr rfl rfl rfl rfl
    · exact neat_congr rfl rfl rfl rfl
  have e3 : Neat P (takeAnswer s i a) (endAsk (takeAnswer s i a) i) :=
    neat_congr rfl rfl rfl rfl
  exact (e2.trans e3).trans (e1 _)

/-- every operation but the return of an Ask -/
theorem neat_op {s s' : St} {op : Op} (hn : cfg.onlyNative = false) (hop : ∀ i, op ≠ .resume i)
    (h : exec cfg s op = some s') : Neat P s s' := by
  cases op with
  | recv typ b =>
    simp only [exec] at h
    split at h
    · cases h; exact neat_recv _ _ _
    · cases h
  | readErr e =>
    simp only [exec] at h
    split at h
    · cases h; exact (neat_signalReady _ _).trans (neat_readerExit _)
    · cases h
  | wake =>
    simp only [exec] at h
    unfold wakeReader at h
    split at h
    · split at h
      · rename_i msg _ _
        dsimp only at h
        have h0 : Neat P s { s with rd := .idle } := neat_congr rfl rfl rfl rfl
        have h1 := h0.trans (neat_afterGate (cfg := cfg) _ msg)
        split at h
        · cases h; exact h1.trans (neat_drain _ _)
        · cases h; exact h1
      · cases h
    · split at h
      · cases h
      · cases h; exact neat_ackReady _ _
    · cases h
  | contReader =>
    simp only [exec, contReader] at h
    split at h
    · cases h; exact neat_drain _ _
    · cases h
  | connect ns now ex =>
    cases h
    unfold connect
    dsimp only
    have hm : Neat P s (s.markReady cfg) := by
      unfold St.markReady; split
      · exact .refl s
      · exact neat_signalReady _ _
    revert hm
    generalize s.markReady cfg = s0
    intro hm
    split
    · exact hm
    · have hg : Neat P s (gateStart s0 ns) := hm.trans (by unfold gateStart; exact neat_congr rfl rfl rfl rfl)
      revert hg
      generalize gateStart s0 ns = s1
      intro hg
      split
      · exact (hg.trans (neat_emit _ _)).trans (neat_gateDone _ _)
      · split
        · exact (hg.trans (neat_emit _ _)).trans (neat_gateDone _ _)
        · simp only [newObj]
          have h1 := hg.trans (neat_newObj s1 ns)
          split
          · rename_i t e hfe
            exact ((h1.trans (neat_fire' hfe)).trans (neat_emit _ _)).trans (neat_gateDone _ _)
          · rename_i t hfe
            exact (h1.trans (neat_fire' hfe)).trans (neat_start hn _ _ _ _)
  | disconnect obj now ex =>
    simp only [exec] at h
    split at h
    · cases h
      unfold disconnect
      dsimp only
      split
      · exact neat_emit _ _
      · exact neat_start hn _ _ _ _
    · cases h
  | join obj room now ex =>
    simp only [exec] at h
    split at h
    · cases h
      unfold joinRoom
      dsimp only
      split
      · exact neat_emit _ _
      · exact neat_start hn _ _ _ _
    · cases h
  | leave obj room now ex =>
    simp only [exec] at h
    split at h
    · cases h
      unfold leaveRoom
      dsimp only
      split
      · exact neat_start hn _ _ _ _
      · exact neat_emit _ _
    · cases h
  | ask msg now ex => cases h; exact neat_start hn _ _ _ _
  | write msg => cases h; exact neat_write _ _
  | resume i => exact absurd rfl (hop i)
  | cancel i e =>
    simp only [exec, cancel] at h
    split at h
    · cases h
    · split at h
      · cases h
      · cases h
        have e3 : Neat P s (endAsk s i) := neat_congr rfl rfl rfl rfl
        exact e3.trans (neat_finish_err _ _ _ _)
  | close => cases h; exact neat_closeConn _
  | steal i typ b =>
    simp only [exec, steal] at h
    split at h
    · cases h
    · split at h
      · cases h; exact neat_congr rfl rfl rfl rfl
      · cases h
  | stealErr i e =>
    simp only [exec, steal] at h
    split at h
    · cases h
    · split at h
      · cases h; exact neat_congr rfl rfl rfl rfl
      · cases h
  | ready e => cases h; exact neat_signalReady _ _
  | sendAck =>
    simp only [exec] at h
    split at h
    · cases h; exact .refl _
    · have hw := neat_rawWrite (cfg := cfg) (P := P) s (b! "M") false
      revert h hw
      generalize rawWrite cfg s (b! "M") false = p
      obtain ⟨t, ok⟩ := p
      intro h hw
      cases ok with
      | true => cases h; exact hw
      | false => cases h; exact hw.trans (neat_closeConn _)
  | srvAsk tok => cases h; exact neat_congr rfl rfl rfl rfl
  | srvUnask tok => cases h; exact neat_congr rfl rfl rfl rfl

/-! ### The return of the three kinds -/

/-- the connected namespaces and the NSConns are the same -/
def Alike (s t : St) : Prop := t.connected = s.connected ∧ t.objs = s.objs

theorem Alike.trans {a b c : St} (h : Alike a b) (k : Alike b c) : Alike a c := ⟨k.1.trans h.1, k.2.trans h.2⟩

theorem alike_same {s t : St} {l : List Obs} (h : Same s l t) : Alike s t := ⟨h.connected, h.objs⟩

theorem alike_fire {s : St} {obj : Nat} {msg : Message} (h : (fire cfg s obj msg).1.closed = false) :
    Alike s (fire cfg s obj msg).1 := by
  obtain ⟨_, _, _, hs⟩ := fire_open h
  exact alike_same hs

theorem alike_gateDone (s : St) (ns : Bytes) : Alike s (gateDone s ns) := by
  unfold gateDone
  split
  · exact ⟨rfl, rfl⟩
  · split <;> exact ⟨rfl, rfl⟩

theorem closed_gateDone (s : St) (ns : Bytes) : (gateDone s ns).closed = s.closed := by
  unfold gateDone
  split
  · rfl
  · split <;> rfl

theorem alike_taken (s : St) (i : Nat) (a : AskRec) : Alike s (forget (endAsk (takeAnswer s i a) i) a) := by
  unfold forget endAsk takeAnswer Alike
  split <;> split <;> first | exact ⟨rfl, rfl⟩ | (split <;> exact ⟨rfl, rfl⟩)

theorem Alike.rooms {s t : St} (h : Alike s t) (o : Nat) : t.rooms o = s.rooms o := rooms_congr h.2 o
theorem Alike.nsName {s t : St} (h : Alike s t) (o : Nat) : t.nsName o = s.nsName o := by unfold St.nsName; rw [h.2]
theorem Alike.namespace {s t : St} (h : Alike s t) (n : Bytes) : t.namespace n = s.namespace n := by
  unfold St.namespace; rw [h.1]

theorem finish_connect {s : St} {ns : Bytes} {obj : Nat} {m : Message}
    (h : (finish cfg s (.connect ns obj) m none).closed = false) :
    Alike { s with connected := mapSet s.connected ns obj } (finish cfg s (.connect ns obj) m none) := by
  simp only [finish] at h ⊢
  rw [closed_gateDone] at h
  refine Alike.trans ?_ (alike_gateDone _ _)
  simp only [notifyConnected] at h ⊢
  split
  · rename_i hx
    rw [if_pos hx] at h
    exact alike_fire h
  · rename_i hx
    rw [if_neg hx] at h
    exact alike_fire h

theorem finish_disconnect {s : St} {obj : Nat} {msg m : Message}
    (h : (finish cfg s (.disconnect obj msg) m none).closed = false)
    (hh : (finish cfg s (.disconnect obj msg) m none).hung = false) :
    (finish cfg s (.disconnect obj msg) m none).connected = mapDel s.connected msg.ns ∧
    (∀ i r, r ∈ (finish cfg s (.disconnect obj msg) m none).rooms i ↔ r ∈ s.rooms i ∧ i ≠ obj) ∧
    ∀ i, (finish cfg s (.disconnect obj msg) m none).nsName i = s.nsName i := by
  simp only [finish] at h hh ⊢
  have hp1 := prims_notifyDisconnect (cfg := cfg) (fire cfg { forceLeaveAll cfg s obj true with
      connected := mapDel (forceLeaveAll cfg s obj true).connected msg.ns } obj
      { msg with isLocal := true }).1 msg.ns
  have hc1 := closed_of_prims hp1 h
  have hh1 := hung_of_prims hp1 hh
  have hp2 := prims_fire (cfg := cfg) { forceLeaveAll cfg s obj true with
      connected := mapDel (forceLeaveAll cfg s obj true).connected msg.ns } obj
      { msg with isLocal := true }
  have hc2 := closed_of_prims hp2 hc1
  have hh2 := hung_of_prims hp2 hh1
  obtain ⟨⟨l, h1⟩, _, h3⟩ := forceLeaveAll_neat (cfg := cfg) (s := s) (obj := obj) (il := true) hc2 hh2
  have ha := (alike_fire (cfg := cfg) hc1).trans (alike_same (notifyDisconnect_same (cfg := cfg) (fire cfg { forceLeaveAll cfg s obj true with
      connected := mapDel (forceLeaveAll cfg s obj true).connected msg.ns } obj
      { msg with isLocal := true }).1 msg.ns))
  refine ⟨?_, fun i r => ?_, fun i => ?_⟩
  · refine ha.1.trans ?_
    show mapDel (forceLeaveAll cfg s obj true).connected msg.ns = _
    rw [h1.connected]
  · exact (ha.rooms i ▸ h3 i r : _)
  · exact (ha.nsName i).trans (h1.2 i)

/-! ### One step -/

theorem tidy_self {s : St} (hr : Reach cfg id s) : Tidy (Orphan s) s := by
  refine ⟨fun ns obj h => ?_, fun obj r h => ?_⟩
  · have hok := (reach_ok hr).2 ns obj h
    refine ⟨reach_nsName hr h, ?_⟩
    cases hx : s.objs[obj]? with
    | none => rw [hx] at hok; simp at hok
    | some o => exact (List.getElem?_eq_some_iff.mp hx).1
  · by_cases hl : s.namespace (s.nsName obj) = some obj
    · left; simp [linked, hl]
    · exact .inr ⟨h, hl⟩

theorem of_tidy {s t : St} {obj : Nat} {r : Bytes} (h : Tidy (Orphan s) t) (ho : Orphan t obj r) : Orphan s obj r := by
  rcases h.2 obj r ho.1 with h | h
  · exact absurd (by simpa [linked] using h) ho.2
  · exact h

theorem of_alike {s t : St} {obj : Nat} {r : Bytes} (h : Alike s t) : Orphan t obj r ↔ Orphan s obj r := by
  unfold Orphan
  rw [h.rooms, h.nsName, h.namespace]

theorem resume_eq {s s' : St} {i : Nat} (h : exec cfg s (.resume i) = some s') : ∃ a m, s.asks[i]? = some a ∧ a.done = false ∧
    a.box = some m ∧ s' = finish cfg (forget (endAsk (takeAnswer s i a) i) a) a.cont m m.err := by
  simp only [exec, resume] at h
  split at h
  · cases h
  · rename_i a ha
    split at h
    · cases h
    · rename_i hd
      split at h
      · cases h
      · rename_i m hm
        cases h
        exact ⟨a, m, ha, by simpa using hd, hm, rfl⟩

theorem answered {s s' : St} {i : Nat} {k : Cont} (h : exec cfg s (.resume i) = some s') (ha : Answered s i k) :
    ∃ t m, Alike s t ∧ s' = finish cfg t k m none := by
  obtain ⟨a, m, e1, _, e3, e⟩ := resume_eq h
  obtain ⟨a', m', f1, _, f3, f4, f5⟩ := ha
  rw [e1] at f1; cases f1
  rw [e3] at f3; cases f3
  rw [f4, f5] at e
  exact ⟨_, m, alike_taken s i a, e⟩

theorem connect_iff {s : St} {ns : Bytes} {o : Nat} {m : Message} (h : (finish cfg s (.connect ns o) m none).closed = false)
    (obj : Nat) (r : Bytes) : Orphan (finish cfg s (.connect ns o) m none) obj r ↔
      r ∈ s.rooms obj ∧ if s.nsName obj = ns then o ≠ obj else s.namespace (s.nsName obj) ≠ some obj := by
  rw [of_alike (finish_connect h)]
  have h1 : ({ s with connected := mapSet s.connected ns o } : St).rooms obj = s.rooms obj := rfl
  have h2 : ({ s with connected := mapSet s.connected ns o } : St).nsName obj = s.nsName obj := rfl
  have h3 : ({ s with connected := mapSet s.connected ns o } : St).namespace (s.nsName obj) =
      if s.nsName obj = ns then some o else s.namespace (s.nsName obj) := mapGet_mapSet _ _ _ _
  unfold Orphan
  rw [h1, h2, h3]
  split <;> simp

theorem disconnect_iff {s : St} {o : Nat} {msg m : Message} (h : (finish cfg s (.disconnect o msg) m none).closed = false)
    (hh : (finish cfg s (.disconnect o msg) m none).hung = false)
    (obj : Nat) (r : Bytes) : Orphan (finish cfg s (.disconnect o msg) m none) obj r ↔
      (r ∈ s.rooms obj ∧ obj ≠ o) ∧ (s.nsName obj = msg.ns ∨ s.namespace (s.nsName obj) ≠ some obj) := by
  obtain ⟨h1, h2, h3⟩ := finish_disconnect h hh
  unfold Orphan
  rw [h2, h3]
  have h4 : (finish cfg s (.disconnect o msg) m none).namespace (s.nsName obj) =
      if s.nsName obj = msg.ns then none else s.namespace (s.nsName obj) := by
    unfold St.namespace
    rw [h1, mapGet_mapDel]
  rw [h4]
  split
  · rename_i hx; simp [hx]
  · rename_i hx; simp [hx]

theorem join_cases {s : St} {o : Nat} {msg m : Message} (ho : o < s.objs.length)
    (h : (finish cfg s (.join o msg) m none).closed = false) :
    Alike (s.setRooms o (addRoom msg.room)) (finish cfg s (.join o msg) m none) ∧ verdict cfg s o msg = none ∨
    Alike s (finish cfg s (.join o msg) m none) ∧ verdict cfg s o msg ≠ none := by
  cases hv : verdict cfg s o msg with
  | none => obtain ⟨l, hl, _⟩ := finish_join_ok ho hv h; exact .inl ⟨alike_same hl, rfl⟩
  | some e => obtain ⟨l, hl, _⟩ := finish_join_veto hv h; exact .inr ⟨alike_same hl, by simp⟩

theorem orphan_setRooms {s : St} {o obj : Nat} {room r : Bytes} (ho : o < s.objs.length) :
    Orphan (s.setRooms o (addRoom room)) obj r ↔
      Orphan s obj r ∨ obj = o ∧ r = room ∧ s.namespace (s.nsName obj) ≠ some obj := by
  have h1 : (s.setRooms o (addRoom room)).nsName obj = s.nsName obj := nsName_setRooms _ _ _ _
  have h2 : ∀ n, (s.setRooms o (addRoom room)).namespace n = s.namespace n := fun _ => rfl
  unfold Orphan
  rw [h1, h2]
  rw [rooms_addRoom s o room ho]
  grind

theorem objs_lt {s : St} (hr : Reach cfg id s) {i o : Nat} {msg : Message} (ha : Answered s i (.join o msg)) : o < s.objs.length := by
  obtain ⟨a, m, h1, _, _, _, h5⟩ := ha
  have hk := (reach_ok hr).1 a (List.mem_of_getElem? h1)
  rw [h5] at hk
  have := hk.1
  cases hx : s.objs[o]? with
  | none => rw [hx] at this; simp at this
  | some o' => exact (List.getElem?_eq_some_iff.mp hx).1

theorem only {s s' : St} {op : Op} {obj : Nat} {r : Bytes} (hn : cfg.onlyNative = false) (hr : Reach cfg id s)
    (hs : step cfg s op = some s') (hc : s'.closed = false) (h1 : Orphan s' obj r) (h0 : ¬ Orphan s obj r) :
    ∃ i k, op = .resume i ∧ Answered s i k ∧ Tears s obj r k := by
  obtain ⟨he, hh⟩ := step_exec hs
  by_cases hop : ∀ i, op ≠ .resume i
  · exact absurd (of_tidy ((neat_op hn hop he hc hh).2.2 (tidy_self hr)) h1) h0
  · have : ∃ i, op = .resume i := Classical.byContradiction fun hx => hop fun i hi => hx ⟨i, hi⟩
    obtain ⟨i, rfl⟩ := this
    obtain ⟨a, m, ha, hd, hm, e⟩ := resume_eq he
    subst e
    have key : Neat (Orphan s) s (finish cfg (forget (endAsk (takeAnswer s i a) i) a) a.cont m m.err) → False :=
      fun hx => h0 (of_tidy ((hx hc hh).2.2 (tidy_self hr)) h1)
    cases hme : m.err with
    | some e => rw [hme] at key; exact (key ((neat_taken _ _ _).trans (neat_finish_err _ _ _ _))).elim
    | none =>
      have hans : Answered s i a.cont := ⟨a, m, ha, hd, hm, hme, rfl⟩
      have hal := alike_taken s i a
      refine ⟨i, a.cont, rfl, hans, ?_⟩
      rw [hme] at hc hh h1 key
      revert hc hh h1 key hans
      cases a.cont with
      | leave o msg => intro _ _ _ key _; exact (key ((neat_taken _ _ _).trans (neat_finish rfl _ _ _))).elim
      | user => intro _ _ _ key _; exact (key ((neat_taken _ _ _).trans (neat_finish rfl _ _ _))).elim
      | connect ns o =>
        intro hc h1 hh key hans
        rw [connect_iff hc, hal.rooms, hal.nsName, hal.namespace] at h1
        obtain ⟨h2, h3⟩ := h1
        split at h3
        · rename_i hx; subst hx; exact .connect h3 h2
        · exact absurd ⟨h2, h3⟩ h0
      | disconnect o msg =>
        intro hc h1 hh key hans
        rw [disconnect_iff hc hh, hal.rooms, hal.nsName, hal.namespace] at h1
        obtain ⟨⟨h2, h4⟩, h3 | h3⟩ := h1
        · exact .disconnect (Ne.symm h4) h3.symm h2
        · exact absurd ⟨h2, h3⟩ h0
      | join o msg =>
        intro hc h1 hh key hans
        have ho := objs_lt hr hans
        have ho' : o < (forget (endAsk (takeAnswer s i a) i) a).objs.length := by rw [hal.2]; exact ho
        rcases join_cases ho' hc with ⟨hx, _⟩ | ⟨hx, _⟩
        · rw [of_alike hx, orphan_setRooms ho', of_alike hal, hal.nsName, hal.namespace] at h1
          rcases h1 with h1 | ⟨rfl, rfl, h3⟩
          · exact absurd h1 h0
          · exact .join rfl h3
        · rw [of_alike hx, of_alike hal] at h1
          exact absurd h1 h0

theorem conv {s s' : St} {i : Nat} {k : Cont} {obj : Nat} {r : Bytes} (hr : Reach cfg id s)
    (hs : step cfg s (.resume i) = some s') (hc : s'.closed = false) (ha : Answered s i k)
    (ht : Tears s obj r k) (hm : r ∈ s'.rooms obj) : Orphan s' obj r := by
  obtain ⟨he, hh⟩ := step_exec hs
  obtain ⟨t, m, hal, rfl⟩ := answered he ha
  cases ht with
  | join h1 h2 =>
    have ho' := hal.2 ▸ objs_lt hr ha
    refine ⟨hm, ?_⟩
    rcases join_cases ho' hc with ⟨hx, _⟩ | ⟨hx, _⟩
    · rw [hx.nsName, hx.namespace, nsName_setRooms, hal.nsName]
      exact (hal.namespace _ ▸ h2 : _)
    · rw [hx.nsName, hx.namespace, hal.nsName, hal.namespace]
      exact h2
  | connect ho hx =>
    rw [connect_iff hc, hal.rooms, hal.nsName, hal.namespace, if_pos rfl]
    exact ⟨hx, ho⟩
  | disconnect ho hn hx =>
    rw [disconnect_iff hc hh, hal.rooms, hal.nsName, hal.namespace]
    exact ⟨⟨hx, Ne.symm ho⟩, .inl hn.symm⟩

theorem answered_of {s : St} {i : Nat} {k : Cont} (h : (match s.asks[i]? with
      | some a => !a.done && decide (a.cont = k) && (match a.box with
        | some m => m.err.isNone
        | none => false)
      | none => false) = true) : Answered s i k := by
  split at h
  · rename_i a ha
    simp only [Bool.and_eq_true, Bool.not_eq_true', decide_eq_true_eq] at h
    obtain ⟨⟨h1, h2⟩, h3⟩ := h
    split at h3
    · rename_i m hm
      exact ⟨a, m, ha, h1, hm, by simpa using h3, h2⟩
    · cases h3
  · cases h

end Neffos.Orphan
