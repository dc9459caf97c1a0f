import Verif.Spec.EmitBoth
import Verif.Props.EmitMany
import Verif.Props.SettleBoth
/-!
# C106: what becomes of an event that is emitted while calls of both sides are in flight
-/
set_option autoImplicit false
namespace Neffos
open Neffos.Spec

namespace EmitBoth

variable {x y cc sc : Cfg} {id : Bytes} {ops : List SessOp} {s s' : Sess} {m : Message} {n : Nat}

/-- a step changes both sides only by steps of theirs -/
theorem sides {op : SessOp} (hinv : BothInv cc sc id s) (ho : BothRequests s op)
    (h : sstep cc sc s op = some s') :
    (s'.c.closed = false → s.c.closed = false) ∧ (s'.d.closed = false → s.d.closed = false) ∧
      (∃ l, s'.c.log = s.c.log ++ l) ∧ (∃ l, s'.d.log = s.d.log ++ l) := by
  have hcl : ∀ {op : Op} {t : St}, step cc s.c op = some t → (t.closed = false → s.c.closed = false) ∧
      (∃ l, t.log = s.c.log ++ l) := fun hs => ⟨closed_of_prims (reach_prims hinv.rc hs), log_grows hinv.rc hs⟩
  have hdl : ∀ {op : Op} {t : St}, step sc s.d op = some t → (t.closed = false → s.d.closed = false) ∧
      (∃ l, t.log = s.d.log ++ l) := fun hs => ⟨closed_of_prims (reach_prims hinv.rd hs), log_grows hinv.rd hs⟩
  cases op with
  | client op =>
    simp only [sstep] at h
    split at h
    · cases h
    · obtain ⟨t, ht, rfl⟩ := Option.map_eq_some_iff.mp h
      obtain ⟨k1, k2⟩ := hcl ht
      exact ⟨k1, fun x => x, k2, ⟨[], by simp⟩⟩
  | server op =>
    simp only [sstep] at h
    split at h
    · cases h
    · obtain ⟨t, ht, rfl⟩ := Option.map_eq_some_iff.mp h
      obtain ⟨k1, k2⟩ := hdl ht
      exact ⟨fun x => x, k1, ⟨[], by simp⟩, k2⟩
  | up =>
    simp only [sstep] at h
    split at h
    · cases h
    · obtain ⟨t, ht, rfl⟩ := Option.map_eq_some_iff.mp h
      obtain ⟨k1, k2⟩ := hdl ht
      exact ⟨fun x => x, k1, ⟨[], by simp⟩, k2⟩
  | down =>
    simp only [sstep] at h
    split at h
    · cases h
    · obtain ⟨t, ht, rfl⟩ := Option.map_eq_some_iff.mp h
      obtain ⟨k1, k2⟩ := hcl ht
      exact ⟨k1, fun x => x, k2, ⟨[], by simp⟩⟩
  | upAsk i => exact (show False from ho).elim
  | downAsk i => exact (show False from ho).elim

theorem run_det {ops : List SessOp} {s s' : Sess} (h : RuledRun cc sc id ops s) (h' : RuledRun cc sc id ops s') :
    s = s' := by
  induction h generalizing s' with
  | init =>
    generalize hx : ([] : List SessOp) = x at h'
    cases h' with
    | init => rfl
    | step => simp at hx
  | @step ops s t op h1 _ h3 ih =>
    generalize hx : ops ++ [op] = x at h'
    cases h' with
    | init => simp at hx
    | step k1 _ k3 =>
      obtain ⟨e1, e2⟩ := List.append_inj' hx rfl
      cases e2
      subst e1
      rw [ih k1, k3] at h3
      exact (Option.some.inj h3).symm

/-- what was so at a point of a session -/
theorem run_back {pre ops : List SessOp} {s : Sess} (hcons : BothConsistent cc sc) (hnc : cc.allowNative = false)
    (hns : sc.allowNative = false) (hcl : cc.isClient = true) (hsc : sc.isClient = false) (h : RuledRun cc sc id ops s)
    (hpre : pre <+: ops) : ∃ s1, RuledRun cc sc id pre s1 ∧ (s.c.closed = false → s1.c.closed = false) ∧
      (s.d.closed = false → s1.d.closed = false) ∧ (∃ l, s.c.log = s1.c.log ++ l) ∧ ∃ l, s.d.log = s1.d.log ++ l := by
  induction h with
  | init =>
    rw [List.prefix_nil.mp hpre]
    exact ⟨_, .init, fun x => x, fun x => x, ⟨[], by simp⟩, ⟨[], by simp⟩⟩
  | @step ops s t op h1 h2 h3 ih =>
    rcases List.prefix_concat_iff.mp hpre with e | e
    · subst e
      exact ⟨_, .step h1 h2 h3, fun x => x, fun x => x, ⟨[], by simp⟩, ⟨[], by simp⟩⟩
    · obtain ⟨s1, k1, k2, k3, ⟨l, k4⟩, l', k5⟩ := ih e
      obtain ⟨j1, j2, ⟨l2, j3⟩, l2', j4⟩ := sides (both_inv hcons hnc hns hcl hsc (ruled_both h1)) h2.1 h3
      exact ⟨s1, k1, fun x => k2 (j1 x), fun x => k3 (j2 x), ⟨l ++ l2, by rw [j3, k4, List.append_assoc]⟩, l' ++ l2', by
        rw [j4, k5, List.append_assoc]⟩

/-- where the emitted event is among the payloads of the client -/
theorem up_place (hcons : BothConsistent cc sc) (hnc : cc.allowNative = false)
    (hns : sc.allowNative = false) (hcl : cc.isClient = true) (hsc : sc.isClient = false)
    (h : RuledRun cc sc id ops s) (he : RuledUp cc sc id ops m n) (hc : s.c.closed = false) :
    AppMsg m ∧ (pipe s.c.log)[n]? = some (if m.setBinary then .binary else .text, wireOf m) := by
  obtain ⟨before, s0, s1, hpre, hrun, hst, hplace, hlen⟩ := he
  obtain ⟨s1', hrun1, hc1, _, ⟨l, hl⟩, _⟩ := run_back hcons hnc hns hcl hsc h hpre
  have hreq : RuledRequests s0 (.client (.write m)) ∧ s1' = s1 := by
    generalize hx : before ++ [SessOp.client (.write m)] = x at hrun1
    cases hrun1 with
    | init => simp at hx
    | step k1 k2 k3 =>
      obtain ⟨e1, e2⟩ := List.append_inj' hx rfl
      cases e2
      subst e1
      cases run_det hrun k1
      exact ⟨k2, Option.some.inj (k3.symm.trans hst)⟩
  obtain ⟨⟨hreq, _⟩, rfl⟩ := hreq
  have happ : AppMsg m := (show s0.c.ready = some none ∧ AppMsg m from hreq).2
  have hc1 := hc1 hc
  simp only [sstep, Op.reads, Bool.false_eq_true, if_false] at hst
  obtain ⟨t, ht, rfl⟩ := Option.map_eq_some_iff.mp hst
  obtain ⟨hex, _⟩ := step_exec ht
  simp only [exec] at hex
  cases hex
  dsimp only at hc1 hlen hl
  obtain ⟨_, htook⟩ := write_took hc1 (by rw [hlen, hplace])
  exact ⟨happ, by rw [hl, pipe_append, htook, ← hplace]; simp⟩

/-- where the emitted event is among the payloads of the server -/
theorem down_place (hcons : BothConsistent cc sc) (hnc : cc.allowNative = false)
    (hns : sc.allowNative = false) (hcl : cc.isClient = true) (hsc : sc.isClient = false)
    (h : RuledRun cc sc id ops s) (he : RuledDown cc sc id ops m n) (hd : s.d.closed = false) :
    AppMsg m ∧ (pipe s.d.log)[n]? = some (if m.setBinary then .binary else .text, wireOf m) := by
  obtain ⟨before, s0, s1, hpre, hrun, hst, hplace, hlen⟩ := he
  obtain ⟨s1', hrun1, _, hc1, _, l, hl⟩ := run_back hcons hnc hns hcl hsc h hpre
  have hreq : RuledRequests s0 (.server (.write m)) ∧ s1' = s1 := by
    generalize hx : before ++ [SessOp.server (.write m)] = x at hrun1
    cases hrun1 with
    | init => simp at hx
    | step k1 k2 k3 =>
      obtain ⟨e1, e2⟩ := List.append_inj' hx rfl
      cases e2
      subst e1
      cases run_det hrun k1
      exact ⟨k2, Option.some.inj (k3.symm.trans hst)⟩
  obtain ⟨⟨hreq, _⟩, rfl⟩ := hreq
  have happ : AppMsg m := hreq
  have hc1 := hc1 hd
  simp only [sstep, Op.reads, Bool.false_eq_true, if_false] at hst
  obtain ⟨t, ht, rfl⟩ := Option.map_eq_some_iff.mp hst
  obtain ⟨hex, _⟩ := step_exec ht
  simp only [exec] at hex
  cases hex
  dsimp only at hc1 hlen hl
  obtain ⟨_, htook⟩ := write_took hc1 (by rw [hlen, hplace])
  exact ⟨happ, by rw [hl, pipe_append, htook, ← hplace]; simp⟩

variable {u u' v : St} {po pi rest : List (MsgType × Bytes)} {O I : List Cargo}
  {X Y : List (Pend × Option GoErr × Option Message)}

/-- a Connect in flight is to a namespace that this side is not connected to -/
theorem progress_out {b : Bytes} (h : Both x y u v po pi O I X Y) (hp : InProgress u b) : ¬ InNs u b := by
  obtain ⟨i, obj, a, ha, hd, hk⟩ := hp
  obtain ⟨p, hp, hat, hae⟩ := h.mine.pendOf (List.mem_of_getElem? ha) hd
  have fly := h.mine.ready p hp
  have hpk : p.k = .connect b obj := by rw [hae] at hk; exact hk
  have hq := fly.connect hpk
  obtain ⟨_, _, q, e, _, hw, _⟩ := fly
  rw [hq] at e
  cases e
  obtain ⟨_, _, k', _⟩ := hw
  exact fun k => k k'

/-- an event that is read -/
theorem fate_recv (hn : x.allowNative = false) (hr : Reach x id u) (h : Both x y u v po ((if m.setBinary then .binary else .text, wireOf m) :: rest) O I X Y)
    (hes : Ears x u ((if m.setBinary then .binary else .text, wireOf m) :: rest)) (happ : AppMsg m) (hm : AskMsg m)
    (hs : step x u (.recv (if m.setBinary then .binary else .text) (wireOf m)) = some u') (hc : u'.closed = false) : Fate u u' m := by
  have hheard := (emit_wire x.known happ hm).1
  have hi := emit_incoming hn h.okS.acked happ hm
  have h1 : m.event ≠ OnNamespaceConnect := fun x => hm.2.2.2 (.inl x)
  have h2 : m.event ≠ OnNamespaceDisconnect := fun x => hm.2.2.2 (.inr (.inl x))
  have hcalm : CalmP ((if m.setBinary then .binary else .text, wireOf m) : MsgType × Bytes) := wire_calm happ.1 happ.2
  have hlast := hes.hear [] _ rest rfl hcalm m.ns ⟨hheard.ns, by rw [hheard.event]; exact h1, by rw [hheard.event]; exact h2⟩
  by_cases hx : InNs u m.ns
  · refine .runs hx ?_
    have hnp : ¬ InProgress u m.ns := fun k => progress_out h k hx
    obtain ⟨hh, _⟩ := c32_event_passes_partial hr hi (by rw [hheard.event]; exact h1) (by rw [hheard.event]; exact h2)
      (by rw [hheard.ns]; exact hnp) hs
    exact handled_runs hr hh hheard hm hx hc
  · have hacc : Accepted u m.ns := by
      rcases hlast with ⟨a, k1, k2, k3, k4⟩ | k
      · refine ⟨a, k1, k2, k3, ?_⟩
        rcases k4 with k4 | ⟨p, k4, _⟩
        · exact k4
        · cases k4
      · exact absurd k.inNs hx
    have hp : InProgress u m.ns := by
      obtain ⟨a, k1, k2, ⟨obj, k3⟩, _⟩ := hacc
      obtain ⟨i, hi⟩ := List.getElem?_of_mem k1
      exact ⟨i, obj, a, hi, k2, k3⟩
    cases hgb : gateBlocks u m.ns with
    | true =>
      refine .held _ hx hacc hheard ?_
      obtain ⟨e, _⟩ := step_recv hi hs
      rw [e, dispatch, if_neg (by rw [hheard.event]; exact h1), if_neg (by rw [hheard.event]; exact h2),
        if_pos (by rw [hheard.ns]; exact hgb)]
    | false =>
      have hh : Handled x u _ u' := .recv _ _ hi (by rw [hheard.ns]; exact hgb) hs
      refine .dropped hx hacc (Classical.byContradiction fun hno => ?_) (handled_dropped hr hh hheard hm hx)
      have hnone : NoneReturned u m.ns := fun obj r k => hno ⟨obj, r, k⟩
      have e := c32_event_held_partial hr hi (by rw [hheard.event]; exact h1) (by rw [hheard.event]; exact h2)
        (by rw [hheard.ns]; exact hp) (by rw [hheard.ns]; exact hnone) hs
      obtain ⟨e', _⟩ := step_recv hi hs
      rw [dispatch, if_neg (by rw [hheard.event]; exact h1), if_neg (by rw [hheard.event]; exact h2),
        if_neg (by rw [hheard.ns]; simp [hgb])] at e'
      have hrd := (rd_afterGate (cfg := x) u (deserializeMessage x.known (if m.setBinary then .binary else .text) (wireOf m) false false)).rd
      rw [← e', e] at hrd
      have := (recv_idle hs).1
      rw [this] at hrd
      cases hrd

/-- an event that was held back is handled when the reader goes on -/
theorem fate_wake {M : Message} (hst : StillSide x) (hr : Reach x id u) (h : Both x y u v po pi O I X Y) (hes : Ears x u pi)
    (hg : u.rd = .gate M) (hm : AskMsg m) (hheard : Heard m [] M) (hs : step x u .wake = some u') (hc : u'.closed = false) :
    Runs u u' m ∧ u'.rd = .idle := by
  have hx : InNs u m.ns := by
    rcases (hes.gate M hg).1 with ⟨a, k1, k2, ⟨obj, k3⟩, _⟩ | k
    · obtain ⟨i, hi⟩ := List.getElem?_of_mem k1
      have := (c32_event_waits hr hg ⟨i, obj, a, hi, k2, k3⟩).1
      rw [hs] at this
      cases this
    · rw [← hheard.ns]; exact k.inNs
  have hh : Handled x u M u' := .wake hg h.okS.todo h.okS.ackAfter hs
  obtain ⟨_, _, hp⟩ := wake_state hst h.okS hes hs
  exact ⟨handled_runs hr hh hheard hm hx hc, hp.rd⟩

/-- a reader that waits goes on only by its own step -/
theorem side_rd {op : Op} (hw : op ≠ .wake) (hst : StillSide x) (hn : x.allowNative = false) (ho : SideRequests x.isClient u v op)
    (h : Both x y u v po pi O I X Y) (hs : step x u op = some u') (hc : u'.closed = false) :
    u'.rd = u.rd := by
  have hcb : CbCalm x := still_calm hst.cbs
  have hon : x.onlyNative = false := by simp [Cfg.onlyNative, hn]
  have hexit : ∀ s : St, (readerExit x s).closed = true := fun s => closeConn_closed s
  have called : ∀ {z tok}, Called z tok u u' → u'.rd = u.rd := by
    rintro x tok (⟨l, k, _⟩ | ⟨q, k, _, _, _, _, l, l1, k', _⟩)
    · exact k.rd
    · exact k'.rd
  cases op with
  | write m =>
    obtain ⟨he, _⟩ := step_exec hs
    simp only [exec] at he
    cases he
    obtain ⟨l, ⟨r, e⟩, _⟩ := app_write ho hc
    exact (by rw [e])
  | ready e =>
    obtain ⟨he, _⟩ := step_exec hs
    simp only [exec] at he
    cases he
    exact (rd_signalReady _ _).rd
  | connect ns now ex =>
    obtain ⟨⟨o1, o2, o3, o4⟩, ⟨o5, o6⟩, o7⟩ := ho
    exact called (side_connect (.inr ⟨o1, o2⟩) hon hcb o3 o7 hs hc)
  | disconnect obj now ex =>
    obtain ⟨⟨o1, o2, o3, o4⟩, ⟨o5, o6⟩, o7⟩ := ho
    exact called (side_disconnect hon o3 o7 hs hc)
  | join obj room now ex =>
    obtain ⟨⟨o1, o2, o3, o4⟩, ⟨o5, o6⟩, o7, o8, o9⟩ := ho
    exact called (side_join hon o3 o7 o8 o9 hs hc)
  | leave obj room now ex =>
    obtain ⟨⟨o1, o2, o3, o4⟩, ⟨o5, o6⟩, o7, o8, o9⟩ := ho
    exact called (side_leave hon o3 o7 o8 o9 hs hc)
  | resume i =>
    obtain ⟨a, ha, m, hb⟩ : ∃ a, u.asks[i]? = some a ∧ ∃ m, a.box = some m := by
      obtain ⟨he, _⟩ := step_exec hs
      simp only [exec, resume] at he
      split at he
      · cases he
      · rename_i a ha
        split at he
        · cases he
        · split at he
          · cases he
          · rename_i _ m hb
            exact ⟨a, ha, m, hb⟩
    obtain ⟨e, _⟩ := step_resume ha hb hs
    have hra := (rdAsk_finish (cfg := x) (resumed u i a) a.cont m m.err).rd
    rw [← e] at hra
    rw [hra]
    unfold resumed forget endAsk takeAnswer
    rcases h.okS.rd with x | ⟨m, _, x⟩ <;> rw [x] <;> dsimp only <;> split <;> simp [x]
  | close =>
    obtain ⟨he, _⟩ := step_exec hs
    simp only [exec] at he
    cases he
    rw [closeConn_closed] at hc
    cases hc
  | readErr e =>
    obtain ⟨he, _⟩ := step_exec hs
    simp only [exec] at he
    split at he
    · cases he
      rw [hexit] at hc
      cases hc
    · cases he
  | wake => exact absurd rfl hw
  | ask => exact ho.elim
  | sendAck => exact ho.elim
  | recv => exact ho.elim
  | contReader => exact ho.elim
  | cancel => exact ho.elim
  | steal => exact ho.elim
  | stealErr => exact ho.elim
  | srvAsk => exact ho.elim
  | srvUnask => exact ho.elim

end EmitBoth

variable {cc sc : Cfg} {id : Bytes} {ops : List SessOp} {s s' : Sess} {m : Message} {n : Nat}

theorem openBack (hcons : BothConsistent cc sc) (hnc : cc.allowNative = false) (hns : sc.allowNative = false)
    (hcl : cc.isClient = true) (hsc : sc.isClient = false) {op : SessOp} (h : RuledRun cc sc id ops s)
    (ho : RuledRequests s op) (hst : sstep cc sc s op = some s') (hdial : s.c.ready = some none)
    (hc : s'.c.closed = false) (hd : s'.d.closed = false) : Open s := by
  obtain ⟨j1, j2, _⟩ := EmitBoth.sides (both_inv hcons hnc hns hcl hsc (ruled_both h)) ho.1 hst
  exact ⟨hdial, j1 hc, j2 hd⟩

/-- C106: the server reads what the client emitted, with any calls of both sides in flight. -/
theorem c106_up (hcons : BothConsistent cc sc) (hnc : cc.allowNative = false) (hns : sc.allowNative = false)
    (hcl : cc.isClient = true) (hsc : sc.isClient = false) (hstc : StillSide cc) (hsts : StillSide sc)
    (h : RuledRun cc sc id ops s) (hdial : s.c.ready = some none) (he : RuledUp cc sc id ops m n) (hm : AskMsg m)
    (hn : s.up = n) (hst : sstep cc sc s .up = some s') (hc : s'.c.closed = false) (hd : s'.d.closed = false) :
    Fate s.d s'.d m := by
  have ho := openBack (op := .up) hcons hnc hns hcl hsc h ⟨trivial, trivial⟩ hst hdial hc hd
  obtain ⟨hinv, _, h2, _, _, _, _, x⟩ := open_live hcons hnc hns hcl hsc hstc hsts h ho
  obtain ⟨happ, hpay⟩ := EmitBoth.up_place hcons hnc hns hcl hsc h he ho.cli
  simp only [sstep, hn, hpay] at hst
  obtain ⟨t, ht, rfl⟩ := Option.map_eq_some_iff.mp hst
  have hlt : n < (pipe s.c.log).length := (List.getElem?_eq_some_iff.mp hpay).1
  rw [hn, List.drop_eq_getElem_cons hlt, (List.getElem?_eq_some_iff.mp hpay).2] at x h2
  exact EmitBoth.fate_recv hns hinv.rd x.symm h2 happ hm ht hd

/-- C106: the client reads what the server emitted, with any calls of both sides in flight. -/
theorem c106_down (hcons : BothConsistent cc sc) (hnc : cc.allowNative = false) (hns : sc.allowNative = false)
    (hcl : cc.isClient = true) (hsc : sc.isClient = false) (hstc : StillSide cc) (hsts : StillSide sc)
    (h : RuledRun cc sc id ops s) (hdial : s.c.ready = some none) (he : RuledDown cc sc id ops m n) (hm : AskMsg m)
    (hn : s.down = n) (hst : sstep cc sc s .down = some s') (hc : s'.c.closed = false) (hd : s'.d.closed = false) :
    Fate s.c s'.c m := by
  have ho := openBack (op := .down) hcons hnc hns hcl hsc h ⟨trivial, trivial⟩ hst hdial hc hd
  obtain ⟨hinv, h1, _, _, _, _, _, x⟩ := open_live hcons hnc hns hcl hsc hstc hsts h ho
  obtain ⟨happ, hpay⟩ := EmitBoth.down_place hcons hnc hns hcl hsc h he ho.srv
  simp only [sstep, hn, hpay] at hst
  obtain ⟨t, ht, rfl⟩ := Option.map_eq_some_iff.mp hst
  have hlt : n < (pipe s.d.log).length := (List.getElem?_eq_some_iff.mp hpay).1
  rw [hn, List.drop_eq_getElem_cons hlt, (List.getElem?_eq_some_iff.mp hpay).2] at x h1
  exact EmitBoth.fate_recv hnc hinv.rc x h1 happ hm ht hc

/-- C106: an event that the server holds back stays held back through whatever happens, until its reader goes on; then
the callback of the event runs, once, and no other. -/
theorem c106_held_up {op : SessOp} {M : Message} (hcons : BothConsistent cc sc) (hnc : cc.allowNative = false)
    (hns : sc.allowNative = false) (hcl : cc.isClient = true) (hsc : sc.isClient = false) (hstc : StillSide cc)
    (hsts : StillSide sc) (h : RuledRun cc sc id ops s) (hdial : s.c.ready = some none) (hg : s.d.rd = .gate M)
    (hm : AskMsg m) (hheard : Heard m [] M) (hop : RuledRequests s op) (hst : sstep cc sc s op = some s')
    (hc : s'.c.closed = false) (hd : s'.d.closed = false) :
    (op = .server .wake → Runs s.d s'.d m ∧ s'.d.rd = .idle) ∧ (op ≠ .server .wake → s'.d.rd = .gate M) := by
  have ho := openBack hcons hnc hns hcl hsc h hop hst hdial hc hd
  obtain ⟨hinv, _, h2, _, _, _, _, x⟩ := open_live hcons hnc hns hcl hsc hstc hsts h ho
  constructor
  · rintro rfl
    simp only [sstep, Op.reads, Bool.false_eq_true, if_false] at hst
    obtain ⟨t, ht, rfl⟩ := Option.map_eq_some_iff.mp hst
    exact EmitBoth.fate_wake hsts hinv.rd x.symm h2 hg hm hheard ht hd
  · intro hne
    cases op with
    | client op =>
      simp only [sstep] at hst
      split at hst
      · cases hst
      · obtain ⟨t, ht, rfl⟩ := Option.map_eq_some_iff.mp hst
        exact hg
    | server op =>
      simp only [sstep] at hst
      split at hst
      · cases hst
      · obtain ⟨t, ht, rfl⟩ := Option.map_eq_some_iff.mp hst
        exact (EmitBoth.side_rd (fun e => hne (by rw [e])) hsts hns (srv_side hsc hop.1 x.okT.acked) x.symm ht hd).trans hg
    | up =>
      simp only [sstep] at hst
      split at hst
      · cases hst
      · obtain ⟨t, ht, rfl⟩ := Option.map_eq_some_iff.mp hst
        have := (recv_idle ht).1
        rw [hg] at this
        cases this
    | down =>
      simp only [sstep] at hst
      split at hst
      · cases hst
      · obtain ⟨t, ht, rfl⟩ := Option.map_eq_some_iff.mp hst
        exact hg
    | upAsk i => exact (show False from hop.1).elim
    | downAsk i => exact (show False from hop.1).elim

/-- C106: and so does one that the client holds back. -/
theorem c106_held_down {op : SessOp} {M : Message} (hcons : BothConsistent cc sc) (hnc : cc.allowNative = false)
    (hns : sc.allowNative = false) (hcl : cc.isClient = true) (hsc : sc.isClient = false) (hstc : StillSide cc)
    (hsts : StillSide sc) (h : RuledRun cc sc id ops s) (hdial : s.c.ready = some none) (hg : s.c.rd = .gate M)
    (hm : AskMsg m) (hheard : Heard m [] M) (hop : RuledRequests s op) (hst : sstep cc sc s op = some s')
    (hc : s'.c.closed = false) (hd : s'.d.closed = false) :
    (op = .client .wake → Runs s.c s'.c m ∧ s'.c.rd = .idle) ∧ (op ≠ .client .wake → s'.c.rd = .gate M) := by
  have ho := openBack hcons hnc hns hcl hsc h hop hst hdial hc hd
  obtain ⟨hinv, h1, _, _, _, _, _, x⟩ := open_live hcons hnc hns hcl hsc hstc hsts h ho
  constructor
  · rintro rfl
    simp only [sstep, Op.reads, Bool.false_eq_true, if_false] at hst
    obtain ⟨t, ht, rfl⟩ := Option.map_eq_some_iff.mp hst
    exact EmitBoth.fate_wake hstc hinv.rc x h1 hg hm hheard ht hc
  · intro hne
    cases op with
    | server op =>
      simp only [sstep] at hst
      split at hst
      · cases hst
      · obtain ⟨t, ht, rfl⟩ := Option.map_eq_some_iff.mp hst
        exact hg
    | client op =>
      simp only [sstep] at hst
      split at hst
      · cases hst
      · obtain ⟨t, ht, rfl⟩ := Option.map_eq_some_iff.mp hst
        have hna : op ≠ .sendAck := by
          rintro rfl
          have hl : s.c.log = [] := hop.1
          rcases hinv.phase with k | k | k
          · rw [ho.cli] at k; cases k
          · rw [ho.srv] at k; cases k
          · cases k with
            | greet k => rw [k.ready] at hdial; cases hdial
            | held k => rw [k.ready] at hdial; cases hdial
            | acked b l1 l2 O I X Y k => rw [k.ready] at hdial; cases hdial
            | live O I X Y k => exact k hl
        exact (EmitBoth.side_rd (fun e => hne (by rw [e])) hstc hnc (cli_side hcl hop.1 hna) x ht hc).trans hg
    | down =>
      simp only [sstep] at hst
      split at hst
      · cases hst
      · obtain ⟨t, ht, rfl⟩ := Option.map_eq_some_iff.mp hst
        have := (recv_idle ht).1
        rw [hg] at this
        cases this
    | up =>
      simp only [sstep] at hst
      split at hst
      · cases hst
      · obtain ⟨t, ht, rfl⟩ := Option.map_eq_some_iff.mp hst
        exact hg
    | upAsk i => exact (show False from hop.1).elim
    | downAsk i => exact (show False from hop.1).elim

/-! ## Concrete sessions -/

theorem ruled_up {before ops rest : List SessOp} (hops : ops = before ++ .client (.write m) :: rest)
    (h1 : (ruledRun cc sc (newSess cc sc id) before).isSome = true)
    (h2 : (sstep cc sc (ruledRan cc sc id before) (.client (.write m))).isSome = true)
    (h3 : (pipe (stepped cc sc (ruledRan cc sc id before) (.client (.write m))).c.log).length = n + 1)
    (h4 : (pipe (ruledRan cc sc id before).c.log).length = n) : RuledUp cc sc id ops m n :=
  ⟨before, _, _, ⟨rest, by rw [hops]; simp⟩, ruledRan_run h1, stepped_eq h2, h4, h3⟩

theorem ruled_down {before ops rest : List SessOp} (hops : ops = before ++ .server (.write m) :: rest)
    (h1 : (ruledRun cc sc (newSess cc sc id) before).isSome = true)
    (h2 : (sstep cc sc (ruledRan cc sc id before) (.server (.write m))).isSome = true)
    (h3 : (pipe (stepped cc sc (ruledRan cc sc id before) (.server (.write m))).d.log).length = n + 1)
    (h4 : (pipe (ruledRan cc sc id before).d.log).length = n) : RuledDown cc sc id ops m n :=
  ⟨before, _, _, ⟨rest, by rw [hops]; simp⟩, ruledRan_run h1, stepped_eq h2, h4, h3⟩

abbrev rran (ops : List SessOp) : Sess := ruledRan pickyCli pickySrv (b! "u1") ops

/-- the client emits in `chat` while the server leaves `chat`; a Connect of each side is in flight as well -/
def leaveBefore : List SessOp :=
  chatUp ++ [.server (.connect (b! "game") 8 false), .server (.disconnect 0 9 false), .client (.connect (b! "quiz") 10 false)]

def leaveUp : List SessOp := leaveBefore ++ [.client (.write hiMsg), .up]

/-- C106, up: the hypotheses hold with three calls in flight; the callback runs -/
example : BothConsistent pickyCli pickySrv ∧ StillSide pickyCli ∧ StillSide pickySrv ∧
    RuledRun pickyCli pickySrv (b! "u1") leaveUp (rran leaveUp) ∧ RuledUp pickyCli pickySrv (b! "u1") leaveUp hiMsg 3 ∧
    AskMsg hiMsg ∧ (rran leaveUp).up = 3 ∧ (rran leaveUp).c.ready = some none ∧
    sstep pickyCli pickySrv (rran leaveUp) .up = some (stepped pickyCli pickySrv (rran leaveUp) .up) ∧
    (stepped pickyCli pickySrv (rran leaveUp) .up).c.closed = false ∧
    (stepped pickyCli pickySrv (rran leaveUp) .up).d.closed = false ∧
    ((rran leaveUp).c.asks.filter fun a => !a.done).length = 1 ∧ ((rran leaveUp).d.asks.filter fun a => !a.done).length = 2 ∧
    ranOn (stepped pickyCli pickySrv (rran leaveUp) .up).d = ranOn (rran leaveUp).d ++ [(b! "hi", b! "x")] :=
  ⟨picky_consistent, picky_still.1, picky_still.2, ruledRan_run (by decide +kernel), ruled_up (rest := [.up]) rfl (by decide +kernel)
      (by decide +kernel) (by decide +kernel) (by decide +kernel), hi_ask, by decide +kernel, by decide +kernel, stepped_eq (by decide +kernel),
    by decide +kernel, by decide +kernel, by decide +kernel, by decide +kernel, by decide +kernel⟩

abbrev hiGame : Message := { ns := b! "game", event := b! "hi", body := b! "x" }

theorem hiGame_ask : AskMsg hiGame :=
  ⟨oneOk_safe (by decide +kernel), oneOk_safe (by decide +kernel), oneOk_safe (by decide +kernel),
    by unfold isRequest; decide +kernel⟩

/-- the client accepts the server's Connect to `game` and emits there at once; the server reads the answer, and then the event -/
def soonBefore : List SessOp := chatUp ++ [.server (.connect (b! "game") 8 false), .client (.connect (b! "quiz") 10 false), .down]

def soonUp : List SessOp := soonBefore ++ [.client (.write hiGame), .up, .up]

abbrev soonHeld : Sess := stepped pickyCli pickySrv (rran soonUp) .up

/-- C106, up: the hypotheses hold; the server holds the event back for its Connect -/
example : RuledRun pickyCli pickySrv (b! "u1") soonUp (rran soonUp) ∧ RuledUp pickyCli pickySrv (b! "u1") soonUp hiGame 4 ∧
    AskMsg hiGame ∧ (rran soonUp).up = 4 ∧ sstep pickyCli pickySrv (rran soonUp) .up = some soonHeld ∧
    soonHeld.c.closed = false ∧ soonHeld.d.closed = false ∧
    (match soonHeld.d.rd with | .gate M => M.ns == b! "game" | _ => false) = true ∧ (rran soonUp).d.namespace (b! "game") = none ∧
    ranOn soonHeld.d = ranOn (rran soonUp).d :=
  ⟨ruledRan_run (by decide +kernel), ruled_up (rest := [.up, .up]) rfl (by decide +kernel)
      (by decide +kernel) (by decide +kernel) (by decide +kernel), hiGame_ask, by decide +kernel, stepped_eq (by decide +kernel),
    by decide +kernel, by decide +kernel, by decide +kernel, by decide +kernel, by decide +kernel⟩

/-- C106, held: when the Connect has returned the reader goes on, and the callback runs -/
example : (srun pickyCli pickySrv soonHeld [.server (.resume 0), .server .wake]).map (fun s => (decide (s.d.rd = .idle), ranOn s.d)) =
    some (true, ranOn soonHeld.d ++ [(b! "_OnNamespaceConnected", []), (b! "hi", b! "x")]) := by decide +kernel

/-- the server emits in `chat` before the client has left it, and emits in `game` when it has accepted the client's Connect to it -/
def downB : List SessOp :=
  chatUp ++ [.client (.disconnect 0 8 false), .server (.write hiMsg), .server (.connect (b! "quiz") 8 false)]

/-- C106, down: the hypotheses hold with the Disconnect of the client in flight; the callback runs -/
example : RuledRun pickyCli pickySrv (b! "u1") downB (rran downB) ∧ RuledDown pickyCli pickySrv (b! "u1") downB hiMsg 2 ∧
    (rran downB).down = 2 ∧ (rran downB).c.ready = some none ∧
    sstep pickyCli pickySrv (rran downB) .down = some (stepped pickyCli pickySrv (rran downB) .down) ∧
    (stepped pickyCli pickySrv (rran downB) .down).c.closed = false ∧
    (stepped pickyCli pickySrv (rran downB) .down).d.closed = false ∧ Leaving (rran downB).c (b! "chat") ∧
    ranOn (stepped pickyCli pickySrv (rran downB) .down).c = ranOn (rran downB).c ++ [(b! "hi", b! "x")] :=
  ⟨ruledRan_run (by decide +kernel), ruled_down (before := chatUp ++ [.client (.disconnect 0 8 false)])
      (rest := [.server (.connect (b! "quiz") 8 false)]) rfl (by decide +kernel)
      (by decide +kernel) (by decide +kernel) (by decide +kernel), by decide +kernel, by decide +kernel, stepped_eq (by decide +kernel),
    by decide +kernel, by decide +kernel, leavingB_iff.mp (by decide +kernel), by decide +kernel⟩

/-- C106, held: the hypotheses of the held event hold on the side of the client too -/
example : (match earlyRan.c.rd with | .gate M => M.ns == b! "chat" | _ => false) = true ∧
    (srun pickyCli pickySrv earlyRan [.client (.resume 0), .client .wake]).map (fun s => ranOn s.c) =
      some (ranOn earlyRan.c ++ [(b! "_OnNamespaceConnected", []), (b! "hi", b! "x")]) :=
  ⟨by decide +kernel, by decide +kernel⟩

end Neffos
