import Verif.Props.Parade
/-!
# C133: which broadcasts a new connection misses
-/
set_option autoImplicit false
namespace Neffos
open Spec

variable {cfg : LCfg} {s t u : LSt} {c k : Nat} {order : List Nat} {ops : List LOp} {x : LCall}

namespace Window

/-- what the loop does with a call of Broadcast it receives -/
theorem takes (hs : s.step cfg (.recvCall k order) = some t) :
    s.loop = .sel ∧ t.log = s.log ++ [.served k] ∧ t.regs = s.regs := by
  simp only [LSt.step] at hs
  split at hs
  · rename_i hl
    refine ⟨hl, ?_⟩
    simp only [LSt.recvStep] at hs
    split at hs
    · cases hs
    · split at hs
      · split at hs <;> cases hs <;> exact ⟨rfl, rfl⟩
      · cases hs
  · cases hs

theorem reached (hr : LReach cfg s) (hs : s.step cfg (.recvCall k order) = some t) : LReach cfg t :=
  lreach_run (ops := [.recvCall k order]) hr (by simp [LSt.run, hs])

/-- served to those registered then, and to no others -/
theorem due_iff (hr : LReach cfg s) (hs : s.step cfg (.recvCall k order) = some t) (hu : t.run cfg ops = some u) :
    k ∈ due c u.log ↔ c ∈ s.regs := by
  obtain ⟨_, hlog, _⟩ := takes hs
  obtain ⟨l, hl⟩ := log_run hu
  obtain ⟨y, hy, hc⟩ := due_append (c := c) t.log l
  have h1 := served_le (lreach_run (reached hr hs) hu) k
  rw [hl, hlog] at h1
  simp only [List.count_append, List.count_singleton_self] at h1
  rw [hl, hy, hlog, due_snoc]
  dsimp only
  by_cases hm : c ∈ s.regs
  · simp [(lreach_due hr c).reg.mpr hm, hm]
  · have hn : ¬ registered c s.log = true := fun h => hm ((lreach_due hr c).reg.mp h)
    rw [if_neg hn]
    simp only [hm, iff_false, List.mem_append, not_or]
    refine ⟨fun h => ?_, fun h => ?_⟩
    · have := due_count c k s.log
      have := List.count_pos_iff.mpr h
      omega
    · have := hc k
      have := List.count_pos_iff.mpr h
      omega

theorem apart (hr : LReach cfg s) (hb : s.buf = some c) : c ∉ s.regs := by
  intro hm
  have h := lreach_placed hr c
  have h1 := h.sent
  have h2 := h.reg
  have := List.count_pos_iff.mpr hm
  have h3 : b01 ((s.conn c).up = .sent) ≤ 1 := by unfold b01; split <;> omega
  have h4 : b01 (s.buf = some c) = 1 := by unfold b01; rw [if_pos hb]
  omega

end Window

/-- C133: whatever happens later, the connection is offered a call of Broadcast if and only if it is
registered when the loop receives that call. -/
theorem c133_exact (hr : LReach cfg s) (hs : s.step cfg (.recvCall k order) = some t) (hu : t.run cfg ops = some u) :
    (k ∈ offered c u.log → c ∈ s.regs) ∧ (u.loop = .sel → c ∈ s.regs → k ∈ offered c u.log) := by
  have h := c43_offered (lreach_run (Window.reached hr hs) hu) c
  refine ⟨fun hk => (Window.due_iff hr hs hu).mp ?_, fun hl hm => ?_⟩
  · rw [h.1]
    exact List.mem_append_left _ hk
  · rw [h.2.2 hl]
    exact (Window.due_iff hr hs hu).mpr hm

/-- C133: a connection that `Upgrade` has handed over and that is not dropped yet is registered or is the one in
the channel `connect`, and not both. -/
theorem c133_window (hr : LReach cfg s) (hup : (s.conn c).up = .sent) (hd : LEv.drop c ∉ s.log) :
    (c ∈ s.regs ∧ s.buf ≠ some c) ∨ (s.buf = some c ∧ c ∉ s.regs) := by
  by_cases hb : s.buf = some c
  · exact .inr ⟨hb, Window.apart hr hb⟩
  · refine .inl ⟨?_, hb⟩
    have h := lreach_placed hr c
    have h1 := h.sent
    have h2 := h.reg
    rw [List.count_eq_zero.mpr hd] at h2
    simp only [b01, if_neg hb, if_pos hup] at h1
    exact List.count_pos_iff.mp (by omega)

/-- C133: while a connection is in the channel and a Broadcast waits, it is up to `select` whether the connection
misses that Broadcast for ever or is offered it. -/
theorem c133_either (hr : LReach cfg s) (hl : s.loop = .sel) (hb : s.buf = some c) (hk : s.calls[k]? = some x)
    (hp : x.pc = .send) (hc : x.kind = .cast) :
    (∃ ops t, s.run cfg ops = some t ∧ t.loop = .sel ∧ .served k ∈ t.log ∧
      ∀ later u, t.run cfg later = some u → k ∉ offered c u.log) ∧
    (∃ ops t, s.run cfg ops = some t ∧ t.loop = .sel ∧ k ∈ offered c t.log) := by
  have go : ∀ {v : LSt} {y : LCall}, LReach cfg v → v.loop = .sel → v.calls[k]? = some y → y.pc = .send → y.kind = .cast →
      ∃ w m z, v.step cfg (.recvCall k v.regs) = some w ∧ w.run cfg (List.replicate m .loop) = some z ∧ z.loop = .sel := by
    intro v y hv hvl hvk hvp hvc
    have hs : v.step cfg (.recvCall k v.regs) = some
        { v.setK k { y with pc := .ret } with loop := .cast k v.regs, log := v.log ++ [.served k] } := by
      have hq : v.regs.isPerm v.regs = true := List.isPerm_iff.mpr (List.Perm.refl _)
      simp [LSt.step, hvl, LSt.recvStep, hvk, hvp, hvc, hq]
    obtain ⟨m, z, hz, hzl⟩ := loop_returns (Window.reached hv hs)
    exact ⟨_, m, z, hs, hz, hzl⟩
  refine ⟨?_, ?_⟩
  · obtain ⟨w, m, z, hs, hz, hzl⟩ := go hr hl hk hp hc
    refine ⟨.recvCall k s.regs :: List.replicate m .loop, z, by simp only [LSt.run, hs]; exact hz, hzl, ?_, fun later u hu hko => ?_⟩
    · obtain ⟨l, h⟩ := log_run hz
      rw [h, (Window.takes hs).2.1]
      simp
    · have hwu : w.run cfg (List.replicate m .loop ++ later) = some u := by rw [lrun_append hz]; exact hu
      exact Window.apart hr hb ((c133_exact hr hs hwu).1 hko)
  · have h1 : s.step cfg .recvConnect = some { s with buf := none, regs := c :: s.regs, loop := .inc, log := s.log ++ [.reg c] } := by
      simp [LSt.step, hl, LSt.recvStep, hb]
    generalize hv : ({ s with buf := none, regs := c :: s.regs, loop := .inc, log := s.log ++ [.reg c] } : LSt) = v at h1
    have hrv : LReach cfg v := lreach_run (ops := [.recvConnect]) hr (by simp [LSt.run, h1])
    obtain ⟨n, v', hv', hvl⟩ := loop_returns hrv
    obtain ⟨hk', hg⟩ := loops_keep (k := k) (x := x) (by rw [← hv]; exact hk) hp hv'
    have hg' : v'.regs = v.regs :=
      loops_ind (P := fun q => q.regs = v.regs) (fun q q' h hx => by cases hx <;> exact h) rfl hv'
    obtain ⟨w, m, z, hs, hz, hzl⟩ := go (lreach_run hrv hv') hvl hk' hp hc
    refine ⟨.recvConnect :: (List.replicate n .loop ++ .recvCall k v'.regs :: List.replicate m .loop), z, ?_, hzl, ?_⟩
    · simp only [LSt.run, h1]
      rw [lrun_append hv']
      simp only [LSt.run, hs]
      exact hz
    · exact (c133_exact (lreach_run hrv hv') hs hz).2 hzl (by rw [hg', ← hv]; exact List.mem_cons_self ..)

/-- the premises of `c133_either` and of `c133_window` in both cases: the second of two connections is in the channel -/
example : ∃ s, LReach {} s ∧ s.loop = .sel ∧ s.regs = [0] ∧ s.buf = some 1 ∧ (s.conn 0).up = .sent ∧ (s.conn 1).up = .sent ∧
    LEv.drop 0 ∉ s.log ∧ LEv.drop 1 ∉ s.log ∧ s.calls[0]? = some { kind := .cast, pc := .send } := by
  refine ⟨lafter {} [.loop, .upgrade, .up 0, .up 0, .recvConnect, .loop, .upgrade, .up 1, .up 1, .call .cast],
    lafter_reach (by decide +kernel), ?_, ?_, ?_, ?_, ?_, ?_, ?_, ?_⟩ <;> decide +kernel

/-- the premises of `c133_exact`, with a connection that is offered the call and one that is not -/
example : ∃ s t u, LReach {} s ∧ s.step {} (.recvCall 0 [0]) = some t ∧
    t.run {} [.loop, .loop, .recvConnect, .loop] = some u ∧ u.loop = .sel ∧ u.regs = [1, 0] ∧
    0 ∈ offered 0 u.log ∧ 0 ∉ offered 1 u.log := by
  let a := [LOp.loop, .upgrade, .up 0, .up 0, .recvConnect, .loop, .upgrade, .up 1, .up 1, .call .cast]
  refine ⟨lafter {} a, lafter {} (a ++ [.recvCall 0 [0]]),
    lafter {} (a ++ [.recvCall 0 [0]] ++ [.loop, .loop, .recvConnect, .loop]), lafter_reach (by decide +kernel), ?_, ?_, ?_, ?_, ?_, ?_⟩ <;>
    decide +kernel

/-! ## With its client -/

/-- `Upgrade` has handed the connection over, and its client has joined the namespace, before Broadcast is called -/
def windowOps : List NetOp :=
  [.loop .loop, .loop .upgrade, .loop (.up 0), .loop (.up 0)] ++
  ([.client .sendAck, .server (.ready none), .up, .down,
    .client (.connect (b! "chat") 7 false), .up, .down, .client (.resume 0)].map (NetOp.sess 0))

/-- the Broadcast is called and served, and then the connection is registered -/
def windowCast : List NetOp := [.loop (.call .cast), .loop (.recvCall 0 []), .loop .loop, .loop .recvConnect, .loop .loop]

abbrev windowAt (ops : List NetOp) : Net := ((newNet paradeCfg).run paradeCfg ops).getD (newNet paradeCfg)

/-- C133: a client that is connected to the namespace on both sides before Broadcast is called does not hear it, although both
sides stay open and connected. -/
theorem c133_unheard : ∃ s u, NetReach paradeCfg s ∧ s.run paradeCfg windowCast = some u ∧
    s.loop.calls = [] ∧ (s.loop.conn 0).up = .sent ∧
    (s.sess 0).c.namespace (b! "chat") ≠ none ∧ (s.sess 0).d.namespace (b! "chat") ≠ none ∧
    u.loop.calls = [{ kind := .cast, pc := .ret }] ∧ u.loop.regs = [0] ∧
    (u.sess 0).c.closed = false ∧ (u.sess 0).d.closed = false ∧
    (pipe (u.sess 0).d.log).length = (u.sess 0).down ∧ heard (u.sess 0).c.log = [] ∧
    ∀ ops v, u.loop.run paradeCfg.loop ops = some v → 0 ∉ offered 0 v.log := by
  have h1 : ((newNet paradeCfg).run paradeCfg windowOps).isSome = true := by decide +kernel
  have h2 : ((windowAt windowOps).run paradeCfg windowCast).isSome = true := by decide +kernel
  have hu : (windowAt windowOps).run paradeCfg windowCast =
      some (((windowAt windowOps).run paradeCfg windowCast).getD (newNet paradeCfg)) := by
    cases h : (windowAt windowOps).run paradeCfg windowCast with
    | none => rw [h] at h2; cases h2
    | some r => rfl
  have hs : (newNet paradeCfg).run paradeCfg windowOps = some (windowAt windowOps) := by
    unfold windowAt
    cases h : (newNet paradeCfg).run paradeCfg windowOps with
    | none => rw [h] at h1; cases h1
    | some r => rfl
  refine ⟨windowAt windowOps, _, ⟨windowOps, hs⟩, hu, by decide +kernel, by decide +kernel, by decide +kernel, by decide +kernel,
    by decide +kernel, by decide +kernel, by decide +kernel, by decide +kernel, by decide +kernel, by decide +kernel,
    fun ops v hv => ?_⟩
  intro hk
  let a : List LOp := [.loop, .upgrade, .up 0, .up 0, .call .cast]
  have e0 : LReach paradeCfg.loop (lafter paradeCfg.loop a) := lafter_reach (by decide +kernel)
  have e1 : (lafter paradeCfg.loop a).step paradeCfg.loop (.recvCall 0 []) = some (lafter paradeCfg.loop (a ++ [.recvCall 0 []])) := by
    decide +kernel
  have e2 : (lafter paradeCfg.loop (a ++ [.recvCall 0 []])).run paradeCfg.loop [.loop, .recvConnect, .loop] =
      some (((windowAt windowOps).run paradeCfg windowCast).getD (newNet paradeCfg)).loop := by decide +kernel
  have e3 : (lafter paradeCfg.loop (a ++ [.recvCall 0 []])).run paradeCfg.loop ([.loop, .recvConnect, .loop] ++ ops) = some v := by
    rw [lrun_append e2]; exact hv
  have := (c133_exact e0 e1 e3).1 hk
  revert this
  decide +kernel

end Neffos
