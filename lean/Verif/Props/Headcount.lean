import Verif.Props.Curtain
import Verif.Props.LeakExact
import Verif.Props.Roster
/-!
# C135: at rest a server counts and lists the clients whose connection is open, and those it has lost track of
-/
set_option autoImplicit false
namespace Neffos
open Spec

variable {cfg : NetCfg} {s s' : Net} {ops : List NetOp} {order : List Nat} {c : Nat}

/-- C135: when nothing is under way, the registered connections are those that `Upgrade` handed over and that are open, and those
whose disconnection overtook their registration. -/
theorem c135_registered (hr : NetReach cfg s) (hs : Settled s.loop) (c : Nat) :
    c ∈ s.loop.regs ↔ (s.loop.conn c).up = .sent ∧ ((s.sess c).d.closed = false ∨ .ignored c ∈ s.loop.log) := by
  rw [c35_settled_partial (netReach_ok hr).loop hs c]
  have := c134_tie hr c
  constructor
  · rintro ⟨h1, h2 | h2⟩
    · refine ⟨h1, .inl ?_⟩
      cases e : (s.sess c).d.closed
      · rfl
      · exact absurd h2 (this.mp e)
    · exact ⟨h1, .inr h2⟩
  · rintro ⟨h1, h2 | h2⟩
    · exact ⟨h1, .inl ((netReach_ok hr).tie c h2)⟩
    · exact ⟨h1, .inr h2⟩

/-- C135: and GetTotalConnections is their number. -/
theorem c135_total (hr : NetReach cfg s) (hs : Settled s.loop) :
    s.loop.count = BitVec.ofNat 64 (((List.range s.loop.conns.length).filter
      (fun c => decide ((s.loop.conn c).up = .sent) && (!(s.sess c).d.closed || decide (.ignored c ∈ s.loop.log)))).length) := by
  rw [c86_count (netReach_ok hr).loop hs]
  congr 3
  funext c
  congr 2
  have := c134_tie hr c
  cases e : (s.sess c).d.closed
  · rw [(netReach_ok hr).tie c e]; rfl
  · rw [decide_eq_false (this.mp e)]; rfl

/-- C135: a connection that is registered at some moment, and not lost already, is registered at any later moment at which nothing
is under way exactly if it is open then. If it is closed then, it was dropped once. -/
theorem c135_later (hr : NetReach cfg s) (hc : c ∈ s.loop.regs) (hi : .ignored c ∉ s.loop.log) (h : s.run cfg ops = some s')
    (hs : Settled s'.loop) :
    (c ∈ s'.loop.regs ↔ (s'.sess c).d.closed = false) ∧
    s'.loop.log.count (.drop c) = (if (s'.sess c).d.closed then 1 else 0) := by
  have hok := netReach_ok hr
  have hr' : NetReach cfg s' := by
    obtain ⟨a, ha⟩ := hr
    refine ⟨a ++ ops, ?_⟩
    have app : ∀ {a : List NetOp} {u v : Net}, u.run cfg a = some v → u.run cfg (a ++ ops) = v.run cfg ops := by
      intro a
      induction a with
      | nil => intro u v h; cases h; rfl
      | cons o a ih =>
        intro u v h
        simp only [Net.run, List.cons_append] at h ⊢
        split at h
        · exact ih h
        · cases h
    rw [app ha]; exact h
  obtain ⟨lops, hl⟩ := Curtain.loop_run hok h
  obtain ⟨l, hlog⟩ := log_run hl
  have hreg : .reg c ∈ s.loop.log := (regs_logged hok.loop).mpr (.inl hc)
  have hi' : .ignored c ∉ s'.loop.log := fun e => ((c86_leak hok.loop hi).mp ⟨lops, _, hl, e⟩).1 hreg
  have hreg' : .reg c ∈ s'.loop.log := by rw [hlog]; exact List.mem_append_left _ hreg
  have hor := (regs_logged (netReach_ok hr').loop).mp hreg'
  have hp := lreach_placed (netReach_ok hr').loop c
  have hup : (s'.loop.conn c).up = .sent := by
    have h1 := hp.sent
    have := List.count_pos_iff.mpr hreg'
    unfold b01 at h1
    split at h1 <;> split at h1 <;> first | assumption | omega
  have hiff : c ∈ s'.loop.regs ↔ (s'.sess c).d.closed = false := by
    rw [c135_registered hr' hs c]
    exact ⟨fun h => h.2.resolve_right hi', fun h => ⟨hup, .inl h⟩⟩
  refine ⟨hiff, ?_⟩
  have h1 := hp.sent
  have h2 := hp.reg
  have hcnt := List.count_pos_iff.mpr hreg'
  have hle : b01 ((s'.loop.conn c).up = .sent) ≤ 1 := by unfold b01; split <;> omega
  cases e : (s'.sess c).d.closed
  · have := List.count_pos_iff.mpr (hiff.mpr e)
    simp only [Bool.false_eq_true, if_false]
    omega
  · have hn : c ∉ s'.loop.regs := fun q => by rw [hiff.mp q] at e; cases e
    have := List.count_eq_zero.mpr hn
    simp only [if_true]
    omega

/-- C135: and GetConnections lists such a connection under its ID exactly if it is open, as long as IDs are not shared. -/
theorem c135_listed (hr : NetReach cfg s) (hc : c ∈ s.loop.regs) (hi : .ignored c ∉ s.loop.log) (h : s.run cfg ops = some s')
    (hs : Settled s'.loop) (ho : order.Perm s'.loop.regs) (hid : OwnId s' c) :
    mapGet (getConnections (roster s' order)) (s'.sess c).d.id = some c ↔ (s'.sess c).d.closed = false := by
  rw [← (c135_later hr hc hi h hs).1]
  exact ⟨fun h => ((c131_connections ho).2 _ _ h).1, fun h => (c131_connections ho).1 c h hid⟩

/-! ## A server with two clients, of which one leaves -/

/-- both are registered and the first is in `chat` -/
def headOps : List NetOp :=
  [.loop .loop, .loop .upgrade, .loop (.up 0), .loop (.up 0), .loop .recvConnect, .loop .loop,
    .loop .upgrade, .loop (.up 1), .loop (.up 1), .loop .recvConnect, .loop .loop] ++
  ([.client .sendAck, .server (.ready none), .up, .down,
    .client (.connect (b! "chat") 7 false), .up, .down, .client (.resume 0)].map (NetOp.sess 0))

/-- the connection of the second is closed and the loop learns of it -/
def headLeaves : List NetOp :=
  [.sess 1 (.server .close), .loop (.closer 1), .loop (.recvDisc 1), .loop .loop, .loop .loop]

/-- the premises, with a connection that stays and one that goes -/
example : ∃ s t, NetReach paradeCfg s ∧ s.loop.regs = [1, 0] ∧ (∀ c, .ignored c ∉ s.loop.log) ∧ s.run paradeCfg headLeaves = some t ∧
    Settled t.loop ∧ t.loop.regs = [0] ∧ (t.sess 0).d.closed = false ∧ (t.sess 1).d.closed = true ∧ t.loop.count = 1 ∧
    OwnId t 0 ∧ mapGet (getConnections (roster t [0])) (t.sess 0).d.id = some 0 := by
  obtain ⟨r1, q1⟩ := curtain_runs (a := headOps) (b := headLeaves) (by decide +kernel) (by decide +kernel)
  have hlog : (curtainAt headOps).loop.log = [.reg 0, .reg 1] := by decide +kernel
  have hregs : (curtainAt (headOps ++ headLeaves)).loop.regs = [0] := by decide +kernel
  have hconns : (curtainAt (headOps ++ headLeaves)).loop.conns =
      [{ up := .sent }, { up := .sent, cl := .told, disc := .served }] := by decide +kernel
  refine ⟨_, _, r1, by decide +kernel, fun c => by rw [hlog]; simp, q1, ⟨by decide +kernel, by decide +kernel, fun c => ?_⟩, hregs,
    by decide +kernel, by decide +kernel, by decide +kernel, ?_, by decide +kernel⟩
  · simp only [LSt.conn, hconns]
    match c with
    | 0 => simp
    | 1 => simp
    | c + 2 => simp
  · intro d hd _
    rw [hregs] at hd
    simpa using hd

/-- The connection is closed after `Upgrade` handed it over, and the loop learns of that first. -/
def headLost : List NetOp :=
  [.loop .loop, .loop .upgrade, .loop (.up 0), .loop (.up 0), .sess 0 (.server .close), .loop (.closer 0), .loop (.recvDisc 0),
    .loop .recvConnect, .loop .loop]

/-- C135: such a connection is counted and listed for ever, although it is closed. -/
theorem c135_lost : ∃ s, NetReach paradeCfg s ∧ Settled s.loop ∧ (s.sess 0).d.closed = true ∧ s.loop.count = 1 ∧
    mapGet (getConnections (roster s [0])) (s.sess 0).d.id = some 0 ∧
    ∀ ops t, s.run paradeCfg ops = some t → 0 ∈ t.loop.regs ∧ (t.sess 0).d.closed = true := by
  obtain ⟨r1, _⟩ := curtain_runs (a := headLost) (b := []) (by decide +kernel) (by decide +kernel)
  have hconns : (curtainAt headLost).loop.conns = [{ up := .sent, cl := .told, disc := .served }] := by decide +kernel
  have hcl : ((curtainAt headLost).sess 0).d.closed = true := by decide +kernel
  refine ⟨_, r1, ⟨by decide +kernel, by decide +kernel, fun c => ?_⟩, hcl, by decide +kernel, by decide +kernel, fun ops t h => ?_⟩
  · simp only [LSt.conn, hconns]
    match c with
    | 0 => simp
    | c + 1 => simp
  · have hok := netReach_ok r1
    obtain ⟨lops, hl⟩ := Curtain.loop_run hok h
    exact ⟨(c86_kept hok.loop (by decide +kernel)).mpr (by decide +kernel) lops _ hl, (Curtain.quiet_run hok hcl h).1⟩

end Neffos
