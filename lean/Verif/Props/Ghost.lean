import Verif.Props.Headcount
import Verif.Props.Apart
/-!
# C138: nothing comes to a connection that is closed
-/
set_option autoImplicit false
namespace Neffos
open Spec

variable {cfg : NetCfg} {s s' : Net} {ops : List NetOp} {c : Nat}

namespace Ghost

theorem one {op : NetOp} (hc : (s.sess c).d.closed = true) (h : s.step cfg op = some s') (hop : ∀ o, op ≠ .sess c o) :
    s'.sess c = s.sess c := by
  have h1 := Apart.one (d := c) h
  have hq : ∀ l, (∀ a ∈ l, ∀ o, a ≠ Comes.own o) →
      Apart.takes (cfg.cc c) (cfg.sc c) (s.sess c) l = some (s.sess c) := by
    intro l hl
    induction l with
    | nil => rfl
    | cons a l ih =>
      have ha : Apart.take (cfg.cc c) (cfg.sc c) (s.sess c) a = some (s.sess c) := by
        cases a with
        | own o => exact absurd rfl (hl _ (List.mem_cons_self ..) o)
        | cast ms => simp only [Apart.take, publish_closed _ _ hc]
        | shut => simp only [Apart.take, closeConn, if_pos hc]
      simp only [Apart.takes, ha]
      exact ih fun b hb => hl b (List.mem_cons_of_mem _ hb)
  rw [hq _ ?_] at h1
  · exact (Option.some.inj h1).symm
  · intro a ha o e
    subst e
    cases op with
    | sess d o' =>
      simp only [comesBy] at ha
      split at ha
      · rename_i e; subst e; exact hop o' rfl
      · cases ha
    | loop o' =>
      simp only [comesBy] at ha
      split at ha
      · split at ha <;> simp at ha
      · split at ha <;> simp at ha
      · cases ha

end Ghost

/-- C138: once the server-side connection of a client is closed, nothing that the server or any other client does changes it or
its client: no broadcast, no `Server.Close`, whether it is registered or not. -/
theorem c138_still (hc : (s.sess c).d.closed = true) (h : s.run cfg ops = some s') (hop : ∀ o, .sess c o ∉ ops) :
    s'.sess c = s.sess c := by
  induction ops generalizing s with
  | nil => cases h; rfl
  | cons op ops ih =>
    simp only [Net.run] at h
    split at h
    · rename_i t ht
      have h1 : t.sess c = s.sess c := Ghost.one hc ht (fun o e => hop o (e ▸ List.mem_cons_self ..))
      rw [ih (by rw [h1]; exact hc) h (fun o hm => hop o (List.mem_cons_of_mem _ hm)), h1]
    · cases h

/-- C138: whatever happens, the client will read no more than was in the socket then, and after that answers without content and
bytes of the handshake. -/
theorem c138_last (hr : NetReach cfg s) (hc : (s.sess c).d.closed = true) (h : s.run cfg ops = some s') :
    (s'.sess c).d.closed = true ∧ ∃ l, pipe (s'.sess c).d.log = pipe (s.sess c).d.log ++ l ∧
      ∀ p ∈ l, p.1 = .text ∧ Curtain.Hush p.2 := by
  obtain ⟨h1, l, h2, h3⟩ := Curtain.quiet_run (netReach_ok hr) hc h
  refine ⟨h1, pipe l, by rw [h2, pipe_append], ?_⟩
  clear h2
  induction l with
  | nil => intro p hp; cases hp
  | cons o l ih =>
    have hl := ih fun bi b ok hm => h3 bi b ok (List.mem_cons_of_mem _ hm)
    intro p hp
    unfold pipe at hp
    split at hp
    · cases hp
    · rename_i bi b t e
      cases e
      rcases List.mem_cons.mp hp with e | e
      · have := h3 bi b true (List.mem_cons_self ..)
        subst e
        exact ⟨by simp [this.1], this.2⟩
      · exact hl p e
    · rename_i a t _ e
      cases e
      exact hl p hp

/-! ## A broadcast that the loop brings to a closed connection -/

/-- both clients are registered, and the connection of the first, which is in `chat`, is closed -/
def ghostOps : List NetOp := headOps ++ [.sess 0 (.server .close)]

/-- two broadcasts before the loop learns of it, and one after -/
def ghostMore : List NetOp :=
  [.loop (.call .cast), .loop (.recvCall 0 [1, 0]), .loop .loop, .loop .loop, .loop .loop, .loop (.closer 0), .loop (.call .cast),
    .loop (.recvCall 1 [0, 1]), .loop .loop, .loop .loop, .loop .loop, .loop (.recvDisc 0), .loop .loop, .loop .loop,
    .loop (.call .cast), .loop (.recvCall 2 [1]), .loop .loop, .loop .loop]

example : NetReach paradeCfg (curtainAt ghostOps) ∧
    (curtainAt ghostOps).run paradeCfg ghostMore = some (curtainAt (ghostOps ++ ghostMore)) ∧
    ((curtainAt ghostOps).sess 0).d.closed = true ∧ 0 ∈ (curtainAt ghostOps).loop.regs ∧
    offered 0 (curtainAt (ghostOps ++ ghostMore)).loop.log = [0, 1] ∧ (∀ o, .sess 0 o ∉ ghostMore) ∧
    (pipe ((curtainAt (ghostOps ++ ghostMore)).sess 0).d.log).length = (pipe ((curtainAt headOps).sess 0).d.log).length := by
  obtain ⟨r1, q1⟩ := curtain_runs (a := ghostOps) (b := ghostMore) (by decide +kernel) (by decide +kernel)
  refine ⟨r1, q1, by decide +kernel, by decide +kernel, by decide +kernel, by simp [ghostMore], by decide +kernel⟩

end Neffos
