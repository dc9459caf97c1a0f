import Verif.Props.Headcount
import Verif.Props.Wind
/-!
# C137: the clients of a server cannot keep it busy
-/
set_option autoImplicit false
namespace Neffos
open Spec

variable {cfg : NetCfg} {s s' : Net} {ops : List NetOp}

namespace Spec

/-- the step is one of the server's own goroutines -/
def OwnStep : NetOp → Bool
  | .loop o => UnderWay o
  | .sess _ _ => false

/-- the step makes no new connection and no new call at the server: it is one of the server's own goroutines, one of a client or
of the server-side connection of a client, or it sets the readiness of a connection -/
def NothingNew : NetOp → Prop
  | .loop .upgrade => False
  | .loop (.call _) => False
  | _ => True

end Spec

namespace Dusk

/-- what is not a step of the server's own goroutines leaves no more to do -/
theorem no_more {lc : LCfg} {l l' : LSt} {o : LOp} (hr : LReach lc l) (hx : LNext lc l o l') (h1 : o ≠ .upgrade)
    (h2 : ∀ k, o ≠ .call k) : serverWork l' ≤ serverWork l := by
  by_cases ho : UnderWay o = true
  · exact Nat.le_of_lt (Wind.less hr hx ho)
  · cases hx <;> first | exact absurd rfl ho | exact absurd rfl h1 | exact absurd rfl (h2 _) | skip
    case unwait c x e h hu =>
      have := Wind.sum_set (fun x => upWork x + discWork x) { x with ready := if x.ready = none then some e else x.ready } h
      have e1 : upWork { x with ready := if x.ready = none then some e else x.ready } = upWork x := rfl
      have e2 : discWork { x with ready := if x.ready = none then some e else x.ready } = discWork x := rfl
      simp only [serverWork, connsWork, LSt.setC, List.length_set]
      rw [e1, e2] at this
      omega
    case close c x h hu hop =>
      have := Wind.sum_set (fun x => upWork x + discWork x) { x with cl := .firing false } h
      have e1 : upWork { x with cl := .firing false } = upWork x := rfl
      have hd : x.disc = .none := by
        have := (lreach_placed hr c).told
        rw [conn_of h] at this
        exact this.mpr (by simp [hop])
      have e2 : discWork { x with cl := .firing false } = 5 := by simp [discWork, hd]
      have e3 : discWork x = 6 := by simp [discWork, hd, hop]
      simp only [serverWork, connsWork, LSt.setC, List.length_set]
      rw [e1, e2, e3] at this
      omega

theorem put_no_more {l : LSt} {c : Nat} {x : Sess} (hr : LReach cfg.loop l) :
    serverWork (Net.put cfg { s with loop := l } c x).loop ≤ serverWork l := by
  simp only [Net.put]
  split
  · cases he : l.step cfg.loop (.close c) with
    | none => exact Nat.le_refl _
    | some l' => exact no_more hr (lnext_of_step he) (by simp) (by simp)
  · exact Nat.le_refl _

theorem one {op : NetOp} (hok : NetOk cfg s) (h : s.step cfg op = some s') (hn : NothingNew op) :
    (if OwnStep op then 1 else 0) + serverWork s'.loop ≤ serverWork s.loop := by
  cases op with
  | sess c o =>
    simp only [Net.step] at h
    split at h
    · obtain ⟨x, hx, rfl⟩ := Option.map_eq_some_iff.mp h
      have := put_no_more (s := s) (c := c) (x := x) hok.loop
      simpa [OwnStep] using this
    · cases h
  | loop o =>
    obtain ⟨_, h'⟩ := Parade.loop_step h
    split at h'
    · cases h'
    · rename_i l hl
      have hlr : LReach cfg.loop l := lreach_run (ops := [o]) hok.loop (run_one hl)
      have hw : (if UnderWay o then 1 else 0) + serverWork l ≤ serverWork s.loop := by
        split
        · rename_i ho
          have := Wind.less hok.loop (lnext_of_step hl) ho
          omega
        · have := no_more hok.loop (lnext_of_step hl) (by rintro rfl; exact hn) (by rintro k rfl; exact hn)
          omega
      have hp : ∀ c x, serverWork (Net.put cfg { s with loop := l } c x).loop ≤ serverWork l := fun c x => put_no_more hlr
      show (if UnderWay o = true then 1 else 0) + _ ≤ _
      split at h'
      · cases h'; exact hw
      · cases h'
        exact Nat.le_trans (Nat.add_le_add_left (hp _ _) _) hw
      · cases h'
        exact Nat.le_trans (Nat.add_le_add_left (hp _ _) _) hw

/-- a step of the loop is enabled with the clients if it is without them -/
theorem enabled {o : LOp} (ho : UnderWay o = true) (h : s.step cfg (.loop o) = none) : s.loop.step cfg.loop o = none := by
  cases hl : s.loop.step cfg.loop o with
  | none => rfl
  | some l =>
    cases o <;> try (cases ho; done)
    all_goals
      simp only [Net.step, hl] at h
      split at h <;> cases h

end Dusk

/-- C137: as long as no new connection and no new call is made, the server's own goroutines take no more steps than there is work at
the server, however many steps all the clients and their connections take meanwhile, and whatever these do. -/
theorem c137_bound (hr : NetReach cfg s) (h : s.run cfg ops = some s') (hn : ∀ op ∈ ops, NothingNew op) :
    ops.countP OwnStep + serverWork s'.loop ≤ serverWork s.loop := by
  have hok := netReach_ok hr
  clear hr
  induction ops generalizing s with
  | nil => cases h; simp
  | cons op ops ih =>
    simp only [Net.run] at h
    split at h
    · rename_i t ht
      have h1 := Dusk.one hok ht (hn _ (List.mem_cons_self ..))
      have h2 := ih h (fun o hm => hn o (List.mem_cons_of_mem _ hm)) (net_step hok ht).ok
      rw [List.countP_cons]
      split at h1 <;> simp_all <;> omega
    · cases h

/-- C137: where they have nothing left to do, whatever the clients are doing, every call has returned, every Upgrade is refused or
has registered its connection, and the registered connections are the open ones and those the server lost track of. -/
theorem c137_end (hr : NetReach cfg s) (hend : ∀ op, OwnStep op = true → s.step cfg op = none) :
    s.loop.loop = .sel ∧ (∀ x ∈ s.loop.calls, x.pc = .ret) ∧ (∀ x ∈ s.loop.conns, x.up = .refused ∨ x.up = .sent) ∧
    ∀ c, c ∈ s.loop.regs ↔ (s.loop.conn c).up = .sent ∧ ((s.sess c).d.closed = false ∨ .ignored c ∈ s.loop.log) := by
  obtain ⟨h1, h2, h3⟩ := c136_end (netReach_ok hr).loop (fun o ho => Dusk.enabled ho (hend (.loop o) ho))
  exact ⟨h1.loop, h3, h2, c135_registered hr h1⟩

/-- C137: and the server gets there by itself, from every state, in no more steps than there is work. -/
theorem c137_ends (hr : NetReach cfg s) : ∃ ops t, (∀ op ∈ ops, OwnStep op = true) ∧ ops.length ≤ serverWork s.loop ∧
    s.run cfg ops = some t ∧ ∀ op, OwnStep op = true → t.step cfg op = none := by
  have hok := netReach_ok hr
  clear hr
  generalize hn : serverWork s.loop = n
  induction n using Nat.strongRecOn generalizing s with
  | ind n ih =>
    by_cases he : ∀ op, OwnStep op = true → s.step cfg op = none
    · exact ⟨[], s, by simp, by simp, rfl, he⟩
    · obtain ⟨op, h⟩ := Classical.not_forall.mp he
      obtain ⟨ho, hs⟩ := Classical.not_imp.mp h
      cases ht : s.step cfg op with
      | none => exact absurd ht hs
      | some u =>
        have hnn : NothingNew op := by
          cases op with
          | sess c o => cases ho
          | loop o => cases o <;> first | trivial | cases ho
        have hlt := Dusk.one hok ht hnn
        rw [if_pos ho] at hlt
        obtain ⟨ops, t, h1, h2, h3, h4⟩ := ih (serverWork u.loop) (by omega) (net_step hok ht).ok rfl
        refine ⟨op :: ops, t, fun o hm => ?_, by simp only [List.length_cons]; omega, by simp only [Net.run, ht]; exact h3, h4⟩
        rcases List.mem_cons.mp hm with e | e
        · exact e ▸ ho
        · exact h1 o e

/-! ## Two clients, a Broadcast, and one connection that is closed while the loop is at work -/

def duskOps : List NetOp := headOps ++ [.loop (.call .cast), .loop (.call .cast)]

/-- the first client emits while the loop brings it the broadcasts, the connection of the second is closed -/
def duskMore : List NetOp :=
  [.loop (.recvCall 0 [1, 0]), .loop .loop, .sess 1 (.server .close),
    .sess 0 (.client (.write { ns := b! "chat", event := b! "hi", body := b! "one" })), .loop .loop, .sess 0 .up, .loop .loop,
    .loop (.closer 1), .loop (.recvCall 1 [0, 1]), .sess 0 .down, .loop .loop, .loop .loop, .loop .loop, .loop (.recvDisc 1),
    .loop .loop, .loop .loop, .sess 0 .down]

example : NetReach paradeCfg (curtainAt duskOps) ∧ (curtainAt duskOps).run paradeCfg duskMore = some (curtainAt (duskOps ++ duskMore)) ∧
    duskMore.countP OwnStep = 12 ∧ serverWork (curtainAt duskOps).loop = 26 ∧ serverWork (curtainAt (duskOps ++ duskMore)).loop = 6 ∧
    (curtainAt (duskOps ++ duskMore)).loop.regs = [0] ∧ (heard ((curtainAt (duskOps ++ duskMore)).sess 0).c.log).map (·.body) = [[0], [1]] := by
  obtain ⟨r1, q1⟩ := curtain_runs (a := duskOps) (b := duskMore) (by decide +kernel) (by decide +kernel)
  refine ⟨r1, q1, ?_, ?_, ?_, ?_, ?_⟩ <;> decide +kernel

example : ∀ op ∈ duskMore, NothingNew op := by
  simp [duskMore, NothingNew]

/-- there the server has nothing left to do, as `c137_end` supposes -/
example : ∀ op, OwnStep op = true → (curtainAt (duskOps ++ duskMore)).step paradeCfg op = none := by
  have h1 : (curtainAt (duskOps ++ duskMore)).loop.conns = [{ up := .sent }, { up := .sent, cl := .told, disc := .served }] := by
    decide +kernel
  have h2 : (curtainAt (duskOps ++ duskMore)).loop.calls = [{ kind := .cast, pc := .ret }, { kind := .cast, pc := .ret }] := by
    decide +kernel
  have h3 : (curtainAt (duskOps ++ duskMore)).loop.buf = none := by decide +kernel
  have h4 : (curtainAt (duskOps ++ duskMore)).loop.loop = .sel := by decide +kernel
  generalize curtainAt (duskOps ++ duskMore) = t at *
  intro op ho
  cases op with
  | sess c o => cases ho
  | loop o =>
    have hs : t.loop.step paradeCfg.loop o = none := by
      cases o <;> first
        | cases ho; done
        | simp [LSt.step, LSt.loopStep, LSt.recvStep, h4, h3]; done
        | skip
      case up c => rcases c with _ | _ | c <;> simp [LSt.step, LSt.upStep, h1]
      case closer c => rcases c with _ | _ | c <;> simp [LSt.step, h1]
      case caller c => rcases c with _ | _ | c <;> simp [LSt.step, LSt.callerStep, h2]
      case recvDisc c => rcases c with _ | _ | c <;> simp [LSt.step, h4, LSt.recvStep, h1]
      case recvCall k order => rcases k with _ | _ | k <;> simp [LSt.step, h4, LSt.recvStep, h2]
    cases o <;> first
      | cases ho; done
      | simp only [Net.step, hs]

end Neffos
