import Verif.Spec.Wind
import Verif.Props.LeakExact
/-!
# C136: whatever is under way at a server comes to its end
-/
set_option autoImplicit false
namespace Neffos
open Spec

variable {cfg : LCfg} {s s' : LSt} {ops : List LOp}

namespace Wind

theorem sum_set {α : Type} (f : α → Nat) {l : List α} {i : Nat} {x : α} (y : α) (h : l[i]? = some x) :
    ((l.set i y).map f).sum + f x = (l.map f).sum + f y := by
  induction l generalizing i with
  | nil => cases h
  | cons a l ih =>
    cases i with
    | zero => cases h; simp only [List.set_cons_zero, List.map_cons, List.sum_cons]; omega
    | succ i =>
      have := ih (i := i) (by simpa using h)
      simp only [List.set_cons_succ, List.map_cons, List.sum_cons]; omega

theorem regs_le (hr : LReach cfg s) : s.regs.length ≤ s.conns.length := by
  have hp : s.regs.Perm ((List.range s.conns.length).filter fun c => decide (c ∈ s.regs)) := by
    rw [List.perm_ext_iff_of_nodup (lreach_nodup hr) (List.nodup_range.filter _)]
    intro c
    simp only [List.mem_filter, List.mem_range, decide_eq_true_eq]
    refine ⟨fun h => ⟨?_, h⟩, fun h => h.2⟩
    have := made_some (s := s) (c := c) (.inr (regs_sent hr h))
    exact (List.getElem?_eq_some_iff.mp this).1
  rw [hp.length_eq]
  exact Nat.le_trans (List.length_filter_le ..) (by simp)

theorem less {op : LOp} (hr : LReach cfg s) (hx : LNext cfg s op s') (ho : UnderWay op = true) : serverWork s' < serverWork s := by
  have hn := regs_le hr
  have hpl := lreach_placed hr
  have setc : ∀ {c : Nat} {x : LConn} (y : LConn), s.conns[c]? = some x →
      connsWork (s.conns.set c y) + (upWork x + discWork x) = connsWork s.conns + (upWork y + discWork y) :=
    fun y h => sum_set (fun x => upWork x + discWork x) y h
  have setk : ∀ {k : Nat} {x : LCall} (y : LCall), s.calls[k]? = some x →
      callsWork s.conns.length (s.calls.set k y) + callWork s.conns.length x =
        callsWork s.conns.length s.calls + callWork s.conns.length y :=
    fun y h => sum_set _ y h
  have quiet : ∀ {c : Nat} {x : LConn}, s.conns[c]? = some x → x.cl ≠ .told → x.disc = .none := by
    intro c x h hcl
    have := (hpl c).told
    rw [conn_of h] at this
    exact this.mpr hcl
  cases hx <;> try (cases ho; done)
  case upRefuse c x h hu hf =>
    have := setc { x with up := .refused } h
    simp only [serverWork, LSt.setC, List.length_set, upWork, discWork, hu] at this ⊢; omega
  case upPass c x h hu hf =>
    have := setc { x with up := .send } h
    simp only [serverWork, LSt.setC, List.length_set, upWork, discWork, hu] at this ⊢; omega
  case upSend c x h hu hb =>
    have := setc { x with up := .sent } h
    simp only [serverWork, LSt.setC, List.length_set, upWork, discWork, hu, hb, bufWork] at this ⊢; omega
  case closer c x h hc =>
    have := setc { x with cl := .told, disc := .sending } h
    have hd := quiet h (by simp [hc])
    simp only [serverWork, LSt.setC, List.length_set, upWork, discWork, hd, hc, reduceCtorEq, if_false] at this ⊢; omega
  case casFail k x h hp hf =>
    have := setk { x with pc := .ret } h
    simp only [serverWork, LSt.setK, callWork, hp] at this ⊢; omega
  case casWin k x h hp hf =>
    have := setk { x with pc := .send } h
    simp only [serverWork, LSt.setK, callWork, hp] at this ⊢; omega
  case actShut k c rest x y hl h hc hk hop =>
    have := setc { y with cl := .firing true } hc
    have hd := quiet hc (by simp [hop])
    simp only [serverWork, LSt.setC, List.length_set, upWork, discWork, hd, hop, hl, loopWork, List.length_cons, reduceCtorEq,
      if_false, if_true] at this ⊢; omega
  case shut k c rest y hl hc =>
    have := setc { y with cl := .told, disc := .sending } hc
    have hf := (hpl c).shuts.mp (by rw [hl]; rfl)
    rw [conn_of hc] at hf
    have hd := quiet hc (by simp [hf])
    simp only [serverWork, LSt.setC, List.length_set, upWork, discWork, hd, hf, hl, loopWork, reduceCtorEq,
      if_false] at this ⊢; omega
  case done k x hl h hp =>
    have := setk { x with pc := .ret } h
    simp only [serverWork, LSt.setK, callWork, hp, hl, loopWork] at this ⊢; omega
  case recvConnect c hl hb =>
    simp only [serverWork, hl, hb, loopWork, bufWork]; omega
  case recvDrop c x hl h hd hm =>
    have := setc { x with disc := .served } h
    simp only [serverWork, LSt.setC, List.length_set, upWork, discWork, hd, hl, loopWork] at this ⊢; omega
  case recvIgnore c x hl h hd hm =>
    have := setc { x with disc := .served } h
    simp only [serverWork, LSt.setC, List.length_set, upWork, discWork, hd, hl, loopWork] at this ⊢; omega
  case recvCast k x order hl h hp hperm hk =>
    have := setk { x with pc := .ret } h
    have := hperm.length_eq
    simp only [serverWork, LSt.setK, callWork, hp, hl, loopWork] at *; omega
  case recvAct k x order hl h hp hperm hk =>
    have h1 := setk { x with pc := if x.kind.sync then .wait else .ret } h
    have h2 := hperm.length_eq
    have hz : callWork s.conns.length { x with pc := if x.kind.sync then .wait else .ret } = 0 := by
      cases e : x.kind.sync <;> rfl
    have hy : callWork s.conns.length x = 2 * s.conns.length + 3 := by simp [callWork, hp]
    rw [hz, hy] at h1
    simp only [serverWork, LSt.setK, hl, loopWork]; omega
  all_goals
    simp only [serverWork, loopWork, List.length_cons, List.length_nil, *]; omega

end Wind

/-- C136: the goroutines of a server take no more steps than there is work. -/
theorem c136_bound (hr : LReach cfg s) (h : s.run cfg ops = some s') (ho : ∀ op ∈ ops, UnderWay op = true) :
    ops.length + serverWork s' ≤ serverWork s := by
  induction ops generalizing s with
  | nil => cases h; simp
  | cons op ops ih =>
    simp only [LSt.run] at h
    split at h
    · rename_i t ht
      have h1 := Wind.less hr (lnext_of_step ht) (ho _ (List.mem_cons_self ..))
      have h2 := ih (lreach_run (ops := [op]) hr (by simp [LSt.run, ht])) h (fun o hm => ho o (List.mem_cons_of_mem _ hm))
      simp only [List.length_cons]
      omega
    · cases h

/-- C136: where they have come to an end, whatever their order was, nothing is stuck: the loop waits at its `select`, every Upgrade
is refused or has registered its connection, every connection is open or the loop was told that it is closed, and every call of
Server.Close, Do and Broadcast has returned. -/
theorem c136_end (hr : LReach cfg s) (hend : ∀ op, UnderWay op = true → s.step cfg op = none) :
    Settled s ∧ (∀ x ∈ s.conns, x.up = .refused ∨ x.up = .sent) ∧ ∀ x ∈ s.calls, x.pc = .ret := by
  have hl : s.loop = .sel := by
    by_cases e : s.loop = .sel
    · exact e
    · obtain ⟨t, ht, _⟩ := loop_moves hr e
      rw [hend .loop rfl] at ht; cases ht
  have hb : s.buf = none := by
    cases e : s.buf with
    | none => rfl
    | some c =>
      have := hend .recvConnect rfl
      simp [LSt.step, hl, LSt.recvStep, e] at this
  have hup : ∀ (c : Nat) (x : LConn), s.conns[c]? = some x → x.up = .refused ∨ x.up = .sent := by
    intro c x hc
    have := hend (.up c) rfl
    simp only [LSt.step, LSt.upStep, hc, hb] at this
    cases e : x.up <;> simp [e] at this ⊢
  have hpl := lreach_placed hr
  refine ⟨⟨hl, hb, fun c => ?_⟩, fun x hx => ?_, fun x hx => ?_⟩
  · cases hc : s.conns[c]? with
    | none => simp [LSt.conn, hc]
    | some x =>
      rw [conn_of hc]
      refine ⟨.inr (hup c x hc), ?_, fun hd => ?_⟩
      · cases e : x.cl with
        | «open» => exact .inl rfl
        | told => exact .inr rfl
        | firing b =>
          cases b with
          | false =>
            have := hend (.closer c) rfl
            simp [LSt.step, hc, e] at this
          | true =>
            have := (hpl c).shuts.mpr (by rw [conn_of hc]; exact e)
            rw [hl] at this; cases this
      · have := hend (.recvDisc c) rfl
        simp only [LSt.step, hl, if_true, LSt.recvStep, hc, hd] at this
        split at this <;> cases this
  · obtain ⟨c, hc⟩ := List.getElem?_of_mem hx
    exact hup c x hc
  · obtain ⟨k, hk⟩ := List.getElem?_of_mem hx
    cases e : x.pc with
    | ret => rfl
    | cas =>
      have := hend (.caller k) rfl
      simp only [LSt.step, LSt.callerStep, hk, e] at this
      split at this <;> cases this
    | send =>
      have := hend (.recvCall k s.regs) rfl
      have hq : s.regs.isPerm s.regs = true := List.isPerm_iff.mpr (List.Perm.refl _)
      simp only [LSt.step, hl, if_true, LSt.recvStep, hk, e, hq, and_self] at this
      split at this <;> cases this
    | wait =>
      have := ((lreach_called hr).each k x hk).wait e
      rw [hl] at this; cases this.1

/-- C136: and they do come to an end, from every state. -/
theorem c136_ends (hr : LReach cfg s) : ∃ ops t, (∀ op ∈ ops, UnderWay op = true) ∧ ops.length ≤ serverWork s ∧
    s.run cfg ops = some t ∧ ∀ op, UnderWay op = true → t.step cfg op = none := by
  generalize hn : serverWork s = n
  induction n using Nat.strongRecOn generalizing s with
  | ind n ih =>
    by_cases he : ∀ op, UnderWay op = true → s.step cfg op = none
    · exact ⟨[], s, by simp, by simp, rfl, he⟩
    · obtain ⟨op, h⟩ := Classical.not_forall.mp he
      obtain ⟨ho, hs⟩ := Classical.not_imp.mp h
      cases ht : s.step cfg op with
      | none => exact absurd ht hs
      | some u =>
        have hlt := Wind.less hr (lnext_of_step ht) ho
        obtain ⟨ops, t, h1, h2, h3, h4⟩ := ih _ (hn ▸ hlt) (lreach_run (ops := [op]) hr (by simp [LSt.run, ht])) rfl
        refine ⟨op :: ops, t, fun o hm => ?_, by simp only [List.length_cons]; omega, by simp only [LSt.run, ht]; exact h3, h4⟩
        rcases List.mem_cons.mp hm with e | e
        · exact e ▸ ho
        · exact h1 o e

/-- a Close, a Broadcast, a closed connection and an Upgrade are under way; after twenty steps nothing is -/
def windOps : List LOp :=
  [.loop, .upgrade, .up 0, .up 0, .recvConnect, .loop, .upgrade, .up 1, .call .close, .call .cast, .close 0]

def windEnd : List LOp :=
  [.closer 0, .caller 0, .up 1, .recvCall 1 [0], .loop, .loop, .recvConnect, .loop, .recvCall 0 [1, 0], .loop, .loop, .loop, .loop,
    .loop, .recvDisc 0, .loop, .loop, .recvDisc 1, .loop, .loop]

example : LReach {} (lafter {} windOps) ∧ serverWork (lafter {} windOps) = 29 ∧ (∀ op ∈ windEnd, UnderWay op = true) ∧
    (lafter {} windOps).run {} windEnd = some (lafter {} (windOps ++ windEnd)) ∧ windEnd.length = 20 ∧
    (lafter {} (windOps ++ windEnd)).regs = [] ∧ serverWork (lafter {} (windOps ++ windEnd)) = 0 := by
  refine ⟨lafter_reach (by decide +kernel), ?_, ?_, ?_, ?_, ?_, ?_⟩ <;> decide +kernel

/-- so the premise of `c136_end` holds there -/
example : ∀ op, UnderWay op = true → (lafter {} (windOps ++ windEnd)).step {} op = none := by
  intro op ho
  cases h : (lafter {} (windOps ++ windEnd)).step {} op with
  | none => rfl
  | some t =>
    have := Wind.less (cfg := {}) (lafter_reach (by decide +kernel)) (lnext_of_step h) ho
    rw [show serverWork (lafter {} (windOps ++ windEnd)) = 0 by decide +kernel] at this
    omega

end Neffos
