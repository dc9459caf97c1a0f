import Verif.Spec.Parade
import Verif.Props.Town
import Verif.Props.Order
import Verif.Props.ServerLoop
/-!
Helper for C129: every session of a server is a run of its own, and the loop serves one broadcast after the other.
-/
set_option autoImplicit false
namespace Neffos.Parade
open Spec

variable {cfg : NetCfg} {s s' : Net} {ops : List NetOp} {U : Nat → List Message} {D : Nat → List (Option Nat × Message)}

theorem ok (h : ParadeRun cfg ops s U D) : NetOk cfg s := by
  induction h with
  | init => exact net_init
  | step _ _ _ hs ih => exact (net_step ih hs).ok

theorem loop_step {o : LOp} (h : s.step cfg (.loop o) = some s') : (∀ c, o ≠ .close c) ∧ (match s.loop.step cfg.loop o with
      | none => none
      | some l =>
        match s.loop.touch o with
        | none => some { s with loop := l }
        | some (.publish c k) =>
          some (Net.put cfg { s with loop := l } c
            { s.sess c with d := (publishMessages (cfg.sc c) (s.sess c).d (cfg.batch k)).1 })
        | some (.shut c) =>
          some (Net.put cfg { s with loop := l } c { s.sess c with d := closeConn (cfg.sc c) (s.sess c).d })) = some s' := by
  cases o <;> first | exact ⟨by simp, h⟩ | simp [Net.step] at h

/-- every session is a run of its own -/
theorem session (hp : Parade cfg) (h : ParadeRun cfg ops s U D) (c : Nat) :
    ∃ os, EventRun (cfg.cc c) (cfg.sc c) (cfg.id c) os (s.sess c) (U c) ((D c).map (·.2)) := by
  induction h with
  | init => exact ⟨[], .init⟩
  | @step ops s s' op U D h hq hl hs ih =>
    obtain ⟨pre, hpre⟩ := ih
    have hok := ok h
    have putc : ∀ {t : Net} {d : Nat} {x : Sess}, (t.put cfg d x).sess c = if c = d then x else t.sess c := fun {_ _ _} => rfl
    have same : s'.sess c = s.sess c → takenFrom s s' c op = [] → givenTo cfg s s' c op = [] → ∃ os,
        EventRun (cfg.cc c) (cfg.sc c) (cfg.id c) os (s'.sess c) (U c ++ takenFrom s s' c op)
          ((D c ++ givenTo cfg s s' c op).map (·.2)) := by
      intro e1 e2 e3
      rw [e1, e2, e3, List.append_nil, List.append_nil]
      exact ⟨pre, hpre⟩
    cases op with
    | sess d o =>
      simp only [Net.step] at hs
      split at hs
      · obtain ⟨x, hx, rfl⟩ := Option.map_eq_some_iff.mp hs
        by_cases e : c = d
        · subst e
          have hx' : sstep (cfg.cc c) (cfg.sc c) (s.sess c) o = some ((s.put cfg c x).sess c) := by
            rw [putc, if_pos rfl]; exact hx
          refine ⟨pre ++ [o], ?_⟩
          have := EventRun.step hpre (hq c o rfl) hx'
          simpa only [takenFrom, givenTo, if_pos, List.map_append, List.map_map, Function.comp_def, List.map_id'] using this
        · refine same ?_ ?_ ?_
          · rw [putc, if_neg e]
          · simp only [takenFrom, if_neg (Ne.symm e)]
          · simp only [givenTo, if_neg (Ne.symm e)]
      · cases hs
    | loop o =>
      obtain ⟨_, h'⟩ := loop_step hs
      split at h'
      · cases h'
      · split at h'
        · rename_i l _ htouch
          cases h'
          exact same rfl rfl (by simp only [givenTo, castFor, htouch])
        · rename_i l _ d k htouch
          cases h'
          by_cases e : c = d
          · subst e
            obtain ⟨m, hm, hpl⟩ := hp.single k
            have hcf : castFor s c (.loop o) = some k := by simp only [castFor, htouch, if_pos]
            have hle := hl c k hcf m (by rw [hm]; simp)
            simp only [givenTo, hcf, takenFrom, putc, if_pos, hm]
            rw [c77_handed]
            simp only [beforeNotFor]
            split
            · refine ⟨pre, ?_⟩
              simpa using hpre
            · have hw := writes_srun (cc := cfg.cc c) [m] (hok.d c)
              simp only [List.map_cons, List.map_nil, srun] at hw
              split at hw
              · rename_i y hy
                cases hw
                refine ⟨pre ++ [.server (.write m)], ?_⟩
                have hb : BothRequests (s.sess c) (.server (.write m)) := hp.town.batches k m (by rw [hm]; simp)
                have := EventRun.step hpre ⟨⟨hb, hle⟩, hpl⟩ hy
                simp only [emitsUp, emitsDown] at this
                simp only [List.map_append, List.map_cons, List.map_nil]
                split
                · rename_i hx; rw [if_pos hx] at this; simpa using this
                · rename_i hx; rw [if_neg hx] at this; simpa using this
              · cases hw
          · refine same ?_ rfl ?_
            · rw [putc, if_neg e]
            · simp only [givenTo, castFor, htouch, if_neg (Ne.symm e)]
        · rename_i l _ d htouch
          cases h'
          by_cases e : c = d
          · subst e
            refine ⟨pre ++ [.server .close], ?_⟩
            have hy : sstep (cfg.cc c) (cfg.sc c) (s.sess c) (.server .close) =
                some { s.sess c with d := closeConn (cfg.sc c) (s.sess c).d } := by
              simp only [sstep, Op.reads, Bool.false_eq_true, if_false, step_close (hok.d c), Option.map_some]
            have hb : EventRequests (s.sess c) (.server .close) := ⟨⟨trivial, trivial⟩, trivial⟩
            have := EventRun.step hpre hb hy
            simp only [emitsUp, emitsDown] at this
            simpa only [givenTo, castFor, htouch, takenFrom, putc, if_pos, List.append_nil] using this
          · refine same ?_ rfl ?_
            · rw [putc, if_neg e]
            · simp only [givenTo, castFor, htouch]

/-! ## One broadcast after the other -/

/-- the broadcasts that a client was given are, in this order, among those served; not the one that has still to be offered to it -/
def Inv (l : LSt) (c : Nat) (casts : List Nat) : Prop :=
  match l.loop with
  | .cast k rest => rest.Nodup ∧ ∃ pre, servedCalls l.log = pre ++ [k] ∧ casts.Sublist (if c ∈ rest then pre else pre ++ [k])
  | _ => casts.Sublist (servedCalls l.log)

theorem Inv.sub {l : LSt} {c : Nat} {casts : List Nat} (h : Inv l c casts) : casts.Sublist (servedCalls l.log) := by
  unfold Inv at h
  split at h
  · obtain ⟨_, pre, e, h⟩ := h
    rw [e]
    split at h
    · exact h.trans (List.sublist_append_left _ _)
    · exact h
  · exact h

theorem Inv.congr {l l' : LSt} {c : Nat} {casts : List Nat} (h : Inv l c casts) (e1 : l'.loop = l.loop) (e2 : l'.log = l.log) :
    Inv l' c casts := by
  unfold Inv at h ⊢
  rw [e1, e2]; exact h

/-- only the loop moves itself and writes its log -/
theorem still {l l' : LSt} {o : LOp} (h : l.step cfg.loop o = some l') (ho : o ≠ .loop) (h1 : o ≠ .recvConnect)
    (h2 : ∀ c, o ≠ .recvDisc c) (h3 : ∀ k r, o ≠ .recvCall k r) : l'.loop = l.loop ∧ l'.log = l.log := by
  cases o with
  | loop => exact absurd rfl ho
  | recvConnect => exact absurd rfl h1
  | recvDisc c => exact absurd rfl (h2 c)
  | recvCall k r => exact absurd rfl (h3 k r)
  | upgrade => cases h; exact ⟨rfl, rfl⟩
  | call k' => cases h; exact ⟨rfl, rfl⟩
  | up c =>
    simp only [LSt.step, LSt.upStep] at h
    split at h
    · cases h
    · split at h
      · cases h; exact ⟨rfl, rfl⟩
      · split at h <;> cases h; exact ⟨rfl, rfl⟩
      · cases h
  | unwait c e =>
    simp only [LSt.step] at h
    split at h
    · cases h
    · split at h <;> cases h; exact ⟨rfl, rfl⟩
  | close c =>
    simp only [LSt.step] at h
    split at h
    · cases h
    · split at h
      · cases h
      · split at h <;> cases h; exact ⟨rfl, rfl⟩
  | closer c =>
    simp only [LSt.step] at h
    split at h
    · cases h
    · split at h <;> cases h; exact ⟨rfl, rfl⟩
  | caller k' =>
    simp only [LSt.step, LSt.callerStep] at h
    split at h
    · cases h
    · split at h
      · split at h <;> cases h <;> exact ⟨rfl, rfl⟩
      · cases h

theorem put_inv {t : Net} {d c : Nat} {x : Sess} {casts : List Nat} (h : Inv t.loop c casts) : Inv (t.put cfg d x).loop c casts := by
  simp only [Net.put]
  split
  · cases he : t.loop.step cfg.loop (.close d) with
    | none => exact h
    | some l =>
      obtain ⟨e1, e2⟩ := still (cfg := cfg) he (by simp) (by simp) (by simp) (by simp)
      exact h.congr e1 e2
  · exact h

theorem served_append (a b : List LEv) : servedCalls (a ++ b) = servedCalls a ++ servedCalls b := by
  unfold servedCalls; rw [List.filterMap_append]

/-- a step of the loop; `g` is what it gives to the connection -/
theorem inv_loop {l l' : LSt} {o : LOp} {c : Nat} {casts g : List Nat} (hnd : l.regs.Nodup) (h : l.step cfg.loop o = some l')
    (hi : Inv l c casts) (hg : ∀ k, l.touch o = some (.publish c k) → g.Sublist [k]) (hg0 : (∀ k, l.touch o ≠ some (.publish c k)) → g = []) :
    Inv l' c (casts ++ g) := by
  have rest : l.touch o = none → (Inv l' c casts → Inv l' c (casts ++ g)) := by
    intro e; rw [hg0 (by simp [e]), List.append_nil]; exact id
  by_cases ho : o = .loop
  · subst ho
    simp only [LSt.step, LSt.loopStep] at h
    have hs := hi.sub
    have nocast : (∀ k d r, l.loop ≠ .cast k (d :: r)) → g = [] := by
      intro hx
      refine hg0 fun k => ?_
      simp only [LSt.touch]
      split
      · rename_i e; exact absurd e (hx _ _ _)
      · split
        · split <;> simp
        · simp
      · simp
    have other : ∀ {p}, l'.loop = p → (∀ k r, p ≠ .cast k r) → (∀ k d r, l.loop ≠ .cast k (d :: r)) →
        servedCalls l'.log = servedCalls l.log → Inv l' c (casts ++ g) := by
      intro p e1 e2 e3 e4
      rw [nocast e3, List.append_nil]
      unfold Inv
      rw [e1]
      split
      · exact absurd rfl (e2 _ _)
      · rw [e4]; exact hs
    split at h
    case h_1 e => cases h; exact other rfl (by simp) (by simp [e]) rfl
    case h_2 e => cases h
    case h_3 e => cases h; exact other rfl (by simp) (by simp [e]) rfl
    case h_4 e => cases h; exact other rfl (by simp) (by simp [e]) rfl
    case h_5 e =>
      split at h
      · cases h
      · split at h
        · split at h
          · cases h; exact other rfl (by simp) (by simp [e]) rfl
          · cases h; exact other rfl (by simp) (by simp [e]) (by simp [served_append, servedCalls])
        · cases h; exact other rfl (by simp) (by simp [e]) rfl
    case h_6 e =>
      cases h
      refine other rfl (by simp) (by simp [e]) ?_
      simp only
      split
      · simp [served_append, servedCalls]
      · rfl
    case h_7 e => cases h; exact other rfl (by simp) (by simp [e]) rfl
    case h_8 k d r e =>
      cases h
      unfold Inv at hi ⊢
      rw [e] at hi
      simp only at hi ⊢
      obtain ⟨hn, pre, e1, e2⟩ := hi
      obtain ⟨hd, hn'⟩ := List.nodup_cons.mp hn
      refine ⟨hn', pre, by rw [served_append, e1]; simp [servedCalls], ?_⟩
      by_cases hc : c = d
      · subst hc
        rw [if_neg hd]
        rw [if_pos (by simp)] at e2
        exact e2.append (hg k (by simp only [LSt.touch, e]))
      · rw [hg0 (by intro k'; simp only [LSt.touch, e]; simp [Ne.symm hc]), List.append_nil]
        simpa [hc] using e2
    case h_9 e =>
      split at h
      · cases h
      · cases h
        refine other (p := _) rfl ?_ (by simp [e]) rfl
        intro k r; split <;> simp
    case h_10 e =>
      split at h
      · split at h
        · cases h; exact other rfl (by simp) (by simp [e]) (by simp [served_append, servedCalls])
        · cases h; exact other rfl (by simp) (by simp [e]) (by simp [served_append, servedCalls])
      · cases h
    case h_11 e =>
      split at h
      · cases h
      · cases h; exact other rfl (by simp) (by simp [e]) rfl
    case h_12 e =>
      split at h
      · cases h
      · split at h
        · cases h; exact other rfl (by simp) (by simp [e]) rfl
        · cases h
  · have ht : l.touch o = none := by cases o <;> first | rfl | exact absurd rfl ho
    refine rest ht ?_
    have hs := hi.sub
    cases o with
    | recvConnect =>
      simp only [LSt.step, LSt.recvStep] at h
      split at h
      · split at h
        · cases h
        · cases h
          unfold Inv
          simpa [served_append, servedCalls] using hs
      · cases h
    | recvDisc d =>
      simp only [LSt.step, LSt.recvStep] at h
      split at h
      · rename_i hsel
        split at h
        · cases h
        · split at h
          · split at h
            · cases h
              unfold Inv LSt.setC
              simpa [served_append, servedCalls] using hs
            · cases h
              unfold Inv LSt.setC
              simp only [hsel]
              simpa [served_append, servedCalls] using hs
          · cases h
      · cases h
    | recvCall k order =>
      simp only [LSt.step, LSt.recvStep] at h
      split at h
      · split at h
        · cases h
        · split at h
          · rename_i hx
            have hperm : order.Perm l.regs := List.isPerm_iff.mp hx.2
            split at h
            · cases h
              unfold Inv LSt.setK
              simp only
              refine ⟨hperm.nodup_iff.mpr hnd, servedCalls l.log, by rw [served_append]; rfl, ?_⟩
              split
              · exact hs
              · exact hs.trans (List.sublist_append_left _ _)
            · cases h
              unfold Inv LSt.setK
              simp only
              rw [served_append]
              exact hs.trans (List.sublist_append_left _ _)
          · cases h
      · cases h
    | loop => exact absurd rfl ho
    | _ =>
      obtain ⟨e1, e2⟩ := still (cfg := cfg) h (by simp) (by simp) (by simp) (by simp)
      exact hi.congr e1 e2

theorem order (hp : Parade cfg) (h : ParadeRun cfg ops s U D) (c : Nat) : Inv s.loop c ((D c).filterMap (·.1)) := by
  induction h with
  | init => exact List.Sublist.refl _
  | @step ops s s' op U D h hq hl hs ih =>
    rw [List.filterMap_append]
    have hnd := lreach_nodup (ok h).loop
    cases op with
    | sess d o =>
      have e : (givenTo cfg s s' c (.sess d o)).filterMap (·.1) = [] := by
        simp only [givenTo]; split <;> simp [List.filterMap_map]
      rw [e, List.append_nil]
      simp only [Net.step] at hs
      split at hs
      · obtain ⟨x, hx, rfl⟩ := Option.map_eq_some_iff.mp hs
        exact put_inv ih
      · cases hs
    | loop o =>
      obtain ⟨_, h'⟩ := loop_step hs
      split at h'
      · cases h'
      · rename_i l hstep
        have key : Inv l c ((D c).filterMap (·.1) ++ (givenTo cfg s s' c (.loop o)).filterMap (·.1)) := by
          refine inv_loop (cfg := cfg) hnd hstep ih ?_ ?_
          · intro k hk
            obtain ⟨m, hm, _⟩ := hp.single k
            simp only [givenTo, castFor, hk, if_pos, hm]
            split <;> simp
          · intro hx
            simp only [givenTo, castFor]
            split
            · rename_i k hk
              split at hk
              · rename_i d k' ht
                split at hk
                · rename_i e; subst e; exact absurd ht (hx _)
                · cases hk
              · cases hk
            · rfl
        split at h'
        · cases h'; exact key
        · cases h'; exact put_inv (t := { s with loop := l }) key
        · cases h'; exact put_inv (t := { s with loop := l }) key

end Neffos.Parade
