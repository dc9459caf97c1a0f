import Verif.Spec.Brought
import Verif.Props.Ghost
import Verif.Props.Tale
import Verif.Props.Net
/-!
# C140: all that a server brings to one of its clients
-/
set_option autoImplicit false
namespace Neffos
open Spec

namespace Brought

section loop
variable {cfg : LCfg} {s s' : LSt} {c k : Nat}

theorem kind_stable {op : LOp} {x : LCall} (hx : LNext cfg s op s') (h : s.calls[k]? = some x) :
    ∃ y, s'.calls[k]? = some y ∧ y.kind = x.kind := by
  have hset : ∀ {j : Nat} {z w : LCall}, s.calls[j]? = some z → w.kind = z.kind →
      ∃ y, (s.calls.set j w)[k]? = some y ∧ y.kind = x.kind := by
    intro j z w hj hw
    by_cases e : j = k
    · subst e
      rw [h] at hj
      cases hj
      exact ⟨w, by simp [(List.getElem?_eq_some_iff.mp h).1], hw⟩
    · exact ⟨x, by rw [List.getElem?_set_ne e]; exact h, rfl⟩
  cases hx
  case call kd =>
    refine ⟨x, ?_, rfl⟩
    show (s.calls ++ [_])[k]? = _
    rw [List.getElem?_append_left (List.getElem?_eq_some_iff.mp h).1]; exact h
  case casFail h1 _ _ => exact hset h1 rfl
  case casWin h1 _ _ => exact hset h1 rfl
  case done h1 _ => exact hset h1 rfl
  case recvCast h1 _ _ _ => exact hset h1 rfl
  case recvAct h1 _ _ _ => exact hset h1 rfl
  all_goals exact ⟨x, h, rfl⟩

theorem offered_append (c : Nat) (a b : List LEv) : offered c (a ++ b) = offered c a ++ offered c b := List.filterMap_append

/-- only the visit of a connection adds to what was offered -/
theorem offered_step {op : LOp} (hx : LNext cfg s op s') :
    offered c s'.log = offered c s.log ∨ ∃ j rest, offered c s'.log = offered c s.log ++ [j] ∧ op = .loop ∧
      (s.loop = .cast j (c :: rest) ∨ s.loop = .act j (c :: rest)) := by
  cases hx
  case castCons j d rest hl =>
    rw [offered_append]
    by_cases e : d = c
    · subst e; exact .inr ⟨j, rest, by simp [offered], rfl, .inl hl⟩
    · exact .inl (by simp [offered, e])
  case actShut j d rest _ _ hl _ _ _ _ =>
    show offered c (s.log ++ _) = _ ∨ ∃ j rest, offered c (s.log ++ _) = _ ∧ _
    rw [offered_append]
    by_cases e : d = c
    · subst e; exact .inr ⟨j, rest, by simp [offered], rfl, .inr hl⟩
    · exact .inl (by simp [offered, e])
  case actCons j d rest _ _ hl _ _ _ =>
    rw [offered_append]
    by_cases e : d = c
    · subst e; exact .inr ⟨j, rest, by simp [offered], rfl, .inr hl⟩
    · exact .inl (by simp [offered, e])
  all_goals first
    | exact .inl rfl
    | exact .inl (by simp [offered_append, offered])

theorem call_there (hr : LReach cfg s) {j : Nat} (h : s.loop.call = some j) : ∃ x, s.calls[j]? = some x := by
  cases e : s.calls[j]? with
  | none => exact absurd h ((lreach_called hr).absent j e).1
  | some x => exact ⟨x, rfl⟩

theorem offered_there (hr : LReach cfg s) : ∀ k ∈ offered c s.log, ∃ x, s.calls[k]? = some x := by
  obtain ⟨ops, hx⟩ := hr
  refine lrun_placed (P := fun t => ∀ k ∈ offered c t.log, ∃ x, t.calls[k]? = some x) ?_ ⟨[], rfl⟩ (by simp [offered]) hx
  intro t op t' hr h hx k hk
  have key : ∃ x, t.calls[k]? = some x := by
    rcases offered_step (c := c) hx with e | ⟨j, rest, e, _, hl⟩
    · exact h k (e ▸ hk)
    · rw [e] at hk
      rcases List.mem_append.mp hk with hk | hk
      · exact h k hk
      · rw [List.mem_singleton.mp hk]
        exact call_there hr (by rcases hl with e | e <;> rw [e] <;> rfl)
  obtain ⟨x, hx'⟩ := key
  obtain ⟨y, hy, _⟩ := kind_stable hx hx'
  exact ⟨y, hy⟩

/-- the batch that a step brings to `c` -/
def brings (s : LSt) (c : Nat) (op : LOp) : List Nat :=
  match s.touch op with
  | some (.publish d k) => if d = c then [k] else []
  | _ => []

theorem isBroadcast_stable {op : LOp} (hx : LNext cfg s op s') (h : ∃ x, s.calls[k]? = some x) : isBroadcast s' k = isBroadcast s k := by
  obtain ⟨x, h⟩ := h
  obtain ⟨y, hy, e⟩ := kind_stable hx h
  simp only [isBroadcast, h, hy, e]

theorem casts_step {op : LOp} (hr : LReach cfg s) (hx : LNext cfg s op s') :
    (offered c s'.log).filter (isBroadcast s') = (offered c s.log).filter (isBroadcast s) ++ brings s c op := by
  have hold : (offered c s.log).filter (isBroadcast s') = (offered c s.log).filter (isBroadcast s) :=
    List.filter_congr fun k hk => isBroadcast_stable hx (offered_there hr k hk)
  rcases offered_step (c := c) hx with e | ⟨j, rest, e, rfl, hl⟩
  · rw [e, hold]
    have : brings s c op = [] := by
      unfold brings
      split
      · rename_i d k ht
        split
        · rename_i hd
          subst hd
          exfalso
          unfold LSt.touch at ht
          split at ht
          · split at ht
            · rename_i k' d' rest hl
              cases ht
              cases hx <;> simp_all [offered]
            · split at ht
              · split at ht <;> cases ht
              · cases ht
            · cases ht
          · cases ht
        · rfl
      · rfl
    rw [this, List.append_nil]
  · rw [e, List.filter_append, hold]
    congr 1
    have hj := call_there hr (j := j) (by rcases hl with e | e <;> rw [e] <;> rfl)
    obtain ⟨x, hx'⟩ := hj
    have hat := (lreach_called hr).each j x hx'
    rcases hl with hl | hl
    · have hk := (hat.cast _ hl).1
      have h1 : isBroadcast s' j = true := by rw [isBroadcast_stable hx ⟨x, hx'⟩]; simp [isBroadcast, hx', hk]
      simp [List.filter, h1, brings, LSt.touch, hl]
    · have hk := (hat.act _ hl).1
      have h1 : isBroadcast s' j = false := by rw [isBroadcast_stable hx ⟨x, hx'⟩]; simp [isBroadcast, hx', hk]
      have h2 : brings s c .loop = [] := by
        unfold brings LSt.touch
        simp only [hl]
        split
        · rename_i ht
          split at ht
          · split at ht <;> cases ht
          · cases ht
        · rfl
      rw [h2]
      simp [List.filter, h1]

end loop

variable {cfg : NetCfg} {s s' : Net} {c : Nat} {l : List Comes}

theorem reach (h : ApartRun cfg c s l) : NetReach cfg s := by
  induction h with
  | init => exact ⟨[], rfl⟩
  | @step t t' op l _ hs ih =>
    obtain ⟨ops, hx⟩ := ih
    refine ⟨ops ++ [op], ?_⟩
    rw [net_run_append hx]
    simp only [Net.run, hs]

theorem put_same {t : Net} {x : Sess} {d : Nat} : (t.put cfg d x).loop.log = t.loop.log ∧ (t.put cfg d x).loop.calls = t.loop.calls := by
  unfold Net.put
  dsimp only
  split
  · cases e : t.loop.step cfg.loop (.close d) with
    | none => exact ⟨rfl, rfl⟩
    | some u =>
      have hx := lnext_of_step e
      cases hx
      exact ⟨rfl, rfl⟩
  · exact ⟨rfl, rfl⟩

/-- the calls of Broadcast that `c` was offered -/
theorem net_casts {op : NetOp} (hr : NetReach cfg s) (h : s.step cfg op = some s') :
    ((offered c s'.loop.log).filter (isBroadcast s'.loop)).map cfg.batch =
      ((offered c s.loop.log).filter (isBroadcast s.loop)).map cfg.batch ++ batchesIn (comesBy cfg s c op) := by
  have same : ∀ {a b : LSt}, a.log = b.log → a.calls = b.calls →
      (offered c a.log).filter (isBroadcast a) = (offered c b.log).filter (isBroadcast b) := by
    intro a b h1 h2
    rw [h1]
    refine List.filter_congr fun k _ => ?_
    simp only [isBroadcast, h2]
  cases op with
  | sess d o =>
    simp only [Net.step] at h
    split at h
    · obtain ⟨x, hx, rfl⟩ := Option.map_eq_some_iff.mp h
      rw [same (put_same (cfg := cfg) (t := s)).1 (put_same (cfg := cfg) (t := s)).2]
      have : batchesIn (comesBy cfg s c (.sess d o)) = [] := by
        simp only [comesBy]; split <;> rfl
      rw [this, List.append_nil]
    · cases h
  | loop o =>
    obtain ⟨_, h'⟩ := Parade.loop_step h
    split at h'
    · cases h'
    · rename_i u hu
      have hst := casts_step (c := c) (netReach_ok hr).loop (lnext_of_step hu)
      have hb : (brings s.loop c o).map cfg.batch = batchesIn (comesBy cfg s c (.loop o)) := by
        simp only [brings, comesBy]
        split
        · rename_i ht; simp only [ht]; split <;> rfl
        · rename_i ht
          split
          · rename_i ht'; exact absurd ht' (ht _ _)
          · split <;> rfl
          · rfl
      have key : ∀ v : LSt, v.log = u.log → v.calls = u.calls → ((offered c v.log).filter (isBroadcast v)).map cfg.batch =
          ((offered c s.loop.log).filter (isBroadcast s.loop)).map cfg.batch ++ batchesIn (comesBy cfg s c (.loop o)) := by
        intro v h1 h2
        rw [same h1 h2, hst, List.map_append, hb]
      split at h'
      · cases h'; exact key _ rfl rfl
      · cases h'; exact key _ put_same.1 put_same.2
      · cases h'; exact key _ put_same.1 put_same.2

end Brought

variable {cfg : NetCfg} {s : Net} {c : Nat} {l : List Comes}

/-- C140: the batches that come to a client are those of the calls of Broadcast that the loop offered to its connection, in this
order; each call once. -/
theorem c140_batches (h : ApartRun cfg c s l) :
    batchesIn l = ((offered c s.loop.log).filter (isBroadcast s.loop)).map cfg.batch ∧ (offered c s.loop.log).Nodup := by
  refine ⟨?_, (c139_story (netReach_ok (Brought.reach h)).loop c).2⟩
  induction h with
  | init => rfl
  | step h hs ih => rw [Brought.net_casts (Brought.reach h) hs, ← ih]; exact List.filterMap_append

/-- C140: the server closes the connection of a client at most once; from then on it is closed. -/
theorem c140_shut (h : ApartRun cfg c s l) : shutsIn l ≤ 1 ∧ (0 < shutsIn l → (s.sess c).d.closed = true) := by
  induction h with
  | init => simp [shutsIn]
  | @step t t' op l h hs ih =>
    have hr := Brought.reach h
    have hstay : (t.sess c).d.closed = true → (t'.sess c).d.closed = true := fun hc =>
      (Curtain.quiet_run (netReach_ok hr) hc (ops := [op]) (by simp [Net.run, hs])).1
    have happ : shutsIn (l ++ comesBy cfg t c op) = shutsIn l + shutsIn (comesBy cfg t c op) := List.countP_append
    have hnew : shutsIn (comesBy cfg t c op) = 0 ∨
        (shutsIn (comesBy cfg t c op) = 1 ∧ (t.sess c).d.closed = false ∧ (t'.sess c).d.closed = true) := by
      have h1 := Apart.one (d := c) hs
      cases op with
      | sess d o => left; simp only [comesBy]; split <;> rfl
      | loop o =>
        simp only [comesBy] at h1 ⊢
        split
        · left; split <;> rfl
        · rename_i d ht
          rw [ht] at h1
          by_cases e : d = c
          · subst e
            right
            simp only [if_pos] at h1 ⊢
            refine ⟨rfl, ?_, ?_⟩
            · cases e : (t.sess d).d.closed
              · rfl
              · have hcl := (c134_tie hr d).mp e
                exfalso
                apply hcl
                unfold LSt.touch at ht
                split at ht
                · split at ht
                  · cases ht
                  · split at ht
                    · rename_i hy
                      split at ht
                      · rename_i hk
                        cases ht
                        rw [conn_of hy]; exact hk.2
                      · cases ht
                    · cases ht
                  · cases ht
                · cases ht
            · simp only [Apart.takes, Apart.take] at h1
              rw [← Option.some.inj h1]
              exact closeConn_closed _
          · left; simp only [if_neg e]; rfl
        · left; rfl
    rw [happ]
    rcases hnew with e | ⟨e, h2, h3⟩
    · rw [e]; exact ⟨by omega, fun hp => hstay (ih.2 (by omega))⟩
    · have h0 : shutsIn l = 0 := by
        rcases Nat.eq_zero_or_pos (shutsIn l) with h | h
        · exact h
        · rw [ih.2 h] at h2; cases h2
      exact ⟨by omega, fun _ => h3⟩

/-! ## A client that is brought two broadcasts and then closed by Server.Close -/

/-- what comes to the session of `d` along a run -/
def comesAlong (cfg : NetCfg) (s : Net) (d : Nat) : List NetOp → List Comes
  | [] => []
  | op :: ops => comesBy cfg s d op ++ comesAlong cfg ((s.step cfg op).getD s) d ops

theorem apart_along {s' : Net} {ops : List NetOp} (h : ApartRun cfg c s l) (hx : s.run cfg ops = some s') :
    ApartRun cfg c s' (l ++ comesAlong cfg s c ops) := by
  induction ops generalizing s l with
  | nil => cases hx; simpa [comesAlong] using h
  | cons op ops ih =>
    simp only [Net.run] at hx
    split at hx
    · rename_i t ht
      have := ih (.step h ht) hx
      simpa [comesAlong, ht] using this
    · cases hx

def broughtOps : List NetOp :=
  headOps ++
  [.loop (.call .cast), .loop (.call .cast), .loop (.recvCall 1 [1, 0]), .loop .loop, .loop .loop, .loop .loop,
    .loop (.recvCall 0 [0, 1]), .loop .loop, .loop .loop, .loop .loop, .loop (.call .close), .loop (.caller 2),
    .loop (.recvCall 2 [0, 1]), .loop .loop, .loop .loop]

example : ∃ l, ApartRun paradeCfg 0 (curtainAt broughtOps) l ∧ (offered 0 (curtainAt broughtOps).loop.log) = [1, 0, 2] ∧
    batchesIn l = [paradeCfg.batch 1, paradeCfg.batch 0] ∧ shutsIn l = 1 := by
  have hx : (newNet paradeCfg).run paradeCfg broughtOps = some (curtainAt broughtOps) := by
    have h : ((newNet paradeCfg).run paradeCfg broughtOps).isSome = true := by decide +kernel
    obtain ⟨v, hv⟩ := Option.isSome_iff_exists.mp h
    simp [curtainAt, hv]
  have ha := apart_along (c := 0) .init hx
  have ho : offered 0 (curtainAt broughtOps).loop.log = [1, 0, 2] := by decide +kernel
  have hf : (offered 0 (curtainAt broughtOps).loop.log).filter (isBroadcast (curtainAt broughtOps).loop) = [1, 0] := by decide +kernel
  refine ⟨_, ha, ho, ?_, by decide +kernel⟩
  rw [(c140_batches ha).1, hf]
  rfl

end Neffos
