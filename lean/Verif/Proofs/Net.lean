import Verif.Spec.Net
import Verif.Props.BroadcastExact
import Verif.Props.Delivery
import Verif.Props.ServerLoop
/-!
# Runs of a server with all its clients: every part is a run of its own model
-/
set_option autoImplicit false
namespace Neffos
open Spec

variable {cfg : NetCfg} {s s' : Net}

structure NetOk (cfg : NetCfg) (s : Net) : Prop where
  loop : LReach cfg.loop s.loop
  c : ∀ c, Reach (cfg.cc c) [] (s.sess c).c
  d : ∀ c, Reach (cfg.sc c) (cfg.id c) (s.sess c).d
  tie : ∀ c, (s.sess c).d.closed = false → (s.loop.conn c).cl = .open

/-! ## One session -/

theorem srun_append {cc sc : Cfg} {x y : Sess} {a b : List SessOp} (h : srun cc sc x a = some y) :
    srun cc sc x (a ++ b) = srun cc sc y b := by
  induction a generalizing x with
  | nil => cases h; rfl
  | cons o a ih =>
    simp only [srun, List.cons_append] at h ⊢
    split at h
    · exact ih h
    · cases h

theorem step_write {cfg : Cfg} {id : Bytes} {s : St} (hr : Reach cfg id s) (m : Message) :
    step cfg s (.write m) = some (write cfg s m).1 := by
  simp only [step, exec]
  rw [if_neg (by rw [hung_write, reach_hung hr]; simp)]

theorem step_close {cfg : Cfg} {id : Bytes} {s : St} (hr : Reach cfg id s) :
    step cfg s .close = some (closeConn cfg s) := by
  simp only [step, exec]
  rw [if_neg (by rw [hung_closeConn, reach_hung hr]; simp)]

theorem writes_srun {cc sc : Cfg} {id : Bytes} {x : Sess} (ms : List Message) (hr : Reach sc id x.d) :
    srun cc sc x (ms.map fun m => .server (.write m)) =
      some { x with d := ms.foldl (fun s m => (write sc s m).1) x.d } := by
  induction ms generalizing x with
  | nil => rfl
  | cons m ms ih =>
    have hs := step_write hr m
    simp only [List.map_cons, srun, sstep, Op.reads, Bool.false_eq_true, if_false, hs, Option.map_some]
    exact ih (x := { x with d := (write sc x.d m).1 }) (Reach.step hr hs)

theorem sstep_reach {cc sc : Cfg} {idc ids : Bytes} {x y : Sess} {o : SessOp} (hc : Reach cc idc x.c) (hd : Reach sc ids x.d)
    (h : sstep cc sc x o = some y) :
    Reach cc idc y.c ∧ Reach sc ids y.d ∧ (y.d.closed = false → x.d.closed = false) := by
  have own : ∀ {op : Op} {t : St}, step sc x.d op = some t → Reach sc ids t ∧ (t.closed = false → x.d.closed = false) :=
    fun hs => ⟨.step hd hs, closed_of_prims (reach_prims hd hs)⟩
  cases o with
  | client op =>
    simp only [sstep] at h
    split at h
    · cases h
    · obtain ⟨t, ht, rfl⟩ := Option.map_eq_some_iff.mp h
      exact ⟨.step hc ht, hd, id⟩
  | server op =>
    simp only [sstep] at h
    split at h
    · cases h
    · obtain ⟨t, ht, rfl⟩ := Option.map_eq_some_iff.mp h
      exact ⟨hc, own ht⟩
  | up =>
    simp only [sstep] at h
    split at h
    · cases h
    · obtain ⟨t, ht, rfl⟩ := Option.map_eq_some_iff.mp h
      exact ⟨hc, own ht⟩
  | down =>
    simp only [sstep] at h
    split at h
    · cases h
    · obtain ⟨t, ht, rfl⟩ := Option.map_eq_some_iff.mp h
      exact ⟨.step hc ht, hd, id⟩
  | upAsk i =>
    simp only [sstep] at h
    split at h
    · cases h
    · obtain ⟨t, ht, rfl⟩ := Option.map_eq_some_iff.mp h
      exact ⟨hc, own ht⟩
  | downAsk i =>
    simp only [sstep] at h
    split at h
    · cases h
    · obtain ⟨t, ht, rfl⟩ := Option.map_eq_some_iff.mp h
      exact ⟨.step hc ht, hd, id⟩

theorem srun_reach {cc sc : Cfg} {idc ids : Bytes} {x y : Sess} {os : List SessOp} (hc : Reach cc idc x.c) (hd : Reach sc ids x.d)
    (h : srun cc sc x os = some y) :
    Reach cc idc y.c ∧ Reach sc ids y.d ∧ (y.d.closed = false → x.d.closed = false) := by
  induction os generalizing x with
  | nil => cases h; exact ⟨hc, hd, id⟩
  | cons o os ih =>
    simp only [srun] at h
    split at h
    · rename_i t ht
      obtain ⟨h1, h2, h3⟩ := sstep_reach hc hd ht
      obtain ⟨h4, h5, h6⟩ := ih h1 h2 h
      exact ⟨h4, h5, fun e => h3 (h6 e)⟩
    · cases h

/-! ## One step -/

/-- the other connections do not notice that one is closed -/
theorem close_conn {l l' : LSt} {c : Nat} (h : l.step cfg.loop (.close c) = some l') (c' : Nat) :
    c' ≠ c → l'.conn c' = l.conn c' := by
  intro hne
  cases lnext_of_step h
  rename_i hc
  rw [conn_setC hc, if_neg hne]

/-- what a step does, with the loop and with each session -/
structure NetStep (cfg : NetCfg) (s : Net) (op : NetOp) (s' : Net) : Prop where
  ok : NetOk cfg s'
  loop : ∃ lops, s.loop.run cfg.loop lops = some s'.loop
  sess : ∀ c, ∃ os, srun (cfg.cc c) (cfg.sc c) (s.sess c) os = some (s'.sess c) ∧
    ((∃ o, op = .sess c o ∧ os = [o]) ∨ ∀ o ∈ os, ∃ p, o = .server p)
  /-- what is new in the log of the loop -/
  log : ∃ l, s'.loop.log = s.loop.log ++ l ∧
    ((∃ c k, (∃ o, op = .loop o ∧ s.loop.touch o = some (.publish c k)) ∧ l = [.offered c k]) ∨
      (∀ c k, (∃ o, op = .loop o ∧ s.loop.touch o = some (.publish c k)) → False) ∧
        ∀ c k, .offered c k ∈ l → isCast s'.loop k = false)

theorem run_one {cfg : LCfg} {l l' : LSt} {op : LOp} (h : l.step cfg op = some l') : l.run cfg [op] = some l' := by
  simp only [LSt.run, h]

/-- the session of `c` goes on after the loop did -/
theorem put_step {l : LSt} {c : Nat} {x : Sess} (hok : NetOk cfg s) (hl : ∃ lops, s.loop.run cfg.loop lops = some l)
    (hcl : ∀ c', c' ≠ c → (s.sess c').d.closed = false → (l.conn c').cl = .open)
    (hcx : x.d.closed = false → (l.conn c).cl = .open)
    {os : List SessOp} (hs : srun (cfg.cc c) (cfg.sc c) (s.sess c) os = some x) :
    let t := Net.put cfg { s with loop := l } c x
    NetOk cfg t ∧ (∃ lops, s.loop.run cfg.loop lops = some t.loop) ∧ t.sess c = x ∧
      (∀ c', c' ≠ c → t.sess c' = s.sess c') ∧ t.loop.log = l.log ∧ t.loop.calls = l.calls := by
  obtain ⟨lops, hl⟩ := hl
  obtain ⟨r1, r2, r3⟩ := srun_reach (hok.c c) (hok.d c) hs
  have hput : ∃ lops', l.run cfg.loop lops' = some (Net.put cfg { s with loop := l } c x).loop ∧
      (∀ c', c' ≠ c → (Net.put cfg { s with loop := l } c x).loop.conn c' = l.conn c') ∧
      (x.d.closed = false → (Net.put cfg { s with loop := l } c x).loop = l) ∧
      (Net.put cfg { s with loop := l } c x).loop.log = l.log ∧
      (Net.put cfg { s with loop := l } c x).loop.calls = l.calls := by
    simp only [Net.put]
    split
    · rename_i hcd
      cases he : l.step cfg.loop (.close c) with
      | none => exact ⟨[], rfl, fun _ _ => rfl, fun _ => rfl, rfl, rfl⟩
      | some l' =>
        refine ⟨[.close c], run_one he, fun c' hne => close_conn he c' hne, fun e => ?_, ?_, ?_⟩
        · rw [hcd] at e; cases e
        · cases lnext_of_step he; rfl
        · cases lnext_of_step he; rfl
    · exact ⟨[], rfl, fun _ _ => rfl, fun _ => rfl, rfl, rfl⟩
  obtain ⟨lops', p1, p2, p3, p4, p5⟩ := hput
  have hrun : s.loop.run cfg.loop (lops ++ lops') = some (Net.put cfg { s with loop := l } c x).loop := by
    rw [lrun_append hl]; exact p1
  have e1 : (Net.put cfg { s with loop := l } c x).sess c = x := by simp [Net.put]
  have e2 : ∀ c', c' ≠ c → (Net.put cfg { s with loop := l } c x).sess c' = s.sess c' := by
    intro c' hne; simp [Net.put, hne]
  refine ⟨⟨lreach_run hok.loop hrun, fun c' => ?_, fun c' => ?_, fun c' => ?_⟩, ⟨_, hrun⟩, e1, e2, p4, p5⟩
  · by_cases e : c' = c
    · subst e; rw [e1]; exact r1
    · rw [e2 c' e]; exact hok.c c'
  · by_cases e : c' = c
    · subst e; rw [e1]; exact r2
    · rw [e2 c' e]; exact hok.d c'
  · by_cases e : c' = c
    · subst e; rw [e1]; intro h; rw [p3 h]; exact hcx h
    · rw [e2 c' e, p2 c' e]; exact hcl c' e

/-- a step of the loop leaves a connection open, unless it closes it for `Server.Close` -/
theorem open_next {l l' : LSt} {op : LOp} {c : Nat} (hr : LReach cfg.loop l) (hx : LNext cfg.loop l op l') (hop : op ≠ .close c)
    (hsh : l.touch op ≠ some (.shut c)) (ho : (l.conn c).cl = .open) : (l'.conn c).cl = .open := by
  have keep : ∀ {t : LSt} {d : Nat} {x y : LConn}, l.conns[d]? = some x → t.conns = l.conns.set d y →
      (c = d → x.cl = .open → y.cl = .open) → (t.conn c).cl = .open := by
    intro t d x y hd ht h
    rw [conn_set' hd ht]
    by_cases e : c = d
    · subst e; rw [if_pos rfl]; exact h rfl (by rw [← conn_of hd]; exact ho)
    · rw [if_neg e]; exact ho
  have same : ∀ {t : LSt}, t.conns = l.conns → (t.conn c).cl = .open := fun h => by rw [conn_same h]; exact ho
  cases hx
  case upgrade => rw [conn_upgrade]; exact ho
  case upRefuse d x hd _ _ => exact keep hd rfl (fun _ h => h)
  case upPass d x hd _ _ => exact keep hd rfl (fun _ h => h)
  case upSend d x hd _ _ => exact keep hd rfl (fun _ h => h)
  case unwait d x e hd _ => exact keep hd rfl (fun _ h => h)
  case close d x hc hu hop' => exact keep hc rfl (fun e => absurd (by rw [e]) hop)
  case closer d x hd hf => exact keep hd rfl (fun _ h => by rw [hf] at h; cases h)
  case actShut k d rest x y hl hk hd hkd hcl =>
    refine keep hd rfl (fun e _ => absurd ?_ hsh)
    subst e
    simp only [LSt.touch, hl, hk, hd]
    rw [if_pos ⟨hkd, hcl⟩]
  case shut k d rest y hl hd =>
    refine keep hd rfl (fun _ h => ?_)
    have := (lreach_placed hr d).shuts
    rw [conn_of hd, hl] at this
    rw [this.mp rfl] at h; cases h
  case recvDrop d x _ hd _ _ => exact keep hd rfl (fun _ h => h)
  case recvIgnore d x _ hd _ _ => exact keep hd rfl (fun _ h => h)
  all_goals exact same rfl

/-- what a step of the loop adds to its log -/
theorem offered_next {l l' : LSt} {op : LOp} (hr : LReach cfg.loop l) (hx : LNext cfg.loop l op l') :
    ∃ n, l'.log = l.log ++ n ∧
      ((∃ c k, l.touch op = some (.publish c k) ∧ n = [.offered c k]) ∨
        (∀ c k, l.touch op ≠ some (.publish c k)) ∧ ∀ c k, .offered c k ∈ n → isCast l' k = false) := by
  have act : ∀ {k c rest} {x : LCall}, l.loop = .act k (c :: rest) → l.calls[k]? = some x → x.kind ≠ .cast :=
    fun hl hk => (((lreach_called hr).each _ _ hk).act _ hl).1
  have hit : ∀ {x : LCall} {c : Nat} {t : LSt}, x.kind ≠ .cast → t.calls[c]? = some x → isCast t c = false := by
    intro x c t h1 h2
    simp [isCast, h2, h1]
  cases hx
  case castCons k c rest hl => exact ⟨[.offered c k], rfl, .inl ⟨c, k, by simp only [LSt.touch, hl], rfl⟩⟩
  case actShut k c rest x y hl hk hc hkd ho =>
    refine ⟨[.offered c k], rfl, .inr ⟨?_, ?_⟩⟩
    · intro c' k' h
      simp only [LSt.touch, hl, hk, hc] at h
      rw [if_pos ⟨hkd, ho⟩] at h; cases h
    · intro c' k' h
      simp only [List.mem_singleton, LEv.offered.injEq] at h
      rw [h.2]
      exact hit (act hl hk) hk
  case actCons k c rest x y hl hk hc hn =>
    refine ⟨[.offered c k], rfl, .inr ⟨?_, ?_⟩⟩
    · intro c' k' h
      simp only [LSt.touch, hl, hk, hc] at h
      split at h <;> cases h
    · intro c' k' h
      simp only [List.mem_singleton, LEv.offered.injEq] at h
      rw [h.2]
      exact hit (act hl hk) hk
  all_goals first
    | exact ⟨[], (List.append_nil _).symm, .inr ⟨by simp [LSt.touch, *], by simp⟩⟩
    | exact ⟨_, rfl, .inr ⟨by simp [LSt.touch, *], by simp⟩⟩

theorem net_step {op : NetOp} (hok : NetOk cfg s) (h : s.step cfg op = some s') : NetStep cfg s op s' := by
  cases op with
  | sess c o =>
    simp only [Net.step] at h
    split at h
    · obtain ⟨x, hx, rfl⟩ := Option.map_eq_some_iff.mp h
      obtain ⟨_, _, r3⟩ := sstep_reach (hok.c c) (hok.d c) hx
      have hs : srun (cfg.cc c) (cfg.sc c) (s.sess c) [o] = some x := by simp only [srun, hx]
      obtain ⟨q1, q2, q3, q4, q5, _⟩ := put_step (l := s.loop) hok ⟨[], rfl⟩ (fun c' _ => hok.tie c') (fun e => hok.tie c (r3 e)) hs
      refine ⟨q1, q2, fun c' => ?_, [], by rw [List.append_nil]; exact q5, .inr ⟨?_, by simp⟩⟩
      · by_cases e : c' = c
        · subst e; exact ⟨[o], by rw [hs]; exact congrArg some q3.symm, .inl ⟨o, rfl, rfl⟩⟩
        · exact ⟨[], by simp only [srun]; exact congrArg some (q4 c' e).symm, .inr (by simp)⟩
      · rintro _ _ ⟨_, h, _⟩; cases h
    · cases h
  | loop o =>
    have hstep : ∀ (c : Nat), o ≠ .close c := by
      rintro c rfl
      simp [Net.step] at h
    have h' : (match s.loop.step cfg.loop o with
      | none => none
      | some l =>
        match s.loop.touch o with
        | none => some { s with loop := l }
        | some (.publish c k) =>
          some (Net.put cfg { s with loop := l } c
            { s.sess c with d := (publishMessages (cfg.sc c) (s.sess c).d (cfg.batch k)).1 })
        | some (.shut c) =>
          some (Net.put cfg { s with loop := l } c { s.sess c with d := closeConn (cfg.sc c) (s.sess c).d })) = some s' := by
      cases o <;> first | exact h | exact absurd rfl (hstep _)
    clear h
    cases hl : s.loop.step cfg.loop o with
    | none => rw [hl] at h'; cases h'
    | some l =>
      rw [hl] at h'
      dsimp only at h'
      have hx := lnext_of_step hl
      obtain ⟨n, n1, n2⟩ := offered_next hok.loop hx
      have ho : ∀ c, s.loop.touch o ≠ some (.shut c) → (s.sess c).d.closed = false → (l.conn c).cl = .open :=
        fun c ht e => open_next hok.loop hx (hstep c) ht (hok.tie c e)
      cases ht : s.loop.touch o with
      | none =>
        rw [ht] at h' n2
        cases h'
        refine ⟨⟨lreach_run hok.loop (run_one hl), hok.c, hok.d, fun c => ho c (by rw [ht]; simp)⟩, ⟨_, run_one hl⟩,
          fun c => ⟨[], rfl, .inr (by simp)⟩, n, n1, .inr ⟨?_, ?_⟩⟩
        · rintro c k ⟨o', e, h⟩; cases e; rw [ht] at h; cases h
        · rcases n2 with ⟨c, k, h, _⟩ | ⟨_, h⟩
          · cases h
          · exact h
      | some tc =>
        cases tc with
        | publish c k =>
          rw [ht] at h' n2
          dsimp only at h'
          cases h'
          have hs := writes_srun (cc := cfg.cc c) (beforeNotFor (s.sess c).d.id (cfg.batch k)) (hok.d c)
          rw [← c77_handed] at hs
          obtain ⟨_, _, r3⟩ := srun_reach (hok.c c) (hok.d c) hs
          obtain ⟨q1, q2, q3, q4, q5, _⟩ := put_step hok ⟨_, run_one hl⟩ (fun c' _ => ho c' (by rw [ht]; simp))
            (fun e => ho c (by rw [ht]; simp) (r3 e)) hs
          refine ⟨q1, q2, fun c' => ?_, n, by rw [q5]; exact n1, .inl ?_⟩
          · by_cases e : c' = c
            · subst e
              refine ⟨_, by rw [hs]; exact congrArg some q3.symm, .inr ?_⟩
              intro o' ho'
              obtain ⟨m, _, rfl⟩ := List.mem_map.mp ho'
              exact ⟨_, rfl⟩
            · exact ⟨[], by simp only [srun]; exact congrArg some (q4 c' e).symm, .inr (by simp)⟩
          · rcases n2 with ⟨c', k', e, rfl⟩ | ⟨h, _⟩
            · cases e
              exact ⟨c, k, ⟨o, rfl, ht⟩, rfl⟩
            · exact absurd rfl (h c k)
        | shut c =>
          rw [ht] at h' n2
          dsimp only at h'
          cases h'
          have hs : srun (cfg.cc c) (cfg.sc c) (s.sess c) [.server .close] =
              some { s.sess c with d := closeConn (cfg.sc c) (s.sess c).d } := by
            simp only [srun, sstep, Op.reads, Bool.false_eq_true, if_false, step_close (hok.d c), Option.map_some]
          obtain ⟨q1, q2, q3, q4, q5, q6⟩ := put_step hok ⟨_, run_one hl⟩
            (fun c' hne => ho c' (by rw [ht]; intro e; cases e; exact hne rfl))
            (fun e => by rw [show closeConn (cfg.sc c) (s.sess c).d = closeConn (cfg.sc c) (s.sess c).d from rfl, closeConn_closed] at e; cases e) hs
          refine ⟨q1, q2, fun c' => ?_, n, by rw [q5]; exact n1, .inr ⟨?_, ?_⟩⟩
          · by_cases e : c' = c
            · subst e
              exact ⟨_, by rw [hs]; exact congrArg some q3.symm, .inr (by simp)⟩
            · exact ⟨[], by simp only [srun]; exact congrArg some (q4 c' e).symm, .inr (by simp)⟩
          · rintro c' k ⟨o', e, h⟩; cases e; rw [ht] at h; cases h
          · rcases n2 with ⟨c', k', h, _⟩ | ⟨_, h⟩
            · cases h
            · intro c' k' hm
              have := h c' k' hm
              simp only [isCast, q6] at this ⊢
              exact this

theorem net_init : NetOk cfg (newNet cfg) := by
  refine ⟨⟨[], rfl⟩, fun c => .init, fun c => .init, fun c _ => ?_⟩
  simp [newNet, LSt.conn]

theorem net_run_ok {ops : List NetOp} (hok : NetOk cfg s) (h : s.run cfg ops = some s') : NetOk cfg s' := by
  induction ops generalizing s with
  | nil => cases h; exact hok
  | cons op ops ih =>
    simp only [Net.run] at h
    split at h
    · exact ih (net_step hok ‹_›).ok h
    · cases h

theorem netReach_ok (h : NetReach cfg s) : NetOk cfg s := by
  obtain ⟨ops, h⟩ := h
  exact net_run_ok net_init h

end Neffos
