import Verif.Props.NoDeadlock
import Verif.Props.EmitMany
import Verif.Proofs.Settle
/-!
# C83: calls that are in flight together all return, in a bounded number of steps
-/
set_option autoImplicit false
namespace Neffos
open Neffos.Spec

variable {cc sc : Cfg} {id : Bytes} {ops : List SessOp} {s s' : Sess}

theorem settling_rule {op : SessOp} (h : Settling op) (s : Sess) : ManyRequests s op := by
  cases op with
  | client op => cases op <;> first | exact h.elim | trivial
  | up => trivial
  | down => trivial
  | _ => exact h.elim

theorem settle_step {op : SessOp} (hcons : Consistent cc sc) (hnc : cc.allowNative = false)
    (hns : sc.allowNative = false) (hcl : cc.isClient = true) (hsc : sc.isClient = false) (hcalm : StillSides cc sc)
    (h : ManyRun cc sc id ops s) (hu : InUse s) (hop : Settling op) (hst : sstep cc sc s op = some s') :
    InUse s' ∧ work s' + 1 ≤ work s := by
  have hinv := many_inv hcons hnc hns hcl hsc h
  have honc : cc.onlyNative = false := by simp [Cfg.onlyNative, hnc]
  have hons : sc.onlyNative = false := by simp [Cfg.onlyNative, hns]
  obtain ⟨A, B, X, x⟩ : ∃ A B X, Many (pastOf cc sc id ops) sc cc.known s.c s.d ((pipe s.c.log).drop s.up)
      ((pipe s.d.log).drop s.down) A B X := by
    rcases hinv.phase with x | x | ⟨hf, x⟩ | x
    · rw [hu.cli] at x; cases x
    · rw [hu.srv] at x; cases x
    · have := hu.dial; rw [hf.ready] at this; cases this
    · exact x
  have hready : ∀ {op : Op} {t : St}, step cc s.c op = some t → t.ready = some none :=
    fun ht => (Prims.grows (reach_prims hinv.rc ht)).ready _ hu.dial
  cases op with
  | up =>
    simp only [sstep] at hst
    split at hst
    · cases hst
    · rename_i ty b hb
      obtain ⟨t, ht, rfl⟩ := Option.map_eq_some_iff.mp hst
      have hlt : s.up < (pipe s.c.log).length := (List.getElem?_eq_some_iff.mp hb).1
      obtain ⟨he, _⟩ := step_exec ht
      simp only [exec] at he
      split at he
      · cases he
        have hw := wires_recv hcalm.srv hcalm.takes.2 hons x.srv.acked ty b
        refine ⟨⟨hu.dial, hu.cli, hw.closed.trans hu.srv, fun bin b h => hu.taken _ _ (hw.taken _ _ h)⟩, ?_⟩
        have := hw.size
        simp only [work]
        omega
      · cases he
  | down =>
    simp only [sstep] at hst
    split at hst
    · cases hst
    · rename_i ty b hb
      obtain ⟨t, ht, rfl⟩ := Option.map_eq_some_iff.mp hst
      have hlt : s.down < (pipe s.d.log).length := (List.getElem?_eq_some_iff.mp hb).1
      have hidle : s.c.rd = .idle := by
        obtain ⟨he, _⟩ := step_exec ht
        simp only [exec] at he
        split at he
        · rename_i hx; exact hx.1
        · cases he
      have h01 : ∀ r : Rd, (if r = .idle then 0 else 1) ≤ 1 := fun r => by split <;> omega
      have hy := x.down
      rw [List.drop_eq_getElem_cons hlt, (List.getElem?_eq_some_iff.mp hb).2] at hy
      by_cases hp : CalmP (ty, b)
      · obtain ⟨he, _⟩ := step_exec ht
        simp only [exec] at he
        split at he
        · cases he
          obtain ⟨hw, hask⟩ := wires_calm hcalm.cli hcalm.nil hnc x.cli.acked hp
          dsimp only at hw hask
          refine ⟨⟨hready ht, hw.closed.trans hu.cli, hu.srv, hu.taken⟩, ?_⟩
          have := hw.size
          have := h01 (recv cc s.c ty b).rd
          simp only [work, hidle, hask, if_true]
          omega
        · cases he
      · obtain ⟨⟨a, r⟩, B', rfl, ha, _⟩ := hy.head hp
        have hra := x.ready a (by simp [calls])
        have hat := x.atB _ (List.mem_cons_self ..)
        have e := recv_box hcl hnc x.cli hra.tok hat hra.waiting ha.1 ht
        refine ⟨⟨hready ht, by rw [e]; exact hu.cli, hu.srv, hu.taken⟩, ?_⟩
        subst e
        have := count_set (fun a : AskRec => !a.done)
          ⟨a.tok, a.k, .table, some (deserializeMessage cc.known ty b false false), false⟩ hat
        simp only [work, hidle, if_true]
        simp only [Bool.not_false, Bool.toNat_true] at this
        omega
  | client op =>
    cases op with
    | wake =>
      simp only [sstep] at hst
      rw [if_neg (by simp [Op.reads])] at hst
      obtain ⟨t, ht, rfl⟩ := Option.map_eq_some_iff.mp hst
      obtain ⟨he, _⟩ := step_exec ht
      rcases x.cli.rd with hrd | ⟨m, hm, hrd⟩
      · simp only [exec, wakeReader, hrd] at he
        cases he
      · obtain ⟨_, _, _, _, _, h1, h2⟩ := held_last hcons hnc hns hcl hsc h hu.cli hu.srv m hrd
        simp only [exec, wakeReader, hrd] at he
        split at he
        · have hp := puts_afterGate_nil hcalm.cli hcalm.nil { s.c with rd := .idle } m hm.1 h1 h2
          have k1 : (afterGate cc { s.c with rd := .idle } m).rd = .idle := hp.rd
          have k2 : (afterGate cc { s.c with rd := .idle } m).todo = [] := hp.todo.trans x.cli.todo
          have k3 : (afterGate cc { s.c with rd := .idle } m).ackAfter = false := hp.ackAfter.trans x.cli.ackAfter
          rw [if_pos k1, k2, drain_nil _ k2 k3] at he
          cases he
          refine ⟨⟨hready ht, hp.closed.trans hu.cli, hu.srv, hu.taken⟩, ?_⟩
          have := hp.size
          have := hp.asks
          simp only [work, k1, hrd, if_true, this]
          dsimp only at *
          simp only [reduceCtorEq, if_false]
          omega
        · cases he
    | resume i =>
      simp only [sstep] at hst
      rw [if_neg (by simp [Op.reads])] at hst
      obtain ⟨t, ht, rfl⟩ := Option.map_eq_some_iff.mp hst
      obtain ⟨he, _⟩ := step_exec ht
      simp only [exec] at he
      unfold resume at he
      split at he
      · cases he
      · rename_i a ha
        split at he
        · cases he
        · rename_i hd
          split at he
          · cases he
          · rename_i m hm
            cases he
            have hp := puts_finish hcalm.cli (resumed s.c i a) a.cont m m.err
            obtain ⟨_, _, r1, r2, _⟩ := resumed_fields s.c i a
            have hrd : (resumed s.c i a).rd = s.c.rd ∧ (resumed s.c i a).asks =
                (s.c.asks.set i { a with box := none }).modify i (fun a => { a with done := true }) := by
              have ht : takeAnswer s.c i a = { s.c with asks := s.c.asks.set i { a with box := none } } := by
                unfold takeAnswer
                split
                · rename_i j m' hj
                  rcases x.cli.rd with hrd | ⟨m, _, hrd⟩ <;> rw [hrd] at hj <;> cases hj
                · rfl
              unfold resumed forget endAsk
              rw [ht]
              split <;> exact ⟨rfl, rfl⟩
            have hlt : i < s.c.asks.length := (List.getElem?_eq_some_iff.mp ha).1
            have hd' : a.done = false := by simpa using hd
            have c1 := count_set (fun a : AskRec => !a.done) { a with box := none } ha
            have c2 := count_modify (fun a : AskRec => !a.done) (fun a => { a with done := true })
              (l := s.c.asks.set i { a with box := none }) (i := i) (a := { a with box := none }) (by simp [hlt])
            have hq : (!a.done) = true := by rw [hd']; rfl
            simp only [hq, Bool.not_true, Bool.toNat_true, Bool.toNat_false] at c1 c2
            refine ⟨⟨hready ht, hp.closed.trans (r2.trans hu.cli), hu.srv, hu.taken⟩, ?_⟩
            have k1 := hp.size
            have k2 := hp.asks
            have k3 := hp.rd
            rw [r1] at k1
            rw [hrd.1] at k3
            rw [hrd.2] at k2
            have e : finish cc (forget (endAsk (takeAnswer s.c i a) i) a) a.cont m m.err = finish cc (resumed s.c i a) a.cont m m.err := rfl
            simp only [work, e, k2, k3]
            omega
    | _ => exact hop.elim
  | _ => exact hop.elim

/-- C83: from any state of a session in use, with any number of calls in flight, every run of the steps by which the
session goes on without the application is bounded, whatever the schedule: a step needs work and `work` is what there is. The
session stays in use. -/
theorem c83_bound {l : List SessOp} (hcons : Consistent cc sc) (hnc : cc.allowNative = false)
    (hns : sc.allowNative = false) (hcl : cc.isClient = true) (hsc : sc.isClient = false) (hstill : StillSides cc sc)
    (h : ManyRun cc sc id ops s) (hu : InUse s) (hl : ∀ op ∈ l, Settling op) (hr : srun cc sc s l = some s') :
    ManyRun cc sc id (ops ++ l) s' ∧ InUse s' ∧ l.length + work s' ≤ work s := by
  induction l generalizing ops s with
  | nil => cases hr; exact ⟨by simpa using h, hu, by simp⟩
  | cons op l ih =>
    simp only [srun] at hr
    split at hr
    · rename_i t ht
      have ho := hl op (List.mem_cons_self ..)
      obtain ⟨k1, k2⟩ := settle_step hcons hnc hns hcl hsc hstill h hu ho ht
      obtain ⟨j1, j2, j3⟩ := ih (h.step (settling_rule ho s) ht) k1 (fun o x => hl o (List.mem_cons_of_mem _ x)) hr
      exact ⟨by simpa using j1, j2, by simp only [List.length_cons]; omega⟩
    · cases hr

/-- C83: such a run, when it cannot go on, has let every Connect, Disconnect, JoinRoom and LeaveRoom return, and all that was
sent has been read. Only plain Asks can be left, each for one of the reasons of C79. -/
theorem c83_returns {l : List SessOp} (hcons : Consistent cc sc) (hnc : cc.allowNative = false)
    (hns : sc.allowNative = false) (hcl : cc.isClient = true) (hsc : sc.isClient = false) (hstill : StillSides cc sc)
    (h : ManyRun cc sc id ops s) (hu : InUse s) (hl : ∀ op ∈ l, Settling op) (hr : srun cc sc s l = some s')
    (hend : ∀ op, Settling op → sstep cc sc s' op = none) :
    s'.up = (pipe s'.c.log).length ∧ s'.down = (pipe s'.d.log).length ∧ s'.c.rd = .idle ∧ s'.d.rd = .idle ∧
    ∀ (i : Nat) (a : AskRec), s'.c.asks[i]? = some a →
      (a.cont ≠ .user → a.done = true) ∧
      (a.done = false → ∃ w, AskedFor (ops ++ l) a.tok w ∧ (Away cc sc id (ops ++ l) a.tok w ∨ Silence s'.d w a.tok)) := by
  obtain ⟨j1, j2, _⟩ := c83_bound hcons hnc hns hcl hsc hstill h hu hl hr
  have hst : Stalled cc sc s' := ⟨hend _ trivial, hend _ trivial, hend _ trivial, fun i => hend _ trivial⟩
  obtain ⟨k1, k2, k3, k4, k5⟩ := c81_rest hcons hnc hns hcl hsc (fun _ _ _ _ _ => hstill.cli _ _ _ _)
    (fun _ _ _ _ _ => hstill.srv _ _ _ _) j1 j2.dial j2.cli j2.srv j2.taken hst
  refine ⟨k1, k2, k3, k4, fun i a ha => ⟨fun hk => ?_, fun hd => (k5 i a ha hd).2.2⟩⟩
  cases hd : a.done with
  | true => rfl
  | false => exact absurd (k5 i a ha hd).1 hk

/-- C83: such a run exists: the session can always come to rest. -/
theorem c83_settles (hcons : Consistent cc sc) (hnc : cc.allowNative = false)
    (hns : sc.allowNative = false) (hcl : cc.isClient = true) (hsc : sc.isClient = false) (hstill : StillSides cc sc)
    (h : ManyRun cc sc id ops s) (hu : InUse s) :
    ∃ l s', (∀ op ∈ l, Settling op) ∧ srun cc sc s l = some s' ∧ l.length ≤ work s ∧
      ∀ op, Settling op → sstep cc sc s' op = none := by
  generalize hn : work s = n
  induction n using Nat.strongRecOn generalizing ops s with
  | ind n ih =>
    by_cases hx : ∀ op, Settling op → sstep cc sc s op = none
    · exact ⟨[], s, (by simp), rfl, Nat.zero_le _, hx⟩
    · obtain ⟨op, ho, t, ht⟩ : ∃ op, Settling op ∧ ∃ t, sstep cc sc s op = some t := by
        refine Classical.byContradiction fun hno => hx fun op ho => ?_
        cases he : sstep cc sc s op with
        | none => rfl
        | some t => exact absurd ⟨op, ho, t, he⟩ hno
      obtain ⟨k1, k2⟩ := settle_step hcons hnc hns hcl hsc hstill h hu ho ht
      obtain ⟨l, s', j1, j2, j3, j4⟩ := ih (work t) (by omega) (h.step (settling_rule ho s) ht) k1 rfl
      refine ⟨op :: l, s', fun o x => ?_, ?_, by simp only [List.length_cons]; omega, j4⟩
      · rcases List.mem_cons.mp x with rfl | x
        · exact ho
        · exact j1 o x
      · simp only [srun, ht]; exact j2

/-! ## Concrete sessions -/

theorem busy_still : StillSides busyCli busySrv :=
  ⟨fun _ _ _ _ => rfl, fun _ _ _ _ => rfl, fun _ _ _ _ _ _ => rfl, fun _ _ _ => rfl, fun _ _ _ => rfl⟩

/-- five calls, none of which has been read by the server -/
def launched : List SessOp :=
  chatUp ++ [.client (.join 0 (b! "r") 9 false), .client (.join 0 (b! "b") 11 false), .client (.connect (b! "quiz") 12 false),
    .client (.connect (b! "game") 13 false), .client (.ask { ns := b! "chat", event := b! "hi" } 14 false),
    .server (.write hiMsg)]

def settleOps : List SessOp :=
  [.down, .up, .up, .up, .down, .client (.resume 1), .up, .up, .down, .down, .down, .down, .client (.resume 5), .client (.resume 4),
    .client (.resume 3), .client (.resume 2)]

/-- C83: the hypotheses hold; the five calls return with one schedule, whose length is within the bound -/
example : Consistent busyCli busySrv ∧ StillSides busyCli busySrv ∧ ManyRun busyCli busySrv (b! "u1") launched (bran launched) ∧
    InUse (bran launched) ∧ (∀ op ∈ settleOps, Settling op) ∧ inFlight (bran launched).c = [(false, false), (false, false), (false, false), (false, false), (true, false)] ∧
    work (bran launched) = 22 ∧ settleOps.length = 16 ∧
    (srun busyCli busySrv (bran launched) settleOps).map (fun s => (inFlight s.c, work s)) = some ([], 0) :=
  ⟨busy_consistent, busy_still, manyRan_run (by decide +kernel),
    ⟨by decide +kernel, by decide +kernel, by decide +kernel, no_false (by decide +kernel)⟩,
    (by simp [settleOps, Settling]), by decide +kernel, by decide +kernel, by decide +kernel, by decide +kernel⟩

end Neffos
