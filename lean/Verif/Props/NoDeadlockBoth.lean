import Verif.Proofs.GateHeld
import Verif.Props.AgreeBoth
import Verif.Props.NoDeadlock
/-!
# C90: what calls of both sides wait for when they are in flight together
-/
set_option autoImplicit false
namespace Neffos
open Neffos.Spec

variable {cc sc : Cfg} {id : Bytes} {ops : List SessOp} {s : Sess}

/-- a side with an answered call can let it return -/
theorem ready_side {x : Cfg} {c : St} {i : Nat} {a : AskRec} {r : Message} (hr : Reach x id c)
    (ha : c.asks[i]? = some a) (hdone : a.done = false) (hb : a.box = some r)
    (hq : ∀ obj msg, a.cont = .disconnect obj msg → QuietLeaves x) :
    ∃ t, step x c (.resume i) = some t := by
  refine ⟨finish x (resumed c i a) a.cont r r.err, step_of_exec ?_ ?_⟩
  · simp only [exec]
    unfold resume
    rw [ha]
    dsimp only
    rw [hdone, hb]
    simp [resumed]
  · rw [hung_finish _ _ _ _ hq, hung_resumed]
    exact reach_hung hr

/-- a reader that waits at a gate that is open can go on -/
theorem wake_side {x : Cfg} {c : St} {M : Message} (hr : Reach x id c) (hok : SideOk c) (hg : c.rd = .gate M)
    (h0 : (gateOf c M.ns).count = 0) : ∃ t, step x c .wake = some t := by
  have hrd := rd_afterGate (cfg := x) { c with rd := .idle } M
  have h1 : (afterGate x { c with rd := .idle } M).rd = .idle := hrd.rd
  have h2 : (afterGate x { c with rd := .idle } M).todo = [] := hrd.todo.trans hok.todo
  have h3 : (afterGate x { c with rd := .idle } M).ackAfter = false := hrd.ackAfter.trans hok.ackAfter
  refine ⟨_, step_of_exec (t := drain x (afterGate x { c with rd := .idle } M) []) ?_ ?_⟩
  · simp only [exec, wakeReader, hg]
    rw [gateReleased_eq, h0]
    simp only [decide_true, if_true]
    rw [if_pos h1, h2]
  · simp only [drain, h3, Bool.false_eq_true, if_false]
    show (afterGate x { c with rd := .idle } M).hung = false
    rw [hung_afterGate]
    show c.hung = false
    exact reach_hung hr

/-- what the reader of a side waits for when it cannot go on and no call of this side can return -/
theorem held_side {x : Cfg} {c : St} {A : List Pend} {B : List (Pend × Option GoErr)}
    {X : List (Pend × Option GoErr × Option Message)} {cl : Bool} {known : List KnownErr} (hr : Reach x id c) (hok : SideOk c)
    (hf : Half cl known c A B X) (hh : GateHeld c) (hw : step x c .wake = none) (hres : ∀ i, step x c (.resume i) = none) : HeldBack c ∨ c.rd = .idle := by
  rcases hok.rd with k | ⟨M, _, k⟩
  · exact .inr k
  · refine .inl ?_
    by_cases h0 : (gateOf c M.ns).count = 0
    · obtain ⟨t, ht⟩ := wake_side hr hok k h0
      rw [hw] at ht; cases ht
    · have hdn := (hh M k).resolve_right h0
      have hcnt := (reach_gateOk hr M.ns).2.1 hdn
      have hcnt : (gateOf c M.ns).count = pend c M.ns := by simpa using hcnt
      obtain ⟨i, obj, a, ha, hdone, hk⟩ := pend_pos.1 (show 1 ≤ pend c M.ns by omega)
      have hmode : a.mode = .table := by
        obtain ⟨p, hp, hpi⟩ := hf.cover i a ha hdone
        obtain ⟨box, hat⟩ := hf.askOf hp
        unfold AskIs at hat
        rw [hpi, ha] at hat
        cases hat
        rfl
      refine ⟨M, i, obj, a, k, ha, hdone, hmode, hk, ?_⟩
      cases hb : a.box with
      | none => rfl
      | some r =>
        obtain ⟨t, ht⟩ := ready_side hr ha hdone hb fun o m e => by rw [hk] at e; cases e
        rw [hres i] at ht; cases ht

/-- a reader that waits for the other side can read -/
theorem read_side {x : Cfg} {c : St} {p : MsgType × Bytes} (hr : Reach x id c) (hok : SideOk c) (hon : x.onlyNative = false)
    (hq : QuietLeaves x) (hrd : c.rd = .idle) : ∃ t, step x c (.recv p.1 p.2) = some t :=
  ⟨recv x c p.1 p.2, step_of_exec (by simp [exec, hrd, hok.todo, hok.ackAfter])
    (by rw [hung_recv hq hon]; exact reach_hung hr)⟩

/-- when nothing is on the way, a call in flight without an answer is one whose answer was not taken -/
theorem Both.untaken {x y : Cfg} {c d : St} {O I : List Cargo} {X Y : List (Pend × Option GoErr × Option Message)}
    {i : Nat} {a : AskRec} (h : Both x y c d [] [] O I X Y) (ha : c.asks[i]? = some a) (hdone : a.done = false)
    (hb : a.box = none) : Untaken d a.tok := by
  obtain ⟨p, hp, hpi⟩ := h.mine.cover i a ha hdone
  have hO : O = [] := by have := h.out; cases this; rfl
  have hI : I = [] := by have := h.inn; cases this; rfl
  subst hO hI
  simp only [reqsOf, repsOf, calls, List.map_nil, List.nil_append, List.mem_map] at hp
  obtain ⟨z, hz, rfl⟩ := hp
  have hat := h.mine.atX z hz
  unfold AskIs at hat
  rw [hpi, ha] at hat
  have hae := Option.some.inj hat
  rw [hae]
  exact dropped_untaken (h.lostS z hz (by rw [← hb, hae]))

/-- C90: a session in which Dial has returned and both sides are open stands still only when it has
nothing left to do, except for a reader that holds an event back: all that was sent has been read, both
readers wait for the other side and all calls of both sides have returned, those excepted whose
answer the other side's socket did not take; or the reader of one side holds an event back until a Connect of
its own side has its answer. Missing: in the last case the two can wait for each other for ever, `c90_refuted`. -/
theorem c90_rest_partial (hcons : BothConsistent cc sc) (hnc : cc.allowNative = false)
    (hns : sc.allowNative = false) (hcl : cc.isClient = true) (hsc : sc.isClient = false)
    (hqc : QuietLeaves cc) (hqs : QuietLeaves sc) (h : BothRun cc sc id ops s) (hdial : s.c.ready = some none)
    (hc : s.c.closed = false) (hd : s.d.closed = false) (hr : Standstill cc sc s) :
    HeldBack s.c ∨ HeldBack s.d ∨
    (s.up = (pipe s.c.log).length ∧ s.down = (pipe s.d.log).length ∧ s.c.rd = .idle ∧ s.d.rd = .idle ∧
      (∀ (i : Nat) (a : AskRec), s.c.asks[i]? = some a → a.done = false → Untaken s.d a.tok) ∧
      ∀ (i : Nat) (a : AskRec), s.d.asks[i]? = some a → a.done = false → Untaken s.c a.tok) := by
  have hinv := both_inv hcons hnc hns hcl hsc h
  obtain ⟨hhc, hhd⟩ := both_held hcons hnc hns hcl hsc h hc hd
  have honc : cc.onlyNative = false := by simp [Cfg.onlyNative, hnc]
  have hons : sc.onlyNative = false := by simp [Cfg.onlyNative, hns]
  have hwc : step cc s.c .wake = none := by
    have := hr.wakeC
    simpa only [sstep, Op.reads, Bool.false_eq_true, if_false, Option.map_eq_none_iff] using this
  have hws : step sc s.d .wake = none := by
    have := hr.wakeS
    simpa only [sstep, Op.reads, Bool.false_eq_true, if_false, Option.map_eq_none_iff] using this
  have hrc : ∀ i, step cc s.c (.resume i) = none := fun i => by
    have := hr.resumeC i
    simpa only [sstep, Op.reads, Bool.false_eq_true, if_false, Option.map_eq_none_iff] using this
  have hrs : ∀ i, step sc s.d (.resume i) = none := fun i => by
    have := hr.resumeS i
    simpa only [sstep, Op.reads, Bool.false_eq_true, if_false, Option.map_eq_none_iff] using this
  rcases hinv.phase with x | x | x
  · rw [hc] at x; cases x
  · rw [hd] at x; cases x
  · cases x with
    | greet h1 => rw [h1.ready] at hdial; cases hdial
    | held h1 => rw [h1.ready] at hdial; cases hdial
    | acked b l1 l2 O I X Y h1 => rw [h1.ready] at hdial; cases hdial
    | live O I X Y _ x =>
      rcases held_side hinv.rc x.okS x.mine hhc hwc hrc with k | kc
      · exact .inl k
      · rcases held_side hinv.rd x.okT x.yours hhd hws hrs with k | kd
        · exact .inr (.inl k)
        · refine .inr (.inr ?_)
          have hup : s.up = (pipe s.c.log).length := by
            rcases Nat.lt_or_ge s.up (pipe s.c.log).length with hlt | hge
            · exfalso
              have hu := hr.up
              simp only [sstep, List.getElem?_eq_getElem hlt] at hu
              obtain ⟨t, ht⟩ := read_side (p := (pipe s.c.log)[s.up]) hinv.rd x.okT hons hqs kd
              generalize (pipe s.c.log)[s.up] = p at hu ht
              obtain ⟨ty, b⟩ := p
              simp [ht] at hu
            · have := hinv.up; omega
          have hdown : s.down = (pipe s.d.log).length := by
            rcases Nat.lt_or_ge s.down (pipe s.d.log).length with hlt | hge
            · exfalso
              have hu := hr.down
              simp only [sstep, List.getElem?_eq_getElem hlt] at hu
              obtain ⟨t, ht⟩ := read_side (p := (pipe s.d.log)[s.down]) hinv.rc x.okS honc hqc kc
              generalize (pipe s.d.log)[s.down] = p at hu ht
              obtain ⟨ty, b⟩ := p
              simp [ht] at hu
            · have := hinv.down; omega
          rw [List.drop_of_length_le (Nat.le_of_eq hup.symm), List.drop_of_length_le (Nat.le_of_eq hdown.symm)] at x
          have nobox : ∀ {y : Cfg} {e : St} {id : Bytes} {i : Nat} {a : AskRec}, Reach y id e → QuietLeaves y →
              (∀ i, step y e (.resume i) = none) → e.asks[i]? = some a → a.done = false → a.box = none := by
            intro y e id i a hre hq hno ha hdone
            cases hb : a.box with
            | none => rfl
            | some r =>
              obtain ⟨t, ht⟩ := ready_side hre ha hdone hb fun _ _ _ => hq
              rw [hno i] at ht; cases ht
          exact ⟨hup, hdown, kc, kd, fun i a ha hdone => x.untaken ha hdone (nobox hinv.rc hqc hrc ha hdone),
            fun i a ha hdone => x.symm.untaken ha hdone (nobox hinv.rd hqs hrs ha hdone)⟩

/-- a side whose reader holds an event back for its Connect stays like this -/
theorem stuck_side {x : Cfg} {c c' : St} {op : Op} (hr : Reach x id c) (h : HeldBack c) (hno : ∀ i e, op ≠ .cancel i e)
    (hs : step x c op = some c') : HeldBack c' := by
  obtain ⟨M, i, obj, a, h1, h2, h3, h4, h5, h6⟩ := h
  have k := c33_refuted_stuck (s' := c') (ops := [op]) hr h1 h2 h3 h4 h6 h5
    (fun e he => hno i e (List.mem_singleton.mp he).symm) (by simp [runOps, hs])
  exact ⟨M, i, obj, a, k.2.2.1, k.1, h3, h4, h5, h6⟩

/-- C90: a reader that holds an event back for a Connect of its own side, which does not have its
answer, does so for good: whatever else happens in the session, closing included, the Connect stays without its
answer. (The context of the call may end, which these sessions leave out.) -/
theorem c90_stuck {s' : Sess} {op : SessOp} (hcons : BothConsistent cc sc) (hnc : cc.allowNative = false)
    (hns : sc.allowNative = false) (hcl : cc.isClient = true) (hsc : sc.isClient = false)
    (h : BothRun cc sc id ops s) (ho : BothRequests s op) (hs : sstep cc sc s op = some s') :
    (HeldBack s.c → HeldBack s'.c) ∧ (HeldBack s.d → HeldBack s'.d) := by
  have hinv := both_inv hcons hnc hns hcl hsc h
  cases op with
  | client op =>
    simp only [sstep] at hs
    split at hs
    · cases hs
    · obtain ⟨t, ht, rfl⟩ := Option.map_eq_some_iff.mp hs
      refine ⟨fun k => stuck_side hinv.rc k (fun i e he => ?_) ht, fun k => k⟩
      subst he
      exact (show False from ho).elim
  | server op =>
    simp only [sstep] at hs
    split at hs
    · cases hs
    · obtain ⟨t, ht, rfl⟩ := Option.map_eq_some_iff.mp hs
      refine ⟨fun k => k, fun k => stuck_side hinv.rd k (fun i e he => ?_) ht⟩
      subst he
      exact (show False from ho).elim
  | up =>
    simp only [sstep] at hs
    split at hs
    · cases hs
    · obtain ⟨t, ht, rfl⟩ := Option.map_eq_some_iff.mp hs
      exact ⟨fun k => k, fun k => stuck_side hinv.rd k (fun i e he => by cases he) ht⟩
  | down =>
    simp only [sstep] at hs
    split at hs
    · cases hs
    · obtain ⟨t, ht, rfl⟩ := Option.map_eq_some_iff.mp hs
      exact ⟨fun k => stuck_side hinv.rc k (fun i e he => by cases he) ht, fun k => k⟩
  | upAsk i => exact (show False from ho).elim
  | downAsk i => exact (show False from ho).elim

/-! ## Concrete sessions -/

theorem standstill_of (h1 : (sstep cc sc s .up).isNone = true) (h2 : (sstep cc sc s .down).isNone = true)
    (h3 : (sstep cc sc s (.client .wake)).isNone = true) (h4 : (sstep cc sc s (.server .wake)).isNone = true)
    (h5 : (List.range s.c.asks.length).all (fun i => (sstep cc sc s (.client (.resume i))).isNone) = true)
    (h6 : (List.range s.d.asks.length).all (fun i => (sstep cc sc s (.server (.resume i))).isNone) = true) :
    Standstill cc sc s := by
  refine ⟨Option.isNone_iff_eq_none.mp h1, Option.isNone_iff_eq_none.mp h2, Option.isNone_iff_eq_none.mp h3,
    Option.isNone_iff_eq_none.mp h4, fun i => ?_, fun i => ?_⟩
  · rcases Nat.lt_or_ge i s.c.asks.length with hi | hi
    · exact Option.isNone_iff_eq_none.mp (List.all_eq_true.mp h5 i (List.mem_range.mpr hi))
    · simp only [sstep, Op.reads, Bool.false_eq_true, if_false, resume_past hi, Option.map_none]
  · rcases Nat.lt_or_ge i s.d.asks.length with hi | hi
    · exact Option.isNone_iff_eq_none.mp (List.all_eq_true.mp h6 i (List.mem_range.mpr hi))
    · simp only [sstep, Op.reads, Bool.false_eq_true, if_false, resume_past hi, Option.map_none]

theorem picky_quiet : QuietLeaves pickyCli ∧ QuietLeaves pickySrv := ⟨fun _ _ _ _ _ => rfl, fun _ _ _ _ _ => rfl⟩

/-- C90, rest: two calls of each side in flight, then all of them return -/
def calmSess : List SessOp :=
  mixedSess ++ [.client (.resume 1), .server (.resume 1), .client (.resume 2), .server (.resume 2)]

abbrev calmed : Sess := bothRan pickyCli pickySrv (b! "u1") calmSess

example : BothConsistent pickyCli pickySrv ∧ QuietLeaves pickyCli ∧ QuietLeaves pickySrv ∧
    BothRun pickyCli pickySrv (b! "u1") calmSess calmed ∧ calmed.c.ready = some none ∧
    calmed.c.closed = false ∧ calmed.d.closed = false ∧ Standstill pickyCli pickySrv calmed ∧
    calmed.c.asks.length = 3 ∧ calmed.d.asks.length = 3 ∧ (∀ a ∈ calmed.c.asks, a.done = true) ∧
    ∀ a ∈ calmed.d.asks, a.done = true :=
  ⟨picky_consistent, picky_quiet.1, picky_quiet.2, bothRan_run (by decide +kernel), by decide +kernel, by decide +kernel,
    by decide +kernel, standstill_of (by decide +kernel) (by decide +kernel) (by decide +kernel) (by decide +kernel)
      (by decide +kernel) (by decide +kernel), by decide +kernel, by decide +kernel, by decide +kernel, by decide +kernel⟩

/-- the server connects the client to `chat` and disconnects it again, and emits in `chat` before its
Disconnect has returned; then the client connects to `chat` -/
def waitSess : List SessOp :=
  dialOps ++ [.server (.connect (b! "chat") 7 false), .down, .up, .server (.resume 0),
    .server (.disconnect 0 8 false), .server (.write { ns := b! "chat", event := b! "hi", body := b! "x" }),
    .down, .up, .server (.resume 1), .client (.connect (b! "chat") 9 false), .up, .down]

abbrev waited : Sess := bothRan pickyCli pickySrv (b! "u1") waitSess

theorem heldBack_of {c : St} {i : Nat} (h : (match c.rd, c.asks[i]? with
    | .gate M, some a => !a.done && (decide (a.mode = .table) && (a.box.isNone && (match a.cont with
      | .connect n _ => decide (n = M.ns)
      | _ => false)))
    | _, _ => false) = true) : HeldBack c := by
  split at h
  · rename_i M a hr ha
    simp only [Bool.and_eq_true, Bool.not_eq_true', decide_eq_true_eq, Option.isNone_iff_eq_none] at h
    obtain ⟨h1, h2, h3, h4⟩ := h
    split at h4
    · rename_i n obj hk
      simp only [decide_eq_true_eq] at h4
      subst h4
      exact ⟨M, i, obj, a, hr, ha, h1, h2, hk, h3⟩
    · cases h4
  · cases h

/-- C90 fails: there are sessions that stand still although a call has not returned, its answer has been
sent and no socket has failed. The client's reader holds an event back that the server emitted
before an earlier Disconnect of the server returned; the Connect of the client that it waits for has been
answered, and the answer is behind the event. -/
theorem c90_refuted : ∃ (cc sc : Cfg) (ops : List SessOp) (s : Sess), BothConsistent cc sc ∧
    cc.allowNative = false ∧ sc.allowNative = false ∧ cc.isClient = true ∧ sc.isClient = false ∧
    QuietLeaves cc ∧ QuietLeaves sc ∧ BothRun cc sc (b! "u1") ops s ∧ s.c.ready = some none ∧
    s.c.closed = false ∧ s.d.closed = false ∧ Standstill cc sc s ∧ HeldBack s.c ∧
    (∀ bin b, Obs.sent bin b false ∉ s.c.log) ∧ (∀ bin b, Obs.sent bin b false ∉ s.d.log) ∧
    s.d.rd = .idle ∧ (∀ a ∈ s.d.asks, a.done = true) ∧ s.d.namespace (b! "chat") ≠ none ∧
    s.up = (pipe s.c.log).length ∧ s.down + 1 = (pipe s.d.log).length :=
  ⟨pickyCli, pickySrv, waitSess, waited, picky_consistent, rfl, rfl, rfl, rfl, picky_quiet.1, picky_quiet.2,
    bothRan_run (by decide +kernel), by decide +kernel, by decide +kernel, by decide +kernel,
    standstill_of (by decide +kernel) (by decide +kernel) (by decide +kernel) (by decide +kernel) (by decide +kernel)
      (by decide +kernel), heldBack_of (i := 0) (by decide +kernel), no_false (by decide +kernel), no_false (by decide +kernel),
    by decide +kernel, by decide +kernel, by decide +kernel, by decide +kernel, by decide +kernel⟩

/-- C90, stuck: and nothing helps: the server calls Connect and emits, and the Connect of the client stays without its answer -/
example : BothRun pickyCli pickySrv (b! "u1") (waitSess ++ [.server (.connect (b! "game") 10 false),
        .server (.write { ns := b! "chat", event := b! "hi", body := b! "y" })])
      (bothRan pickyCli pickySrv (b! "u1") (waitSess ++ [.server (.connect (b! "game") 10 false),
        .server (.write { ns := b! "chat", event := b! "hi", body := b! "y" })])) ∧
    HeldBack (bothRan pickyCli pickySrv (b! "u1") (waitSess ++ [.server (.connect (b! "game") 10 false),
        .server (.write { ns := b! "chat", event := b! "hi", body := b! "y" })])).c :=
  ⟨bothRan_run (by decide +kernel), heldBack_of (i := 0) (by decide +kernel)⟩

end Neffos
