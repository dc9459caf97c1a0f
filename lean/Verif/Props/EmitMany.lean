import Verif.Proofs.Emit
import Verif.Props.AgreeMany
/-!
# C80: what becomes of an event that is emitted while calls are in flight
-/
set_option autoImplicit false
namespace Neffos
open Neffos.Spec

variable {cc sc : Cfg} {id : Bytes} {ops : List SessOp} {s s' s0 : Sess} {m : Message} {n : Nat}

/-- the write gate asks for the namespace, when it is not a request -/
theorem mayWrite_ns {cfg : Cfg} {s : St} (h : MayWrite cfg s m) (hm : AskMsg m) : InNs s m.ns := by
  rcases h.2.2 with h | h | ⟨obj, h, _⟩
  · exact absurd (.inl h) hm.2.2.2
  · exact absurd (.inr (.inl h)) hm.2.2.2
  · unfold InNs; rw [h]; simp

/-- the session in which the client emitted, standing still since -/
theorem up_point (hcons : Consistent cc sc) (hnc : cc.allowNative = false)
    (hns : sc.allowNative = false) (hcl : cc.isClient = true) (hsc : sc.isClient = false)
    (h : ManyRun cc sc id ops s) (he : EmitsUp cc sc id ops m n s0) (hm : AskMsg m)
    (hc : s.c.closed = false) (hd : s.d.closed = false) :
    AppMsg m ∧ InNs s0.c m.ns ∧ s0.c.closed = false ∧
      (pipe s.c.log)[n]? = some (if m.setBinary then .binary else .text, wireOf m) ∧
      (s.up ≤ n → ∃ ops', ManyRun cc sc id ops' { c := s0.c, d := s.d, up := s.up, down := s0.down }) := by
  obtain ⟨⟨before, s1, hpre, hrun, hst, hlen⟩, hplace⟩ := he
  obtain ⟨s1', hrun1, hc1, hd1⟩ := run_back hcons hnc hns hcl hsc h hpre
  have hreq : ManyRequests s0 (.client (.write m)) ∧ s1' = s1 := by
    generalize hx : before ++ [SessOp.client (.write m)] = x at hrun1
    cases hrun1 with
    | init => simp at hx
    | step k1 k2 k3 =>
      obtain ⟨e1, e2⟩ := List.append_inj' hx rfl
      cases e2
      subst e1
      cases manyRun_det hrun k1
      exact ⟨k2, Option.some.inj (k3.symm.trans hst)⟩
  obtain ⟨⟨hready, happ⟩, rfl⟩ : (s0.c.ready = some none ∧ AppMsg m) ∧ s1' = s1 := hreq
  have hc1 := hc1 hc
  have hd1 := hd1 hd
  obtain ⟨⟨l, hl⟩, _⟩ := freeze_client hcons hnc hns hcl hsc h hpre hrun1
  obtain ⟨_, hfr⟩ := freeze_client hcons hnc hns hcl hsc h ((List.prefix_append ..).trans hpre) hrun
  simp only [sstep, Op.reads, Bool.false_eq_true, if_false] at hst
  obtain ⟨t, ht, rfl⟩ := Option.map_eq_some_iff.mp hst
  obtain ⟨hex, _⟩ := step_exec ht
  simp only [exec] at hex
  cases hex
  dsimp only at hc1 hd1 hlen hl
  obtain ⟨hmay, htook⟩ := write_took hc1 (by rw [hlen, hplace])
  have hin := mayWrite_ns hmay hm
  refine ⟨happ, hin, hmay.1, ?_, fun hle => hfr (by rw [hplace]; exact hle)⟩
  rw [hl, pipe_append, htook, ← hplace]
  simp

/-- C80: the server reads what the client emitted. If it is connected to the namespace, the callback of
the event runs, once, and no other; it is connected unless a Disconnect of the namespace was in flight
when the client emitted, and then nothing runs. It is in the room if the client was, unless a call
about the room was in flight. -/
theorem c80_up (hcons : Consistent cc sc) (hnc : cc.allowNative = false)
    (hns : sc.allowNative = false) (hcl : cc.isClient = true) (hsc : sc.isClient = false)
    (h : ManyRun cc sc id ops s) (he : EmitsUp cc sc id ops m n s0) (hm : AskMsg m) (hn : s.up = n)
    (hst : sstep cc sc s .up = some s') (hc : s'.c.closed = false) (hd : s'.d.closed = false) :
    ((InNs s.d m.ns ∧ Runs s.d s'.d m) ∨ (¬ InNs s.d m.ns ∧ callsOf s'.d.log = callsOf s.d.log ∧
      ∃ a ∈ s0.c.asks, a.done = false ∧ ∃ obj msg, a.cont = .disconnect obj msg ∧ msg.ns = m.ns)) ∧
      (Unclaimed s0.c (m.ns, some m.room) → (InRoom s.d m.ns m.room ↔ InRoom s0.c m.ns m.room)) := by
  have hinv := many_inv hcons hnc hns hcl hsc h
  obtain ⟨j1, j2, _⟩ := sides hinv (show ManyRequests s .up from trivial) hst
  obtain ⟨happ, hin, ho, hpay, hfr⟩ := up_point hcons hnc hns hcl hsc h he hm (j1 hc) (j2 hd)
  obtain ⟨ops', hrun⟩ := hfr (Nat.le_of_eq hn)
  have hinv' := many_inv hcons hnc hns hcl hsc hrun
  obtain ⟨P, pu, pd, A, B, X, hmany⟩ : ∃ P pu pd A B X, Many P sc cc.known s0.c s.d pu pd A B X := by
    rcases hinv'.phase with x | x | x
    · rw [show s0.c.closed = true from x] at ho; cases ho
    · have := j2 hd; rw [show s.d.closed = true from x] at this; cases this
    · exact ⟨_, _, _, fresh_many x (.inl hin)⟩
  simp only [sstep, hn, hpay] at hst
  obtain ⟨t, ht, rfl⟩ := Option.map_eq_some_iff.mp hst
  have hgb : gateBlocks s.d m.ns = false := by
    unfold gateBlocks; rw [hmany.srv.gates]; rfl
  have hheard := (emit_wire sc.known happ hm).1
  have hh : Handled sc s.d _ t := .recv _ _ (emit_incoming hns hmany.srv.acked happ hm)
    (by rw [hheard.ns]; exact hgb) ht
  refine ⟨?_, fun hu => (hmany.agree_room hu).symm⟩
  by_cases hx : InNs s.d m.ns
  · exact .inl ⟨hx, handled_runs hinv.rd hh hheard hm hx hd⟩
  · refine .inr ⟨hx, handled_dropped hinv.rd hh hheard hm hx, Classical.byContradiction fun hno => hx ?_⟩
    refine (hmany.agree_ns fun a ha hd hk => hno ⟨a, ha, hd, ?_⟩).mp hin
    rcases hmany.about_ns ha hd hk with ⟨_, x⟩ | ⟨x, _⟩
    · exact x
    · exact absurd hin x

/-- the session in which the server emitted, standing still since -/
theorem down_point (hcons : Consistent cc sc) (hnc : cc.allowNative = false)
    (hns : sc.allowNative = false) (hcl : cc.isClient = true) (hsc : sc.isClient = false)
    (h : ManyRun cc sc id ops s) (he : EmitsDown cc sc id ops m n s0) (hm : AskMsg m)
    (hc : s.c.closed = false) (hd : s.d.closed = false) (hle : s.down ≤ n + 1) :
    AppMsg m ∧ (pipe s.d.log)[n]? = some (if m.setBinary then .binary else .text, wireOf m) ∧
      ∃ d P pu pd A B X, Many P sc cc.known s.c d pu pd A B X ∧ InNs d m.ns ∧ ∀ r, InRoom d m.ns r ↔ InRoom s0.d m.ns r := by
  obtain ⟨⟨before, s1, hpre, hrun, hst, hlen⟩, hplace⟩ := he
  obtain ⟨s1', hrun1, hc1, hd1⟩ := run_back hcons hnc hns hcl hsc h hpre
  have hreq : ManyRequests s0 (.server (.write m)) ∧ s1' = s1 := by
    generalize hx : before ++ [SessOp.server (.write m)] = x at hrun1
    cases hrun1 with
    | init => simp at hx
    | step k1 k2 k3 =>
      obtain ⟨e1, e2⟩ := List.append_inj' hx rfl
      cases e2
      subst e1
      cases manyRun_det hrun k1
      exact ⟨k2, Option.some.inj (k3.symm.trans hst)⟩
  obtain ⟨happ, rfl⟩ : AppMsg m ∧ s1' = s1 := hreq
  have hd1 := hd1 hd
  obtain ⟨⟨l, hl⟩, hfr⟩ := freeze_server hcons hnc hns hcl hsc h hpre hrun1
  simp only [sstep, Op.reads, Bool.false_eq_true, if_false] at hst
  obtain ⟨t, ht, rfl⟩ := Option.map_eq_some_iff.mp hst
  obtain ⟨hex, _⟩ := step_exec ht
  simp only [exec] at hex
  cases hex
  dsimp only at hd1 hlen hl hfr
  obtain ⟨hmay, htook⟩ := write_took hd1 (by rw [hlen, hplace])
  have hin : InNs (write sc s0.d m).1 m.ns := by
    rw [write_open hd1]
    exact mayWrite_ns hmay hm
  obtain ⟨ops', hrun'⟩ := hfr (by rw [hlen]; exact hle)
  refine ⟨happ, by rw [hl, pipe_append, htook, ← hplace]; simp, ?_⟩
  rcases (many_inv hcons hnc hns hcl hsc hrun').phase with x | x | x
  · rw [show s.c.closed = true from x] at hc; cases hc
  · rw [show (write sc s0.d m).1.closed = true from x] at hd1; cases hd1
  · obtain ⟨A, B, X, x⟩ := fresh_many x (.inr hin)
    exact ⟨_, _, _, _, A, B, X, x, hin, fun r => by rw [write_open hd1]; exact Iff.rfl⟩

/-- C80: the client reads what the server emitted. If it is connected to the namespace, the callback of
the event runs, once, and no other. Otherwise a Connect of the namespace is in flight, and the event is
held back; only when a Connect of the namespace has returned before can it be dropped instead. The client
is in the room if the server was, unless a call about the room is in flight. -/
theorem c80_down (hcons : Consistent cc sc) (hnc : cc.allowNative = false)
    (hns : sc.allowNative = false) (hcl : cc.isClient = true) (hsc : sc.isClient = false)
    (h : ManyRun cc sc id ops s) (he : EmitsDown cc sc id ops m n s0) (hm : AskMsg m) (hn : s.down = n)
    (hst : sstep cc sc s .down = some s') (hc : s'.c.closed = false) (hd : s'.d.closed = false) :
    ((InNs s.c m.ns ∧ Runs s.c s'.c m) ∨ (¬ InNs s.c m.ns ∧ InProgress s.c m.ns ∧
      ((∃ M, Heard m [] M ∧ s'.c = { s.c with rd := .gate M }) ∨
        (¬ NoneReturned s.c m.ns ∧ callsOf s'.c.log = callsOf s.c.log)))) ∧
      (Unclaimed s.c (m.ns, some m.room) → (InRoom s.c m.ns m.room ↔ InRoom s0.d m.ns m.room)) := by
  have hinv := many_inv hcons hnc hns hcl hsc h
  obtain ⟨j1, j2, _⟩ := sides hinv (show ManyRequests s .down from trivial) hst
  obtain ⟨happ, hpay, d, P, pu, pd, A, B, X, hmany, hin, hrooms⟩ :=
    down_point hcons hnc hns hcl hsc h he hm (j1 hc) (j2 hd) (by omega)
  simp only [sstep, hn, hpay] at hst
  obtain ⟨t, ht, rfl⟩ := Option.map_eq_some_iff.mp hst
  have hheard := (emit_wire cc.known happ hm).1
  have hi := emit_incoming hnc hmany.cli.acked happ hm
  have h1 : m.event ≠ OnNamespaceConnect := fun x => hm.2.2.2 (.inl x)
  have h2 : m.event ≠ OnNamespaceDisconnect := fun x => hm.2.2.2 (.inr (.inl x))
  refine ⟨?_, fun hu => (hmany.agree_room hu).trans (hrooms _)⟩
  by_cases hx : InNs s.c m.ns
  · refine .inl ⟨hx, ?_⟩
    have hnp : ¬ InProgress s.c m.ns := by
      rintro ⟨i, obj, a, ha, hd, hk⟩
      rcases hmany.about_ns (n := m.ns) (List.mem_of_getElem? ha) hd (by rw [hk]; rfl) with ⟨_, _, _, y, _⟩ | ⟨y, _⟩
      · rw [hk] at y; cases y
      · exact y hx
    obtain ⟨hh, _⟩ := c32_event_passes_partial hinv.rc hi (by rw [hheard.event]; exact h1) (by rw [hheard.event]; exact h2)
      (by rw [hheard.ns]; exact hnp) ht
    exact handled_runs hinv.rc hh hheard hm hx hc
  · refine .inr ⟨hx, Classical.byContradiction fun hno => hx ?_, ?_⟩
    · refine (hmany.agree_ns fun a ha hd hk => hno ?_).mpr hin
      obtain ⟨i, hi⟩ := List.getElem?_of_mem ha
      rcases hmany.about_ns ha hd hk with ⟨y, _⟩ | ⟨_, obj, y⟩
      · exact absurd y hx
      · exact ⟨i, obj, a, hi, hd, y⟩
    · cases hgb : gateBlocks s.c m.ns with
      | true =>
        refine .inl ⟨_, hheard, ?_⟩
        obtain ⟨e, _⟩ := step_recv hi ht
        dsimp only
        rw [e, dispatch, if_neg (by rw [hheard.event]; exact h1), if_neg (by rw [hheard.event]; exact h2),
          if_pos (by rw [hheard.ns]; exact hgb)]
      | false =>
        have hh : Handled cc s.c _ t := .recv _ _ hi (by rw [hheard.ns]; exact hgb) ht
        refine .inr ⟨fun hnone => ?_, handled_dropped hinv.rc hh hheard hm hx⟩
        have hp : InProgress s.c m.ns := Classical.byContradiction fun hno => hx (by
          refine (hmany.agree_ns fun a ha hd hk => hno ?_).mpr hin
          obtain ⟨i, hi⟩ := List.getElem?_of_mem ha
          rcases hmany.about_ns ha hd hk with ⟨y, _⟩ | ⟨_, obj, y⟩
          · exact absurd y hx
          · exact ⟨i, obj, a, hi, hd, y⟩)
        have e := c32_event_held_partial hinv.rc hi (by rw [hheard.event]; exact h1) (by rw [hheard.event]; exact h2)
          (by rw [hheard.ns]; exact hp) (by rw [hheard.ns]; exact hnone) ht
        obtain ⟨e', _⟩ := step_recv hi ht
        rw [dispatch, if_neg (by rw [hheard.event]; exact h1), if_neg (by rw [hheard.event]; exact h2),
          if_neg (by rw [hheard.ns]; simp [hgb])] at e'
        have hrd := (rd_afterGate (cfg := cc) s.c (deserializeMessage cc.known (if m.setBinary then .binary else .text) (wireOf m) false false)).rd
        rw [← e', e] at hrd
        obtain ⟨he, _⟩ := step_exec ht
        simp only [exec] at he
        split at he
        · rename_i hidle
          rw [hidle.1] at hrd
          cases hrd
        · cases he

/-- C80: the event that is held back is that one, and when the reader continues the callback of the
event runs, once, and no other. -/
theorem c80_woken {M : Message} (hcons : Consistent cc sc) (hnc : cc.allowNative = false)
    (hns : sc.allowNative = false) (hcl : cc.isClient = true) (hsc : sc.isClient = false)
    (h : ManyRun cc sc id ops s) (he : EmitsDown cc sc id ops m n s0) (hm : AskMsg m) (hn : s.down = n + 1)
    (hg : s.c.rd = .gate M) (hst : sstep cc sc s (.client .wake) = some s')
    (hc : s'.c.closed = false) (hd : s'.d.closed = false) :
    Heard m [] M ∧ Runs s.c s'.c m ∧ s'.c.rd = .idle ∧
      (Unclaimed s.c (m.ns, some m.room) → (InRoom s.c m.ns m.room ↔ InRoom s0.d m.ns m.room)) := by
  have hinv := many_inv hcons hnc hns hcl hsc h
  obtain ⟨j1, j2, _⟩ := sides hinv (show ManyRequests s (.client .wake) from trivial) hst
  obtain ⟨happ, hpay, d, P, pu, pd, A, B, X, hmany, hin, hrooms⟩ :=
    down_point hcons hnc hns hcl hsc h he hm (j1 hc) (j2 hd) (by omega)
  obtain ⟨k, x, h1, h2, rfl, _⟩ := held_last hcons hnc hns hcl hsc h (j1 hc) (j2 hd) M hg
  have hk : k = n := by omega
  subst hk
  rw [hpay] at h2
  cases h2
  have hheard := (emit_wire cc.known happ hm).1
  simp only [sstep, Op.reads, Bool.false_eq_true, if_false] at hst
  obtain ⟨t, ht, rfl⟩ := Option.map_eq_some_iff.mp hst
  have hx : InNs s.c m.ns := Classical.byContradiction fun hno => by
    refine hno ((hmany.agree_ns fun a ha hd hk => ?_).mpr hin)
    obtain ⟨i, hi⟩ := List.getElem?_of_mem ha
    rcases hmany.about_ns ha hd hk with ⟨y, _⟩ | ⟨_, obj, y⟩
    · exact hno y
    · have := (c32_event_waits hinv.rc hg (by rw [hheard.ns]; exact ⟨i, obj, a, hi, hd, y⟩)).1
      rw [ht] at this
      cases this
  have hh : Handled cc s.c _ t := .wake hg hmany.cli.todo hmany.cli.ackAfter ht
  refine ⟨hheard, handled_runs hinv.rc hh hheard hm hx hc, ?_, fun hu => (hmany.agree_room hu).trans (hrooms _)⟩
  have hidle : ∀ M : Message, s.c.rd = .gate M → t.rd = .idle := fun M hg => by
    obtain ⟨he, _⟩ := step_exec ht
    simp only [exec, wakeReader, hg] at he
    split at he
    · have hrd := rd_afterGate (cfg := cc) { s.c with rd := .idle } M
      have h1 : (afterGate cc { s.c with rd := .idle } M).rd = .idle := hrd.rd
      have h2 : (afterGate cc { s.c with rd := .idle } M).todo = [] := hrd.todo.trans hmany.cli.todo
      have h3 : (afterGate cc { s.c with rd := .idle } M).ackAfter = false := hrd.ackAfter.trans hmany.cli.ackAfter
      rw [if_pos h1, h2, drain_nil _ h2 h3] at he
      cases he
      exact h1
    · cases he
  exact hidle _ hg

/-! ## Concrete sessions -/

theorem emits_up {before ops rest : List SessOp} (hops : ops = before ++ .client (.write m) :: rest)
    (h1 : (manyRun cc sc (newSess cc sc id) before).isSome = true)
    (h2 : (sstep cc sc (manyRan cc sc id before) (.client (.write m))).isSome = true)
    (h3 : (pipe (stepped cc sc (manyRan cc sc id before) (.client (.write m))).c.log).length = n + 1)
    (h4 : (pipe (manyRan cc sc id before).c.log).length = n) :
    EmitsUp cc sc id ops m n (manyRan cc sc id before) :=
  ⟨⟨before, _, ⟨rest, by rw [hops]; simp⟩, manyRan_run h1, stepped_eq h2, h3⟩, h4⟩

theorem emits_down {before ops rest : List SessOp} (hops : ops = before ++ .server (.write m) :: rest)
    (h1 : (manyRun cc sc (newSess cc sc id) before).isSome = true)
    (h2 : (sstep cc sc (manyRan cc sc id before) (.server (.write m))).isSome = true)
    (h3 : (pipe (stepped cc sc (manyRan cc sc id before) (.server (.write m))).d.log).length = n + 1)
    (h4 : (pipe (manyRan cc sc id before).d.log).length = n) :
    EmitsDown cc sc id ops m n (manyRan cc sc id before) :=
  ⟨⟨before, _, ⟨rest, by rw [hops]; simp⟩, manyRan_run h1, stepped_eq h2, h3⟩, h4⟩

abbrev hiMsg : Message := { ns := b! "chat", event := b! "hi", body := b! "x" }

theorem hi_ask : AskMsg hiMsg :=
  ⟨oneOk_safe (by decide +kernel), oneOk_safe (by decide +kernel), oneOk_safe (by decide +kernel),
    by unfold isRequest; decide +kernel⟩

abbrev bran (ops : List SessOp) : Sess := manyRan busyCli busySrv (b! "u1") ops

/-- what ran, on which event and with which body -/
def ranOn (s : St) : List (Bytes × Bytes) := (callsOf s.log).map fun c => (c.msg.event, c.msg.body)

def chatUp : List SessOp :=
  dialOps ++ [.client (.connect (b! "chat") 7 false), .up, .down, .client (.resume 0)]

/-- the client emits `hi` with the Connect of another namespace and the Join of a room in flight -/
def emitBefore : List SessOp :=
  chatUp ++ [.client (.connect (b! "game") 8 false), .client (.join 0 (b! "r") 9 false)]

def emitSess : List SessOp := emitBefore ++ [.client (.write hiMsg), .up, .up]

/-- C80, up: the hypotheses hold with two calls in flight; the callback runs -/
example : Consistent busyCli busySrv ∧ ManyRun busyCli busySrv (b! "u1") emitSess (bran emitSess) ∧
    EmitsUp busyCli busySrv (b! "u1") emitSess hiMsg 4 (bran emitBefore) ∧ AskMsg hiMsg ∧ (bran emitSess).up = 4 ∧
    sstep busyCli busySrv (bran emitSess) .up = some (stepped busyCli busySrv (bran emitSess) .up) ∧
    (stepped busyCli busySrv (bran emitSess) .up).c.closed = false ∧
    (stepped busyCli busySrv (bran emitSess) .up).d.closed = false ∧
    ((bran emitSess).c.asks.filter fun a => !a.done).length = 2 ∧
    ranOn (stepped busyCli busySrv (bran emitSess) .up).d = ranOn (bran emitSess).d ++ [(b! "hi", b! "x")] :=
  ⟨busy_consistent, manyRan_run (by decide +kernel), emits_up (rest := [.up, .up]) rfl (by decide +kernel) (by decide +kernel)
      (by decide +kernel) (by decide +kernel), hi_ask, by decide +kernel, stepped_eq (by decide +kernel), by decide +kernel,
    by decide +kernel, by decide +kernel, by decide +kernel⟩

/-- the client emits `hi` before its Disconnect has returned -/
def lateBefore : List SessOp := chatUp ++ [.client (.disconnect 0 8 false)]
def lateSess : List SessOp := lateBefore ++ [.client (.write hiMsg), .up]

/-- C80, up: the hypotheses hold; the server has taken the Disconnect and nothing runs -/
example : ManyRun busyCli busySrv (b! "u1") lateSess (bran lateSess) ∧
    EmitsUp busyCli busySrv (b! "u1") lateSess hiMsg 3 (bran lateBefore) ∧ (bran lateSess).up = 3 ∧
    sstep busyCli busySrv (bran lateSess) .up = some (stepped busyCli busySrv (bran lateSess) .up) ∧
    (stepped busyCli busySrv (bran lateSess) .up).c.closed = false ∧
    (stepped busyCli busySrv (bran lateSess) .up).d.closed = false ∧
    (bran lateSess).d.namespace (b! "chat") = none ∧ (bran lateBefore).c.namespace (b! "chat") = some 0 ∧
    ranOn (stepped busyCli busySrv (bran lateSess) .up).d = ranOn (bran lateSess).d :=
  ⟨manyRan_run (by decide +kernel), emits_up (rest := [.up]) rfl (by decide +kernel) (by decide +kernel)
      (by decide +kernel) (by decide +kernel), by decide +kernel, stepped_eq (by decide +kernel), by decide +kernel,
    by decide +kernel, by decide +kernel, by decide +kernel, by decide +kernel⟩

/-- the server emits `hi` while the client joins a room -/
def downBefore : List SessOp := chatUp ++ [.client (.join 0 (b! "r") 8 false), .up]
def downSess : List SessOp := downBefore ++ [.server (.write hiMsg), .down]

/-- C80, down: the hypotheses hold with the Join in flight; the callback runs -/
example : ManyRun busyCli busySrv (b! "u1") downSess (bran downSess) ∧
    EmitsDown busyCli busySrv (b! "u1") downSess hiMsg 3 (bran downBefore) ∧ (bran downSess).down = 3 ∧
    sstep busyCli busySrv (bran downSess) .down = some (stepped busyCli busySrv (bran downSess) .down) ∧
    (stepped busyCli busySrv (bran downSess) .down).c.closed = false ∧
    (stepped busyCli busySrv (bran downSess) .down).d.closed = false ∧
    ((bran downSess).c.asks.filter fun a => !a.done).length = 1 ∧
    ranOn (stepped busyCli busySrv (bran downSess) .down).c = ranOn (bran downSess).c ++ [(b! "hi", b! "x")] :=
  ⟨manyRan_run (by decide +kernel), emits_down (rest := [.down]) rfl (by decide +kernel) (by decide +kernel)
      (by decide +kernel) (by decide +kernel), by decide +kernel, stepped_eq (by decide +kernel), by decide +kernel,
    by decide +kernel, by decide +kernel, by decide +kernel⟩

/-- the server emits `hi` right after it has accepted the Connect; the client reads the answer and the
event before its Connect resumes -/
def earlyBefore : List SessOp := dialOps ++ [.client (.connect (b! "chat") 7 false), .up]
def earlySess : List SessOp := earlyBefore ++ [.server (.write hiMsg), .down]
def heldSess : List SessOp := earlySess ++ [.down, .client (.resume 0)]

/-- C80, down and woken: the hypotheses hold; the event is held back, and runs after the Connect returned -/
example : ManyRun busyCli busySrv (b! "u1") earlySess (bran earlySess) ∧
    EmitsDown busyCli busySrv (b! "u1") earlySess hiMsg 2 (bran earlyBefore) ∧ (bran earlySess).down = 2 ∧
    sstep busyCli busySrv (bran earlySess) .down = some (stepped busyCli busySrv (bran earlySess) .down) ∧
    (stepped busyCli busySrv (bran earlySess) .down).c.closed = false ∧
    (stepped busyCli busySrv (bran earlySess) .down).d.closed = false ∧
    (bran earlySess).c.namespace (b! "chat") = none ∧
    (stepped busyCli busySrv (bran earlySess) .down).c.rd = .gate hiMsg ∧
    ManyRun busyCli busySrv (b! "u1") heldSess (bran heldSess) ∧
    EmitsDown busyCli busySrv (b! "u1") heldSess hiMsg 2 (bran earlyBefore) ∧ (bran heldSess).down = 3 ∧
    (bran heldSess).c.rd = .gate hiMsg ∧
    sstep busyCli busySrv (bran heldSess) (.client .wake) = some (stepped busyCli busySrv (bran heldSess) (.client .wake)) ∧
    (stepped busyCli busySrv (bran heldSess) (.client .wake)).c.closed = false ∧
    (stepped busyCli busySrv (bran heldSess) (.client .wake)).d.closed = false ∧
    ranOn (stepped busyCli busySrv (bran heldSess) (.client .wake)).c = ranOn (bran heldSess).c ++ [(b! "hi", b! "x")] :=
  ⟨manyRan_run (by decide +kernel), emits_down (rest := [.down]) rfl (by decide +kernel) (by decide +kernel)
      (by decide +kernel) (by decide +kernel), by decide +kernel, stepped_eq (by decide +kernel), by decide +kernel,
    by decide +kernel, by decide +kernel, by decide +kernel,
    manyRan_run (by decide +kernel), emits_down (rest := [.down, .down, .client (.resume 0)]) rfl (by decide +kernel) (by decide +kernel)
      (by decide +kernel) (by decide +kernel), by decide +kernel, by decide +kernel, stepped_eq (by decide +kernel), by decide +kernel,
    by decide +kernel, by decide +kernel⟩

/-- Connect, Disconnect and Connect again; the server emits `hi` right after it has accepted the second
Connect; the client reads the answer before its second Connect resumes -/
def againBefore : List SessOp :=
  chatUp ++ [.client (.disconnect 0 8 false), .up, .down, .client (.resume 1), .client (.connect (b! "chat") 9 false), .up]
def againSess : List SessOp := againBefore ++ [.server (.write hiMsg), .down]

/-- C80: only the first Connect of a namespace holds events back. The server is connected to the
namespace and emits an event, the client is about to return a successful Connect, nobody disconnects or
fails, and still the event is dropped: no callback ever runs for it. -/
theorem c80_reconnect_refuted : ∃ (cc sc : Cfg) (ops : List SessOp) (s s' s'' s0 : Sess) (m : Message) (n : Nat), Consistent cc sc ∧
    cc.allowNative = false ∧ sc.allowNative = false ∧ cc.isClient = true ∧ sc.isClient = false ∧
    ManyRun cc sc (b! "u1") ops s ∧ EmitsDown cc sc (b! "u1") ops m n s0 ∧ AskMsg m ∧ s.down = n ∧
    sstep cc sc s .down = some s' ∧ s'.c.closed = false ∧ s'.d.closed = false ∧
    callsOf s'.c.log = callsOf s.c.log ∧ s'.c.rd = .idle ∧ InNs s'.d m.ns ∧
    sstep cc sc s' (.client (.resume 2)) = some s'' ∧ InNs s''.c m.ns ∧ NoRequest s''.c ∧ s''.c.closed = false ∧
    (retOf s''.c.log).map (·.2) = [.nsConn 0, .ok, .nsConn 1] ∧
    (pipe s''.d.log).length = s''.down :=
  ⟨busyCli, busySrv, againSess, bran againSess, stepped busyCli busySrv (bran againSess) .down,
    busyThen (stepped busyCli busySrv (bran againSess) .down) 2, bran againBefore, hiMsg, 4,
    busy_consistent, by decide +kernel, by decide +kernel, by decide +kernel, by decide +kernel,
    manyRan_run (by decide +kernel), emits_down (rest := [.down]) rfl (by decide +kernel) (by decide +kernel)
      (by decide +kernel) (by decide +kernel), hi_ask, by decide +kernel, stepped_eq (by decide +kernel), by decide +kernel,
    by decide +kernel, by decide +kernel, by decide +kernel, by unfold InNs; decide +kernel, stepped_eq (by decide +kernel),
    by unfold InNs; decide +kernel, by unfold NoRequest; decide +kernel, by decide +kernel, by decide +kernel, by decide +kernel⟩

end Neffos
