import Verif.Model.WaitConnect
import Verif.Proofs.ConnRun
/-!
# C71: WaitConnect
-/
set_option autoImplicit false
namespace Neffos

/-- the steps of the connection alone -/
def connOps : List WaitOp → List Op
  | [] => []
  | .conn op :: t => op :: connOps t
  | .wait _ :: t => connOps t

theorem connOps_append (l m : List WaitOp) : connOps (l ++ m) = connOps l ++ connOps m := by
  induction l with
  | nil => rfl
  | cons o t ih => cases o <;> simp [connOps, ih]

theorem waitRun_conn {cfg : Cfg} {name : Bytes} {ops : List WaitOp} :
    ∀ {p q : St × NsWaiter}, waitRun cfg name p ops = some q → runOps cfg p.1 (connOps ops) = some q.1 := by
  induction ops with
  | nil => intro p q h; cases h; rfl
  | cons o t ih =>
    intro p q h
    simp only [waitRun, Option.bind_eq_some_iff] at h
    obtain ⟨p1, h1, h2⟩ := h
    cases o with
    | conn op =>
      simp only [waitOpStep, Option.map_eq_some_iff] at h1
      obtain ⟨s1, hs1, rfl⟩ := h1
      simp only [connOps, runOps, hs1]
      exact ih h2
    | wait ctx => cases h1; exact ih (p := (p.1, waitStep name ctx p.1 p.2)) h2

theorem waitRun_snoc {cfg : Cfg} {name : Bytes} (ops : List WaitOp) (o : WaitOp) :
    ∀ p, waitRun cfg name p (ops ++ [o]) = (waitRun cfg name p ops).bind fun q => waitOpStep cfg name q o := by
  induction ops with
  | nil => intro p; simp [waitRun]
  | cons a t ih =>
    intro p
    simp only [List.cons_append, waitRun]
    cases waitOpStep cfg name p a with
    | none => rfl
    | some p' => exact ih p'

theorem waitOps_ind {P : List WaitOp → Prop} (h0 : P []) (h1 : ∀ l x, P l → P (l ++ [x])) : ∀ l, P l := by
  intro l
  rw [← List.reverse_reverse l]
  induction l.reverse with
  | nil => exact h0
  | cons x t ih => rw [List.reverse_cons]; exact h1 _ _ ih

/-- After these steps of a connection the goroutine has found `obj`: at some moment the connection had it for the namespace. -/
def Found (cfg : Cfg) (name : Bytes) (s0 : St) (ops : List WaitOp) (obj : Nat) : Prop :=
  ∃ l r s, ops = l ++ r ∧ runOps cfg s0 (connOps l) = some s ∧ s.namespace name = some obj

theorem Found.more {cfg : Cfg} {name : Bytes} {s0 : St} {ops : List WaitOp} {obj : Nat} (h : Found cfg name s0 ops obj)
    (o : WaitOp) : Found cfg name s0 (ops ++ [o]) obj := by
  obtain ⟨l, r, s, rfl, h1, h2⟩ := h
  exact ⟨l, r ++ [o], s, by simp, h1, h2⟩

theorem wait_inv {cfg : Cfg} {name : Bytes} {s0 : St} {ops : List WaitOp} :
    ∀ {q}, waitRun cfg name (s0, {}) ops = some q →
      (∀ obj, q.2.ns = some obj → Found cfg name s0 ops obj) ∧
      (∀ obj, q.2.pc = .done (.ok obj) → Found cfg name s0 ops obj ∧ ∃ l r s, ops = l ++ r ∧
        runOps cfg s0 (connOps l) = some s ∧ s.acked = true) ∧
      (∀ e, q.2.pc = .done (.error e) → WaitOp.wait (some e) ∈ ops) := by
  induction ops using waitOps_ind with
  | h0 => intro q h; cases h; simp
  | h1 l x ih =>
    intro q h
    rw [waitRun_snoc, Option.bind_eq_some_iff] at h
    obtain ⟨p, hp, hq⟩ := h
    obtain ⟨i1, i2, i3⟩ := ih hp
    have hc := waitRun_conn hp
    cases x with
    | conn op =>
      simp only [waitOpStep, Option.map_eq_some_iff] at hq
      obtain ⟨s, _, rfl⟩ := hq
      refine ⟨fun obj h => (i1 obj h).more _, fun obj h => ?_, fun e h => List.mem_append_left _ (i3 e h)⟩
      obtain ⟨a, b, r, s, he, h1, h2⟩ := i2 obj h
      exact ⟨a.more _, b, r ++ [.conn op], s, by rw [he]; simp, h1, h2⟩
    | wait ctx =>
      simp only [waitOpStep, Option.some.injEq] at hq
      subst hq
      obtain ⟨s, ns, pc⟩ := p
      simp only at i1 i2 i3 hc ⊢
      have here : ∀ obj, s.namespace name = some obj → Found cfg name s0 (l ++ [WaitOp.wait ctx]) obj :=
        fun obj h => ⟨l, [.wait ctx], s, rfl, hc, h⟩
      cases pc with
      | select =>
        cases ctx with
        | none =>
          exact ⟨fun obj h => (i1 obj h).more _, by simp [waitStep], by simp [waitStep]⟩
        | some e =>
          refine ⟨fun obj h => (i1 obj h).more _, by simp [waitStep], ?_⟩
          intro e' h
          simp only [waitStep, WaitPc.done.injEq, Except.error.injEq] at h
          subst h
          simp
      | look =>
        cases ns with
        | none => exact ⟨fun obj h => here obj h, by simp [waitStep], by simp [waitStep]⟩
        | some o => exact ⟨fun obj h => (i1 obj h).more _, by simp [waitStep], by simp [waitStep]⟩
      | ack =>
        cases ns with
        | none => exact ⟨by simp [waitStep], by simp [waitStep], by simp [waitStep]⟩
        | some o =>
          by_cases ha : s.acked = true
          · refine ⟨fun obj h => (i1 obj (by simpa [waitStep, ha] using h)).more _, ?_, by simp [waitStep, ha]⟩
            intro obj h
            simp only [waitStep, ha, if_true, WaitPc.done.injEq, Except.ok.injEq] at h
            subst h
            exact ⟨(i1 o rfl).more _, l, [.wait ctx], s, rfl, hc, ha⟩
          · exact ⟨fun obj h => (i1 obj (by simpa [waitStep, ha] using h)).more _, by simp [waitStep, ha],
              by simp [waitStep, ha]⟩
      | done r =>
        refine ⟨fun obj h => (i1 obj h).more _, fun obj h => ?_, fun e h => List.mem_append_left _ (i3 e h)⟩
        obtain ⟨a, b, r', s', he, h1, h2⟩ := i2 obj h
        exact ⟨a.more _, b, r' ++ [.wait ctx], s', by rw [he]; simp, h1, h2⟩

/-- C71: an NSConn that WaitConnect returns was connected to the namespace at some moment of the call, and the connection
was acknowledged at some moment of the call. -/
theorem c71_returned {cfg : Cfg} {name : Bytes} {s0 : St} {ops : List WaitOp} {s : St} {w : NsWaiter} {obj : Nat}
    (h : waitRun cfg name (s0, {}) ops = some (s, w)) (hd : w.pc = .done (.ok obj)) :
    (∃ l r s', ops = l ++ r ∧ runOps cfg s0 (connOps l) = some s' ∧ s'.namespace name = some obj) ∧
    ∃ l r s', ops = l ++ r ∧ runOps cfg s0 (connOps l) = some s' ∧ s'.acked = true :=
  (wait_inv h).2.1 obj hd

/-- C71: an error that WaitConnect returns is that of its context, which was done. -/
theorem c71_error {cfg : Cfg} {name : Bytes} {s0 : St} {ops : List WaitOp} {s : St} {w : NsWaiter} {e : GoErr}
    (h : waitRun cfg name (s0, {}) ops = some (s, w)) (hd : w.pc = .done (.error e)) : WaitOp.wait (some e) ∈ ops :=
  (wait_inv h).2.2 e hd

/-- C71: wherever the loop is, if the namespace is connected and the connection acknowledged, four steps of the goroutine suffice
to return; if it had found nothing before, with the NSConn of the namespace. -/
theorem c71_finds {cfg : Cfg} {name : Bytes} {s : St} {w : NsWaiter} {obj : Nat} (hn : s.namespace name = some obj)
    (ha : s.acked = true) (hw : ∀ r, w.pc ≠ .done r) :
    ∃ n ≤ 4, ∃ w', waitRun cfg name (s, w) (List.replicate n (.wait none)) = some (s, w') ∧
      w'.pc = .done (.ok (w.ns.getD obj)) := by
  obtain ⟨ns, pc⟩ := w
  cases pc with
  | select =>
    cases ns with
    | none => exact ⟨3, by omega, ⟨some obj, .done (.ok obj)⟩, by simp [waitRun, waitOpStep, waitStep, hn, ha, List.replicate], rfl⟩
    | some o => exact ⟨3, by omega, ⟨some o, .done (.ok o)⟩, by simp [waitRun, waitOpStep, waitStep, ha, List.replicate], rfl⟩
  | look =>
    cases ns with
    | none => exact ⟨2, by omega, ⟨some obj, .done (.ok obj)⟩, by simp [waitRun, waitOpStep, waitStep, hn, ha, List.replicate], rfl⟩
    | some o => exact ⟨2, by omega, ⟨some o, .done (.ok o)⟩, by simp [waitRun, waitOpStep, waitStep, ha, List.replicate], rfl⟩
  | ack =>
    cases ns with
    | none => exact ⟨4, by omega, ⟨some obj, .done (.ok obj)⟩, by simp [waitRun, waitOpStep, waitStep, hn, ha, List.replicate], rfl⟩
    | some o => exact ⟨1, by omega, ⟨some o, .done (.ok o)⟩, by simp [waitRun, waitOpStep, waitStep, ha, List.replicate], rfl⟩
  | done r => exact absurd rfl (hw r)

/-- C71: a context that is done ends the call within three steps, unless it returns the NSConn that it has found. -/
theorem c71_context {cfg : Cfg} {name : Bytes} {s : St} {w : NsWaiter} (e : GoErr) (hw : ∀ r, w.pc ≠ .done r) :
    ∃ n ≤ 3, ∃ w' r, waitRun cfg name (s, w) (List.replicate n (.wait (some e))) = some (s, w') ∧ w'.pc = .done r ∧
      (r = .error e ∨ s.acked = true ∧ ∃ obj, r = .ok obj ∧ (w.ns = some obj ∨ s.namespace name = some obj)) := by
  obtain ⟨ns, pc⟩ := w
  cases pc with
  | select => exact ⟨1, by omega, ⟨ns, .done (.error e)⟩, .error e, by simp [waitRun, waitOpStep, waitStep, List.replicate], rfl, .inl rfl⟩
  | look =>
    by_cases ha : s.acked = true
    · cases ns with
      | none =>
        cases hn : s.namespace name with
        | none =>
          exact ⟨3, by omega, ⟨none, .done (.error e)⟩, .error e, by simp [waitRun, waitOpStep, waitStep, hn, List.replicate], rfl,
            .inl rfl⟩
        | some o =>
          exact ⟨2, by omega, ⟨some o, .done (.ok o)⟩, .ok o, by simp [waitRun, waitOpStep, waitStep, hn, ha, List.replicate], rfl,
            .inr ⟨ha, o, rfl, .inr rfl⟩⟩
      | some o =>
        exact ⟨2, by omega, ⟨some o, .done (.ok o)⟩, .ok o, by simp [waitRun, waitOpStep, waitStep, ha, List.replicate], rfl,
          .inr ⟨ha, o, rfl, .inl rfl⟩⟩
    · cases ns with
      | none =>
        refine ⟨3, by omega, ⟨s.namespace name, .done (.error e)⟩, .error e, ?_, rfl, .inl rfl⟩
        cases hn : s.namespace name <;> simp [waitRun, waitOpStep, waitStep, hn, ha, List.replicate]
      | some o =>
        exact ⟨3, by omega, ⟨some o, .done (.error e)⟩, .error e, by simp [waitRun, waitOpStep, waitStep, ha, List.replicate], rfl,
          .inl rfl⟩
  | ack =>
    cases ns with
    | none => exact ⟨2, by omega, ⟨none, .done (.error e)⟩, .error e, by simp [waitRun, waitOpStep, waitStep, List.replicate], rfl, .inl rfl⟩
    | some o =>
      by_cases ha : s.acked = true
      · exact ⟨1, by omega, ⟨some o, .done (.ok o)⟩, .ok o, by simp [waitRun, waitOpStep, waitStep, ha, List.replicate], rfl,
          .inr ⟨ha, o, rfl, .inl rfl⟩⟩
      · exact ⟨2, by omega, ⟨some o, .done (.error e)⟩, .error e, by simp [waitRun, waitOpStep, waitStep, ha, List.replicate], rfl,
          .inl rfl⟩
  | done r => exact absurd rfl (hw r)

/-- C71 fails: on a connection that is not acknowledged, or has no such namespace, and stays so, as after Close, the call
never returns unless its context is done. -/
theorem c71_closed_refuted {cfg : Cfg} {name : Bytes} {s : St} (hs : s.acked = false ∨ s.namespace name = none) (n : Nat) :
    ∃ w, waitRun cfg name (s, {}) (List.replicate n (.wait none)) = some (s, w) ∧ ∀ r, w.pc ≠ .done r := by
  have key : ∀ n (w : NsWaiter), (∀ r, w.pc ≠ .done r) → (s.acked = false ∨ w.ns = none) →
      ∃ w', waitRun cfg name (s, w) (List.replicate n (.wait none)) = some (s, w') ∧ ∀ r, w'.pc ≠ .done r := by
    intro n
    induction n with
    | zero => intro w h _; exact ⟨w, rfl, h⟩
    | succ n ih =>
      intro w h hns
      obtain ⟨ns, pc⟩ := w
      simp only [List.replicate_succ, waitRun, waitOpStep, Option.bind_some]
      cases pc with
      | select => exact ih _ (by simp [waitStep]) (by simpa [waitStep] using hns)
      | look =>
        cases ns with
        | none => exact ih _ (by simp [waitStep]) (by simpa [waitStep] using hs)
        | some o => exact ih _ (by simp [waitStep]) (by simpa [waitStep] using hns)
      | ack =>
        cases ns with
        | none => exact ih _ (by simp [waitStep]) (by simp [waitStep])
        | some o =>
          have ha : s.acked = false := by simpa using hns
          exact ih _ (by simp [waitStep, ha]) (.inl ha)
      | done r => exact absurd rfl (h r)
  exact key n {} (by simp) (.inr rfl)

/-- a client that is connected to `chat`, closed -/
def closedChat : St := after (clientCfg chatDecl noCb) [] (chatOps ++ [.close])

example : Reach (clientCfg chatDecl noCb) [] closedChat ∧ closedChat.closed = true ∧
    (closedChat.acked = false ∨ closedChat.namespace (b! "chat") = none) :=
  ⟨after_reach (by decide +kernel), by decide +kernel, .inl (by decide +kernel)⟩

/-- the goroutine finds the NSConn; the client disconnects; the goroutine goes on -/
def staleWait : List WaitOp :=
  (chatOps.map WaitOp.conn) ++ [.wait none, .wait none, .conn (.disconnect 0 9 false),
    .conn (.recv .text (b! "$9;;;;;;")), .conn (.resume 1), .wait none]

/-- C71 fails: WaitConnect can return an NSConn that is no longer connected. -/
theorem c71_stale_refuted : ∃ (s : St) (w : NsWaiter),
    waitRun (clientCfg chatDecl noCb) (b! "chat") (newConn (clientCfg chatDecl noCb) [], {}) staleWait = some (s, w) ∧
    w.pc = .done (.ok 0) ∧ s.namespace (b! "chat") = none := by
  let r := waitRun (clientCfg chatDecl noCb) (b! "chat") (newConn (clientCfg chatDecl noCb) [], {}) staleWait
  have h1 : r.isSome = true := by decide +kernel
  have h2 : (r.map fun p => match p.2.pc with | .done (.ok n) => n == 0 | _ => false) = some true := by decide +kernel
  have h3 : (r.map fun p => p.1.namespace (b! "chat")) = some none := by decide +kernel
  obtain ⟨⟨s, w⟩, hr⟩ := Option.isSome_iff_exists.mp h1
  refine ⟨s, w, hr, ?_, ?_⟩
  · rw [hr] at h2
    simp only [Option.map_some, Option.some.injEq] at h2
    split at h2
    · rename_i n he; simp at h2; subst h2; exact he
    · cases h2
  · rw [hr] at h3; simpa using h3

example : ∃ w, waitRun (clientCfg chatDecl noCb) (b! "chat") (after (clientCfg chatDecl noCb) [] chatOps, {})
    [.wait none, .wait none, .wait none] = some (after (clientCfg chatDecl noCb) [] chatOps, w) ∧ w.pc = .done (.ok 0) := by
  have hn : (after (clientCfg chatDecl noCb) [] chatOps).namespace (b! "chat") = some 0 := by decide +kernel
  have ha : (after (clientCfg chatDecl noCb) [] chatOps).acked = true := by decide +kernel
  exact ⟨⟨some 0, .done (.ok 0)⟩, by simp [waitRun, waitOpStep, waitStep, hn, ha], rfl⟩

end Neffos
