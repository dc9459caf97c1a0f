import Verif.Proofs.Session
/-!
# C24, C16: a client and its server-side connection

C24, the handshake. C16, both sides agree about membership.
-/
set_option autoImplicit false
namespace Neffos
open Neffos.Spec

variable {cc sc : Cfg} {id : Bytes}

/-! ## C24 -/

/-- C24, partial: whatever the interleaving and whatever the sockets do, when Dial has succeeded
the client's ID is the server-side connection's ID, and the handshake was decided by OnConnect
returning nil or by OnConnect using the connection, no other return having come before. Left
out: native-only clients and servers. -/
theorem c24_success_partial {ops : List SessOp} {s : Sess} (hcn : cc.onlyNative = false)
    (hsc : sc.isClient = false) (hsn : sc.onlyNative = false) (h : DialRun cc sc id ops s)
    (hd : s.c.ready = some none) (ho : s.c.closed = false) :
    s.c.id = id ∧ (s.d.closed = false → s.d.id = s.c.id) ∧
      ∃ pre op post, ops = pre ++ .server op :: post ∧ (op = .ready none ∨ usesConn op = true) ∧
        ∀ r, SessOp.server (.ready r) ∉ pre := by
  have hi := dial_inv hcn hsc hsn h
  cases hi.cli with
  | fresh _ _ h3 _ _ =>
    rcases h3 with h3 | h3
    · rw [h3] at hd; cases hd
    · exact absurd hd h3.2
  | acc h1 h2 h3 h4 =>
    have e := h4 ho
    cases hi.srv with
    | fresh _ _ _ h _ _ => rw [h] at h1; cases h1
    | dead _ _ _ h => rw [h] at h1; cases h1
    | rej e h _ _ => rw [h] at h1; simp at h1
    | acc k1 k2 k3 k4 =>
      refine ⟨e, fun hc => by rw [e]; exact k4 hc, ?_⟩
      obtain ⟨pre, op, post, p1, p2, p3⟩ := hi.from_ none k2
      refine ⟨pre, op, post, p1, ?_, p3⟩
      generalize hx : (none : Option GoErr) = x at p2
      cases p2 with
      | returned r => exact .inl rfl
      | used op hu => exact .inr hu
      | readFailed e => cases hx

/-- C24, partial: when OnConnect returns an error and nothing used the connection and no read
failed before, Dial does not succeed; if it returns at all, then because its own reading failed
or with exactly the text of that error, and then the server-side connection is closed. -/
theorem c24_error_partial {pre post : List SessOp} {e : GoErr} {s : Sess} (hcn : cc.onlyNative = false)
    (hsc : sc.isClient = false) (hsn : sc.onlyNative = false)
    (h : DialRun cc sc id (pre ++ .server (.ready (some e)) :: post) s)
    (hpre : ∀ op x, SessOp.server op ∈ pre → ¬ Decides op x) :
    s.c.ready ≠ some none ∧
      ∀ x, s.c.ready = some (some x) → (x = .text e.errorText ∧ s.d.closed = true) ∨
        SessOp.client (.readErr x) ∈ pre ++ .server (.ready (some e)) :: post := by
  have hi := dial_inv hcn hsc hsn h
  -- the server's verdict is that error
  have hr : s.d.ready = some (some e) := by
    cases hy : s.d.ready with
    | none => exact absurd (by simp) (hi.none_ hy (some e))
    | some x =>
      obtain ⟨pre', op, post', p1, p2, p3⟩ := hi.from_ x hy
      rcases List.append_eq_append_iff.mp p1 with ⟨a, h1, h2⟩ | ⟨a, h1, h2⟩
      · cases a with
        | nil =>
          simp at h2
          obtain ⟨h2, _⟩ := h2
          subst h2
          cases p2 with
          | returned r => rfl
          | used op hu => simp [usesConn] at hu
        | cons y a =>
          simp at h2
          exact absurd (by rw [h1, ← h2.1]; simp) (p3 (some e))
      · cases a with
        | nil =>
          simp at h2
          obtain ⟨h2, _⟩ := h2
          subst h2
          cases p2 with
          | returned r => rfl
          | used op hu => simp [usesConn] at hu
        | cons y a =>
          simp at h2
          exact absurd p2 (hpre op x (by rw [h1, ← h2.1]; simp))
  constructor
  · intro hd
    cases hi.cli with
    | fresh _ _ h3 _ _ =>
      rcases h3 with h3 | h3
      · rw [h3] at hd; cases hd
      · exact absurd hd h3.2
    | acc h1 _ _ _ =>
      cases hi.srv with
      | fresh _ _ _ h _ _ => rw [h] at h1; cases h1
      | dead _ _ _ h => rw [h] at h1; cases h1
      | rej e h _ _ => rw [h] at h1; simp at h1
      | acc _ k2 _ _ => rw [hr] at k2; cases k2
  · intro x hx
    rcases hi.err x hx with ⟨t, rfl, h1⟩ | h1
    · left
      cases hi.srv with
      | fresh _ _ _ h _ _ => rw [h] at h1; cases h1
      | dead _ _ _ h => rw [h] at h1; cases h1
      | rej e' k1 k2 k3 =>
        rw [hr] at k2; cases k2
        rw [k1] at h1
        simp at h1
        exact ⟨by rw [h1], k3⟩
      | acc k1 _ _ _ => rw [k1] at h1; simp at h1
    · exact .inr h1

/-- C24, partial: Dial returns. When the client's acknowledgement is written and OnConnect has
returned (or used the connection) and the sockets accept what is written, then from any
interleaving so far only passing payloads on makes Dial return: nil when the verdict is nil and
otherwise exactly the text of OnConnect's error. -/
theorem c24_returns_partial {ops : List SessOp} {s : Sess} {r : Option GoErr} (hcn : cc.onlyNative = false)
    (hsc : sc.isClient = false) (hsn : sc.onlyNative = false) (h : DialRun cc sc id ops s)
    (hsock : ∀ l b p, sc.sock l b p = none) (hM : pipe s.c.log ≠ []) (hr : s.d.ready = some r)
    (hd : s.d.closed = false ∨ ∃ x, (.text, 72 :: x) ∈ pipe s.d.log)
    (hc : s.c.closed = false) (hcr : s.c.ready = none) (he : ∀ e, SessOp.client (.readErr e) ∉ ops) :
    ∃ ops' s', (∀ op ∈ ops', op = .up ∨ op = .down ∨ op = .server .wake) ∧
      srun cc sc s ops' = some s' ∧ s'.c.ready = some (r.map fun e => .text e.errorText) := by
  have hi := dial_inv hcn hsc hsn h
  -- it returns
  obtain ⟨ops', s', p1, p2, p3⟩ : ∃ ops' s', (∀ op ∈ ops', Passes op) ∧ srun cc sc s ops' = some s' ∧
      s'.c.ready ≠ none := by
    by_cases hfa : firstAck s.d.log = none
    · have hd : s.d.closed = false := by
        rcases hd with hd | ⟨x, hx⟩
        · exact hd
        · exact absurd hfa (firstAck_ne ⟨_, hx, rfl⟩)
      obtain ⟨op, s1, q1, q2, q3, q4⟩ := srv_answers hsn hi hsock hM hr hd hfa
      have hrun : srun cc sc s [op] = some s1 := by simp only [srun, q2]
      obtain ⟨hi1, _⟩ := dial_passes hcn hsc hsn h (ops' := [op])
        (by intro o ho; simp at ho; rw [ho]; exact q1) hr hrun
      obtain ⟨n, s', n1, n2⟩ := reads_until hcn (dial_inv hcn hsc hsn hi1) (by rw [q3]; exact hc)
        (by rw [q3]; exact hcr) q4
      refine ⟨op :: List.replicate n .down, s', ?_, by simp only [srun, q2]; exact n1, n2⟩
      intro o ho
      rcases List.mem_cons.mp ho with rfl | ho
      · exact q1
      · rw [(List.mem_replicate.mp ho).2]; exact .inr (.inl rfl)
    · have hp : ∃ p ∈ pipe s.d.log, isAck p = true := by
        cases hx : firstAck s.d.log with
        | none => exact absurd hx hfa
        | some p =>
          unfold firstAck at hx
          exact ⟨p, List.mem_of_find?_eq_some hx, by simpa using List.find?_some hx⟩
      obtain ⟨n, s', n1, n2⟩ := reads_until hcn hi hc hcr hp
      refine ⟨List.replicate n .down, s', ?_, n1, n2⟩
      intro o ho
      rw [(List.mem_replicate.mp ho).2]; exact .inr (.inl rfl)
  refine ⟨ops', s', p1, p2, ?_⟩
  obtain ⟨h', hr'⟩ := dial_passes hcn hsc hsn h p1 hr p2
  have hi' := dial_inv hcn hsc hsn h'
  -- with the verdict
  cases hx : s'.c.ready with
  | none => exact absurd hx p3
  | some x =>
    cases x with
    | none =>
      cases hi'.cli with
      | fresh _ _ h3 _ _ =>
        rcases h3 with h3 | h3
        · rw [h3] at hx; cases hx
        · exact absurd hx h3.2
      | acc h1 _ _ _ =>
        cases hi'.srv with
        | fresh _ _ _ h _ _ => rw [h] at h1; cases h1
        | dead _ _ _ h => rw [h] at h1; cases h1
        | rej e h _ _ => rw [h] at h1; simp at h1
        | acc _ k2 _ _ => rw [hr'] at k2; cases k2; rfl
    | some x =>
      rcases hi'.err x hx with ⟨t, rfl, h1⟩ | h1
      · cases hi'.srv with
        | fresh _ _ _ h _ _ => rw [h] at h1; cases h1
        | dead _ _ _ h => rw [h] at h1; cases h1
        | rej e' k1 k2 k3 =>
          rw [hr'] at k2; cases k2
          rw [k1] at h1
          simp at h1
          simp [h1]
        | acc k1 _ _ _ => rw [k1] at h1; simp at h1
      · rcases List.mem_append.mp h1 with h1 | h1
        · exact absurd h1 (he x)
        · rcases p1 _ h1 with h | h | h <;> cases h

/-- `DialRules`, computably, for operations of the examples -/
def dialOk (s : Sess) : SessOp → Bool
  | .client .sendAck => s.c.ready == some none || s.c.log.isEmpty
  | .client .close => true
  | .client (.readErr _) => true
  | .client _ => s.c.ready == some none
  | .server .sendAck => false
  | .server (.write m) => s.d.acked || (!m.isNative && m.wait == [])
  | _ => true

theorem dialOk_rules {s : Sess} {op : SessOp} (h : dialOk s op = true) : DialRules s op := by
  cases op with
  | client o =>
    cases o with
    | sendAck =>
      simp only [dialOk, Bool.or_eq_true, beq_iff_eq, List.isEmpty_iff] at h
      exact h.imp id fun h => .inl ⟨rfl, h⟩
    | close => exact .inr (.inr (.inl rfl))
    | readErr e => exact .inr (.inr (.inr ⟨e, rfl⟩))
    | _ => exact .inl (by simpa [dialOk] using h)
  | server o =>
    refine ⟨(by intro e; subst e; cases h), ?_⟩
    intro m hm
    subst hm
    simpa [dialOk] using h
  | _ => trivial

/-- run the steps, checking the rules -/
def dialRun (cc sc : Cfg) (s : Sess) : List SessOp → Option Sess
  | [] => some s
  | op :: ops =>
    if dialOk s op then
      match sstep cc sc s op with
      | some s' => dialRun cc sc s' ops
      | none => none
    else none

theorem dialRun_from {pre ops : List SessOp} {s s' : Sess} (h : DialRun cc sc id pre s)
    (hr : dialRun cc sc s ops = some s') : DialRun cc sc id (pre ++ ops) s' := by
  induction ops generalizing pre s with
  | nil => simp only [dialRun] at hr; cases hr; simpa using h
  | cons op ops ih =>
    simp only [dialRun] at hr
    split at hr
    · rename_i hok
      cases ho : sstep cc sc s op with
      | none => rw [ho] at hr; cases hr
      | some s1 =>
        rw [ho] at hr
        simpa using ih (h.step (dialOk_rules hok) ho) hr
    · cases hr

/-- the session after these steps -/
def dialled (cc sc : Cfg) (id : Bytes) (ops : List SessOp) : Sess :=
  (dialRun cc sc (newSess cc sc id) ops).getD (newSess cc sc id)

theorem dialled_run {ops : List SessOp}
    (h : (dialRun cc sc (newSess cc sc id) ops).isSome = true) :
    DialRun cc sc id ops (dialled cc sc id ops) := by
  unfold dialled
  cases hx : dialRun cc sc (newSess cc sc id) ops with
  | none => rw [hx] at h; cases h
  | some s' => exact dialRun_from .init hx

/-- a successful handshake in which the acknowledgement is read before OnConnect returns -/
def dialOps : List SessOp := [.client .sendAck, .up, .server (.ready none), .server .wake, .down]

example : DialRun (clientCfg chatDecl noCb) (serverCfg chatDecl noCb) (b! "u1") dialOps
      (dialled (clientCfg chatDecl noCb) (serverCfg chatDecl noCb) (b! "u1") dialOps) ∧
    (dialled (clientCfg chatDecl noCb) (serverCfg chatDecl noCb) (b! "u1") dialOps).c.ready = some none ∧
    (dialled (clientCfg chatDecl noCb) (serverCfg chatDecl noCb) (b! "u1") dialOps).c.closed = false ∧
    (dialled (clientCfg chatDecl noCb) (serverCfg chatDecl noCb) (b! "u1") dialOps).c.id = b! "u1" :=
  ⟨dialled_run (by decide +kernel), by decide +kernel, by decide +kernel, by decide +kernel⟩

/-- OnConnect uses the connection and returns an error afterwards -/
def dialUsedOps : List SessOp :=
  [.client .sendAck, .server (.write { ns := b! "chat", event := b! "hi" }),
    .server (.ready (some (.text (b! "no")))), .up, .down]

example : DialRun (clientCfg chatDecl noCb) (serverCfg chatDecl noCb) (b! "u1") dialUsedOps
      (dialled (clientCfg chatDecl noCb) (serverCfg chatDecl noCb) (b! "u1") dialUsedOps) ∧
    (dialled (clientCfg chatDecl noCb) (serverCfg chatDecl noCb) (b! "u1") dialUsedOps).c.ready = some none ∧
    (dialled (clientCfg chatDecl noCb) (serverCfg chatDecl noCb) (b! "u1") dialUsedOps).c.closed = false ∧
    (dialled (clientCfg chatDecl noCb) (serverCfg chatDecl noCb) (b! "u1") dialUsedOps).c.id = b! "u1" :=
  ⟨dialled_run (by decide +kernel), by decide +kernel, by decide +kernel, by decide +kernel⟩

/-- OnConnect refuses -/
def dialRefusedOps : List SessOp :=
  [.client .sendAck] ++ .server (.ready (some (.text (b! "no")))) :: [.up, .down]

example : DialRun (clientCfg chatDecl noCb) (serverCfg chatDecl noCb) (b! "u1")
      ([.client .sendAck] ++ .server (.ready (some (.text (b! "no")))) :: [.up, .down])
      (dialled (clientCfg chatDecl noCb) (serverCfg chatDecl noCb) (b! "u1") dialRefusedOps) ∧
    (∀ op x, SessOp.server op ∈ [SessOp.client .sendAck] → ¬ Decides op x) ∧
    (dialled (clientCfg chatDecl noCb) (serverCfg chatDecl noCb) (b! "u1") dialRefusedOps).c.ready =
      some (some (.text (b! "no"))) ∧
    (dialled (clientCfg chatDecl noCb) (serverCfg chatDecl noCb) (b! "u1") dialRefusedOps).d.closed = true :=
  ⟨dialled_run (ops := dialRefusedOps) (by decide +kernel), by simp, by decide +kernel, by decide +kernel⟩

/-- the state in which only passing on is left -/
example : DialRun (clientCfg chatDecl noCb) (serverCfg chatDecl noCb) (b! "u1")
      [.client .sendAck, .server (.ready (some (.text (b! "no"))))]
      (dialled (clientCfg chatDecl noCb) (serverCfg chatDecl noCb) (b! "u1")
        [.client .sendAck, .server (.ready (some (.text (b! "no"))))]) ∧
    (let s := dialled (clientCfg chatDecl noCb) (serverCfg chatDecl noCb) (b! "u1")
        [.client .sendAck, .server (.ready (some (.text (b! "no"))))]
     pipe s.c.log ≠ [] ∧ s.d.ready = some (some (.text (b! "no"))) ∧ s.d.closed = false ∧
      s.c.closed = false ∧ s.c.ready = none) :=
  ⟨dialled_run (by decide +kernel), by decide +kernel⟩

/-- C24 is false for a native-only client and server: they do not shake hands, so Dial succeeds
at once, with an empty ID, although the server-side connection has another and its OnConnect
returned an error before using the connection; both connections stay open. -/
theorem c24_refuted_native : ∃ (cc sc : Cfg) (id : Bytes) (e : GoErr) (s : Sess),
    cc.isClient = true ∧ sc.isClient = false ∧ DialRun cc sc id [.server (.ready (some e))] s ∧
      s.c.ready = some none ∧ s.c.closed = false ∧ s.d.closed = false ∧ s.c.id ≠ s.d.id := by
  let d : List (Bytes × List Bytes) := [([], [OnNativeMessage])]
  refine ⟨clientCfg d noCb, serverCfg d noCb, b! "u1", .text (b! "no"),
    dialled (clientCfg d noCb) (serverCfg d noCb) (b! "u1") [.server (.ready (some (.text (b! "no"))))],
    rfl, rfl, dialled_run ?_, ?_, ?_, ?_, ?_⟩ <;> decide +kernel

end Neffos
