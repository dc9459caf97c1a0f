import Verif.Proofs.AgreeClient
/-!
Helper lemmas for the agreement of the two sides: what every session keeps.
-/
set_option autoImplicit false
namespace Neffos
open Neffos.Spec

variable {cfg cc sc : Cfg} {id : Bytes}

/-- a client that uses its connection -/
structure CliOk (c : St) : Prop where
  acked : c.acked = true
  log : c.log ≠ []
  rd : c.rd = .idle ∨ ∃ m, AppMsg m ∧ c.rd = .gate m
  todo : c.todo = []
  ackAfter : c.ackAfter = false

/-- a client that waits for the handshake -/
structure CliFresh (c : St) : Prop where
  acked : c.acked = false
  connected : c.connected = []
  asks : c.asks = []
  rd : c.rd = .idle
  todo : c.todo = []
  ackAfter : c.ackAfter = false
  ready : c.ready = none

/-- a server before the handshake -/
structure SrvFresh (d : St) : Prop where
  acked : d.acked = false
  connected : d.connected = []
  todo : d.todo = []
  ackAfter : d.ackAfter = false
  gates : d.gates = []
  text : d.queueText = []
  binary : d.queueBinary = []

theorem SrvFresh.same {d d' : St} {l : List Obs} (h : SrvFresh d) (k : Same d l d') : SrvFresh d' := by
  obtain ⟨r, rfl⟩ := k
  exact ⟨h.acked, h.connected, h.todo, h.ackAfter, h.gates, h.text, h.binary⟩

/-- the one Ask of the client that is in flight -/
structure AskAt (c : St) (i : Nat) (k : Cont) (tok : Bytes) (box : Option Message) : Prop where
  here : c.asks[i]? = some ⟨tok, k, .table, box, false⟩
  others : ∀ (j : Nat) a, j ≠ i → c.asks[j]? = some a → a.done = true

def Calms (l : List (MsgType × Bytes)) : Prop := ∀ p ∈ l, CalmP p

theorem Calms.append {a b : List (MsgType × Bytes)} (ha : Calms a) (hb : Calms b) : Calms (a ++ b) := by
  intro p h
  exact (List.mem_append.mp h).elim (ha p) (hb p)

theorem Calms.nil : Calms [] := by intro p h; cases h

/-- where a session can be; `pu` and `pd` are the payloads on their way up and down -/
inductive Phase (sc : Cfg) (known : List KnownErr) (c d : St) (pu pd : List (MsgType × Bytes)) : Prop
  | greet : CliFresh c → SrvFresh d → d.rd = .idle →
      (c.log = [] ∧ pu = [] ∨ c.log ≠ [] ∧ pu = [(.text, b! "M")]) → Calms pd → Phase sc known c d pu pd
  | held : CliFresh c → SrvFresh d → d.rd = .ack → c.log ≠ [] → pu = [] → Calms pd → Phase sc known c d pu pd
  | acked (x : Bytes) (l1 l2 : List (MsgType × Bytes)) : CliFresh c → SrvOk d → d.connected = [] → c.log ≠ [] →
      pu = [] → pd = l1 ++ (.text, 65 :: x) :: l2 → Calms l1 → Calms l2 → Phase sc known c d pu pd
  | idle : CliOk c → SrvOk d → NoRequest c → Calms pu → Calms pd → Agree c d → Phase sc known c d pu pd
  | asked (q : Req) (i : Nat) (k : Cont) (tok : Bytes) (l1 l2 : List (MsgType × Bytes)) :
      CliOk c → SrvOk d → q.Safe → CliTok tok → Waits q k c → AskAt c i k tok none →
      mapGet c.waiting tok = some i → pu = l1 ++ (.text, wireOf (q.msg tok)) :: l2 → Calms l1 → Calms l2 →
      Calms pd → Agree c d → Phase sc known c d pu pd
  | answered (q : Req) (i : Nat) (k : Cont) (tok : Bytes) (r : Option GoErr) (p : MsgType × Bytes)
      (l1 l2 : List (MsgType × Bytes)) :
      CliOk c → SrvOk d → CliTok tok → Waits q k c → AskAt c i k tok none →
      mapGet c.waiting tok = some i → Calms pu → pd = l1 ++ p :: l2 → Calms l1 → Calms l2 →
      Reply known tok r p → Moves q r.isNone c d → (∀ e, r = some e → q.No sc d e) → Phase sc known c d pu pd
  | boxed (q : Req) (i : Nat) (k : Cont) (tok : Bytes) (m : Message) (r : Option GoErr) :
      CliOk c → SrvOk d → Waits q k c → AskAt c i k tok (some m) → Calms pu → Calms pd →
      Moves q r.isNone c d → Carries known r m.err → (∀ e, r = some e → q.No sc d e) → Phase sc known c d pu pd
  | lost (i : Nat) (k : Cont) (tok : Bytes) :
      CliOk c → SrvOk d → AskAt c i k tok none → Calms pu → Calms pd → Phase sc known c d pu pd

variable {known : List KnownErr}

/-! ### Steps that do not concern the request -/

theorem Phase.srv {c d d' : St} {pu pd : List (MsgType × Bytes)} {l : List Obs} (h : Phase sc known c d pu pd)
    (hs : Same d l d') (hl : CalmLog l) : Phase sc known c d' pu (pd ++ pipe l) := by
  have hl : Calms (pipe l) := hl
  have hrd : d'.rd = d.rd := hs.kept.rd
  cases h with
  | greet h1 h2 h3 h4 h5 => exact .greet h1 (h2.same hs) (hrd.trans h3) h4 (h5.append hl)
  | held h1 h2 h3 h4 h5 h6 => exact .held h1 (h2.same hs) (hrd.trans h3) h4 h5 (h6.append hl)
  | acked x l1 l2 h1 h2 h3 h4 h5 h6 h7 h8 =>
    exact .acked x l1 (l2 ++ pipe l) h1 (h2.same hs) (hs.connected.trans h3) h4 h5 (by rw [h6]; simp) h7 (h8.append hl)
  | idle h1 h2 h3 h4 h5 h6 => exact .idle h1 (h2.same hs) h3 h4 (h5.append hl) (h6.trans hs.agree)
  | asked q i k tok l1 l2 h1 h2 h3 h4 h5 h6 h7 h8 h9 h10 h11 h12 =>
    exact .asked q i k tok l1 l2 h1 (h2.same hs) h3 h4 h5 h6 h7 h8 h9 h10 (h11.append hl) (h12.trans hs.agree)
  | answered q i k tok acc p l1 l2 h1 h2 h4 h5 h6 h7 h8 h9 h10 h11 h12 h13 h14 =>
    exact .answered q i k tok acc p l1 (l2 ++ pipe l) h1 (h2.same hs) h4 h5 h6 h7 h8 (by rw [h9]; simp) h10
      (h11.append hl) h12 (h13.congr (agree_refl c) hs.agree)
      (fun e he => (h14 e he).grows hs.log)
  | boxed q i k tok m r h1 h2 h3 h4 h5 h6 h7 h8 h9 =>
    exact .boxed q i k tok m r h1 (h2.same hs) h3 h4 h5 (h6.append hl) (h7.congr (agree_refl c) hs.agree) h8
      (fun e he => (h9 e he).grows hs.log)
  | lost i k tok h1 h2 h3 h4 h5 => exact .lost i k tok h1 (h2.same hs) h3 h4 (h5.append hl)

/-- the client goes on; its reader may get to the gate or come back from it -/
structure CKept (s : St) (l : List Obs) (t : St) : Prop where
  ns : ∀ n, t.namespace n = s.namespace n
  rooms : ∀ i, t.rooms i = s.rooms i
  rd : t.rd = s.rd ∨ t.rd = .idle ∨ ∃ m, AppMsg m ∧ t.rd = .gate m
  todo : t.todo = s.todo
  ackAfter : t.ackAfter = s.ackAfter
  acked : t.acked = s.acked
  log : t.log = s.log ++ l
  asks : t.asks = s.asks
  waiting : t.waiting = s.waiting

theorem Same.ckept {s t : St} {l : List Obs} (h : Same s l t) : CKept s l t := by
  obtain ⟨r, rfl⟩ := h
  exact ⟨fun _ => rfl, fun _ => rfl, .inl rfl, rfl, rfl, rfl, rfl, rfl, rfl⟩

theorem CKept.ok {s t : St} {l : List Obs} (h : CKept s l t) (hs : CliOk s) : CliOk t := by
  refine ⟨by rw [h.acked]; exact hs.acked, by rw [h.log]; simp [hs.log], ?_, by rw [h.todo]; exact hs.todo,
    by rw [h.ackAfter]; exact hs.ackAfter⟩
  rcases h.rd with x | x | x
  · rw [x]; exact hs.rd
  · exact .inl x
  · exact .inr x

theorem CKept.agree {s t : St} {l : List Obs} (h : CKept s l t) : Agree s t := agree_of h.ns fun _ i _ => h.rooms i

theorem CKept.waits {q : Req} {k : Cont} {s t : St} {l : List Obs} (hk : CKept s l t) (h : Waits q k s) :
    Waits q k t := by
  cases q <;> simp only [Waits, hk.ns, hk.rooms] at h ⊢ <;> exact h

theorem CKept.at {s t : St} {l : List Obs} {i : Nat} {k : Cont} {tok : Bytes} {box : Option Message}
    (hk : CKept s l t) (h : AskAt s i k tok box) : AskAt t i k tok box :=
  ⟨by rw [hk.asks]; exact h.here, by rw [hk.asks]; exact h.others⟩

theorem Phase.cli {c d c' : St} {pu pd : List (MsgType × Bytes)} {l : List Obs} (h : Phase sc known c d pu pd)
    (hok : CliOk c) (hs : CKept c l c') (hl : CalmLog l) : Phase sc known c' d (pu ++ pipe l) pd := by
  have hl : Calms (pipe l) := hl
  have hok' := hs.ok hok
  cases h with
  | greet h1 => exact absurd hok.acked (by simp [h1.acked])
  | held h1 => exact absurd hok.acked (by simp [h1.acked])
  | acked x l1 l2 h1 => exact absurd hok.acked (by simp [h1.acked])
  | idle h1 h2 h3 h4 h5 h6 =>
    exact .idle hok' h2 (by unfold NoRequest; rw [hs.asks]; exact h3) (h4.append hl) h5 (hs.agree.symm.trans h6)
  | asked q i k tok l1 l2 h1 h2 h3 h4 h5 h6 h7 h8 h9 h10 h11 h12 =>
    exact .asked q i k tok l1 (l2 ++ pipe l) hok' h2 h3 h4 (hs.waits h5) (hs.at h6) (by rw [hs.waiting]; exact h7)
      (by rw [h8]; simp) h9 (h10.append hl) h11 (hs.agree.symm.trans h12)
  | answered q i k tok acc p l1 l2 h1 h2 h4 h5 h6 h7 h8 h9 h10 h11 h12 h13 h14 =>
    exact .answered q i k tok acc p l1 l2 hok' h2 h4 (hs.waits h5) (hs.at h6) (by rw [hs.waiting]; exact h7)
      (h8.append hl) h9 h10 h11 h12 (h13.congr hs.agree (agree_refl d)) h14
  | boxed q i k tok m r h1 h2 h3 h4 h5 h6 h7 h8 h9 =>
    exact .boxed q i k tok m r hok' h2 (hs.waits h3) (hs.at h4) (h5.append hl) h6 (h7.congr hs.agree (agree_refl d)) h8 h9
  | lost i k tok h1 h2 h3 h4 h5 => exact .lost i k tok hok' h2 (hs.at h3) (h4.append hl) h5


/-! ### The server reads -/

theorem calm_recv_srv (h : CbCalm cfg) (hn : cfg.allowNative = false) {d d' : St} {p : MsgType × Bytes}
    (hp : CalmP p) (hd : SrvOk d) (hs : step cfg d (.recv p.1 p.2) = some d') (hc : d'.closed = false) :
    ∃ l, Same d l d' ∧ CalmLog l := by
  obtain ⟨he, _⟩ := step_exec hs
  simp only [exec] at he
  split at he
  · cases he
    rcases calm_recv h hn hp hd.acked hc with x | ⟨m, _, hg, _⟩
    · exact x
    · exfalso
      simp [gateBlocks, hd.gates, mapGet] at hg
  · cases he

theorem there_of_waits {q : Req} {k : Cont} {c d : St} (h : Waits q k c) (ha : Agree c d) : q.There d := by
  cases q with
  | connect ns =>
    obtain ⟨obj, _, h1, _⟩ := h
    have := ha.1 ns
    simp only [InNs, h1, ne_eq, not_true_eq_false, false_iff, Decidable.not_not] at this
    exact this
  | disconnect ns => obtain ⟨obj, msg, _, _, h1⟩ := h; exact (ha.1 ns).mp (by simp [InNs, h1])
  | join ns room => obtain ⟨obj, msg, _, _, _, h1⟩ := h; exact (ha.1 ns).mp (by simp [InNs, h1])
  | leave ns room => obtain ⟨obj, msg, _, _, _, h1⟩ := h; exact (ha.1 ns).mp (by simp [InNs, h1])

/-- the end of the handshake on the server's side -/
theorem ackReady_phase {d : St} {r : Option GoErr} (hd : SrvFresh d) (hc : (ackReady cfg d r).closed = false) :
    r = none ∧ SrvOk (ackReady cfg d r) ∧ (ackReady cfg d r).connected = [] ∧
      (ackReady cfg d r).log = d.log ++ [.sent false (65 :: d.id) true] := by
  cases r with
  | some e =>
    exfalso
    have : (readerExit cfg (rawWrite cfg d (72 :: e.errorText) false).1).closed = true := closeConn_closed _
    simp only [ackReady] at hc
    rw [this] at hc
    cases hc
  | none =>
    have hq : (if cfg.textFirst d.log
        then d.queueText.map (MsgType.text, ·) ++ d.queueBinary.map (MsgType.binary, ·)
        else d.queueBinary.map (MsgType.binary, ·) ++ d.queueText.map (MsgType.text, ·)) = [] := by
      rw [hd.text, hd.binary]; split <;> rfl
    simp only [ackReady, hq, drain, if_true, finishAck] at hc ⊢
    generalize hT : ({ d with acked := true, queueText := [], queueBinary := [], ackAfter := false, rd := .idle, todo := [] } : St) = T at hc ⊢
    have h0 : T.log = d.log ∧ T.id = d.id ∧ T.connected = [] ∧ T.gates = [] ∧ T.acked = true ∧ T.rd = .idle ∧
        T.todo = [] ∧ T.ackAfter = false := by
      subst hT; exact ⟨rfl, rfl, hd.connected, hd.gates, rfl, rfl, rfl, rfl⟩
    obtain ⟨e1, e2, e3, e4, e5, e6, e7, e8⟩ := h0
    split at hc
    · rename_i hok
      have ho := rawWrite_open hc
      rw [ho] at hok
      simp only at hok
      rw [ho, hok]
      simp only [if_true]
      exact ⟨trivial, ⟨e5, e6, e7, e8, e4⟩, e3, by simp [e1]⟩
    · exact absurd hc (by rw [show (readerExit cfg _).closed = true from closeConn_closed _]; simp)

theorem Phase.dropUp {c d : St} {p : MsgType × Bytes} {rest pd : List (MsgType × Bytes)}
    (h : Phase sc known c d (p :: rest) pd) (hd : SrvOk d)
    (hreq : ∀ q tok, Req.Safe q → CliTok tok → p ≠ (.text, wireOf (q.msg tok))) :
    Phase sc known c d rest pd ∧ CalmP p := by
  have hd' : ∀ {l : List (MsgType × Bytes)}, Calms (p :: l) → Calms l ∧ CalmP p := fun h =>
    ⟨fun x hx => h x (List.mem_cons_of_mem _ hx), h p (List.mem_cons_self ..)⟩
  cases h with
  | greet h1 h2 => exact absurd hd.acked (by simp [h2.acked])
  | held h1 h2 => exact absurd hd.acked (by simp [h2.acked])
  | acked x l1 l2 h1 h2 h3 h4 h5 => cases h5
  | idle h1 h2 h3 h4 h5 h6 => exact ⟨.idle h1 h2 h3 (hd' h4).1 h5 h6, (hd' h4).2⟩
  | asked q i k tok l1 l2 h1 h2 h3 h4 h5 h6 h7 h8 h9 h10 h11 h12 =>
    cases l1 with
    | nil => simp only [List.nil_append, List.cons.injEq] at h8; exact absurd h8.1 (hreq q tok h3 h4)
    | cons x l1 =>
      simp only [List.cons_append, List.cons.injEq] at h8
      obtain ⟨rfl, h8⟩ := h8
      exact ⟨.asked q i k tok l1 l2 h1 h2 h3 h4 h5 h6 h7 h8 (hd' h9).1 h10 h11 h12, (hd' h9).2⟩
  | answered q i k tok acc p l1 l2 h1 h2 h4 h5 h6 h7 h8 h9 h10 h11 h12 h13 h14 =>
    exact ⟨.answered q i k tok acc p l1 l2 h1 h2 h4 h5 h6 h7 (hd' h8).1 h9 h10 h11 h12 h13 h14, (hd' h8).2⟩
  | boxed q i k tok m r h1 h2 h3 h4 h5 h6 h7 h8 h9 => exact ⟨.boxed q i k tok m r h1 h2 h3 h4 (hd' h5).1 h6 h7 h8 h9, (hd' h5).2⟩
  | lost i k tok h1 h2 h3 h4 h5 => exact ⟨.lost i k tok h1 h2 h3 (hd' h4).1 h5, (hd' h4).2⟩

theorem phase_up {c d d' : St} {p : MsgType × Bytes} {rest pd : List (MsgType × Bytes)} (hcons : Consistent cc sc)
    (hn : sc.allowNative = false) (hsc : sc.isClient = false) (hr : Reach sc id d)
    (h : Phase sc known c d (p :: rest) pd) (hs : step sc d (.recv p.1 p.2) = some d') (hc : d'.closed = false) :
    ∃ l, d'.log = d.log ++ l ∧ Phase sc known c d' rest (pd ++ pipe l) := by
  have hcb : CbCalm sc := hcons.server
  by_cases hfresh : d.acked = false
  · cases h with
    | greet h1 h2 h3 h4 h5 =>
      rcases h4 with ⟨_, h4⟩ | ⟨h4, h6⟩
      · cases h4
      · cases h6
        have hr2 := closed_of_prims (reach_prims hr hs) hc
        obtain ⟨he, _⟩ := step_exec hs
        simp only [exec] at he
        split at he
        · cases he
          rw [recv_ack_M hr2 hfresh] at hc ⊢
          cases hrd : d.ready with
          | none =>
            refine ⟨[], by simp, ?_⟩
            simp only [pipe, List.append_nil]
            exact .held h1 ⟨h2.acked, h2.connected, h2.todo, h2.ackAfter, h2.gates, h2.text, h2.binary⟩ rfl h4 rfl h5
          | some r =>
            rw [hrd] at hc
            obtain ⟨k1, k2, k3, k4⟩ := ackReady_phase h2 hc
            refine ⟨_, k4, ?_⟩
            exact .acked d.id pd [] h1 k2 k3 h4 rfl rfl h5 .nil
        · cases he
    | held h1 h2 h3 h4 h5 => cases h5
    | acked x l1 l2 h1 h2 => exact absurd h2.acked (by simp [hfresh])
    | idle h1 h2 => exact absurd h2.acked (by simp [hfresh])
    | asked q i k tok l1 l2 h1 h2 => exact absurd h2.acked (by simp [hfresh])
    | answered q i k tok acc p l1 l2 h1 h2 => exact absurd h2.acked (by simp [hfresh])
    | boxed q i k tok m r h1 h2 => exact absurd h2.acked (by simp [hfresh])
    | lost i k tok h1 h2 => exact absurd h2.acked (by simp [hfresh])
  · have hd : SrvOk d := by
      cases h with
      | greet h1 h2 => exact absurd h2.acked hfresh
      | held h1 h2 => exact absurd h2.acked hfresh
      | acked x l1 l2 h1 h2 => exact h2
      | idle h1 h2 => exact h2
      | asked q i k tok l1 l2 h1 h2 => exact h2
      | answered q i k tok acc p l1 l2 h1 h2 => exact h2
      | boxed q i k tok m r h1 h2 => exact h2
      | lost i k tok h1 h2 => exact h2
    by_cases hp : CalmP p
    · have hne : ∀ q tok, Req.Safe q → CliTok tok → p ≠ (.text, wireOf (q.msg tok)) := by
        rintro q tok hq ht rfl
        obtain ⟨t, ht'⟩ := hp
        have hdec := req_decodes [] hq ht.tok
        simp only at ht'
        rw [ht'] at hdec
        have := (decode_calm [] .text t).1
        rw [hdec, (req_fields q tok).1] at this
        obtain ⟨t', e⟩ := ht.2
        rw [e] at this
        cases this
      obtain ⟨l, k1, k2⟩ := calm_recv_srv hcb hn hp hd hs hc
      exact ⟨l, k1.log, (h.dropUp hd hne).1.srv k1 k2⟩
    · cases h with
      | greet h1 h2 => exact absurd h2.acked hfresh
      | held h1 h2 => exact absurd h2.acked hfresh
      | acked x l1 l2 h1 h2 h3 h4 h5 => cases h5
      | idle h1 h2 h3 h4 => exact absurd (h4 p (List.mem_cons_self ..)) hp
      | asked q i k tok l1 l2 h1 h2 h3 h4 h5 h6 h7 h8 h9 h10 h11 h12 =>
        cases l1 with
        | cons x l1 =>
          simp only [List.cons_append, List.cons.injEq] at h8
          exact absurd (by rw [h8.1]; exact h9 x (List.mem_cons_self ..)) hp
        | nil =>
          simp only [List.nil_append, List.cons.injEq] at h8
          obtain ⟨rfl, rfl⟩ := h8
          obtain ⟨k1, acc, l, k2, k3, k9, k4⟩ := srv_request hcons hn hsc hr h3 h4 h2 (there_of_waits h5 h12) hs hc
          refine ⟨l, k2, ?_⟩
          rcases k4 with k4 | ⟨m1, p, m2, k5, k6, k7, k8⟩
          · exact .lost i k tok h1 k1 h6 h10 (h11.append k4)
          · exact .answered q i k tok acc p (pd ++ m1) m2 h1 k1 h4 h5 h6 h7 h10 (by rw [k5]; simp) (h11.append k6) k7
              (k8 known) (k3.congr h12.symm (agree_refl d')) k9
      | answered q i k tok acc p l1 l2 h1 h2 h4 h5 h6 h7 h8 => exact absurd (h8 _ (List.mem_cons_self ..)) hp
      | boxed q i k tok m r h1 h2 h3 h4 h5 => exact absurd (h5 _ (List.mem_cons_self ..)) hp
      | lost i k tok h1 h2 h3 h4 => exact absurd (h4 _ (List.mem_cons_self ..)) hp

/-- the server does something on its own -/
theorem phase_srv {c d d' : St} {pu pd : List (MsgType × Bytes)} {op : Op} {s : Sess}
    (ho : OneRequest s (.server op)) (h : Phase sc known c d pu pd) (hs : step sc d op = some d')
    (hc : d'.closed = false) : ∃ l, d'.log = d.log ++ l ∧ Phase sc known c d' pu (pd ++ pipe l) := by
  have hexit : ∀ s : St, (readerExit sc s).closed = true := fun s => closeConn_closed s
  obtain ⟨he, _⟩ := step_exec hs
  cases op with
  | write m =>
    simp only [exec] at he
    cases he
    obtain ⟨l, k1, k2⟩ := app_write ho hc
    exact ⟨l, k1.log, h.srv k1 k2⟩
  | ready e =>
    simp only [exec] at he
    cases he
    have k1 : Same d [] (d.signalReady e) := by
      unfold St.signalReady
      split
      · exact .refl _
      · exact ⟨_, by simp; rfl⟩
    exact ⟨[], k1.log, h.srv k1 .nil⟩
  | close =>
    simp only [exec] at he
    cases he
    rw [closeConn_closed] at hc
    cases hc
  | readErr e =>
    simp only [exec] at he
    split at he
    · cases he
      rw [hexit] at hc
      cases hc
    · cases he
  | wake =>
    have hidle : SrvOk d → False := fun hd => by simp [exec, wakeReader, hd.rd] at he
    cases h with
    | greet h1 h2 h3 => simp [exec, wakeReader, h3] at he
    | held h1 h2 h3 h4 h5 h6 =>
      simp only [exec, wakeReader, h3] at he
      cases hrd : d.ready with
      | none => rw [hrd] at he; cases he
      | some r =>
        rw [hrd] at he
        cases he
        obtain ⟨k1, k2, k3, k4⟩ := ackReady_phase h2 hc
        exact ⟨_, k4, .acked d.id pd [] h1 k2 k3 h4 h5 rfl h6 .nil⟩
    | acked x l1 l2 h1 h2 => exact (hidle h2).elim
    | idle h1 h2 => exact (hidle h2).elim
    | asked q i k tok l1 l2 h1 h2 => exact (hidle h2).elim
    | answered q i k tok acc p l1 l2 h1 h2 => exact (hidle h2).elim
    | boxed q i k tok m r h1 h2 => exact (hidle h2).elim
    | lost i k tok h1 h2 => exact (hidle h2).elim
  | recv => exact ho.elim
  | contReader => exact ho.elim
  | connect => exact ho.elim
  | disconnect => exact ho.elim
  | join => exact ho.elim
  | leave => exact ho.elim
  | ask => exact ho.elim
  | resume => exact ho.elim
  | cancel => exact ho.elim
  | steal => exact ho.elim
  | stealErr => exact ho.elim
  | sendAck => exact ho.elim
  | srvAsk => exact ho.elim
  | srvUnask => exact ho.elim


/-! ### The client reads -/

theorem ckept_gate {s : St} {m : Message} (hm : AppMsg m) : CKept s [] { s with rd := .gate m } :=
  ⟨fun _ => rfl, fun _ => rfl, .inr (.inr ⟨m, hm, rfl⟩), rfl, rfl, rfl, by simp, rfl, rfl⟩

theorem calm_recv_cli (h : CbCalm cfg) (hn : cfg.allowNative = false) {c c' : St} {p : MsgType × Bytes}
    (hp : CalmP p) (ha : c.acked = true) (hs : step cfg c (.recv p.1 p.2) = some c') (hc : c'.closed = false) :
    ∃ l, CKept c l c' ∧ CalmLog l := by
  obtain ⟨he, _⟩ := step_exec hs
  simp only [exec] at he
  split at he
  · cases he
    rcases calm_recv h hn hp ha hc with ⟨l, k1, k2⟩ | ⟨m, hm, _, e, _⟩
    · exact ⟨l, k1.ckept, k2⟩
    · rw [e]
      exact ⟨[], ckept_gate hm, .nil⟩
  · cases he

/-- a client that has not been acknowledged puts a payload without a token aside -/
theorem calm_recv_fresh {c c' : St} {p : MsgType × Bytes} (hp : CalmP p) (hf : CliFresh c)
    (hs : step cfg c (.recv p.1 p.2) = some c') : CliFresh c' ∧ c'.log = c.log := by
  obtain ⟨he, _⟩ := step_exec hs
  simp only [exec] at he
  split at he
  · cases he
    obtain ⟨t, ht⟩ := hp
    unfold recv handleACK
    rw [ht, if_neg (by simp), if_neg (by simp [hf.acked])]
    simp only [show ((59 : UInt8) = 77) = False by decide, show ((59 : UInt8) = 65) = False by decide,
      show ((59 : UInt8) = 72) = False by decide, if_false]
    split <;> exact ⟨⟨hf.acked, hf.connected, hf.asks, hf.rd, hf.todo, hf.ackAfter, hf.ready⟩, rfl⟩
  · cases he

theorem recv_acked {c c' : St} {x : Bytes} (hf : CliFresh c) (hlog : c.log ≠ [])
    (hs : step cfg c (.recv .text (65 :: x)) = some c') :
    CliOk c' ∧ c'.connected = [] ∧ c'.asks = [] ∧ c'.log = c.log ∧ c'.rd = .idle := by
  obtain ⟨he, _⟩ := step_exec hs
  simp only [exec] at he
  split at he
  · cases he
    unfold recv handleACK
    rw [if_neg (by simp), if_neg (by simp [hf.acked])]
    simp only [show ((65 : UInt8) = 77) = False by decide, if_false, if_true, St.signalReady, hf.ready]
    exact ⟨⟨rfl, hlog, .inl hf.rd, hf.todo, hf.ackAfter⟩, hf.connected, hf.asks, trivial, hf.rd⟩
  · cases he

theorem agree_empty {c d : St} (hc : c.connected = []) (hd : d.connected = []) : Agree c d := by
  have h : ∀ s : St, s.connected = [] → ∀ n, s.namespace n = none := fun s hs n => by
    simp [St.namespace, hs, mapGet]
  exact ⟨fun n => by simp [InNs, h c hc, h d hd], fun n r => by simp [InRoom, h c hc, h d hd]⟩

theorem recv_reply {c c' : St} {i : Nat} {k : Cont} {tok : Bytes} {r : Option GoErr} {p : MsgType × Bytes}
    (hcl : cc.isClient = true) (hn : cc.allowNative = false) (hok : CliOk c) (ht : CliTok tok)
    (hat : AskAt c i k tok none) (hw : mapGet c.waiting tok = some i) (hp : Reply cc.known tok r p)
    (hs : step cc c (.recv p.1 p.2) = some c') :
    ∃ m, Carries cc.known r m.err ∧ AskAt c' i k tok (some m) ∧ CliOk c' ∧ c'.log = c.log ∧
      (∀ q k, Waits q k c → Waits q k c') ∧ Agree c c' := by
  have hon : cc.onlyNative = false := by simp [Cfg.onlyNative, hn]
  obtain ⟨he, _⟩ := step_exec hs
  simp only [exec] at he
  split at he
  · cases he
    refine ⟨deserializeMessage cc.known p.1 p.2 false false, hp.err, ?_⟩
    have hwait := hp.wait
    have hvalid := hp.valid
    unfold recv handlePayload
    rw [if_neg hp.nonempty, if_pos hok.acked, hn, hon]
    generalize deserializeMessage cc.known p.1 p.2 false false = m at hwait hvalid ⊢
    have hiw : m.isWait cc.isClient = true := by
      unfold Message.isWait
      obtain ⟨t, e⟩ := ht.2
      rw [hwait, e, hcl]
      rfl
    have : handleMessage cc c m = { c with asks := c.asks.set i ⟨tok, k, .table, some m, false⟩ } := by
      unfold handleMessage
      rw [hvalid, hiw, hon, hcl, hwait, hw]
      simp [deliver, hat.here]
    rw [this]
    have hlt : i < c.asks.length := (List.getElem?_eq_some_iff.mp hat.here).1
    refine ⟨⟨by simp [hlt], fun j a hj ha => ?_⟩, ⟨hok.acked, hok.log, hok.rd, hok.todo, hok.ackAfter⟩, rfl,
      fun q k h => by cases q <;> exact h, agree_of (fun _ => rfl) fun _ _ _ => rfl⟩
    simp only [List.getElem?_set, if_neg (Ne.symm hj)] at ha
    exact hat.others j a hj ha
  · cases he

theorem Phase.dropDown {c d : St} {p : MsgType × Bytes} {rest pu : List (MsgType × Bytes)}
    (h : Phase sc known c d pu (p :: rest)) (hp : CalmP p) : Phase sc known c d pu rest := by
  have hd' : ∀ {l : List (MsgType × Bytes)}, Calms (p :: l) → Calms l := fun h =>
    fun x hx => h x (List.mem_cons_of_mem _ hx)
  cases h with
  | greet h1 h2 h3 h4 h5 => exact .greet h1 h2 h3 h4 (hd' h5)
  | held h1 h2 h3 h4 h5 h6 => exact .held h1 h2 h3 h4 h5 (hd' h6)
  | acked x l1 l2 h1 h2 h3 h4 h5 h6 h7 h8 =>
    cases l1 with
    | nil =>
      simp only [List.nil_append, List.cons.injEq] at h6
      obtain ⟨t, ht⟩ := hp
      rw [h6.1] at ht
      simp at ht
    | cons y l1 =>
      simp only [List.cons_append, List.cons.injEq] at h6
      exact .acked x l1 l2 h1 h2 h3 h4 h5 h6.2 (fun x hx => h7 x (List.mem_cons_of_mem _ hx)) h8
  | idle h1 h2 h3 h4 h5 h6 => exact .idle h1 h2 h3 h4 (hd' h5) h6
  | asked q i k tok l1 l2 h1 h2 h3 h4 h5 h6 h7 h8 h9 h10 h11 h12 =>
    exact .asked q i k tok l1 l2 h1 h2 h3 h4 h5 h6 h7 h8 h9 h10 (hd' h11) h12
  | answered q i k tok acc r l1 l2 h1 h2 h4 h5 h6 h7 h8 h9 h10 h11 h12 h13 h14 =>
    cases l1 with
    | nil =>
      simp only [List.nil_append, List.cons.injEq] at h9
      obtain ⟨t, ht⟩ := hp
      rw [h9.1] at ht
      have hw := h12.wait
      rw [ht, (decode_calm known r.1 t).1] at hw
      obtain ⟨t', e⟩ := h4.2
      rw [e] at hw
      cases hw
    | cons y l1 =>
      simp only [List.cons_append, List.cons.injEq] at h9
      exact .answered q i k tok acc r l1 l2 h1 h2 h4 h5 h6 h7 h8 h9.2
        (fun x hx => h10 x (List.mem_cons_of_mem _ hx)) h11 h12 h13 h14
  | boxed q i k tok m r h1 h2 h3 h4 h5 h6 h7 h8 h9 => exact .boxed q i k tok m r h1 h2 h3 h4 h5 (hd' h6) h7 h8 h9
  | lost i k tok h1 h2 h3 h4 h5 => exact .lost i k tok h1 h2 h3 h4 (hd' h5)

theorem phase_down {c d c' : St} {p : MsgType × Bytes} {rest pu : List (MsgType × Bytes)} (hcons : Consistent cc sc)
    (hn : cc.allowNative = false) (hcl : cc.isClient = true)
    (h : Phase sc cc.known c d pu (p :: rest)) (hs : step cc c (.recv p.1 p.2) = some c') (hc : c'.closed = false) :
    ∃ l, c'.log = c.log ++ l ∧ Phase sc cc.known c' d (pu ++ pipe l) rest := by
  have hcb : CbCalm cc := hcons.client
  by_cases hp : CalmP p
  · have h0 := h.dropDown hp
    by_cases ha : c.acked = true
    · obtain ⟨l, k1, k2⟩ := calm_recv_cli hcb hn hp ha hs hc
      refine ⟨l, k1.log, h0.cli ?_ k1 k2⟩
      cases h with
      | greet h1 h2 => exact absurd ha (by simp [h1.acked])
      | held h1 h2 => exact absurd ha (by simp [h1.acked])
      | acked x l1 l2 h1 h2 => exact absurd ha (by simp [h1.acked])
      | idle h1 h2 => exact h1
      | asked q i k tok l1 l2 h1 h2 => exact h1
      | answered q i k tok acc p l1 l2 h1 h2 => exact h1
      | boxed q i k tok m r h1 h2 => exact h1
      | lost i k tok h1 h2 => exact h1
    · cases h0 with
      | greet h1 h2 h3 h4 h5 =>
        obtain ⟨k1, k2⟩ := calm_recv_fresh hp h1 hs
        refine ⟨[], by simp [k2], ?_⟩
        simp only [pipe, List.append_nil]
        exact .greet k1 h2 h3 (by rw [k2]; exact h4) h5
      | held h1 h2 h3 h4 h5 h6 =>
        obtain ⟨k1, k2⟩ := calm_recv_fresh hp h1 hs
        refine ⟨[], by simp [k2], ?_⟩
        simp only [pipe, List.append_nil]
        exact .held k1 h2 h3 (by rw [k2]; exact h4) h5 h6
      | acked x l1 l2 h1 h2 h3 h4 h5 h6 h7 h8 =>
        obtain ⟨k1, k2⟩ := calm_recv_fresh hp h1 hs
        refine ⟨[], by simp [k2], ?_⟩
        simp only [pipe, List.append_nil]
        exact .acked x l1 l2 k1 h2 h3 (by rw [k2]; exact h4) h5 h6 h7 h8
      | idle h1 h2 => exact absurd h1.acked ha
      | asked q i k tok l1 l2 h1 h2 => exact absurd h1.acked ha
      | answered q i k tok acc p l1 l2 h1 h2 => exact absurd h1.acked ha
      | boxed q i k tok m r h1 h2 => exact absurd h1.acked ha
      | lost i k tok h1 h2 => exact absurd h1.acked ha
  · have hm : ∀ {l : List (MsgType × Bytes)}, Calms (p :: l) → False := fun h => hp (h p (List.mem_cons_self ..))
    cases h with
    | greet h1 h2 h3 h4 h5 => exact (hm h5).elim
    | held h1 h2 h3 h4 h5 h6 => exact (hm h6).elim
    | acked x l1 l2 h1 h2 h3 h4 h5 h6 h7 h8 =>
      cases l1 with
      | cons y l1 =>
        simp only [List.cons_append, List.cons.injEq] at h6
        exact absurd (by rw [h6.1]; exact h7 y (List.mem_cons_self ..)) hp
      | nil =>
        simp only [List.nil_append, List.cons.injEq] at h6
        obtain ⟨rfl, rfl⟩ := h6
        obtain ⟨k1, k2, k3, k4, _⟩ := recv_acked h1 h4 hs
        refine ⟨[], by simp [k4], ?_⟩
        simp only [pipe, List.append_nil]
        exact .idle k1 h2 (by unfold NoRequest; rw [k3]; simp) (by rw [h5]; exact .nil) h8 (agree_empty k2 h3)
    | idle h1 h2 h3 h4 h5 => exact (hm h5).elim
    | asked q i k tok l1 l2 h1 h2 h3 h4 h5 h6 h7 h8 h9 h10 h11 h12 => exact (hm h11).elim
    | answered q i k tok acc r l1 l2 h1 h2 h4 h5 h6 h7 h8 h9 h10 h11 h12 h13 h14 =>
      cases l1 with
      | cons y l1 =>
        simp only [List.cons_append, List.cons.injEq] at h9
        exact absurd (by rw [h9.1]; exact h10 y (List.mem_cons_self ..)) hp
      | nil =>
        simp only [List.nil_append, List.cons.injEq] at h9
        obtain ⟨rfl, rfl⟩ := h9
        obtain ⟨m, k1, k2, k3, k4, k5, k6⟩ := recv_reply hcl hn h1 h4 h6 h7 h12 hs
        refine ⟨[], by simp [k4], ?_⟩
        simp only [pipe, List.append_nil]
        exact .boxed q i k tok m acc k3 h2 (k5 q k h5) k2 h8 h11 (h13.congr k6 (agree_refl d)) k1 h14
    | boxed q i k tok m r h1 h2 h3 h4 h5 h6 => exact (hm h6).elim
    | lost i k tok h1 h2 h3 h4 h5 => exact (hm h5).elim

/-! ### The client calls -/

theorem Phase.cliOk {c d : St} {pu pd : List (MsgType × Bytes)} (h : Phase sc known c d pu pd)
    (hf : ¬ CliFresh c) : CliOk c := by
  cases h with
  | greet h1 => exact absurd h1 hf
  | held h1 => exact absurd h1 hf
  | acked x l1 l2 h1 => exact absurd h1 hf
  | idle h1 => exact h1
  | asked q i k tok l1 l2 h1 => exact h1
  | answered q i k tok acc p l1 l2 h1 => exact h1
  | boxed q i k tok m r h1 => exact h1
  | lost i k tok h1 => exact h1

theorem askAt_busy {c : St} {i : Nat} {k : Cont} {tok : Bytes} {box : Option Message} (h : AskAt c i k tok box) :
    ¬ NoRequest c := fun hn => by
  have := hn _ (List.mem_of_getElem? h.here)
  cases this

theorem called_phase {c d t : St} {pu pd : List (MsgType × Bytes)} {x : Bytes × Option Bytes} {tok : Bytes}
    (h : Phase sc known c d pu pd) (hm : MayRequest c) (htok : CliTok tok) (hcall : Called x tok c t) : ∃ l, t.log = c.log ++ l ∧ Phase sc known t d (pu ++ pipe l) pd := by
  obtain ⟨hm1, hm2, hm3⟩ := hm
  have hnf : ¬ CliFresh c := fun hf => by rw [hf.ready] at hm1; cases hm1
  cases h with
  | greet h1 => exact absurd h1 hnf
  | held h1 => exact absurd h1 hnf
  | acked x l1 l2 h1 => exact absurd h1 hnf
  | asked q i k tok l1 l2 h1 h2 h3 h4 h5 h6 => exact absurd hm2 (askAt_busy h6)
  | answered q i k tok acc p l1 l2 h1 h2 h4 h5 h6 => exact absurd hm2 (askAt_busy h6)
  | boxed q i k tok m r h1 h2 h3 h4 => exact absurd hm2 (askAt_busy h4)
  | lost i k tok h1 h2 h3 => exact absurd hm2 (askAt_busy h3)
  | idle h1 h2 h3 h4 h5 h6 =>
    have hok : ∀ {l : List Obs}, Kept c l t → CliOk t := fun {l} k =>
      ⟨by rw [k.acked]; exact h1.acked, by rw [k.log]; simp [h1.log], by rw [k.rd]; exact h1.rd,
        by rw [k.todo]; exact h1.todo, by rw [k.ackAfter]; exact h1.ackAfter⟩
    rcases hcall with ⟨l, k1, k2, k3⟩ | ⟨q, k, _, _, k1, k3, l, l1, k4, k5, k6, k7, k8, _⟩
    · refine ⟨l, k1.log, .idle (hok k1) h2 (fun a ha => ?_) (h4.append k2) h5 (k1.agree.symm.trans h6)⟩
      obtain ⟨j, hj⟩ := List.mem_iff_getElem?.mp ha
      exact (k3.back j a hj).elim (fun y => h3 a (List.mem_of_getElem? y)) id
    · refine ⟨l, k4.log, .asked q c.asks.length k tok (pu ++ l1) [] (hok k4) h2 k1 htok (k3.kept k4) ?_ k8
        (by rw [k5]; simp) (h4.append k6) .nil h5 (k4.agree.symm.trans h6)⟩
      refine ⟨by rw [k7]; simp, fun j a hj ha => ?_⟩
      rw [k7, List.getElem?_append] at ha
      split at ha
      · exact h3 a (List.mem_of_getElem? ha)
      · rename_i hlt
        have : j - c.asks.length ≠ 0 := by omega
        obtain ⟨n, e⟩ := Nat.exists_eq_succ_of_ne_zero this
        rw [e] at ha
        simp at ha

/-- what the rest of a call leaves to the reader -/
structure RdAsk (s t : St) : Prop where
  rd : t.rd = s.rd
  todo : t.todo = s.todo
  ackAfter : t.ackAfter = s.ackAfter
  asks : t.asks = s.asks

theorem RdAsk.trans {a b c : St} (h : RdAsk a b) (k : RdAsk b c) : RdAsk a c :=
  ⟨k.rd.trans h.rd, k.todo.trans h.todo, k.ackAfter.trans h.ackAfter, k.asks.trans h.asks⟩

theorem RdSame.rdAsk {a b : St} (h : RdSame a b) : RdAsk a b := ⟨h.rd, h.todo, h.ackAfter, h.asks⟩

theorem rdAsk_gateDone (s : St) (ns : Bytes) : RdAsk s (gateDone s ns) :=
  ⟨(kept_gateDone s ns).rd, (kept_gateDone s ns).todo, (kept_gateDone s ns).ackAfter, gateDone_asks s ns⟩

theorem rdAsk_emit (s : St) (o : Obs) : RdAsk s (s.emit o) := ⟨rfl, rfl, rfl, rfl⟩

theorem rdAsk_finish (s : St) (k : Cont) (m : Message) (e : Option GoErr) : RdAsk s (finish cfg s k m e) := by
  cases k with
  | user => exact rdAsk_emit _ _
  | connect ns obj =>
    cases e with
    | some e => exact (rdAsk_emit _ _).trans (rdAsk_gateDone _ _)
    | none =>
      refine RdAsk.trans ?_ (rdAsk_gateDone _ _)
      refine RdAsk.trans ?_ (rdAsk_emit _ _)
      refine RdAsk.trans (b := { s with connected := mapSet s.connected ns obj }) ⟨rfl, rfl, rfl, rfl⟩ ?_
      exact (rdSame_mid.notifyConnected _ _ _).rdAsk
  | disconnect obj msg =>
    cases e with
    | some e => exact rdAsk_emit _ _
    | none =>
      refine RdAsk.trans ?_ (rdAsk_emit _ _)
      refine RdAsk.trans ?_ (rdSame_mid.toCalm.notifyDisconnect _ _).rdAsk
      refine RdAsk.trans ?_ (rdSame_mid.toCalm.fire _ _ _).rdAsk
      refine RdAsk.trans (rdSame_mid.toCalm.forceLeaveAll s obj true).rdAsk ⟨rfl, rfl, rfl, rfl⟩
  | join obj msg =>
    cases e with
    | some e => exact rdAsk_emit _ _
    | none =>
      simp only [finish]
      have h1 : RdSame s (fire cfg s obj msg).1 := rdSame_mid.toCalm.fire _ _ _
      rcases hf : fire cfg s obj msg with ⟨u, v⟩
      rw [hf] at h1
      cases v with
      | some e => exact h1.rdAsk.trans (rdAsk_emit _ _)
      | none =>
        refine RdAsk.trans ?_ (rdAsk_emit _ _)
        refine RdAsk.trans ?_ (rdSame_mid.toCalm.fire _ _ _).rdAsk
        exact h1.rdAsk.trans ⟨rfl, rfl, rfl, rfl⟩
  | leave obj msg =>
    cases e with
    | some e => exact rdAsk_emit _ _
    | none =>
      simp only [finish]
      have h1 : RdSame s (fire cfg s obj msg).1 := rdSame_mid.toCalm.fire _ _ _
      rcases hf : fire cfg s obj msg with ⟨u, v⟩
      rw [hf] at h1
      cases v with
      | some e => exact h1.rdAsk.trans (rdAsk_emit _ _)
      | none =>
        refine RdAsk.trans ?_ (rdAsk_emit _ _)
        refine RdAsk.trans ?_ (rdSame_mid.toCalm.fire _ _ _).rdAsk
        exact h1.rdAsk.trans ⟨rfl, rfl, rfl, rfl⟩

theorem carries_isNone {r x : Option GoErr} (h : Carries known r x) : r.isNone = x.isNone := by
  cases r with
  | none => rw [show x = none from h]
  | some e => obtain ⟨e', he, _⟩ := h; rw [he]; rfl

theorem phase_resume {c d t : St} {pu pd : List (MsgType × Bytes)} {i : Nat} (hcons : Consistent cc sc)
    (hr : Reach cc id c) (h : Phase sc known c d pu pd) (hs : step cc c (.resume i) = some t) (hc : t.closed = false) :
    (∃ l, t.log = c.log ++ l ∧ Phase sc known t d (pu ++ pipe l) pd) ∧ NoRequest t ∧
      ∃ a q m r, c.asks[i]? = some a ∧ a.box = some m ∧ Waits q a.cont c ∧ Moves q r.isNone c d ∧
        Carries known r m.err ∧ ∀ e, r = some e → q.No sc d e := by
  obtain ⟨a, ha, hdone, m, hb⟩ : ∃ a, c.asks[i]? = some a ∧ a.done = false ∧ ∃ m, a.box = some m := by
    obtain ⟨he, _⟩ := step_exec hs
    simp only [exec, resume] at he
    split at he
    · cases he
    · rename_i a ha
      split at he
      · cases he
      · split at he
        · cases he
        · rename_i hd _ m hb
          exact ⟨a, ha, by simpa using hd, m, hb⟩
  have hno : ∀ {i' : Nat} {k : Cont} {tok : Bytes}, AskAt c i' k tok none → False := by
    intro i' k tok hat
    by_cases hi : i = i'
    · subst hi
      rw [hat.here] at ha
      cases ha
      cases hb
    · rw [hat.others i a hi ha] at hdone
      cases hdone
  have hnf : ¬ CliFresh c := fun hf => by rw [hf.asks] at ha; simp at ha
  cases h with
  | greet h1 => exact absurd h1 hnf
  | held h1 => exact absurd h1 hnf
  | acked x l1 l2 h1 => exact absurd h1 hnf
  | idle h1 h2 h3 =>
    rw [h3 a (List.mem_of_getElem? ha)] at hdone
    cases hdone
  | asked q i k tok l1 l2 h1 h2 h3 h4 h5 h6 => exact (hno h6).elim
  | answered q i k tok acc p l1 l2 h1 h2 h4 h5 h6 => exact (hno h6).elim
  | lost i k tok h1 h2 h3 => exact (hno h3).elim
  | boxed q i' k tok m' r h1 h2 h3 h4 h5 h6 h7 h8 h9 =>
    by_cases hi : i = i'
    · subst hi
      have ha' := ha
      rw [h4.here] at ha'
      cases ha'
      cases hb
      obtain ⟨k1, l, k2, k3⟩ := cli_answer hcons hr ha rfl h3 rfl hs hc
      rw [← carries_isNone h8] at k1
      obtain ⟨e, _⟩ := step_resume ha rfl hs
      have hra := rdAsk_finish (cfg := cc) (resumed c i ⟨tok, k, .table, some m, false⟩) k m m.err
      rw [← e] at hra
      have hro : c.rd ≠ .idle → ∃ m, AppMsg m ∧ c.rd = .gate m := fun x => h1.rd.resolve_left x
      have htake : takeAnswer c i ⟨tok, k, .table, some m, false⟩ =
          { c with asks := c.asks.set i ⟨tok, k, .table, none, false⟩ } := by
        unfold takeAnswer
        rcases h1.rd with x | ⟨m, _, x⟩ <;> rw [x]
      have hres : resumed c i ⟨tok, k, .table, some m, false⟩ =
          { c with asks := (c.asks.set i ⟨tok, k, .table, none, false⟩).modify i (fun a => { a with done := true }),
                   waiting := mapDel c.waiting tok } := by
        unfold resumed forget endAsk
        rw [htake]
        simp
      rw [hres] at hra
      have hack : t.acked = true := by
        rcases step_acked hr hs (.inl h1.acked) with x | x
        · exact x
        · rw [x] at hc; cases hc
      have hno : NoRequest t := by
        intro x hx
        rw [hra.asks] at hx
        obtain ⟨j, hj⟩ := List.mem_iff_getElem?.mp hx
        simp only [List.getElem?_modify, List.getElem?_set] at hj
        by_cases hij : i = j
        · subst hij
          have hlt : i < c.asks.length := (List.getElem?_eq_some_iff.mp ha).1
          simp [hlt] at hj
          rw [← hj]
        · simp [if_neg hij] at hj
          exact h4.others j x (Ne.symm hij) hj
      refine ⟨⟨l, k2, ?_⟩, hno, _, q, m, r, ha, rfl, h3, h7, h8, h9⟩
      exact .idle ⟨hack, by rw [k2]; simp [h1.log], by rw [hra.rd]; exact h1.rd, by rw [hra.todo]; exact h1.todo,
        by rw [hra.ackAfter]; exact h1.ackAfter⟩ h2 hno (h5.append k3) h6 (k1.agree h7)
    · rw [h4.others i a hi ha] at hdone
      cases hdone

/-- the client does something on its own -/
theorem phase_cli {d t : St} {pu pd : List (MsgType × Bytes)} {op : Op} {s : Sess} (hcons : Consistent cc sc)
    (hn : cc.allowNative = false) (hcl : cc.isClient = true) (hr : Reach cc id s.c)
    (ho : OneRequest s (.client op)) (h : Phase sc known s.c d pu pd) (hs : step cc s.c op = some t)
    (hc : t.closed = false) : ∃ l, t.log = s.c.log ++ l ∧ Phase sc known t d (pu ++ pipe l) pd := by
  have hcb : CbCalm cc := hcons.client
  have hon : cc.onlyNative = false := by simp [Cfg.onlyNative, hn]
  have hexit : ∀ s : St, (readerExit cc s).closed = true := fun s => closeConn_closed s
  cases op with
  | sendAck =>
    have hlog : s.c.log = [] := ho
    obtain ⟨he, _⟩ := step_exec hs
    simp only [exec, hon] at he
    have hf : CliFresh s.c := Classical.byContradiction fun x => (h.cliOk x).log hlog
    cases h with
    | greet h1 h2 h3 h4 h5 =>
      rcases h4 with ⟨_, rfl⟩ | ⟨h4, _⟩
      · have ht : t = (rawWrite cc s.c (b! "M") false).1 ∧ (rawWrite cc s.c (b! "M") false).2 = true := by
          simp only [Bool.false_eq_true, if_false] at he
          rcases hw : rawWrite cc s.c (b! "M") false with ⟨u, v⟩
          rw [hw] at he
          cases v with
          | true => cases he; exact ⟨rfl, rfl⟩
          | false => cases he; rw [closeConn_closed] at hc; cases hc
        obtain ⟨rfl, hw⟩ := ht
        have ho := rawWrite_open hc
        rw [ho] at hw
        simp only at hw
        rw [ho, hw]
        refine ⟨_, rfl, ?_⟩
        simp only [pipe, List.nil_append]
        refine .greet ⟨h1.acked, h1.connected, h1.asks, h1.rd, h1.todo, h1.ackAfter, h1.ready⟩ h2 h3
          (.inr ⟨by simp, rfl⟩) h5
      · exact absurd hlog h4
    | held h1 h2 h3 h4 => exact absurd hlog h4
    | acked x l1 l2 h1 h2 h3 h4 => exact absurd hlog h4
    | idle h1 => exact absurd h1.acked (by simp [hf.acked])
    | asked q i k tok l1 l2 h1 => exact absurd h1.acked (by simp [hf.acked])
    | answered q i k tok acc p l1 l2 h1 => exact absurd h1.acked (by simp [hf.acked])
    | boxed q i k tok m r h1 => exact absurd h1.acked (by simp [hf.acked])
    | lost i k tok h1 => exact absurd h1.acked (by simp [hf.acked])
  | write m =>
    obtain ⟨ho1, ho2⟩ : s.c.ready = some none ∧ AppMsg m := ho
    have hok := h.cliOk fun hf => by rw [hf.ready] at ho1; cases ho1
    obtain ⟨he, _⟩ := step_exec hs
    simp only [exec] at he
    cases he
    obtain ⟨l, k1, k2⟩ := app_write ho2 hc
    exact ⟨l, k1.log, h.cli hok k1.ckept k2⟩
  | connect ns now ex =>
    obtain ⟨ho1, ho2⟩ : MayRequest s.c ∧ SafeName ns := ho
    exact called_phase h ho1 (cliTok_genWait _) (cli_connect hcl hon hcb ho1.2.2 ho2 hs hc)
  | disconnect obj now ex =>
    obtain ⟨ho1, ho2⟩ : MayRequest s.c ∧ SafeName (s.c.nsName obj) := ho
    exact called_phase h ho1 (cliTok_genWait _) (cli_disconnect hcl hon ho1.2.2 ho2 hs hc)
  | join obj room now ex =>
    obtain ⟨ho1, ho2, ho3, ho4⟩ : MayRequest s.c ∧ linked s.c obj = true ∧ SafeName (s.c.nsName obj) ∧ SafeName room := ho
    exact called_phase h ho1 (cliTok_genWait _) (cli_join hcl hon ho1.2.2 ho2 ho3 ho4 hs hc)
  | leave obj room now ex =>
    obtain ⟨ho1, ho2, ho3, ho4⟩ : MayRequest s.c ∧ linked s.c obj = true ∧ SafeName (s.c.nsName obj) ∧ SafeName room := ho
    exact called_phase h ho1 (cliTok_genWait _) (cli_leave hcl hon ho1.2.2 ho2 ho3 ho4 hs hc)
  | resume i => exact (phase_resume hcons hr h hs hc).1
  | close =>
    obtain ⟨he, _⟩ := step_exec hs
    simp only [exec] at he
    cases he
    rw [closeConn_closed] at hc
    cases hc
  | readErr e =>
    obtain ⟨he, _⟩ := step_exec hs
    simp only [exec] at he
    split at he
    · cases he
      rw [hexit] at hc
      cases hc
    · cases he
  | wake =>
    obtain ⟨he, _⟩ := step_exec hs
    simp only [exec, wakeReader] at he
    have hok := h.cliOk fun hf => by rw [hf.rd] at he; cases he
    rcases hok.rd with x | ⟨m, hm, x⟩
    · rw [x] at he; cases he
    · simp only [x] at he
      split at he
      · have hrd := rd_afterGate (cfg := cc) { s.c with rd := .idle } m
        have h1 : (afterGate cc { s.c with rd := .idle } m).rd = .idle := hrd.rd
        have h2 : (afterGate cc { s.c with rd := .idle } m).todo = [] := hrd.todo.trans hok.todo
        have h3 : (afterGate cc { s.c with rd := .idle } m).ackAfter = false := hrd.ackAfter.trans hok.ackAfter
        rw [if_pos h1, h2] at he
        simp only [drain, h3, Bool.false_eq_true, if_false, Option.some.injEq] at he
        have he : t = afterGate cc { s.c with rd := .idle } m := by
          rw [← he]
          generalize afterGate cc { s.c with rd := .idle } m = u at h2 h3
          cases u
          simp only at h2 h3
          subst h2 h3
          rfl
        subst he
        obtain ⟨l, k1, k2⟩ := calm_afterGate hcb hm.1 hm.2 hc
        have hk : CKept s.c l (afterGate cc { s.c with rd := .idle } m) :=
          ⟨fun n => k1.ckept.ns n, fun n => k1.ckept.rooms n, .inr (.inl h1), k1.ckept.todo, k1.ckept.ackAfter,
            k1.ckept.acked, k1.ckept.log, k1.ckept.asks, k1.ckept.waiting⟩
        exact ⟨l, hk.log, h.cli hok hk k2⟩
      · cases he
  | recv => exact ho.elim
  | contReader => exact ho.elim
  | ask => exact ho.elim
  | cancel => exact ho.elim
  | steal => exact ho.elim
  | stealErr => exact ho.elim
  | ready => exact ho.elim
  | srvAsk => exact ho.elim
  | srvUnask => exact ho.elim

/-! ### Sessions -/

structure OneInv (cc sc : Cfg) (id : Bytes) (s : Sess) : Prop where
  rc : Reach cc [] s.c
  rd : Reach sc id s.d
  up : s.up ≤ (pipe s.c.log).length
  down : s.down ≤ (pipe s.d.log).length
  phase : s.c.closed = true ∨ s.d.closed = true ∨
    Phase sc cc.known s.c s.d ((pipe s.c.log).drop s.up) ((pipe s.d.log).drop s.down)

theorem log_grows {s t : St} {op : Op} {i : Bytes} (hr : Reach cfg i s) (h : step cfg s op = some t) :
    ∃ l, t.log = s.log ++ l := by
  obtain ⟨l, hl⟩ := (Prims.grows (reach_prims hr h)).log
  exact ⟨l, hl.symm⟩

theorem one_inv {ops : List SessOp} {s : Sess} (hcons : Consistent cc sc) (hnc : cc.allowNative = false)
    (hns : sc.allowNative = false) (hcl : cc.isClient = true) (hsc : sc.isClient = false)
    (h : OneRun cc sc id ops s) : OneInv cc sc id s := by
  have honc : cc.onlyNative = false := by simp [Cfg.onlyNative, hnc]
  have hons : sc.onlyNative = false := by simp [Cfg.onlyNative, hns]
  induction h with
  | init =>
    refine ⟨.init, .init, Nat.zero_le _, Nat.zero_le _, .inr (.inr ?_)⟩
    simp only [newSess, newConn_eq honc, newConn_eq hons]
    exact .greet ⟨rfl, rfl, rfl, rfl, rfl, rfl, rfl⟩ ⟨rfl, rfl, rfl, rfl, rfl, rfl, rfl⟩ rfl (.inl ⟨rfl, rfl⟩) .nil
  | @step ops s s' op hrun ho hstep ih =>
    have drop_app : ∀ {a b : List (MsgType × Bytes)} {n : Nat}, n ≤ a.length → (a ++ b).drop n = a.drop n ++ b :=
      fun {a b n} hn => by rw [List.drop_append, Nat.sub_eq_zero_of_le hn]; rfl
    cases op with
    | client op =>
      simp only [sstep] at hstep
      split at hstep
      · cases hstep
      · obtain ⟨t, ht, rfl⟩ := Option.map_eq_some_iff.mp hstep
        obtain ⟨l, hl⟩ := log_grows ih.rc ht
        refine ⟨.step ih.rc ht, ih.rd, ?_, ih.down, ?_⟩
        · simp only [hl, pipe_append, List.length_append]; exact Nat.le_trans ih.up (Nat.le_add_right ..)
        · cases hc : t.closed with
          | true => exact .inl rfl
          | false =>
            have hc0 := closed_of_prims (reach_prims ih.rc ht) hc
            rcases ih.phase with x | x | x
            · rw [hc0] at x; cases x
            · exact .inr (.inl x)
            · obtain ⟨l', hl', hp⟩ := phase_cli hcons hnc hcl ih.rc ho x ht hc
              refine .inr (.inr ?_)
              simp only [hl', pipe_append, drop_app ih.up]
              exact hp
    | server op =>
      simp only [sstep] at hstep
      split at hstep
      · cases hstep
      · obtain ⟨t, ht, rfl⟩ := Option.map_eq_some_iff.mp hstep
        obtain ⟨l, hl⟩ := log_grows ih.rd ht
        refine ⟨ih.rc, .step ih.rd ht, ih.up, ?_, ?_⟩
        · simp only [hl, pipe_append, List.length_append]; exact Nat.le_trans ih.down (Nat.le_add_right ..)
        · cases hc : t.closed with
          | true => exact .inr (.inl rfl)
          | false =>
            have hc0 := closed_of_prims (reach_prims ih.rd ht) hc
            rcases ih.phase with x | x | x
            · exact .inl x
            · rw [hc0] at x; cases x
            · obtain ⟨l', hl', hp⟩ := phase_srv ho x ht hc
              refine .inr (.inr ?_)
              simp only [hl', pipe_append, drop_app ih.down]
              exact hp
    | up =>
      simp only [sstep] at hstep
      split at hstep
      · cases hstep
      · rename_i ty b hb
        obtain ⟨t, ht, rfl⟩ := Option.map_eq_some_iff.mp hstep
        obtain ⟨l, hl⟩ := log_grows ih.rd ht
        have hlt : s.up < (pipe s.c.log).length := (List.getElem?_eq_some_iff.mp hb).1
        refine ⟨ih.rc, .step ih.rd ht, hlt, ?_, ?_⟩
        · simp only [hl, pipe_append, List.length_append]; exact Nat.le_trans ih.down (Nat.le_add_right ..)
        · cases hc : t.closed with
          | true => exact .inr (.inl rfl)
          | false =>
            have hc0 := closed_of_prims (reach_prims ih.rd ht) hc
            rcases ih.phase with x | x | x
            · exact .inl x
            · rw [hc0] at x; cases x
            · rw [List.drop_eq_getElem_cons hlt, (List.getElem?_eq_some_iff.mp hb).2] at x
              obtain ⟨l', hl', hp⟩ := phase_up hcons hns hsc ih.rd x ht hc
              refine .inr (.inr ?_)
              simp only [hl', pipe_append, drop_app ih.down]
              exact hp
    | down =>
      simp only [sstep] at hstep
      split at hstep
      · cases hstep
      · rename_i ty b hb
        obtain ⟨t, ht, rfl⟩ := Option.map_eq_some_iff.mp hstep
        obtain ⟨l, hl⟩ := log_grows ih.rc ht
        have hlt : s.down < (pipe s.d.log).length := (List.getElem?_eq_some_iff.mp hb).1
        refine ⟨.step ih.rc ht, ih.rd, ?_, hlt, ?_⟩
        · simp only [hl, pipe_append, List.length_append]; exact Nat.le_trans ih.up (Nat.le_add_right ..)
        · cases hc : t.closed with
          | true => exact .inl rfl
          | false =>
            have hc0 := closed_of_prims (reach_prims ih.rc ht) hc
            rcases ih.phase with x | x | x
            · rw [hc0] at x; cases x
            · exact .inr (.inl x)
            · rw [List.drop_eq_getElem_cons hlt, (List.getElem?_eq_some_iff.mp hb).2] at x
              obtain ⟨l', hl', hp⟩ := phase_down hcons hnc hcl x ht hc
              refine .inr (.inr ?_)
              simp only [hl', pipe_append, drop_app ih.up]
              exact hp
    | upAsk i => exact ho.elim
    | downAsk i => exact ho.elim

theorem phase_agree {c d : St} {pu pd : List (MsgType × Bytes)} (h : Phase sc known c d pu pd)
    (hn : NoRequest c) : Agree c d := by
  cases h with
  | greet h1 h2 => exact agree_empty h1.connected h2.connected
  | held h1 h2 => exact agree_empty h1.connected h2.connected
  | acked x l1 l2 h1 h2 h3 => exact agree_empty h1.connected h3
  | idle h1 h2 h3 h4 h5 h6 => exact h6
  | asked q i k tok l1 l2 h1 h2 h3 h4 h5 h6 => exact absurd hn (askAt_busy h6)
  | answered q i k tok acc p l1 l2 h1 h2 h4 h5 h6 => exact absurd hn (askAt_busy h6)
  | boxed q i k tok m r h1 h2 h3 h4 => exact absurd hn (askAt_busy h4)
  | lost i k tok h1 h2 h3 => exact absurd hn (askAt_busy h3)

end Neffos
