import Verif.Spec.Order
import Verif.Proofs.Tally
import Verif.Proofs.Delivery
import Verif.Proofs.Emit
import Verif.Props.EmitBoth
/-!
Helper lemmas for the order of events while both sides call.
-/
set_option autoImplicit false
namespace Neffos
open Neffos.Spec
namespace Order

variable {x y cc sc : Cfg} {id : Bytes} {s s' t : St} {po pi : List (MsgType × Bytes)} {O I : List Cargo}
  {X Y : List (Pend × Option GoErr × Option Message)}

/-! ### Payloads -/

theorem eventIn_eq (hn : x.allowNative = false) (p : MsgType × Bytes) :
    eventIn x p = if (decP x p).isInvalid = true ∨ Life (decP x p).event ∨ (decP x p).wait ≠ [] then none else some (decP x p) := by
  have hon : x.onlyNative = false := by simp [Cfg.onlyNative, hn]
  unfold eventIn carried
  rw [hn, hon]
  show (if (decP x p).isInvalid = true ∨ Life (decP x p).event then none else some (decP x p)).bind _ = _
  by_cases h1 : (decP x p).isInvalid = true ∨ Life (decP x p).event
  · rw [if_pos h1, if_pos (by rcases h1 with h | h; exact .inl h; exact .inr (.inl h))]
    rfl
  · rw [if_neg h1]
    by_cases h2 : (decP x p).wait = []
    · rw [if_neg (by rintro (h | h | h); exact h1 (.inl h); exact h1 (.inr h); exact h h2)]
      simp [h2]
    · rw [if_pos (.inr (.inr h2))]
      simp [h2]

theorem eventIn_tok (hn : x.allowNative = false) {p : MsgType × Bytes} (h : (decP x p).wait ≠ []) : eventIn x p = none := by
  rw [eventIn_eq hn, if_pos (.inr (.inr h))]

theorem eventIn_life (hn : x.allowNative = false) {p : MsgType × Bytes} (h : Life (decP x p).event) : eventIn x p = none := by
  rw [eventIn_eq hn, if_pos (.inr (.inl h))]

theorem ask_of {m : Message} (h : PlainEvent m) : AskMsg m := by
  refine ⟨h.ns, h.room, h.event, fun k => h.life ?_⟩
  unfold isRequest at k
  unfold Life
  rcases k with k | k | k | k <;> rw [k] <;> decide

/-- what an emitted event is for its reader -/
theorem eventIn_wire (hn : x.allowNative = false) {m : Message} (h : PlainEvent m) :
    eventIn x (if m.setBinary then .binary else .text, wireOf m) = some (arrives m) := by
  obtain ⟨hh, hv⟩ := emit_wire x.known h.app (ask_of h)
  have hw := hh.whole h.err
  rw [eventIn_eq hn]
  have e : decP x (if m.setBinary then .binary else .text, wireOf m) = arrives m := hw
  rw [e] at *
  rw [if_neg]
  rintro (k | k | k)
  · exact absurd k (by simp [arrives])
  · exact h.life k
  · exact k rfl

/-- the payloads of the handshake carry no event -/
theorem eventIn_other (hn : x.allowNative = false) {c : UInt8} {r : Bytes} (h1 : c ≠ 59) (h2 : c ≠ 110) : eventIn x (.text, c :: r) = none := by
  rw [eventIn_eq hn]
  refine if_pos ?_
  unfold decP
  have key : (deserializeInput x.known (c :: r) false false).isInvalid = true ∨
      ∃ t, (deserializeInput x.known (c :: r) false false).wait = c :: t := by
    unfold deserializeInput
    rw [if_neg (by simp), if_neg (by simp)]
    split
    · rename_i w ns room ev e n body heq
      refine .inr ?_
      obtain ⟨t, rfl⟩ : ∃ t, w = c :: t := by
        simp only [validMessageSepCount, splitN, cut, sepByte] at heq
        rw [if_neg h1] at heq
        split at heq
        · simp at heq
        · rename_i f r' hx
          simp only [List.cons.injEq] at heq
          simp only [Prod.mk.injEq] at hx
          exact ⟨_, by rw [← heq.1, ← hx.1]⟩
      split
      · dsimp only
        split <;> exact ⟨t, rfl⟩
      · exact ⟨t, rfl⟩
    · exact .inl rfl
  unfold deserializeMessage
  dsimp only
  rcases key with k | ⟨t, k⟩
  · exact .inl k
  · refine .inr (.inr ?_)
    have hno : isServerConnID (c :: t) = false := by
      unfold isServerConnID
      show ((110 : UInt8) :: _).isPrefixOf (c :: t) = false
      simp only [List.isPrefixOf_cons₂, Bool.and_eq_false_imp, beq_iff_eq]
      exact fun e => absurd e.symm h2
    rw [k, hno]
    simp only [Bool.false_eq_true, if_false]
    split
    · split <;> simp
    · simp

/-! ### What a side puts on the wire -/

theorem called_events {tok : Bytes} {z : Bytes × Option Bytes} {l : List Obs} (hn : y.allowNative = false) (htok : SideTok x.isClient tok)
    (hcall : Called z tok s s') (hw : CallWires s s') (hl : s'.log = s.log ++ l) : (pipe l).filterMap (eventIn y) = [] := by
  rcases hcall with ⟨l', k1, _, k3⟩ | ⟨q, k, rfl, hab, hsafe, hwt, l', l1, k1, k2, k3, k4, k5, k6⟩
  · have hw0 : Wires 0 s s' := by
      rcases hw with hw | ⟨_, a, ha, hd⟩
      · exact hw
      · rcases k3.back _ a ha with e | e
        · rw [List.getElem?_eq_none (Nat.le_refl _)] at e; cases e
        · rw [e] at hd; cases hd
    rw [hw0.nothing hl]
    rfl
  · have e : l' = l := List.append_cancel_left (k1.log.symm.trans hl)
    subst e
    have hsz : (pipe s'.log).length ≤ (pipe s.log).length + 1 := by
      rcases hw with hw | ⟨hw, _⟩
      · have := hw.size; omega
      · exact hw.size
    rw [k1.log, pipe_append, k2, List.length_append, List.length_append] at hsz
    have hl1 : l1 = [] := List.eq_nil_of_length_eq_zero (by simp only [List.length_singleton] at hsz; omega)
    rw [k2, hl1, List.nil_append, List.filterMap_cons, eventIn_tok hn]
    · rfl
    show (deserializeMessage y.known _ _ false false).wait ≠ []
    dsimp only
    rw [req_decodes y.known hsafe htok.is, (req_fields q tok).1]
    exact htok.is.2

/-- what a side emits by an operation -/
def emits (s s' : St) : Op → List Message
  | .write m => if (pipe s.log).length < (pipe s'.log).length then [m] else []
  | _ => []

theorem write_events {m : Message} {l : List Obs} (hn : y.allowNative = false) (hm : PlainEvent m)
    (hs : step x s (.write m) = some s') (hc : s'.closed = false) (hl : s'.log = s.log ++ l) :
    (pipe l).filterMap (eventIn y) = (emits s s' (.write m)).map arrives := by
  obtain ⟨he, _⟩ := step_exec hs
  simp only [exec] at he
  cases he
  unfold emits
  dsimp only
  rw [hl, pipe_append, List.length_append]
  have h1 := write_open hc
  have e : l = writeLog x s m := by
    have : (write x s m).1.log = s.log ++ writeLog x s m := by rw [h1]
    exact List.append_cancel_left (hl.symm.trans this)
  subst e
  unfold writeLog
  split
  · rename_i hmay
    cases hx : (x.sock s.log m.setBinary (wireOf m)).isNone with
    | false => simp [pipe]
    | true =>
      have e2 : pipe [Obs.sent m.setBinary (wireOf m) true] = [(if m.setBinary then .binary else .text, wireOf m)] := by
        simp [pipe]
      simp [e2, eventIn_wire hn hm]
  · simp [pipe]

theorem step_events {op : Op} {l : List Obs} (hst : StillSide x) (hn : x.allowNative = false) (hny : y.allowNative = false)
    (hr : Reach x id s) (ho : SideRequests x.isClient s t op) (hpe : ∀ m, op = .write m → PlainEvent m)
    (h : Both x y s t po pi O I X Y) (hes : Ears x s pi)
    (hs : step x s op = some s') (hc : s'.closed = false) (hl : s'.log = s.log ++ l) :
    (pipe l).filterMap (eventIn y) = (emits s s' op).map arrives := by
  have hcb : CbCalm x := (still_calm hst.cbs)
  have hon : x.onlyNative = false := by simp [Cfg.onlyNative, hn]
  cases op with
  | write m => exact write_events hny (hpe m rfl) hs hc hl
  | ready e =>
    obtain ⟨he, _⟩ := step_exec hs
    simp only [exec] at he
    cases he
    have k1 : (s.signalReady e).log = s.log := by
      unfold St.signalReady
      split <;> rfl
    have : l = [] := by rw [k1] at hl; simpa using hl
    subst this
    rfl
  | connect ns now ex =>
    obtain ⟨⟨o1, o2, o3, o4⟩, ⟨o5, o6⟩, o7⟩ := ho
    exact called_events hny (sideTok_genWait _ _) (side_connect (.inr ⟨o1, o2⟩) hon hcb o3 o7 hs hc) (callWires_connect hst o3 hs) hl
  | disconnect obj now ex =>
    obtain ⟨⟨o1, o2, o3, o4⟩, ⟨o5, o6⟩, o7⟩ := ho
    exact called_events hny (sideTok_genWait _ _) (side_disconnect hon o3 o7 hs hc) (callWires_disconnect hst o3 hs) hl
  | join obj room now ex =>
    obtain ⟨⟨o1, o2, o3, o4⟩, ⟨o5, o6⟩, o7, o8, o9⟩ := ho
    exact called_events hny (sideTok_genWait _ _) (side_join hon o3 o7 o8 o9 hs hc) (callWires_join hst o3 hs) hl
  | leave obj room now ex =>
    obtain ⟨⟨o1, o2, o3, o4⟩, ⟨o5, o6⟩, o7, o8, o9⟩ := ho
    exact called_events hny (sideTok_genWait _ _) (side_leave hon o3 o7 o8 o9 hs hc) (callWires_leave hst o3 hs) hl
  | resume i =>
    obtain ⟨a, ha, m, hb⟩ : ∃ a, s.asks[i]? = some a ∧ ∃ m, a.box = some m := by
      obtain ⟨he, _⟩ := step_exec hs
      simp only [exec, resume] at he
      split at he
      · cases he
      · rename_i a ha
        split at he
        · cases he
        · split at he
          · cases he
          · rename_i _ m hb
            exact ⟨a, ha, m, hb⟩
    rw [(wires_resume hst.cbs ha hb hs).nothing hl]
    rfl
  | close =>
    obtain ⟨he, _⟩ := step_exec hs
    simp only [exec] at he
    cases he
    rw [closeConn_closed] at hc
    cases hc
  | readErr e =>
    obtain ⟨he, _⟩ := step_exec hs
    simp only [exec] at he
    split at he
    · cases he
      have : (readerExit x (s.signalReady (some e))).closed = true := closeConn_closed _
      rw [this] at hc
      cases hc
    · cases he
  | wake =>
    obtain ⟨M, hM, hp⟩ := wake_state hst h.okS hes hs
    have hw : Wires 0 s s' := ⟨hp.closed, hp.size, hp.taken⟩
    rw [hw.nothing hl]
    rfl
  | ask => exact ho.elim
  | sendAck => exact ho.elim
  | recv => exact ho.elim
  | contReader => exact ho.elim
  | cancel => exact ho.elim
  | steal => exact ho.elim
  | stealErr => exact ho.elim
  | srvAsk => exact ho.elim
  | srvUnask => exact ho.elim

/-- what a side that reads puts on the wire: no event -/
theorem recv_events {p : MsgType × Bytes} {rest : List (MsgType × Bytes)} {l : List Obs} (hst : StillSide x) (hcons : BothConsistent x y)
    (hn : x.allowNative = false) (hny : y.allowNative = false) (hxy : y.isClient = !x.isClient) (hsw : x.isClient = true ∨ s.srvWaiting = [])
    (hr : Reach x id s) (h : Both x y s t po (p :: rest) O I X Y) (hes : Ears x s (p :: rest)) (het : Ears y t po)
    (hs : step x s (.recv p.1 p.2) = some s') (hc : s'.closed = false) (hl : s'.log = s.log ++ l) :
    (pipe l).filterMap (eventIn y) = [] := by
  by_cases hp : CalmP p
  · obtain ⟨hidle, he⟩ := recv_idle hs
    obtain ⟨hw, _⟩ := wires_calm hst.cbs hst.nil hn h.okS.acked hp
    rw [← he] at hw
    rw [hw.nothing hl]
    rfl
  · obtain ⟨it, I', rfl, hit, hin⟩ := h.inn.head hp
    cases it with
    | req a =>
      cases (show p = a.load from hit)
      obtain ⟨l', h1, _, _, p, r, h4, _, _, htok, hrep, _⟩ := ears_request hst hcons hn hxy hr h hes het hs hc
      have e : l' = l := List.append_cancel_left (h1.symm.trans hl)
      subst e
      rw [h4]
      simp only [List.filterMap_cons, List.filterMap_nil]
      rw [eventIn_tok hny]
      show (deserializeMessage y.known _ _ false false).wait ≠ []
      rw [hrep.wait]
      exact htok.is.2
    | rep a r =>
      obtain ⟨h1, _⟩ := ears_answer hn hsw h hit hes hs
      have : l = [] := by rw [h1] at hl; simpa using hl
      subst this
      rfl

/-! ### What a side hears -/

theorem rest_of (h : SideOk s) : AtRest s := by
  refine ⟨h.todo, h.ackAfter, ?_⟩
  rcases h.rd with e | ⟨m, _, e⟩ <;> rw [e] <;> simp

theorem step_heard {op : Op} (hst : StillSide x) (hn : x.allowNative = false) (hr : Reach x id s) (ho : SideRequests x.isClient s t op)
    (h : Both x y s t po pi O I X Y) (hes : Ears x s pi) (hs : step x s op = some s') :
    heard s'.log ++ held s' = heard s.log ++ held s := by
  by_cases hw : op = .wake
  · subst hw
    obtain ⟨M, hM, hp⟩ := wake_state hst h.okS hes hs
    obtain ⟨he, _⟩ := step_exec hs
    simp only [exec, wakeReader, hM] at he
    obtain ⟨hlast, h1, h2⟩ := hes.gate M hM
    have hin : InNs s M.ns := by
      rcases hlast with ⟨a, k1, k2, ⟨obj, k3⟩, _⟩ | k
      · obtain ⟨i, hi⟩ := List.getElem?_of_mem k1
        have := (c32_event_waits hr hM ⟨i, obj, a, hi, k2, k3⟩).1
        rw [hs] at this
        cases this
      · exact k.inNs
    have hd : held s' = [] := by unfold held; rw [hp.rd]
    have hd0 : held s = if Life M.event then [] else [M] := by unfold held; rw [hM]
    rw [hd, hd0, List.append_nil]
    split at he
    · have hloc := decoded_remote (reach_gate hr M hM)
      have hh := heard_afterGate (cfg := x) { s with rd := .idle } hloc
      have hp' := puts_afterGate_nil hst.cbs hst.nil { s with rd := .idle } M
        (by rcases h.okS.rd with e | ⟨m, hm, e⟩
            · rw [e] at hM; cases hM
            · rw [hM] at e; cases e; exact hm.1) h1 h2
      have k1 : (afterGate x { s with rd := .idle } M).rd = .idle := hp'.rd
      have k2 : (afterGate x { s with rd := .idle } M).todo = [] := hp'.todo.trans h.okS.todo
      have k3 : (afterGate x { s with rd := .idle } M).ackAfter = false := hp'.ackAfter.trans h.okS.ackAfter
      rw [if_pos k1, k2, drain_nil _ k2 k3] at he
      cases he
      rw [hh]
      have hin' : ({ s with rd := .idle } : St).namespace M.ns ≠ none := hin
      by_cases hl : Life M.event
      · simp [hl]
      · simp [hl, hin']
    · cases he
  · have hrecv : ∀ t b, op ≠ .recv t b := by
      rintro ty b rfl
      exact ho
    obtain ⟨h1, h2, _⟩ := aside_exec hr (rest_of h.okS) (step_exec hs).1 hw hrecv
    rw [h1, h2]

/-- at most one Connect of a namespace in progress, and none after one has returned -/
def Once (s : St) : Prop := Tally.Once (fun _ => 1) (fun _ => 0) s

theorem Once.blocks {n : Bytes} (ho : Once s) (hr : Reach x id s) (hp : InProgress s n) : gateBlocks s n = true := by
  have h1 := ho n
  have hp := pend_pos.2 hp
  obtain ⟨g1, g2, _⟩ := reach_gateOk hr n
  dsimp only at h1 g1 g2
  have hd : (gateOf s n).done = false := by
    cases hd : (gateOf s n).done with
    | false => rfl
    | true => rw [hd, Bool.toNat_true] at h1; omega
  rw [gateBlocks_eq, hd]
  simp
  omega

theorem heard_prefix {l : List Obs} (hl : s'.log = s.log ++ l) : heard s'.log = heard s.log ++ heard l := by
  rw [hl, heard_append]

theorem recv_heard {p : MsgType × Bytes} {rest : List (MsgType × Bytes)} (hst : StillSide x) (hcons : BothConsistent x y) (honce : Once s)
    (hn : x.allowNative = false) (hxy : y.isClient = !x.isClient) (hsw : x.isClient = true ∨ s.srvWaiting = [])
    (hr : Reach x id s) (h : Both x y s t po (p :: rest) O I X Y) (hes : Ears x s (p :: rest))
    (hs : step x s (.recv p.1 p.2) = some s') (hc : s'.closed = false) :
    heard s'.log ++ held s' = heard s.log ++ held s ++ (eventIn x p).toList := by
  have hon : x.onlyNative = false := by simp [Cfg.onlyNative, hn]
  obtain ⟨hidle, he⟩ := recv_idle hs
  have hh : held s = [] := by unfold held; rw [hidle]
  rw [hh, List.append_nil]
  by_cases hp : CalmP p
  · have hw0 : (decP x p).wait = [] := calm_wait hp
    have hne : p.2 ≠ [] := by obtain ⟨t, e⟩ := hp; rw [e]; simp
    have hloc : (decP x p).isLocal = false := decoded_remote (cfg := x) ⟨p.1, p.2, by rw [hn, hon]⟩
    rw [he]
    unfold recv handlePayload
    rw [if_neg hne, if_pos h.okS.acked, hn, hon]
    show heard (handleMessage x s (decP x p)).log ++ held (handleMessage x s (decP x p)) = _
    rw [eventIn_eq hn]
    have hlast := hes.hear [] p rest rfl hp (decP x p).ns
    revert hw0 hloc hlast
    rw [show Talks x.known p (decP x p).ns = ((decP x p).ns = (decP x p).ns ∧ (decP x p).event ≠ OnNamespaceConnect ∧
      (decP x p).event ≠ OnNamespaceDisconnect) from rfl]
    generalize decP x p = M
    intro hw0 hloc hlast
    unfold handleMessage
    by_cases hv : M.isInvalid = true
    · rw [if_pos hv, if_pos (.inl hv)]
      simp [hh]
    · rw [if_neg hv]
      have hnw : M.isWait x.isClient = false := by unfold Message.isWait; simp [hw0]
      rw [hon, hnw]
      simp only [Bool.and_false, Bool.false_eq_true, if_false]
      rw [(heard_dispatch (cfg := x) hloc (rest_of h.okS) hidle).2]
      by_cases hl : Life M.event
      · rw [if_pos (.inl hl), if_pos (.inr (.inl hl))]
        rfl
      · have hno : ¬ (M.isInvalid = true ∨ Life M.event ∨ M.wait ≠ []) := by simp [hv, hl, hw0]
        rw [if_neg hno, if_neg]
        · rfl
        · rintro (k | ⟨k1, k2⟩)
          · exact hl k
          · rcases hlast ⟨rfl, fun e => hl (e ▸ life_connect), fun e => hl (e ▸ life_disconnect)⟩ with
              ⟨a, j1, j2, ⟨obj, j3⟩, _⟩ | k
            · obtain ⟨i, hi⟩ := List.getElem?_of_mem j1
              rw [honce.blocks hr ⟨i, obj, a, hi, j2, j3⟩] at k1
              cases k1
            · exact k.inNs k2
  · obtain ⟨it, I', rfl, hit, hin⟩ := h.inn.head hp
    cases it with
    | req a =>
      cases (show p = a.load from hit)
      obtain ⟨q, hsafe, hdec, htok, kr, r, l, k2, _⟩ := both_handles hcons hn hxy hr h hs hc
      have hev : eventIn x a.load = none := eventIn_tok hn (by rw [hdec, (req_fields q a.tok).1]; exact htok.is.2)
      have hcar : carried x a.load = none := by
        unfold carried
        rw [hn, hon]
        refine if_pos (.inr ?_)
        show Life (decP x a.load).event
        rw [hdec]
        cases q with
        | connect => exact life_connect
        | disconnect => exact life_disconnect
        | join => exact life_join
        | leave => exact life_leave
      rw [hev]
      have hd := (delivers hr (rest_of h.okS) h.okS.acked (step_exec hs).1).2.1
      have hcar' : carried x (a.load.1, a.load.2) = none := hcar
      rw [hh] at hd
      simp only [readIn, List.filterMap_cons, hcar', List.filterMap_nil, List.append_nil] at hd
      rw [heard_prefix k2, List.append_assoc] at hd ⊢
      have hlen := hd.length_le
      simp only [List.length_append] at hlen
      have e1 : heard l = [] := List.eq_nil_of_length_eq_zero (by omega)
      have e2 : held s' = [] := List.eq_nil_of_length_eq_zero (by omega)
      rw [e1, e2]
      simp
    | rep a r =>
      obtain ⟨_, e⟩ := answer_state hn hsw h hit hs
      have htok : SideTok x.isClient a.tok := (h.mine.ready a (List.mem_append_right _ (List.mem_append_left _
        (List.mem_map_of_mem (f := Prod.fst) (show (a, r) ∈ repsOf (.rep a r :: I') from List.mem_cons_self ..))))).tok
      rw [eventIn_tok hn (by show (deserializeMessage x.known _ _ false false).wait ≠ []; rw [hit.wait]; exact htok.is.2), e]
      unfold held
      rw [hidle]
      simp

/-! ### The steps of a session -/

variable {t' : St} {l : List Obs} {pu pd : List (MsgType × Bytes)}

theorem heard_sent {bin ok : Bool} {b : Bytes} : heard [Obs.sent bin b ok] = [] := rfl

theorem held_idle (h : s.rd = .idle) : held s = [] := by unfold held; rw [h]

theorem held_ack (h : s.rd = .ack) : held s = [] := by unfold held; rw [h]

theorem eventIn_talks (hn : x.allowNative = false) {p : MsgType × Bytes} (h : ∀ n, ¬ Talks x.known p n) : eventIn x p = none := by
  rw [eventIn_eq hn]
  refine if_pos (.inr (.inl (Classical.byContradiction fun hl => h (decP x p).ns ⟨rfl, ?_, ?_⟩)))
  · exact fun e => hl ((show (decP x p).event = _ from e) ▸ life_connect)
  · exact fun e => hl ((show (decP x p).event = _ from e) ▸ life_disconnect)

theorem cli_order {u : Sess} {op : Op} (hst : StillSide cc) (hnc : cc.allowNative = false) (hns : sc.allowNative = false)
    (hcl : cc.isClient = true) (hr : Reach cc id u.c) (ho : EventRequests u (.client op))
    (h : BPhase cc sc u.c u.d pu pd) (hec : Ears cc u.c pd)
    (hs : step cc u.c op = some t) (hc : t.closed = false) (hl : t.log = u.c.log ++ l) :
    heard t.log ++ held t = heard u.c.log ++ held u.c ∧ (pipe l).filterMap (eventIn sc) = (emits u.c t op).map arrives := by
  have fresh : CliFresh u.c → heard t.log ++ held t = heard u.c.log ++ held u.c ∧
      (pipe l).filterMap (eventIn sc) = (emits u.c t op).map arrives := by
    intro hf
    obtain ⟨_, k2, k3⟩ := cli_fresh hnc ho.1.1 hf hs hc
    have e : l = [.sent false (b! "M") true] := List.append_cancel_left (hl.symm.trans k3)
    subst e
    refine ⟨by rw [hl, heard_append, heard_sent, held_idle k2.rd, held_idle hf.rd]; simp, ?_⟩
    have he : emits u.c t op = [] := by
      cases op with
      | write m =>
        have := (show u.c.ready = some none ∧ AppMsg m from ho.1.1).1
        rw [hf.ready] at this
        cases this
      | _ => rfl
    rw [he]
    show [((.text, b! "M") : MsgType × Bytes)].filterMap (eventIn sc) = []
    rw [List.filterMap_cons, eventIn_other hns (c := 77) (r := []) (by decide) (by decide)]
    rfl
  cases h with
  | greet h1 => exact fresh h1
  | held h1 => exact fresh h1
  | acked b l1 l2 O I X Y h1 => exact fresh h1
  | live O I X Y h1 h2 =>
    have hne : op ≠ .sendAck := by
      rintro rfl
      exact absurd ho.1.1 h1
    have hside := cli_side hcl ho.1.1 hne
    refine ⟨step_heard hst hnc hr hside h2 hec hs, step_events hst hnc hns hr hside ?_ h2 hec hs hc hl⟩
    rintro m rfl
    exact ho.2

theorem srv_order {u : Sess} {op : Op} (hst : StillSide sc) (hnc : cc.allowNative = false) (hns : sc.allowNative = false)
    (hcl : cc.isClient = true) (hsc : sc.isClient = false) (hr : Reach sc id u.d) (ho : EventRequests u (.server op))
    (h : BPhase cc sc u.c u.d pu pd) (hed : Ears sc u.d pu)
    (hs : step sc u.d op = some t) (hc : t.closed = false) (hl : t.log = u.d.log ++ l) :
    heard t.log ++ held t = heard u.d.log ++ held u.d ∧ (pipe l).filterMap (eventIn cc) = (emits u.d t op).map arrives := by
  have hpe : ∀ m, op = .write m → PlainEvent m := by rintro m rfl; exact ho.2
  have fresh : SrvFresh u.d → ∀ {l'}, Same u.d l' t → (l' = [] ∨ ∃ m, op = .write m) →
      heard t.log ++ held t = heard u.d.log ++ held u.d ∧ (pipe l).filterMap (eventIn cc) = (emits u.d t op).map arrives := by
    intro hfd l' k1 k2
    have e : l' = l := List.append_cancel_left (k1.log.symm.trans hl)
    subst e
    have hrd : held t = held u.d := by unfold held; rw [k1.kept.rd]
    rcases k2 with rfl | ⟨m, rfl⟩
    · refine ⟨by rw [hl, hrd]; simp, ?_⟩
      have he : emits u.d t op = [] := by
        unfold emits
        split
        · rw [hl, List.append_nil, if_neg (by omega)]
        · rfl
      rw [he]
      rfl
    · refine ⟨?_, write_events hnc (hpe m rfl) hs hc hl⟩
      obtain ⟨he, _⟩ := step_exec hs
      simp only [exec] at he
      cases he
      rw [hrd, show heard (write sc u.d m).1.log = heard u.d.log from deaf_write _ _]
  cases h with
  | greet h1 h2 h3 h4 h5 h6 =>
    rcases srv_fresh hsc ho.1.1 h2 h3 (.inl h4) hs hc with ⟨_, k, _⟩ | ⟨l, k1, _, k2⟩
    · rw [h4] at k; cases k
    · exact fresh h2 k1 k2
  | held h1 h2 h3 h4 h5 h6 h7 =>
    rcases srv_fresh hsc ho.1.1 h2 h3 (.inr h4) hs hc with ⟨rfl, _, r, rfl⟩ | ⟨l, k1, _, k2⟩
    · obtain ⟨_, k0, _, k4⟩ := ackReady_phase h2 hc
      have e : l = [.sent false (65 :: u.d.id) true] := List.append_cancel_left (hl.symm.trans k4)
      subst e
      refine ⟨by rw [hl, heard_append, heard_sent, held_idle k0.rd, held_ack h4]; simp, ?_⟩
      show [((.text, 65 :: u.d.id) : MsgType × Bytes)].filterMap (eventIn cc) = []
      rw [List.filterMap_cons, eventIn_other hnc (by decide) (by decide)]
      rfl
    · exact fresh h2 k1 k2
  | acked b l1 l2 O I X Y h1 h2 h3 h4 h5 h6 =>
    rw [h3] at hed
    have hside := srv_side hsc ho.1.1 h6.okT.acked
    exact ⟨step_heard (t := { u.c with acked := true }) hst hns hr hside h6.symm hed hs,
      step_events (t := { u.c with acked := true }) hst hns hnc hr hside hpe h6.symm hed hs hc hl⟩
  | live O I X Y h1 h2 =>
    have hside := srv_side hsc ho.1.1 h2.okT.acked
    exact ⟨step_heard hst hns hr hside h2.symm hed hs, step_events hst hns hnc hr hside hpe h2.symm hed hs hc hl⟩

theorem up_order {c d : St} {p : MsgType × Bytes} {rest : List (MsgType × Bytes)} (hst : StillSide sc) (hcons : BothConsistent cc sc)
    (hnc : cc.allowNative = false) (hns : sc.allowNative = false) (hcl : cc.isClient = true) (hsc : sc.isClient = false) (hsw : d.srvWaiting = [])
    (hr : Reach sc id d) (honce : Once d) (h : BPhase cc sc c d (p :: rest) pd) (hec : Ears cc c pd) (hed : Ears sc d (p :: rest))
    (hs : step sc d (.recv p.1 p.2) = some t) (hc : t.closed = false) (hl : t.log = d.log ++ l) :
    heard t.log ++ held t = heard d.log ++ held d ++ (eventIn sc p).toList ∧ (pipe l).filterMap (eventIn cc) = [] := by
  cases h with
  | greet h1 h2 h3 h4 h5 h6 =>
    rcases h5 with ⟨_, h5⟩ | ⟨h5, h7⟩
    · cases h5
    · cases h7
      have hr2 := closed_of_prims (reach_prims hr hs) hc
      have e := (recv_idle hs).2
      have he : eventIn sc (.text, b! "M") = none := eventIn_other hns (c := 77) (r := []) (by decide) (by decide)
      rw [he]
      rw [recv_ack_M hr2 h2.acked] at e
      cases hrd : d.ready with
      | none =>
        rw [hrd] at e
        have k : t.log = d.log := by rw [e]
        have : l = [] := by rw [k] at hl; simpa using hl
        subst this
        refine ⟨?_, rfl⟩
        rw [k, held_idle h4, held_ack (by rw [e])]
        simp
      | some r =>
        rw [hrd] at e
        dsimp only at e
        subst e
        obtain ⟨_, k0, _, k4⟩ := ackReady_phase h2 hc
        have e : l = [.sent false (65 :: d.id) true] := List.append_cancel_left (hl.symm.trans k4)
        subst e
        refine ⟨by rw [hl, heard_append, heard_sent, held_idle k0.rd, held_idle h4]; simp, ?_⟩
        show [((.text, 65 :: d.id) : MsgType × Bytes)].filterMap (eventIn cc) = []
        rw [List.filterMap_cons, eventIn_other hnc (by decide) (by decide)]
        rfl
  | held h1 h2 h3 h4 h5 h6 => cases h6
  | acked b l1 l2 O I X Y h1 h2 h3 => cases h3
  | live O I X Y h1 h2 =>
    have hxy : cc.isClient = !sc.isClient := by rw [hcl, hsc]; rfl
    exact ⟨recv_heard hst hcons.symm honce hns hxy (.inr hsw) hr h2.symm hed hs hc,
      recv_events hst hcons.symm hns hnc hxy (.inr hsw) hr h2.symm hed hec hs hc hl⟩

theorem down_order {c d : St} {p : MsgType × Bytes} {rest : List (MsgType × Bytes)} (hst : StillSide cc) (hcons : BothConsistent cc sc)
    (hnc : cc.allowNative = false) (hns : sc.allowNative = false) (hcl : cc.isClient = true) (hsc : sc.isClient = false)
    (hr : Reach cc id c) (honce : Once c) (h : BPhase cc sc c d pu (p :: rest)) (hec : Ears cc c (p :: rest)) (hed : Ears sc d pu)
    (hs : step cc c (.recv p.1 p.2) = some t) (hc : t.closed = false) (hl : t.log = c.log ++ l) :
    heard t.log ++ held t = heard c.log ++ held c ++ (eventIn cc p).toList ∧ (pipe l).filterMap (eventIn sc) = [] := by
  have quiet : t.log = c.log → held t = held c → eventIn cc p = none →
      heard t.log ++ held t = heard c.log ++ held c ++ (eventIn cc p).toList ∧ (pipe l).filterMap (eventIn sc) = [] := by
    intro k1 k2 k3
    have : l = [] := by rw [k1] at hl; simpa using hl
    subst this
    rw [k1, k2, k3]
    exact ⟨by simp, rfl⟩
  have fresh : CliFresh c → CalmP p →
      heard t.log ++ held t = heard c.log ++ held c ++ (eventIn cc p).toList ∧ (pipe l).filterMap (eventIn sc) = [] := by
    intro hf hp
    obtain ⟨k1, k2⟩ := calm_recv_fresh hp hf hs
    refine quiet k2 (by rw [held_idle k1.rd, held_idle hf.rd]) (eventIn_talks hnc ?_)
    exact hec.noEvents hf.connected hf.asks p (List.mem_cons_self ..) hp
  cases h with
  | greet h1 h2 h3 h4 h5 h6 => exact fresh h1 (h6 p (List.mem_cons_self ..))
  | held h1 h2 h3 h4 h5 h6 h7 => exact fresh h1 (h7 p (List.mem_cons_self ..))
  | acked b l1 l2 O I X Y h1 h2 h3 h4 h5 h6 =>
    cases l1 with
    | cons y l1 =>
      simp only [List.cons_append, List.cons.injEq] at h4
      obtain ⟨rfl, rfl⟩ := h4
      exact fresh h1 (h5 p (List.mem_cons_self ..))
    | nil =>
      simp only [List.nil_append, List.cons.injEq] at h4
      obtain ⟨rfl, rfl⟩ := h4
      have k := recv_acked_kept h1 hs
      have hrd : t.rd = .idle := by
        rw [(recv_idle hs).2]
        unfold recv handleACK
        rw [if_neg (by simp), if_neg (by simp [h1.acked])]
        simp only [show ((65 : UInt8) = 77) = False by decide, if_false, if_true, St.signalReady, h1.ready]
        exact h1.rd
      exact quiet (by rw [k.log]; simp) (by rw [held_idle hrd, held_idle h1.rd]) (eventIn_other hnc (by decide) (by decide))
  | live O I X Y h1 h2 =>
    have hxy : sc.isClient = !cc.isClient := by rw [hcl, hsc]; rfl
    exact ⟨recv_heard hst hcons honce hnc hxy (.inl hcl) hr h2 hec hs hc,
      recv_events hst hcons hnc hns hxy (.inl hcl) hr h2 hec hed hs hc hl⟩

/-! ### Connects -/

theorem once_step {op : Op} (h : Once s) (hr : Reach x id s)
    (hrule : ∀ ns now ex, op = .connect ns now ex → (x.isClient = false ∧ s.acked = false) ∨ (¬ InProgress s ns ∧ NoneReturned s ns))
    (hs : step x s op = some s') : Once s' := by
  have he := (step_exec hs).1
  by_cases hop : ∃ ns now ex, op = .connect ns now ex
  · obtain ⟨ns, now, ex, rfl⟩ := hop
    simp only [exec] at he
    cases he
    rcases hrule ns now ex rfl with ⟨h1, h2⟩ | ⟨h1, h2⟩
    · have hm : (s.markReady x).acked = false ∧ Once (s.markReady x) := by
        unfold St.markReady St.signalReady
        rw [h1]
        cases hrd : s.ready with
        | some r => exact ⟨h2, h⟩
        | none => exact ⟨h2, h⟩
      unfold connect
      simp only [hm.1, h1, Bool.not_false, Bool.and_self, if_true]
      exact hm.2
    have h0 : Tally.Once (fun n => if n = ns then 0 else 1) (fun _ => 0) s := by
      intro n
      dsimp only
      by_cases e : n = ns
      · subst e
        rw [if_pos rfl]
        have hp : pend s n = 0 := by
          have : ¬ 1 ≤ pend s n := fun k => h1 (pend_pos.1 k)
          omega
        have hd : (gateOf s n).done = false := by
          cases hd : (gateOf s n).done with
          | false => rfl
          | true =>
            obtain ⟨obj, r, hm⟩ := (reach_gateOk hr n).2.2 hd
            exact absurd hm (h2 obj r)
        rw [hp, hd]
        simp
      · rw [if_neg e]
        exact h n
    have := Tally.once_connect (cfg := x) h0 ns now ex
    intro n
    have k := this n
    dsimp only at k ⊢
    unfold oneMore at k
    by_cases e : n = ns
    · rw [if_pos e, if_pos e] at k; omega
    · rw [if_neg e, if_neg e] at k; omega
  · exact Tally.once_exec h (fun ns now ex e => hop ⟨ns, now, ex, e⟩) he

/-! ### The run -/

theorem event_ruled {ops : List SessOp} {s : Sess} {U D : List Message} (h : EventRun cc sc id ops s U D) : RuledRun cc sc id ops s := by
  induction h with
  | init => exact .init
  | step _ ho hs ih => exact .step ih ho.1 hs

theorem not_inProgress {ns : Bytes} (h : Unclaimed s (ns, none)) : ¬ InProgress s ns := by
  rintro ⟨i, obj, a, h1, h2, h3⟩
  refine h a (List.mem_of_getElem? h1) h2 (ns, none) (by rw [h3]; rfl) ?_
  exact ⟨rfl, .inl rfl⟩

theorem event_once {ops : List SessOp} {s : Sess} {U D : List Message} (hcons : BothConsistent cc sc) (hnc : cc.allowNative = false)
    (hns : sc.allowNative = false) (hcl : cc.isClient = true) (hsc : sc.isClient = false)
    (h : EventRun cc sc id ops s U D) : Once s.c ∧ Once s.d := by
  have honc : cc.onlyNative = false := by simp [Cfg.onlyNative, hnc]
  have hons : sc.onlyNative = false := by simp [Cfg.onlyNative, hns]
  induction h with
  | init =>
    simp only [newSess, newConn_eq honc, newConn_eq hons]
    constructor <;> intro n <;> simp [pend, gateOf, mapGet]
  | @step ops s s' op U D hrun ho hstep ih =>
    have hinv := both_inv hcons hnc hns hcl hsc (ruled_both (event_ruled hrun))
    cases op with
    | client op =>
      simp only [sstep] at hstep
      split at hstep
      · cases hstep
      · obtain ⟨t, ht, rfl⟩ := Option.map_eq_some_iff.mp hstep
        refine ⟨once_step ih.1 hinv.rc ?_ ht, ih.2⟩
        rintro ns now ex rfl
        exact .inr ⟨not_inProgress ho.1.1.2.1.1, ho.2⟩
    | server op =>
      simp only [sstep] at hstep
      split at hstep
      · cases hstep
      · obtain ⟨t, ht, rfl⟩ := Option.map_eq_some_iff.mp hstep
        refine ⟨ih.1, once_step ih.2 hinv.rd ?_ ht⟩
        rintro ns now ex rfl
        rcases ho.1.1 with k | k
        · exact .inl ⟨hsc, k⟩
        · exact .inr ⟨not_inProgress k.2.1.2, ho.2⟩
    | up =>
      simp only [sstep] at hstep
      split at hstep
      · cases hstep
      · obtain ⟨t, ht, rfl⟩ := Option.map_eq_some_iff.mp hstep
        exact ⟨ih.1, once_step ih.2 hinv.rd (fun _ _ _ e => by cases e) ht⟩
    | down =>
      simp only [sstep] at hstep
      split at hstep
      · cases hstep
      · obtain ⟨t, ht, rfl⟩ := Option.map_eq_some_iff.mp hstep
        exact ⟨once_step ih.1 hinv.rc (fun _ _ _ e => by cases e) ht, ih.2⟩
    | upAsk i => exact (show False from ho.1.1).elim
    | downAsk i => exact (show False from ho.1.1).elim

theorem emitsUp_client {u v : Sess} {op : Op} : emitsUp u v (.client op) = emits u.c v.c op := by
  cases op <;> rfl

theorem emitsDown_server {u v : Sess} {op : Op} : emitsDown u v (.server op) = emits u.d v.d op := by
  cases op <;> rfl

theorem there_emit {r : Cfg} {a b : St} {w l : List (MsgType × Bytes)} {E E' : List Message} (h : AllThere r a w E)
    (hk : heard b.log ++ held b = heard a.log ++ held a) (he : l.filterMap (eventIn r) = E'.map arrives) :
    AllThere r b (w ++ l) (E ++ E') := by
  unfold AllThere at h ⊢
  rw [hk, List.filterMap_append, ← List.append_assoc, h, he, List.map_append]

theorem there_read {r : Cfg} {a b : St} {p : MsgType × Bytes} {w : List (MsgType × Bytes)} {E : List Message} (h : AllThere r a (p :: w) E)
    (hk : heard b.log ++ held b = heard a.log ++ held a ++ (eventIn r p).toList) : AllThere r b w E := by
  unfold AllThere at h ⊢
  rw [hk, ← h, List.filterMap_cons]
  cases eventIn r p <;> simp

theorem order_inv {ops : List SessOp} {s : Sess} {U D : List Message} (hcons : BothConsistent cc sc) (hnc : cc.allowNative = false)
    (hns : sc.allowNative = false) (hcl : cc.isClient = true) (hsc : sc.isClient = false) (hstc : StillSide cc) (hsts : StillSide sc)
    (h : EventRun cc sc id ops s U D) : s.c.closed = true ∨ s.d.closed = true ∨
      (AllThere sc s.d ((pipe s.c.log).drop s.up) U ∧ AllThere cc s.c ((pipe s.d.log).drop s.down) D) := by
  have honc : cc.onlyNative = false := by simp [Cfg.onlyNative, hnc]
  have hons : sc.onlyNative = false := by simp [Cfg.onlyNative, hns]
  induction h with
  | init =>
    refine .inr (.inr ?_)
    simp only [newSess, newConn_eq honc, newConn_eq hons]
    exact ⟨rfl, rfl⟩
  | @step ops s s' op U D hrun ho hstep ih =>
    have hruled := event_ruled hrun
    have hinv := both_inv hcons hnc hns hcl hsc (ruled_both hruled)
    have hears := ears_inv hcons hnc hns hcl hsc hstc hsts hruled
    have honce := event_once hcons hnc hns hcl hsc hrun
    have drop_app : ∀ {a b : List (MsgType × Bytes)} {n : Nat}, n ≤ a.length → (a ++ b).drop n = a.drop n ++ b :=
      fun {a b n} hn => by rw [List.drop_append, Nat.sub_eq_zero_of_le hn]; rfl
    cases hcc : s'.c.closed with
    | true => exact .inl rfl
    | false =>
    cases hdc : s'.d.closed with
    | true => exact .inr (.inl rfl)
    | false =>
    refine .inr (.inr ?_)
    have open' : s.c.closed = false → s.d.closed = false →
        (AllThere sc s.d ((pipe s.c.log).drop s.up) U ∧ AllThere cc s.c ((pipe s.d.log).drop s.down) D) ∧
        BPhase cc sc s.c s.d ((pipe s.c.log).drop s.up) ((pipe s.d.log).drop s.down) ∧
        (Ears cc s.c ((pipe s.d.log).drop s.down) ∧ Ears sc s.d ((pipe s.c.log).drop s.up)) := by
      intro h1 h2
      refine ⟨?_, ?_, ?_⟩
      · rcases ih with k | k | k
        · rw [h1] at k; cases k
        · rw [h2] at k; cases k
        · exact k
      · rcases hinv.phase with k | k | k
        · rw [h1] at k; cases k
        · rw [h2] at k; cases k
        · exact k
      · rcases hears with k | k | k
        · rw [h1] at k; cases k
        · rw [h2] at k; cases k
        · exact k
    cases op with
    | client op =>
      simp only [sstep] at hstep
      split at hstep
      · cases hstep
      · obtain ⟨t, ht, rfl⟩ := Option.map_eq_some_iff.mp hstep
        dsimp only at hcc hdc
        obtain ⟨⟨k1, k2⟩, hph, hec, hed⟩ := open' (closed_of_prims (reach_prims hinv.rc ht) hcc) hdc
        obtain ⟨l, hl, _⟩ := ears_cli hstc hcons hnc hcl hsc hinv.rc ho.1 hph hec hed ht hcc
        obtain ⟨e1, e2⟩ := cli_order hstc hnc hns hcl hinv.rc ho hph hec ht hcc hl
        rw [emitsUp_client]
        simp only [hl, pipe_append, drop_app hinv.up, emitsDown, List.append_nil]
        rw [hl] at e1
        refine ⟨there_emit k1 rfl e2, ?_⟩
        unfold AllThere at k2 ⊢
        rw [hl, e1]
        exact k2
    | server op =>
      simp only [sstep] at hstep
      split at hstep
      · cases hstep
      · obtain ⟨t, ht, rfl⟩ := Option.map_eq_some_iff.mp hstep
        dsimp only at hcc hdc
        obtain ⟨⟨k1, k2⟩, hph, hec, hed⟩ := open' hcc (closed_of_prims (reach_prims hinv.rd ht) hdc)
        obtain ⟨l, hl, _⟩ := ears_srv hsts hcons hns hcl hsc hinv.rd ho.1 hph hec hed ht hdc
        obtain ⟨e1, e2⟩ := srv_order hsts hnc hns hcl hsc hinv.rd ho hph hed ht hdc hl
        rw [emitsDown_server]
        simp only [hl, pipe_append, drop_app hinv.down, emitsUp, List.append_nil]
        rw [hl] at e1
        refine ⟨?_, there_emit k2 rfl e2⟩
        unfold AllThere at k1 ⊢
        rw [hl, e1]
        exact k1
    | up =>
      simp only [sstep] at hstep
      split at hstep
      · cases hstep
      · rename_i ty b hb
        obtain ⟨t, ht, rfl⟩ := Option.map_eq_some_iff.mp hstep
        dsimp only at hcc hdc
        have hlt : s.up < (pipe s.c.log).length := (List.getElem?_eq_some_iff.mp hb).1
        obtain ⟨⟨k1, k2⟩, hph, hec, hed⟩ := open' hcc (closed_of_prims (reach_prims hinv.rd ht) hdc)
        rw [List.drop_eq_getElem_cons hlt, (List.getElem?_eq_some_iff.mp hb).2] at hph hed k1
        obtain ⟨l, hl, _⟩ := ears_up hsts hcons hns hcl hsc hinv.srv hinv.rd hph hec hed ht hdc
        obtain ⟨e1, e2⟩ := up_order hsts hcons hnc hns hcl hsc hinv.srv hinv.rd honce.2 hph hec hed ht hdc hl
        simp only [emitsUp, emitsDown, List.append_nil]
        refine ⟨there_read k1 e1, ?_⟩
        have := there_emit (E' := []) k2 (b := s.c) rfl e2
        simpa only [hl, pipe_append, drop_app hinv.down, List.append_nil] using this
    | down =>
      simp only [sstep] at hstep
      split at hstep
      · cases hstep
      · rename_i ty b hb
        obtain ⟨t, ht, rfl⟩ := Option.map_eq_some_iff.mp hstep
        dsimp only at hcc hdc
        have hlt : s.down < (pipe s.d.log).length := (List.getElem?_eq_some_iff.mp hb).1
        obtain ⟨⟨k1, k2⟩, hph, hec, hed⟩ := open' (closed_of_prims (reach_prims hinv.rc ht) hcc) hdc
        rw [List.drop_eq_getElem_cons hlt, (List.getElem?_eq_some_iff.mp hb).2] at hph hec k2
        obtain ⟨l, hl, _⟩ := ears_down hstc hcons hnc hcl hsc hinv.rc hph hec hed ht hcc
        obtain ⟨e1, e2⟩ := down_order hstc hcons hnc hns hcl hsc hinv.rc honce.1 hph hec hed ht hcc hl
        simp only [emitsUp, emitsDown, List.append_nil]
        refine ⟨?_, there_read k2 e1⟩
        have := there_emit (E' := []) k1 (b := s.d) rfl e2
        simpa only [hl, pipe_append, drop_app hinv.up, List.append_nil] using this
    | upAsk i => exact (show False from ho.1.1).elim
    | downAsk i => exact (show False from ho.1.1).elim

end Order
end Neffos
