import Verif.Proofs.ConnGate
import Verif.Proofs.ConnOuter
import Verif.Proofs.ConnRun
import Verif.Proofs.ConnFinish
/-!
C32 and C33 on a connection: what the connect gate does to the reader. The gate itself, with every
interleaving of its own steps, is in `Props/Gate.lean`.
-/
set_option autoImplicit false
namespace Neffos
open Spec

variable {cfg : Cfg} {id : Bytes} {s s' : St}

/-- a Connect of `ns` waits for its answer -/
def InProgress (s : St) (ns : Bytes) : Prop :=
  ∃ (i obj : Nat) (a : AskRec), s.asks[i]? = some a ∧ a.done = false ∧ a.cont = .connect ns obj

/-- no Connect of `ns` has returned yet -/
def NoneReturned (s : St) (ns : Bytes) : Prop := ∀ obj r, Obs.ret (.connect ns obj) r ∉ s.log

theorem pend_pos {ns : Bytes} : 1 ≤ pend s ns ↔ InProgress s ns := by
  unfold pend
  rw [Nat.succ_le_iff, List.countP_pos_iff]
  constructor
  · rintro ⟨a, ha, hp⟩
    obtain ⟨i, hi⟩ := List.getElem?_of_mem ha
    unfold pendOf at hp
    simp only [Bool.and_eq_true, Bool.not_eq_true'] at hp
    obtain ⟨h1, h2⟩ := hp
    cases hk : a.cont with
    | connect n obj =>
      rw [hk] at h2
      simp only [decide_eq_true_eq] at h2
      exact ⟨i, obj, a, hi, h1, by rw [hk, h2]⟩
    | _ => rw [hk] at h2; cases h2
  · rintro ⟨i, obj, a, h1, h2, h3⟩
    exact ⟨a, List.mem_of_getElem? h1, by unfold pendOf; rw [h2, h3]; simp⟩

/-- C32: an event that arrives while the first Connect of its namespace is in progress is held
back: the reader waits and nothing else happens. -/
theorem c32_event_held_partial {typ : MsgType} {b : Bytes} {msg : Message} (hr : Reach cfg id s)
    (hi : Incoming cfg s typ b msg) (h1 : msg.event ≠ OnNamespaceConnect)
    (h2 : msg.event ≠ OnNamespaceDisconnect) (hp : InProgress s msg.ns) (hn : NoneReturned s msg.ns)
    (hs : step cfg s (.recv typ b) = some s') : s' = { s with rd := .gate msg } := by
  obtain ⟨rfl, _⟩ := step_recv hi hs
  obtain ⟨g1, g2, g3⟩ := reach_gateOk hr msg.ns
  have hp := pend_pos.2 hp
  have hd : (gateOf s msg.ns).done = false := by
    cases hd : (gateOf s msg.ns).done with
    | false => rfl
    | true =>
      obtain ⟨obj, r, hm⟩ := g3 hd
      exact absurd hm (hn obj r)
  unfold dispatch
  rw [if_neg h1, if_neg h2, if_pos]
  rw [gateBlocks_eq, hd]
  simp
  omega

/-- C32: a reader that holds an event back does so as long as a Connect of its namespace is in
progress, whatever the other goroutines do. -/
theorem c32_event_waits (hr : Reach cfg id s) {msg : Message} (hg : s.rd = .gate msg)
    (hp : InProgress s msg.ns) :
    step cfg s .wake = none ∧ (∀ typ b, step cfg s (.recv typ b) = none) ∧
    ∀ op s', step cfg s op = some s' → s'.rd = .gate msg := by
  have hc : gateReleased s msg.ns = false := by
    rw [gateReleased_eq]
    have := (reach_gateOk hr msg.ns).1
    have hp := pend_pos.2 hp
    simp only [decide_eq_false_iff_not]
    omega
  refine ⟨?_, fun typ b => ?_, fun op s' hs => ?_⟩
  · simp only [step, exec, wakeReader, hg]
    rw [hc]
    rfl
  · simp only [step, exec, hg]
    simp
  · have := holdAsk_exec (i := s.asks.length + 1) hg (fun a ha => by
      rw [List.getElem?_eq_none (by omega)] at ha; cases ha) (by omega) (fun _ => hc) (step_exec hs).1
    rw [this.rd]; exact hg

/-- C32: an event is not held back when no Connect of its namespace is in progress. -/
theorem c32_event_passes_partial {typ : MsgType} {b : Bytes} {msg : Message} (hr : Reach cfg id s)
    (hi : Incoming cfg s typ b msg) (h1 : msg.event ≠ OnNamespaceConnect)
    (h2 : msg.event ≠ OnNamespaceDisconnect) (hp : ¬ InProgress s msg.ns)
    (hs : step cfg s (.recv typ b) = some s') : Handled cfg s msg s' ∧ s'.rd = .idle := by
  have hb : gateBlocks s msg.ns = false := by
    rw [gateBlocks_eq]
    cases hd : (gateOf s msg.ns).done with
    | true => rfl
    | false =>
      have h := (reach_gateOk hr msg.ns).2.1 hd
      have hz : ¬ 1 ≤ pend s msg.ns := fun h => hp (pend_pos.1 h)
      have : (gateOf s msg.ns).count = 0 := by
        dsimp only at h
        omega
      simp [this]
  have hd := Handled.recv typ b hi hb hs
  refine ⟨hd, ?_⟩
  rw [(handled hr hd h1 h2).1]
  exact (rd_afterGate _ _).rd

/-- the client while its Connect to `chat` is in progress -/
def chatCallOps : List Op := [.recv .text (b! "A1"), .connect (b! "chat") 7 false]

/-- an event of `chat` -/
def hiEvent : Bytes := b! ";chat;;hi;0;0;body"
def hiEventMsg : Message := { ns := b! "chat", event := b! "hi", body := b! "body" }

theorem noneReturned_of {ns : Bytes}
    (h : s.log.all (fun o => match o with | .ret _ _ => false | _ => true) = true) : NoneReturned s ns := by
  intro obj r hm
  have := List.all_eq_true.1 h _ hm
  cases this

example : ∃ (cfg : Cfg) (s s' : St), Reach cfg [] s ∧ Incoming cfg s .text hiEvent hiEventMsg ∧
    hiEventMsg.event ≠ OnNamespaceConnect ∧ hiEventMsg.event ≠ OnNamespaceDisconnect ∧
    InProgress s hiEventMsg.ns ∧ NoneReturned s hiEventMsg.ns ∧
    step cfg s (.recv .text hiEvent) = some s' ∧ s'.rd = .gate hiEventMsg ∧ InProgress s' hiEventMsg.ns :=
  ⟨clientCfg chatDecl noCb, after _ [] chatCallOps, _, after_reach (by decide +kernel),
    incoming_of (by decide +kernel), by decide +kernel, by decide +kernel,
    ⟨0, 0, ⟨b! "$7", .connect (b! "chat") 0, .table, none, false⟩, by decide +kernel, rfl, rfl⟩,
    noneReturned_of (by decide +kernel),
    after_step (ops := chatCallOps) (by decide +kernel), by decide +kernel,
    ⟨0, 0, ⟨b! "$7", .connect (b! "chat") 0, .table, none, false⟩, by decide +kernel, rfl, rfl⟩⟩

/-! ## C33 -/

/-- C33 fails: the reader may have to hold back an event of the namespace that is being connected,
and then it never reads the answer. In such a state, unless the caller's context ends, nothing that
happens lets the Connect return: not further messages, not other calls, not closing the connection. -/
theorem c33_refuted_stuck {i obj : Nat} {a : AskRec} {msg : Message} (hr : Reach cfg id s)
    (hg : s.rd = .gate msg) (ha : s.asks[i]? = some a) (hd : a.done = false) (hm : a.mode = .table)
    (hb : a.box = none) (hk : a.cont = .connect msg.ns obj) {ops : List Op}
    (hc : ∀ e, Op.cancel i e ∉ ops) (hs : runOps cfg s ops = some s') :
    s'.asks[i]? = some a ∧ step cfg s' (.resume i) = none ∧ s'.rd = .gate msg ∧
      (∀ typ b, step cfg s' (.recv typ b) = none) ∧ step cfg s' .wake = none := by
  induction ops generalizing s with
  | nil =>
    cases hs
    obtain ⟨h1, h2, _⟩ := c32_event_waits hr hg ⟨i, obj, a, ha, hd, hk⟩
    refine ⟨ha, ?_, hg, h2, h1⟩
    simp [step, exec, resume, ha, hd, hb]
  | cons op ops ih =>
    simp only [runOps] at hs
    split at hs
    · rename_i t ht
      obtain ⟨h1, _, h3⟩ := c32_event_waits hr hg ⟨i, obj, a, ha, hd, hk⟩
      have hlt := (List.getElem?_eq_some_iff.mp ha).1
      have hh := holdAsk_exec (i := i) hg (fun a' ha' => by
        rw [ha] at ha'; cases ha'
        exact ⟨hm, hb, fun e he => hc e (by rw [he]; exact List.mem_cons_self ..)⟩) (by omega)
        (fun e => by subst e; rw [h1] at ht; cases ht) (step_exec ht).1
      exact ih (Reach.step hr ht) (h3 _ _ ht) ((hh.ask hlt).2.trans ha)
        (fun e he => hc e (List.mem_cons_of_mem _ he)) hs
    · cases hs

/-- C33 fails: such a state is reached when the peer sends an event of the namespace before its
answer. -/
theorem c33_refuted : ∃ (cfg : Cfg) (s : St) (a : AskRec),
    Reach cfg [] s ∧ runOps cfg (newConn cfg []) (chatCallOps ++ [.recv .text hiEvent]) = some s ∧
    s.rd = .gate hiEventMsg ∧ s.asks[0]? = some a ∧ a.done = false ∧ a.mode = .table ∧ a.box = none ∧
    a.cont = .connect hiEventMsg.ns 0 ∧
    ∀ ops s', (∀ e, Op.cancel 0 e ∉ ops) → runOps cfg s ops = some s' → step cfg s' (.resume 0) = none ∧
      step cfg s' (.recv .text (b! "$7;;;;;;")) = none := by
  have e : (runOps (clientCfg chatDecl noCb) (newConn (clientCfg chatDecl noCb) [])
      (chatCallOps ++ [.recv .text hiEvent])).isSome = true := by decide +kernel
  have h0 := after_reach e
  have h1 := after_run e
  have h2 : (after (clientCfg chatDecl noCb) [] (chatCallOps ++ [.recv .text hiEvent])).rd = .gate hiEventMsg := by
    decide +kernel
  have h3 : (after (clientCfg chatDecl noCb) [] (chatCallOps ++ [.recv .text hiEvent])).asks[0]? =
      some ⟨b! "$7", .connect (b! "chat") 0, .table, none, false⟩ := by decide +kernel
  generalize after (clientCfg chatDecl noCb) [] (chatCallOps ++ [.recv .text hiEvent]) = s at h0 h1 h2 h3
  refine ⟨_, s, _, h0, h1, h2, h3, rfl, rfl, rfl, rfl, fun ops s' hc hs => ?_⟩
  have h := c33_refuted_stuck (obj := 0) h0 h2 h3 rfl rfl rfl rfl hc hs
  exact ⟨h.2.1, h.2.2.2.1 _ _⟩

/-- a payload that is not an answer to an Ask of this connection, and not an event of a namespace
that is being connected -/
def Harmless (cfg : Cfg) (s : St) (p : MsgType × Bytes) : Prop :=
  ∃ msg, Incoming cfg s p.1 p.2 msg ∧
    (msg.event = OnNamespaceConnect ∨ msg.event = OnNamespaceDisconnect ∨ ¬ InProgress s msg.ns)

/-- the payload answers the Ask with this token -/
structure Answers (cfg : Cfg) (s : St) (tok : Bytes) (typ : MsgType) (b : Bytes) (m : Message) : Prop where
  nonempty : b ≠ []
  decodes : deserializeMessage cfg.known typ b cfg.allowNative cfg.onlyNative = m
  valid : m.isInvalid = false
  notNative : cfg.onlyNative = false
  isWait : m.isWait cfg.isClient = true
  wait : m.wait = tok
  notExchange : cfg.isClient = true ∨ m.fromStackExchange = false ∨ cfg.usesExchange = false
  notServer : cfg.isClient = true ∨ tok ∉ s.srvWaiting

theorem harmless_step {p : MsgType × Bytes} (hr : Reach cfg id s) (hp : Harmless cfg s p)
    (hs : step cfg s (.recv p.1 p.2) = some s') : RdSame s s' ∧ OpenSame s s' := by
  obtain ⟨msg, hi, hk⟩ := hp
  obtain ⟨h0, _⟩ := step_recv hi hs
  refine ⟨?_, ?_⟩
  · by_cases h1 : msg.event = OnNamespaceConnect
    · rw [h0]; unfold dispatch; rw [if_pos h1]; exact rdSame_mid.replyConnect _ _
    · by_cases h2 : msg.event = OnNamespaceDisconnect
      · rw [h0]; unfold dispatch; rw [if_neg h1, if_pos h2]; exact rdSame_mid.toCalm.replyDisconnect _ _
      · have hn : ¬ InProgress s msg.ns := by
          rcases hk with h | h | h
          · exact absurd h h1
          · exact absurd h h2
          · exact h
        have hrd : s.rd = .idle := by
          obtain ⟨he, _⟩ := step_exec hs
          simp only [exec] at he
          split at he
          · rename_i h; exact h.1
          · simp at he
        obtain ⟨h3, _⟩ := c32_event_passes_partial hr hi h1 h2 hn hs
        rw [(handled hr h3 h1 h2).1]
        have e : ({ s with rd := .idle } : St) = s := by rw [← hrd]
        rw [e]
        exact rd_afterGate _ _
  · obtain ⟨he, _⟩ := step_exec hs
    simp only [exec] at he
    split at he
    · cases he; exact openSame_steady.recv _ _ _
    · cases he

theorem harmless_run {ps : List (MsgType × Bytes)} (hr : Reach cfg id s) (hp : ∀ p ∈ ps, Harmless cfg s p)
    (hs : runOps cfg s (ps.map (fun p => .recv p.1 p.2)) = some s') (hc : s'.closed = false) :
    RdSame s s' ∧ OpenSame s s' := by
  induction ps generalizing s with
  | nil => cases hs; exact ⟨.refl _, openSame_steady.refl _⟩
  | cons p ps ih =>
    simp only [List.map_cons, runOps] at hs
    split at hs
    · rename_i t ht
      obtain ⟨h1, h2⟩ := harmless_step hr (hp p (List.mem_cons_self ..)) ht
      have hct : t.closed = false := by
        have hrt := Reach.step hr ht
        have : ∀ {ops : List Op} {t : St}, runOps cfg t ops = some s' → Reach cfg id t → t.closed = false := by
          intro ops
          induction ops with
          | nil => intro t h _; cases h; exact hc
          | cons op ops ih =>
            intro t h hrt
            simp only [runOps] at h
            split at h
            · rename_i u hu
              exact closed_of_prims (reach_prims hrt hu) (ih h (Reach.step hrt hu))
            · cases h
        exact this hs hrt
      obtain ⟨h3, h4⟩ := ih (Reach.step hr ht) (fun q hq => by
        obtain ⟨msg, hi, hk⟩ := hp q (List.mem_cons_of_mem _ hq)
        refine ⟨msg, ⟨hi.nonempty, h2.acked hct hi.acked, hi.decodes, hi.valid, hi.notNative, hi.notExchange,
          by rw [h2.srv]; exact hi.notServerAnswer, by rw [h2.waiting hct]; exact hi.notAnswer⟩, ?_⟩
        unfold InProgress at hk ⊢
        rw [h1.asks]; exact hk) hs
      exact ⟨h1.trans h3, openSame_steady.trans h2 h4⟩
    · cases hs

/-- C33, partial: a Connect returns once the peer has sent its answer, if the peer sent no event of a
namespace that is being connected before. -/
theorem c33_completes_partial {i obj : Nat} {a : AskRec} {ns : Bytes} {ps : List (MsgType × Bytes)}
    {typ : MsgType} {b : Bytes} {m : Message} (hr : Reach cfg id s)
    (hrd : s.rd = .idle) (htd : s.todo = []) (haa : s.ackAfter = false) (hack : s.acked = true)
    (ha : s.asks[i]? = some a) (hd : a.done = false) (hb : a.box = none)
    (hw : mapGet s.waiting a.tok = some i) (hk : a.cont = .connect ns obj)
    (hp : ∀ p ∈ ps, Harmless cfg s p) (hm : Answers cfg s a.tok typ b m)
    (hs : runOps cfg s (ps.map fun p => .recv p.1 p.2) = some s') (hc : s'.closed = false) :
    ∃ s1 s2 r, step cfg s' (.recv typ b) = some s1 ∧ step cfg s1 (.resume i) = some s2 ∧
      Obs.ret (.connect ns obj) r ∈ s2.log := by
  obtain ⟨h1, h2⟩ := harmless_run hr hp hs hc
  have hr' : Reach cfg id s' := runOps_reach hr hs
  have hh := reach_hung hr'
  have hlt : i < s'.asks.length := by rw [h1.asks]; exact (List.getElem?_eq_some_iff.mp ha).1
  have ha' : s'.asks[i]? = some a := by rw [h1.asks]; exact ha
  have hrecv : recv cfg s' typ b = { s' with asks := s'.asks.set i { a with box := some m } } := by
    unfold recv
    rw [if_neg hm.nonempty, if_pos (h2.acked hc hack)]
    unfold handlePayload handleMessage
    rw [hm.decodes, hm.valid, hm.notNative, hm.isWait, hm.wait]
    have x1 : (!cfg.isClient && m.fromStackExchange && cfg.usesExchange) = false := by
      rcases hm.notExchange with h | h | h <;> simp [h]
    have x2 : ¬ ((!cfg.isClient && decide (a.tok ∈ s'.srvWaiting)) = true) := by
      rw [h2.srv]
      rcases hm.notServer with h | h <;> simp [h]
    have hw' : mapGet s'.waiting a.tok = some i := by rw [h2.waiting hc]; exact hw
    rw [x1, if_neg x2, hw']
    simp [deliver, ha', hb]
  have hrd' : s'.rd = .idle := h1.rd.trans hrd
  refine ⟨{ s' with asks := s'.asks.set i { a with box := some m } }, ?_⟩
  have e1 : step cfg s' (.recv typ b) = some { s' with asks := s'.asks.set i { a with box := some m } } := by
    simp only [step, exec]
    rw [if_pos ⟨hrd', h1.todo.trans htd, h1.ackAfter.trans haa⟩, hrecv]
    simp [hh]
  generalize hs1 : ({ s' with asks := s'.asks.set i { a with box := some m } } : St) = s1 at e1
  have ha1 : s1.asks[i]? = some { a with box := some m } := by rw [← hs1]; simp [hlt]
  have hh1 : s1.hung = false := by rw [← hs1]; exact hh
  have hrd1 : s1.rd = .idle := by rw [← hs1]; exact hrd'
  have e2 : exec cfg s1 (.resume i) = some (finish cfg (forget (endAsk (takeAnswer s1 i { a with box := some m }) i)
      { a with box := some m }) a.cont m m.err) := by
    simp only [exec, resume, ha1, hd, Bool.false_eq_true, if_false]
  have hh2 : (forget (endAsk (takeAnswer s1 i { a with box := some m }) i) { a with box := some m }).hung = false := by
    have : ∀ t : St, (forget t { a with box := some m }).hung = t.hung := by
      intro t; unfold forget; split <;> rfl
    rw [this]
    show (takeAnswer s1 i { a with box := some m }).hung = false
    unfold takeAnswer
    split
    · split <;> exact hh1
    · exact hh1
  generalize forget (endAsk (takeAnswer s1 i { a with box := some m }) i) { a with box := some m } = t at e2 hh2
  rw [hk] at e2
  have logDone : ∀ (u : St) (o : Obs), o ∈ u.log → o ∈ (gateDone u ns).log := by
    intro u o ho
    unfold gateDone
    split
    · exact ho
    · split <;> exact ho
  cases he : m.err with
  | some e =>
    rw [he] at e2
    refine ⟨gateDone (t.emit (.ret (.connect ns obj) (.err e))) ns, .err e, e1, ?_,
      logDone _ _ (List.mem_append_right _ (List.mem_singleton.2 rfl))⟩
    simp only [step, e2, finish]
    rw [hung_gateDone]
    simp [St.emit, hh2]
  | none =>
    rw [he] at e2
    refine ⟨gateDone ((notifyConnected cfg { t with connected := mapSet t.connected ns obj } obj
        { ns := ns, event := OnNamespaceConnect, isLocal := true }).emit
          (Obs.ret (.connect ns obj) (.nsConn obj))) ns, .nsConn obj, e1, ?_,
      logDone _ _ (List.mem_append_right _ (List.mem_singleton.2 rfl))⟩
    simp only [step, e2, finish]
    rw [hung_gateDone]
    have : ((notifyConnected cfg { t with connected := mapSet t.connected ns obj } obj
        { ns := ns, event := OnNamespaceConnect, isLocal := true }).emit
          (Obs.ret (.connect ns obj) (.nsConn obj))).hung = false := by
      unfold notifyConnected
      dsimp only
      split
      · show (St.emit _ _).hung = false
        simp only [St.emit]; rw [hung_fire]; exact hh2
      · simp only [St.emit]; rw [hung_fire]; exact hh2
    rw [this]
    rfl

/-- an event of a namespace the client did not connect to -/
def newsEvent : Bytes := b! ";news;;hi;0;0;body"
def newsEventMsg : Message := { ns := b! "news", event := b! "hi", body := b! "body" }

example : ∃ (cfg : Cfg) (s s' : St) (a : AskRec) (m : Message), Reach cfg [] s ∧
    s.rd = .idle ∧ s.todo = [] ∧ s.ackAfter = false ∧ s.acked = true ∧ s.asks[0]? = some a ∧
    a.done = false ∧ a.box = none ∧ mapGet s.waiting a.tok = some 0 ∧ a.cont = .connect (b! "chat") 0 ∧
    (∀ p ∈ [(MsgType.text, newsEvent)], Harmless cfg s p) ∧ Answers cfg s a.tok .text (b! "$7;;;;;;") m ∧
    runOps cfg s ([(MsgType.text, newsEvent)].map fun p => .recv p.1 p.2) = some s' ∧ s'.closed = false := by
  have e : (runOps (clientCfg chatDecl noCb) (newConn (clientCfg chatDecl noCb) []) chatCallOps).isSome = true := by
    decide +kernel
  have e1 : (runOps (clientCfg chatDecl noCb) (newConn (clientCfg chatDecl noCb) [])
      (chatCallOps ++ [.recv .text newsEvent])).isSome = true := by decide +kernel
  refine ⟨clientCfg chatDecl noCb, after _ [] chatCallOps,
    after (clientCfg chatDecl noCb) [] (chatCallOps ++ [.recv .text newsEvent]), ⟨b! "$7", .connect (b! "chat") 0, .table, none, false⟩,
    deserializeMessage (clientCfg chatDecl noCb).known .text (b! "$7;;;;;;") false false, after_reach e,
    by decide +kernel, by decide +kernel, by decide +kernel, by decide +kernel, by decide +kernel, rfl, rfl,
    by decide +kernel, rfl, ?_, ⟨by decide +kernel, by decide +kernel, by decide +kernel, by decide +kernel,
      by decide +kernel, by decide +kernel, .inl rfl, .inl rfl⟩, ?_, by decide +kernel⟩
  · intro p hp
    obtain rfl := List.mem_singleton.1 hp
    refine ⟨newsEventMsg, incoming_of (by decide +kernel), .inr (.inr fun h => ?_)⟩
    have h0 : pend (after (clientCfg chatDecl noCb) [] chatCallOps) newsEventMsg.ns = 0 := by decide +kernel
    have := pend_pos.2 h
    omega
  · have := after_step (ops := chatCallOps) e1
    simp only [List.map_cons, List.map_nil, runOps, this]

end Neffos
