import Verif.Props.AskMany
import Verif.Props.GateConn
import Verif.Proofs.Hung
/-!
# C81: calls that are in flight together do not wait for each other
-/
set_option autoImplicit false
namespace Neffos
open Neffos.Spec

variable {cc sc : Cfg} {id : Bytes} {ops : List SessOp} {s s' : Sess}

theorem hung_resumed (c : St) (i : Nat) (a : AskRec) : (resumed c i a).hung = c.hung := by
  unfold resumed forget endAsk takeAnswer; (repeat' split) <;> rfl

theorem apart_or {l : List Pend} (h : l.Pairwise Apart) {p p' : Pend} (hp : p ∈ l) (hp' : p' ∈ l) :
    p = p' ∨ Apart p p' := by
  induction h with
  | nil => cases hp
  | cons h1 _ ih =>
    rcases List.mem_cons.mp hp with e | k
    · rcases List.mem_cons.mp hp' with e' | k'
      · exact .inl (e.trans e'.symm)
      · rw [e]; exact .inr (h1 _ k')
    · rcases List.mem_cons.mp hp' with e' | k'
      · rw [e']; exact .inr (h1 _ k).symm
      · exact ih k k'

theorem dropped_untaken {d : St} {tok : Bytes} (h : Dropped d tok) : Untaken d tok :=
  let ⟨bin, b, h1, h2⟩ := h
  ⟨bin, b, h1, fun known => (h2 known).wait⟩

/-- C81: a call of the client that has its answer can return at once, whatever else is in flight and
whatever the reader does; a Disconnect, which leaves all rooms of its namespace, if the callbacks of these leaves do
not use the connection. -/
theorem c81_ready {i : Nat} {a : AskRec} (hcons : Consistent cc sc) (hnc : cc.allowNative = false)
    (hns : sc.allowNative = false) (hcl : cc.isClient = true) (hsc : sc.isClient = false)
    (h : ManyRun cc sc id ops s) (ha : s.c.asks[i]? = some a) (hdone : a.done = false) (hb : a.box ≠ none)
    (hq : ∀ obj msg, a.cont = .disconnect obj msg → QuietLeaves cc) :
    ∃ s', sstep cc sc s (.client (.resume i)) = some s' := by
  have hinv := many_inv hcons hnc hns hcl hsc h
  obtain ⟨r, hr⟩ : ∃ r, a.box = some r := by
    cases hx : a.box with
    | none => exact absurd hx hb
    | some r => exact ⟨r, rfl⟩
  have hst : step cc s.c (.resume i) = some (finish cc (resumed s.c i a) a.cont r r.err) := by
    refine step_of_exec ?_ ?_
    · simp only [exec]
      unfold resume
      rw [ha]
      dsimp only
      rw [hdone, hr]
      simp [resumed]
    · rw [hung_finish _ _ _ _ hq, hung_resumed]
      exact reach_hung hinv.rc
  refine ⟨{ s with c := finish cc (resumed s.c i a) a.cont r r.err }, ?_⟩
  simp only [sstep, Op.reads, Bool.false_eq_true, if_false, hst, Option.map_some]

/-- C81: when all that was sent has been read, a Connect, Disconnect, JoinRoom or LeaveRoom that is still without an
answer is so because the server's socket did not take its answer. -/
theorem c81_waiting {i : Nat} {a : AskRec} (hcons : Consistent cc sc) (hnc : cc.allowNative = false)
    (hns : sc.allowNative = false) (hcl : cc.isClient = true) (hsc : sc.isClient = false)
    (h : ManyRun cc sc id ops s) (hc : s.c.closed = false) (hd : s.d.closed = false)
    (hup : (pipe s.c.log).length ≤ s.up) (hdown : (pipe s.d.log).length ≤ s.down)
    (ha : s.c.asks[i]? = some a) (hu : a.cont ≠ .user) (hdone : a.done = false) (hb : a.box = none) :
    Untaken s.d a.tok := by
  have hinv := many_inv hcons hnc hns hcl hsc h
  rcases hinv.phase with x | x | ⟨hf, x⟩ | ⟨A, B, X, x⟩
  · rw [hc] at x; cases x
  · rw [hd] at x; cases x
  · rw [hf.asks] at ha; simp at ha
  · obtain ⟨p, hp, hpi⟩ := x.cover i a ha hdone
    have hA : A = [] := by
      have := x.up
      rw [List.drop_of_length_le hup] at this
      cases this; rfl
    have hB : B = [] := by
      have := x.down
      rw [List.drop_of_length_le hdown] at this
      cases this; rfl
    subst hA hB
    have hp' := hp
    simp only [calls, List.map_nil, List.nil_append, List.mem_map] at hp
    obtain ⟨z, hz, rfl⟩ := hp
    have hat := x.atX z hz
    unfold AskIs at hat
    rw [hpi, ha] at hat
    have hae := Option.some.inj hat
    have hbox : z.2.2 = none := by rw [← hb, hae]
    have hreq : z.1.req ≠ none := fun hq =>
      hu (by rw [hae]; exact ((x.ready z.1 hp').ask hq).1)
    rw [hae]
    exact dropped_untaken ((x.lost z hz hbox).2 hreq)

/-- C81: the client's reader, when it holds an event back for a Connect, can go on, or that Connect has its
answer and can return, or the server's socket did not take the answer: the reader never waits for an answer that it
has yet to read itself. -/
theorem c81_gate {M : Message} (hcons : Consistent cc sc) (hnc : cc.allowNative = false)
    (hns : sc.allowNative = false) (hcl : cc.isClient = true) (hsc : sc.isClient = false)
    (h : ManyRun cc sc id ops s) (hc : s.c.closed = false) (hd : s.d.closed = false) (hg : s.c.rd = .gate M) :
    (∃ s', sstep cc sc s (.client .wake) = some s') ∨
    ∃ (i obj : Nat) (a : AskRec), s.c.asks[i]? = some a ∧ a.done = false ∧ a.cont = .connect M.ns obj ∧
      ((∃ s', sstep cc sc s (.client (.resume i)) = some s') ∨ (a.box = none ∧ Untaken s.d a.tok)) := by
  have hinv := many_inv hcons hnc hns hcl hsc h
  rcases hinv.phase with x | x | ⟨hf, x⟩ | ⟨A, B, X, x⟩
  · rw [hc] at x; cases x
  · rw [hd] at x; cases x
  · rw [hf.rd] at hg; cases hg
  · obtain ⟨haf, hgt⟩ := x.talk.held M hg
    by_cases h0 : (gateOf s.c M.ns).count = 0
    · refine .inl ?_
      have hw : ∃ t, step cc s.c .wake = some t := by
        have hrd := rd_afterGate (cfg := cc) { s.c with rd := .idle } M
        have h1 : (afterGate cc { s.c with rd := .idle } M).rd = .idle := hrd.rd
        have h2 : (afterGate cc { s.c with rd := .idle } M).todo = [] := hrd.todo.trans x.cli.todo
        have h3 : (afterGate cc { s.c with rd := .idle } M).ackAfter = false := hrd.ackAfter.trans x.cli.ackAfter
        refine ⟨_, step_of_exec (t := drain cc (afterGate cc { s.c with rd := .idle } M) []) ?_ ?_⟩
        · simp only [exec, wakeReader, hg]
          rw [gateReleased_eq, h0]
          simp only [decide_true, if_true]
          rw [if_pos h1, h2]
        · simp only [drain, h3, Bool.false_eq_true, if_false]
          show (afterGate cc { s.c with rd := .idle } M).hung = false
          rw [hung_afterGate]
          show s.c.hung = false
          exact reach_hung hinv.rc
      obtain ⟨t, ht⟩ := hw
      exact ⟨{ s with c := t }, by simp only [sstep, Op.reads, Bool.false_eq_true, if_false, ht, Option.map_some]⟩
    · refine .inr ?_
      have hdn := hgt.resolve_right h0
      have hcnt := (reach_gateOk hinv.rc M.ns).2.1 hdn
      have hcnt : (gateOf s.c M.ns).count = pend s.c M.ns := by simpa using hcnt
      obtain ⟨i, obj, a, ha, hdone, hk⟩ := pend_pos.1 (show 1 ≤ pend s.c M.ns by omega)
      refine ⟨i, obj, a, ha, hdone, hk, ?_⟩
      obtain ⟨p, hp, hpi⟩ := x.cover i a ha hdone
      obtain ⟨box, hat⟩ := x.askOf hp
      unfold AskIs at hat
      rw [hpi, ha] at hat
      have hae := Option.some.inj hat
      have hpk : p.k = .connect M.ns obj := by rw [← hk, hae]
      have hrd := x.ready p hp
      have hreq : p.req = some (.connect M.ns) := by
        cases hq : p.req with
        | none => rw [(hrd.ask hq).1] at hpk; cases hpk
        | some q =>
          have hw := (hrd.req q hq).2.1
          rw [hpk] at hw
          cases q with
          | connect ns => obtain ⟨_, h1, _⟩ := hw; cases h1; rfl
          | disconnect ns => obtain ⟨_, _, h1, _⟩ := hw; cases h1
          | join ns r => obtain ⟨_, _, h1, _⟩ := hw; cases h1
          | leave ns r => obtain ⟨_, _, h1, _⟩ := hw; cases h1
      have hout : ¬ InNs s.c M.ns := by
        obtain ⟨_, _, h1, _⟩ := (hrd.req _ hreq).2.1
        exact fun hx => hx h1
      rcases haf with ⟨z, hz, hzr, _⟩ | ⟨hin, _⟩
      · obtain ⟨y, hy, rfl⟩ := List.mem_map.mp hz
        have hyc : y.1 ∈ calls A B X := by
          simp only [calls, List.mem_append, List.mem_map]
          exact .inr (.inr ⟨y, hy, rfl⟩)
        have hpy : p = y.1 := by
          rcases apart_or x.apart hp hyc with hx | hx
          · exact hx
          · exact absurd (show Clash (M.ns, none) (M.ns, none) from ⟨rfl, .inl rfl⟩) (hx.2 _ _ hreq hzr)
        have hy2 := x.atX y hy
        unfold AskIs at hy2
        rw [← hpy, hpi, ha] at hy2
        have hye := Option.some.inj hy2
        cases hb : y.2.2 with
        | some r =>
          exact .inl (c81_ready hcons hnc hns hcl hsc h ha hdone (by rw [hye]; simp [hb])
            fun o m e => by rw [hk] at e; cases e)
        | none =>
          refine .inr ⟨by rw [hye]; exact hb, ?_⟩
          rw [hye, hpy]
          exact dropped_untaken ((x.lost y hy hb).2 (by rw [hzr]; simp))
      · exact absurd hin hout

/-- C81: a session whose Dial has returned and in which nothing can be read, no reader can go on and no call can
return has nothing left to do: all that was sent has been read, the client's reader waits for the server, and every
Connect, Disconnect, JoinRoom and LeaveRoom has returned. Only plain Asks may be left, which the server does not
answer for one of the reasons of C79. -/
theorem c81_rest (hcons : Consistent cc sc) (hnc : cc.allowNative = false)
    (hns : sc.allowNative = false) (hcl : cc.isClient = true) (hsc : sc.isClient = false)
    (hqc : QuietLeaves cc) (hqs : QuietLeaves sc) (h : ManyRun cc sc id ops s) (hdial : s.c.ready = some none)
    (hc : s.c.closed = false) (hd : s.d.closed = false) (htaken : ∀ bin b, Obs.sent bin b false ∉ s.d.log)
    (hr : Stalled cc sc s) :
    s.up = (pipe s.c.log).length ∧ s.down = (pipe s.d.log).length ∧ s.c.rd = .idle ∧ s.d.rd = .idle ∧
    ∀ (i : Nat) (a : AskRec), s.c.asks[i]? = some a → a.done = false →
      a.cont = .user ∧ a.box = none ∧ ∃ w, AskedFor ops a.tok w ∧ (Away cc sc id ops a.tok w ∨ Silence s.d w a.tok) := by
  have hinv := many_inv hcons hnc hns hcl hsc h
  have honc : cc.onlyNative = false := by simp [Cfg.onlyNative, hnc]
  have hons : sc.onlyNative = false := by simp [Cfg.onlyNative, hns]
  rcases hinv.phase with x | x | ⟨hf, x⟩ | ⟨A, B, X, x⟩
  · rw [hc] at x; cases x
  · rw [hd] at x; cases x
  · rw [hf.ready] at hdial; cases hdial
  · have hup : s.up = (pipe s.c.log).length := by
      rcases Nat.lt_or_ge s.up (pipe s.c.log).length with hlt | hge
      · exfalso
        have hu := hr.up
        simp only [sstep, List.getElem?_eq_getElem hlt] at hu
        generalize (pipe s.c.log)[s.up] = p at hu
        obtain ⟨t, b⟩ := p
        have : step sc s.d (.recv t b) = some (recv sc s.d t b) :=
          step_of_exec (by simp [exec, x.srv.rd, x.srv.todo, x.srv.ackAfter])
            (by rw [hung_recv hqs hons]; exact reach_hung hinv.rd)
        simp [this] at hu
      · have := hinv.up; omega
    have hrd : s.c.rd = .idle := by
      rcases x.cli.rd with k | ⟨m, _, k⟩
      · exact k
      · rcases c81_gate hcons hnc hns hcl hsc h hc hd k with ⟨s', hs⟩ | ⟨i, obj, a, _, _, _, ⟨s', hs⟩ | ⟨_, bin, b, hs, _⟩⟩
        · rw [hr.wake] at hs; cases hs
        · rw [hr.resume] at hs; cases hs
        · exact absurd hs (htaken bin b)
    have hdown : s.down = (pipe s.d.log).length := by
      rcases Nat.lt_or_ge s.down (pipe s.d.log).length with hlt | hge
      · exfalso
        have hu := hr.down
        simp only [sstep, List.getElem?_eq_getElem hlt] at hu
        generalize (pipe s.d.log)[s.down] = p at hu
        obtain ⟨t, b⟩ := p
        have : step cc s.c (.recv t b) = some (recv cc s.c t b) :=
          step_of_exec (by simp [exec, hrd, x.cli.todo, x.cli.ackAfter])
            (by rw [hung_recv hqc honc]; exact reach_hung hinv.rc)
        simp [this] at hu
      · have := hinv.down; omega
    refine ⟨hup, hdown, hrd, x.srv.rd, fun i a ha hdone => ?_⟩
    have hb : a.box = none := by
      cases hb : a.box with
      | none => rfl
      | some r =>
        obtain ⟨s', hs⟩ := c81_ready hcons hnc hns hcl hsc h ha hdone (by rw [hb]; simp) fun _ _ _ => hqc
        rw [hr.resume] at hs; cases hs
    have hu : a.cont = .user := by
      refine Classical.byContradiction fun hu => ?_
      obtain ⟨bin, b, hs, _⟩ := c81_waiting hcons hnc hns hcl hsc h hc hd (by omega) (by omega) ha hu hdone hb
      exact htaken bin b hs
    exact ⟨hu, hb, c79_waiting hcons hnc hns hcl hsc h hc hd (by omega) (by omega) ha hu hdone hb⟩

/-! ## Concrete sessions -/

theorem resume_past {c : St} {i : Nat} (h : c.asks.length ≤ i) : step cc c (.resume i) = none := by
  simp [step, exec, resume, List.getElem?_eq_none h]

theorem stalled_of (h1 : (sstep cc sc s .up).isNone = true) (h2 : (sstep cc sc s .down).isNone = true)
    (h3 : (sstep cc sc s (.client .wake)).isNone = true)
    (h4 : (List.range s.c.asks.length).all (fun i => (sstep cc sc s (.client (.resume i))).isNone) = true) :
    Stalled cc sc s := by
  refine ⟨Option.isNone_iff_eq_none.mp h1, Option.isNone_iff_eq_none.mp h2, Option.isNone_iff_eq_none.mp h3, fun i => ?_⟩
  rcases Nat.lt_or_ge i s.c.asks.length with hi | hi
  · exact Option.isNone_iff_eq_none.mp (List.all_eq_true.mp h4 i (List.mem_range.mpr hi))
  · simp only [sstep, Op.reads, Bool.false_eq_true, if_false, resume_past hi, Option.map_none]

theorem no_false {l : List Obs}
    (h : l.all (fun o => match o with | .sent _ _ false => false | _ => true) = true) : ∀ bin b, Obs.sent bin b false ∉ l :=
  fun bin b hm => by cases List.all_eq_true.mp h _ hm

theorem busy_quiet : QuietLeaves busyCli ∧ QuietLeaves busySrv := ⟨fun _ _ _ _ _ => rfl, fun _ _ _ _ _ => rfl⟩

theorem has_ready {l : List AskRec} {i : Nat}
    (h : (match l[i]? with | some a => !a.done && a.box.isSome | none => false) = true) :
    ∃ a, l[i]? = some a ∧ a.done = false ∧ a.box ≠ none := by
  cases hx : l[i]? with
  | none => rw [hx] at h; cases h
  | some a =>
    rw [hx] at h
    simp only [Bool.and_eq_true, Bool.not_eq_true'] at h
    exact ⟨a, rfl, h.1, fun e => by rw [e] at h; cases h.2⟩

/-- the calls that are in flight: whether a plain Ask, and whether the answer is there -/
def inFlight (c : St) : List (Bool × Bool) :=
  (c.asks.filter fun a => !a.done).map fun a => (decide (a.cont = .user), a.box.isSome)

/-- all calls of `askSess` that have an answer return -/
def restSess : List SessOp := askSess ++ [.client (.resume 1), .client (.resume 3)]

abbrev rested : Sess := manyRan busyCli busySrv (b! "u1") restSess

/-- C81, rest: the hypotheses hold; two plain Asks are left -/
example : Consistent busyCli busySrv ∧ QuietLeaves busyCli ∧ QuietLeaves busySrv ∧
    ManyRun busyCli busySrv (b! "u1") restSess rested ∧ rested.c.ready = some none ∧
    rested.c.closed = false ∧ rested.d.closed = false ∧ (∀ bin b, Obs.sent bin b false ∉ rested.d.log) ∧
    Stalled busyCli busySrv rested ∧ inFlight asking.c = [(true, true), (true, false), (false, true), (true, false)] ∧
    inFlight rested.c = [(true, false), (true, false)] :=
  ⟨busy_consistent, busy_quiet.1, busy_quiet.2, manyRan_run (by decide +kernel), by decide +kernel, by decide +kernel,
    by decide +kernel, no_false (by decide +kernel),
    stalled_of (by decide +kernel) (by decide +kernel) (by decide +kernel) (by decide +kernel), by decide +kernel, by decide +kernel⟩

/-- the server emits in `chat` as soon as it has accepted the Connect; the client asks for `game` too -/
def gateSess : List SessOp :=
  dialOps ++ [.client (.connect (b! "chat") 7 false), .client (.connect (b! "game") 8 false), .up,
    .server (.write { ns := b! "chat", event := b! "hi", body := b! "x" }), .up, .down, .down]

abbrev gated : Sess := manyRan busyCli busySrv (b! "u1") gateSess

/-- C81, gate: the reader holds the event back, before the answer for `game`; the Connect of `chat` has its answer;
ready: and it can return, after which the reader can go on and read the other answer -/
example : ManyRun busyCli busySrv (b! "u1") gateSess gated ∧ gated.c.closed = false ∧ gated.d.closed = false ∧
    gated.c.rd = .gate { ns := b! "chat", event := b! "hi", body := b! "x" } ∧
    inFlight gated.c = [(false, true), (false, false)] ∧ gated.down + 1 = (pipe gated.d.log).length ∧
    sstep busyCli busySrv gated (.client .wake) = none ∧
    inFlight (manyRan busyCli busySrv (b! "u1") (gateSess ++ [.client (.resume 0), .client .wake, .down])).c = [(false, true)] :=
  ⟨manyRan_run (by decide +kernel), by decide +kernel, by decide +kernel, by decide +kernel, by decide +kernel,
    by decide +kernel, Option.isNone_iff_eq_none.mp (by decide +kernel), by decide +kernel⟩

/-- C81, ready: a Disconnect, with three plain Asks in flight -/
example : ManyRun busyCli busySrv (b! "u1") askSess asking ∧ QuietLeaves busyCli ∧
    (∃ a, asking.c.asks[3]? = some a ∧ a.done = false ∧ a.box ≠ none) ∧
    (∃ a, asking.c.asks[3]? = some a ∧ a.cont = .disconnect 0 { ns := b! "chat", event := OnNamespaceDisconnect }) :=
  ⟨manyRan_run (by decide +kernel), busy_quiet.1, has_ready (by decide +kernel), has_cont (by decide +kernel)⟩

/-- a server whose socket does not take the answer to the second call -/
abbrev deafSrv : Cfg := { busySrv with sock := fun _ _ b => if (b! "$8").isPrefixOf b then some (.text (b! "timeout")) else none }

def deafSess : List SessOp :=
  dialOps ++ [.client (.connect (b! "chat") 7 false), .client (.connect (b! "game") 8 false), .up, .up, .down]

abbrev deaf : Sess := manyRan busyCli deafSrv (b! "u1") deafSess

/-- C81, waiting: the hypotheses hold; all is read and the second Connect waits for good -/
example : Consistent busyCli deafSrv ∧ ManyRun busyCli deafSrv (b! "u1") deafSess deaf ∧
    deaf.c.closed = false ∧ deaf.d.closed = false ∧ (pipe deaf.c.log).length ≤ deaf.up ∧
    (pipe deaf.d.log).length ≤ deaf.down ∧ inFlight deaf.c = [(false, true), (false, false)] :=
  ⟨⟨busy_consistent.client, busy_consistent.server, busy_consistent.refuses, busy_consistent.accepts⟩,
    manyRan_run (by decide +kernel), by decide +kernel, by decide +kernel, by decide +kernel, by decide +kernel, by decide +kernel⟩

/-- C81: the rule about forced leaves is needed. The callback of the client closes the connection when the
client is made to leave a room; the Disconnect of the namespace has its answer, holds the mutex of the rooms, and
closing needs it: nothing can happen any more. -/
theorem c81_noisy_refuted : ∃ (cc sc : Cfg) (ops : List SessOp) (s : Sess), Consistent cc sc ∧
    cc.allowNative = false ∧ sc.allowNative = false ∧ cc.isClient = true ∧ sc.isClient = false ∧
    ManyRun cc sc (b! "u1") ops s ∧ s.c.closed = false ∧ s.d.closed = false ∧
    (∃ a, s.c.asks[2]? = some a ∧ a.done = false ∧ a.box ≠ none) ∧ sstep cc sc s (.client (.resume 2)) = none := by
  refine ⟨clientCfg busyDecl (fun _ _ _ msg => (if msg.isForced then [.close] else [], none)), busySrv,
    dialOps ++ [.client (.connect (b! "chat") 7 false), .up, .down, .client (.resume 0),
      .client (.join 0 (b! "r") 8 false), .up, .down, .client (.resume 1), .client (.disconnect 0 9 false), .up, .down], _,
    ⟨?_, busy_consistent.server, busy_consistent.refuses, fun _ _ _ _ _ _ => rfl⟩, rfl, rfl, rfl, rfl,
    manyRan_run (by decide +kernel), by decide +kernel, by decide +kernel, has_ready (by decide +kernel),
    Option.isNone_iff_eq_none.mp (by decide +kernel)⟩
  intro _ _ _ msg m h
  simp only [clientCfg] at h
  split at h <;> simp at h

end Neffos
