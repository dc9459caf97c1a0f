import Verif.Proofs.Order
/-!
# C107: all events arrive, in order and once, while both sides call
-/
set_option autoImplicit false
namespace Neffos
open Neffos.Spec

variable {cc sc : Cfg} {id : Bytes} {ops : List SessOp} {s s' : Sess} {U D : List Message} {m : Message}

/-- C107: as long as both sides are open, the events that the client has emitted are, in this order, those that the server's
callbacks have got, the one that its reader holds, and those on the way. -/
theorem c107_up (hcons : BothConsistent cc sc) (hnc : cc.allowNative = false) (hns : sc.allowNative = false)
    (hcl : cc.isClient = true) (hsc : sc.isClient = false) (hstc : StillSide cc) (hsts : StillSide sc)
    (h : EventRun cc sc id ops s U D) (hc : s.c.closed = false) (hd : s.d.closed = false) :
    AllThere sc s.d ((pipe s.c.log).drop s.up) U := by
  rcases Order.order_inv hcons hnc hns hcl hsc hstc hsts h with k | k | k
  · rw [hc] at k; cases k
  · rw [hd] at k; cases k
  · exact k.1

/-- C107: the same for what the server has emitted. -/
theorem c107_down (hcons : BothConsistent cc sc) (hnc : cc.allowNative = false) (hns : sc.allowNative = false)
    (hcl : cc.isClient = true) (hsc : sc.isClient = false) (hstc : StillSide cc) (hsts : StillSide sc)
    (h : EventRun cc sc id ops s U D) (hc : s.c.closed = false) (hd : s.d.closed = false) :
    AllThere cc s.c ((pipe s.d.log).drop s.down) D := by
  rcases Order.order_inv hcons hnc hns hcl hsc hstc hsts h with k | k | k
  · rw [hc] at k; cases k
  · rw [hd] at k; cases k
  · exact k.2

/-- C107: a session that has come to rest has delivered all events of both sides, in order and once, and nothing else. -/
theorem c107_rest (hcons : BothConsistent cc sc) (hnc : cc.allowNative = false) (hns : sc.allowNative = false)
    (hcl : cc.isClient = true) (hsc : sc.isClient = false) (hstc : StillSide cc) (hsts : StillSide sc)
    (h : EventRun cc sc id ops s U D) (ho : Open s) (hr : Standstill cc sc s) :
    heard s.d.log = U.map arrives ∧ heard s.c.log = D.map arrives := by
  obtain ⟨h1, h2, h3, h4, _⟩ := c93_rest hcons hnc hns hcl hsc hstc hsts (Order.event_ruled h) ho hr
  have k1 := c107_up hcons hnc hns hcl hsc hstc hsts h ho.cli ho.srv
  have k2 := c107_down hcons hnc hns hcl hsc hstc hsts h ho.cli ho.srv
  unfold AllThere at k1 k2
  rw [Order.held_idle h4, h1, List.drop_length] at k1
  rw [Order.held_idle h3, h2, List.drop_length] at k2
  exact ⟨by simpa using k1, by simpa using k2⟩

theorem settling_events {l : List SessOp} (hcons : BothConsistent cc sc) (hnc : cc.allowNative = false) (hns : sc.allowNative = false)
    (hcl : cc.isClient = true) (hsc : sc.isClient = false) (hstc : StillSide cc) (hsts : StillSide sc)
    (h : EventRun cc sc id ops s U D) (ho : Open s) (hl : ∀ op ∈ l, SettlingBoth op) (hr : srun cc sc s l = some s') :
    EventRun cc sc id (ops ++ l) s' U D ∧ Open s' := by
  induction l generalizing ops s with
  | nil => cases hr; exact ⟨by simpa using h, ho⟩
  | cons op l ih =>
    simp only [srun] at hr
    split at hr
    · rename_i t ht
      have hop := hl op (List.mem_cons_self ..)
      obtain ⟨k2, _⟩ := settleBoth_step hcons hnc hns hcl hsc hstc hsts (Order.event_ruled h) ho hop ht
      have hreq : EventRequests s op := by
        refine ⟨settlingBoth_rule hop s, ?_⟩
        split <;> first | trivial | exact (show False from hop).elim
      have e1 : emitsUp s t op = [] := by
        unfold emitsUp
        split
        · exact (show False from hop).elim
        · rfl
      have e2 : emitsDown s t op = [] := by
        unfold emitsDown
        split
        · exact (show False from hop).elim
        · rfl
      have k := h.step hreq ht
      rw [e1, e2, List.append_nil, List.append_nil] at k
      simpa using ih k k2 (fun o x => hl o (List.mem_cons_of_mem _ x)) hr
    · cases hr

/-- C107: without the applications a session delivers all that is on the way: however the readers and the calls of both
sides go on, when they cannot go on any more, all events have been delivered. (That they come to an end is `c93_bound`.) -/
theorem c107_delivers {l : List SessOp} (hcons : BothConsistent cc sc) (hnc : cc.allowNative = false) (hns : sc.allowNative = false)
    (hcl : cc.isClient = true) (hsc : sc.isClient = false) (hstc : StillSide cc) (hsts : StillSide sc)
    (h : EventRun cc sc id ops s U D) (ho : Open s) (hl : ∀ op ∈ l, SettlingBoth op) (hr : srun cc sc s l = some s')
    (hend : ∀ op, SettlingBoth op → sstep cc sc s' op = none) :
    heard s'.d.log = U.map arrives ∧ heard s'.c.log = D.map arrives := by
  obtain ⟨j1, j2⟩ := settling_events hcons hnc hns hcl hsc hstc hsts h ho hl hr
  exact c107_rest hcons hnc hns hcl hsc hstc hsts j1 j2 ⟨hend _ trivial, hend _ trivial, hend _ trivial, hend _ trivial,
    fun i => hend _ trivial, fun i => hend _ trivial⟩

namespace Order

theorem emits_may {x : Cfg} {a b : St} (ht : TakesAll x) (hs : step x a (.write m) = some b) :
    (MayWrite x a m → emits a b (.write m) = [m]) ∧ (¬ MayWrite x a m → emits a b (.write m) = []) := by
  obtain ⟨he, _⟩ := step_exec hs
  simp only [exec] at he
  cases he
  unfold emits
  dsimp only
  rw [write_eq]
  constructor
  · intro hm
    rw [if_pos hm, rawWrite_accept (ht _ _ _), markReady_eq]
    simp [St.emit, pipe_append, pipe]
  · intro hm
    rw [if_neg hm]
    split
    · simp
    · rw [markReady_eq]; simp

end Order

/-- C107: what counts as emitted is every Write that the side may make: the side is open and connected to the namespace
and, if the event is for a room, joined to it. -/
theorem c107_emitted (htc : TakesAll cc) (hts : TakesAll sc) :
    (sstep cc sc s (.client (.write m)) = some s' → (MayWrite cc s.c m → emitsUp s s' (.client (.write m)) = [m]) ∧
      (¬ MayWrite cc s.c m → emitsUp s s' (.client (.write m)) = [])) ∧
    (sstep cc sc s (.server (.write m)) = some s' → (MayWrite sc s.d m → emitsDown s s' (.server (.write m)) = [m]) ∧
      (¬ MayWrite sc s.d m → emitsDown s s' (.server (.write m)) = [])) := by
  constructor
  · intro h
    simp only [sstep] at h
    obtain ⟨t, ht, rfl⟩ := Option.map_eq_some_iff.mp h
    exact Order.emits_may htc ht
  · intro h
    simp only [sstep] at h
    obtain ⟨t, ht, rfl⟩ := Option.map_eq_some_iff.mp h
    exact Order.emits_may hts ht

/-! ## Concrete sessions -/

/-- the rule, as a test -/
def plainB (m : Message) : Bool :=
  m.wait.isEmpty && !m.isNative && m.err.isNone && oneOk.safe m.ns && oneOk.safe m.room && oneOk.safe m.event && !decide (Life m.event)

def askedB (l : List Obs) (n : Bytes) : Bool := l.any fun o => match o with
  | .ret (.connect ns _) _ => ns == n
  | _ => false

def eventOk (s : Sess) : SessOp → Bool
  | .client (.write m) => plainB m
  | .server (.write m) => plainB m
  | .client (.connect ns _ _) => !askedB s.c.log ns
  | .server (.connect ns _ _) => !askedB s.d.log ns
  | _ => true

/-- run the steps, checking the rules, and note what is emitted -/
def eventRun (cc sc : Cfg) (s : Sess) (U D : List Message) : List SessOp → Option (Sess × List Message × List Message)
  | [] => some (s, U, D)
  | op :: ops =>
    if bothOk s op && ruledOk s op && eventOk s op then
      match sstep cc sc s op with
      | some s' => eventRun cc sc s' (U ++ emitsUp s s' op) (D ++ emitsDown s s' op) ops
      | none => none
    else none

theorem plainB_plain (h : plainB m = true) : PlainEvent m := by
  simp only [plainB, Bool.and_eq_true, List.isEmpty_iff, Bool.not_eq_true', Option.isNone_iff_eq_none, decide_eq_false_iff_not] at h
  obtain ⟨⟨⟨⟨⟨⟨h1, h2⟩, h3⟩, h4⟩, h5⟩, h6⟩, h7⟩ := h
  exact ⟨⟨h1, h2⟩, h3, oneOk_safe h4, oneOk_safe h5, oneOk_safe h6, h7⟩

theorem askedB_none {l : List Obs} {n : Bytes} (h : askedB l n = false) : ∀ obj r, Obs.ret (.connect n obj) r ∉ l := by
  intro obj r hm
  have : askedB l n = true := List.any_eq_true.mpr ⟨_, hm, by simp⟩
  rw [h] at this
  cases this

theorem eventRun_from {pre ops : List SessOp} {s s' : Sess} {U D U' D' : List Message} (h : EventRun cc sc id pre s U D)
    (hr : eventRun cc sc s U D ops = some (s', U', D')) : EventRun cc sc id (pre ++ ops) s' U' D' := by
  induction ops generalizing pre s U D with
  | nil => simp only [eventRun] at hr; cases hr; simpa using h
  | cons op ops ih =>
    simp only [eventRun] at hr
    split at hr
    · rename_i hok
      simp only [Bool.and_eq_true] at hok
      have hru : EventRequests s op := by
        refine ⟨ruledOk_rules hok.1.1 hok.1.2, ?_⟩
        have h2 := hok.2
        split
        · exact plainB_plain h2
        · exact plainB_plain h2
        · exact askedB_none (by simpa [eventOk] using h2)
        · exact askedB_none (by simpa [eventOk] using h2)
        · trivial
      cases ho : sstep cc sc s op with
      | none => rw [ho] at hr; cases hr
      | some s1 =>
        rw [ho] at hr
        simpa using ih (h.step hru ho) hr
    · cases hr

/-- the session after these steps, with what was emitted -/
def eventRan (cc sc : Cfg) (id : Bytes) (ops : List SessOp) : Sess × List Message × List Message :=
  (eventRun cc sc (newSess cc sc id) [] [] ops).getD (newSess cc sc id, [], [])

theorem eventRan_run {ops : List SessOp} (h : (eventRun cc sc (newSess cc sc id) [] [] ops).isSome = true) :
    EventRun cc sc id ops (eventRan cc sc id ops).1 (eventRan cc sc id ops).2.1 (eventRan cc sc id ops).2.2 := by
  unfold eventRan
  cases hx : eventRun cc sc (newSess cc sc id) [] [] ops with
  | none => rw [hx] at h; cases h
  | some r => exact eventRun_from .init hx

/-- both sides emit twice while a Connect of the server and one of the client are in flight; the server reads the answer to
its Connect and the event after it, which its reader holds -/
def twiceOps : List SessOp :=
  chatUp ++ [.server (.connect (b! "game") 8 false), .client (.connect (b! "quiz") 10 false), .down,
    .client (.write { ns := b! "game", event := b! "hi", body := b! "1" }), .client (.write { ns := b! "chat", event := b! "hi", body := b! "2" }),
    .server (.write { ns := b! "chat", event := b! "hi", body := b! "3" }), .up, .up, .up,
    .server (.write { ns := b! "chat", event := b! "hi", body := b! "4" }), .down]

abbrev twice : Sess × List Message × List Message := eventRan pickyCli pickySrv (b! "u1") twiceOps

/-- what is left to do -/
def twiceEnd : List SessOp := [.server (.resume 0), .server .wake, .up, .down, .down, .client (.resume 1)]

/-- C107: the hypotheses hold with an event held, an event on the way in both directions and calls in flight; all arrive -/
example : BothConsistent pickyCli pickySrv ∧ StillSide pickyCli ∧ StillSide pickySrv ∧
    EventRun pickyCli pickySrv (b! "u1") twiceOps twice.1 twice.2.1 twice.2.2 ∧ Open twice.1 ∧
    twice.2.1.map (·.body) = [b! "1", b! "2"] ∧ twice.2.2.map (·.body) = [b! "3", b! "4"] ∧
    (heard twice.1.d.log).map (·.body) = [] ∧ (held twice.1.d).map (·.body) = [b! "1"] ∧
    (((pipe twice.1.c.log).drop twice.1.up).filterMap (eventIn pickySrv)).map (·.body) = [b! "2"] ∧
    (∀ op ∈ twiceEnd, SettlingBoth op) ∧
    (srun pickyCli pickySrv twice.1 twiceEnd).map (fun s => ((heard s.d.log).map (·.body), (heard s.c.log).map (·.body), workBoth pickyCli pickySrv s)) =
      some ([b! "1", b! "2"], [b! "3", b! "4"], 0) :=
  ⟨picky_consistent, picky_still.1, picky_still.2, eventRan_run (by decide +kernel), ⟨by decide +kernel, by decide +kernel, by decide +kernel⟩,
    by decide +kernel, by decide +kernel, by decide +kernel, by decide +kernel, by decide +kernel, (by simp [twiceEnd, SettlingBoth]), by decide +kernel⟩

/-- the client connects to `chat`, leaves and connects again; the server accepts and emits there at once -/
def againOps : List SessOp :=
  chatUp ++ [.client (.disconnect 0 8 false), .up, .down, .client (.resume 1), .client (.connect (b! "chat") 9 false), .up,
    .server (.write { ns := b! "chat", event := b! "hi", body := b! "x" }), .down, .down]

abbrev again : Sess := ruledRan pickyCli pickySrv (b! "u1") againOps

/-- Why a second Connect of the same side is left out: its session keeps all other rules, the client reads the event before
the second Connect has returned, does not hold it, as the gate is open since the first, and the event is lost although the
session comes to rest with the client connected. -/
theorem c107_rule_needed : RuledRun pickyCli pickySrv (b! "u1") againOps again ∧ Open again ∧ again.down = (pipe again.d.log).length ∧
    heard again.c.log = [] ∧ held again.c = [] ∧
    (srun pickyCli pickySrv again [.client (.resume 2)]).map (fun s => (decide (heard s.c.log = []), workBoth pickyCli pickySrv s,
      (s.c.namespace (b! "chat")).isSome, (s.d.namespace (b! "chat")).isSome)) = some (true, 0, true, true) :=
  ⟨ruledRan_run (by decide +kernel), ⟨by decide +kernel, by decide +kernel, by decide +kernel⟩, by decide +kernel, by decide +kernel,
    by decide +kernel, by decide +kernel⟩

end Neffos
