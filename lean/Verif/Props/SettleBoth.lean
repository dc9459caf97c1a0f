import Verif.Proofs.EarsRun
import Verif.Props.NoDeadlockBoth
/-!
# C93: calls of both sides in flight together all return, when neither side emits while it leaves
-/
set_option autoImplicit false
namespace Neffos
open Neffos.Spec

variable {cc sc : Cfg} {id : Bytes} {ops : List SessOp} {s s' : Sess}

theorem settlingBoth_rule {op : SessOp} (h : SettlingBoth op) (s : Sess) : RuledRequests s op := by
  cases op with
  | client op => cases op <;> first | exact h.elim | exact ⟨trivial, trivial⟩
  | server op => cases op <;> first | exact h.elim | exact ⟨trivial, trivial⟩
  | up => exact ⟨trivial, trivial⟩
  | down => exact ⟨trivial, trivial⟩
  | _ => exact h.elim

/-- what these sessions are after Dial has returned -/
theorem open_live (hcons : BothConsistent cc sc) (hnc : cc.allowNative = false) (hns : sc.allowNative = false)
    (hcl : cc.isClient = true) (hsc : sc.isClient = false) (hstc : StillSide cc) (hsts : StillSide sc)
    (h : RuledRun cc sc id ops s) (ho : Open s) :
    BothInv cc sc id s ∧ Ears cc s.c ((pipe s.d.log).drop s.down) ∧ Ears sc s.d ((pipe s.c.log).drop s.up) ∧
    ∃ O I X Y, Both cc sc s.c s.d ((pipe s.c.log).drop s.up) ((pipe s.d.log).drop s.down) O I X Y := by
  have hinv := both_inv hcons hnc hns hcl hsc (ruled_both h)
  refine ⟨hinv, ?_⟩
  rcases ears_inv hcons hnc hns hcl hsc hstc hsts h with k | k | ⟨k1, k2⟩
  · rw [ho.cli] at k; cases k
  · rw [ho.srv] at k; cases k
  · refine ⟨k1, k2, ?_⟩
    have hd := ho.dial
    rcases hinv.phase with x | x | x
    · rw [ho.cli] at x; cases x
    · rw [ho.srv] at x; cases x
    · cases x with
      | greet h1 => rw [h1.ready] at hd; cases hd
      | held h1 => rw [h1.ready] at hd; cases hd
      | acked b l1 l2 O I X Y h1 => rw [h1.ready] at hd; cases hd
      | live O I X Y _ x => exact ⟨O, I, X, Y, x⟩

/-- C93: neither reader ever holds an event back for a Connect of its own side that does not have its answer. -/
theorem c93_not_held (hcons : BothConsistent cc sc) (hnc : cc.allowNative = false) (hns : sc.allowNative = false)
    (hcl : cc.isClient = true) (hsc : sc.isClient = false) (hstc : StillSide cc) (hsts : StillSide sc)
    (h : RuledRun cc sc id ops s) (ho : Open s) : ¬ HeldBack s.c ∧ ¬ HeldBack s.d := by
  obtain ⟨_, h1, h2, _, _, _, _, x⟩ := open_live hcons hnc hns hcl hsc hstc hsts h ho
  exact ⟨x.notHeld h1, x.symm.notHeld h2⟩

/-- C93: a session in which Dial has returned and both sides are open stands still only when it has nothing left to do:
all that was sent has been read, both readers wait for the other side and all calls of both sides have returned. -/
theorem c93_rest (hcons : BothConsistent cc sc) (hnc : cc.allowNative = false) (hns : sc.allowNative = false)
    (hcl : cc.isClient = true) (hsc : sc.isClient = false) (hstc : StillSide cc) (hsts : StillSide sc)
    (h : RuledRun cc sc id ops s) (ho : Open s) (hr : Standstill cc sc s) :
    s.up = (pipe s.c.log).length ∧ s.down = (pipe s.d.log).length ∧ s.c.rd = .idle ∧ s.d.rd = .idle ∧
      (∀ a ∈ s.c.asks, a.done = true) ∧ ∀ a ∈ s.d.asks, a.done = true := by
  have honc : cc.onlyNative = false := by simp [Cfg.onlyNative, hnc]
  have hons : sc.onlyNative = false := by simp [Cfg.onlyNative, hns]
  have hinv := both_inv hcons hnc hns hcl hsc (ruled_both h)
  obtain ⟨n1, n2⟩ := c93_not_held hcons hnc hns hcl hsc hstc hsts h ho
  rcases c90_rest_partial hcons hnc hns hcl hsc (fun _ _ _ _ _ => hstc.cbs _ _ _ _) (fun _ _ _ _ _ => hsts.cbs _ _ _ _)
      (ruled_both h) ho.dial ho.cli ho.srv hr with k | k | ⟨k1, k2, k3, k4, k5, k6⟩
  · exact absurd k n1
  · exact absurd k n2
  · refine ⟨k1, k2, k3, k4, fun a ha => ?_, fun a ha => ?_⟩
    · obtain ⟨i, hi⟩ := List.getElem?_of_mem ha
      cases hd : a.done with
      | true => rfl
      | false =>
        obtain ⟨bin, b, k, _⟩ := k5 i a hi hd
        exact absurd k (reach_taken hsts.takes hons hinv.rd ho.srv bin b)
    · obtain ⟨i, hi⟩ := List.getElem?_of_mem ha
      cases hd : a.done with
      | true => rfl
      | false =>
        obtain ⟨bin, b, k, _⟩ := k6 i a hi hd
        exact absurd k (reach_taken hstc.takes honc hinv.rc ho.cli bin b)

theorem settleBoth_step {op : SessOp} (hcons : BothConsistent cc sc) (hnc : cc.allowNative = false) (hns : sc.allowNative = false)
    (hcl : cc.isClient = true) (hsc : sc.isClient = false) (hstc : StillSide cc) (hsts : StillSide sc)
    (h : RuledRun cc sc id ops s) (ho : Open s) (hop : SettlingBoth op) (hst : sstep cc sc s op = some s') :
    Open s' ∧ workBoth cc sc s' + 1 ≤ workBoth cc sc s := by
  obtain ⟨hinv, hec, hed, O, I, X, Y, x⟩ := open_live hcons hnc hns hcl hsc hstc hsts h ho
  have drop_app : ∀ {a b : List (MsgType × Bytes)} {n : Nat}, n ≤ a.length → (a ++ b).drop n = a.drop n ++ b :=
    fun {a b n} hn => by rw [List.drop_append, Nat.sub_eq_zero_of_le hn]; rfl
  have hready : ∀ {op : Op} {t : St}, step cc s.c op = some t → t.ready = some none :=
    fun ht => (Prims.grows (reach_prims hinv.rc ht)).ready _ ho.dial
  have cli : ∀ {t : St}, t.ready = some none → (t.closed = false ∧ ∃ l, t.log = s.c.log ++ l ∧ pipe l = [] ∧ owed t + 1 ≤ owed s.c) →
      Open { s with c := t } ∧ workBoth cc sc { s with c := t } + 1 ≤ workBoth cc sc s := by
    rintro t hrdy ⟨h1, l, h2, h3, h4⟩
    refine ⟨⟨hrdy, h1, ho.srv⟩, ?_⟩
    simp only [workBoth, h2, pipe_append, h3, List.append_nil]
    omega
  have srv : ∀ {t : St}, (t.closed = false ∧ ∃ l, t.log = s.d.log ++ l ∧ pipe l = [] ∧ owed t + 1 ≤ owed s.d) →
      Open { s with d := t } ∧ workBoth cc sc { s with d := t } + 1 ≤ workBoth cc sc s := by
    rintro t ⟨h1, l, h2, h3, h4⟩
    refine ⟨⟨ho.dial, ho.cli, h1⟩, ?_⟩
    simp only [workBoth, h2, pipe_append, h3, List.append_nil]
    omega
  cases op with
  | up =>
    simp only [sstep] at hst
    split at hst
    · cases hst
    · rename_i ty b hb
      obtain ⟨t, ht, rfl⟩ := Option.map_eq_some_iff.mp hst
      have hlt : s.up < (pipe s.c.log).length := (List.getElem?_eq_some_iff.mp hb).1
      have hdr : (pipe s.c.log).drop s.up = (ty, b) :: (pipe s.c.log).drop (s.up + 1) := by
        rw [List.drop_eq_getElem_cons hlt, (List.getElem?_eq_some_iff.mp hb).2]
      rw [hdr] at x hed
      obtain ⟨k1, l, k2, k3⟩ := recv_owed hsts hcons.symm hns (by rw [hcl, hsc]; rfl) (.inr hinv.srv) hinv.rd ho.srv x.symm hed hec ht
      refine ⟨⟨ho.dial, ho.cli, k1⟩, ?_⟩
      simp only [workBoth, k2, pipe_append, drop_app hinv.down, List.map_append, List.sum_append, hdr, List.map_cons, List.sum_cons]
      omega
  | down =>
    simp only [sstep] at hst
    split at hst
    · cases hst
    · rename_i ty b hb
      obtain ⟨t, ht, rfl⟩ := Option.map_eq_some_iff.mp hst
      have hlt : s.down < (pipe s.d.log).length := (List.getElem?_eq_some_iff.mp hb).1
      have hdr : (pipe s.d.log).drop s.down = (ty, b) :: (pipe s.d.log).drop (s.down + 1) := by
        rw [List.drop_eq_getElem_cons hlt, (List.getElem?_eq_some_iff.mp hb).2]
      rw [hdr] at x hec
      obtain ⟨k1, l, k2, k3⟩ := recv_owed hstc hcons hnc (by rw [hcl, hsc]; rfl) (.inl hcl) hinv.rc ho.cli x hec hed ht
      refine ⟨⟨hready ht, k1, ho.srv⟩, ?_⟩
      simp only [workBoth, k2, pipe_append, drop_app hinv.up, List.map_append, List.sum_append, hdr, List.map_cons, List.sum_cons]
      omega
  | client op =>
    simp only [sstep] at hst
    split at hst
    · cases hst
    · obtain ⟨t, ht, rfl⟩ := Option.map_eq_some_iff.mp hst
      cases op with
      | wake => exact cli (hready ht) (wake_owed hstc ho.cli hinv.rc x.okS hec ht)
      | resume i => exact cli (hready ht) (resume_owed hstc ho.cli hinv.rc x.mine x.okS ht)
      | _ => exact hop.elim
  | server op =>
    simp only [sstep] at hst
    split at hst
    · cases hst
    · obtain ⟨t, ht, rfl⟩ := Option.map_eq_some_iff.mp hst
      cases op with
      | wake => exact srv (wake_owed hsts ho.srv hinv.rd x.okT hed ht)
      | resume i => exact srv (resume_owed hsts ho.srv hinv.rd x.yours x.okT ht)
      | _ => exact hop.elim
  | _ => exact hop.elim

/-- C93: from any state of such a session, with any number of calls of both sides in flight, every run of the steps by which
it goes on without the applications is bounded, whatever the schedule: a step needs work and `workBoth` is what there is. Both
sides stay open. -/
theorem c93_bound {l : List SessOp} (hcons : BothConsistent cc sc) (hnc : cc.allowNative = false) (hns : sc.allowNative = false)
    (hcl : cc.isClient = true) (hsc : sc.isClient = false) (hstc : StillSide cc) (hsts : StillSide sc)
    (h : RuledRun cc sc id ops s) (ho : Open s) (hl : ∀ op ∈ l, SettlingBoth op) (hr : srun cc sc s l = some s') :
    RuledRun cc sc id (ops ++ l) s' ∧ Open s' ∧ l.length + workBoth cc sc s' ≤ workBoth cc sc s := by
  induction l generalizing ops s with
  | nil => cases hr; exact ⟨by simpa using h, ho, by simp⟩
  | cons op l ih =>
    simp only [srun] at hr
    split at hr
    · rename_i t ht
      have hop := hl op (List.mem_cons_self ..)
      obtain ⟨k1, k2⟩ := settleBoth_step hcons hnc hns hcl hsc hstc hsts h ho hop ht
      obtain ⟨j1, j2, j3⟩ := ih (h.step (settlingBoth_rule hop s) ht) k1 (fun o x => hl o (List.mem_cons_of_mem _ x)) hr
      exact ⟨by simpa using j1, j2, by simp only [List.length_cons]; omega⟩
    · cases hr

/-- C93: such a run, when it cannot go on, has let every call of both sides return, and all that was sent has been read. -/
theorem c93_returns {l : List SessOp} (hcons : BothConsistent cc sc) (hnc : cc.allowNative = false) (hns : sc.allowNative = false)
    (hcl : cc.isClient = true) (hsc : sc.isClient = false) (hstc : StillSide cc) (hsts : StillSide sc)
    (h : RuledRun cc sc id ops s) (ho : Open s) (hl : ∀ op ∈ l, SettlingBoth op) (hr : srun cc sc s l = some s')
    (hend : ∀ op, SettlingBoth op → sstep cc sc s' op = none) :
    s'.up = (pipe s'.c.log).length ∧ s'.down = (pipe s'.d.log).length ∧ s'.c.rd = .idle ∧ s'.d.rd = .idle ∧
      (∀ a ∈ s'.c.asks, a.done = true) ∧ ∀ a ∈ s'.d.asks, a.done = true := by
  obtain ⟨j1, j2, _⟩ := c93_bound hcons hnc hns hcl hsc hstc hsts h ho hl hr
  exact c93_rest hcons hnc hns hcl hsc hstc hsts j1 j2 ⟨hend _ trivial, hend _ trivial, hend _ trivial, hend _ trivial,
    fun i => hend _ trivial, fun i => hend _ trivial⟩

/-- C93: such a run exists: the session can always come to rest. -/
theorem c93_settles (hcons : BothConsistent cc sc) (hnc : cc.allowNative = false) (hns : sc.allowNative = false)
    (hcl : cc.isClient = true) (hsc : sc.isClient = false) (hstc : StillSide cc) (hsts : StillSide sc)
    (h : RuledRun cc sc id ops s) (ho : Open s) :
    ∃ l s', (∀ op ∈ l, SettlingBoth op) ∧ srun cc sc s l = some s' ∧ l.length ≤ workBoth cc sc s ∧
      ∀ op, SettlingBoth op → sstep cc sc s' op = none := by
  generalize hn : workBoth cc sc s = n
  induction n using Nat.strongRecOn generalizing ops s with
  | ind n ih =>
    by_cases hx : ∀ op, SettlingBoth op → sstep cc sc s op = none
    · exact ⟨[], s, (by simp), rfl, Nat.zero_le _, hx⟩
    · obtain ⟨op, hop, t, ht⟩ : ∃ op, SettlingBoth op ∧ ∃ t, sstep cc sc s op = some t := by
        refine Classical.byContradiction fun hno => hx fun op hop => ?_
        cases he : sstep cc sc s op with
        | none => rfl
        | some t => exact absurd ⟨op, hop, t, he⟩ hno
      obtain ⟨k1, k2⟩ := settleBoth_step hcons hnc hns hcl hsc hstc hsts h ho hop ht
      obtain ⟨l, s', j1, j2, j3, j4⟩ := ih (workBoth cc sc t) (by omega) (h.step (settlingBoth_rule hop s) ht) k1 rfl
      refine ⟨op :: l, s', fun o x => ?_, ?_, by simp only [List.length_cons]; omega, j4⟩
      · rcases List.mem_cons.mp x with rfl | x
        · exact hop
        · exact j1 o x
      · simp only [srun, ht]; exact j2

/-! ## Concrete sessions -/

/-- this side is leaving the namespace -/
def leavingB (s : St) (n : Bytes) : Bool := s.asks.any fun a => !a.done && (match a.cont with
  | .disconnect _ msg => msg.ns == n
  | _ => false)

theorem leavingB_iff {c : St} {n : Bytes} : leavingB c n = true ↔ Leaving c n := by
  simp only [leavingB, List.any_eq_true, Bool.and_eq_true, Bool.not_eq_true']
  constructor
  · rintro ⟨a, h1, h2, h3⟩
    split at h3
    · rename_i obj msg hk
      exact ⟨a, h1, h2, obj, msg, hk, by simpa using h3⟩
    · cases h3
  · rintro ⟨a, h1, h2, obj, msg, h3, h4⟩
    exact ⟨a, h1, h2, by rw [h3]; simpa using h4⟩

/-- the rule, as a test -/
def ruledOk (s : Sess) : SessOp → Bool
  | .client (.write m) => !leavingB s.c m.ns
  | .server (.write m) => !leavingB s.d m.ns
  | _ => true

/-- run the steps, checking the rules -/
def ruledRun (cc sc : Cfg) (s : Sess) : List SessOp → Option Sess
  | [] => some s
  | op :: ops =>
    if bothOk s op && ruledOk s op then
      match sstep cc sc s op with
      | some s' => ruledRun cc sc s' ops
      | none => none
    else none

theorem ruledOk_rules {s : Sess} {op : SessOp} (h1 : bothOk s op = true) (h2 : ruledOk s op = true) : RuledRequests s op := by
  refine ⟨bothOk_rules h1, ?_⟩
  split
  · simp only [ruledOk, Bool.not_eq_true'] at h2
    exact fun k => by rw [leavingB_iff.mpr k] at h2; cases h2
  · simp only [ruledOk, Bool.not_eq_true'] at h2
    exact fun k => by rw [leavingB_iff.mpr k] at h2; cases h2
  · trivial

theorem ruledRun_from {pre ops : List SessOp} {s s' : Sess} (h : RuledRun cc sc id pre s)
    (hr : ruledRun cc sc s ops = some s') : RuledRun cc sc id (pre ++ ops) s' := by
  induction ops generalizing pre s with
  | nil => simp only [ruledRun] at hr; cases hr; simpa using h
  | cons op ops ih =>
    simp only [ruledRun] at hr
    split at hr
    · rename_i hok
      simp only [Bool.and_eq_true] at hok
      have hru : RuledRequests s op := ruledOk_rules hok.1 hok.2
      cases ho : sstep cc sc s op with
      | none => rw [ho] at hr; cases hr
      | some s1 =>
        rw [ho] at hr
        simpa using ih (h.step hru ho) hr
    · cases hr

/-- the session after these steps -/
def ruledRan (cc sc : Cfg) (id : Bytes) (ops : List SessOp) : Sess :=
  (ruledRun cc sc (newSess cc sc id) ops).getD (newSess cc sc id)

theorem ruledRan_run {ops : List SessOp} (h : (ruledRun cc sc (newSess cc sc id) ops).isSome = true) :
    RuledRun cc sc id ops (ruledRan cc sc id ops) := by
  unfold ruledRan
  cases hx : ruledRun cc sc (newSess cc sc id) ops with
  | none => rw [hx] at h; cases h
  | some s' => exact ruledRun_from .init hx

theorem picky_still : StillSide pickyCli ∧ StillSide pickySrv := by
  have hn : ∀ (log : List Obs) (obj : Nat) (h : Bytes) (msg : Message), msg.wait = [] → (pickyCb log obj h msg).2 = none := by
    intro _ _ _ msg hw
    simp only [pickyCb]
    rw [if_neg (fun k => k.1 hw)]
  exact ⟨⟨fun _ _ _ _ => rfl, fun log obj h msg hw _ => hn log obj h msg hw, fun _ _ _ => rfl⟩,
    ⟨fun _ _ _ _ => rfl, fun log obj h msg hw _ => hn log obj h msg hw, fun _ _ _ => rfl⟩⟩

/-- each side has connected to a namespace, the client to `chat` and the server to `game`; then the server disconnects `chat` and joins
a room of `game`, the client connects to `quiz`, which is refused, and joins a room of `game`, the server emits in `game` and the client in
both; nothing of this has been read -/
def crossSess : List SessOp :=
  dialOps ++ [.client (.connect (b! "chat") 7 false), .server (.connect (b! "game") 7 false),
    .up, .down, .down, .up, .client (.resume 0), .server (.resume 0),
    .server (.disconnect 1 9 false), .server (.join 0 (b! "r") 10 false), .client (.connect (b! "quiz") 9 false),
    .client (.join 1 (b! "k") 10 false), .server (.write { ns := b! "game", event := b! "hi", body := b! "x" }),
    .client (.write { ns := b! "chat", event := b! "hi", body := b! "y" }),
    .client (.write { ns := b! "game", event := b! "hi", body := b! "z" })]

abbrev crossed : Sess := ruledRan pickyCli pickySrv (b! "u1") crossSess

/-- one schedule of what is left -/
def crossEnd : List SessOp :=
  [.down, .up, .up, .down, .down, .up, .down, .client (.resume 1), .up, .up, .server (.resume 1), .down, .up, .client (.resume 2), .server (.resume 2)]

/-- C93: the hypotheses hold; two calls of each side return with one schedule, whose length is within the bound, and the session stands still -/
example : BothConsistent pickyCli pickySrv ∧ StillSide pickyCli ∧ StillSide pickySrv ∧
    RuledRun pickyCli pickySrv (b! "u1") crossSess crossed ∧ Open crossed ∧ (∀ op ∈ crossEnd, SettlingBoth op) ∧
    crossed.c.asks.map (·.done) = [true, false, false] ∧ crossed.d.asks.map (·.done) = [true, false, false] ∧
    workBoth pickyCli pickySrv crossed = 26 ∧ crossEnd.length = 15 ∧
    (srun pickyCli pickySrv crossed crossEnd).map (fun s => (s.c.asks.map (·.done), s.d.asks.map (·.done), workBoth pickyCli pickySrv s)) =
      some ([true, true, true], [true, true, true], 0) :=
  ⟨picky_consistent, picky_still.1, picky_still.2, ruledRan_run (by decide +kernel), ⟨by decide +kernel, by decide +kernel, by decide +kernel⟩,
    (by simp [crossEnd, SettlingBoth]), by decide +kernel, by decide +kernel, by decide +kernel, by decide +kernel, by decide +kernel⟩

/-- the server accepts the client's Connect to `chat` and emits there at once: the client's reader holds the event back -/
def earlyBoth : List SessOp :=
  dialOps ++ [.client (.connect (b! "chat") 7 false), .up, .server (.write { ns := b! "chat", event := b! "hi", body := b! "x" }), .down, .down]

abbrev earlyRan : Sess := ruledRan pickyCli pickySrv (b! "u1") earlyBoth

/-- C93, not held: and the Connect has its answer, so that the reader goes on when it has returned -/
example : RuledRun pickyCli pickySrv (b! "u1") earlyBoth earlyRan ∧ Open earlyRan ∧
    (match earlyRan.c.rd with | .gate M => M.ns == b! "chat" | _ => false) = true ∧
    earlyRan.c.asks.map (fun a => (a.done, a.box.isSome)) = [(false, true)] ∧
    (srun pickyCli pickySrv earlyRan [.client (.resume 0), .client .wake]).map (fun s => (decide (s.c.rd = .idle), workBoth pickyCli pickySrv s)) =
      some (true, 0) :=
  ⟨ruledRan_run (by decide +kernel), ⟨by decide +kernel, by decide +kernel, by decide +kernel⟩, by decide +kernel, by decide +kernel, by decide +kernel⟩

/-- the session of `c90_refuted` breaks the rule, and only with its emit: the server is leaving `chat` then -/
example : Leaving (ruledRan pickyCli pickySrv (b! "u1") (waitSess.take (dialOps.length + 5))).d (b! "chat") ∧
    (ruledRun pickyCli pickySrv (newSess pickyCli pickySrv (b! "u1")) (waitSess.take (dialOps.length + 5))).isSome = true ∧
    waitSess[dialOps.length + 5]? = some (.server (.write { ns := b! "chat", event := b! "hi", body := b! "x" })) :=
  ⟨leavingB_iff.mp (by decide +kernel), by decide +kernel, rfl⟩

end Neffos
