import Verif.Proofs.ServerLoop
import Verif.Spec.ServerLoop
/-! C35, C36, C43 and C45: the server's loop. -/
set_option autoImplicit false
namespace Neffos
open Spec

variable {cfg : LCfg} {s s' : LSt}

def lafter (cfg : LCfg) (ops : List LOp) : LSt := (LSt.run cfg {} ops).getD {}

theorem lafter_reach {ops : List LOp} (h : (LSt.run cfg {} ops).isSome = true) : LReach cfg (lafter cfg ops) := by
  obtain ⟨s, hs⟩ := Option.isSome_iff_exists.mp h
  exact ⟨ops, by rw [lafter, hs]; rfl⟩

theorem registered_snoc {c : Nat} {l : List LEv} {e : LEv} :
    registered c (l ++ [e]) = if e = .reg c then true else if e = .drop c then false else registered c l := by
  simp [registered, List.foldl_append]

theorem due_fst {c : Nat} (l a : List LEv) (b : List Nat) :
    (l.foldl (fun (p : List LEv × List Nat) e =>
      (p.1 ++ [e], match e with
        | .served k => if registered c p.1 then p.2 ++ [k] else p.2
        | _ => p.2)) (a, b)).1 = a ++ l := by
  induction l generalizing a b with
  | nil => simp
  | cons e l ih => rw [List.foldl_cons, ih]; simp

theorem due_snoc {c : Nat} {l : List LEv} {e : LEv} :
    due c (l ++ [e]) = match e with
      | .served k => if registered c l then due c l ++ [k] else due c l
      | _ => due c l := by
  have := due_fst (c := c) l [] []
  unfold due
  rw [List.foldl_append]
  generalize List.foldl _ ([], []) l = p at this ⊢
  rw [List.nil_append] at this
  cases e <;> simp [this]

theorem offered_snoc {c : Nat} {l : List LEv} {e : LEv} :
    offered c (l ++ [e]) = match e with
      | .offered d k => if d = c then offered c l ++ [k] else offered c l
      | _ => offered c l := by
  simp only [offered, List.filterMap_append]
  cases e <;> simp
  split <;> simp [*]

/-- the call still to be offered to `c` -/
def LoopPc.pend (l : LoopPc) (c : Nat) : List Nat :=
  match l.call with
  | some k => if c ∈ l.rest then [k] else []
  | none => []

structure LDue (s : LSt) (c : Nat) : Prop where
  reg : registered c s.log = true ↔ c ∈ s.regs
  due : due c s.log = offered c s.log ++ s.loop.pend c

theorem ldue_log {t : LSt} {c : Nat} {e : LEv} (h : LDue s c) (hl : t.log = s.log ++ [e])
    (hr : e ≠ .reg c) (hd : e ≠ .drop c) (hk : ∀ k, e ≠ .served k) (ho : ∀ k, e ≠ .offered c k) (hg : c ∈ t.regs ↔ c ∈ s.regs)
    (hp : t.loop.pend c = s.loop.pend c) : LDue t c := by
  constructor
  · rw [hl, registered_snoc, if_neg hr, if_neg hd, hg]; exact h.reg
  · rw [hl, due_snoc, offered_snoc, hp]
    cases e
    case served k => exact absurd rfl (hk k)
    case offered d k =>
      have : d ≠ c := by intro e; subst e; exact ho k rfl
      simp only [this, if_false]; exact h.due
    all_goals exact h.due

theorem ldue_keep {t : LSt} {c : Nat} (h : LDue s c) (hl : t.log = s.log) (hg : t.regs = s.regs)
    (hp : t.loop.pend c = s.loop.pend c) : LDue t c :=
  ⟨by rw [hl, hg]; exact h.reg, by rw [hl, hp]; exact h.due⟩

theorem ldue_visit {t : LSt} {c d k : Nat} {rest : List Nat} (h : LDue s c) (hk : s.loop.call = some k)
    (hr : s.loop.rest = d :: rest) (hn : d ∉ rest) (hl : t.log = s.log ++ [.offered d k]) (hg : t.regs = s.regs)
    (hk' : t.loop.call = some k) (hr' : t.loop.rest = rest) : LDue t c := by
  constructor
  · rw [hl, hg, registered_snoc, if_neg (by simp), if_neg (by simp)]; exact h.reg
  · rw [hl, due_snoc, offered_snoc]
    show due c s.log = _
    rw [h.due]
    by_cases e : d = c
    · subst e
      simp [LoopPc.pend, hk, hr, hk', hr', hn]
    · simp [LoopPc.pend, hk, hr, hk', hr', e, Ne.symm e]

theorem rest_nodup {d : Nat} {rest : List Nat} (hpl : s.Placed) (hr : s.loop.rest = d :: rest) : d ∉ rest := by
  have h0 := (hpl d).rest
  have h1 := (hpl d).sent; have h2 := (hpl d).reg; have := b01_le ((s.conn d).up = .sent)
  rw [hr, List.count_cons_self] at h0
  intro hm
  have h3 := List.count_pos_iff.mpr hm
  omega

theorem ldue_step {op : LOp} {c : Nat} (hpl : s.Placed) (h : LDue s c) (hx : LNext cfg s op s') : LDue s' c := by
  cases hx
  case recvConnect d hl hb =>
    by_cases e : d = c
    · subst e
      refine ⟨by simp [registered_snoc], ?_⟩
      simp only [due_snoc, offered_snoc, h.due, hl]
      rfl
    · exact ldue_log h rfl (by simpa using e) (by simp) (by simp) (by simp) (by simp [Ne.symm e]) (by rw [hl]; rfl)
  case recvDrop d x hl hc hd hr =>
    by_cases e : d = c
    · subst e
      have hn : d ∉ s.regs.erase d := by
        have h1 := (hpl d).sent; have h2 := (hpl d).reg; have := b01_le ((s.conn d).up = .sent)
        intro hm
        have h3 := List.count_pos_iff.mpr hm
        rw [List.count_erase_self] at h3
        omega
      refine ⟨by simp [registered_snoc, hn], ?_⟩
      simp only [due_snoc, offered_snoc, h.due, hl]
      rfl
    · refine ldue_log h rfl (by simp) (by simpa using e) (by simp) (by simp) ?_ (by rw [hl]; rfl)
      show c ∈ s.regs.erase d ↔ _
      rw [List.mem_erase_of_ne (Ne.symm e)]
  case recvIgnore d x hl hc hd hr => exact ldue_log h rfl (by simp) (by simp) (by simp) (by simp) Iff.rfl rfl
  case recvCast k x order hl hk hp ho _ =>
    refine ⟨by simpa [registered_snoc] using h.reg, ?_⟩
    have hd := h.due
    rw [hl] at hd
    show due c (s.log ++ [.served k]) = offered c (s.log ++ [.served k]) ++ if c ∈ order then [k] else []
    simp only [due_snoc, offered_snoc, hd]
    by_cases hc : c ∈ s.regs
    · rw [if_pos (h.reg.mpr hc), if_pos (ho.mem_iff.mpr hc)]
      simp [LoopPc.pend, LoopPc.call]
    · rw [if_neg (fun e => hc (h.reg.mp e)), if_neg (fun e => hc (ho.mem_iff.mp e))]
      simp [LoopPc.pend, LoopPc.call]
  case recvAct k x order hl hk hp ho _ =>
    refine ⟨by simpa [registered_snoc] using h.reg, ?_⟩
    have hd := h.due
    rw [hl] at hd
    show due c (s.log ++ [.served k]) = offered c (s.log ++ [.served k]) ++ if c ∈ order then [k] else []
    simp only [due_snoc, offered_snoc, hd]
    by_cases hc : c ∈ s.regs
    · rw [if_pos (h.reg.mpr hc), if_pos (ho.mem_iff.mpr hc)]
      simp [LoopPc.pend, LoopPc.call]
    · rw [if_neg (fun e => hc (h.reg.mp e)), if_neg (fun e => hc (ho.mem_iff.mp e))]
      simp [LoopPc.pend, LoopPc.call]
  case fireYes d x hl _ _ _ => exact ldue_log h rfl (by simp) (by simp) (by simp) (by simp) Iff.rfl (by rw [hl]; rfl)
  case exchYes d hl _ => exact ldue_log h rfl (by simp) (by simp) (by simp) (by simp) Iff.rfl (by rw [hl]; rfl)
  case castCons k d rest hl =>
    exact ldue_visit h (by rw [hl]; rfl) (by rw [hl]; rfl) (rest_nodup hpl (by rw [hl]; rfl)) rfl rfl rfl rfl
  case actShut k d rest x y hl _ _ _ _ =>
    exact ldue_visit h (by rw [hl]; rfl) (by rw [hl]; rfl) (rest_nodup hpl (by rw [hl]; rfl)) rfl rfl rfl rfl
  case actCons k d rest x y hl _ _ _ =>
    exact ldue_visit h (by rw [hl]; rfl) (by rw [hl]; rfl) (rest_nodup hpl (by rw [hl]; rfl)) rfl rfl rfl rfl
  case shut k d rest y hl _ => exact ldue_keep h rfl rfl (by rw [hl]; rfl)
  all_goals first
    | exact ldue_keep h rfl rfl rfl
    | (refine ldue_keep h rfl rfl ?_; simp [*, LoopPc.pend, LoopPc.call, LoopPc.rest]; done)

theorem lreach_due (hr : LReach cfg s) : ∀ c, LDue s c := by
  have : s.Placed ∧ ∀ c, LDue s c := by
    refine lreach_ind (P := fun s => s.Placed ∧ ∀ c, LDue s c) ⟨?_, fun c => ⟨by simp [registered], rfl⟩⟩
      (fun _ _ _ h hx => ⟨placed_step h.1 hx, fun c => ldue_step h.1 (h.2 c) hx⟩) hr
    exact fun c => by constructor <;> simp [LSt.conn, LoopPc.shuts, LoopPc.rest]
  exact this.2

theorem lreach_nodup (hr : LReach cfg s) : s.regs.Nodup := by
  rw [List.nodup_iff_count]
  intro c
  have h := lreach_placed hr c
  have h1 := h.sent; have h2 := h.reg; have := b01_le ((s.conn c).up = .sent)
  omega

/-! ## C35 -/

/-- C35: the counter is the number of registered connections, except within the two steps in which
the loop has changed the map and not yet the counter. -/
theorem c35_count (hr : LReach cfg s) :
    s.regs.Nodup ∧
    match s.loop with
    | .inc => s.count + 1 = BitVec.ofNat 64 s.regs.length
    | .dec _ => s.count = BitVec.ofNat 64 (s.regs.length + 1)
    | _ => s.count = BitVec.ofNat 64 s.regs.length := by
  refine ⟨lreach_nodup hr, ?_⟩
  have h := lreach_count hr
  cases hl : s.loop <;> rw [hl] at h <;> simp only [LoopPc.lag] at h <;> dsimp only
  case dec c =>
    rw [BitVec.ofNat_add, ← h, BitVec.add_assoc]
    show s.count = s.count + (BitVec.allOnes 64 + 1#64)
    have : BitVec.allOnes 64 + 1#64 = 0#64 := by decide
    rw [this, BitVec.add_zero]
  case inc => exact h
  all_goals simpa using h

/-- two connections, one of them dropped again -/
example : ∃ s, LReach {} s ∧ s.loop = .sel ∧ s.regs = [0] ∧ s.count = 1 := by
  refine ⟨lafter {} [.loop, .upgrade, .up 0, .upgrade, .up 1, .up 0, .recvConnect, .loop, .up 1, .recvConnect, .loop,
    .close 1, .closer 1, .recvDisc 1, .loop, .loop], lafter_reach (by decide +kernel), ?_, ?_, ?_⟩ <;> decide +kernel

/-- Nothing is under way: every `Upgrade` was refused or has registered its connection, and every
`Close` has been told to the loop. -/
structure Settled (s : LSt) : Prop where
  loop : s.loop = .sel
  buf : s.buf = none
  conns : ∀ c, ((s.conn c).up = .check ∨ (s.conn c).up = .refused ∨ (s.conn c).up = .sent) ∧
    ((s.conn c).cl = .open ∨ (s.conn c).cl = .told) ∧ (s.conn c).disc ≠ .sending

/-- C35, partial: when everything is settled the registered connections are the open ones, and
those whose disconnection the loop received before their registration. -/
theorem c35_settled_partial (hr : LReach cfg s) (hs : Settled s) (c : Nat) :
    c ∈ s.regs ↔ (s.conn c).up = .sent ∧ ((s.conn c).cl = .open ∨ .ignored c ∈ s.log) := by
  have h := lreach_placed hr c
  have h1 := h.sent; have h2 := h.reg; have h3 := h.disc; have h4 := h.told
  obtain ⟨hu, hc, hd⟩ := hs.conns c
  rw [hs.buf] at h1
  simp only [reduceCtorEq, b01_false, Nat.zero_add] at h1
  rw [← List.count_pos_iff, ← List.count_pos_iff (a := LEv.ignored c)]
  by_cases e : (s.conn c).up = .sent
  · rw [b01_pos e] at h1
    rcases hc with hc | hc
    · have : (s.conn c).disc = .none := h4.mpr (by simp [hc])
      rw [this] at h3
      simp only [reduceCtorEq, b01_false] at h3
      simp only [e, hc, true_and, true_or, iff_true]
      omega
    · have : (s.conn c).disc = .served := by
        cases hx : (s.conn c).disc
        · exact absurd hc (h4.mp hx)
        · exact absurd hx hd
        · rfl
      rw [b01_pos this] at h3
      simp only [e, hc, true_and, reduceCtorEq, false_or]
      omega
  · rw [b01_neg e] at h1
    simp only [e, false_and, iff_false]
    omega

theorem served_told {c : Nat} (hr : LReach cfg s) (hd : (s.conn c).disc = .served) : (s.conn c).cl = .told := by
  have := (lreach_placed hr c).told
  rw [hd] at this
  by_cases e : (s.conn c).cl = .told
  · exact e
  · have := this.mpr e; cases this

/-- C35 fails: a connection whose disconnection the loop received before its registration stays
registered for ever. -/
theorem c35_refuted_stuck {c : Nat} {ops : List LOp} (hr : LReach cfg s) (hc : c ∈ s.regs)
    (hd : (s.conn c).disc = .served) (hx : s.run cfg ops = some s') : (s'.conn c).cl = .told ∧ c ∈ s'.regs := by
  have := lrun_placed (P := fun t => c ∈ t.regs ∧ (t.conn c).disc = .served ∧ (t.conn c).cl = .told)
    (fun t op t' hr ⟨h1, h2, h3⟩ hx => ?_) hr ⟨hc, hd, served_told hr hd⟩ hx
  · exact ⟨this.2.2, this.1⟩
  · refine ⟨?_, cnext_served (cnext_of (lreach_placed hr) hx c) h2 h3⟩
    rcases regs_next hx h1 with h | ⟨h, _⟩
    · exact h
    · rw [h2] at h; cases h

/-- a client connects and goes away at once; the loop finds the connection in `connect` and in
`disconnect` and happens to take the latter first -/
def leakOps : List LOp :=
  [.loop, .upgrade, .up 0, .up 0, .unwait 0 true, .close 0, .closer 0, .recvDisc 0, .recvConnect, .loop]

/-- C35 fails: everything is settled, a closed connection is registered and counted, and will be
whatever happens. -/
theorem c35_refuted : ∃ s, LReach {} s ∧ Settled s ∧ (s.conn 0).cl = .told ∧ 0 ∈ s.regs ∧ s.count = 1 ∧
    ∀ ops s', s.run {} ops = some s' → (s'.conn 0).cl = .told ∧ 0 ∈ s'.regs := by
  have hr : LReach {} (lafter {} leakOps) := lafter_reach (by decide +kernel)
  have h0 : (lafter {} leakOps).regs = [0] := by decide +kernel
  have h1 : (lafter {} leakOps).conns = [{ up := .sent, cl := .told, disc := .served, ready := some true }] := by
    decide +kernel
  have h2 : (lafter {} leakOps).loop = .sel := by decide +kernel
  have h3 : (lafter {} leakOps).buf = none := by decide +kernel
  have h4 : (lafter {} leakOps).count = 1 := by decide +kernel
  generalize lafter {} leakOps = s at hr h0 h1 h2 h3 h4
  have hc : s.conn 0 = { up := .sent, cl := .told, disc := .served, ready := some true } := by simp [LSt.conn, h1]
  refine ⟨s, hr, ⟨h2, h3, fun c => ?_⟩, by rw [hc], by rw [h0]; simp, h4, fun ops s' hx => ?_⟩
  · match c with
    | 0 => rw [hc]; simp
    | c + 1 => simp [LSt.conn, h1]
  · exact c35_refuted_stuck hr (by rw [h0]; simp) (by rw [hc]) hx

/-- Whatever goroutine closes a connection, other than the loop, the connection is registered by then. -/
def closedLate (cfg : LCfg) : LSt → List LOp → Bool
  | _, [] => true
  | s, op :: ops =>
    (match op with
      | .close c => decide (c ∈ s.regs)
      | _ => true) &&
    (match s.step cfg op with
      | some s' => closedLate cfg s' ops
      | none => true)

theorem late_step {op : LOp} {c : Nat} (hr : LReach cfg s) (hx : LNext cfg s op s')
    (hl : op = .close c → c ∈ s.regs)
    (h : ((s.conn c).cl ≠ .open → c ∈ s.regs ∨ .drop c ∈ s.log) ∧ .ignored c ∉ s.log) :
    ((s'.conn c).cl ≠ .open → c ∈ s'.regs ∨ .drop c ∈ s'.log) ∧ .ignored c ∉ s'.log := by
  have hpl := lreach_placed hr
  have keep : ∀ {t : LSt}, t.conns = s.conns → t.regs = s.regs → (∃ l, t.log = s.log ++ l ∧ .ignored c ∉ l) →
      ((t.conn c).cl ≠ .open → c ∈ t.regs ∨ .drop c ∈ t.log) ∧ .ignored c ∉ t.log := by
    intro t h1 h2 ⟨l, h3, h4⟩
    rw [conn_same h1, h2, h3]
    refine ⟨fun e => (h.1 e).imp id (fun h => by simp [h]), by simp [h.2, h4]⟩
  have set : ∀ {t : LSt} {d : Nat} {x : LConn} (y : LConn), s.conns[d]? = some x → t.conns = s.conns.set d y →
      t.regs = s.regs → (∃ l, t.log = s.log ++ l ∧ .ignored c ∉ l) →
      (d = c → y.cl ≠ .open → x.cl ≠ .open ∨ c ∈ s.regs) →
      ((t.conn c).cl ≠ .open → c ∈ t.regs ∨ .drop c ∈ t.log) ∧ .ignored c ∉ t.log := by
    intro t d x y hd h1 h2 ⟨l, h3, h4⟩ h5
    rw [conn_set' hd h1, h2, h3]
    refine ⟨fun e => ?_, by simp [h.2, h4]⟩
    by_cases ed : c = d
    · subst ed
      rw [if_pos rfl] at e
      rcases h5 rfl e with h5 | h5
      · exact (h.1 (by rw [conn_of hd]; exact h5)).imp id (fun h => by simp [h])
      · exact .inl h5
    · rw [if_neg ed] at e
      exact (h.1 e).imp id (fun h => by simp [h])
  cases hx
  case upgrade => rw [conn_upgrade]; exact h
  case upRefuse h _ _ => exact set _ h rfl rfl ⟨[], by simp, by simp⟩ (fun _ e => .inl e)
  case upPass h _ _ => exact set _ h rfl rfl ⟨[], by simp, by simp⟩ (fun _ e => .inl e)
  case upSend h _ _ => exact set _ h rfl rfl ⟨[], by simp, by simp⟩ (fun _ e => .inl e)
  case unwait h _ => exact set _ h rfl rfl ⟨[], by simp, by simp⟩ (fun _ e => .inl e)
  case close h _ _ => exact set _ h rfl rfl ⟨[], by simp, by simp⟩ (fun e _ => .inr (hl (by rw [e])))
  case closer h ho => exact set _ h rfl rfl ⟨[], by simp, by simp⟩ (fun _ _ => .inl (by simp [ho]))
  case actShut k d rest x y hlp _ hd _ ho =>
    refine set _ hd rfl rfl ⟨_, rfl, by simp⟩ (fun e _ => .inr ?_)
    have := (hpl d).rest
    rw [hlp] at this
    simp only [LoopPc.rest, List.count_cons_self] at this
    exact e ▸ List.count_pos_iff.mp (by omega)
  case shut k d rest y hlp hd =>
    refine set _ hd rfl rfl ⟨[], by simp, by simp⟩ (fun e _ => .inl ?_)
    have := (hpl d).shuts
    rw [conn_of hd, hlp] at this
    rw [this.mp rfl]; simp
  case recvConnect d hlp hb =>
    exact ⟨fun e => (h.1 e).imp (fun h => List.mem_cons_of_mem _ h) (fun h => by simp [h]), by simp [h.2]⟩
  case recvDrop d x hlp hd hs hr =>
    by_cases e : c = d
    · subst e
      exact ⟨fun _ => .inr (by simp), by simp [h.2]⟩
    · rw [conn_set' (y := { x with disc := .served }) hd rfl, if_neg e]
      exact ⟨fun e' => (h.1 e').imp (fun h => (List.mem_erase_of_ne e).mpr h) (fun h => by simp [h]), by simp [h.2]⟩
  case recvIgnore d x hlp hd hs hr' =>
    refine set _ hd rfl rfl ⟨_, rfl, ?_⟩ (fun e e' => .inl e')
    simp only [List.mem_singleton, LEv.ignored.injEq]
    intro e; subst e
    have h1 := (hpl c).told; have h2 := (hpl c).disc
    rw [conn_of hd, hs] at h1 h2
    have h3 : x.cl = .told := by
      by_cases e : x.cl = .told
      · exact e
      · have := h1.mpr e; cases this
    rcases h.1 (by rw [conn_of hd, h3]; simp) with h4 | h4
    · exact hr' h4
    · have := List.count_pos_iff.mpr h4
      simp only [reduceCtorEq, b01_false] at h2
      omega
  all_goals first
    | exact keep rfl rfl ⟨[], (List.append_nil _).symm, by simp⟩
    | exact keep rfl rfl ⟨_, rfl, by simp⟩

/-- C35, partial: if connections are closed only after the loop has registered them, then when everything
is settled the registered connections are the open ones. -/
theorem c35_late_partial {ops : List LOp} (hx : LSt.run cfg {} ops = some s) (hl : closedLate cfg {} ops = true)
    (hs : Settled s) (c : Nat) : c ∈ s.regs ↔ (s.conn c).up = .sent ∧ (s.conn c).cl = .open := by
  have key : ∀ (ops : List LOp) (t : LSt), LReach cfg t → closedLate cfg t ops = true → t.run cfg ops = some s →
      ((t.conn c).cl ≠ .open → c ∈ t.regs ∨ .drop c ∈ t.log) ∧ .ignored c ∉ t.log → .ignored c ∉ s.log := by
    intro ops
    induction ops with
    | nil => intro t _ _ h hi; cases h; exact hi.2
    | cons op ops ih =>
      intro t hr hl h hi
      simp only [LSt.run] at h
      split at h
      · rename_i t' ht
        simp only [closedLate, ht, Bool.and_eq_true] at hl
        exact ih t' (lreach_run (ops := [op]) hr (by simp [LSt.run, ht])) hl.2 h
          (late_step hr (lnext_of_step ht) (fun e => by subst e; simpa using hl.1) hi)
      · cases h
  have := key ops {} ⟨[], rfl⟩ hl hx ⟨by simp [LSt.conn], by simp⟩
  rw [c35_settled_partial ⟨ops, hx⟩ hs]
  simp [this]

/-- one connection is registered and closed, another one stays -/
def closeLateOps : List LOp :=
  [.loop, .upgrade, .up 0, .up 0, .recvConnect, .loop, .upgrade, .up 1, .up 1, .recvConnect, .loop, .unwait 0 false,
   .close 0, .closer 0, .recvDisc 0, .loop, .loop, .loop]

example : ∃ s, LSt.run {} {} closeLateOps = some s ∧ closedLate {} {} closeLateOps = true ∧ Settled s ∧ s.regs = [1] := by
  refine ⟨lafter {} closeLateOps, by decide +kernel, by decide +kernel, ?_, by decide +kernel⟩
  · have h1 : (lafter {} closeLateOps).conns = [{ up := .sent, cl := .told, disc := .served, ready := some false }, { up := .sent }] := by
      decide +kernel
    refine ⟨by decide +kernel, by decide +kernel, fun c => ?_⟩
    match c with
    | 0 => simp [LSt.conn, h1]
    | 1 => simp [LSt.conn, h1]
    | c + 2 => simp [LSt.conn, h1]

/-! ## C36 -/

theorem snoc_split {α : Type} {l l1 l2 : List α} {e x : α} (h : l ++ [e] = l1 ++ x :: l2) :
    (l = l1 ∧ e = x ∧ l2 = []) ∨ ∃ l3, l2 = l3 ++ [e] ∧ l = l1 ++ x :: l3 := by
  rcases List.eq_nil_or_concat l2 with h2 | ⟨l3, y, h2⟩
  · subst h2
    have := List.append_inj' h rfl
    exact .inl ⟨this.1, by simpa using this.2, rfl⟩
  · subst h2
    have h' : l ++ [e] = (l1 ++ x :: l3) ++ [y] := by simpa using h
    have := List.append_inj' h' rfl
    have e1 : e = y := by simpa using this.2
    exact .inr ⟨l3, by simp [e1], this.1⟩

/-- a step adds at most one event -/
theorem log_one {op : LOp} (hx : LNext cfg s op s') : s'.log = s.log ∨ ∃ e, s'.log = s.log ++ [e] := by
  cases hx <;> first | exact .inl rfl | exact .inr ⟨_, rfl⟩

theorem onDisc_step {op : LOp} {c : Nat} (hx : LNext cfg s op s') (h : s'.log = s.log ++ [.onDisc c]) :
    s.loop = .fire c ∧ cfg.onDisc = true ∧ (cfg.always = true ∨ (s.conn c).ready = some false) := by
  have no : ∀ (e : LEv), s.log ++ [e] = s.log ++ [.onDisc c] → e = .onDisc c := by
    intro e h; simpa using h
  have no' : s.log ≠ s.log ++ [LEv.onDisc c] := by simp
  cases hx
  case fireYes d x hl hd hc ha =>
    have := no _ h
    cases this
    rw [conn_of hd]
    exact ⟨hl, hc, ha⟩
  all_goals first
    | exact absurd h no'
    | (have := no _ h; cases this)

theorem drop_reg {c : Nat} (hr : LReach cfg s) (h : 0 < s.log.count (.drop c)) :
    .drop c ∈ s.log ∧ .reg c ∈ s.log ∧ c ∉ s.regs ∧ (s.conn c).disc = .served := by
  have hp := lreach_placed hr c
  have h1 := hp.sent; have h2 := hp.reg; have h3 := hp.disc; have := b01_le ((s.conn c).up = .sent)
  refine ⟨List.count_pos_iff.mp h, List.count_pos_iff.mp (by omega), ?_, ?_⟩
  · rw [← List.count_eq_zero]; omega
  · by_cases e : (s.conn c).disc = .served
    · exact e
    · rw [b01_neg e] at h3; omega

/-- C36: `OnDisconnect` is fired at most once per connection, and only after the loop registered and
removed it. -/
theorem c36_once (hr : LReach cfg s) (c : Nat) :
    s.log.count (.onDisc c) ≤ 1 ∧
    ∀ l1 l2, s.log = l1 ++ .onDisc c :: l2 → .reg c ∈ l1 ∧ .drop c ∈ l1 := by
  constructor
  · have h := lreach_placed hr c
    have h1 := h.sent; have h2 := h.reg; have h3 := h.onDisc; have := b01_le ((s.conn c).up = .sent)
    omega
  · obtain ⟨ops, hx⟩ := hr
    refine lrun_placed (P := fun s => ∀ l1 l2, s.log = l1 ++ .onDisc c :: l2 → .reg c ∈ l1 ∧ .drop c ∈ l1)
      (fun t op t' hr h hx l1 l2 hs => ?_) ⟨[], rfl⟩ (by simp) hx
    rcases log_one hx with e | ⟨e, he⟩
    · exact h l1 l2 (by rw [← e]; exact hs)
    · rw [he] at hs
      rcases snoc_split hs with ⟨h1, h2, _⟩ | ⟨l3, _, h3⟩
      · subst h1; subst h2
        have hl := (onDisc_step hx he).1
        have hp := (lreach_placed hr c).onDisc
        rw [b01_pos (.inr hl)] at hp
        have := drop_reg hr (c := c) (by omega)
        exact ⟨this.2.1, this.1⟩
      · exact h l1 l3 h3

/-- The connection is ready without error, or it does not matter. -/
def Fires (cfg : LCfg) (x : LConn) : Prop := cfg.always = true ∨ x.ready = some false

theorem fires_next {x y : LConn} (h : CNext x y) (hf : Fires cfg x) : Fires cfg y := by
  refine hf.imp id (fun h2 => ?_)
  cases h <;> simp_all

/-- C36: it is fired only if the callback is set and the connection is ready without error, or
FireDisconnectAlways is set. -/
theorem c36_only (hr : LReach cfg s) {c : Nat} (h : .onDisc c ∈ s.log) :
    cfg.onDisc = true ∧ (cfg.always = true ∨ (s.conn c).ready = some false) := by
  obtain ⟨ops, hx⟩ := hr
  refine lrun_placed (P := fun s => .onDisc c ∈ s.log →
      cfg.onDisc = true ∧ (cfg.always = true ∨ (s.conn c).ready = some false))
    (fun t op t' hr h hx hs => ?_) ⟨[], rfl⟩ (by simp) hx h
  have keep : cfg.onDisc = true ∧ (cfg.always = true ∨ (t.conn c).ready = some false) →
      cfg.onDisc = true ∧ (cfg.always = true ∨ (t'.conn c).ready = some false) := by
    rintro ⟨h1, h2⟩
    exact ⟨h1, fires_next (cnext_of (lreach_placed hr) hx c) h2⟩
  rcases log_one hx with e | ⟨e, he⟩
  · exact keep (h (by rw [← e]; exact hs))
  · rw [he] at hs
    rcases List.mem_append.mp hs with hs | hs
    · exact keep (h hs)
    · simp only [List.mem_singleton] at hs
      subst hs
      exact keep (onDisc_step hx he).2

theorem fired_step {op : LOp} {c : Nat} (hx : LNext cfg s op s') (hf : Fires cfg (s.conn c))
    (h : .drop c ∈ s.log →
      (cfg.onDisc = true → .onDisc c ∈ s.log ∨ s.loop = .dec c ∨ s.loop = .fire c) ∧
      (cfg.exch = true → .exchDisc c ∈ s.log ∨ s.loop = .dec c ∨ s.loop = .fire c ∨ s.loop = .exch c)) :
    .drop c ∈ s'.log →
      (cfg.onDisc = true → .onDisc c ∈ s'.log ∨ s'.loop = .dec c ∨ s'.loop = .fire c) ∧
      (cfg.exch = true → .exchDisc c ∈ s'.log ∨ s'.loop = .dec c ∨ s'.loop = .fire c ∨ s'.loop = .exch c) := by
  intro hd
  cases hx
  case recvDrop d x hl hd' hs hr' =>
    by_cases e : d = c
    · subst e; exact ⟨fun _ => .inr (.inl rfl), fun _ => .inr (.inl rfl)⟩
    · have : .drop c ∈ s.log := by simpa [Ne.symm e] using hd
      obtain ⟨h1, h2⟩ := h this
      rw [hl] at h1 h2
      exact ⟨fun e => .inl (by simpa using h1 e), fun e => .inl (by simpa using h2 e)⟩
  case fireSkip d x hl hd' h1 h2 h3 =>
    have hne : d ≠ c := by
      intro e; subst e
      rw [conn_of hd'] at hf
      rcases hf with hf | hf
      · rw [h2] at hf; cases hf
      · exact h3 hf
    obtain ⟨h1, h2⟩ := h hd
    rw [hl] at h1 h2
    exact ⟨fun e => .inl (by simpa [hne] using h1 e), fun e => .inl (by simpa [hne] using h2 e)⟩
  case fireYes d x hl hd' h1 h2 =>
    obtain ⟨h1, h2⟩ := h (by simpa using hd)
    by_cases e : d = c
    · subst e; exact ⟨fun _ => .inl (by simp), fun _ => .inr (.inr (.inr rfl))⟩
    · rw [hl] at h1 h2
      have h1' : cfg.onDisc = true → .onDisc c ∈ s.log := fun e' => by simpa [e] using h1 e'
      have h2' : cfg.exch = true → .exchDisc c ∈ s.log := fun e' => by simpa [e] using h2 e'
      exact ⟨fun e' => .inl (List.mem_append_left _ (h1' e')), fun e' => .inl (List.mem_append_left _ (h2' e'))⟩
  case fireNil d x hl hd' h0 =>
    have h2 := (h (by simpa using hd)).2
    refine ⟨(fun e' => by rw [h0] at e'; cases e'), fun e' => ?_⟩
    by_cases e : d = c
    · subst e; exact .inr (.inr (.inr rfl))
    · rw [hl] at h2
      exact .inl (by simpa [e] using h2 e')
  case exchYes d hl he =>
    obtain ⟨h1, h2⟩ := h (by simpa using hd)
    rw [hl] at h1 h2
    refine ⟨fun e' => .inl (List.mem_append_left _ (by simpa using h1 e')), fun e' => ?_⟩
    by_cases e : d = c
    · subst e; exact .inl (by simp)
    · exact .inl (List.mem_append_left _ (by simpa [e] using h2 e'))
  case exchNo d hl he =>
    have h1 := (h (by simpa using hd)).1
    rw [hl] at h1
    exact ⟨fun e' => .inl (by simpa using h1 e'), fun e' => by rw [he] at e'; cases e'⟩
  case dec d hl =>
    obtain ⟨h1, h2⟩ := h (by simpa using hd)
    rw [hl] at h1 h2
    refine ⟨fun e' => ?_, fun e' => ?_⟩
    · rcases h1 e' with h | h | h
      · exact .inl h
      · cases h; exact .inr (.inr rfl)
      · cases h
    · rcases h2 e' with h | h | h | h
      · exact .inl h
      · cases h; exact .inr (.inr (.inl rfl))
      · cases h
      · cases h
  all_goals
    obtain ⟨h1, h2⟩ := h (by simpa using hd)
    first
      | exact ⟨h1, h2⟩
      | (simp_all; done)

theorem exchDisc_cfg (hr : LReach cfg s) {c : Nat} (h : .exchDisc c ∈ s.log) : cfg.exch = true := by
  obtain ⟨ops, hx⟩ := hr
  refine lrun_placed (P := fun s => .exchDisc c ∈ s.log → cfg.exch = true) (fun t op t' hr h hx hs => ?_)
    ⟨[], rfl⟩ (by simp) hx h
  cases hx <;> first | assumption | exact h hs | exact h (by simpa using hs)

/-- C36: once a connection was removed that was ready without error before, or with FireDisconnectAlways,
`OnDisconnect` was fired, and the StackExchange was told, or the loop is about to do so. -/
theorem c36_fired {c : Nat} {ops : List LOp} (hr : LReach cfg s) (hn : .drop c ∉ s.log) (hf : Fires cfg (s.conn c))
    (hx : s.run cfg ops = some s') (hd : .drop c ∈ s'.log) (hl : s'.loop = .sel) :
    s'.log.count (.onDisc c) = (if cfg.onDisc then 1 else 0) ∧
    s'.log.count (.exchDisc c) = (if cfg.exch then 1 else 0) := by
  have hr' := lreach_run hr hx
  have hP := lrun_placed (P := fun t => Fires cfg (t.conn c) ∧ (.drop c ∈ t.log →
      (cfg.onDisc = true → .onDisc c ∈ t.log ∨ t.loop = .dec c ∨ t.loop = .fire c) ∧
      (cfg.exch = true → .exchDisc c ∈ t.log ∨ t.loop = .dec c ∨ t.loop = .fire c ∨ t.loop = .exch c)))
    (fun t op t' hr h hx => ⟨fires_next (cnext_of (lreach_placed hr) hx c) h.1, fired_step hx h.1 h.2⟩)
    hr ⟨hf, fun h => absurd h hn⟩ hx
  have hp := lreach_placed hr' c
  have h1 := hp.sent; have h2 := hp.reg; have h3 := hp.onDisc; have h4 := hp.exch
  have := b01_le ((s'.conn c).up = .sent)
  obtain ⟨h5, h6⟩ := hP.2 hd
  rw [hl] at h5 h6
  constructor
  · split
    · have := List.count_pos_iff.mpr (show .onDisc c ∈ s'.log by simpa using h5 ‹_›)
      omega
    · rw [List.count_eq_zero]
      exact fun h => absurd (c36_only hr' h).1 ‹_›
  · split
    · have := List.count_pos_iff.mpr (show .exchDisc c ∈ s'.log by simpa using h6 ‹_›)
      omega
    · rw [List.count_eq_zero]
      exact fun h => absurd (exchDisc_cfg hr' h) ‹_›

/-- After its removal a connection is never served again: what was not fired then never is. -/
theorem left_for_good {c : Nat} {ops : List LOp} (hr : LReach cfg s) (hd : .drop c ∈ s.log)
    (h1 : s.loop ≠ .dec c) (h2 : s.loop ≠ .fire c) (h3 : s.loop ≠ .exch c) (hx : s.run cfg ops = some s') :
    s'.log.count (.onDisc c) = s.log.count (.onDisc c) ∧
    s'.log.count (.exchDisc c) = s.log.count (.exchDisc c) := by
  have hP := lrun_placed (P := fun t => .drop c ∈ t.log ∧ t.loop ≠ .dec c ∧ t.loop ≠ .fire c ∧ t.loop ≠ .exch c ∧
      t.log.count (.onDisc c) = s.log.count (.onDisc c) ∧ t.log.count (.exchDisc c) = s.log.count (.exchDisc c))
    (fun t op t' hr ⟨hd, h1, h2, h3, h4, h5⟩ hx => ?_) hr ⟨hd, h1, h2, h3, rfl, rfl⟩ hx
  · exact hP.2.2.2.2
  · have hnot := (drop_reg hr (List.count_pos_iff.mpr hd)).2.2.1
    cases hx
    case recvDrop d x hl hd' hs hr' =>
      have : d ≠ c := by intro e; subst e; exact hnot hr'
      simp_all
    all_goals first
      | exact ⟨hd, h1, h2, h3, h4, h5⟩
      | (simp_all [List.count_append, List.count_cons]; done)
      | skip

/-- C36 is false for the StackExchange: a connection that is not ready when it is removed is not given to
`StackExchange.OnDisconnect`, now or later, because of the `continue` of server.go:184. -/
theorem c36_exch_refuted : ∃ (cfg : LCfg) (s : LSt), LReach cfg s ∧ cfg.exch = true ∧ .drop 0 ∈ s.log ∧
    s.loop = .sel ∧ ∀ ops s', s.run cfg ops = some s' → .exchDisc 0 ∉ s'.log := by
  let ops : List LOp := [.loop, .upgrade, .up 0, .up 0, .recvConnect, .loop, .unwait 0 true, .close 0, .closer 0,
    .recvDisc 0, .loop, .loop]
  have hr : LReach { exch := true } (lafter { exch := true } ops) := lafter_reach (by decide +kernel)
  have h1 : (lafter { exch := true } ops).log = [.reg 0, .drop 0] := by decide +kernel
  have h2 : (lafter { exch := true } ops).loop = .sel := by decide +kernel
  generalize lafter { exch := true } ops = s at hr h1 h2
  refine ⟨_, s, hr, rfl, by rw [h1]; simp, h2, fun ops s' hx => ?_⟩
  have := (left_for_good (c := 0) hr (by rw [h1]; simp) (by rw [h2]; simp) (by rw [h2]; simp) (by rw [h2]; simp) hx).2
  rw [h1] at this
  exact List.count_eq_zero.mp this

/-- C36, partial, StackExchange: it is told at most once, of removed connections only. -/
theorem c36_exch_partial (hr : LReach cfg s) (c : Nat) :
    s.log.count (.exchDisc c) ≤ s.log.count (.drop c) ∧ s.log.count (.drop c) ≤ 1 := by
  have h := lreach_placed hr c
  have h1 := h.sent; have h2 := h.reg; have h3 := h.exch; have := b01_le ((s.conn c).up = .sent)
  omega

/-- one connection ready, the other not: only the first is fired -/
example : ∃ s, LReach { exch := true } s ∧ s.loop = .sel ∧
    s.log = [.reg 0, .reg 1, .drop 0, .onDisc 0, .exchDisc 0, .drop 1] := by
  refine ⟨lafter { exch := true } [.loop, .upgrade, .up 0, .up 0, .recvConnect, .loop, .upgrade, .up 1, .up 1,
    .recvConnect, .loop, .unwait 0 false, .close 0, .closer 0, .recvDisc 0, .loop, .loop, .loop,
    .close 1, .closer 1, .recvDisc 1, .loop, .loop], lafter_reach (by decide +kernel), ?_, ?_⟩ <;> decide +kernel

/-! ## C43 -/

theorem due_append {c : Nat} (l : List LEv) (l' : List LEv) :
    ∃ x, due c (l ++ l') = due c l ++ x ∧ ∀ k, x.count k ≤ l'.count (.served k) := by
  induction l' generalizing l with
  | nil => exact ⟨[], by simp, by simp⟩
  | cons e l' ih =>
    obtain ⟨x, h1, h2⟩ := ih (l ++ [e])
    have h3 : l ++ e :: l' = l ++ [e] ++ l' := by simp
    rw [h3, h1, due_snoc]
    have plain : (∀ k, e ≠ .served k) → ∃ y, due c l ++ x = due c l ++ y ∧ ∀ k, y.count k ≤ (e :: l').count (.served k) :=
      fun hk => ⟨x, rfl, fun k => by rw [List.count_cons_of_ne (hk k)]; exact h2 k⟩
    cases e
    case served j =>
      dsimp only
      by_cases hc : registered c l = true
      · rw [if_pos hc]
        refine ⟨j :: x, by simp, fun k => ?_⟩
        have := h2 k
        by_cases e : j = k
        · subst e; simp only [List.count_cons_self]; omega
        · rw [List.count_cons_of_ne e, List.count_cons_of_ne (by simpa using e)]; exact this
      · rw [if_neg hc]
        refine ⟨x, rfl, fun k => ?_⟩
        have := h2 k
        rw [List.count_cons]
        omega
    all_goals exact plain (by simp)

theorem due_count (c k : Nat) (l : List LEv) : (due c l).count k ≤ l.count (.served k) := by
  obtain ⟨x, h1, h2⟩ := due_append (c := c) [] l
  have : due c l = x := by simpa [due] using h1
  rw [this]
  exact h2 k

theorem served_le (hr : LReach cfg s) (k : Nat) : s.log.count (.served k) ≤ 1 := by
  have h := lreach_called hr
  cases hk : s.calls[k]? with
  | none => rw [(h.absent k hk).2]; omega
  | some x => exact (h.each k x hk).once

/-- C43: what a connection was offered are the batches (and actions of `Do`) that the loop served while
it was registered, each exactly once, in the order in which they were served, except that it is still to be
offered the batch the loop is at. -/
theorem c43_offered (hr : LReach cfg s) (c : Nat) :
    due c s.log = offered c s.log ++ s.loop.pend c ∧ (due c s.log).Nodup ∧
    (s.loop = .sel → offered c s.log = due c s.log) := by
  have h := (lreach_due hr c).due
  refine ⟨h, ?_, fun hl => ?_⟩
  · rw [List.nodup_iff_count]
    exact fun k => Nat.le_trans (due_count c k s.log) (served_le hr k)
  · rw [h, hl]
    simp [LoopPc.pend, LoopPc.call]

/-- C43: a batch whose `Broadcast` returned before another `Broadcast` was called comes first, at every
connection. (The same is true of the actions of `Do`.) -/
theorem c43_order {j k c : Nat} {x : LCall} {ops : List LOp} {l1 l2 : List Nat} (hr : LReach cfg s)
    (hj : s.calls[j]? = some x) (hkd : x.kind ≠ .close) (hp : x.pc = .ret) (hk : s.calls.length ≤ k) (hx : s.run cfg ops = some s')
    (ho : offered c s'.log = l1 ++ k :: l2) : j ∉ l2 := by
  have hs := lreach_called hr
  have hr' := lreach_run hr hx
  have hj1 := (hs.each j x hj).ret hp hkd
  have hk0 := (hs.absent k (List.getElem?_eq_none hk)).2
  obtain ⟨l, hl⟩ := log_run hx
  obtain ⟨y, h1, h2⟩ := due_append (c := c) s.log l
  rw [← hl] at h1
  have hjl : l.count (.served j) = 0 := by
    have := served_le hr' j
    rw [hl, List.count_append] at this
    omega
  have hjy : j ∉ y := by
    rw [← List.count_eq_zero]
    have := h2 j
    omega
  have hkd : k ∉ due c s.log := by
    rw [← List.count_eq_zero]
    have := due_count c k s.log
    omega
  obtain ⟨hd, hn, _⟩ := c43_offered hr' c
  rw [ho, List.append_assoc, List.cons_append] at hd
  rw [hd] at h1 hn
  intro hm
  have hnd := List.nodup_append.mp hn
  rcases List.append_eq_append_iff.mp h1 with ⟨a, ha, hb⟩ | ⟨a, ha, hb⟩
  · -- `k` is within what came first
    cases a with
    | nil =>
      rw [List.nil_append] at hb
      exact hjy (by rw [← hb]; simp [hm])
    | cons z a =>
      rw [List.cons_append, List.cons.injEq] at hb
      exact hkd (by rw [ha, hb.1]; simp)
  · exact hjy (by rw [hb]; simp [hm])

/-- how many steps the loop needs to be at its `select` again -/
def LoopPc.far : LoopPc → Nat
  | .sel => 0
  | .boot | .inc | .exch _ | .done _ => 1
  | .fire _ => 2
  | .dec _ => 3
  | .cast _ r => r.length + 1
  | .act _ r => 2 * r.length + 2
  | .shut _ _ r => 2 * r.length + 3

theorem sent_some {c : Nat} (h : (s.conn c).up = .sent) : ∃ x, s.conns[c]? = some x := by
  cases e : s.conns[c]? with
  | none => simp [LSt.conn, e] at h
  | some x => exact ⟨x, rfl⟩

theorem drop_sent {c : Nat} (hpl : s.Placed) (h : 0 < s.log.count (.drop c)) : ∃ x, s.conns[c]? = some x := by
  have h1 := (hpl c).sent; have h2 := (hpl c).reg
  apply sent_some
  by_cases e : (s.conn c).up = .sent
  · exact e
  · rw [b01_neg e] at h1; omega

/-- the loop is never stuck away from its `select` -/
theorem loop_moves (hr : LReach cfg s) (hl : s.loop ≠ .sel) :
    ∃ s', s.step cfg .loop = some s' ∧ s'.loop.far < s.loop.far := by
  have hpl := lreach_placed hr
  have hca := lreach_called hr
  show ∃ s', s.loopStep cfg = some s' ∧ _
  unfold LSt.loopStep
  have call : ∀ {k}, s.loop.call = some k → ∃ x, s.calls[k]? = some x := by
    intro k h
    cases e : s.calls[k]? with
    | none => exact absurd h (hca.absent k e).1
    | some x => exact ⟨x, rfl⟩
  cases h : s.loop with
  | sel => exact absurd h hl
  | fire c =>
    have h0 := (hpl c).onDisc
    rw [b01_pos (.inr h)] at h0
    obtain ⟨x, hx⟩ := drop_sent hpl (c := c) (by omega)
    simp only [hx]
    split
    · split <;> exact ⟨_, rfl, by simp [LoopPc.far]⟩
    · exact ⟨_, rfl, by simp [LoopPc.far]⟩
  | cast k r => cases r <;> exact ⟨_, rfl, by simp [LoopPc.far]⟩
  | act k r =>
    obtain ⟨x, hx⟩ := call (k := k) (by rw [h]; rfl)
    cases r with
    | nil => simp only [hx]; refine ⟨_, rfl, ?_⟩; dsimp only; split <;> simp [LoopPc.far]
    | cons c r =>
      obtain ⟨y, hy⟩ := sent_some (rest_sent (d := c) hpl (by rw [h]; simp [LoopPc.rest]))
      simp only [hx, hy]
      split
      · exact ⟨_, rfl, by simp [LoopPc.far]; omega⟩
      · exact ⟨_, rfl, by simp [LoopPc.far]⟩
  | shut k c r =>
    have hs := (hpl c).shuts
    rw [h] at hs
    have hf := hs.mp rfl
    cases e : s.conns[c]? with
    | none => simp [LSt.conn, e] at hf
    | some y =>
      simp only [e]
      exact ⟨_, rfl, by simp [LoopPc.far]⟩
  | done k =>
    obtain ⟨x, hx⟩ := call (k := k) (by rw [h]; rfl)
    simp only [hx]
    rw [if_pos ((hca.each k x hx).done h).2.2]
    exact ⟨_, rfl, by simp [LoopPc.far]⟩
  | _ => exact ⟨_, rfl, by simp [LoopPc.far]⟩

theorem loop_returns (hr : LReach cfg s) :
    ∃ n s', s.run cfg (List.replicate n .loop) = some s' ∧ s'.loop = .sel := by
  generalize hn : s.loop.far = n
  induction n using Nat.strongRecOn generalizing s with
  | ind n ih =>
    by_cases hl : s.loop = .sel
    · exact ⟨0, s, rfl, hl⟩
    · obtain ⟨t, ht, hf⟩ := loop_moves hr hl
      have hrt : LReach cfg t := lreach_run (ops := [.loop]) hr (by simp [LSt.run, ht])
      obtain ⟨m, s', h1, h2⟩ := ih t.loop.far (by omega) hrt rfl
      exact ⟨m + 1, s', by simp only [List.replicate_succ, LSt.run, ht]; exact h1, h2⟩

theorem offered_mem {c k : Nat} {l : List LEv} (h : k ∈ offered c l) : .offered c k ∈ l := by
  unfold offered at h
  obtain ⟨e, h1, h2⟩ := List.mem_filterMap.mp h
  cases e
  case offered d j =>
    dsimp only at h2
    split at h2
    · cases h2; subst_vars; exact h1
    · cases h2
  all_goals cases h2

theorem loops_ind {P : LSt → Prop} (hs : ∀ t t', P t → LNext cfg t .loop t' → P t') {n : Nat} (h : P s)
    (hx : s.run cfg (List.replicate n .loop) = some s') : P s' := by
  induction n generalizing s with
  | zero => cases hx; exact h
  | succ n ih =>
    simp only [List.replicate_succ, LSt.run] at hx
    split at hx
    · exact ih (hs _ _ h (lnext_of_step ‹_›)) hx
    · cases hx

/-- by itself the loop changes neither the map nor a call that waits for it -/
theorem loops_keep {k n : Nat} {x : LCall} (hk : s.calls[k]? = some x) (hp : x.pc = .send)
    (hx : s.run cfg (List.replicate n .loop) = some s') : s'.calls[k]? = some x ∧ s'.regs = s.regs := by
  refine loops_ind (P := fun t => t.calls[k]? = some x ∧ t.regs = s.regs) (fun t t' h hx => ?_) ⟨hk, rfl⟩ hx
  cases hx
  case done j y hl hj hw =>
    refine ⟨?_, h.2⟩
    have : j ≠ k := by
      intro e; subst e
      rw [h.1] at hj; cases hj
      rw [hp] at hw; cases hw
    simp only [setK_calls]
    rw [List.getElem?_set_ne this]
    exact h.1
  all_goals exact h

/-- C43: no batch is lost. The loop always comes back to its `select`, there it can receive the batch of any
`Broadcast` that waits, in whatever order it then visits the connections, and when it is back again every
connection registered then was offered the batch. -/
theorem c43_no_loss {k : Nat} {x : LCall} (hr : LReach cfg s) (hk : s.calls[k]? = some x) (hp : x.pc = .send)
    (hc : x.kind = .cast) :
    ∃ n s1, s.run cfg (List.replicate n .loop) = some s1 ∧ s1.loop = .sel ∧
      ∀ order, order.isPerm s1.regs = true → ∃ m s2,
        s1.run cfg (.recvCall k order :: List.replicate m .loop) = some s2 ∧ s2.loop = .sel ∧
        s2.regs = s1.regs ∧ ∀ c ∈ s1.regs, k ∈ offered c s2.log := by
  obtain ⟨n, s1, h1, hl⟩ := loop_returns hr
  have hr1 := lreach_run hr h1
  obtain ⟨hk1, hg⟩ := loops_keep hk hp h1
  refine ⟨n, s1, h1, hl, fun order ho => ?_⟩
  have hs : s1.step cfg (.recvCall k order) = some
      { s1.setK k { x with pc := .ret } with loop := .cast k order, log := s1.log ++ [.served k] } := by
    simp [LSt.step, hl, LSt.recvStep, hk1, hp, ho, hc]
  generalize ht : ({ s1.setK k { x with pc := .ret } with loop := .cast k order, log := s1.log ++ [.served k] } : LSt) = t at hs
  have hrt : LReach cfg t := lreach_run (ops := [.recvCall k order]) hr1 (by simp [LSt.run, hs])
  have hgt : t.regs = s1.regs := by rw [← ht]; rfl
  have hlt : t.log = s1.log ++ [.served k] := by rw [← ht]
  obtain ⟨m, s2, h2, hl2⟩ := loop_returns hrt
  have hg2 : s2.regs = t.regs :=
    loops_ind (P := fun u => u.regs = t.regs) (fun u u' h hx => by cases hx <;> exact h) rfl h2
  refine ⟨m, s2, by simp only [LSt.run, hs]; exact h2, hl2, by rw [hg2, hgt], fun c hcr => ?_⟩
  rw [(c43_offered (lreach_run hrt h2) c).2.2 hl2]
  obtain ⟨l, hlog⟩ := log_run h2
  obtain ⟨y, hy, _⟩ := due_append (c := c) t.log l
  rw [hlog, hy, hlt, due_snoc]
  simp [(lreach_due hr1 c).reg.mpr hcr]

/-- two batches, the second called after the first returned -/
example : ∃ s, LReach {} s ∧ s.loop = .sel ∧ s.regs = [1, 0] ∧ offered 0 s.log = [0, 1] ∧ offered 1 s.log = [0, 1] := by
  refine ⟨lafter {} [.loop, .upgrade, .up 0, .up 0, .recvConnect, .loop, .upgrade, .up 1, .up 1, .recvConnect, .loop,
    .call .cast, .recvCall 0 [0, 1], .call .cast, .loop, .loop, .loop, .recvCall 1 [1, 0], .loop, .loop, .loop],
    lafter_reach (by decide +kernel), ?_, ?_, ?_, ?_⟩ <;> decide +kernel

/-! ## C45 -/

/-- once the loop runs nothing resets `closed` -/
theorem flag_step {op : LOp} (hx : LNext cfg s op s') (h : s.flag = true ∧ s.loop ≠ .boot) :
    s'.flag = true ∧ s'.loop ≠ .boot := by
  obtain ⟨h1, h2⟩ := h
  cases hx
  case boot hl => exact absurd hl h2
  case casWin => exact ⟨rfl, h2⟩
  all_goals first
    | exact ⟨h1, h2⟩
    | exact ⟨h1, by simp⟩

theorem up_set {t : LSt} {c d : Nat} {x y : LConn} (hd : s.conns[d]? = some x) (ht : t.conns = s.conns.set d y)
    (hu : y.up = x.up) : (t.conn c).up = (s.conn c).up := by
  rw [conn_set' hd ht]
  split
  · subst_vars; rw [conn_of hd]; exact hu
  · rfl

/-- what a step does to an `Upgrade` -/
theorem up_next {op : LOp} (hx : LNext cfg s op s') (c : Nat) :
    (s'.conn c).up = (s.conn c).up ∨
    ((s.conn c).up = .check ∧ (s'.conn c).up = if s.flag then .refused else .send) ∨
    ((s.conn c).up = .send ∧ (s'.conn c).up = .sent ∧ s.buf = none ∧ s'.buf = some c) := by
  cases hx
  case upgrade => rw [conn_upgrade]; exact .inl rfl
  case upRefuse d x hd hu hf =>
    rw [conn_set' (y := { x with up := .refused }) hd rfl]
    split
    · subst_vars; exact .inr (.inl ⟨by rw [conn_of hd]; exact hu, by simp [hf]⟩)
    · exact .inl rfl
  case upPass d x hd hu hf =>
    rw [conn_set' (y := { x with up := .send }) hd rfl]
    split
    · subst_vars; exact .inr (.inl ⟨by rw [conn_of hd]; exact hu, by simp [hf]⟩)
    · exact .inl rfl
  case upSend d x hd hu hb =>
    rw [conn_set' (y := { x with up := .sent }) hd rfl]
    split
    · subst_vars; exact .inr (.inr ⟨by rw [conn_of hd]; exact hu, rfl, hb, rfl⟩)
    · exact .inl rfl
  case unwait d x e hd hu => exact .inl (up_set (x := x) hd rfl rfl)
  case close d x hd hu ho => exact .inl (up_set (x := x) hd rfl rfl)
  case closer d x hd ho => exact .inl (up_set (x := x) hd rfl rfl)
  case actShut k d rest x y hl hk hd _ ho => exact .inl (up_set (x := y) hd rfl rfl)
  case shut k d rest y hl hd => exact .inl (up_set (x := y) hd rfl rfl)
  case recvDrop d x hl hd hs hr => exact .inl (up_set (x := x) hd rfl rfl)
  case recvIgnore d x hl hd hs hr => exact .inl (up_set (x := x) hd rfl rfl)
  all_goals exact .inl (congrArg LConn.up (conn_same (s := s) rfl))

/-- C45: after the server was closed, once its loop runs, it stays closed, and whatever `Upgrade` has not
passed its check by then is refused when it does the check. -/
theorem c45_refused_partial {ops : List LOp} (hr : LReach cfg s) (hf : s.flag = true) (hl : s.loop ≠ .boot)
    (hx : s.run cfg ops = some s') :
    s'.flag = true ∧ ∀ c, (s.conn c).up = .check →
      ((s'.conn c).up = .check ∨ (s'.conn c).up = .refused) ∧ c ∉ s'.regs := by
  have h := lrun_placed (P := fun t => (t.flag = true ∧ t.loop ≠ .boot) ∧
      ∀ c, (s.conn c).up = .check → (t.conn c).up = .check ∨ (t.conn c).up = .refused)
    (fun t op t' hr ⟨h1, h2⟩ hx => ⟨flag_step hx h1, fun c hc => ?_⟩) hr ⟨⟨hf, hl⟩, fun c hc => .inl hc⟩ hx
  · refine ⟨h.1.1, fun c hc => ⟨h.2 c hc, ?_⟩⟩
    have hp := lreach_placed (lreach_run hr hx) c
    have h1 := hp.sent; have h2 := hp.reg
    rw [b01_neg (p := (s'.conn c).up = .sent) (by rcases h.2 c hc with e | e <;> rw [e] <;> simp)] at h1
    rw [← List.count_eq_zero]
    omega
  · rcases h2 c hc with h2 | h2
    · rcases up_next hx c with e | ⟨_, e⟩ | ⟨e, _⟩
      · exact .inl (e.trans h2)
      · rw [h1.1] at e; exact .inr e
      · rw [h2] at e; cases e
    · exact .inr (cnext_refused (cnext_of (lreach_placed hr) hx c) h2)

/-- C45: a second `Close` does nothing: it is not served, and all it does is return. -/
theorem c45_second_partial {k : Nat} {ops : List LOp} (hr : LReach cfg s) (hf : s.flag = true) (hl : s.loop ≠ .boot)
    (hk : s.calls.length ≤ k) (hx : s.run cfg ops = some s') {x : LCall} (hk' : s'.calls[k]? = some x)
    (hc : x.kind = .close) :
    (x.pc = .cas ∨ x.pc = .ret) ∧ .served k ∉ s'.log ∧
    (x.pc = .cas → s'.step cfg (.caller k) = some (s'.setK k { x with pc := .ret })) := by
  have h := lrun_placed (P := fun t => (t.flag = true ∧ t.loop ≠ .boot) ∧
      ∀ x, t.calls[k]? = some x → x.kind = .close → x.pc = .cas ∨ x.pc = .ret ∧ .served k ∉ t.log)
    (fun t op t' hr ⟨h1, h2⟩ hx => ⟨flag_step hx h1, fun x hx1 hx2 => ?_⟩) hr
    ⟨⟨hf, hl⟩, fun x h => by rw [List.getElem?_eq_none hk] at h; cases h⟩ hx
  · have hb := (lreach_called (lreach_run hr hx)).each k x hk'
    refine ⟨(h.2 x hk' hc).imp id (·.1), ?_, fun hp => by simp [LSt.step, LSt.callerStep, hk', hp, h.1.1]⟩
    rcases h.2 x hk' hc with e | e
    · exact List.count_eq_zero.mp (hb.before (.inl e)).1
    · exact e.2
  · have put : ∀ {j : Nat} {y z : LCall} {x : LCall}, t.calls[j]? = some y → (t.calls.set j z)[k]? = some x →
        (j = k ∧ x = z) ∨ t.calls[k]? = some x := by
      intro j y z x h1 h2
      rw [List.getElem?_set] at h2
      split at h2
      · split at h2
        · cases h2; exact .inl ⟨‹_›, rfl⟩
        · cases h2
      · exact .inr h2
    cases hx
    case call kd =>
      have hx1 : (t.calls ++ [{ kind := kd, pc := if kd = .close then .cas else .send }])[k]? = some x := hx1
      rw [List.getElem?_append] at hx1
      split at hx1
      · exact h2 x hx1 hx2
      · rw [List.getElem?_singleton] at hx1
        split at hx1
        · cases hx1; dsimp only at hx2; subst hx2; exact .inl rfl
        · cases hx1
    case casFail j y hj hp hf' =>
      rcases put hj hx1 with ⟨rfl, rfl⟩ | h
      · exact .inr ⟨rfl, List.count_eq_zero.mp (((lreach_called hr).each j y hj).before (.inl hp)).1⟩
      · exact h2 x h hx2
    case casWin hf' => rw [h1.1] at hf'; cases hf'
    case done j y hl hj hp =>
      rcases put hj hx1 with ⟨rfl, rfl⟩ | h
      · rcases h2 y hj hx2 with e | e
        · rw [hp] at e; cases e
        · rw [hp] at e; cases e.1
      · exact h2 x h hx2
    case recvCast j y order hl hj hp ho hkd =>
      rcases put hj hx1 with ⟨rfl, rfl⟩ | h
      · dsimp only at hx2; rw [hkd] at hx2; cases hx2
      · have hjk : j ≠ k := by
          intro e; subst e
          rw [h] at hj; cases hj; rw [hkd] at hx2; cases hx2
        exact (h2 x h hx2).imp id (fun e => ⟨e.1, by simpa [Ne.symm hjk] using e.2⟩)
    case recvAct j y order hl hj hp ho hkd =>
      have hne : y.kind ≠ .close ∨ j ≠ k := by
        by_cases e : j = k
        · subst e
          refine .inl (fun e => ?_)
          rcases h2 y hj e with e | e
          · rw [hp] at e; cases e
          · rw [hp] at e; cases e.1
        · exact .inr e
      rcases put hj hx1 with ⟨rfl, rfl⟩ | h
      · exact absurd hx2 (hne.resolve_right (by simp))
      · have hjk : j ≠ k := by
          intro e; subst e
          rw [h] at hj; cases hj; exact (hne.resolve_right (by simp)) hx2
        exact (h2 x h hx2).imp id (fun e => ⟨e.1, by simpa [Ne.symm hjk] using e.2⟩)
    all_goals first
      | exact h2 x hx1 hx2
      | exact (h2 x hx1 hx2).imp id (fun e => ⟨e.1, by simpa using e.2⟩)

/-- a connection that a `Close` of the server visited is closed -/
def Shut (s : LSt) : Prop :=
  ∀ c k x, .offered c k ∈ s.log → s.calls[k]? = some x → x.kind = .close → (s.conn c).cl ≠ .open

/-- the kind of a call does not change -/
theorem kind_next {op : LOp} {k : Nat} {x : LCall} (hx : LNext cfg s op s') (h : s'.calls[k]? = some x) :
    (∃ y, s.calls[k]? = some y ∧ y.kind = x.kind) ∨ s.calls[k]? = none := by
  have put : ∀ {j : Nat} {y z : LCall}, s.calls[j]? = some y → (s.calls.set j z)[k]? = some x → z.kind = y.kind →
      ∃ y, s.calls[k]? = some y ∧ y.kind = x.kind := by
    intro j y z h1 h3 h2
    rw [List.getElem?_set] at h3
    split at h3
    · split at h3
      · cases h3; subst_vars; exact ⟨y, h1, h2.symm⟩
      · cases h3
    · exact ⟨x, h3, rfl⟩
  cases hx
  case call kd =>
    have h : (s.calls ++ [{ kind := kd, pc := if kd = .close then .cas else .send }])[k]? = some x := h
    rw [List.getElem?_append] at h
    split at h
    · exact .inl ⟨x, h, rfl⟩
    · exact .inr (List.getElem?_eq_none (by omega))
  case casFail hj _ _ => exact .inl (put hj h rfl)
  case casWin hj _ _ => exact .inl (put hj h rfl)
  case done hj _ => exact .inl (put hj h rfl)
  case recvCast hj _ _ _ => exact .inl (put hj h rfl)
  case recvAct hj _ _ _ => exact .inl (put hj h rfl)
  all_goals exact .inl ⟨x, h, rfl⟩

theorem call_next {op : LOp} {k : Nat} {z : LCall} (hx : LNext cfg s op s') (h : s.calls[k]? = some z) :
    ∃ z', s'.calls[k]? = some z' ∧ z'.kind = z.kind ∧
      (z'.pc = z.pc ∨ .served k ∈ s'.log ∨ z.pc ≠ .send) := by
  have hlen := (List.getElem?_eq_some_iff.mp h).1
  have put : ∀ {j : Nat} {y w : LCall} {t : LSt}, s.calls[j]? = some y → t.calls = s.calls.set j w → w.kind = y.kind →
      (j = k → .served k ∈ t.log ∨ y.pc ≠ .send) →
      ∃ z', t.calls[k]? = some z' ∧ z'.kind = z.kind ∧ (z'.pc = z.pc ∨ .served k ∈ t.log ∨ z.pc ≠ .send) := by
    intro j y w t h1 h2 h3 h4
    by_cases e : j = k
    · subst e
      rw [h] at h1; cases h1
      exact ⟨w, by rw [h2]; simp [hlen], h3, .inr (h4 rfl)⟩
    · exact ⟨z, by rw [h2, List.getElem?_set_ne e]; exact h, rfl, .inl rfl⟩
  cases hx
  case call kd =>
    exact ⟨z, by show (s.calls ++ _)[k]? = _; rw [List.getElem?_append_left hlen]; exact h, rfl, .inl rfl⟩
  case casFail hj hp _ => exact put hj rfl rfl (fun _ => .inr (by rw [hp]; simp))
  case casWin hj hp _ => exact put hj rfl rfl (fun _ => .inr (by rw [hp]; simp))
  case done hj hp => exact put hj rfl rfl (fun _ => .inr (by rw [hp]; simp))
  case recvCast hj _ _ _ => exact put hj rfl rfl (fun e => .inl (by subst e; simp))
  case recvAct hj _ _ _ => exact put hj rfl rfl (fun e => .inl (by subst e; simp))
  all_goals exact ⟨z, h, rfl, .inl rfl⟩

theorem offered_called {c k : Nat} (hr : LReach cfg s) (h : .offered c k ∈ s.log) : s.calls[k]? ≠ none := by
  obtain ⟨ops, hx⟩ := hr
  refine lrun_placed (P := fun s => .offered c k ∈ s.log → s.calls[k]? ≠ none) (fun t op t' hr ih hx hm => ?_)
    ⟨[], rfl⟩ (by simp) hx h
  have grows : t.calls[k]? ≠ none → t'.calls[k]? ≠ none := by
    have len : t.calls.length ≤ t'.calls.length := by cases hx <;> simp
    simp only [ne_eq, List.getElem?_eq_none_iff, Nat.not_le]
    omega
  have hca := lreach_called hr
  have at' : ∀ {j}, t.loop.call = some j → t.calls[j]? ≠ none := fun h e => (hca.absent _ e).1 h
  refine grows ?_
  cases hx
  case castCons j d rest hl =>
    rcases List.mem_append.mp hm with hm | hm
    · exact ih hm
    · simp at hm; rw [hm.2]; exact at' (by rw [hl]; rfl)
  case actShut j d rest x y hl hj _ _ _ =>
    rcases List.mem_append.mp hm with hm | hm
    · exact ih hm
    · simp at hm; rw [hm.2, hj]; simp
  case actCons j d rest x y hl hj _ _ =>
    rcases List.mem_append.mp hm with hm | hm
    · exact ih hm
    · simp at hm; rw [hm.2, hj]; simp
  all_goals first
    | exact ih hm
    | exact ih (by simpa using hm)

theorem lreach_shut (hr : LReach cfg s) : Shut s := by
  obtain ⟨ops, hx⟩ := hr
  refine lrun_placed (P := Shut) (fun t op t' hr ih hx c k x hm hk hkd => ?_) ⟨[], rfl⟩
    (fun c k x h => by simp at h) hx
  have old : .offered c k ∈ t.log → (t'.conn c).cl ≠ .open := by
    intro hm
    refine cnext_closed (cnext_of (lreach_placed hr) hx c) ?_
    rcases kind_next hx hk with ⟨y, hy, hyk⟩ | hn
    · exact ih c k y hm hy (hyk.trans hkd)
    · exact absurd hn (offered_called hr hm)
  cases hx
  case castCons j d rest hl =>
    rcases List.mem_append.mp hm with hm | hm
    · exact old hm
    · simp at hm
      rw [hm.2] at hk
      have := (((lreach_called hr).each j x hk).cast _ hl).1
      rw [hkd] at this; cases this
  case actShut j d rest x' y hl hj hd _ _ =>
    rcases List.mem_append.mp hm with hm | hm
    · exact old hm
    · simp at hm
      rw [conn_set' (y := { y with cl := .firing true }) hd rfl, if_pos hm.1]
      simp
  case actCons j d rest x' y hl hj hd hc =>
    rcases List.mem_append.mp hm with hm | hm
    · exact old hm
    · simp at hm
      rw [hm.2] at hk
      rw [hj] at hk; cases hk
      rw [hm.1]
      show (t.conn d).cl ≠ .open
      rw [conn_of hd]
      exact hc hkd
  all_goals first
    | exact old hm
    | exact old (by simpa using hm)

theorem close_ret {k : Nat} {x : LCall} (hr : LReach cfg s) (hk : s.calls[k]? = some x) (hc : x.kind = .close)
    (hp : x.pc = .ret) : s.loop.call ≠ some k := by
  have h := (lreach_called hr).each k x hk
  intro hl
  cases e : s.loop with
  | cast j r =>
    rw [e] at hl; cases hl
    rw [(h.cast _ e).1] at hc; cases hc
  | act j r =>
    rw [e] at hl; cases hl
    have := (h.act _ e).2
    rw [hc, hp] at this; cases this
  | shut j c r =>
    rw [e] at hl; cases hl
    have := (h.shut _ _ e).2
    rw [hp] at this; cases this
  | done j =>
    rw [e] at hl; cases hl
    have := (h.done e).2.2
    rw [hp] at this; cases this
  | _ => rw [e] at hl; cases hl

theorem due_closed {k c : Nat} {x : LCall} (hr : LReach cfg s) (hk : s.calls[k]? = some x) (hc : x.kind = .close)
    (hp : x.pc = .ret) (hd : k ∈ due c s.log) : (s.conn c).cl ≠ .open := by
  have hpend : k ∉ s.loop.pend c := by
    have := close_ret hr hk hc hp
    unfold LoopPc.pend
    intro hm
    split at hm
    · split at hm
      · simp at hm; subst hm; exact this ‹_›
      · simp at hm
    · simp at hm
  rw [(c43_offered hr c).1] at hd
  have := (List.mem_append.mp hd).resolve_right hpend
  exact lreach_shut hr c k x (offered_mem this) hk hc

/-- C45: when a `Server.Close` that was served has returned, every connection that was registered when the
loop received it is closed. -/
theorem c45_closed {k c : Nat} {x : LCall} {l1 l2 : List LEv} (hr : LReach cfg s) (hk : s.calls[k]? = some x)
    (hc : x.kind = .close) (hp : x.pc = .ret) (hs : s.log = l1 ++ .served k :: l2) (hg : registered c l1 = true) :
    (s.conn c).cl ≠ .open := by
  refine due_closed hr hk hc hp ?_
  obtain ⟨y, hy, _⟩ := due_append (c := c) (l1 ++ [.served k]) l2
  rw [hs, show l1 ++ .served k :: l2 = l1 ++ [.served k] ++ l2 by simp, hy, due_snoc]
  simp [hg]

/-- no `Upgrade` is between its check and the registration of its connection -/
def NoneMid (s : LSt) : Prop := s.buf = none ∧ ∀ c, (s.conn c).up ≠ .send

/-- C45, partial: if no `Upgrade` is between its check and the registration when `Server.Close` gets past its
compare-and-swap, and the loop runs, then no connection is open once it has returned. -/
theorem c45_all_partial {k : Nat} {x : LCall} {ops : List LOp} {t : LSt} (hr : LReach cfg s)
    (hk : s.calls[k]? = some x) (hc : x.kind = .close) (hp : x.pc = .cas) (hf : s.flag = false) (hl : s.loop ≠ .boot)
    (hm : NoneMid s) (ht : s.step cfg (.caller k) = some t) (hx : t.run cfg ops = some s') {y : LCall}
    (hy : s'.calls[k]? = some y) (hret : y.pc = .ret) :
    ∀ c, (s'.conn c).up = .sent → (s'.conn c).cl ≠ .open := by
  have hrt : LReach cfg t := lreach_run (ops := [.caller k]) hr (by simp [LSt.run, ht])
  have hr' := lreach_run hrt hx
  have ht' : t = { s.setK k { x with pc := .send } with flag := true } := by
    simpa [LSt.step, LSt.callerStep, hk, hp, hf] using ht.symm
  have hlen : k < s.calls.length := (List.getElem?_eq_some_iff.mp hk).1
  have h := lrun_placed (P := fun u => (u.flag = true ∧ u.loop ≠ .boot) ∧ NoneMid u ∧
      (∃ z, u.calls[k]? = some z ∧ z.kind = .close ∧ (z.pc = .send ∨ .served k ∈ u.log)) ∧
      (.served k ∈ u.log → ∀ c ∈ u.regs, k ∈ due c u.log))
    (fun u op u' hr ⟨h1, h2, h3, h4⟩ hx => ⟨flag_step hx h1, ?_, ?_, ?_⟩) hrt ?_ hx
  · obtain ⟨_, h2, ⟨z, hz, hzk, hz'⟩, h4⟩ := h
    rw [hy] at hz; cases hz
    have hs : .served k ∈ s'.log := hz'.resolve_left (by rw [hret]; simp)
    intro c hcs
    by_cases hg : c ∈ s'.regs
    · exact due_closed hr' hy hzk hret (h4 hs c hg)
    · have hpl := lreach_placed hr' c
      have e1 := hpl.sent; have e2 := hpl.reg
      rw [b01_pos hcs, b01_neg (by rw [h2.1]; simp)] at e1
      rw [List.count_eq_zero.mpr hg] at e2
      rw [served_told hr' (drop_reg hr' (c := c) (by omega)).2.2.2]
      simp
  · -- no connection gets there
    have hb : u'.buf = none := by
      cases hx
      case upSend d z hd hu hb => exact absurd (by rw [conn_of hd]; exact hu) (h2.2 d)
      all_goals first | exact h2.1 | rfl
    refine ⟨hb, fun c => ?_⟩
    rcases up_next hx c with e | ⟨_, e⟩ | ⟨_, e, _⟩
    · rw [e]; exact h2.2 c
    · rw [h1.1] at e; rw [e]; simp
    · rw [e]; simp
  · obtain ⟨z, hz, hzk, hz'⟩ := h3
    obtain ⟨z', a1, a2, a3⟩ := call_next hx hz
    refine ⟨z', a1, a2.trans hzk, ?_⟩
    rcases hz' with e | e
    · rcases a3 with a3 | a3 | a3
      · exact .inl (a3.trans e)
      · exact .inr a3
      · exact absurd e a3
    · obtain ⟨l, hl⟩ := log_next hx
      rw [hl]
      exact .inr (List.mem_append_left _ e)
  · intro hs c hc
    have serve : ∀ {j : Nat} {v : LSt}, v.log = u.log ++ [.served j] → v.regs = u.regs → .served k ∈ v.log →
        c ∈ v.regs → k ∈ due c v.log := by
      intro j v e1 e2 e3 e4
      rw [e2] at e4
      rw [e1, due_snoc]
      dsimp only
      rw [if_pos ((lreach_due hr c).reg.mpr e4)]
      rw [e1] at e3
      rcases List.mem_append.mp e3 with e3 | e3
      · exact List.mem_append_left _ (h4 e3 c e4)
      · simp at e3; simp [e3]
    have other : ∀ {e : LEv} {v : LSt}, v.log = u.log ++ [e] → (∀ j, e ≠ .served j) → (c ∈ v.regs → c ∈ u.regs) →
        .served k ∈ v.log → c ∈ v.regs → k ∈ due c v.log := by
      intro e v e1 e2 e3 e4 e5
      have : .served k ∈ u.log := by
        rw [e1] at e4
        rcases List.mem_append.mp e4 with e4 | e4
        · exact e4
        · exact absurd (List.mem_singleton.mp e4).symm (e2 k)
      rw [e1, due_snoc]
      have := h4 this c (e3 e5)
      cases e
      case served j => exact absurd rfl (e2 j)
      all_goals exact this
    cases hx
    case recvConnect d hl' hb => rw [h2.1] at hb; cases hb
    case recvDrop => exact other rfl (by simp) (fun h => List.mem_of_mem_erase h) hs hc
    case recvCast => exact serve rfl rfl hs hc
    case recvAct => exact serve rfl rfl hs hc
    all_goals first
      | exact h4 hs c hc
      | exact other rfl (by simp) id hs hc
  · rw [ht']
    refine ⟨⟨rfl, hl⟩, ⟨hm.1, fun c => ?_⟩, ⟨{ x with pc := .send }, by simp [hlen], hc, .inl rfl⟩, fun h => ?_⟩
    · have := hm.2 c
      rwa [← conn_same (t := { s.setK k { x with pc := .send } with flag := true }) (s := s) rfl] at this
    · have := ((lreach_called hr).each k x hk).before (.inl hp)
      exact absurd h (List.count_eq_zero.mp this.1)

/-- two connections, one of them already closing, and a `Close` that returns -/
example : ∃ s t s', LReach {} s ∧ s.calls = [{ kind := .close, pc := .cas }] ∧ s.flag = false ∧ s.loop = .sel ∧
    NoneMid s ∧ s.step {} (.caller 0) = some t ∧
    t.run {} [.recvCall 0 [0, 1], .loop, .loop, .loop, .loop, .loop] = some s' ∧
    s'.calls = [{ kind := .close, pc := .ret }] ∧ s'.regs = [1, 0] ∧
    s'.log = [.reg 0, .reg 1, .served 0, .offered 0 0, .offered 1 0] := by
  let ops : List LOp := [.loop, .upgrade, .up 0, .up 0, .recvConnect, .loop, .upgrade, .up 1, .up 1, .recvConnect, .loop,
    .close 1, .call .close]
  have hn : ∀ c, ((lafter {} ops).conn c).up ≠ .send
    | 0 => by decide +kernel
    | 1 => by decide +kernel
    | c + 2 => by
      have h : (lafter {} ops).conns.length = 2 := by decide +kernel
      simp [LSt.conn, List.getElem?_eq_none (l := (lafter {} ops).conns) (i := c + 2) (by omega)]
  refine ⟨lafter {} ops, lafter {} (ops ++ [.caller 0]),
    lafter {} (ops ++ [.caller 0, .recvCall 0 [0, 1], .loop, .loop, .loop, .loop, .loop]),
    lafter_reach (by decide +kernel), ?_, ?_, ?_, ⟨?_, hn⟩, ?_, ?_, ?_, ?_, ?_⟩ <;> decide +kernel

/-- C45 is false: a connection survives if its `Upgrade` passed the check before and reaches the loop
after `Server.Close`. -/
theorem c45_refuted_mid : ∃ s, LReach {} s ∧ s.flag = true ∧ s.calls = [{ kind := .close, pc := .ret }] ∧
    .served 0 ∈ s.log ∧ s.regs = [0] ∧ s.loop = .sel ∧ (s.conn 0).cl = .open := by
  refine ⟨lafter {} [.loop, .upgrade, .up 0, .call .close, .caller 0, .recvCall 0 [], .loop, .loop, .up 0, .recvConnect,
    .loop], lafter_reach (by decide +kernel), ?_, ?_, ?_, ?_, ?_, ?_⟩ <;> decide +kernel

/-- C45 is false: a `Server.Close` made before the loop's goroutine runs its first statement is undone by it,
server.go:168; an `Upgrade` called after that `Close` returned is not refused. -/
theorem c45_refuted_boot : ∃ s s', LReach {} s ∧ s.calls = [{ kind := .close, pc := .ret }] ∧ .served 0 ∈ s.log ∧
    s.flag = false ∧ s.conns = [] ∧ s.run {} [.upgrade, .up 0, .up 0, .recvConnect, .loop] = some s' ∧
    s'.regs = [0] ∧ (s'.conn 0).cl = .open := by
  let ops : List LOp := [.call .close, .caller 0, .loop, .recvCall 0 [], .loop, .loop]
  refine ⟨lafter {} ops, lafter {} (ops ++ [.upgrade, .up 0, .up 0, .recvConnect, .loop]),
    lafter_reach (by decide +kernel), ?_, ?_, ?_, ?_, ?_, ?_, ?_⟩ <;> decide +kernel

end Neffos
