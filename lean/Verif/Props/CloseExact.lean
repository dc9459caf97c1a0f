import Verif.Props.LeakExact
/-!
# C100: which connections survive `Server.Close`

Over the loop of the server (`Model/ServerLoop.lean`), for every interleaving of its goroutines.
-/
set_option autoImplicit false
set_option linter.unusedSimpArgs false
namespace Neffos
open Spec

variable {cfg : LCfg} {s s' : LSt}

namespace Survive

/-- the loop runs the action of a `Server.Close` and has still to visit the connection -/
def Doomed (s : LSt) (c : Nat) : Prop :=
  ∃ (k : Nat) (x : LCall), s.calls[k]? = some x ∧ x.kind = .close ∧
    ((∃ r, s.loop = .act k r ∧ c ∈ r) ∨ ∃ d r, s.loop = .shut k d r ∧ c ∈ r)

/-- a `Server.Close` has set `closed` and its action has still to be received -/
def Asked (s : LSt) : Prop := ∃ (k : Nat) (x : LCall), s.calls[k]? = some x ∧ x.kind = .close ∧ x.pc = .send

/-- `Server.Close` can still get to the connection -/
def Reached (s : LSt) (c : Nat) : Prop := s.flag = false ∨ s.loop = .boot ∨ Asked s ∨ Doomed s c

/-- whatever the server does, the connection is open until it is closed by itself -/
def ForEver (cfg : LCfg) (s : LSt) (c : Nat) : Prop :=
  ∀ ops s', .close c ∉ ops → s.run cfg ops = some s' → (s'.conn c).cl = .open

theorem run_avoid {P : LSt → Prop} {ops : List LOp} 
    (hs : ∀ t op t', op ∈ ops → LReach cfg t → P t → LNext cfg t op t' → P t') (hr : LReach cfg s) (h : P s)
    (hx : s.run cfg ops = some s') : P s' := by
  induction ops generalizing s with
  | nil => cases hx; exact h
  | cons op ops ih =>
    have hx0 := hx
    simp only [LSt.run] at hx
    split at hx
    · rename_i t ht
      refine ih (fun t op t' ho => hs t op t' (List.mem_cons_of_mem _ ho)) (lreach_run (ops := [op]) hr (by simp [LSt.run, ht]))
        (hs _ _ _ List.mem_cons_self hr h (lnext_of_step ht)) hx
    · cases hx

/-- an open connection is closed by itself or by the loop -/
theorem cl_step {op : LOp} {c : Nat} (hr : LReach cfg s) (hx : LNext cfg s op s') (ho : (s.conn c).cl = .open) :
    (s'.conn c).cl = .open ∨ op = .close c ∨ (op = .loop ∧ Doomed s c) := by
  have put : ∀ {d : Nat} {x y : LConn} {t : LSt}, s.conns[d]? = some x → t.conns = s.conns.set d y →
      (d = c → y.cl = .open) → (t.conn c).cl = .open := by
    intro d x y t h1 h2 h3
    rw [conn_set' h1 h2]
    split
    · exact h3 (by simp_all)
    · exact ho
  cases hx
  case upgrade => exact .inl (by rw [conn_upgrade]; exact ho)
  case upRefuse d x hd _ _ => exact .inl (put (y := { x with up := .refused }) hd rfl (fun e => by subst e; rw [conn_of hd] at ho; exact ho))
  case upPass d x hd _ _ => exact .inl (put (y := { x with up := .send }) hd rfl (fun e => by subst e; rw [conn_of hd] at ho; exact ho))
  case upSend d x hd _ _ => exact .inl (put (y := { x with up := .sent }) hd rfl (fun e => by subst e; rw [conn_of hd] at ho; exact ho))
  case unwait d x e hd _ =>
    exact .inl (put (y := { x with ready := if x.ready = none then some e else x.ready }) hd rfl
      (fun e => by subst e; rw [conn_of hd] at ho; exact ho))
  case close d x hd _ _ =>
    by_cases e : d = c
    · exact .inr (.inl (by rw [e]))
    · exact .inl (put (y := { x with cl := .firing false }) hd rfl (fun h => absurd h e))
  case closer d x hd hf =>
    exact .inl (put (y := { x with cl := .told, disc := .sending }) hd rfl
      (fun e => by subst e; rw [conn_of hd, hf] at ho; cases ho))
  case actShut k d rest x y hl hk hd hkind _ =>
    by_cases e : d = c
    · exact .inr (.inr ⟨rfl, k, x, hk, hkind, .inl ⟨_, hl, by simp [e]⟩⟩)
    · exact .inl (put (y := { y with cl := .firing true }) hd rfl (fun h => absurd h e))
  case shut k d rest y hl hd =>
    refine .inl (put (y := { y with cl := .told, disc := .sending }) hd rfl (fun e => ?_))
    have := (lreach_placed hr d).shuts.mp (by rw [hl]; rfl)
    subst e; rw [ho] at this; cases this
  case recvDrop d x hl hd _ _ =>
    exact .inl (put (y := { x with disc := .served }) hd rfl (fun e => by subst e; rw [conn_of hd] at ho; exact ho))
  case recvIgnore d x hl hd _ _ =>
    exact .inl (put (y := { x with disc := .served }) hd rfl (fun e => by subst e; rw [conn_of hd] at ho; exact ho))
  all_goals exact .inl (by rw [← ho]; exact congrArg LConn.cl (conn_same (s := s) rfl))

/-- the loop closes a connection it has to visit, or goes on -/
theorem doomed_loop {c : Nat} (hx : LNext cfg s .loop s') (h : Doomed s c) :
    (s'.conn c).cl ≠ .open ∨ Doomed s' c := by
  obtain ⟨k, x, hk, hkind, h⟩ := h
  cases hx
  case actShut k' d rest x' y hl hk' hd _ ho =>
    rcases h with ⟨r, e, hc⟩ | ⟨d', r, e, _⟩
    · rw [hl] at e; cases e
      rcases List.mem_cons.mp hc with e | e
      · subst e
        exact .inl (by rw [conn_set' (y := { y with cl := .firing true }) hd rfl, if_pos rfl]; simp)
      · exact .inr ⟨k, x, hk, hkind, .inr ⟨_, _, rfl, e⟩⟩
    · rw [hl] at e; cases e
  case actCons k' d rest x' y hl hk' hd hcl =>
    rcases h with ⟨r, e, hc⟩ | ⟨d', r, e, _⟩
    · rw [hl] at e; cases e
      rw [hk] at hk'; cases hk'
      rcases List.mem_cons.mp hc with e | e
      · subst e
        exact .inl (by rw [conn_same (s := s) (by rfl), conn_of hd]; exact hcl hkind)
      · exact .inr ⟨k, x, hk, hkind, .inl ⟨_, rfl, e⟩⟩
    · rw [hl] at e; cases e
  case shut k' d rest y hl hd =>
    rcases h with ⟨r, e, hc⟩ | ⟨d', r, e, hc⟩
    · rw [hl] at e; cases e
    · rw [hl] at e; cases e
      exact .inr ⟨k, x, hk, hkind, .inl ⟨_, rfl, hc⟩⟩
  all_goals
    rcases h with ⟨r, e, hc⟩ | ⟨d', r, e, hc⟩ <;> simp_all

theorem asked_step {op : LOp} (hx : LNext cfg s op s') (hf : s.flag = true) (h : Asked s') : Asked s := by
  obtain ⟨k, x, hk, hkind, hp⟩ := h
  cases hx <;> simp only [Asked, setC_calls, setK_calls] at hk ⊢ <;> grind

theorem asked_loop (hx : LNext cfg s .loop s') (h : Asked s) : Asked s' := by
  obtain ⟨k, x, hk, hkind, hp⟩ := h
  refine ⟨k, x, ?_, hkind, hp⟩
  cases hx <;> simp only [setC_calls, setK_calls] <;> grind

theorem asked_keep {op : LOp} (hx : LNext cfg s op s') (h : Asked s) :
    Asked s' ∨ ∃ (k : Nat) (x : LCall) (order : List Nat), op = .recvCall k order ∧ s'.calls[k]? = some x ∧
      x.kind = .close ∧ s'.loop = .act k order ∧ order.Perm s.regs := by
  obtain ⟨k, x, hk, hkind, hp⟩ := h
  have hlen := (List.getElem?_eq_some_iff.mp hk).1
  cases hx
  case recvAct j y order hl hj hpj ho hkj =>
    by_cases e : j = k
    · subst e
      rw [hk] at hj; cases hj
      exact .inr ⟨j, { x with pc := if x.kind.sync then .wait else .ret }, order, rfl, by simp [hlen], hkind, rfl, ho⟩
    · exact .inl ⟨k, x, by simp [List.getElem?_set, e, hk], hkind, hp⟩
  all_goals
    refine .inl ⟨k, x, ?_, hkind, hp⟩
    simp only [setC_calls, setK_calls]
    first
      | exact hk
      | exact (List.getElem?_append_left hlen).trans hk
      | (rw [List.getElem?_set_ne (by rintro rfl; grind)]; exact hk)

theorem doomed_step {op : LOp} {c : Nat} (hr : LReach cfg s) (hx : LNext cfg s op s') (hn : ¬Asked s)
    (h : Doomed s' c) : Doomed s c := by
  obtain ⟨k, x, hk, hkind, h⟩ := h
  have hca := lreach_called hr
  have hnx := kind_next hx hk
  have hold : ((∃ r, s.loop = .act k r ∧ c ∈ r) ∨ ∃ d r, s.loop = .shut k d r ∧ c ∈ r) → Doomed s c := by
    intro h
    have hc : s.loop.call = some k := by
      rcases h with ⟨r, e, _⟩ | ⟨d, r, e, _⟩ <;> rw [e] <;> rfl
    rcases hnx with ⟨y, hy, hy'⟩ | e
    · exact ⟨k, y, hy, hy'.trans hkind, h⟩
    · exact absurd hc (hca.absent k e).1
  cases hx
  case recvAct j y order hl hj hpj ho hkj =>
    rcases h with ⟨r, e, _⟩ | ⟨d, r, e, _⟩
    · cases e
      rcases hnx with ⟨z, hz, hz'⟩ | e
      · rw [hj] at hz; cases hz
        exact absurd ⟨_, _, hj, hz'.trans hkind, hpj⟩ hn
      · rw [hj] at e; cases e
    · cases e
  all_goals
    refine hold ?_
    simp only [setC_loop, setK_loop] at h
    first
      | exact h
      | (rcases h with ⟨r, e, hc⟩ | ⟨d, r, e, hc⟩ <;> cases e <;> grind)

/-- what `Server.Close` cannot get to, it never can -/
theorem safe_step {op : LOp} {c : Nat} (hr : LReach cfg s) (hx : LNext cfg s op s') (hop : op ≠ .close c)
    (h : (s.conn c).cl = .open ∧ ¬Reached s c) : (s'.conn c).cl = .open ∧ ¬Reached s' c := by
  obtain ⟨ho, hn⟩ := h
  have h1 : s.flag = true := by
    cases e : s.flag
    · exact absurd (.inl e) hn
    · rfl
  have h2 : s.loop ≠ .boot := fun e => hn (.inr (.inl e))
  have h3 : ¬Asked s := fun e => hn (.inr (.inr (.inl e)))
  have h4 : ¬Doomed s c := fun e => hn (.inr (.inr (.inr e)))
  refine ⟨?_, ?_⟩
  · rcases cl_step hr hx ho with h | h | h
    · exact h
    · exact absurd h hop
    · exact absurd h.2 h4
  · obtain ⟨h5, h6⟩ := flag_step hx ⟨h1, h2⟩
    rintro (h | h | h | h)
    · rw [h5] at h; cases h
    · exact h6 h
    · exact h3 (asked_step hx h1 h)
    · exact h4 (doomed_step hr hx h3 h)

/-- a connection the loop has to visit is closed when the loop is back at its `select` -/
theorem doomed_closed {c : Nat} (hr : LReach cfg s) (h : (s.conn c).cl ≠ .open ∨ Doomed s c) :
    ∃ n t, s.run cfg (List.replicate n .loop) = some t ∧ (t.conn c).cl ≠ .open := by
  obtain ⟨n, t, h1, hl⟩ := loop_returns hr
  refine ⟨n, t, h1, ?_⟩
  have := run_avoid (P := fun t => (t.conn c).cl ≠ .open ∨ Doomed t c) (fun t op t' ho hr h hx => ?_) hr h h1
  · rcases this with h | ⟨_, _, _, _, ⟨r, e, _⟩ | ⟨d, r, e, _⟩⟩
    · exact h
    · rw [hl] at e; cases e
    · rw [hl] at e; cases e
  · rcases List.mem_replicate.mp ho with ⟨_, rfl⟩
    rcases h with h | h
    · exact .inl (cnext_closed (cnext_of (lreach_placed hr) hx c) h)
    · exact doomed_loop hx h

/-- at the `select`, an open connection that was made can be registered -/
theorem can_register {c : Nat} (hr : LReach cfg s) (hl : s.loop = .sel) (hm : Made (s.conn c))
    (ho : (s.conn c).cl = .open) :
    ∃ ops t, (∀ d, .close d ∉ ops) ∧ s.run cfg ops = some t ∧ t.loop = .sel ∧ c ∈ t.regs ∧ t.flag = s.flag ∧
      t.calls = s.calls := by
  -- a connection in the buffer is registered
  have take : ∀ {u : LSt} {d : Nat}, u.loop = .sel → u.buf = some d →
      ∃ t, u.run cfg [.recvConnect, .loop] = some t ∧ t.loop = .sel ∧ t.buf = none ∧ t.regs = d :: u.regs ∧
        t.flag = u.flag ∧ t.calls = u.calls ∧ t.conns = u.conns := by
    intro u d h1 h2
    exact ⟨{ u with buf := none, regs := d :: u.regs, loop := .sel, log := u.log ++ [.reg d], count := u.count + 1 },
      by simp [LSt.run, LSt.step, h1, LSt.recvStep, h2, LSt.loopStep], rfl, rfl, rfl, rfl, rfl, rfl⟩
  rcases hm with hu | hu
  · -- the buffer is emptied and the connection put into it
    have hempty : ∃ ops t, (∀ d, .close d ∉ ops) ∧ s.run cfg ops = some t ∧ t.loop = .sel ∧ t.buf = none ∧
        t.flag = s.flag ∧ t.calls = s.calls ∧ t.conns = s.conns := by
      cases e : s.buf with
      | none => exact ⟨[], s, by simp, rfl, hl, e, rfl, rfl, rfl⟩
      | some d =>
        obtain ⟨t, h1, h2, h3, _, h4, h5, h6⟩ := take hl e
        exact ⟨_, t, by simp, h1, h2, h3, h4, h5, h6⟩
    obtain ⟨ops, t, hno, h1, h2, h3, h4, h5, h6⟩ := hempty
    have hc : t.conns[c]? = some (s.conn c) := by rw [h6]; exact made_some (.inl hu)
    let v : LSt := { t.setC c { s.conn c with up := .sent } with buf := some c }
    have hv : t.run cfg [.up c] = some v := by simp [LSt.run, LSt.step, LSt.upStep, hc, hu, h3, v]
    obtain ⟨w, g1, g2, g3, g4, g5, g6, _⟩ := take (u := v) (d := c) h2 rfl
    refine ⟨ops ++ ([.up c] ++ [.recvConnect, .loop]), w, fun d => by simp [hno d], ?_, g2, by simp [g4], g5.trans h4,
      g6.trans h5⟩
    rw [lrun_append h1, lrun_append hv, g1]
  · by_cases hb : s.buf = some c
    · obtain ⟨w, g1, g2, g3, g4, g5, g6, _⟩ := take hl hb
      exact ⟨_, w, by simp, g1, g2, by simp [g4], g5, g6⟩
    · refine ⟨[], s, by simp, rfl, hl, ?_, rfl, rfl⟩
      have hpl := lreach_placed hr c
      have h1 := hpl.sent; have h2 := hpl.reg; have h3 := hpl.disc; have h4 := hpl.told
      rw [b01_neg hb, b01_pos hu] at h1
      have h5 : (s.conn c).disc ≠ .served := by
        intro e
        have := served_told hr e
        rw [ho] at this; cases this
      rw [b01_neg h5] at h3
      exact List.count_pos_iff.mp (by omega)

/-- the loop receives the action of a `Server.Close` and has every registered connection to visit -/
theorem can_serve {k : Nat} {x : LCall} (hl : s.loop = .sel) (hk : s.calls[k]? = some x) (hc : x.kind = .close)
    (hp : x.pc = .send) :
    s.step cfg (.recvCall k s.regs) = some { s.setK k { x with pc := .wait } with
      loop := .act k s.regs, log := s.log ++ [.served k] } := by
  obtain ⟨kind, pc⟩ := x
  subst hc
  have : s.regs.isPerm s.regs = true := List.isPerm_iff.mpr (List.Perm.refl _)
  simp_all [LSt.step, LSt.recvStep, LKind.sync]

/-- a `Server.Close` can be made to set `closed` -/
theorem can_ask (hl : s.loop = .sel) (h : s.flag = false ∨ Asked s) :
    ∃ ops t, (∀ d, .close d ∉ ops) ∧ s.run cfg ops = some t ∧ t.loop = .sel ∧ t.regs = s.regs ∧ t.conns = s.conns ∧
      Asked t := by
  rcases h with h | h
  · refine ⟨[.call .close, .caller s.calls.length],
      { s with flag := true, calls := s.calls ++ [{ kind := .close, pc := .send }] }, by simp, ?_, hl, rfl, rfl,
      s.calls.length, { kind := .close, pc := .send }, by simp, rfl, rfl⟩
    simp [LSt.run, LSt.step, LSt.callerStep, h, LSt.setK]
  · exact ⟨[], s, by simp, rfl, hl, rfl, rfl, h⟩

/-- what `Server.Close` can get to, it can close -/
theorem can_close {c : Nat} (hr : LReach cfg s) (hm : Made (s.conn c)) (h : Reached s c) :
    ∃ ops t, (∀ d, .close d ∉ ops) ∧ s.run cfg ops = some t ∧ (t.conn c).cl ≠ .open := by
  obtain ⟨n, t, h1, hl⟩ := loop_returns hr
  have hrt := lreach_run hr h1
  have hno : ∀ m d, LOp.close d ∉ List.replicate m LOp.loop := fun m d e => by
    have := (List.mem_replicate.mp e).2; cases this
  have ht := run_avoid (P := fun t => Made (t.conn c) ∧ ((t.conn c).cl ≠ .open ∨ Reached t c))
    (fun t op t' ho hr h hx => ?_) hr ⟨hm, .inr h⟩ h1
  · obtain ⟨hmt, ht⟩ := ht
    by_cases ho : (t.conn c).cl = .open
    · have ha : t.flag = false ∨ Asked t := by
        rcases ht with h | h | h | h | ⟨_, _, _, _, ⟨r, e, _⟩ | ⟨d, r, e, _⟩⟩
        · exact absurd ho h
        · exact .inl h
        · rw [hl] at h; cases h
        · exact .inr h
        · rw [hl] at e; cases e
        · rw [hl] at e; cases e
      obtain ⟨ops2, u, hn2, h2, hlu, hgu, hfu, hcu⟩ := can_register hrt hl hmt ho
      have hau : u.flag = false ∨ Asked u := by
        unfold Asked at ha ⊢
        rw [hfu, hcu]; exact ha
      obtain ⟨ops3, v, hn3, h3, hlv, hgv, _, k, x, hk, hkind, hp⟩ := can_ask (cfg := cfg) hlu hau
      have h4 := can_serve (cfg := cfg) hlv hk hkind hp
      generalize hw : ({ v.setK k { x with pc := .wait } with loop := .act k v.regs, log := v.log ++ [.served k] } : LSt) = w at h4
      have hrw : LReach cfg w := lreach_run (ops := [.recvCall k v.regs])
        (lreach_run (lreach_run hrt h2) h3) (by simp [LSt.run, h4])
      have hd : Doomed w c := by
        subst hw
        refine ⟨k, { x with pc := .wait }, ?_, hkind, .inl ⟨_, rfl, hgv ▸ hgu⟩⟩
        simp [(List.getElem?_eq_some_iff.mp hk).1]
      obtain ⟨m, z, h5, hz⟩ := doomed_closed hrw (.inr hd)
      refine ⟨List.replicate n .loop ++ (ops2 ++ (ops3 ++ (.recvCall k v.regs :: List.replicate m .loop))), z,
        fun d => ?_, ?_, hz⟩
      · simp only [List.mem_append, List.mem_cons, not_or]
        exact ⟨hno n d, hn2 d, hn3 d, by simp, hno m d⟩
      · rw [lrun_append h1, lrun_append h2, lrun_append h3]
        simp [LSt.run, h4, h5]
    · exact ⟨_, t, hno n, h1, ho⟩
  · rcases List.mem_replicate.mp ho with ⟨_, rfl⟩
    refine ⟨?_, ?_⟩
    · unfold Made at h ⊢
      rw [up_loop hx]; exact h.1
    · rcases h.2 with h | h | h | h | h
      · exact .inl (cnext_closed (cnext_of (lreach_placed hr) hx c) h)
      · refine .inr (.inl ?_)
        cases hx <;> first | exact h | rfl
      · refine .inr (.inl ?_)
        cases hx
        case boot => rfl
        all_goals simp_all
      · exact .inr (.inr (.inr (.inl (asked_loop hx h))))
      · rcases doomed_loop hx h with h | h
        · exact .inl h
        · exact .inr (.inr (.inr (.inr h)))

/-- a registered connection `Server.Close` can get to stays one until it is closed -/
theorem danger_step {op : LOp} {c : Nat} (hr : LReach cfg s) (hx : LNext cfg s op s')
    (h : (s.conn c).cl ≠ .open ∨ (c ∈ s.regs ∧ Reached s c)) :
    (s'.conn c).cl ≠ .open ∨ (c ∈ s'.regs ∧ Reached s' c) := by
  rcases h with h | ⟨hg, h⟩
  · exact .inl (cnext_closed (cnext_of (lreach_placed hr) hx c) h)
  by_cases ho : (s'.conn c).cl = .open
  case neg => exact .inl ho
  refine .inr ⟨?_, ?_⟩
  · rcases regs_next hx hg with h | ⟨h, _⟩
    · exact h
    · have h1 := (lreach_placed hr c).told
      have h2 : (s.conn c).cl ≠ .open := by
        intro e
        have := h1.mpr (by rw [e]; simp)
        rw [h] at this; cases this
      exact absurd ho (cnext_closed (cnext_of (lreach_placed hr) hx c) h2)
  · rcases h with h | h | h | h
    · -- `closed` is not set
      by_cases hf : s'.flag = false
      · exact .inl hf
      · refine .inr (.inr (.inl ?_))
        cases hx
        case casWin k x hk hp _ =>
          exact ⟨k, { x with pc := .send }, by simp [(List.getElem?_eq_some_iff.mp hk).1],
            ((lreach_called hr).each k x hk).cas hp, rfl⟩
        all_goals exact absurd h (by simpa using hf)
    · by_cases hb : s'.loop = .boot
      · exact .inr (.inl hb)
      · refine .inl ?_
        cases hx
        case boot => rfl
        all_goals simp_all
    · rcases asked_keep hx h with h | ⟨k, x, order, _, hk, hkind, hl, hperm⟩
      · exact .inr (.inr (.inl h))
      · exact .inr (.inr (.inr ⟨k, x, hk, hkind, .inl ⟨_, hl, hperm.mem_iff.mpr hg⟩⟩))
    · by_cases hop : op = .loop
      · subst hop
        rcases doomed_loop hx h with h | h
        · exact absurd ho h
        · exact .inr (.inr (.inr h))
      · refine .inr (.inr (.inr ?_))
        obtain ⟨k, x, hk, hkind, h⟩ := h
        obtain ⟨y, hy, hy', _⟩ := call_next hx hk
        refine ⟨k, y, hy, hy'.trans hkind, ?_⟩
        have hl : s.loop ≠ .sel := by rcases h with ⟨r, e, _⟩ | ⟨d, r, e, _⟩ <;> rw [e] <;> simp
        have : s'.loop = s.loop := by
          cases hx <;> first | rfl | exact absurd rfl hop | exact absurd ‹_› hl
        rw [this]; exact h

/-- how many calls of `Server.Close` wait for the loop to receive their action -/
def asking (l : List LCall) : Nat := l.countP fun x => decide (x.kind = .close ∧ x.pc = .send)

theorem asked_iff : Asked s ↔ 0 < asking s.calls := by
  unfold asking Asked
  rw [List.countP_pos_iff]
  constructor
  · rintro ⟨k, x, hk, h⟩
    exact ⟨x, List.mem_of_getElem? hk, by simpa using h⟩
  · rintro ⟨x, hx, h⟩
    obtain ⟨k, hk⟩ := List.mem_iff_getElem?.mp hx
    exact ⟨k, x, hk, by simpa using h⟩

theorem asking_set {l : List LCall} {k : Nat} {x y : LCall} (h : l[k]? = some x) :
    asking (l.set k y) + (if x.kind = .close ∧ x.pc = .send then 1 else 0) =
      asking l + (if y.kind = .close ∧ y.pc = .send then 1 else 0) := by
  unfold asking
  induction l generalizing k with
  | nil => cases h
  | cons a l ih =>
    cases k with
    | zero =>
      simp only [List.getElem?_cons_zero, Option.some.injEq] at h
      subst h
      simp only [List.set_cons_zero, List.countP_cons, decide_eq_true_eq]
      omega
    | succ k =>
      have := ih (k := k) (by simpa using h)
      simp only [List.set_cons_succ, List.countP_cons, decide_eq_true_eq]
      omega

theorem asking_loop (hx : LNext cfg s .loop s') : asking s'.calls = asking s.calls := by
  cases hx
  case done k x _ hk hp =>
    have := asking_set (y := { x with pc := .ret }) hk
    simp only [hp] at this
    simpa using this
  all_goals rfl

/-- what the loop does by itself leaves an open connection that is not registered alone -/
theorem loops_spare {c n : Nat} (hr : LReach cfg s) (hg : c ∉ s.regs) (ho : (s.conn c).cl = .open) 
    (hx : s.run cfg (List.replicate n .loop) = some s') :
    c ∉ s'.regs ∧ (s'.conn c).cl = .open ∧ asking s'.calls = asking s.calls := by
  refine run_avoid (P := fun t => c ∉ t.regs ∧ (t.conn c).cl = .open ∧ asking t.calls = asking s.calls)
    (fun t op t' hop hr h hx => ?_) hr ⟨hg, ho, rfl⟩ hx
  rcases List.mem_replicate.mp hop with ⟨_, rfl⟩
  obtain ⟨h1, h2, h3⟩ := h
  refine ⟨?_, ?_, (asking_loop hx).trans h3⟩
  · cases hx <;> exact h1
  · rcases cl_step hr hx h2 with h | h | ⟨_, _, _, _, _, h⟩
    · exact h
    · cases h
    · have h4 := (lreach_placed hr c).rest
      rw [List.count_eq_zero.mpr h1] at h4
      have h5 : c ∉ t.loop.rest := List.count_eq_zero.mp (by omega)
      rcases h with ⟨r, e, hc⟩ | ⟨d, r, e, hc⟩
      · rw [e] at h5; exact absurd hc h5
      · rw [e] at h5; exact absurd hc h5

/-- at the `select`, every `Server.Close` that waits can be served before the connection is registered -/
theorem can_pass {c : Nat} (hr : LReach cfg s) (hl : s.loop = .sel) (hf : s.flag = true) (hg : c ∉ s.regs)
    (ho : (s.conn c).cl = .open) :
    ∃ ops t, (∀ d, .close d ∉ ops) ∧ s.run cfg ops = some t ∧ (t.conn c).cl = .open ∧ ¬Reached t c ∧ t.loop = .sel := by
  generalize hn : asking s.calls = n
  induction n using Nat.strongRecOn generalizing s with
  | ind n ih =>
    by_cases ha : Asked s
    · have ha' := ha
      obtain ⟨k, x, hk, hkind, hp⟩ := ha
      have h1 := can_serve (cfg := cfg) hl hk hkind hp
      generalize hw : ({ s.setK k { x with pc := .wait } with loop := .act k s.regs, log := s.log ++ [.served k] } : LSt) = w at h1
      have hrw : LReach cfg w := lreach_run (ops := [.recvCall k s.regs]) hr (by simp [LSt.run, h1])
      have hgw : c ∉ w.regs := by subst hw; exact hg
      have how : (w.conn c).cl = .open := by
        subst hw
        rw [← ho]; exact congrArg LConn.cl (conn_same (s := s) rfl)
      have hfw : w.flag = true ∧ w.loop ≠ .boot := by subst hw; exact ⟨hf, by simp⟩
      have hnw : asking w.calls + 1 = asking s.calls := by
        have := asking_set (y := { x with pc := .wait }) hk
        subst hw
        simpa [hkind, hp] using this
      obtain ⟨m, u, h2, hlu⟩ := loop_returns hrw
      obtain ⟨g1, g2, g3⟩ := loops_spare hrw hgw how h2
      have hfu := loops_ind (P := fun t => t.flag = true ∧ t.loop ≠ .boot) (fun _ _ h hx => flag_step hx h) hfw h2
      obtain ⟨ops, t, hno, h3, h4, h5, h6⟩ := ih (asking u.calls) (by omega) (lreach_run hrw h2) hlu hfu.1 g1 g2 rfl
      refine ⟨.recvCall k s.regs :: (List.replicate m .loop ++ ops), t, fun d => ?_, ?_, h4, h5, h6⟩
      · simp only [List.mem_append, List.mem_cons, not_or]
        exact ⟨by simp, fun e => (by have := (List.mem_replicate.mp e).2; cases this), hno d⟩
      · simp only [LSt.run, h1]
        rw [lrun_append h2, h3]
    · refine ⟨[], s, by simp, rfl, ho, ?_, hl⟩
      rintro (h | h | h | ⟨_, _, _, _, ⟨r, e, _⟩ | ⟨d, r, e, _⟩⟩)
      · rw [hf] at h; cases h
      · rw [hl] at h; cases h
      · exact ha h
      · rw [hl] at e; cases e
      · rw [hl] at e; cases e

end Survive
open Survive

/-- C100: a connection that was made and is open is beyond the reach of `Server.Close`, now and for ever, exactly if
`closed` is set, the loop has begun, no `Server.Close` waits for the loop to receive its action, and the loop is not
running one with the connection still to visit. -/
theorem c100_survives {c : Nat} (hr : LReach cfg s) (hm : Made (s.conn c)) (ho : (s.conn c).cl = .open) :
    ForEver cfg s c ↔ s.flag = true ∧ s.loop ≠ .boot ∧ ¬Asked s ∧ ¬Doomed s c := by
  have hiff : (s.flag = true ∧ s.loop ≠ .boot ∧ ¬Asked s ∧ ¬Doomed s c) ↔ ¬Reached s c := by
    simp [Reached, not_or]
  rw [hiff]
  constructor
  · intro h hd
    obtain ⟨ops, t, hno, h1, h2⟩ := can_close hr hm hd
    exact h2 (h ops t (hno c) h1)
  · intro h ops t hno hx
    exact (run_avoid (P := fun t => (t.conn c).cl = .open ∧ ¬Reached t c)
      (fun t op t' hop hr h hx => safe_step hr hx (fun e => hno (e ▸ hop)) h) hr ⟨ho, h⟩ hx).1

/-- C100: an open connection that was made can get beyond the reach of `Server.Close` exactly if the loop has not
registered it, or if it is there already. -/
theorem c100_can {c : Nat} (hr : LReach cfg s) (hm : Made (s.conn c)) (ho : (s.conn c).cl = .open) :
    (∃ ops t, .close c ∉ ops ∧ s.run cfg ops = some t ∧ ForEver cfg t c) ↔ c ∉ s.regs ∨ ForEver cfg s c := by
  constructor
  · rintro ⟨ops, t, hno, h1, h2⟩
    refine Classical.byContradiction fun hn => ?_
    rw [not_or, Classical.not_not] at hn
    have hd : Reached s c := by
      refine Classical.byContradiction fun h => hn.2 ?_
      refine (c100_survives hr hm ho).mpr ?_
      simpa [Reached, not_or] using h
    have hot : (t.conn c).cl = .open := h2 [] t (by simp) rfl
    have := run_avoid (P := fun t => (t.conn c).cl ≠ .open ∨ (c ∈ t.regs ∧ Reached t c))
      (fun t op t' _ hr h hx => danger_step hr hx h) hr (.inr ⟨hn.1, hd⟩) h1
    rcases this with h | ⟨hg, h⟩
    · exact h hot
    · have hrt := lreach_run hr h1
      have := (c100_survives hrt (.inr (regs_sent hrt hg)) hot).mp h2
      rcases h with h | h | h | h
      · rw [this.1] at h; cases h
      · exact this.2.1 h
      · exact this.2.2.1 h
      · exact this.2.2.2 h
  · rintro (hg | h)
    · obtain ⟨n, t, h1, hl⟩ := loop_returns hr
      have hrt := lreach_run hr h1
      obtain ⟨g1, g2, _⟩ := loops_spare hr hg ho h1
      have hmt : Made (t.conn c) := loops_ind (P := fun t => Made (t.conn c))
        (fun t t' h hx => by unfold Made at h ⊢; rw [up_loop hx]; exact h) hm h1
      have hset : ∃ ops u, (∀ d, .close d ∉ ops) ∧ t.run cfg ops = some u ∧ u.loop = .sel ∧ u.regs = t.regs ∧
          u.conns = t.conns ∧ u.flag = true := by
        cases hf : t.flag
        · refine ⟨[.call .close, .caller t.calls.length],
            { t with flag := true, calls := t.calls ++ [{ kind := .close, pc := .send }] }, by simp, ?_, hl, rfl, rfl, rfl⟩
          simp [LSt.run, LSt.step, LSt.callerStep, hf, LSt.setK]
        · exact ⟨[], t, by simp, rfl, hl, rfl, rfl, hf⟩
      obtain ⟨ops2, u, hn2, h2, hlu, hgu, hcu, hfu⟩ := hset
      have hru := lreach_run hrt h2
      have hcc : u.conn c = t.conn c := conn_same hcu
      obtain ⟨ops3, v, hn3, h3, hov, hv, _⟩ := can_pass hru hlu hfu (by rw [hgu]; exact g1) (by rw [hcc]; exact g2)
      refine ⟨List.replicate n .loop ++ (ops2 ++ ops3), v, ?_, ?_, ?_⟩
      · simp only [List.mem_append, not_or]
        exact ⟨fun e => (by have := (List.mem_replicate.mp e).2; cases this), hn2 c, hn3 c⟩
      · rw [lrun_append h1, lrun_append h2, h3]
      · intro ops w hno hx
        exact (run_avoid (P := fun t => (t.conn c).cl = .open ∧ ¬Reached t c)
          (fun t op t' hop hr h hx => safe_step hr hx (fun e => hno (e ▸ hop)) h) (lreach_run hru h3) ⟨hov, hv⟩ hx).1
    · exact ⟨[], s, by simp, rfl, h⟩

/-- a call that is past its compare-and-swap stays there -/
theorem past_cas {op : LOp} {k : Nat} {x : LCall} (hx : LNext cfg s op s') (hk : s.calls[k]? = some x)
    (hp : x.pc ≠ .cas) : ∃ y, s'.calls[k]? = some y ∧ y.kind = x.kind ∧ y.pc ≠ .cas := by
  have hlen := (List.getElem?_eq_some_iff.mp hk).1
  have put : ∀ {j : Nat} {z w : LCall} {t : LSt}, s.calls[j]? = some z → t.calls = s.calls.set j w → w.kind = z.kind →
      w.pc ≠ .cas → ∃ y, t.calls[k]? = some y ∧ y.kind = x.kind ∧ y.pc ≠ .cas := by
    intro j z w t h1 h2 h3 h4
    by_cases e : j = k
    · subst e
      rw [hk] at h1; cases h1
      exact ⟨w, by rw [h2]; simp [hlen], h3, h4⟩
    · exact ⟨x, by rw [h2, List.getElem?_set_ne e]; exact hk, rfl, hp⟩
  cases hx
  case call kd => exact ⟨x, (List.getElem?_append_left hlen).trans hk, rfl, hp⟩
  case casFail j y hj _ _ => exact put (w := { y with pc := .ret }) hj rfl rfl (by simp)
  case casWin j y hj _ _ => exact put (w := { y with pc := .send }) hj rfl rfl (by simp)
  case done j y _ hj _ => exact put (w := { y with pc := .ret }) hj rfl rfl (by simp)
  case recvCast j y order _ hj _ _ _ => exact put (w := { y with pc := .ret }) hj rfl rfl (by simp)
  case recvAct j y order _ hj _ _ _ =>
    exact put (w := { y with pc := if y.kind.sync then .wait else .ret }) hj rfl rfl (by simp only; split <;> simp)
  all_goals exact ⟨x, hk, rfl, hp⟩

/-- C100: a `Server.Close` that has set `closed` can return and leave an open connection beyond the reach of any other
exactly if the loop has not registered the connection yet. -/
theorem c100_close {k c : Nat} {x : LCall} (hr : LReach cfg s) (hk : s.calls[k]? = some x) (hc : x.kind = .close)
    (hp : x.pc = .send) (hm : Made (s.conn c)) (ho : (s.conn c).cl = .open) :
    (∃ ops t, .close c ∉ ops ∧ s.run cfg ops = some t ∧ t.calls[k]? = some { kind := .close, pc := .ret } ∧
      ForEver cfg t c) ↔ c ∉ s.regs := by
  constructor
  · rintro ⟨ops, t, hno, h1, _, h2⟩
    refine ((c100_can hr hm ho).mp ⟨ops, t, hno, h1, h2⟩).resolve_right (fun h => ?_)
    exact ((c100_survives hr hm ho).mp h).2.2.1 ⟨k, x, hk, hc, hp⟩
  · intro hg
    obtain ⟨ops, t, hno, h1, h2⟩ := (c100_can hr hm ho).mpr (.inl hg)
    have hrt := lreach_run hr h1
    have hpast : ∀ {s t : LSt} {ops : List LOp} {x : LCall}, LReach cfg s → s.calls[k]? = some x → x.kind = .close →
        x.pc ≠ .cas → s.run cfg ops = some t → ∃ y, t.calls[k]? = some y ∧ y.kind = .close ∧ y.pc ≠ .cas := by
      intro s t ops x hr hk hc hp hx
      refine run_avoid (P := fun t => ∃ y, t.calls[k]? = some y ∧ y.kind = .close ∧ y.pc ≠ .cas)
        (fun t op t' _ hr h hx => ?_) hr ⟨x, hk, hc, hp⟩ hx
      obtain ⟨y, g1, g2, g3⟩ := h
      obtain ⟨z, f1, f2, f3⟩ := past_cas hx g1 g3
      exact ⟨z, f1, f2.trans g2, f3⟩
    obtain ⟨n, u, h3, hl⟩ := loop_returns hrt
    have hru := lreach_run hrt h3
    have hnl : LOp.close c ∉ List.replicate n LOp.loop := fun e => by have := (List.mem_replicate.mp e).2; cases this
    have hfu : ForEver cfg u c := by
      intro ops v hno hx
      refine h2 (List.replicate n .loop ++ ops) v ?_ (by rw [lrun_append h3, hx])
      simp only [List.mem_append, not_or]
      exact ⟨hnl, hno⟩
    have hrun : s.run cfg (ops ++ List.replicate n .loop) = some u := by rw [lrun_append h1, h3]
    obtain ⟨⟨kind, pc⟩, g1, g2, g3⟩ := hpast hr hk hc (by rw [hp]; simp) hrun
    have hmu : Made (u.conn c) := by
      refine run_avoid (P := fun t => Made (t.conn c)) (fun t op t' _ hr h hx => ?_) hr hm hrun
      have := cnext_of (lreach_placed hr) hx c
      revert this h
      generalize t'.conn c = y; generalize t.conn c = x
      intro h hc
      unfold Made at h ⊢
      cases hc <;> simp_all
    have hou : (u.conn c).cl = .open := hfu [] u (by simp) rfl
    have hs := (c100_survives hru hmu hou).mp hfu
    refine ⟨ops ++ List.replicate n .loop, u, ?_, hrun, ?_, hfu⟩
    · simp only [List.mem_append, not_or]
      exact ⟨hno, hnl⟩
    · dsimp only at g2 g3
      subst g2
      cases pc with
      | cas => exact absurd rfl g3
      | send => exact absurd ⟨k, _, g1, rfl, rfl⟩ hs.2.2.1
      | wait =>
        have := (((lreach_called hru).each k _ g1).wait rfl).1
        rw [hl] at this; cases this
      | ret => exact g1

namespace Survive

/-- the call of `Server.Close` has still to get to the connection -/
def Ahead (s : LSt) (k c : Nat) : Prop :=
  ∃ x : LCall, s.calls[k]? = some x ∧ x.kind = .close ∧ (x.pc = .send ∨
    (x.pc ≠ .cas ∧ ((∃ r, s.loop = .act k r ∧ c ∈ r) ∨ ∃ d r, s.loop = .shut k d r ∧ c ∈ r)))

theorem ahead_step {op : LOp} {k c : Nat} (hr : LReach cfg s) (hx : LNext cfg s op s')
    (h : (s.conn c).cl ≠ .open ∨ (c ∈ s.regs ∧ Ahead s k c)) :
    (s'.conn c).cl ≠ .open ∨ (c ∈ s'.regs ∧ Ahead s' k c) := by
  rcases h with h | ⟨hg, h⟩
  · exact .inl (cnext_closed (cnext_of (lreach_placed hr) hx c) h)
  by_cases ho : (s'.conn c).cl = .open
  case neg => exact .inl ho
  refine .inr ⟨?_, ?_⟩
  · rcases regs_next hx hg with h | ⟨h, _⟩
    · exact h
    · have h1 := (lreach_placed hr c).told
      have h2 : (s.conn c).cl ≠ .open := by
        intro e
        have := h1.mpr (by rw [e]; simp)
        rw [h] at this; cases this
      exact absurd ho (cnext_closed (cnext_of (lreach_placed hr) hx c) h2)
  · obtain ⟨x, hk, hc, h⟩ := h
    obtain ⟨y, hy, hyk, hyp⟩ := past_cas hx hk (by rcases h with h | h <;> simp_all)
    refine ⟨y, hy, hyk.trans hc, ?_⟩
    rcases h with hp | ⟨hp, h⟩
    · have hlen := (List.getElem?_eq_some_iff.mp hk).1
      cases hx
      case recvAct j z order hl hj hpj hperm hkj =>
        by_cases e : j = k
        · subst e
          exact .inr ⟨hyp, .inl ⟨_, rfl, hperm.mem_iff.mpr hg⟩⟩
        · refine .inl ?_
          simp only [setK_calls, List.getElem?_set_ne e, hk, Option.some.injEq] at hy
          rw [← hy]; exact hp
      all_goals
        refine .inl ?_
        simp only [setC_calls, setK_calls] at hy
        first
          | (rw [hk] at hy; cases hy; exact hp)
          | (rw [List.getElem?_append_left hlen, hk] at hy; cases hy; exact hp)
          | (rw [List.getElem?_set_ne (by rintro rfl; grind), hk] at hy; cases hy; exact hp)
    · refine .inr ⟨hyp, ?_⟩
      have hd : Doomed s c := ⟨k, x, hk, hc, h⟩
      have hcall : s.loop.call = some k := by rcases h with ⟨r, e, _⟩ | ⟨d, r, e, _⟩ <;> rw [e] <;> rfl
      by_cases hop : op = .loop
      · subst hop
        have hd' := (doomed_loop hx hd).resolve_left (fun h => h ho)
        obtain ⟨k', x', _, _, h'⟩ := hd'
        have : k' = k := by
          cases hx <;> rcases h with ⟨r, e, _⟩ | ⟨d, r, e, _⟩ <;> rcases h' with ⟨r', e', _⟩ | ⟨d', r', e', _⟩ <;>
            simp_all
        subst this
        exact h'
      · have hl : s.loop ≠ .sel := by rcases h with ⟨r, e, _⟩ | ⟨d, r, e, _⟩ <;> rw [e] <;> simp
        have : s'.loop = s.loop := by
          cases hx <;> first | rfl | exact absurd rfl hop | exact absurd ‹_› hl
        rw [this]; exact h

end Survive

/-- C100: and when it returns, every connection that was registered when it set `closed` is closed, whatever else
happened. -/
theorem c100_registered {k c : Nat} {x y : LCall} {ops : List LOp} (hr : LReach cfg s) (hk : s.calls[k]? = some x)
    (hc : x.kind = .close) (hp : x.pc = .send) (hg : c ∈ s.regs) (hx : s.run cfg ops = some s')
    (hk' : s'.calls[k]? = some y) (hret : y.pc = .ret) : (s'.conn c).cl ≠ .open := by
  have := run_avoid (P := fun t => (t.conn c).cl ≠ .open ∨ (c ∈ t.regs ∧ Ahead t k c))
    (fun t op t' _ hr h hx => ahead_step hr hx h) hr (.inr ⟨hg, x, hk, hc, .inl hp⟩) hx
  rcases this with h | ⟨_, z, hz, hzk, h⟩
  · exact h
  · rw [hk'] at hz; cases hz
    have hcl := close_ret (lreach_run hr hx) hk' hzk hret
    rcases h with h | ⟨_, ⟨r, e, _⟩ | ⟨d, r, e, _⟩⟩
    · rw [hret] at h; cases h
    · rw [e] at hcl; exact absurd rfl hcl
    · rw [e] at hcl; exact absurd rfl hcl

/-- C100: a call of `Upgrade` that has not been refused can make its connection exactly if it has made it, or `closed`
is not set, or the loop has not begun. -/
theorem c100_passes {c : Nat} (hr : LReach cfg s) (hu : (s.conn c).up = .check) :
    (∃ ops t, s.run cfg ops = some t ∧ Made (t.conn c)) ↔ s.flag = false ∨ s.loop = .boot := by
  constructor
  · rintro ⟨ops, t, hx, hm⟩
    refine Classical.byContradiction fun hn => ?_
    rw [not_or] at hn
    rcases (c45_refused_partial hr (by simpa using hn.1) hn.2 hx).2 c hu |>.1 with h | h <;>
      rcases hm with e | e <;> rw [h] at e <;> cases e
  · intro h
    have hpass : ∀ {t : LSt}, t.flag = false → (t.conn c).up = .check → ∃ ops u, t.run cfg ops = some u ∧ Made (u.conn c) := by
      intro t hf hu
      have hlen : c < (t.conns ++ List.replicate (c + 1) ({} : LConn)).length := by simp; omega
      have hc : ({ t with conns := t.conns ++ List.replicate (c + 1) {} } : LSt).conn c = t.conn c := by
        simp only [LSt.conn, List.getElem?_append]
        split
        · rfl
        · rename_i h
          rw [List.getElem?_eq_none (l := t.conns) (by omega), List.getElem?_replicate]
          split <;> rfl
      have hx := List.getElem?_eq_some_iff.mpr ⟨hlen, rfl⟩
      rw [← conn_of (s := { t with conns := t.conns ++ List.replicate (c + 1) {} }) hx] at hx
      rw [hc] at hx
      refine ⟨List.replicate (c + 1) .upgrade ++ [.up c],
        ({ t with conns := t.conns ++ List.replicate (c + 1) {} } : LSt).setC c { t.conn c with up := .send },
        (lrun_append upgrades).trans ?_, .inl ?_⟩
      · simp [LSt.run, LSt.step, LSt.upStep, hx, hu, hf]
      · rw [conn_setC (s := { t with conns := t.conns ++ List.replicate (c + 1) {} }) hx, if_pos rfl]
    rcases h with h | h
    · exact hpass h hu
    · obtain ⟨ops, u, h1, h2⟩ := hpass (t := { s with flag := false, loop := .sel }) rfl hu
      exact ⟨.loop :: ops, u, by simpa [LSt.run, LSt.step, LSt.loopStep, h] using h1, h2⟩

/-- The connection of `c45_refuted_mid` stays open for ever: its `Upgrade` had passed the check when the server was
closed, and it was registered after the loop had visited the others. Registered earlier, it is closed. -/
example :
    ForEver {} (lafter {} [.loop, .upgrade, .up 0, .call .close, .caller 0, .recvCall 0 [], .loop, .loop, .up 0,
      .recvConnect, .loop]) 0 ∧
    (∃ ops t, .close 0 ∉ ops ∧ (lafter {} [.loop, .upgrade, .up 0, .call .close, .caller 0]).run {} ops = some t ∧
      t.calls[0]? = some { kind := .close, pc := .ret } ∧ ForEver {} t 0) ∧
    ¬(∃ ops t, .close 0 ∉ ops ∧
      (lafter {} [.loop, .upgrade, .up 0, .call .close, .caller 0, .up 0, .recvConnect]).run {} ops = some t ∧
      t.calls[0]? = some { kind := .close, pc := .ret } ∧ ForEver {} t 0) := by
  refine ⟨?_, ?_, ?_⟩
  · refine (c100_survives (lafter_reach (by decide +kernel)) (.inr (by decide +kernel)) (by decide +kernel)).mpr
      ⟨by decide +kernel, by decide +kernel, ?_, ?_⟩
    · rw [asked_iff]; decide +kernel
    · rintro ⟨_, _, _, _, ⟨r, e, _⟩ | ⟨d, r, e, _⟩⟩
      · have : (lafter {} [.loop, .upgrade, .up 0, .call .close, .caller 0, .recvCall 0 [], .loop, .loop, .up 0,
          .recvConnect, .loop]).loop = .sel := by decide +kernel
        rw [this] at e; cases e
      · have : (lafter {} [.loop, .upgrade, .up 0, .call .close, .caller 0, .recvCall 0 [], .loop, .loop, .up 0,
          .recvConnect, .loop]).loop = .sel := by decide +kernel
        rw [this] at e; cases e
  · exact (c100_close (x := { kind := .close, pc := .send }) (lafter_reach (by decide +kernel)) (by decide +kernel) rfl rfl
      (.inl (by decide +kernel)) (by decide +kernel)).mpr (by decide +kernel)
  · exact fun h => absurd ((c100_close (x := { kind := .close, pc := .send }) (lafter_reach (by decide +kernel))
      (by decide +kernel) rfl rfl (.inr (by decide +kernel)) (by decide +kernel)).mp h) (by decide +kernel)

/-- a registered connection is closed when the call returns; an `Upgrade` can pass its check before `closed` is set and
not after -/
example :
    ((lafter {} [.loop, .upgrade, .up 0, .up 0, .recvConnect, .loop, .call .close, .caller 0, .recvCall 0 [0], .loop, .loop,
      .loop, .loop]).conn 0).cl ≠ .open ∧
    (∃ ops t, (lafter {} [.loop, .upgrade, .call .close]).run {} ops = some t ∧ Made (t.conn 0)) ∧
    ¬(∃ ops t, (lafter {} [.loop, .upgrade, .call .close, .caller 0]).run {} ops = some t ∧ Made (t.conn 0)) := by
  refine ⟨c100_registered (s := lafter {} [.loop, .upgrade, .up 0, .up 0, .recvConnect, .loop, .call .close, .caller 0])
      (k := 0) (cfg := {}) (x := { kind := .close, pc := .send }) (y := { kind := .close, pc := .ret })
      (ops := [.recvCall 0 [0], .loop, .loop, .loop, .loop])
      (lafter_reach (by decide +kernel)) (by decide +kernel) rfl rfl (by decide +kernel) (by decide +kernel)
      (by decide +kernel) rfl, ?_, ?_⟩
  · exact (c100_passes (lafter_reach (by decide +kernel)) (by decide +kernel)).mpr (.inl (by decide +kernel))
  · exact fun h => absurd ((c100_passes (lafter_reach (by decide +kernel)) (by decide +kernel)).mp h) (by decide +kernel)

end Neffos
