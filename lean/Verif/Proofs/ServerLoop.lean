import Verif.Model.ServerLoop
/-! Invariants of the server loop. -/
set_option autoImplicit false
set_option linter.unusedSimpArgs false
namespace Neffos

variable {cfg : LCfg} {s s' : LSt}

/-- The steps, one constructor each. -/
inductive LNext (cfg : LCfg) (s : LSt) : LOp → LSt → Prop where
  | upgrade : LNext cfg s .upgrade { s with conns := s.conns ++ [{}] }
  | upRefuse {c : Nat} {x : LConn} (h : s.conns[c]? = some x) (hu : x.up = .check) (hf : s.flag = true) :
      LNext cfg s (.up c) (s.setC c { x with up := .refused })
  | upPass {c : Nat} {x : LConn} (h : s.conns[c]? = some x) (hu : x.up = .check) (hf : s.flag = false) :
      LNext cfg s (.up c) (s.setC c { x with up := .send })
  | upSend {c : Nat} {x : LConn} (h : s.conns[c]? = some x) (hu : x.up = .send) (hb : s.buf = none) :
      LNext cfg s (.up c) { s.setC c { x with up := .sent } with buf := some c }
  | unwait {c : Nat} {x : LConn} (e : Bool) (h : s.conns[c]? = some x) (hu : x.up = .send ∨ x.up = .sent) :
      LNext cfg s (.unwait c e) (s.setC c { x with ready := if x.ready = none then some e else x.ready })
  | close {c : Nat} {x : LConn} (h : s.conns[c]? = some x) (hu : x.up = .send ∨ x.up = .sent)
      (ho : x.cl = .open) : LNext cfg s (.close c) (s.setC c { x with cl := .firing false })
  | closer {c : Nat} {x : LConn} (h : s.conns[c]? = some x) (ho : x.cl = .firing false) :
      LNext cfg s (.closer c) (s.setC c { x with cl := .told, disc := .sending })
  | call (k : LKind) :
      LNext cfg s (.call k) { s with calls := s.calls ++ [{ kind := k, pc := if k = .close then .cas else .send }] }
  | casFail {k : Nat} {x : LCall} (h : s.calls[k]? = some x) (hp : x.pc = .cas) (hf : s.flag = true) :
      LNext cfg s (.caller k) (s.setK k { x with pc := .ret })
  | casWin {k : Nat} {x : LCall} (h : s.calls[k]? = some x) (hp : x.pc = .cas) (hf : s.flag = false) :
      LNext cfg s (.caller k) { s.setK k { x with pc := .send } with flag := true }
  | boot (hl : s.loop = .boot) : LNext cfg s .loop { s with flag := false, loop := .sel }
  | inc (hl : s.loop = .inc) : LNext cfg s .loop { s with count := s.count + 1, loop := .sel }
  | dec {c : Nat} (hl : s.loop = .dec c) :
      LNext cfg s .loop { s with count := s.count + BitVec.allOnes 64, loop := .fire c }
  | fireSkip {c : Nat} {x : LConn} (hl : s.loop = .fire c) (h : s.conns[c]? = some x)
      (hd : cfg.onDisc = true) (ha : cfg.always = false) (hr : x.ready ≠ some false) :
      LNext cfg s .loop { s with loop := .sel }
  | fireYes {c : Nat} {x : LConn} (hl : s.loop = .fire c) (h : s.conns[c]? = some x)
      (hd : cfg.onDisc = true) (ha : cfg.always = true ∨ x.ready = some false) :
      LNext cfg s .loop { s with log := s.log ++ [.onDisc c], loop := .exch c }
  | fireNil {c : Nat} {x : LConn} (hl : s.loop = .fire c) (h : s.conns[c]? = some x)
      (hd : cfg.onDisc = false) : LNext cfg s .loop { s with loop := .exch c }
  | exchYes {c : Nat} (hl : s.loop = .exch c) (he : cfg.exch = true) :
      LNext cfg s .loop { s with log := s.log ++ [.exchDisc c], loop := .sel }
  | exchNo {c : Nat} (hl : s.loop = .exch c) (he : cfg.exch = false) :
      LNext cfg s .loop { s with loop := .sel }
  | castNil {k : Nat} (hl : s.loop = .cast k []) : LNext cfg s .loop { s with loop := .sel }
  | castCons {k c : Nat} {rest : List Nat} (hl : s.loop = .cast k (c :: rest)) :
      LNext cfg s .loop { s with log := s.log ++ [.offered c k], loop := .cast k rest }
  | actSync {k : Nat} {x : LCall} (hl : s.loop = .act k []) (h : s.calls[k]? = some x)
      (hs : x.kind.sync = true) : LNext cfg s .loop { s with loop := .done k }
  | actAsync {k : Nat} {x : LCall} (hl : s.loop = .act k []) (h : s.calls[k]? = some x)
      (hs : x.kind.sync = false) : LNext cfg s .loop { s with loop := .sel }
  | actShut {k c : Nat} {rest : List Nat} {x : LCall} {y : LConn} (hl : s.loop = .act k (c :: rest))
      (h : s.calls[k]? = some x) (hc : s.conns[c]? = some y) (hk : x.kind = .close) (ho : y.cl = .open) :
      LNext cfg s .loop
        { s.setC c { y with cl := .firing true } with log := s.log ++ [.offered c k], loop := .shut k c rest }
  | actCons {k c : Nat} {rest : List Nat} {x : LCall} {y : LConn} (hl : s.loop = .act k (c :: rest))
      (h : s.calls[k]? = some x) (hc : s.conns[c]? = some y) (hk : x.kind = .close → y.cl ≠ .open) :
      LNext cfg s .loop { s with log := s.log ++ [.offered c k], loop := .act k rest }
  | shut {k c : Nat} {rest : List Nat} {y : LConn} (hl : s.loop = .shut k c rest) (hc : s.conns[c]? = some y) :
      LNext cfg s .loop { s.setC c { y with cl := .told, disc := .sending } with loop := .act k rest }
  | done {k : Nat} {x : LCall} (hl : s.loop = .done k) (h : s.calls[k]? = some x) (hp : x.pc = .wait) :
      LNext cfg s .loop { s.setK k { x with pc := .ret } with loop := .sel }
  | recvConnect {c : Nat} (hl : s.loop = .sel) (hb : s.buf = some c) :
      LNext cfg s .recvConnect
        { s with buf := none, regs := c :: s.regs, loop := .inc, log := s.log ++ [.reg c] }
  | recvDrop {c : Nat} {x : LConn} (hl : s.loop = .sel) (h : s.conns[c]? = some x) (hd : x.disc = .sending)
      (hr : c ∈ s.regs) :
      LNext cfg s (.recvDisc c)
        { s.setC c { x with disc := .served } with
          regs := s.regs.erase c, loop := .dec c, log := s.log ++ [.drop c] }
  | recvIgnore {c : Nat} {x : LConn} (hl : s.loop = .sel) (h : s.conns[c]? = some x) (hd : x.disc = .sending)
      (hr : c ∉ s.regs) :
      LNext cfg s (.recvDisc c) { s.setC c { x with disc := .served } with log := s.log ++ [.ignored c] }
  | recvCast {k : Nat} {x : LCall} {order : List Nat} (hl : s.loop = .sel) (h : s.calls[k]? = some x)
      (hp : x.pc = .send) (ho : order.Perm s.regs) (hk : x.kind = .cast) :
      LNext cfg s (.recvCall k order)
        { s.setK k { x with pc := .ret } with loop := .cast k order, log := s.log ++ [.served k] }
  | recvAct {k : Nat} {x : LCall} {order : List Nat} (hl : s.loop = .sel) (h : s.calls[k]? = some x)
      (hp : x.pc = .send) (ho : order.Perm s.regs) (hk : x.kind ≠ .cast) :
      LNext cfg s (.recvCall k order)
        { s.setK k { x with pc := if x.kind.sync then .wait else .ret } with
          loop := .act k order, log := s.log ++ [.served k] }

theorem lnext_of_loop (h : s.loopStep cfg = some s') : LNext cfg s .loop s' := by
  unfold LSt.loopStep at h
  split at h
  · cases h; exact .boot ‹_›
  · cases h
  · cases h; exact .inc ‹_›
  · cases h; exact .dec ‹_›
  · split at h
    · cases h
    · split at h
      · split at h
        · cases h
          rename_i h1
          simp only [Bool.and_eq_true, Bool.not_eq_true', Bool.or_eq_true, decide_eq_true_eq] at h1
          exact .fireSkip ‹_› ‹_› ‹_› h1.1 (by rcases h1.2 with e | e <;> rw [e] <;> simp)
        · cases h
          rename_i x _ _ h1
          refine .fireYes ‹_› ‹_› ‹_› ?_
          rcases hx : x.ready with _ | _ | _ <;> simp_all
      · cases h; exact .fireNil ‹_› ‹_› (by simp_all)
  · by_cases he : cfg.exch = true
    · rw [if_pos he] at h; cases h; exact .exchYes ‹_› he
    · rw [if_neg he] at h; cases h; exact .exchNo ‹_› (by simpa using he)
  · cases h; exact .castNil ‹_›
  · cases h; exact .castCons ‹_›
  · split at h
    · cases h
    · rename_i x hx
      by_cases hs : x.kind.sync = true
      · rw [if_pos hs] at h; cases h; exact .actSync ‹_› hx hs
      · rw [if_neg hs] at h; cases h; exact .actAsync ‹_› hx (by simpa using hs)
  · split at h
    · split at h
      · cases h; rename_i hh; exact .actShut ‹_› ‹_› ‹_› hh.1 hh.2
      · cases h
        rename_i hh
        exact .actCons ‹_› ‹_› ‹_› (fun e e' => hh ⟨e, e'⟩)
    · cases h
  · split at h
    · cases h
    · cases h; exact .shut ‹_› ‹_›
  · split at h
    · cases h
    · split at h
      · cases h; exact .done ‹_› ‹_› ‹_›
      · cases h

theorem lnext_of_recv {op : LOp} (hl : s.loop = .sel) (h : s.recvStep op = some s') : LNext cfg s op s' := by
  unfold LSt.recvStep at h
  split at h
  · split at h
    · cases h
    · cases h; exact .recvConnect hl ‹_›
  · split at h
    · cases h
    · split at h
      · split at h
        · cases h; exact .recvDrop hl ‹_› ‹_› ‹_›
        · cases h; exact .recvIgnore hl ‹_› ‹_› ‹_›
      · cases h
  · split at h
    · cases h
    · split at h
      · rename_i hh
        have hperm := List.isPerm_iff.mp hh.2
        split at h
        · cases h; exact .recvCast hl ‹_› hh.1 hperm ‹_›
        · rename_i hk; cases h; exact .recvAct hl ‹_› hh.1 hperm (fun e => hk e)
      · cases h
  · cases h

theorem lnext_of_step {op : LOp} (h : s.step cfg op = some s') : LNext cfg s op s' := by
  unfold LSt.step at h
  split at h
  · cases h; exact .upgrade
  · unfold LSt.upStep at h
    split at h
    · cases h
    · split at h
      · by_cases hf : s.flag = true
        · rw [if_pos hf] at h; cases h; exact .upRefuse ‹_› ‹_› hf
        · rw [if_neg hf] at h; cases h; exact .upPass ‹_› ‹_› (by simpa using hf)
      · split at h
        · cases h; exact .upSend ‹_› ‹_› ‹_›
        · cases h
      · cases h
  · split at h
    · cases h
    · split at h
      · cases h
      · rename_i x _ hu
        cases h
        exact .unwait _ ‹_› (by cases hx : x.up <;> simp_all)
  · split at h
    · cases h
    · split at h
      · cases h
      · rename_i x _ hu
        split at h
        · cases h
          exact .close ‹_› (by cases hx : x.up <;> simp_all) ‹_›
        · cases h
  · split at h
    · cases h
    · split at h
      · cases h; exact .closer ‹_› ‹_›
      · cases h
  · cases h; exact .call _
  · unfold LSt.callerStep at h
    split at h
    · cases h
    · split at h
      · split at h
        · cases h; exact .casFail ‹_› ‹_› ‹_›
        · cases h; exact .casWin ‹_› ‹_› (by simp_all)
      · cases h
  · exact lnext_of_loop h
  · split at h
    · exact lnext_of_recv ‹_› h
    · cases h

theorem lrun_append {ops ops' : List LOp} (h : s.run cfg ops = some s') :
    s.run cfg (ops ++ ops') = s'.run cfg ops' := by
  induction ops generalizing s with
  | nil => cases h; rfl
  | cons op ops ih =>
    simp only [LSt.run, List.cons_append] at h ⊢
    split at h
    · exact ih h
    · cases h

theorem lrun_ind {P : LSt → Prop} (hs : ∀ s op s', P s → LNext cfg s op s' → P s') {ops : List LOp} (h : P s)
    (hr : s.run cfg ops = some s') : P s' := by
  induction ops generalizing s with
  | nil => cases hr; exact h
  | cons op ops ih =>
    simp only [LSt.run] at hr
    split at hr
    · exact ih (hs _ _ _ h (lnext_of_step ‹_›)) hr
    · cases hr

theorem lreach_ind {P : LSt → Prop} (h0 : P {}) (hs : ∀ s op s', P s → LNext cfg s op s' → P s')
    (hr : LReach cfg s) : P s := by
  obtain ⟨ops, h⟩ := hr
  exact lrun_ind hs h0 h

theorem lreach_run {ops : List LOp} (hr : LReach cfg s) (h : s.run cfg ops = some s') : LReach cfg s' := by
  obtain ⟨ops0, h0⟩ := hr
  exact ⟨ops0 ++ ops, by rw [lrun_append h0]; exact h⟩

/-- connection `c`; the one `Upgrade` starts with if there is none -/
def LSt.conn (s : LSt) (c : Nat) : LConn := (s.conns[c]?).getD {}

theorem conn_of {c : Nat} {x : LConn} (h : s.conns[c]? = some x) : s.conn c = x := by simp [LSt.conn, h]

theorem conn_setC {c c' : Nat} {x y : LConn} (h : s.conns[c]? = some x) :
    (s.setC c y).conn c' = if c' = c then y else s.conn c' := by
  simp only [LSt.conn, LSt.setC, List.getElem?_set]
  have := (List.getElem?_eq_some_iff.mp h).1
  by_cases e : c = c'
  · subst e; simp [this]
  · rw [if_neg e, if_neg (Ne.symm e)]

theorem conn_upgrade {c : Nat} : ({ s with conns := s.conns ++ [{}] } : LSt).conn c = s.conn c := by
  simp only [LSt.conn, List.getElem?_append]
  by_cases h : c < s.conns.length
  · simp [h]
  · have h2 : s.conns[c]? = none := List.getElem?_eq_none (by omega)
    rw [if_neg h, h2]
    cases h' : c - s.conns.length <;> simp

section
variable {i : Nat} {x : LConn} {y : LCall}
@[simp] theorem setC_flag : (s.setC i x).flag = s.flag := rfl
@[simp] theorem setC_count : (s.setC i x).count = s.count := rfl
@[simp] theorem setC_regs : (s.setC i x).regs = s.regs := rfl
@[simp] theorem setC_buf : (s.setC i x).buf = s.buf := rfl
@[simp] theorem setC_calls : (s.setC i x).calls = s.calls := rfl
@[simp] theorem setC_loop : (s.setC i x).loop = s.loop := rfl
@[simp] theorem setC_log : (s.setC i x).log = s.log := rfl
@[simp] theorem setC_conns : (s.setC i x).conns = s.conns.set i x := rfl
@[simp] theorem setK_flag : (s.setK i y).flag = s.flag := rfl
@[simp] theorem setK_count : (s.setK i y).count = s.count := rfl
@[simp] theorem setK_regs : (s.setK i y).regs = s.regs := rfl
@[simp] theorem setK_buf : (s.setK i y).buf = s.buf := rfl
@[simp] theorem setK_conns : (s.setK i y).conns = s.conns := rfl
@[simp] theorem setK_loop : (s.setK i y).loop = s.loop := rfl
@[simp] theorem setK_log : (s.setK i y).log = s.log := rfl
@[simp] theorem setK_calls : (s.setK i y).calls = s.calls.set i y := rfl
end

/-- 1 if `p` holds, 0 otherwise -/
noncomputable def b01 (p : Prop) : Nat := open Classical in if p then 1 else 0

theorem b01_pos {p : Prop} (h : p) : b01 p = 1 := by simp [b01, h]
theorem b01_neg {p : Prop} (h : ¬p) : b01 p = 0 := by simp [b01, h]
@[simp] theorem b01_true : b01 True = 1 := b01_pos trivial
@[simp] theorem b01_false : b01 False = 0 := b01_neg id
theorem b01_le (p : Prop) : b01 p ≤ 1 := by
  by_cases h : p
  · rw [b01_pos h]; omega
  · rw [b01_neg h]; omega

/-- the connections still to be visited -/
def LoopPc.rest : LoopPc → List Nat
  | .cast _ r => r
  | .act _ r => r
  | .shut _ _ r => r
  | _ => []

/-- the connection the loop is closing -/
def LoopPc.shuts : LoopPc → Option Nat
  | .shut _ c _ => some c
  | _ => none

/-- Where connection `c` is, counted. -/
structure LPlace (buf : Option Nat) (regs : List Nat) (log : List LEv) (loop : LoopPc) (x : LConn) (c : Nat) :
    Prop where
  sent : b01 (buf = some c) + log.count (.reg c) = b01 (x.up = .sent)
  reg : regs.count c + log.count (.drop c) = log.count (.reg c)
  disc : log.count (.drop c) + log.count (.ignored c) = b01 (x.disc = .served)
  told : x.disc = .none ↔ x.cl ≠ .told
  early : x.up = .check ∨ x.up = .refused → x.cl = .open ∧ x.ready = none
  onDisc : log.count (.onDisc c) + b01 (loop = .dec c ∨ loop = .fire c) ≤ log.count (.drop c)
  exch : log.count (.exchDisc c) + b01 (loop = .dec c ∨ loop = .fire c ∨ loop = .exch c) ≤ log.count (.drop c)
  shuts : loop.shuts = some c ↔ x.cl = .firing true
  rest : loop.rest.count c ≤ regs.count c

theorem conn_same {t : LSt} {c : Nat} (h : t.conns = s.conns) : t.conn c = s.conn c := by
  simp only [LSt.conn, h]

theorem conn_set' {t : LSt} {c c' : Nat} {x y : LConn} (h : s.conns[c]? = some x) (ht : t.conns = s.conns.set c y) :
    t.conn c' = if c' = c then y else s.conn c' := by
  rw [← conn_setC h]
  exact conn_same ht

def LSt.Placed (s : LSt) : Prop := ∀ c, LPlace s.buf s.regs s.log s.loop (s.conn c) c

theorem placed_set {t : LSt} {d : Nat} {x y : LConn} (h : s.Placed) (hd : s.conns[d]? = some x)
    (ht : t.conns = s.conns.set d y)
    (h1 : ∀ c, c ≠ d → LPlace s.buf s.regs s.log s.loop (s.conn c) c → LPlace t.buf t.regs t.log t.loop (s.conn c) c)
    (h2 : LPlace s.buf s.regs s.log s.loop x d → LPlace t.buf t.regs t.log t.loop y d) : t.Placed := by
  intro c
  rw [conn_set' hd ht]
  by_cases e : c = d
  · subst e
    rw [if_pos rfl]
    refine h2 ?_
    have := h c
    rwa [conn_of hd] at this
  · rw [if_neg e]
    exact h1 c e (h c)

theorem placed_keep {t : LSt} (h : s.Placed) (ht : t.conns = s.conns)
    (h1 : ∀ c x, LPlace s.buf s.regs s.log s.loop x c → LPlace t.buf t.regs t.log t.loop x c) : t.Placed := by
  intro c
  rw [conn_same ht]
  exact h1 c _ (h c)


theorem placed_step {op : LOp} (h : s.Placed) (hx : LNext cfg s op s') : s'.Placed := by
  cases hx
  case upgrade => exact fun c => by rw [conn_upgrade]; exact h c
  case upRefuse d x hd hu hf =>
    refine placed_set h hd rfl (fun c _ h => h) (fun ⟨h1, h2, h3, h4, h5, h6, h7, h8, h9⟩ => ?_)
    exact ⟨by simpa [hu] using h1, h2, h3, h4, fun _ => h5 (.inl hu), h6, h7, h8, h9⟩
  case upPass d x hd hu hf =>
    refine placed_set h hd rfl (fun c _ h => h) (fun ⟨h1, h2, h3, h4, h5, h6, h7, h8, h9⟩ => ?_)
    exact ⟨by simpa [hu] using h1, h2, h3, h4, fun h => by simp at h, h6, h7, h8, h9⟩
  case upSend d x hd hu hb =>
    refine placed_set h hd rfl (fun c e ⟨h1, h2, h3, h4, h5, h6, h7, h8, h9⟩ => ?_)
      (fun ⟨h1, h2, h3, h4, h5, h6, h7, h8, h9⟩ => ?_)
    · exact ⟨by simpa [hb, Ne.symm e] using h1, h2, h3, h4, h5, h6, h7, h8, h9⟩
    · refine ⟨?_, h2, h3, h4, fun h => by simp at h, h6, h7, h8, h9⟩
      simp [hb, hu] at h1 ⊢
      exact h1
  case unwait d x e hd hu =>
    refine placed_set h hd rfl (fun c _ h => h) (fun ⟨h1, h2, h3, h4, h5, h6, h7, h8, h9⟩ => ?_)
    exact ⟨h1, h2, h3, h4, fun h => by simp at h; rcases h with h | h <;> simp [h] at hu, h6, h7, h8, h9⟩
  case close d x hd hu ho =>
    refine placed_set h hd rfl (fun c _ h => h) (fun ⟨h1, h2, h3, h4, h5, h6, h7, h8, h9⟩ => ?_)
    exact ⟨h1, h2, h3, by simpa [ho] using h4,
      fun h => by simp at h; rcases h with h | h <;> simp [h] at hu, h6, h7, by simpa [ho] using h8, h9⟩
  case closer d x hd ho =>
    refine placed_set h hd rfl (fun c _ h => h) (fun ⟨h1, h2, h3, h4, h5, h6, h7, h8, h9⟩ => ?_)
    have h4' : x.disc = .none := h4.mpr (by simp [ho])
    exact ⟨h1, h2, by simpa [h4'] using h3, by simp, fun h => by have := (h5 h).1; simp [ho] at this, h6, h7,
      by simpa [ho] using h8, h9⟩
  case actShut k d rest x y hl hk hd hk' ho =>
    have hs := h d
    have hin : d ∈ s.regs := by
      have := hs.rest
      rw [hl] at this
      simp only [LoopPc.rest, List.count_cons_self] at this
      exact List.count_pos_iff.mp (by omega)
    refine placed_set h hd rfl (fun c e ⟨h1, h2, h3, h4, h5, h6, h7, h8, h9⟩ => ?_)
      (fun ⟨h1, h2, h3, h4, h5, h6, h7, h8, h9⟩ => ?_)
    · simp [hl, LoopPc.shuts, LoopPc.rest, List.count_cons, Ne.symm e] at h6 h7 h8 h9
      constructor <;> (try simp [LoopPc.shuts, LoopPc.rest, List.count_append, List.count_cons, Ne.symm e]) <;> assumption
    · have := List.count_pos_iff.mpr hin
      have hup : y.up = .sent := by
        by_cases e : y.up = .sent
        · exact e
        · rw [b01_neg e] at h1; omega
      simp [hl, LoopPc.shuts, LoopPc.rest, List.count_cons] at h6 h7 h8 h9
      constructor <;> simp [LoopPc.shuts, LoopPc.rest, List.count_append, List.count_cons, hup]
      all_goals first | omega | (simp [ho] at h4; assumption) | (simp [hup] at h1; omega)
  case shut k d rest y hl hd =>
    have hc : y.cl = .firing true := by
      have := (h d).shuts
      rw [conn_of hd, hl] at this
      exact this.mp rfl
    refine placed_set h hd rfl (fun c e ⟨h1, h2, h3, h4, h5, h6, h7, h8, h9⟩ => ?_)
      (fun ⟨h1, h2, h3, h4, h5, h6, h7, h8, h9⟩ => ?_)
    · simp [hl, LoopPc.shuts, LoopPc.rest, Ne.symm e] at h6 h7 h8 h9
      constructor <;> (try simp [LoopPc.shuts, LoopPc.rest]) <;> assumption
    · simp [hl, LoopPc.shuts, LoopPc.rest] at h6 h7 h8 h9
      have hn := h4.mpr (by simp [hc])
      constructor <;> simp [LoopPc.shuts, LoopPc.rest]
      all_goals first
        | omega
        | assumption
        | (simp [hn] at h3; omega)
        | (simp [hc] at h5; simp [h5])
  case recvDrop d x hl hd hs hr =>
    have hp := List.count_pos_iff.mpr hr
    refine placed_set h hd rfl (fun c e ⟨h1, h2, h3, h4, h5, h6, h7, h8, h9⟩ => ?_)
      (fun ⟨h1, h2, h3, h4, h5, h6, h7, h8, h9⟩ => ?_)
    · simp [hl, LoopPc.shuts, LoopPc.rest] at h6 h7 h8 h9
      constructor <;> (try simp [LoopPc.shuts, LoopPc.rest, List.count_append, List.count_cons, Ne.symm e, List.count_erase]) <;> assumption
    · have h5' : x.cl = .told := by
        by_cases e : x.cl = .told
        · exact e
        · have := h4.mpr e; rw [hs] at this; cases this
      simp [hl, LoopPc.shuts, LoopPc.rest] at h6 h7 h8 h9
      simp [hs] at h3
      have := b01_le (x.up = .sent)
      constructor <;> simp [LoopPc.shuts, LoopPc.rest, List.count_append, List.count_cons, h5']
      all_goals first
        | omega
        | (intro e; have := (h5 e).1; simp [h5'] at this; done)
        | simp_all
  case recvIgnore d x hl hd hs hr =>
    have hp : List.count d s.regs = 0 := List.count_eq_zero.mpr hr
    refine placed_set h hd rfl (fun c e ⟨h1, h2, h3, h4, h5, h6, h7, h8, h9⟩ => ?_)
      (fun ⟨h1, h2, h3, h4, h5, h6, h7, h8, h9⟩ => ?_)
    · constructor <;> (try simp [List.count_append, List.count_cons, Ne.symm e]) <;> assumption
    · have h5' : x.cl = .told := by
        by_cases e : x.cl = .told
        · exact e
        · have := h4.mpr e; rw [hs] at this; cases this
      simp [hl, LoopPc.shuts, LoopPc.rest] at h6 h7 h8 h9
      simp [hs] at h3
      constructor <;> simp [LoopPc.shuts, LoopPc.rest, List.count_append, List.count_cons, h5', hl]
      all_goals first
        | omega
        | (intro e; have := (h5 e).1; simp [h5'] at this; done)
        | simp_all
  case recvConnect d hl hb =>
    refine placed_keep h rfl (fun c x ⟨h1, h2, h3, h4, h5, h6, h7, h8, h9⟩ => ?_)
    simp [hl, LoopPc.shuts, LoopPc.rest, hb] at h1 h6 h7 h8 h9
    by_cases e : d = c
    · subst e
      simp at h1
      constructor <;> (try simp [LoopPc.shuts, LoopPc.rest, List.count_append, List.count_cons])
      all_goals first | omega | assumption
    · simp [e] at h1
      constructor <;> (try simp [LoopPc.shuts, LoopPc.rest, List.count_append, List.count_cons, e]) <;> assumption
  case dec d hl =>
    refine placed_keep h rfl (fun c x ⟨h1, h2, h3, h4, h5, h6, h7, h8, h9⟩ => ?_)
    simp [hl, LoopPc.shuts, LoopPc.rest] at h6 h7 h8 h9
    constructor <;> (try simp [LoopPc.shuts, LoopPc.rest]) <;> assumption
  case fireSkip d x hl _ _ _ _ =>
    refine placed_keep h rfl (fun c x ⟨h1, h2, h3, h4, h5, h6, h7, h8, h9⟩ => ?_)
    simp [hl, LoopPc.shuts, LoopPc.rest] at h6 h7 h8 h9
    constructor <;> (try simp [LoopPc.shuts, LoopPc.rest])
    all_goals first | omega | assumption
  case fireNil d x hl _ _ =>
    refine placed_keep h rfl (fun c x ⟨h1, h2, h3, h4, h5, h6, h7, h8, h9⟩ => ?_)
    simp [hl, LoopPc.shuts, LoopPc.rest] at h6 h7 h8 h9
    constructor <;> (try simp [LoopPc.shuts, LoopPc.rest])
    all_goals first | omega | assumption
  case fireYes d x hl _ _ _ =>
    refine placed_keep h rfl (fun c x ⟨h1, h2, h3, h4, h5, h6, h7, h8, h9⟩ => ?_)
    simp [hl, LoopPc.shuts, LoopPc.rest] at h6 h7 h8 h9
    by_cases e : d = c
    · subst e
      simp at h6 h7
      constructor <;> (try simp [LoopPc.shuts, LoopPc.rest, List.count_append, List.count_cons])
      all_goals first | omega | assumption
    · simp [e] at h6 h7
      constructor <;> (try simp [LoopPc.shuts, LoopPc.rest, List.count_append, List.count_cons, e]) <;> assumption
  case exchYes d hl _ =>
    refine placed_keep h rfl (fun c x ⟨h1, h2, h3, h4, h5, h6, h7, h8, h9⟩ => ?_)
    simp [hl, LoopPc.shuts, LoopPc.rest] at h6 h7 h8 h9
    by_cases e : d = c
    · subst e
      simp at h6 h7
      constructor <;> (try simp [LoopPc.shuts, LoopPc.rest, List.count_append, List.count_cons])
      all_goals first | omega | assumption
    · simp [e] at h6 h7
      constructor <;> (try simp [LoopPc.shuts, LoopPc.rest, List.count_append, List.count_cons, e]) <;> assumption
  case exchNo d hl _ =>
    refine placed_keep h rfl (fun c x ⟨h1, h2, h3, h4, h5, h6, h7, h8, h9⟩ => ?_)
    simp [hl, LoopPc.shuts, LoopPc.rest] at h6 h7 h8 h9
    constructor <;> (try simp [LoopPc.shuts, LoopPc.rest])
    all_goals first | omega | assumption
  case castCons k d rest hl =>
    refine placed_keep h rfl (fun c x ⟨h1, h2, h3, h4, h5, h6, h7, h8, h9⟩ => ?_)
    simp [hl, LoopPc.shuts, LoopPc.rest, List.count_cons] at h6 h7 h8 h9
    constructor <;> (try simp [LoopPc.shuts, LoopPc.rest, List.count_append, List.count_cons])
    all_goals first | omega | assumption
  case actCons k d rest x y hl _ _ _ =>
    refine placed_keep h rfl (fun c x ⟨h1, h2, h3, h4, h5, h6, h7, h8, h9⟩ => ?_)
    simp [hl, LoopPc.shuts, LoopPc.rest, List.count_cons] at h6 h7 h8 h9
    constructor <;> (try simp [LoopPc.shuts, LoopPc.rest, List.count_append, List.count_cons])
    all_goals first | omega | assumption
  case recvCast k x order hl _ _ ho _ =>
    refine placed_keep h rfl (fun c x ⟨h1, h2, h3, h4, h5, h6, h7, h8, h9⟩ => ?_)
    simp [hl, LoopPc.shuts, LoopPc.rest] at h6 h7 h8 h9
    constructor <;> (try simp [LoopPc.shuts, LoopPc.rest, List.count_append, List.count_cons, ho.count_eq])
    all_goals first | omega | assumption
  case recvAct k x order hl _ _ ho _ =>
    refine placed_keep h rfl (fun c x ⟨h1, h2, h3, h4, h5, h6, h7, h8, h9⟩ => ?_)
    simp [hl, LoopPc.shuts, LoopPc.rest] at h6 h7 h8 h9
    constructor <;> (try simp [LoopPc.shuts, LoopPc.rest, List.count_append, List.count_cons, ho.count_eq])
    all_goals first | omega | assumption
  case call => exact placed_keep h rfl (fun _ _ h => h)
  case casFail => exact placed_keep h rfl (fun _ _ h => h)
  case casWin => exact placed_keep h rfl (fun _ _ h => h)
  case boot hl =>
    refine placed_keep h rfl (fun c x ⟨h1, h2, h3, h4, h5, h6, h7, h8, h9⟩ => ?_)
    simp [hl, LoopPc.shuts, LoopPc.rest] at h6 h7 h8 h9
    constructor <;> (try simp [LoopPc.shuts, LoopPc.rest]) <;> assumption
  case inc hl =>
    refine placed_keep h rfl (fun c x ⟨h1, h2, h3, h4, h5, h6, h7, h8, h9⟩ => ?_)
    simp [hl, LoopPc.shuts, LoopPc.rest] at h6 h7 h8 h9
    constructor <;> (try simp [LoopPc.shuts, LoopPc.rest]) <;> assumption
  case castNil k hl =>
    refine placed_keep h rfl (fun c x ⟨h1, h2, h3, h4, h5, h6, h7, h8, h9⟩ => ?_)
    simp [hl, LoopPc.shuts, LoopPc.rest] at h6 h7 h8 h9
    constructor <;> (try simp [LoopPc.shuts, LoopPc.rest]) <;> assumption
  case actSync k x hl _ _ =>
    refine placed_keep h rfl (fun c x ⟨h1, h2, h3, h4, h5, h6, h7, h8, h9⟩ => ?_)
    simp [hl, LoopPc.shuts, LoopPc.rest] at h6 h7 h8 h9
    constructor <;> (try simp [LoopPc.shuts, LoopPc.rest]) <;> assumption
  case actAsync k x hl _ _ =>
    refine placed_keep h rfl (fun c x ⟨h1, h2, h3, h4, h5, h6, h7, h8, h9⟩ => ?_)
    simp [hl, LoopPc.shuts, LoopPc.rest] at h6 h7 h8 h9
    constructor <;> (try simp [LoopPc.shuts, LoopPc.rest]) <;> assumption
  case done k x hl _ _ =>
    refine placed_keep h rfl (fun c x ⟨h1, h2, h3, h4, h5, h6, h7, h8, h9⟩ => ?_)
    simp [hl, LoopPc.shuts, LoopPc.rest] at h6 h7 h8 h9
    constructor <;> (try simp [LoopPc.shuts, LoopPc.rest]) <;> assumption

theorem lreach_placed (hr : LReach cfg s) : s.Placed :=
  lreach_ind (fun c => by constructor <;> simp [LSt.conn, LoopPc.shuts, LoopPc.rest]) (fun _ _ _ => placed_step) hr

/-- by how much the counter lags behind the map -/
def LoopPc.lag : LoopPc → BitVec 64
  | .inc => 1
  | .dec _ => BitVec.allOnes 64
  | _ => 0

theorem lcount_step {op : LOp} (h : s.count + s.loop.lag = BitVec.ofNat 64 s.regs.length)
    (hx : LNext cfg s op s') : s'.count + s'.loop.lag = BitVec.ofNat 64 s'.regs.length := by
  cases hx
  case recvConnect c hl hb =>
    replace h : s.count = BitVec.ofNat 64 s.regs.length := by simpa [hl, LoopPc.lag] using h
    simp [LoopPc.lag, h, BitVec.ofNat_add]
  case recvDrop c x hl hc hd hr =>
    replace h : s.count = BitVec.ofNat 64 s.regs.length := by simpa [hl, LoopPc.lag] using h
    have := List.length_pos_of_mem hr
    obtain ⟨n, hn⟩ : ∃ n, s.regs.length = n + 1 := ⟨s.regs.length - 1, by omega⟩
    have e : (1 : BitVec 64) + BitVec.allOnes 64 = 0 := by decide
    simp only [setC_count, setC_regs, LoopPc.lag, h, List.length_erase_of_mem hr, hn, Nat.add_sub_cancel, BitVec.ofNat_add]
    rw [BitVec.add_assoc]
    show _ + ((1 : BitVec 64) + BitVec.allOnes 64) = _
    rw [e]
    simp
  case inc hl => simpa [hl, LoopPc.lag] using h
  case dec c hl => simpa [hl, LoopPc.lag] using h
  all_goals first
    | exact h
    | (simp only [LoopPc.lag, *] at h ⊢; exact h)

theorem lreach_count (hr : LReach cfg s) : s.count + s.loop.lag = BitVec.ofNat 64 s.regs.length :=
  lreach_ind (P := fun s => s.count + s.loop.lag = BitVec.ofNat 64 s.regs.length) (by decide)
    (fun _ _ _ => lcount_step) hr

/-- the call that the loop serves -/
def LoopPc.call : LoopPc → Option Nat
  | .cast k _ => some k
  | .act k _ => some k
  | .shut k _ _ => some k
  | .done k => some k
  | _ => none

/-- Where a call is. -/
structure LCallAt (log : List LEv) (loop : LoopPc) (x : LCall) (k : Nat) : Prop where
  cas : x.pc = .cas → x.kind = .close
  before : x.pc = .cas ∨ x.pc = .send → log.count (.served k) = 0 ∧ loop.call ≠ some k
  once : log.count (.served k) ≤ 1
  served : loop.call = some k → log.count (.served k) = 1
  ret : x.pc = .ret → x.kind ≠ .close → log.count (.served k) = 1
  wait : x.pc = .wait → loop.call = some k ∧ x.kind.sync = true ∧ x.kind ≠ .cast ∧ log.count (.served k) = 1
  cast : ∀ r, loop = .cast k r → x.kind = .cast ∧ x.pc = .ret
  act : ∀ r, loop = .act k r → x.kind ≠ .cast ∧ x.pc = if x.kind.sync then .wait else .ret
  shut : ∀ c r, loop = .shut k c r → x.kind = .close ∧ x.pc = .wait
  done : loop = .done k → x.kind ≠ .cast ∧ x.kind.sync = true ∧ x.pc = .wait

structure LSt.Called (s : LSt) : Prop where
  each : ∀ k x, s.calls[k]? = some x → LCallAt s.log s.loop x k
  absent : ∀ k, s.calls[k]? = none → s.loop.call ≠ some k ∧ s.log.count (.served k) = 0

theorem called_keep {t : LSt} (h : s.Called) (hc : t.calls = s.calls) (hl : t.loop.call = s.loop.call)
    (hn : ∀ k, t.log.count (.served k) = s.log.count (.served k))
    (h1 : ∀ k x, s.calls[k]? = some x → LCallAt s.log s.loop x k → LCallAt t.log t.loop x k) : t.Called := by
  refine ⟨fun k x hk => h1 k x (hc ▸ hk) (h.each k x (hc ▸ hk)), fun k hk => ?_⟩
  rw [hl, hn]
  exact h.absent k (hc ▸ hk)

theorem called_same {t : LSt} (h : s.Called) (hc : t.calls = s.calls) (hl : t.loop = s.loop)
    (hn : ∀ k, t.log.count (.served k) = s.log.count (.served k)) : t.Called := by
  refine called_keep h hc (by rw [hl]) hn (fun k x _ ⟨h0, h1, h2, h3, h4, h5, h6, h7, h8, h9⟩ => ?_)
  constructor <;> (try rw [hl]) <;> (try rw [hn]) <;> assumption

/-- from and to a place where no call is served -/
theorem called_plain {t : LSt} (h : s.Called) (hc : t.calls = s.calls) (h0 : s.loop.call = none)
    (h1 : t.loop.call = none) (hn : ∀ k, t.log.count (.served k) = s.log.count (.served k)) : t.Called := by
  refine called_keep h hc (by rw [h0, h1]) hn (fun k x _ ⟨a0, a1, a2, a3, a4, a5, a6, a7, a8, a9⟩ => ?_)
  rw [h0] at a1 a3 a5
  refine ⟨a0, fun e => ?_, ?_, fun e => ?_, fun e e' => ?_, fun e => ?_, fun r e => ?_, fun r e => ?_, fun c r e => ?_, fun e => ?_⟩
  · rw [hn, h1]; exact a1 e
  · rw [hn]; exact a2
  · rw [h1] at e; cases e
  · rw [hn]; exact a4 e e'
  · have := (a5 e).1; cases this
  all_goals rw [e] at h1; cases h1

theorem called_set {t : LSt} {j : Nat} {x y : LCall} (h : s.Called) (hj : s.calls[j]? = some x)
    (hc : t.calls = s.calls.set j y)
    (h1 : ∀ k z, k ≠ j → LCallAt s.log s.loop z k → LCallAt t.log t.loop z k)
    (h2 : LCallAt s.log s.loop x j → LCallAt t.log t.loop y j)
    (h3 : ∀ k, k ≠ j → s.loop.call ≠ some k ∧ s.log.count (.served k) = 0 →
      t.loop.call ≠ some k ∧ t.log.count (.served k) = 0) : t.Called := by
  have hlt := (List.getElem?_eq_some_iff.mp hj).1
  constructor
  · intro k z hk
    rw [hc, List.getElem?_set] at hk
    by_cases e : j = k
    · subst e
      rw [if_pos rfl, if_pos hlt] at hk
      cases hk
      exact h2 (h.each j x hj)
    · rw [if_neg e] at hk
      exact h1 k z (Ne.symm e) (h.each k z hk)
  · intro k hk
    rw [hc, List.getElem?_set] at hk
    by_cases e : j = k
    · subst e
      rw [if_pos rfl, if_pos hlt] at hk
      cases hk
    · rw [if_neg e] at hk
      exact h3 k (Ne.symm e) (h.absent k hk)

/-- from a place where call `j` is served to one where none is -/
theorem called_leave {t : LSt} {j : Nat} (h : s.Called) (hc : t.calls = s.calls) (h0 : s.loop.call = some j)
    (h1 : t.loop.call = none) (hn : t.log = s.log) (hj : ∀ x, s.calls[j]? = some x → x.pc ≠ .wait) : t.Called := by
  refine ⟨fun k x hk => ?_, fun k hk => ?_⟩
  · rw [hc] at hk
    obtain ⟨a0, a1, a2, a3, a4, a5, a6, a7, a8, a9⟩ := h.each k x hk
    rw [← hn] at a1 a2 a4
    refine ⟨a0, fun e => ⟨(a1 e).1, by rw [h1]; simp⟩, a2, fun e => ?_, a4, fun e => ?_, fun r e => ?_, fun r e => ?_, fun c r e => ?_, fun e => ?_⟩
    · rw [h1] at e; cases e
    · have := (a5 e).1
      rw [h0] at this; cases this
      exact absurd e (hj x hk)
    all_goals rw [e] at h1; cases h1
  · rw [hc] at hk
    rw [h1, hn]
    exact ⟨by simp, (h.absent k hk).2⟩

/-- between places where the same call is served -/
theorem called_within {t : LSt} {j : Nat} {x : LCall} (h : s.Called) (hc : t.calls = s.calls) (h0 : s.loop.call = some j)
    (h1 : t.loop.call = some j) (hn : ∀ k, t.log.count (.served k) = s.log.count (.served k)) (hj : s.calls[j]? = some x)
    (h2 : LCallAt s.log s.loop x j →
      (∀ r, t.loop = .cast j r → x.kind = .cast ∧ x.pc = .ret) ∧
      (∀ r, t.loop = .act j r → x.kind ≠ .cast ∧ x.pc = if x.kind.sync then .wait else .ret) ∧
      (∀ c r, t.loop = .shut j c r → x.kind = .close ∧ x.pc = .wait) ∧
      (t.loop = .done j → x.kind ≠ .cast ∧ x.kind.sync = true ∧ x.pc = .wait)) : t.Called := by
  refine called_keep h hc (by rw [h0, h1]) hn (fun k z hk hz => ?_)
  obtain ⟨a0, a1, a2, a3, a4, a5, a6, a7, a8, a9⟩ := hz
  rw [h0, ← h1] at a1 a3 a5
  simp only [← hn] at a1 a2 a3 a4 a5
  by_cases e : k = j
  · subst e
    rw [hj] at hk; cases hk
    obtain ⟨b1, b2, b3, b4⟩ := h2 (h.each k x hj)
    exact ⟨a0, a1, a2, a3, a4, a5, b1, b2, b3, b4⟩
  · refine ⟨a0, a1, a2, a3, a4, a5, fun r e' => ?_, fun r e' => ?_, fun c r e' => ?_, fun e' => ?_⟩
    all_goals rw [e'] at h1; cases h1; exact absurd rfl e

theorem called_step {op : LOp} (h : s.Called) (hx : LNext cfg s op s') : s'.Called := by
  cases hx
  case call kd =>
    constructor
    · intro k x hk
      simp only [List.getElem?_append] at hk
      split at hk
      · exact h.each k x hk
      · rename_i hlt
        obtain ⟨a1, a2⟩ := h.absent k (List.getElem?_eq_none (by omega))
        cases hd : k - s.calls.length with
        | succ n => rw [hd] at hk; simp at hk
        | zero =>
          rw [hd] at hk
          simp only [List.getElem?_cons_zero, Option.some.injEq] at hk
          subst hk
          refine ⟨fun e => ?_, fun _ => ⟨a2, a1⟩, by show s.log.count _ ≤ 1; omega, fun e => absurd e a1, fun e => ?_, fun e => ?_, fun r e => ?_, fun r e => ?_, fun c r e => ?_, fun e => ?_⟩
          · dsimp only at e
            split at e
            · assumption
            · cases e
          · dsimp only at e; split at e <;> cases e
          · dsimp only at e; split at e <;> cases e
          all_goals (rw [e] at a1; exact absurd rfl a1)
    · intro k hk
      refine h.absent k ?_
      simp only [List.getElem?_eq_none_iff, List.length_append] at hk ⊢
      omega
  case casFail j x hj hp hf =>
    refine called_set h hj rfl (fun k z _ h => h) (fun ⟨a0, a1, a2, a3, a4, a5, a6, a7, a8, a9⟩ => ?_) (fun k _ h => h)
    have hk := a0 hp
    obtain ⟨b1, b2⟩ := a1 (.inl hp)
    refine ⟨fun e => ?_, fun e => ?_, a2, fun e => absurd e b2, fun _ e => absurd hk e, fun e => ?_, fun r e => ?_, fun r e => ?_, fun c r e => ?_, fun e => ?_⟩
    · cases e
    · rcases e with e | e <;> cases e
    · cases e
    all_goals
      have e : s.loop = _ := e
      rw [e] at b2
      exact absurd rfl b2
  case casWin j x hj hp hf =>
    refine called_set h hj rfl (fun k z _ h => h) (fun ⟨a0, a1, a2, a3, a4, a5, a6, a7, a8, a9⟩ => ?_) (fun k _ h => h)
    have hk := a0 hp
    obtain ⟨b1, b2⟩ := a1 (.inl hp)
    refine ⟨fun e => ?_, fun e => ⟨b1, b2⟩, a2, fun e => absurd e b2, fun _ e => absurd hk e, fun e => ?_, fun r e => ?_, fun r e => ?_, fun c r e => ?_, fun e => ?_⟩
    · cases e
    · cases e
    all_goals
      have e : s.loop = _ := e
      rw [e] at b2
      exact absurd rfl b2
  case done j x hl hj hp =>
    refine called_set h hj rfl (fun k z hk ⟨a0, a1, a2, a3, a4, a5, a6, a7, a8, a9⟩ => ?_)
      (fun ⟨a0, a1, a2, a3, a4, a5, a6, a7, a8, a9⟩ => ?_) (fun k hk h => ⟨by simp [LoopPc.call], h.2⟩)
    · rw [hl] at a1 a3 a5
      refine ⟨a0, fun e => ⟨(a1 e).1, by simp [LoopPc.call]⟩, a2, fun e => by simp [LoopPc.call] at e, a4, fun e => ?_, ?_, ?_, ?_, ?_⟩
      · have := (a5 e).1
        simp only [LoopPc.call, Option.some.injEq] at this
        exact absurd this.symm hk
      all_goals simp
    · rw [hl] at a3
      refine ⟨by simp, by simp, a2, fun e => by simp [LoopPc.call] at e, fun _ _ => a3 rfl, by simp, by simp, by simp, by simp, by simp⟩
  case recvCast j x order hl hj hp ho hk =>
    refine called_set h hj rfl (fun k z hk ⟨a0, a1, a2, a3, a4, a5, a6, a7, a8, a9⟩ => ?_)
      (fun ⟨a0, a1, a2, a3, a4, a5, a6, a7, a8, a9⟩ => ?_)
      (fun k hk h => ⟨by simpa [LoopPc.call] using Ne.symm hk, by simpa [List.count_append, List.count_cons, Ne.symm hk] using h.2⟩)
    · rw [hl] at a5
      have hne : j ≠ k := Ne.symm hk
      refine ⟨a0, fun e => ⟨by simpa [List.count_append, List.count_cons, hne] using (a1 e).1, by simpa [LoopPc.call] using hne⟩,
        by simpa [List.count_append, List.count_cons, hne] using a2, fun e => by simp [LoopPc.call, hne] at e,
        fun e e' => by simpa [List.count_append, List.count_cons, hne] using a4 e e', fun e => ?_, ?_, ?_, ?_, ?_⟩
      · have := (a5 e).1; cases this
      all_goals simp [hne]
    · have := (a1 (.inr hp)).1
      refine ⟨by simp, by simp, by simp [List.count_append, this], fun _ => by simp [List.count_append, this],
        fun _ _ => by simp [List.count_append, this], by simp, by simp [hk], by simp, by simp, by simp⟩
  case recvAct j x order hl hj hp ho hk =>
    refine called_set h hj rfl (fun k z hk ⟨a0, a1, a2, a3, a4, a5, a6, a7, a8, a9⟩ => ?_)
      (fun ⟨a0, a1, a2, a3, a4, a5, a6, a7, a8, a9⟩ => ?_)
      (fun k hk h => ⟨by simpa [LoopPc.call] using Ne.symm hk, by simpa [List.count_append, List.count_cons, Ne.symm hk] using h.2⟩)
    · rw [hl] at a5
      have hne : j ≠ k := Ne.symm hk
      refine ⟨a0, fun e => ⟨by simpa [List.count_append, List.count_cons, hne] using (a1 e).1, by simpa [LoopPc.call] using hne⟩,
        by simpa [List.count_append, List.count_cons, hne] using a2, fun e => by simp [LoopPc.call, hne] at e,
        fun e e' => by simpa [List.count_append, List.count_cons, hne] using a4 e e', fun e => ?_, ?_, ?_, ?_, ?_⟩
      · have := (a5 e).1; cases this
      all_goals simp [hne]
    · have := (a1 (.inr hp)).1
      have hs : (if x.kind.sync = true then CallPc.wait else CallPc.ret) = .wait → x.kind.sync = true := by
        intro e; split at e
        · assumption
        · cases e
      refine ⟨fun e => ?_, fun e => ?_, by simp [List.count_append, this], fun _ => by simp [List.count_append, this],
        fun _ _ => by simp [List.count_append, this],
        fun e => ⟨rfl, hs e, hk, by simp [List.count_append, this]⟩, by simp, fun r e => ⟨hk, rfl⟩, by simp, by simp⟩
      · dsimp only at e; split at e <;> cases e
      · dsimp only at e
        split at e <;> rcases e with e | e <;> cases e
  case castNil j hl =>
    refine called_leave (j := j) h rfl (by rw [hl]; rfl) rfl rfl (fun x hx e => ?_)
    have := ((h.each j x hx).cast _ hl).2
    rw [e] at this; cases this
  case actAsync j x hl hj hs =>
    refine called_leave (j := j) h rfl (by rw [hl]; rfl) rfl rfl (fun z hz e => ?_)
    rw [hj] at hz; cases hz
    have := ((h.each j x hj).act _ hl).2
    rw [hs, e] at this; cases this
  case castCons j c rest hl =>
    cases hj : s.calls[j]? with
    | none => exact absurd (by rw [hl]; rfl) (h.absent j hj).1
    | some x =>
      refine called_within (j := j) h rfl (by rw [hl]; rfl) rfl (by simp [List.count_append]) hj (fun ha => ⟨fun r e => ha.cast _ hl, ?_, ?_, ?_⟩)
      all_goals simp
  case actSync j x hl hj hs =>
    refine called_within (j := j) h rfl (by rw [hl]; rfl) rfl (by simp) hj (fun ha => ⟨by simp, by simp, by simp, fun _ => ?_⟩)
    have := ha.act _ hl
    rw [hs] at this
    exact ⟨this.1, hs, this.2⟩
  case actShut j c rest x y hl hj hc hk ho =>
    refine called_within (j := j) h rfl (by rw [hl]; rfl) rfl (by simp [List.count_append]) hj
      (fun ha => ⟨by simp, by simp, fun _ _ _ => ?_, by simp⟩)
    have := ha.act _ hl
    rw [hk] at this
    exact ⟨hk, this.2⟩
  case actCons j c rest x y hl hj hc hk =>
    exact called_within (j := j) h rfl (by rw [hl]; rfl) rfl (by simp [List.count_append]) hj
      (fun ha => ⟨by simp, fun _ _ => ha.act _ hl, by simp, by simp⟩)
  case shut j c rest y hl hc =>
    cases hj : s.calls[j]? with
    | none => exact absurd (by rw [hl]; rfl) (h.absent j hj).1
    | some x =>
      refine called_within (j := j) h rfl (by rw [hl]; rfl) rfl (by simp [List.count_append]) hj
        (fun ha => ⟨by simp, fun _ _ => ?_, by simp, by simp⟩)
      obtain ⟨hk, hp⟩ := ha.shut _ _ hl
      exact ⟨by simp [hk], by simp [hk, hp, LKind.sync]⟩
  all_goals first
    | exact called_same h rfl rfl (fun _ => rfl)
    | exact called_same h rfl rfl (by simp [List.count_append])
    | exact called_plain h rfl (by simp [*, LoopPc.call]) rfl (by simp [List.count_append])

theorem lreach_called (hr : LReach cfg s) : s.Called :=
  lreach_ind (P := LSt.Called) ⟨by simp, by simp [LoopPc.call]⟩ (fun _ _ _ => called_step) hr

/-- What a step does to one connection. -/
inductive CNext (x : LConn) : LConn → Prop where
  | same : CNext x x
  | refuse (h : x.up = .check) : CNext x { x with up := .refused }
  | pass (h : x.up = .check) : CNext x { x with up := .send }
  | send (h : x.up = .send) : CNext x { x with up := .sent }
  | unwait (e : Bool) (h : x.up = .send ∨ x.up = .sent) :
      CNext x { x with ready := if x.ready = none then some e else x.ready }
  | close (b : Bool) (h : x.up = .send ∨ x.up = .sent) (ho : x.cl = .open) : CNext x { x with cl := .firing b }
  | told (b : Bool) (ho : x.cl = .firing b) : CNext x { x with cl := .told, disc := .sending }
  | serve (h : x.disc = .sending) : CNext x { x with disc := .served }

theorem cnext_set {t : LSt} {c d : Nat} {x y : LConn} (hd : s.conns[d]? = some x) (ht : t.conns = s.conns.set d y)
    (h : CNext x y) : CNext (s.conn c) (t.conn c) := by
  rw [conn_set' hd ht]
  by_cases e : c = d
  · subst e; rw [if_pos rfl, conn_of hd]; exact h
  · rw [if_neg e]; exact .same

theorem cnext_same {t : LSt} {c : Nat} (ht : t.conns = s.conns) : CNext (s.conn c) (t.conn c) := by
  rw [conn_same ht]; exact .same

theorem rest_sent {d : Nat} (hpl : s.Placed) (h : d ∈ s.loop.rest) : (s.conn d).up = .sent := by
  have h0 := (hpl d).rest
  have h1 := (hpl d).sent; have h2 := (hpl d).reg
  have h3 := List.count_pos_iff.mpr h
  by_cases e : (s.conn d).up = .sent
  · exact e
  · rw [b01_neg e] at h1; omega

theorem cnext_of {op : LOp} (hpl : s.Placed) (hx : LNext cfg s op s') (c : Nat) : CNext (s.conn c) (s'.conn c) := by
  cases hx
  case upgrade => rw [conn_upgrade]; exact .same
  case upRefuse hu _ => exact cnext_set ‹_› rfl (.refuse hu)
  case upPass hu _ => exact cnext_set ‹_› rfl (.pass hu)
  case upSend hu _ => exact cnext_set ‹_› rfl (.send hu)
  case unwait e _ hu => exact cnext_set ‹_› rfl (.unwait e hu)
  case close hu ho => exact cnext_set ‹_› rfl (.close false hu ho)
  case closer ho => exact cnext_set ‹_› rfl (.told false ho)
  case actShut k d rest x y hl _ hd _ ho =>
    have := rest_sent (d := d) hpl (by rw [hl]; simp [LoopPc.rest])
    rw [conn_of hd] at this
    exact cnext_set hd rfl (.close true (.inr this) ho)
  case shut k d rest y hl hd =>
    have := (hpl d).shuts
    rw [conn_of hd, hl] at this
    exact cnext_set hd rfl (.told true (this.mp rfl))
  case recvDrop hd hs hr => exact cnext_set ‹_› rfl (.serve ‹_›)
  case recvIgnore hd hs hr => exact cnext_set ‹_› rfl (.serve ‹_›)
  all_goals exact cnext_same rfl

theorem cnext_served {x y : LConn} (h : CNext x y) (h1 : x.disc = .served) (h2 : x.cl = .told) :
    y.disc = .served ∧ y.cl = .told := by
  cases h <;> simp_all

theorem cnext_closed {x y : LConn} (h : CNext x y) (h1 : x.cl ≠ .open) : y.cl ≠ .open := by
  cases h <;> simp_all

theorem cnext_told {x y : LConn} (h : CNext x y) (h1 : x.cl = .told) : y.cl = .told := by
  cases h <;> simp_all

theorem cnext_refused {x y : LConn} (h : CNext x y) (h1 : x.up = .refused) : y.up = .refused := by
  cases h <;> simp_all

/-- a registered connection stays registered until its disconnection is received -/
theorem regs_next {op : LOp} {c : Nat} (hx : LNext cfg s op s') (h : c ∈ s.regs) :
    c ∈ s'.regs ∨ (s.conn c).disc = .sending ∧ (s'.conn c).disc = .served := by
  cases hx
  case recvDrop d x hl hd hs hr =>
    by_cases e : c = d
    · subst e
      refine .inr ⟨by rw [conn_of hd]; exact hs, ?_⟩
      rw [conn_set' (y := { x with disc := .served }) hd rfl, if_pos rfl]
    · exact .inl ((List.mem_erase_of_ne e).mpr h)
  case recvConnect => exact .inl (List.mem_cons_of_mem _ h)
  all_goals exact .inl h

/-- the log only grows -/
theorem log_next {op : LOp} (hx : LNext cfg s op s') : ∃ l, s'.log = s.log ++ l := by
  cases hx <;> first | exact ⟨[], (List.append_nil _).symm⟩ | exact ⟨_, rfl⟩

theorem log_run {ops : List LOp} (h : s.run cfg ops = some s') : ∃ l, s'.log = s.log ++ l := by
  refine lrun_ind (P := fun t => ∃ l, t.log = s.log ++ l) (fun t op t' ⟨l, hl⟩ hx => ?_) ⟨[], by simp⟩ h
  obtain ⟨l', hl'⟩ := log_next hx
  exact ⟨l ++ l', by rw [hl', hl, List.append_assoc]⟩

/-- an invariant along a run from a state that some schedule reaches -/
theorem lrun_placed {P : LSt → Prop} (hs : ∀ t op t', LReach cfg t → P t → LNext cfg t op t' → P t')
    {ops : List LOp} (hr : LReach cfg s) (h : P s) (hx : s.run cfg ops = some s') : P s' := by
  induction ops generalizing s with
  | nil => cases hx; exact h
  | cons op ops ih =>
    simp only [LSt.run] at hx
    split at hx
    · rename_i t ht
      exact ih (lreach_run (ops := [op]) hr (by simp [LSt.run, ht])) (hs _ _ _ hr h (lnext_of_step ht)) hx
    · cases hx

end Neffos
