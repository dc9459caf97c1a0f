import Verif.Spec.Turns
import Verif.Props.ServerLoop
/-!
# C141: the loop of a server does one thing after the other
-/
set_option autoImplicit false
namespace Neffos
open Spec

variable {cfg : LCfg} {s s' : LSt}

namespace Turns

/-- a turn that is under way -/
def Under (cfg : LCfg) (s : LSt) : Prop :=
  match s.loop with
  | .dec c => ∃ r l, Spec.Turns cfg r l ∧ c ∈ r ∧ .ignored c ∉ l ∧ s.regs = r.erase c ∧ s.log = l ++ [.drop c]
  | .fire c => ∃ r l, Spec.Turns cfg r l ∧ c ∈ r ∧ .ignored c ∉ l ∧ s.regs = r.erase c ∧ s.log = l ++ [.drop c]
  | .exch c => ∃ r l, Spec.Turns cfg r l ∧ c ∈ r ∧ .ignored c ∉ l ∧ s.regs = r.erase c ∧
      s.log = l ++ .drop c :: (if cfg.onDisc then [.onDisc c] else [])
  | .cast k rest => ∃ l done, Spec.Turns cfg s.regs l ∧ .served k ∉ l ∧ (done ++ rest).Perm s.regs ∧
      s.log = l ++ .served k :: done.map (fun c => .offered c k)
  | .act k rest => ∃ l done, Spec.Turns cfg s.regs l ∧ .served k ∉ l ∧ (done ++ rest).Perm s.regs ∧
      s.log = l ++ .served k :: done.map (fun c => .offered c k)
  | .shut k _ rest => ∃ l done, Spec.Turns cfg s.regs l ∧ .served k ∉ l ∧ (done ++ rest).Perm s.regs ∧
      s.log = l ++ .served k :: done.map (fun c => .offered c k)
  | _ => Spec.Turns cfg s.regs s.log

theorem same {t : LSt} (h : Under cfg s) (h1 : t.loop = s.loop) (h2 : t.regs = s.regs) (h3 : t.log = s.log) : Under cfg t := by
  unfold Under at h ⊢
  rw [h1, h2, h3]; exact h

theorem at_sel (h : Under cfg s) (hl : s.loop = .sel) : Spec.Turns cfg s.regs s.log := by
  unfold Under at h; rw [hl] at h; exact h

theorem visit {k c : Nat} {rest : List Nat}
    (h : ∃ l done, Spec.Turns cfg s.regs l ∧ .served k ∉ l ∧ (done ++ c :: rest).Perm s.regs ∧
      s.log = l ++ .served k :: done.map (fun c => .offered c k)) :
    ∃ l done, Spec.Turns cfg s.regs l ∧ .served k ∉ l ∧ (done ++ rest).Perm s.regs ∧
      s.log ++ [.offered c k] = l ++ .served k :: done.map (fun c => .offered c k) := by
  obtain ⟨l, done, h1, h2, h3, h4⟩ := h
  exact ⟨l, done ++ [c], h1, h2, by simpa using h3, by rw [h4]; simp⟩

theorem over {k : Nat}
    (h : ∃ l done, Spec.Turns cfg s.regs l ∧ .served k ∉ l ∧ (done ++ []).Perm s.regs ∧
      s.log = l ++ .served k :: done.map (fun c => .offered c k)) : Spec.Turns cfg s.regs s.log := by
  obtain ⟨l, done, h1, h2, h3, h4⟩ := h
  rw [h4]
  exact .call h1 h2 (by simpa using h3)

theorem step {op : LOp} (hr : LReach cfg s) (h : Under cfg s) (hx : LNext cfg s op s') : Under cfg s' := by
  have hp := lreach_placed hr
  cases hx
  case boot hl => unfold Under at h ⊢; rw [hl] at h; exact h
  case inc hl => unfold Under at h ⊢; rw [hl] at h; exact h
  case dec hl => unfold Under at h ⊢; rw [hl] at h; exact h
  case fireSkip c x hl hc hd ha hy =>
    unfold Under at h ⊢; rw [hl] at h
    obtain ⟨r, l, h1, h2, h3, h4, h5⟩ := h
    show Spec.Turns cfg s.regs s.log
    rw [h4, h5]
    exact .drop h1 h2 h3 (.inl ⟨hd, ha, rfl⟩)
  case fireYes c x hl hc hd ha =>
    unfold Under at h ⊢; rw [hl] at h
    obtain ⟨r, l, h1, h2, h3, h4, h5⟩ := h
    exact ⟨r, l, h1, h2, h3, h4, by simp [h5, hd]⟩
  case fireNil c x hl hc hd =>
    unfold Under at h ⊢; rw [hl] at h
    obtain ⟨r, l, h1, h2, h3, h4, h5⟩ := h
    exact ⟨r, l, h1, h2, h3, h4, by simp [h5, hd]⟩
  case exchYes c hl he =>
    unfold Under at h ⊢; rw [hl] at h
    obtain ⟨r, l, h1, h2, h3, h4, h5⟩ := h
    show Spec.Turns cfg s.regs (s.log ++ [.exchDisc c])
    rw [h4, h5]
    have := Spec.Turns.drop h1 h2 h3 (.inr rfl)
    simpa [he] using this
  case exchNo c hl he =>
    unfold Under at h ⊢; rw [hl] at h
    obtain ⟨r, l, h1, h2, h3, h4, h5⟩ := h
    show Spec.Turns cfg s.regs s.log
    rw [h4, h5]
    have := Spec.Turns.drop h1 h2 h3 (.inr rfl)
    simpa [he] using this
  case castNil hl => unfold Under at h ⊢; rw [hl] at h; exact over h
  case castCons hl => unfold Under at h ⊢; rw [hl] at h; exact visit h
  case actSync hl _ _ => unfold Under at h ⊢; rw [hl] at h; exact over h
  case actAsync hl _ _ => unfold Under at h ⊢; rw [hl] at h; exact over h
  case actShut hl _ _ _ _ => unfold Under at h ⊢; rw [hl] at h; exact visit h
  case actCons hl _ _ _ => unfold Under at h ⊢; rw [hl] at h; exact visit h
  case shut hl _ => unfold Under at h ⊢; rw [hl] at h; exact h
  case done hl _ _ => unfold Under at h ⊢; rw [hl] at h; exact h
  case recvConnect c hl hb =>
    have h3 := (hp c).sent
    have h5 := b01_le ((s.conn c).up = .sent)
    rw [b01_pos hb] at h3
    exact .reg (at_sel h hl) (List.count_eq_zero.mp (by omega))
  case recvDrop c x hl hc hs hg =>
    have h3 := (hp c).disc
    rw [conn_of hc, b01_neg (by rw [hs]; simp)] at h3
    exact ⟨s.regs, s.log, at_sel h hl, hg, List.count_eq_zero.mp (by omega), rfl, rfl⟩
  case recvIgnore c x hl hc hs hg =>
    have h3 := (hp c).disc; have h4 := (hp c).reg
    have h5 := List.count_eq_zero.mpr hg
    rw [conn_of hc, b01_neg (by rw [hs]; simp)] at h3
    unfold Under
    simp only [setC_loop, hl]
    exact .ignored (at_sel h hl) (List.count_eq_zero.mp (by omega)) (List.count_eq_zero.mp (by omega))
  case recvCast k x order hl hk hpc ho _ =>
    have := (((lreach_called hr).each k x hk).before (.inr hpc)).1
    exact ⟨s.log, [], at_sel h hl, List.count_eq_zero.mp this, by simpa using ho, rfl⟩
  case recvAct k x order hl hk hpc ho _ =>
    have := (((lreach_called hr).each k x hk).before (.inr hpc)).1
    exact ⟨s.log, [], at_sel h hl, List.count_eq_zero.mp this, by simpa using ho, rfl⟩
  all_goals exact same h rfl rfl rfl

theorem under (hr : LReach cfg s) : Under cfg s := by
  obtain ⟨ops, hx⟩ := hr
  exact lrun_placed (P := Under cfg) (fun _ _ _ hr h hx => step hr h hx) ⟨[], rfl⟩ .start hx

end Turns

/-- C141: whenever the loop waits for its next turn, its log consists of whole turns, however the goroutines that use it were
interleaved: nothing comes between the visits of one call, each of them visits the connections that are registered then, all of
them and once, and nothing comes between the removal of a connection and the word of it. -/
theorem c141_turns (hr : LReach cfg s) (hl : s.loop = .sel) : Turns cfg s.regs s.log := Turns.at_sel (Turns.under hr) hl

/-- C141: while it visits the connections for a call, the log consists of whole turns and of this one, as far as it is, and the
connections still to be visited are the rest of the registered ones. -/
theorem c141_visits {k : Nat} {rest : List Nat} (hr : LReach cfg s) (hl : s.loop = .cast k rest ∨ s.loop = .act k rest) :
    ∃ l done, Turns cfg s.regs l ∧ .served k ∉ l ∧ (done ++ rest).Perm s.regs ∧
      s.log = l ++ .served k :: done.map (fun c => .offered c k) := by
  have h := Turns.under hr
  unfold Turns.Under at h
  rcases hl with e | e <;> rw [e] at h <;> exact h

/-! ## Every sequence of turns happens -/

namespace Turns

theorem next {op : LOp} (hr : LReach cfg s) (h : s.step cfg op = some s') : LReach cfg s' :=
  lreach_run (ops := [op]) hr (by simp [LSt.run, h])

/-- a server that has done `l`, with connections below `n` and broadcasts below `m` ready for what may come -/
structure Stage (cfg : LCfg) (n m : Nat) (r : List Nat) (l : List LEv) (s : LSt) : Prop where
  reach : LReach cfg s
  sel : s.loop = .sel
  buf : s.buf = none
  regs : s.regs = r
  log : s.log = l
  fresh : ∀ c < n, .reg c ∉ l → ∃ x, s.conns[c]? = some x ∧ x.up = .send ∧ x.ready = none ∧ (.ignored c ∉ l → x.cl = .open)
  here : ∀ c ∈ r, .ignored c ∉ l → ∃ x, s.conns[c]? = some x ∧ x.up = .sent ∧ x.ready = none ∧ x.cl = .open
  calls : ∀ k < m, .served k ∉ l → s.calls[k]? = some { kind := .cast, pc := .send }

theorem opening (cfg : LCfg) (n m : Nat) : ∃ s, Stage cfg n m [] [] s := by
  have h1 : ∀ n, ∃ s, LReach cfg s ∧ s.log = [] ∧ s.loop = .sel ∧ s.buf = none ∧ s.regs = [] ∧ s.flag = false ∧ s.calls = [] ∧
      s.conns = List.replicate n { up := .send } := by
    intro n
    induction n with
    | zero => exact ⟨_, next (op := .loop) ⟨[], rfl⟩ rfl, rfl, rfl, rfl, rfl, rfl, rfl, rfl⟩
    | succ n ih =>
      obtain ⟨s, hr, h1, h2, h3, h4, h5, h6, h7⟩ := ih
      have hr' := next (op := .upgrade) hr rfl
      have hu : ({ s with conns := s.conns ++ [{}] } : LSt).step cfg (.up n) =
          some (({ s with conns := s.conns ++ [{}] } : LSt).setC n { up := .send }) := by
        have hc : (s.conns ++ [({} : LConn)])[n]? = some {} := by rw [h7]; simp
        simp only [LSt.step, LSt.upStep, hc, h5]
        rfl
      refine ⟨_, next hr' hu, h1, h2, h3, h4, h5, h6, ?_⟩
      show (s.conns ++ [({} : LConn)]).set n { up := .send } = _
      rw [h7, List.replicate_succ', List.set_append]
      simp
  have h2 : ∀ m, ∃ s, LReach cfg s ∧ s.log = [] ∧ s.loop = .sel ∧ s.buf = none ∧ s.regs = [] ∧
      s.calls = List.replicate m { kind := .cast, pc := .send } ∧ s.conns = List.replicate n { up := .send } := by
    intro m
    induction m with
    | zero =>
      obtain ⟨s, hr, h1, h2, h3, h4, h5, h6, h7⟩ := h1 n
      exact ⟨s, hr, h1, h2, h3, h4, h6, h7⟩
    | succ m ih =>
      obtain ⟨s, hr, h1, h2, h3, h4, h6, h7⟩ := ih
      refine ⟨_, next (op := .call .cast) hr rfl, h1, h2, h3, h4, ?_, h7⟩
      show s.calls ++ [_] = _
      rw [h6, List.replicate_succ']; rfl
  obtain ⟨s, hr, h1, h2, h3, h4, h6, h7⟩ := h2 m
  refine ⟨s, hr, h2, h3, h4, h1, fun c hc _ => ⟨{ up := .send }, by rw [h7]; simp [hc], rfl, rfl, fun _ => rfl⟩, by simp,
    fun k hk _ => by rw [h6]; simp [hk]⟩

variable {n m : Nat} {r : List Nat} {l : List LEv} {c k : Nat}

theorem do_reg (h : Stage cfg n m r l s) (hc : c < n) (h1 : .reg c ∉ l) : ∃ t, Stage cfg n m (c :: r) (l ++ [.reg c]) t := by
  obtain ⟨x, hx, hu, hy, ho⟩ := h.fresh c hc h1
  have hlt : c < s.conns.length := (List.getElem?_eq_some_iff.mp hx).1
  have e1 : s.step cfg (.up c) = some { s.setC c { x with up := .sent } with buf := some c } := by
    simp only [LSt.step, LSt.upStep, hx, hu, h.buf]
  have r2 := next (op := .recvConnect) (next h.reach e1) (by simp only [LSt.step, setC_loop, h.sel, if_pos, LSt.recvStep]; rfl)
  have r3 := next (op := .loop) r2 rfl
  refine ⟨_, r3, rfl, rfl, by simp [h.regs], by simp [h.log], fun d hd hn => ?_, fun d hd hn => ?_, fun k hk hn => ?_⟩
  · have hne : c ≠ d := by rintro rfl; simp at hn
    obtain ⟨y, q1, q2, q3, q4⟩ := h.fresh d hd (fun hm => hn (List.mem_append_left _ hm))
    exact ⟨y, by simp [List.getElem?_set_ne hne, q1], q2, q3, fun hi => q4 fun hm => hi (List.mem_append_left _ hm)⟩
  · have hi : LEv.ignored d ∉ l := fun hm => hn (List.mem_append_left _ hm)
    by_cases e : c = d
    · subst e
      exact ⟨{ x with up := .sent }, by simp [hlt], rfl, hy, ho hi⟩
    · have hd' : d ∈ r := (List.mem_cons.mp hd).resolve_left (Ne.symm e)
      obtain ⟨y, q1, q2, q3, q4⟩ := h.here d hd' hi
      exact ⟨y, by simp [List.getElem?_set_ne e, q1], q2, q3, q4⟩
  · exact h.calls k hk fun hm => hn (List.mem_append_left _ hm)

theorem do_close {x : LConn} (hr : LReach cfg s) (hx : s.conns[c]? = some x) (hu : x.up = .send ∨ x.up = .sent) (ho : x.cl = .open) :
    LReach cfg (s.setC c { x with cl := .told, disc := .sending }) := by
  have hlt : c < s.conns.length := (List.getElem?_eq_some_iff.mp hx).1
  have h1 : s.step cfg (.close c) = some (s.setC c { x with cl := .firing false }) := by
    simp only [LSt.step, hx, ho, if_pos]
    rw [if_neg (by rcases hu with h | h <;> simp [h])]
  have h3 : (s.setC c { x with cl := .firing false }).step cfg (.closer c) =
      some (s.setC c { x with cl := .told, disc := .sending }) := by
    simp [LSt.step, hlt, LSt.setC]
  exact next (next hr h1) h3

theorem reg_of (h : Stage cfg n m r l s) (hc : c ∈ r) : .reg c ∈ l := by
  have h1 := (lreach_placed h.reach c).reg
  have h2 := List.count_pos_iff.mpr hc
  rw [h.regs, h.log] at h1
  exact List.count_pos_iff.mp (by omega)

theorem do_ignored (h : Stage cfg n m r l s) (hc : c < n) (h1 : .reg c ∉ l) (h2 : .ignored c ∉ l) :
    ∃ t, Stage cfg n m r (l ++ [.ignored c]) t := by
  obtain ⟨x, hx, hu, hy, ho⟩ := h.fresh c hc h1
  have hlt : c < s.conns.length := (List.getElem?_eq_some_iff.mp hx).1
  have hg : c ∉ s.regs := fun hm => h1 (reg_of h (h.regs ▸ hm))
  have r1 := do_close h.reach hx (.inl hu) (ho h2)
  have e2 : (s.setC c { x with cl := .told, disc := .sending }).step cfg (.recvDisc c) =
      some { s.setC c { x with cl := .told, disc := .served } with log := s.log ++ [.ignored c] } := by
    simp [LSt.step, h.sel, LSt.recvStep, hlt, hg, LSt.setC]
  refine ⟨_, next r1 e2, h.sel, h.buf, h.regs, by simp [h.log], fun d hd hn => ?_, fun d hd hn => ?_, fun k hk hn => ?_⟩
  · have hn' : LEv.reg d ∉ l := fun hm => hn (List.mem_append_left _ hm)
    by_cases e : c = d
    · subst e
      exact ⟨{ x with cl := .told, disc := .served }, by simp [hlt], hu, hy, fun hi => absurd (by simp) hi⟩
    · obtain ⟨y, q1, q2, q3, q4⟩ := h.fresh d hd hn'
      exact ⟨y, by simp [List.getElem?_set_ne e, q1], q2, q3, fun hi => q4 fun hm => hi (List.mem_append_left _ hm)⟩
  · have hne : c ≠ d := by rintro rfl; simp at hn
    obtain ⟨y, q1, q2, q3, q4⟩ := h.here d hd (fun hm => hn (List.mem_append_left _ hm))
    exact ⟨y, by simp [List.getElem?_set_ne hne, q1], q2, q3, q4⟩
  · exact h.calls k hk fun hm => hn (List.mem_append_left _ hm)

/-- the connection is removed, with its readiness as given -/
theorem do_remove (h : Stage cfg n m r l s) (hc : c ∈ r) (h2 : .ignored c ∉ l) (b : Option Bool) (hb : b = none ∨ b = some false) :
    ∃ t x, LReach cfg t ∧ t.loop = .fire c ∧ t.buf = none ∧ t.regs = r.erase c ∧ t.log = l ++ [.drop c] ∧ t.calls = s.calls ∧
      t.conns = s.conns.set c x ∧ c < s.conns.length ∧ x.ready = b := by
  obtain ⟨x, hx, hu, hy, ho⟩ := h.here c hc h2
  have hlt : c < s.conns.length := (List.getElem?_eq_some_iff.mp hx).1
  have r0 : LReach cfg (s.setC c { x with ready := b }) := by
    rcases hb with rfl | rfl
    · have : s.setC c { x with ready := none } = s := by
        have e : ({ x with ready := none } : LConn) = x := by rw [← hy]
        rw [e]
        obtain ⟨_, e'⟩ := List.getElem?_eq_some_iff.mp hx
        unfold LSt.setC
        rw [← e', List.set_getElem_self]
      rw [this]; exact h.reach
    · refine next (op := .unwait c false) h.reach ?_
      simp only [LSt.step, hx, hu, hy]
      rfl
  have hx0 : (s.setC c { x with ready := b }).conns[c]? = some { x with ready := b } := by simp [hlt]
  have r1 := do_close r0 hx0 (.inr hu) ho
  have hss : ∀ y z : LConn, (s.setC c y).setC c z = s.setC c z := by intro y z; simp [LSt.setC]
  rw [hss] at r1
  have e2 : (s.setC c { x with ready := b, cl := .told, disc := .sending }).step cfg (.recvDisc c) =
      some { s.setC c { x with ready := b, cl := .told, disc := .served } with
        regs := s.regs.erase c, loop := .dec c, log := s.log ++ [.drop c] } := by
    simp [LSt.step, h.sel, LSt.recvStep, hlt, h.regs, hc, LSt.setC]
  have r2 := next r1 e2
  have r3 := next (op := .loop) r2 rfl
  exact ⟨_, _, r3, rfl, h.buf, by simp [h.regs], by simp [h.log], rfl, rfl, hlt, rfl⟩

theorem after_drop {t : LSt} {x : LConn} {told : List LEv} (h : Stage cfg n m r l s) (hc : c ∈ r) (hr : LReach cfg t)
    (hl : t.loop = .sel) (hb : t.buf = none) (hg : t.regs = r.erase c) (hlog : t.log = l ++ .drop c :: told) (hk : t.calls = s.calls)
    (hcs : t.conns = s.conns.set c x) : Stage cfg n m (r.erase c) (l ++ .drop c :: told) t := by
  have hnd : r.Nodup := h.regs ▸ (c35_count h.reach).1
  refine ⟨hr, hl, hb, hg, hlog, fun d hd hn => ?_, fun d hd hn => ?_, fun k hk' hn => ?_⟩
  · have hn' : LEv.reg d ∉ l := fun hm => hn (List.mem_append_left _ hm)
    have hne : c ≠ d := by rintro rfl; exact hn' (reg_of h hc)
    obtain ⟨y, q1, q2, q3, q4⟩ := h.fresh d hd hn'
    exact ⟨y, by rw [hcs, List.getElem?_set_ne hne, q1], q2, q3, fun hi => q4 fun hm => hi (List.mem_append_left _ hm)⟩
  · have hne : c ≠ d := by rintro rfl; exact (List.Nodup.not_mem_erase hnd) hd
    obtain ⟨y, q1, q2, q3, q4⟩ := h.here d (List.mem_of_mem_erase hd) (fun hm => hn (List.mem_append_left _ hm))
    exact ⟨y, by rw [hcs, List.getElem?_set_ne hne, q1], q2, q3, q4⟩
  · rw [hk]; exact h.calls k hk' fun hm => hn (List.mem_append_left _ hm)

theorem do_drop {told : List LEv} (h : Stage cfg n m r l s) (hc : c ∈ r) (h2 : .ignored c ∉ l) (h3 : Told cfg c told) :
    ∃ t, Stage cfg n m (r.erase c) (l ++ .drop c :: told) t := by
  rcases h3 with ⟨hd, ha, rfl⟩ | rfl
  · obtain ⟨t, x, hr, hl, hb, hg, hlog, hk, hcs, hlt, hx⟩ := do_remove h hc h2 none (.inl rfl)
    have e : t.step cfg .loop = some { t with loop := .sel } := by
      simp [LSt.step, LSt.loopStep, hl, hcs, hlt, hd, ha, hx]
    exact ⟨_, after_drop h hc (next hr e) rfl hb hg hlog hk hcs⟩
  · obtain ⟨t, x, hr, hl, hb, hg, hlog, hk, hcs, hlt, hx⟩ := do_remove h hc h2 (some false) (.inr rfl)
    have e : t.step cfg .loop = some { t with log := t.log ++ (if cfg.onDisc then [.onDisc c] else []), loop := .exch c } := by
      by_cases hd : cfg.onDisc = true
      · simp [LSt.step, LSt.loopStep, hl, hcs, hlt, hd, hx]
      · simp [LSt.step, LSt.loopStep, hl, hcs, hlt, hd]
    have r2 := next (op := .loop) (next hr e) rfl
    refine ⟨_, after_drop h hc r2 rfl hb hg ?_ hk hcs⟩
    by_cases he : cfg.exch = true <;> simp [he, hlog]

theorem do_call {order : List Nat} (h : Stage cfg n m r l s) (hk : k < m) (h1 : .served k ∉ l) (h2 : order.Perm r) :
    ∃ t, Stage cfg n m r (l ++ .served k :: order.map (fun c => .offered c k)) t := by
  have h0 := h.calls k hk h1
  have hp : order.isPerm s.regs = true := List.isPerm_iff.mpr (h.regs ▸ h2)
  have e1 : s.step cfg (.recvCall k order) = some { s.setK k { kind := .cast, pc := .ret } with
      loop := .cast k order, log := s.log ++ [.served k] } := by
    simp [LSt.step, h.sel, LSt.recvStep, h0, hp]
  have walk : ∀ (o : List Nat) (t : LSt), LReach cfg t → t.loop = .cast k o → ∃ u, LReach cfg u ∧
      u = { t with loop := .sel, log := t.log ++ o.map (fun c => .offered c k) } := by
    intro o
    induction o with
    | nil =>
      intro t hr hl
      exact ⟨_, next (op := .loop) hr (by simp only [LSt.step, LSt.loopStep, hl]; rfl), by simp⟩
    | cons d o ih =>
      intro t hr hl
      have := next (op := .loop) hr (by simp only [LSt.step, LSt.loopStep, hl]; rfl)
      obtain ⟨u, hu, e⟩ := ih _ this rfl
      exact ⟨u, hu, by rw [e]; simp⟩
  obtain ⟨u, hu, rfl⟩ := walk order _ (next h.reach e1) rfl
  have keep : ∀ {e : LEv}, e ∉ l ++ .served k :: order.map (fun c => .offered c k) → e ∉ l := fun hn hm =>
    hn (List.mem_append_left _ hm)
  refine ⟨_, hu, rfl, h.buf, h.regs, by simp [h.log], fun d hd hn => ?_, fun d hd hn => ?_, fun j hj hn => ?_⟩
  · obtain ⟨y, q1, q2, q3, q4⟩ := h.fresh d hd (keep hn)
    exact ⟨y, q1, q2, q3, fun hi => q4 (keep hi)⟩
  · exact h.here d hd (by
      intro hm; exact hn (List.mem_append_left _ hm))
  · have hne : k ≠ j := by rintro rfl; simp at hn
    show (s.calls.set k _)[j]? = _
    rw [List.getElem?_set_ne hne]
    exact h.calls j hj (keep hn)

theorem all {r : List Nat} {l : List LEv} (h : Spec.Turns cfg r l) (hn : ∀ c, .reg c ∈ l ∨ .ignored c ∈ l → c < n)
    (hm : ∀ k, .served k ∈ l → k < m) : ∃ s, Stage cfg n m r l s := by
  have left : ∀ {a b : List LEv}, (∀ c, .reg c ∈ a ++ b ∨ .ignored c ∈ a ++ b → c < n) →
      ∀ c, .reg c ∈ a ∨ .ignored c ∈ a → c < n := fun hn c h =>
    hn c (h.imp (List.mem_append_left _) (List.mem_append_left _))
  have left' : ∀ {a b : List LEv}, (∀ k, .served k ∈ a ++ b → k < m) → ∀ k, .served k ∈ a → k < m := fun hm k h =>
    hm k (List.mem_append_left _ h)
  induction h with
  | start => exact opening cfg n m
  | reg h h1 ih =>
    obtain ⟨s, hs⟩ := ih (left hn) (left' hm)
    exact do_reg hs (hn _ (.inl (by simp))) h1
  | drop h h1 h2 h3 ih =>
    obtain ⟨s, hs⟩ := ih (left hn) (left' hm)
    exact do_drop hs h1 h2 h3
  | ignored h h1 h2 ih =>
    obtain ⟨s, hs⟩ := ih (left hn) (left' hm)
    exact do_ignored hs (hn _ (.inr (by simp))) h1 h2
  | call h h1 h2 ih =>
    obtain ⟨s, hs⟩ := ih (left hn) (left' hm)
    exact do_call hs (hm _ (by simp)) h1 h2

theorem bounds (l : List LEv) : ∃ n m, (∀ c, .reg c ∈ l ∨ .ignored c ∈ l → c < n) ∧ ∀ k, .served k ∈ l → k < m := by
  induction l with
  | nil => exact ⟨0, 0, by simp, by simp⟩
  | cons e l ih =>
    obtain ⟨n, m, h1, h2⟩ := ih
    cases e with
    | reg d =>
      refine ⟨n + d + 1, m, fun c hc => ?_, fun k hk => h2 k (by simpa using hk)⟩
      simp only [List.mem_cons, LEv.reg.injEq, reduceCtorEq, false_or] at hc
      rcases hc with (rfl | h) | h
      · omega
      · have := h1 c (.inl h); omega
      · have := h1 c (.inr h); omega
    | ignored d =>
      refine ⟨n + d + 1, m, fun c hc => ?_, fun k hk => h2 k (by simpa using hk)⟩
      simp only [List.mem_cons, LEv.ignored.injEq, reduceCtorEq, false_or] at hc
      rcases hc with h | (rfl | h)
      · have := h1 c (.inl h); omega
      · omega
      · have := h1 c (.inr h); omega
    | served d =>
      refine ⟨n, m + d + 1, fun c hc => h1 c (by simpa using hc), fun k hk => ?_⟩
      simp only [List.mem_cons, LEv.served.injEq] at hk
      rcases hk with rfl | h
      · omega
      · have := h2 k h; omega
    | _ => exact ⟨n, m, fun c hc => h1 c (by simpa using hc), fun k hk => h2 k (by simpa using hk)⟩

end Turns

/-- C141: and each sequence of turns is what the loop of some server has done, with these connections registered. -/
theorem c141_each {r : List Nat} {l : List LEv} (h : Turns cfg r l) : ∃ s, LReach cfg s ∧ s.loop = .sel ∧ s.regs = r ∧ s.log = l := by
  obtain ⟨n, m, h1, h2⟩ := Turns.bounds l
  obtain ⟨s, hs⟩ := Turns.all h h1 h2
  exact ⟨s, hs.reach, hs.sel, hs.regs, hs.log⟩

/-! ## Two connections, where the first closes while it is brought a broadcast -/

def turnOps : List LOp :=
  [.loop, .upgrade, .up 0, .up 0, .recvConnect, .loop, .unwait 0 false, .upgrade, .up 1, .up 1, .recvConnect, .loop, .call .cast,
    .call (.act false), .recvCall 0 [0, 1], .close 0, .loop, .closer 0, .loop, .loop, .recvDisc 0, .loop, .upgrade, .up 2, .loop, .loop,
    .recvCall 1 [1], .up 2, .loop]

example : ∃ s t, LReach { exch := true } s ∧ s.loop = .act 1 [] ∧ s.regs = [1] ∧
    s.log = [.reg 0, .reg 1, .served 0, .offered 0 0, .offered 1 0, .drop 0, .onDisc 0, .exchDisc 0, .served 1, .offered 1 1] ∧
    s.run { exch := true } [.loop, .loop, .recvConnect, .loop] = some t ∧ t.loop = .sel ∧ t.regs = [2, 1] ∧
    t.log = s.log ++ [.reg 2] := by
  refine ⟨lafter { exch := true } turnOps, lafter { exch := true } (turnOps ++ [.loop, .loop, .recvConnect, .loop]),
    lafter_reach (by decide +kernel), ?_, ?_, ?_, ?_, ?_, ?_, ?_⟩ <;> decide +kernel

end Neffos
