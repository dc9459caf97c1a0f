import Verif.Props.ServerLoop
/-! C112: what exactly is fired for a connection that the server removes. -/
set_option autoImplicit false
namespace Neffos

/-- The moment at which the loop looks at the removed connection `c`, server.go:181-184: the schedule `ops` has
the loop go on after `pre`, in state `t`, where it is about to look. -/
structure Look (cfg : LCfg) (c : Nat) (ops pre post : List LOp) (t : LSt) : Prop where
  split : ops = pre ++ .loop :: post
  at_ : LSt.run cfg {} pre = some t
  pc : t.loop = .fire c

namespace Gone
variable {cfg : LCfg} {s s' : LSt}

/-- in whose stead the loop is past the look -/
theorem to_look {c : Nat} {ops : List LOp} (hr : LReach cfg s)
    (h : .drop c ∉ s.log ∨ s.loop = .dec c ∨ s.loop = .fire c) (hx : s.run cfg ops = some s')
    (hd : .drop c ∈ s'.log) (hl : s'.loop = .sel) :
    ∃ pre post t, ops = pre ++ .loop :: post ∧ s.run cfg pre = some t ∧ t.loop = .fire c := by
  induction ops generalizing s with
  | nil =>
    cases hx
    rcases h with h | h | h
    · exact absurd hd h
    · rw [hl] at h; cases h
    · rw [hl] at h; cases h
  | cons op ops ih =>
    by_cases hf : op = .loop ∧ s.loop = .fire c
    · exact ⟨[], ops, s, by rw [hf.1]; rfl, rfl, hf.2⟩
    · rcases hs : s.step cfg op with _ | u
      · simp [LSt.run, hs] at hx
      · simp only [LSt.run, hs] at hx
        have hn := lnext_of_step hs
        have hu : .drop c ∉ u.log ∨ u.loop = .dec c ∨ u.loop = .fire c := by
          cases hn
          case recvDrop d x hl hd' hs' hr' =>
            by_cases e : d = c
            · subst e; exact .inr (.inl rfl)
            · have : c ≠ d := Ne.symm e
              simp_all
          all_goals (simp_all <;> done)
        obtain ⟨pre, post, t, h1, h2, h3⟩ := ih (lreach_run (ops := [op]) hr (by simp [LSt.run, hs])) hu hx
        exact ⟨op :: pre, post, t, by rw [h1]; rfl, by simp [LSt.run, hs, h2], h3⟩

/-- past the look with the exchange to be told -/
theorem from_exch {c n : Nat} {ops : List LOp} (hr : LReach cfg s) (hl : s.loop = .exch c)
    (h0 : s.log.count (.onDisc c) = n) (h1 : s.log.count (.exchDisc c) = 0) (hx : s.run cfg ops = some s')
    (hl' : s'.loop = .sel) :
    s'.log.count (.onDisc c) = n ∧ s'.log.count (.exchDisc c) = if cfg.exch then 1 else 0 := by
  induction ops generalizing s with
  | nil => cases hx; rw [hl] at hl'; cases hl'
  | cons op ops ih =>
    rcases hs : s.step cfg op with _ | u
    · simp [LSt.run, hs] at hx
    · simp only [LSt.run, hs] at hx
      have hn := lnext_of_step hs
      have hru : LReach cfg u := lreach_run (ops := [op]) hr (by simp [LSt.run, hs])
      have hdu : .drop c ∈ s.log := by
        have := (lreach_placed hr c).exch
        rw [b01_pos (.inr (.inr hl))] at this
        exact List.count_pos_iff.mp (by omega)
      cases hn
      case exchYes d hl2 he =>
        rw [hl] at hl2; cases hl2
        have := left_for_good (c := c) hru (by simp [hdu]) (by simp) (by simp) (by simp) hx
        simp_all [List.count_append]
      case exchNo d hl2 he =>
        rw [hl] at hl2; cases hl2
        have := left_for_good (c := c) hru (by simp [hdu]) (by simp) (by simp) (by simp) hx
        simp_all
      all_goals first
        | exact ih hru hl h0 h1 hx
        | (exfalso; simp_all; done)

/-- the loop does not come back to a connection that it looked at -/
theorem no_return {c : Nat} {ops : List LOp} {t : LSt} (hr : LReach cfg t) (h : t.loop = .fire c)
    (hx : t.run cfg (.loop :: ops) = some s') : s'.loop ≠ .fire c := by
  have hd : .drop c ∈ t.log := by
    have := (lreach_placed hr c).onDisc
    rw [b01_pos (.inr h)] at this
    exact List.count_pos_iff.mp (by omega)
  rcases hs : t.step cfg .loop with _ | u
  · simp [LSt.run, hs] at hx
  · have hru : LReach cfg u := lreach_run (ops := [.loop]) hr (by simp [LSt.run, hs])
    simp only [LSt.run, hs] at hx
    have hu : .drop c ∈ u.log ∧ u.loop ≠ .dec c ∧ u.loop ≠ .fire c := by
      have hn := lnext_of_step hs
      generalize hop : LOp.loop = op at hn
      cases hn
      all_goals first
        | (simp_all; done)
        | cases hop
    refine (lrun_placed (P := fun t => .drop c ∈ t.log ∧ t.loop ≠ .dec c ∧ t.loop ≠ .fire c)
      (fun t op t' hr ⟨hd, h1, h2⟩ hx => ?_) hru hu hx).2.2
    have hnot := (drop_reg hr (List.count_pos_iff.mpr hd)).2.2.1
    cases hx
    case recvDrop d x hl hd' hs hr' =>
      have : d ≠ c := by intro e; subst e; exact hnot hr'
      simp_all
    all_goals first
      | exact ⟨hd, h1, h2⟩
      | (simp_all; done)

end Gone
open Gone

variable {cfg : LCfg} {s : LSt}

/-- C112: it does so once. -/
theorem c112_once {c : Nat} {ops pre post pre' post' : List LOp} {t t' : LSt} (h : Look cfg c ops pre post t)
    (h' : Look cfg c ops pre' post' t') : pre = pre' ∧ post = post' ∧ t = t' := by
  have key : ∀ {pre post pre' post' : List LOp} {t t' : LSt}, Look cfg c ops pre post t → Look cfg c ops pre' post' t' →
      ∀ r, pre' = pre ++ .loop :: r → False := by
    intro pre post pre' post' t t' h h' r e
    have h2 := h'.at_
    rw [e, lrun_append h.at_] at h2
    exact no_return ⟨_, h.at_⟩ h.pc h2 h'.pc
  have e := h.split.symm.trans h'.split
  have hp : pre = pre' := by
    rcases List.append_eq_append_iff.mp e with ⟨r, h1, h2⟩ | ⟨r, h1, h2⟩
    · rcases r with _ | ⟨op, r⟩
      · simpa using h1.symm
      · simp only [List.cons_append, List.cons.injEq] at h2
        rw [← h2.1] at h1
        exact (key h h' r h1).elim
    · rcases r with _ | ⟨op, r⟩
      · simpa using h1
      · simp only [List.cons_append, List.cons.injEq] at h2
        rw [← h2.1] at h1
        exact (key h' h r h1).elim
  subst hp
  refine ⟨rfl, by simpa using e, ?_⟩
  have := h.at_.symm.trans h'.at_
  simpa using this

/-- C112: the loop looks at every connection that it removed. -/
theorem c112_look {c : Nat} {ops : List LOp} (hx : LSt.run cfg {} ops = some s) (hd : .drop c ∈ s.log)
    (hl : s.loop = .sel) : ∃ pre post t, Look cfg c ops pre post t := by
  obtain ⟨pre, post, t, h1, h2, h3⟩ := to_look (c := c) ⟨[], rfl⟩ (.inl (by simp)) hx hd hl
  exact ⟨pre, post, t, h1, h2, h3⟩

/-- C112: what the loop finds at that moment decides, for good: `OnDisconnect` is fired if it is set and the
connection is then ready without error, or FireDisconnectAlways is set; the StackExchange is told in these cases
and if no `OnDisconnect` is set. -/
theorem c112_exact {c : Nat} {ops pre post : List LOp} {t : LSt} (hx : LSt.run cfg {} ops = some s)
    (hl : s.loop = .sel) (hk : Look cfg c ops pre post t) :
    s.log.count (.onDisc c) = (if cfg.onDisc = true ∧ (cfg.always = true ∨ (t.conn c).ready = some false) then 1 else 0) ∧
    s.log.count (.exchDisc c) =
      (if cfg.exch = true ∧ (cfg.onDisc = false ∨ cfg.always = true ∨ (t.conn c).ready = some false) then 1 else 0) := by
  obtain ⟨h1, h2, h3⟩ := hk
  have hr : LReach cfg t := ⟨_, h2⟩
  have hp := lreach_placed hr c
  have k1 := hp.onDisc; have k2 := hp.exch; have k3 := hp.sent; have k4 := hp.reg
  have k5 := b01_le ((t.conn c).up = .sent)
  rw [b01_pos (.inr h3)] at k1
  rw [b01_pos (.inr (.inl h3))] at k2
  have n1 : t.log.count (.onDisc c) = 0 := by omega
  have n2 : t.log.count (.exchDisc c) = 0 := by omega
  have hd : .drop c ∈ t.log := List.count_pos_iff.mp (by omega)
  rw [h1, lrun_append h2] at hx
  rcases hs : t.step cfg .loop with _ | u
  · simp [LSt.run, hs] at hx
  · have hru : LReach cfg u := lreach_run (ops := [.loop]) hr (by simp [LSt.run, hs])
    simp only [LSt.run, hs] at hx
    have hn := lnext_of_step hs
    generalize hop : LOp.loop = op at hn
    cases hn
    case fireSkip d x hl2 hc ha1 ha2 ha3 =>
      rw [h3] at hl2; cases hl2
      have := left_for_good (c := c) hru (by simp [hd]) (by simp) (by simp) (by simp) hx
      rw [conn_of hc]
      simp_all
    case fireYes d x hl2 hc ha1 ha2 =>
      rw [h3] at hl2; cases hl2
      have := from_exch (c := c) (n := 1) hru rfl (by simp [List.count_append, n1]) (by simp [List.count_append, n2]) hx hl
      rw [conn_of hc]
      simp_all
    case fireNil d x hl2 hc ha1 =>
      rw [h3] at hl2; cases hl2
      have := from_exch (c := c) (n := 0) hru rfl (by simp [n1]) (by simp [n2]) hx hl
      simp_all
    all_goals first
      | (exfalso; simp_all; done)
      | cases hop

/-- C112: with an `OnDisconnect` the StackExchange is told of exactly those connections that it was fired for. -/
theorem c112_same {c : Nat} (hr : LReach cfg s) (hl : s.loop = .sel) (h1 : cfg.onDisc = true) (h2 : cfg.exch = true) :
    .exchDisc c ∈ s.log ↔ .onDisc c ∈ s.log := by
  obtain ⟨ops, hx⟩ := hr
  by_cases hd : .drop c ∈ s.log
  · obtain ⟨pre, post, t, hk⟩ := c112_look hx hd hl
    obtain ⟨e1, e2⟩ := c112_exact hx hl hk
    simp only [← List.count_pos_iff, e1, e2, h1, h2]
    simp
  · have hp := lreach_placed ⟨ops, hx⟩ c
    have k1 := hp.onDisc; have k2 := hp.exch
    rw [← List.count_eq_zero] at hd
    simp only [← List.count_pos_iff]
    omega

/-- C112: without an `OnDisconnect` it is told of every removed connection. -/
theorem c112_none {c : Nat} (hr : LReach cfg s) (hl : s.loop = .sel) (h1 : cfg.onDisc = false) (h2 : cfg.exch = true) :
    .exchDisc c ∈ s.log ↔ .drop c ∈ s.log := by
  obtain ⟨ops, hx⟩ := hr
  by_cases hd : .drop c ∈ s.log
  · obtain ⟨pre, post, t, hk⟩ := c112_look hx hd hl
    obtain ⟨e1, e2⟩ := c112_exact hx hl hk
    simp only [← List.count_pos_iff, e2, h1, h2]
    simp [hd]
  · have hp := lreach_placed ⟨ops, hx⟩ c
    have k2 := hp.exch
    have hd' := hd
    rw [← List.count_eq_zero] at hd'
    simp only [hd, iff_false, ← List.count_eq_zero]
    omega

/-- ready only after the loop looked: nothing is fired, although the connection is ready without error in the end -/
example : ∃ s pre post t,
    let ops : List LOp := [.loop, .upgrade, .up 0, .up 0, .recvConnect, .loop, .close 0, .closer 0, .recvDisc 0,
      .loop, .loop, .unwait 0 false]
    LSt.run { exch := true } {} ops = some s ∧ s.loop = .sel ∧ .drop 0 ∈ s.log ∧
    Look { exch := true } 0 ops pre post t ∧ (t.conn 0).ready = none ∧ (s.conn 0).ready = some false ∧
    s.log.count (.onDisc 0) = 0 ∧ s.log.count (.exchDisc 0) = 0 := by
  refine ⟨lafter { exch := true } [.loop, .upgrade, .up 0, .up 0, .recvConnect, .loop, .close 0, .closer 0, .recvDisc 0,
      .loop, .loop, .unwait 0 false], [.loop, .upgrade, .up 0, .up 0, .recvConnect, .loop, .close 0, .closer 0, .recvDisc 0,
      .loop], [.unwait 0 false], lafter { exch := true } [.loop, .upgrade, .up 0, .up 0, .recvConnect, .loop, .close 0,
      .closer 0, .recvDisc 0, .loop], by decide +kernel, by decide +kernel, by decide +kernel,
      ⟨rfl, by decide +kernel, by decide +kernel⟩, by decide +kernel, by decide +kernel, by decide +kernel, by decide +kernel⟩

/-- a connection ready with an error is not fired, unless FireDisconnectAlways is set; the exchange is told with it -/
example :
    let ops : List LOp := [.loop, .upgrade, .up 0, .up 0, .recvConnect, .loop, .unwait 0 true, .close 0, .closer 0,
      .recvDisc 0, .loop, .loop, .loop]
    (lafter { exch := true, always := true } ops).loop = .sel ∧
    (lafter { exch := true, always := true } ops).log = [.reg 0, .drop 0, .onDisc 0, .exchDisc 0] := by decide +kernel

/-- no `OnDisconnect`: the exchange is told of it anyway -/
example :
    let ops : List LOp := [.loop, .upgrade, .up 0, .up 0, .recvConnect, .loop, .close 0, .closer 0,
      .recvDisc 0, .loop, .loop, .loop]
    (lafter { exch := true, onDisc := false } ops).loop = .sel ∧
    (lafter { exch := true, onDisc := false } ops).log = [.reg 0, .drop 0, .exchDisc 0] := by decide +kernel

end Neffos
