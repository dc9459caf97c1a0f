import Verif.Props.Latch
/-!
# Exactly what the readiness latch can do (C85)
-/
set_option autoImplicit false
namespace Neffos

/-- two goroutines that call `wait` -/
def TwoWaiters (ths : List LPc) : Prop :=
  ∃ (i i' : Nat), i ≠ i' ∧ ths[i]? = some .wCheck ∧ ths[i']? = some .wCheck

/-- two goroutines that call `unwait` -/
def TwoSignals (ths : List LPc) : Prop :=
  ∃ (j j' : Nat) (e e' : Option GoErr), j ≠ j' ∧ ths[j]? = some (.uCheck e) ∧ ths[j']? = some (.uCheck e')

theorem two_of_countP {α : Type} {p : α → Bool} {l : List α} (h : 2 ≤ l.countP p) :
    ∃ (i j : Nat) (x y : α), i ≠ j ∧ l[i]? = some x ∧ l[j]? = some y ∧ p x = true ∧ p y = true := by
  induction l with
  | nil => simp at h
  | cons a l ih =>
    by_cases ha : p a = true
    · rw [List.countP_cons_of_pos ha] at h
      obtain ⟨x, hx, hp⟩ := List.countP_pos_iff.mp (show 0 < l.countP p by omega)
      obtain ⟨j, hj⟩ := List.mem_iff_getElem?.mp hx
      exact ⟨0, j + 1, a, x, by omega, rfl, by simpa using hj, ha, hp⟩
    · rw [List.countP_cons_of_neg ha] at h
      obtain ⟨i, j, x, y, h1, h2, h3, h4, h5⟩ := ih h
      exact ⟨i + 1, j + 1, x, y, by omega, by simpa using h2, by simpa using h3, h4, h5⟩

theorem panic_run {ths : List LPc} {i i' j j' : Nat} {e e' : Option GoErr} (hi : ths[i]? = some .wCheck)
    (hi' : ths[i']? = some .wCheck) (hj : ths[j]? = some (.uCheck e)) (hj' : ths[j']? = some (.uCheck e'))
    (hii : i ≠ i') (hjj : j ≠ j') :
    ∃ s, (Latch.start ths).run [i, i, i', j, j', j, j, j, j, i', j', j', j', j'] = some s ∧ s.panicked = true := by
  obtain ⟨li, gi⟩ := List.getElem?_eq_some_iff.mp hi
  obtain ⟨li', gi'⟩ := List.getElem?_eq_some_iff.mp hi'
  obtain ⟨lj, gj⟩ := List.getElem?_eq_some_iff.mp hj
  obtain ⟨lj', gj'⟩ := List.getElem?_eq_some_iff.mp hj'
  have n1 : i ≠ j := by rintro rfl; rw [hi] at hj; cases hj
  have n2 : i ≠ j' := by rintro rfl; rw [hi] at hj'; cases hj'
  have n3 : i' ≠ j := by rintro rfl; rw [hi'] at hj; cases hj
  have n4 : i' ≠ j' := by rintro rfl; rw [hi'] at hj'; cases hj'
  simp [Latch.run, Latch.step, Latch.goto, Latch.start, List.getElem?_set, List.length_set, li, li', lj, lj', gi, gi', gj, gj', hii, hjj, n1, n2, n3, n4,
    hii.symm, hjj.symm, n1.symm, n2.symm, n3.symm, n4.symm]

theorem fresh_wait {pc : LPc} (h : pc.fresh = true) (hw : pc.isWait = true) : pc = .wCheck := by
  cases pc <;> simp_all [LPc.fresh, LPc.isWait]

theorem fresh_signal {pc : LPc} (h : pc.fresh = true) (hw : pc.isSignal = true) : ∃ e, pc = .uCheck e := by
  cases pc <;> simp_all [LPc.fresh, LPc.isSignal]

theorem one_waiter_of {ths : List LPc} (hf : ∀ pc ∈ ths, pc.fresh = true) (h : ¬ TwoWaiters ths) :
    OneWaiter ths := by
  refine ⟨hf, Classical.byContradiction fun hc => h ?_⟩
  obtain ⟨i, j, x, y, h1, h2, h3, h4, h5⟩ := two_of_countP (p := LPc.isWait) (l := ths) (by omega)
  have e1 := fresh_wait (hf x (List.mem_of_getElem? h2)) h4
  have e2 := fresh_wait (hf y (List.mem_of_getElem? h3)) h5
  subst e1; subst e2
  exact ⟨i, j, h1, h2, h3⟩

theorem one_signal_of {ths : List LPc} (hf : ∀ pc ∈ ths, pc.fresh = true) (h : ¬ TwoSignals ths) :
    ths.countP LPc.isSignal ≤ 1 := by
  refine Classical.byContradiction fun hc => h ?_
  obtain ⟨i, j, x, y, h1, h2, h3, h4, h5⟩ := two_of_countP (p := LPc.isSignal) (l := ths) (by omega)
  obtain ⟨e1, rfl⟩ := fresh_signal (hf x (List.mem_of_getElem? h2)) h4
  obtain ⟨e2, rfl⟩ := fresh_signal (hf y (List.mem_of_getElem? h3)) h5
  exact ⟨i, j, e1, e2, h1, h2, h3⟩

/-- C85: some schedule panics exactly if two goroutines call `wait` and two call `unwait`. -/
theorem c85_panic {ths : List LPc} (hf : ∀ pc ∈ ths, pc.fresh = true) :
    (∃ s, LatchReach ths s ∧ s.panicked = true) ↔ TwoWaiters ths ∧ TwoSignals ths := by
  constructor
  · rintro ⟨s, hr, hp⟩
    refine ⟨Classical.byContradiction fun hc => ?_, Classical.byContradiction fun hc => ?_⟩
    · rw [c31_calm_partial (one_waiter_of hf hc) hr] at hp; cases hp
    · rw [c31_single_partial hf (one_signal_of hf hc) hr] at hp; cases hp
  · rintro ⟨⟨i, i', h1, h2, h3⟩, j, j', e, e', h4, h5, h6⟩
    obtain ⟨s, hs, hp⟩ := panic_run h2 h3 h5 h6 h1 h4
    exact ⟨s, ⟨_, hs⟩, hp⟩

/-- C85: some schedule lets a `wait` return before any signal exactly if two goroutines call `wait`. -/
theorem c85_early {ths : List LPc} (hf : ∀ pc ∈ ths, pc.fresh = true) :
    (∃ s e, LatchReach ths s ∧ s.ready = false ∧ LPc.wDone e ∈ s.ths) ↔ TwoWaiters ths := by
  constructor
  · rintro ⟨s, e, hr, hy, hd⟩
    refine Classical.byContradiction fun hc => ?_
    rw [(c31_error_partial (one_waiter_of hf hc) hr hd).1] at hy; cases hy
  · rintro ⟨i, i', h1, h2, h3⟩
    obtain ⟨li, gi⟩ := List.getElem?_eq_some_iff.mp h2
    obtain ⟨li', gi'⟩ := List.getElem?_eq_some_iff.mp h3
    refine ⟨⟨true, false, none, false, false, (ths.set i .wBlocked).set i' (.wDone none)⟩, none,
      ⟨[i, i, i', i', i'], ?_⟩, rfl, ?_⟩
    · simp [Latch.run, Latch.step, Latch.goto, Latch.start, List.getElem?_set, List.length_set, li, li', gi, gi', h1,
        h1.symm, List.set_comm]
    · exact List.mem_set (by simpa using li') _

/-! ## What `wait` returns -/

/-- the errors in the latch and of the goroutines -/
structure ErrInv (E : Option GoErr → Prop) (s : Latch) : Prop where
  err : s.err = none ∨ E s.err
  ths : ∀ pc ∈ s.ths, match pc with
    | .wDone e => e = none ∨ E e
    | .uCheck e => E e
    | .uErr e => E e
    | _ => True

theorem errInv_step {E : Option GoErr → Prop} {s s' : Latch} {i : Nat} (hi : ErrInv E s) (h : s.step i = some s') :
    ErrInv E s' := by
  unfold Latch.step at h
  split at h
  · cases h
  cases hpc : s.ths[i]? with
  | none => rw [hpc] at h; cases h
  | some pc =>
    rw [hpc] at h
    have hm := hi.ths pc (List.mem_of_getElem? hpc)
    have upd : ∀ {y : LPc} {t : Latch}, t.err = s.err → t.ths = s.ths.set i y → (match y with
        | .wDone e => e = none ∨ E e
        | .uCheck e => E e
        | .uErr e => E e
        | _ => True) → ErrInv E t := by
      intro y t e1 e2 hy
      refine ⟨e1 ▸ hi.err, fun pc hp => ?_⟩
      rw [e2] at hp
      rcases List.mem_or_eq_of_mem_set hp with hp | rfl
      · exact hi.ths pc hp
      · exact hy
    cases pc with
    | wCheck =>
      cases h
      by_cases hy : s.ready = true
      · exact upd rfl (by simp only [Latch.goto, if_pos hy]; rfl) trivial
      · exact upd rfl (by simp only [Latch.goto, if_neg hy]; rfl) trivial
    | wLock => dsimp only at h; split at h <;> cases h <;> exact upd rfl rfl trivial
    | wBlocked =>
      dsimp only at h; split at h
      · cases h; exact upd rfl rfl trivial
      · cases h
    | wRead => cases h; exact upd rfl rfl hi.err
    | wDone e => cases h
    | uCheck e =>
      cases h
      by_cases hy : s.ready = true
      · exact upd rfl (by simp only [Latch.goto, if_pos hy]; rfl) trivial
      · exact upd rfl (by simp only [Latch.goto, if_neg hy]; rfl) hm
    | uErr e =>
      cases h
      refine ⟨.inr hm, fun pc hp => ?_⟩
      rcases List.mem_or_eq_of_mem_set hp with hp | rfl
      · exact hi.ths pc hp
      · trivial
    | uReady => cases h; exact upd rfl rfl trivial
    | uUnlock => dsimp only at h; split at h <;> cases h <;> exact upd rfl rfl trivial
    | uClose =>
      dsimp only at h; split at h
      · cases h; exact ⟨hi.err, hi.ths⟩
      · cases h; exact upd rfl rfl trivial
    | uDone => cases h

/-- C85: what a `wait` can return is exactly: the error of any signal, and nil if there are two waits. -/
theorem c85_result {ths : List LPc} (hf : ∀ pc ∈ ths, pc.fresh = true) {i : Nat} (hi : ths[i]? = some .wCheck)
    (e : Option GoErr) : (∃ s, LatchReach ths s ∧ s.ths[i]? = some (.wDone e)) ↔
      LPc.uCheck e ∈ ths ∨ (e = none ∧ TwoWaiters ths) := by
  obtain ⟨li, gi⟩ := List.getElem?_eq_some_iff.mp hi
  constructor
  · rintro ⟨s, hr, hd⟩
    by_cases hw : TwoWaiters ths
    · obtain ⟨sched, hs⟩ := hr
      have hv : ErrInv (fun e => LPc.uCheck e ∈ ths) s := by
        refine latch_ind ⟨.inl rfl, fun pc hp => ?_⟩ (fun _ _ _ a b => errInv_step a b) hs
        have := hf pc hp
        cases pc <;> first | trivial | (simp [LPc.fresh] at this) | exact hp
      rcases hv.ths _ (List.mem_of_getElem? hd) with h | h
      · exact .inr ⟨h, hw⟩
      · exact .inl h
    · exact .inl (c31_error_partial (one_waiter_of hf hw) hr (List.mem_of_getElem? hd)).2
  · rintro (h | ⟨rfl, k, k', h1, h2, h3⟩)
    · obtain ⟨j, hj⟩ := List.mem_iff_getElem?.mp h
      obtain ⟨lj, gj⟩ := List.getElem?_eq_some_iff.mp hj
      have n : i ≠ j := by rintro rfl; rw [hi] at hj; cases hj
      refine ⟨⟨false, true, e, false, false, (ths.set j .uDone).set i (.wDone e)⟩, ⟨[j, j, j, j, i, i], ?_⟩, ?_⟩
      · simp [Latch.run, Latch.step, Latch.goto, Latch.start, List.getElem?_set, List.length_set, li, lj, gi, gj, n,
          n.symm]
      · simp [List.getElem?_set, List.length_set, li, n, n.symm]
    · -- the other waiter goes first
      have main : ∀ k : Nat, k ≠ i → ths[k]? = some .wCheck →
          ∃ s, LatchReach ths s ∧ s.ths[i]? = some (.wDone none) := by
        intro k hk h
        obtain ⟨lk, gk⟩ := List.getElem?_eq_some_iff.mp h
        refine ⟨⟨true, false, none, false, false, (ths.set k .wBlocked).set i (.wDone none)⟩, ⟨[k, k, i, i, i], ?_⟩, ?_⟩
        · simp [Latch.run, Latch.step, Latch.goto, Latch.start, List.getElem?_set, List.length_set, li, lk, gi, gk, hk,
            hk.symm]
        · simp [List.getElem?_set, List.length_set, li]
      by_cases hk : k = i
      · exact main k' (by rintro rfl; exact h1 hk) h3
      · exact main k hk h2

/-! ## Which waits return -/

/-- a signal that is under way, or one that will not find the latch ready -/
def Coming (s : Latch) : Prop :=
  ∃ pc ∈ s.ths, pc = .uReady ∨ pc = .uUnlock ∨ pc = .uClose ∨ (∃ e, pc = .uErr e) ∨
    (s.ready = false ∧ ∃ e, pc = .uCheck e)

/-- while a `wait` is blocked somebody will close the channel: the latch is locked, or was unlocked by a signal -/
theorem blocked_held {ths : List LPc} (hf : ∀ pc ∈ ths, pc.fresh = true) {s : Latch} (hr : LatchReach ths s) :
    LPc.wBlocked ∈ s.ths → s.locked = true ∨ LPc.uClose ∈ s.ths ∨ s.chClosed = true := by
  obtain ⟨sched, hs⟩ := hr
  refine latch_ind (P := fun s => LPc.wBlocked ∈ s.ths → s.locked = true ∨ LPc.uClose ∈ s.ths ∨ s.chClosed = true)
    (fun h => by have := hf _ h; cases this) ?_ hs
  intro s i s' hv h hb
  unfold Latch.step at h
  split at h
  · cases h
  cases hpc : s.ths[i]? with
  | none => rw [hpc] at h; cases h
  | some pc =>
    rw [hpc] at h
    have li := (List.getElem?_eq_some_iff.mp hpc).1
    -- another goroutine
    have stay : ∀ {y : LPc}, LPc.uClose ∈ s.ths → pc ≠ .uClose → LPc.uClose ∈ s.ths.set i y := by
      intro y hm hne
      obtain ⟨j, hj⟩ := List.mem_iff_getElem?.mp hm
      have : i ≠ j := by rintro rfl; rw [hpc] at hj; cases hj; exact hne rfl
      exact List.mem_iff_getElem?.mpr ⟨j, by rw [List.getElem?_set_ne this]; exact hj⟩
    have upd : ∀ {y : LPc} {t : Latch}, t.ths = s.ths.set i y → t.locked = s.locked → t.chClosed = s.chClosed →
        y ≠ .wBlocked → pc ≠ .uClose → LPc.wBlocked ∈ t.ths →
        t.locked = true ∨ LPc.uClose ∈ t.ths ∨ t.chClosed = true := by
      intro y t e1 e2 e3 hy hne hm
      rw [e1] at hm
      rw [e1, e2, e3]
      rcases List.mem_or_eq_of_mem_set hm with hm | hm
      · rcases hv hm with h | h | h
        · exact .inl h
        · exact .inr (.inl (stay h hne))
        · exact .inr (.inr h)
      · exact absurd hm.symm hy
    cases pc with
    | wCheck => cases h; exact upd rfl rfl rfl (by split <;> simp) (by simp) hb
    | wLock =>
      dsimp only at h; split at h
      · cases h; exact upd rfl rfl rfl (by simp) (by simp) hb
      · cases h; exact .inl rfl
    | wBlocked =>
      dsimp only at h; split at h
      · cases h; exact .inr (.inr ‹_›)
      · cases h
    | wRead => cases h; exact upd rfl rfl rfl (by simp) (by simp) hb
    | wDone e => cases h
    | uCheck e => cases h; exact upd rfl rfl rfl (by split <;> simp) (by simp) hb
    | uErr e => cases h; exact upd rfl rfl rfl (by simp) (by simp) hb
    | uReady => cases h; exact upd rfl rfl rfl (by simp) (by simp) hb
    | uUnlock =>
      dsimp only at h; split at h
      · cases h; exact .inr (.inl (List.mem_set li _))
      · cases h; exact upd rfl rfl rfl (by simp) (by simp) hb
    | uClose =>
      dsimp only at h; split at h
      · cases h; exact hv hb
      · cases h; exact .inr (.inr rfl)
    | uDone => cases h

/-- the channel can be closed when a `wait` is blocked and a signal is coming -/
theorem can_close {ths : List LPc} (hf : ∀ pc ∈ ths, pc.fresh = true) {s : Latch} (hr : LatchReach ths s)
    {i : Nat} (hb : s.ths[i]? = some .wBlocked) (hp : s.panicked = false) (hc : Coming s) :
    ∃ sched t, s.run sched = some t ∧ t.ths[i]? = some .wBlocked ∧ t.chClosed = true ∧ t.panicked = false := by
  cases hx : s.chClosed with
  | true => exact ⟨[], s, rfl, hb, hx, hp⟩
  | false =>
  -- from a goroutine that is about to close
  have close : ∀ {u : Latch} {j : Nat}, u.ths[i]? = some .wBlocked → u.panicked = false → u.chClosed = false →
      u.ths[j]? = some .uClose → ∃ sched t, u.run sched = some t ∧ t.ths[i]? = some .wBlocked ∧ t.chClosed = true ∧
        t.panicked = false := by
    intro u j h1 h2 h3 h4
    have n : j ≠ i := by rintro rfl; rw [h1] at h4; cases h4
    refine ⟨[j], { u.goto j .uDone with chClosed := true }, ?_, ?_, rfl, h2⟩
    · simp [Latch.run, Latch.step, h2, h3, h4]
    · show (u.ths.set j .uDone)[i]? = _
      rw [List.getElem?_set_ne n]; exact h1
  by_cases hcl : LPc.uClose ∈ s.ths
  · obtain ⟨j, hj⟩ := List.mem_iff_getElem?.mp hcl
    exact close hb hp hx hj
  have hl : s.locked = true := by
    rcases blocked_held hf hr (List.mem_of_getElem? hb) with h | h | h
    · exact h
    · exact absurd h hcl
    · rw [hx] at h; cases h
  have cons : ∀ {u v : Latch} {j : Nat}, u.step j = some v →
      (∃ sched t, v.run sched = some t ∧ t.ths[i]? = some .wBlocked ∧ t.chClosed = true ∧ t.panicked = false) →
      ∃ sched t, u.run sched = some t ∧ t.ths[i]? = some .wBlocked ∧ t.chClosed = true ∧ t.panicked = false := by
    rintro u v j hv ⟨sched, t, h1, h2⟩
    exact ⟨j :: sched, t, by simp only [Latch.run, hv]; exact h1, h2⟩
  have self : ∀ {l : List LPc} {j : Nat} {x y : LPc}, l[j]? = some x → (l.set j y)[j]? = some y := by
    intro l j x y h
    rw [List.getElem?_set_self (List.getElem?_eq_some_iff.mp h).1]
  have unlock : ∀ {u : Latch} {j : Nat}, u.ths[i]? = some .wBlocked → u.panicked = false → u.chClosed = false →
      u.locked = true → u.ths[j]? = some .uUnlock → ∃ sched t, u.run sched = some t ∧ t.ths[i]? = some .wBlocked ∧
        t.chClosed = true ∧ t.panicked = false := by
    intro u j h1 h2 h3 h4 h5
    have n : j ≠ i := by rintro rfl; rw [h1] at h5; cases h5
    refine cons (v := { u.goto j .uClose with locked := false }) (j := j) (by simp [Latch.step, h2, h4, h5])
      (close (j := j) ?_ h2 h3 (self h5))
    show (u.ths.set j .uClose)[i]? = _
    rw [List.getElem?_set_ne n]; exact h1
  have ready : ∀ {u : Latch} {j : Nat}, u.ths[i]? = some .wBlocked → u.panicked = false → u.chClosed = false →
      u.locked = true → u.ths[j]? = some .uReady → ∃ sched t, u.run sched = some t ∧ t.ths[i]? = some .wBlocked ∧
        t.chClosed = true ∧ t.panicked = false := by
    intro u j h1 h2 h3 h4 h5
    have n : j ≠ i := by rintro rfl; rw [h1] at h5; cases h5
    refine cons (v := { u.goto j .uUnlock with ready := true }) (j := j) (by simp [Latch.step, h2, h5])
      (unlock (j := j) ?_ h2 h3 h4 (self h5))
    show (u.ths.set j .uUnlock)[i]? = _
    rw [List.getElem?_set_ne n]; exact h1
  have err : ∀ {u : Latch} {j : Nat} {e : Option GoErr}, u.ths[i]? = some .wBlocked → u.panicked = false →
      u.chClosed = false → u.locked = true → u.ths[j]? = some (.uErr e) → ∃ sched t, u.run sched = some t ∧
        t.ths[i]? = some .wBlocked ∧ t.chClosed = true ∧ t.panicked = false := by
    intro u j e h1 h2 h3 h4 h5
    have n : j ≠ i := by rintro rfl; rw [h1] at h5; cases h5
    refine cons (v := { u.goto j .uReady with err := e }) (j := j) (by simp [Latch.step, h2, h5])
      (ready (j := j) ?_ h2 h3 h4 (self h5))
    show (u.ths.set j .uReady)[i]? = _
    rw [List.getElem?_set_ne n]; exact h1
  obtain ⟨pc, hm, hpc⟩ := hc
  obtain ⟨j, hj⟩ := List.mem_iff_getElem?.mp hm
  rcases hpc with rfl | rfl | rfl | ⟨e, rfl⟩ | ⟨hy, e, rfl⟩
  · exact ready hb hp hx hl hj
  · exact unlock hb hp hx hl hj
  · exact absurd hm hcl
  · exact err hb hp hx hl hj
  · have n : j ≠ i := by rintro rfl; rw [hb] at hj; cases hj
    refine cons (v := s.goto j (.uErr e)) (j := j) (by simp [Latch.step, hp, hj, hy])
      (err (j := j) (e := e) ?_ hp hx hl (self hj))
    show (s.ths.set j (.uErr e))[i]? = _
    rw [List.getElem?_set_ne n]; exact hb

/-- when no signal is coming it stays that way -/
theorem coming_step {s s' : Latch} {i : Nat} (hc : ¬ Coming s) (h : s.step i = some s') :
    ¬ Coming s' ∧ s'.chClosed = s.chClosed ∧ (s.ready = true → s'.ready = true) := by
  unfold Latch.step at h
  split at h
  · cases h
  cases hpc : s.ths[i]? with
  | none => rw [hpc] at h; cases h
  | some pc =>
    rw [hpc] at h
    have hm := List.mem_of_getElem? hpc
    have upd : ∀ {y : LPc} {t : Latch}, t.ths = s.ths.set i y → t.ready = s.ready → t.chClosed = s.chClosed →
        (∀ e, y ≠ .uReady ∧ y ≠ .uUnlock ∧ y ≠ .uClose ∧ y ≠ .uErr e ∧ y ≠ .uCheck e) →
        ¬ Coming t ∧ t.chClosed = s.chClosed ∧ (s.ready = true → t.ready = true) := by
      intro y t e1 e2 e3 hy
      refine ⟨?_, e3, fun x => e2.trans x⟩
      rintro ⟨q, hq, hx⟩
      rw [e1] at hq
      rw [e2] at hx
      rcases List.mem_or_eq_of_mem_set hq with hq | rfl
      · exact hc ⟨q, hq, hx⟩
      · rcases hx with h | h | h | ⟨e, h⟩ | ⟨_, e, h⟩
        · exact (hy none).1 h
        · exact (hy none).2.1 h
        · exact (hy none).2.2.1 h
        · exact (hy e).2.2.2.1 h
        · exact (hy e).2.2.2.2 h
    cases pc with
    | wCheck => cases h; exact upd rfl rfl rfl (fun e => by split <;> simp)
    | wLock => dsimp only at h; split at h <;> cases h <;> exact upd rfl rfl rfl (fun e => by simp)
    | wBlocked =>
      dsimp only at h; split at h
      · cases h; exact upd rfl rfl rfl (fun e => by simp)
      · cases h
    | wRead => cases h; exact upd rfl rfl rfl (fun e => by simp)
    | wDone e => cases h
    | uCheck e =>
      cases h
      have hy : s.ready = true := by
        cases hy : s.ready with
        | true => rfl
        | false => exact absurd ⟨_, hm, .inr (.inr (.inr (.inr ⟨hy, e, rfl⟩)))⟩ hc
      exact upd rfl rfl rfl (fun e => by simp [hy])
    | uErr e => exact absurd ⟨_, hm, .inr (.inr (.inr (.inl ⟨e, rfl⟩)))⟩ hc
    | uReady => exact absurd ⟨_, hm, .inl rfl⟩ hc
    | uUnlock => exact absurd ⟨_, hm, .inr (.inl rfl)⟩ hc
    | uClose => exact absurd ⟨_, hm, .inr (.inr (.inl rfl))⟩ hc
    | uDone => cases h

/-- C85: a blocked `wait` can still return exactly if the channel is closed, a signal is under way, or one is to come and
none has made the latch ready. -/
theorem c85_blocked {ths : List LPc} (hf : ∀ pc ∈ ths, pc.fresh = true) {s : Latch} (hr : LatchReach ths s)
    (hp : s.panicked = false) {i : Nat} (hb : s.ths[i]? = some .wBlocked) :
    (∃ sched t e, s.run sched = some t ∧ t.ths[i]? = some (.wDone e)) ↔ s.chClosed = true ∨ Coming s := by
  constructor
  · rintro ⟨sched, t, e, hs, hd⟩
    refine Classical.byContradiction fun hc => ?_
    have hx : s.chClosed = false := by
      cases h : s.chClosed with
      | false => rfl
      | true => exact absurd (.inl h) hc
    have hy : ¬ Coming s := fun h => hc (.inr h)
    have : t.ths[i]? = some .wBlocked ∧ t.chClosed = false ∧ ¬ Coming t := by
      refine latch_ind (P := fun t => t.ths[i]? = some .wBlocked ∧ t.chClosed = false ∧ ¬ Coming t) ⟨hb, hx, hy⟩ ?_ hs
      rintro u j v ⟨h1, h2, h3⟩ h4
      obtain ⟨k1, k2, _⟩ := coming_step h3 h4
      refine ⟨?_, k2.trans h2, k1⟩
      have n : j ≠ i := by
        rintro rfl
        unfold Latch.step at h4
        split at h4
        · cases h4
        · rw [h1] at h4; simp [h2] at h4
      unfold Latch.step at h4
      split at h4
      · cases h4
      cases hpc : u.ths[j]? with
      | none => rw [hpc] at h4; cases h4
      | some pc =>
        rw [hpc] at h4
        have keep : ∀ y : LPc, (u.ths.set j y)[i]? = some .wBlocked := by
          intro y; rw [List.getElem?_set_ne n]; exact h1
        cases pc <;> simp only at h4 <;> (try split at h4) <;> cases h4 <;> first | exact keep _ | exact h1
    rw [this.1] at hd; cases hd
  · intro h
    have hcl : ∃ sched t, s.run sched = some t ∧ t.ths[i]? = some .wBlocked ∧ t.chClosed = true ∧
        t.panicked = false := by
      rcases h with h | h
      · exact ⟨[], s, rfl, hb, h, hp⟩
      · exact can_close hf hr hb hp h
    obtain ⟨sched, t, h1, h2, h3, h4⟩ := hcl
    have li := (List.getElem?_eq_some_iff.mp h2).1
    refine ⟨sched ++ [i, i], ⟨t.locked, t.ready, t.err, true, false, (t.ths.set i .wRead).set i (.wDone t.err)⟩, t.err,
      ?_, by rw [List.getElem?_set_self (by simpa using li)]⟩
    rw [latch_run_append, h1]
    show t.run [i, i] = _
    simp only [Latch.run, Latch.step, h4, h2, h3, Latch.goto, if_true, Bool.false_eq_true, if_false,
      List.getElem?_set_self li]

/-- three goroutines wait and two signal; the states that the theorems speak about are reachable -/
def fiveThs (e e' : Option GoErr) : List LPc := [.wCheck, .wCheck, .wCheck, .uCheck e, .uCheck e']

example (e e' : Option GoErr) : (∀ pc ∈ fiveThs e e', pc.fresh = true) ∧ TwoWaiters (fiveThs e e') ∧
    TwoSignals (fiveThs e e') := by
  refine ⟨?_, ⟨0, 1, by omega, rfl, rfl⟩, 3, 4, e, e', by omega, rfl, rfl⟩
  simp [fiveThs, LPc.fresh]

/-- a `wait` that blocks after the only signal found the latch unlocked never returns -/
example (e : Option GoErr) : ∃ s, LatchReach [.wCheck, .uCheck e] s ∧ s.panicked = false ∧
    s.ths[0]? = some .wBlocked ∧ ¬ (s.chClosed = true ∨ Coming s) := by
  refine ⟨⟨true, true, e, false, false, [.wBlocked, .uDone]⟩, ⟨[0, 1, 1, 1, 1, 0], rfl⟩, rfl, rfl, ?_⟩
  rintro (h | ⟨pc, hm, h⟩)
  · cases h
  · simp only [List.mem_cons, List.not_mem_nil, or_false] at hm
    rcases hm with rfl | rfl <;> simp at h

/-- and one that blocked before it does -/
example (e : Option GoErr) : ∃ s, LatchReach [.wCheck, .uCheck e] s ∧ s.panicked = false ∧
    s.ths[0]? = some .wBlocked ∧ Coming s :=
  ⟨⟨true, false, none, false, false, [.wBlocked, .uCheck e]⟩, ⟨[0, 0], rfl⟩, rfl, rfl,
    .uCheck e, by simp, .inr (.inr (.inr (.inr ⟨rfl, e, rfl⟩)))⟩

end Neffos
