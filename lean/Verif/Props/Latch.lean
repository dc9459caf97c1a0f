import Verif.Model.Latch
/-!
# The readiness latch (C31)
-/
set_option autoImplicit false
namespace Neffos

/-- every state that some schedule of these goroutines reaches -/
def LatchReach (ths : List LPc) (s : Latch) : Prop := ∃ sched, (Latch.start ths).run sched = some s

def LPc.isWait : LPc → Bool
  | .wCheck | .wLock | .wBlocked | .wRead | .wDone _ => true
  | _ => false

/-- a waiter that is past the compare-and-swap -/
def LPc.isPast : LPc → Bool
  | .wBlocked | .wRead | .wDone _ => true
  | _ => false

def LPc.isBlocked : LPc → Bool
  | .wBlocked => true
  | _ => false

def LPc.isClosing : LPc → Bool
  | .uClose => true
  | _ => false

def LPc.isUnlocking : LPc → Bool
  | .uUnlock => true
  | _ => false

def LPc.isSignal : LPc → Bool
  | .uCheck _ | .uErr _ | .uReady | .uUnlock | .uClose | .uDone => true
  | _ => false

def LPc.isSignalled : LPc → Bool
  | .uDone => true
  | _ => false

theorem countP_upd (p : LPc → Bool) {l : List LPc} {i : Nat} {x : LPc} (h : l[i]? = some x) (y : LPc) :
    (l.set i y).countP p + (if p x then 1 else 0) = l.countP p + (if p y then 1 else 0) := by
  induction l generalizing i with
  | nil => simp at h
  | cons a l ih =>
    cases i with
    | zero =>
      simp only [List.getElem?_cons_zero, Option.some.injEq] at h
      subst h
      simp only [List.set_cons_zero, List.countP_cons]
      omega
    | succ i =>
      simp only [List.getElem?_cons_succ] at h
      simp only [List.set_cons_succ, List.countP_cons]
      have := ih h
      omega

theorem countP_pos_of {p : LPc → Bool} {l : List LPc} {i : Nat} {x : LPc} (h : l[i]? = some x)
    (hp : p x = true) : 1 ≤ l.countP p :=
  List.countP_pos_iff.2 ⟨x, List.mem_of_getElem? h, hp⟩

theorem countP_le_of {p q : LPc → Bool} (l : List LPc) (h : ∀ x, p x = true → q x = true) :
    l.countP p ≤ l.countP q := List.countP_mono_left (fun x _ => h x)

/-- induction over schedules -/
theorem latch_ind {P : Latch → Prop} {s s' : Latch} {sched : List Nat} (h0 : P s)
    (hs : ∀ s i s', P s → s.step i = some s' → P s') (h : s.run sched = some s') : P s' := by
  induction sched generalizing s with
  | nil => cases h; exact h0
  | cons i sched ih =>
    simp only [Latch.run] at h
    split at h
    · exact ih (hs _ _ _ h0 ‹_›) h
    · cases h

theorem latch_run_append {s : Latch} (a b : List Nat) :
    s.run (a ++ b) = (s.run a).bind (fun t => t.run b) := by
  induction a generalizing s with
  | nil => rfl
  | cons i a ih =>
    simp only [List.cons_append, Latch.run]
    cases s.step i with
    | none => rfl
    | some t => exact ih

theorem LatchReach.more {ths : List LPc} {s s' : Latch} {sched : List Nat} (h : LatchReach ths s)
    (hr : s.run sched = some s') : LatchReach ths s' := by
  obtain ⟨a, ha⟩ := h
  exact ⟨a ++ sched, by rw [latch_run_append, ha]; exact hr⟩

/-- what every step keeps if there is at most one waiter -/
structure LatchInv (E : Option GoErr → Prop) (s : Latch) : Prop where
  calm : s.panicked = false
  one : s.ths.countP LPc.isWait ≤ 1
  lock : s.locked.toNat + s.ths.countP LPc.isClosing + s.chClosed.toNat ≤ s.ths.countP LPc.isPast
  blocked : s.ths.countP LPc.isBlocked ≤ s.locked.toNat + s.ths.countP LPc.isClosing + s.chClosed.toNat
  closing : 1 ≤ s.ths.countP LPc.isClosing + s.ths.countP LPc.isUnlocking + s.chClosed.toNat → s.ready = true
  err : s.ready = true → E s.err
  errs : ∀ pc ∈ s.ths, match pc with
    | .wRead => s.ready = true
    | .wDone e => s.ready = true ∧ E e
    | .uCheck e => E e
    | .uErr e => E e
    | .uReady => E s.err
    | _ => True

theorem past_le (l : List LPc) : l.countP LPc.isPast ≤ l.countP LPc.isWait :=
  countP_le_of l (by intro x; cases x <;> simp [LPc.isPast, LPc.isWait])

theorem lock_le (l : List LPc) {i : Nat} (h : l[i]? = some .wLock) :
    l.countP LPc.isPast + 1 ≤ l.countP LPc.isWait := by
  have h1 := countP_upd LPc.isPast h .wRead
  have h2 := countP_upd LPc.isWait h .wRead
  have h3 := past_le (l.set i .wRead)
  simp only [LPc.isPast, LPc.isWait, if_true, Bool.false_eq_true, if_false] at h1 h2
  omega

theorem latchInv_step {E : Option GoErr → Prop} {s s' : Latch} {i : Nat} (hi : LatchInv E s)
    (h : s.step i = some s') : LatchInv E s' := by
  obtain ⟨h0, h1, h2, h3, h4, h5, h6⟩ := hi
  unfold Latch.step at h
  rw [if_neg (by simp [h0])] at h
  have mem : ∀ {y pc : LPc}, pc ∈ s.ths.set i y → pc = y ∨ pc ∈ s.ths := by
    intro y pc hm
    rcases List.mem_or_eq_of_mem_set hm with h | h
    · exact .inr h
    · exact .inl h
  cases hpc : s.ths[i]? with
  | none => rw [hpc] at h; cases h
  | some pc =>
    rw [hpc] at h
    have hm := h6 pc (List.mem_of_getElem? hpc)
    have c1 := fun y => countP_upd LPc.isWait hpc y
    have c2 := fun y => countP_upd LPc.isPast hpc y
    have c3 := fun y => countP_upd LPc.isBlocked hpc y
    have c4 := fun y => countP_upd LPc.isClosing hpc y
    have c5 := fun y => countP_upd LPc.isUnlocking hpc y
    cases pc with
    | wCheck =>
      simp only [Option.some.injEq] at h
      subst h
      by_cases hr : s.ready = true
      · rw [if_pos hr]
        have c1 := c1 .wRead; have c2 := c2 .wRead; have c3 := c3 .wRead; have c4 := c4 .wRead
        simp only [LPc.isWait, LPc.isPast, LPc.isBlocked, LPc.isClosing, if_true, Bool.false_eq_true, if_false] at c1 c2 c3 c4
        refine ⟨h0, ?_, ?_, ?_, fun _ => hr, h5, ?_⟩
        · simp only [Latch.goto]; omega
        · simp only [Latch.goto]; omega
        · simp only [Latch.goto]; omega
        · intro pc hm
          simp only [Latch.goto] at hm
          rcases mem hm with rfl | hm
          · exact hr
          · exact h6 pc hm
      · rw [if_neg hr]
        have c1 := c1 .wLock; have c2 := c2 .wLock; have c3 := c3 .wLock; have c4 := c4 .wLock; have c5 := c5 .wLock
        simp only [LPc.isWait, LPc.isPast, LPc.isBlocked, LPc.isClosing, LPc.isUnlocking, if_true, Bool.false_eq_true, if_false] at c1 c2 c3 c4 c5
        refine ⟨h0, ?_, ?_, ?_, ?_, h5, ?_⟩
        · simp only [Latch.goto]; omega
        · simp only [Latch.goto]; omega
        · simp only [Latch.goto]; omega
        · simp only [Latch.goto]; intro hx; exact absurd (h4 (by omega)) hr
        · intro pc hm
          simp only [Latch.goto] at hm
          rcases mem hm with rfl | hm
          · trivial
          · exact h6 pc hm
    | wLock =>
      have hlt := lock_le _ hpc
      have hl : s.locked = false := by
        cases hx : s.locked with
        | false => rfl
        | true => simp [hx] at h2; omega
      simp only [hl, Bool.false_eq_true, if_false, Option.some.injEq] at h
      subst h
      have c1 := c1 .wBlocked; have c2 := c2 .wBlocked; have c3 := c3 .wBlocked
      have c4 := c4 .wBlocked; have c5 := c5 .wBlocked
      simp only [LPc.isWait, LPc.isPast, LPc.isBlocked, LPc.isClosing, LPc.isUnlocking, if_true, Bool.false_eq_true, if_false] at c1 c2 c3 c4 c5
      have hp := past_le (s.ths.set i .wBlocked)
      simp only [hl, Bool.toNat_false] at h2 h3
      refine ⟨h0, ?_, ?_, ?_, ?_, h5, ?_⟩
      · simp only [Latch.goto]; omega
      · simp only [Latch.goto, Bool.toNat_true]; omega
      · simp only [Latch.goto, Bool.toNat_true]; omega
      · simp only [Latch.goto]; intro hx; exact h4 (by omega)
      · intro pc hm
        simp only [Latch.goto] at hm
        rcases mem hm with rfl | hm
        · trivial
        · exact h6 pc hm
    | wBlocked =>
      cases hcl : s.chClosed with
      | false => simp [hcl] at h
      | true =>
        simp only [hcl, if_true, Option.some.injEq] at h
        subst h
        have c1 := c1 .wRead; have c2 := c2 .wRead; have c3 := c3 .wRead; have c4 := c4 .wRead; have c5 := c5 .wRead
        simp only [LPc.isWait, LPc.isPast, LPc.isBlocked, LPc.isClosing, LPc.isUnlocking, if_true, Bool.false_eq_true, if_false] at c1 c2 c3 c4 c5
        have hr : s.ready = true := h4 (by simp [hcl])
        refine ⟨h0, ?_, ?_, ?_, fun _ => hr, h5, ?_⟩
        · simp only [Latch.goto]; omega
        · simp only [Latch.goto]; omega
        · simp only [Latch.goto]; omega
        · intro pc hm
          simp only [Latch.goto] at hm
          rcases mem hm with rfl | hm
          · exact hr
          · exact h6 pc hm
    | wRead =>
      simp only [Option.some.injEq] at h
      subst h
      have c1 := c1 (.wDone s.err); have c2 := c2 (.wDone s.err); have c3 := c3 (.wDone s.err)
      have c4 := c4 (.wDone s.err); have c5 := c5 (.wDone s.err)
      simp only [LPc.isWait, LPc.isPast, LPc.isBlocked, LPc.isClosing, LPc.isUnlocking, if_true, Bool.false_eq_true, if_false] at c1 c2 c3 c4 c5
      have hr : s.ready = true := hm
      refine ⟨h0, ?_, ?_, ?_, fun _ => hr, h5, ?_⟩
      · simp only [Latch.goto]; omega
      · simp only [Latch.goto]; omega
      · simp only [Latch.goto]; omega
      · intro pc hm
        simp only [Latch.goto] at hm
        rcases mem hm with rfl | hm
        · exact ⟨hr, h5 hr⟩
        · exact h6 pc hm
    | wDone e => cases h
    | uCheck e =>
      simp only [Option.some.injEq] at h
      subst h
      generalize hy : (if s.ready = true then LPc.uDone else LPc.uErr e) = y
      have hyc : y = .uDone ∨ y = .uErr e := by
        rw [← hy]; split
        · exact .inl rfl
        · exact .inr rfl
      have c1 := c1 y; have c2 := c2 y; have c3 := c3 y; have c4 := c4 y; have c5 := c5 y
      have y1 : LPc.isWait y = false := by rcases hyc with rfl | rfl <;> rfl
      have y2 : LPc.isPast y = false := by rcases hyc with rfl | rfl <;> rfl
      have y3 : LPc.isBlocked y = false := by rcases hyc with rfl | rfl <;> rfl
      have y4 : LPc.isClosing y = false := by rcases hyc with rfl | rfl <;> rfl
      have y5 : LPc.isUnlocking y = false := by rcases hyc with rfl | rfl <;> rfl
      simp only [y1, y2, y3, y4, y5] at c1 c2 c3 c4 c5
      simp only [LPc.isWait, LPc.isPast, LPc.isBlocked, LPc.isClosing, LPc.isUnlocking, if_true, Bool.false_eq_true, if_false] at c1 c2 c3 c4 c5
      refine ⟨h0, ?_, ?_, ?_, ?_, h5, ?_⟩
      · simp only [Latch.goto]; omega
      · simp only [Latch.goto]; omega
      · simp only [Latch.goto]; omega
      · simp only [Latch.goto]; intro hx; exact h4 (by omega)
      · intro pc hm'
        simp only [Latch.goto] at hm'
        rcases mem hm' with rfl | hm'
        · rcases hyc with rfl | rfl
          · trivial
          · exact hm
        · exact h6 pc hm'
    | uErr e =>
      simp only [Option.some.injEq] at h
      subst h
      have c1 := c1 .uReady; have c2 := c2 .uReady; have c3 := c3 .uReady; have c4 := c4 .uReady; have c5 := c5 .uReady
      simp only [LPc.isWait, LPc.isPast, LPc.isBlocked, LPc.isClosing, LPc.isUnlocking, if_true, Bool.false_eq_true, if_false] at c1 c2 c3 c4 c5
      refine ⟨h0, ?_, ?_, ?_, ?_, fun _ => hm, ?_⟩
      · simp only [Latch.goto]; omega
      · simp only [Latch.goto]; omega
      · simp only [Latch.goto]; omega
      · simp only [Latch.goto]; intro hx; exact h4 (by omega)
      · intro pc hm'
        simp only [Latch.goto] at hm'
        rcases mem hm' with rfl | hm'
        · exact hm
        · have := h6 pc hm'
          cases pc <;> first | exact this | exact hm
    | uReady =>
      simp only [Option.some.injEq] at h
      subst h
      have c1 := c1 .uUnlock; have c2 := c2 .uUnlock; have c3 := c3 .uUnlock; have c4 := c4 .uUnlock
      simp only [LPc.isWait, LPc.isPast, LPc.isBlocked, LPc.isClosing, LPc.isUnlocking, if_true, Bool.false_eq_true, if_false] at c1 c2 c3 c4
      refine ⟨h0, ?_, ?_, ?_, fun _ => rfl, fun _ => hm, ?_⟩
      · simp only [Latch.goto]; omega
      · simp only [Latch.goto]; omega
      · simp only [Latch.goto]; omega
      · intro pc hm'
        simp only [Latch.goto] at hm'
        rcases mem hm' with rfl | hm'
        · trivial
        · have := h6 pc hm'
          cases pc <;> first | exact this | exact rfl | exact ⟨rfl, this.2⟩
    | uUnlock =>
      have hr : s.ready = true := h4 (by have := countP_pos_of (p := LPc.isUnlocking) hpc rfl; omega)
      cases hl : s.locked with
      | true =>
        simp only [hl, if_true, Option.some.injEq] at h
        subst h
        have c1 := c1 .uClose; have c2 := c2 .uClose; have c3 := c3 .uClose; have c4 := c4 .uClose
        simp only [LPc.isWait, LPc.isPast, LPc.isBlocked, LPc.isClosing, if_true, Bool.false_eq_true, if_false] at c1 c2 c3 c4
        simp only [hl, Bool.toNat_true] at h2 h3
        refine ⟨h0, ?_, ?_, ?_, fun _ => hr, h5, ?_⟩
        · simp only [Latch.goto]; omega
        · simp only [Latch.goto, Bool.toNat_false]; omega
        · simp only [Latch.goto, Bool.toNat_false]; omega
        · intro pc hm'
          simp only [Latch.goto] at hm'
          rcases mem hm' with rfl | hm'
          · trivial
          · exact h6 pc hm'
      | false =>
        simp only [hl, Bool.false_eq_true, if_false, Option.some.injEq] at h
        subst h
        have c1 := c1 .uDone; have c2 := c2 .uDone; have c3 := c3 .uDone; have c4 := c4 .uDone
        simp only [LPc.isWait, LPc.isPast, LPc.isBlocked, LPc.isClosing, if_true, Bool.false_eq_true, if_false] at c1 c2 c3 c4
        refine ⟨h0, ?_, ?_, ?_, fun _ => hr, h5, ?_⟩
        · simp only [Latch.goto]; omega
        · simp only [Latch.goto]; omega
        · simp only [Latch.goto]; omega
        · intro pc hm'
          simp only [Latch.goto] at hm'
          rcases mem hm' with rfl | hm'
          · trivial
          · exact h6 pc hm'
    | uClose =>
      have hc := countP_pos_of (p := LPc.isClosing) hpc rfl
      have hr : s.ready = true := h4 (by omega)
      have hp := past_le s.ths
      have hcl : s.chClosed = false := by
        cases hx : s.chClosed with
        | false => rfl
        | true => simp only [hx, Bool.toNat_true] at h2; omega
      simp only [hcl, Bool.false_eq_true, if_false, Option.some.injEq] at h
      subst h
      have c1 := c1 .uDone; have c2 := c2 .uDone; have c3 := c3 .uDone; have c4 := c4 .uDone
      simp only [LPc.isWait, LPc.isPast, LPc.isBlocked, LPc.isClosing, if_true, Bool.false_eq_true, if_false] at c1 c2 c3 c4
      simp only [hcl, Bool.toNat_false] at h2 h3
      refine ⟨h0, ?_, ?_, ?_, fun _ => hr, h5, ?_⟩
      · simp only [Latch.goto]; omega
      · simp only [Latch.goto, Bool.toNat_true]; omega
      · simp only [Latch.goto, Bool.toNat_true]; omega
      · intro pc hm'
        simp only [Latch.goto] at hm'
        rcases mem hm' with rfl | hm'
        · trivial
        · exact h6 pc hm'
    | uDone => cases h

/-- goroutines that have not started, at most one of them a waiter -/
structure OneWaiter (ths : List LPc) : Prop where
  fresh : ∀ pc ∈ ths, pc.fresh = true
  one : ths.countP LPc.isWait ≤ 1

theorem countP_fresh {ths : List LPc} (h : ∀ pc ∈ ths, pc.fresh = true) (p : LPc → Bool)
    (hp : ∀ pc, pc.fresh = true → p pc = false) : ths.countP p = 0 :=
  List.countP_eq_zero.2 (fun pc hpc => by simp [hp pc (h pc hpc)])

theorem latchInv_reach {ths : List LPc} (h : OneWaiter ths) {s : Latch} (hr : LatchReach ths s) :
    LatchInv (fun e => LPc.uCheck e ∈ ths) s := by
  obtain ⟨sched, hs⟩ := hr
  refine latch_ind ?_ (fun _ _ _ hi hst => latchInv_step hi hst) hs
  have z1 := countP_fresh h.fresh LPc.isClosing (by intro pc; cases pc <;> simp [LPc.fresh, LPc.isClosing])
  have z2 := countP_fresh h.fresh LPc.isBlocked (by intro pc; cases pc <;> simp [LPc.fresh, LPc.isBlocked])
  have z3 := countP_fresh h.fresh LPc.isUnlocking (by intro pc; cases pc <;> simp [LPc.fresh, LPc.isUnlocking])
  refine ⟨rfl, h.one, ?_, ?_, ?_, ?_, ?_⟩
  · simp [Latch.start, z1]
  · simp [Latch.start, z2]
  · simp [Latch.start, z1, z3]
  · simp [Latch.start]
  · intro pc hpc
    have := h.fresh pc hpc
    cases pc <;> first | trivial | (simp [LPc.fresh] at this) | exact hpc

/-- C31, partial: with one waiter and any number of signals nothing panics. -/
theorem c31_calm_partial {ths : List LPc} (h : OneWaiter ths) {s : Latch} (hr : LatchReach ths s) :
    s.panicked = false := (latchInv_reach h hr).calm

/-- C31, partial: with one waiter, wait returns only after a signal, with the error of one. -/
theorem c31_error_partial {ths : List LPc} (h : OneWaiter ths) {s : Latch} (hr : LatchReach ths s)
    {e : Option GoErr} (hd : LPc.wDone e ∈ s.ths) : s.ready = true ∧ LPc.uCheck e ∈ ths :=
  (latchInv_reach h hr).errs _ hd

/-- the unwait calls have not started or have returned -/
def SignalsDone (s : Latch) : Prop :=
  ∀ pc ∈ s.ths, pc.isSignal = true → pc = .uDone ∨ pc.fresh = true

/-- C31, partial: a waiter that blocks before the signal is woken by it. -/
theorem c31_woken_partial {ths : List LPc} (h : OneWaiter ths) {s s' : Latch} (hr : LatchReach ths s)
    {i : Nat} (hb : s.ths[i]? = some .wBlocked) (hn : s.ready = false) {sched : List Nat}
    (hs : s.run sched = some s') (hq : SignalsDone s') (hy : s'.ready = true)
    (hi : s'.ths[i]? = some .wBlocked) : ∃ s'', s'.step i = some s'' ∧ s''.ths[i]? = some .wRead := by
  have key : (1 ≤ s'.ths.countP LPc.isPast ∧ LatchInv (fun e => LPc.uCheck e ∈ ths) s' ∧
      (s'.locked = true → s'.ready = true → 1 ≤ s'.ths.countP LPc.isUnlocking)) := by
    refine latch_ind (P := fun s => 1 ≤ s.ths.countP LPc.isPast ∧ LatchInv (fun e => LPc.uCheck e ∈ ths) s ∧
      (s.locked = true → s.ready = true → 1 ≤ s.ths.countP LPc.isUnlocking)) ?_ ?_ hs
    · exact ⟨countP_pos_of hb rfl, latchInv_reach h hr, by intro _ h; rw [hn] at h; cases h⟩
    · rintro s j s' ⟨hp, hinv, hj⟩ hst
      have hinv' := latchInv_step hinv hst
      have h0 := hinv.calm
      unfold Latch.step at hst
      rw [if_neg (by simp [h0])] at hst
      cases hpc : s.ths[j]? with
      | none => rw [hpc] at hst; cases hst
      | some pc =>
        rw [hpc] at hst
        have c2 := fun y => countP_upd LPc.isPast hpc y
        have c5 := fun y => countP_upd LPc.isUnlocking hpc y
        cases pc with
        | wLock => have := lock_le _ hpc; have := hinv.one; omega
        | wDone e => cases hst
        | uDone => cases hst
        | wBlocked =>
          dsimp only at hst
          split at hst
          · cases hst
            refine ⟨?_, hinv', ?_⟩
            · have c2 := c2 .wRead; simp [LPc.isPast] at c2; simp only [Latch.goto]; omega
            · intro a b; have := hj a b; have c5 := c5 .wRead; simp [LPc.isUnlocking] at c5
              simp only [Latch.goto]; omega
          · cases hst
        | wCheck =>
          cases hst
          refine ⟨?_, hinv', ?_⟩
          · have c2 := c2 (if s.ready = true then .wRead else .wLock)
            simp only [LPc.isPast, Bool.false_eq_true, if_false] at c2
            simp only [Latch.goto]; omega
          · intro a b; have := hj a b
            have c5 := c5 (if s.ready = true then .wRead else .wLock)
            simp only [LPc.isUnlocking, Bool.false_eq_true, if_false] at c5
            simp only [Latch.goto]; omega
        | wRead =>
          cases hst
          refine ⟨?_, hinv', ?_⟩
          · have c2 := c2 (.wDone s.err); simp [LPc.isPast] at c2; simp only [Latch.goto]; omega
          · intro a b; have := hj a b; have c5 := c5 (.wDone s.err); simp [LPc.isUnlocking] at c5
            simp only [Latch.goto]; omega
        | uCheck e =>
          cases hst
          refine ⟨?_, hinv', ?_⟩
          · have c2 := c2 (if s.ready = true then .uDone else .uErr e)
            simp only [LPc.isPast, Bool.false_eq_true, if_false] at c2
            simp only [Latch.goto]; omega
          · intro a b; have := hj a b
            have c5 := c5 (if s.ready = true then .uDone else .uErr e)
            simp only [LPc.isUnlocking, Bool.false_eq_true, if_false] at c5
            simp only [Latch.goto]; omega
        | uErr e =>
          cases hst
          refine ⟨?_, hinv', ?_⟩
          · have c2 := c2 .uReady; simp [LPc.isPast] at c2; simp only [Latch.goto]; omega
          · intro a b; have := hj a b; have c5 := c5 .uReady; simp [LPc.isUnlocking] at c5
            simp only [Latch.goto]; omega
        | uReady =>
          cases hst
          refine ⟨?_, hinv', ?_⟩
          · have c2 := c2 .uUnlock; simp [LPc.isPast] at c2; simp only [Latch.goto]; omega
          · intro a b; have c5 := c5 .uUnlock; simp [LPc.isUnlocking] at c5
            simp only [Latch.goto]; omega
        | uUnlock =>
          dsimp only at hst
          split at hst
          · cases hst
            refine ⟨?_, hinv', ?_⟩
            · have c2 := c2 .uClose; simp [LPc.isPast] at c2; simp only [Latch.goto]; omega
            · intro a; cases a
          · rename_i hl
            cases hst
            refine ⟨?_, hinv', ?_⟩
            · have c2 := c2 .uDone; simp [LPc.isPast] at c2; simp only [Latch.goto]; omega
            · intro a; exact absurd a hl
        | uClose =>
          dsimp only at hst
          split at hst
          · cases hst; exact ⟨hp, hinv', hj⟩
          · cases hst
            refine ⟨?_, hinv', ?_⟩
            · have c2 := c2 .uDone; simp [LPc.isPast] at c2; simp only [Latch.goto]; omega
            · intro a b; have := hj a b; have c5 := c5 .uDone; simp [LPc.isUnlocking] at c5
              simp only [Latch.goto]; omega
  obtain ⟨_, hinv, hj⟩ := key
  have z1 : s'.ths.countP LPc.isClosing = 0 := List.countP_eq_zero.2 (by
    intro pc hpc hx
    rcases hq pc hpc (by cases pc <;> simp_all [LPc.isClosing, LPc.isSignal]) with rfl | hf
    · simp [LPc.isClosing] at hx
    · cases pc <;> simp_all [LPc.isClosing, LPc.fresh])
  have z2 : s'.ths.countP LPc.isUnlocking = 0 := List.countP_eq_zero.2 (by
    intro pc hpc hx
    rcases hq pc hpc (by cases pc <;> simp_all [LPc.isUnlocking, LPc.isSignal]) with rfl | hf
    · simp [LPc.isUnlocking] at hx
    · cases pc <;> simp_all [LPc.isUnlocking, LPc.fresh])
  have hl : s'.locked = false := by
    cases hx : s'.locked with
    | false => rfl
    | true => have := hj hx hy; omega
  have hcl : s'.chClosed = true := by
    have h1 := countP_pos_of (p := LPc.isBlocked) hi rfl
    have h2 := hinv.blocked
    rw [z1, hl] at h2
    cases hx : s'.chClosed with
    | true => rfl
    | false => simp only [hx, Bool.toNat_false] at h2; omega
  refine ⟨s'.goto i .wRead, ?_, ?_⟩
  · unfold Latch.step
    rw [if_neg (by simp [hinv.calm]), hi]
    simp [hcl]
  · have hlt : i < s'.ths.length := by
      rcases Nat.lt_or_ge i s'.ths.length with h | h
      · exact h
      · rw [List.getElem?_eq_none h] at hi; cases hi
    simp [Latch.goto, hlt]

/-- C31, partial: a wait that starts after the signal, with any number of other goroutines, never
blocks. -/
theorem c31_after_partial {s s' : Latch} (hy : s.ready = true) {i : Nat}
    (hb : s.ths[i]? = some .wCheck) {sched : List Nat} (hs : s.run sched = some s') :
    s'.ths[i]? = some .wCheck ∨ s'.ths[i]? = some .wRead ∨ ∃ e, s'.ths[i]? = some (.wDone e) := by
  refine (latch_ind (P := fun s => s.ready = true ∧ (s.ths[i]? = some .wCheck ∨ s.ths[i]? = some .wRead ∨
    ∃ e, s.ths[i]? = some (.wDone e))) ⟨hy, .inl hb⟩ ?_ hs).2
  rintro s j s' ⟨hr, hc⟩ hst
  have hlt : i < s.ths.length := by
    rcases Nat.lt_or_ge i s.ths.length with h | h
    · exact h
    · rw [List.getElem?_eq_none h] at hc; simp at hc
  unfold Latch.step at hst
  split at hst
  · cases hst
  by_cases hij : j = i
  · subst hij
    rcases hc with hc | hc | ⟨e, hc⟩
    · rw [hc] at hst
      cases hst
      exact ⟨hr, .inr (.inl (by simp [Latch.goto, hr, hlt]))⟩
    · rw [hc] at hst
      cases hst
      exact ⟨hr, .inr (.inr ⟨s.err, by simp [Latch.goto, hlt]⟩)⟩
    · rw [hc] at hst; cases hst
  · have keep : ∀ y : LPc, (s.ths.set j y)[i]? = s.ths[i]? := by
      intro y; rw [List.getElem?_set_ne hij]
    cases hpc : s.ths[j]? with
    | none => rw [hpc] at hst; cases hst
    | some pc =>
      rw [hpc] at hst
      cases pc <;> simp only at hst <;> (try split at hst) <;> cases hst <;>
        simp only [Latch.goto, keep] <;> exact ⟨by first | exact hr | rfl | trivial, hc⟩

/-- C31, partial: with one signal and any number of waiters nothing panics. -/
theorem c31_single_partial {ths : List LPc} (hf : ∀ pc ∈ ths, pc.fresh = true)
    (h1 : ths.countP LPc.isSignal ≤ 1) {s : Latch} (hr : LatchReach ths s) : s.panicked = false := by
  obtain ⟨sched, hs⟩ := hr
  have h0 : ths.countP LPc.isSignalled = 0 :=
    countP_fresh hf _ (by intro pc; cases pc <;> simp [LPc.fresh, LPc.isSignalled])
  refine (latch_ind (P := fun s => s.panicked = false ∧ s.ths.countP LPc.isSignal ≤ 1 ∧
    s.chClosed.toNat ≤ s.ths.countP LPc.isSignalled) ⟨rfl, h1, by simp [Latch.start]⟩ ?_ hs).1
  rintro s j s' ⟨hp, hc, hk⟩ hst
  unfold Latch.step at hst
  rw [if_neg (by simp [hp])] at hst
  cases hpc : s.ths[j]? with
  | none => rw [hpc] at hst; cases hst
  | some pc =>
    rw [hpc] at hst
    have a1 := fun y => countP_upd LPc.isSignal hpc y
    have a2 := fun y => countP_upd LPc.isSignalled hpc y
    have upd : ∀ y : LPc, y.isSignal = pc.isSignal → (pc.isSignalled = true → y.isSignalled = true) →
        (s.ths.set j y).countP LPc.isSignal ≤ 1 ∧
        s.chClosed.toNat ≤ (s.ths.set j y).countP LPc.isSignalled := by
      intro y e1 e2
      have a1 := a1 y; have a2 := a2 y
      rw [e1] at a1
      refine ⟨by omega, ?_⟩
      cases hx : pc.isSignalled with
      | true => simp [hx, e2 hx] at a2; omega
      | false => simp [hx] at a2; split at a2 <;> omega
    cases pc with
    | uClose =>
      have hcl : s.chClosed = false := by
        cases hx : s.chClosed with
        | false => rfl
        | true =>
          rw [hx] at hk
          have b1 := a1 .wCheck
          have b2 := a2 .wCheck
          simp only [LPc.isSignal, LPc.isSignalled, if_true, Bool.false_eq_true, if_false] at b1 b2
          have b3 := countP_le_of (p := LPc.isSignalled) (q := LPc.isSignal) (s.ths.set j .wCheck)
            (by intro x; cases x <;> simp [LPc.isSignalled, LPc.isSignal])
          simp only [Bool.toNat_true] at hk
          omega
      simp only [hcl, Bool.false_eq_true, if_false, Option.some.injEq] at hst
      subst hst
      have b1 := a1 .uDone
      have b2 := a2 .uDone
      simp only [LPc.isSignal, LPc.isSignalled, if_true, Bool.false_eq_true, if_false] at b1 b2
      refine ⟨hp, ?_, ?_⟩
      · simp only [Latch.goto]; omega
      · simp only [Latch.goto, Bool.toNat_true]; omega
    | wCheck =>
      cases hst
      have := upd (if s.ready = true then .wRead else .wLock) (by split <;> rfl) (by simp [LPc.isSignalled])
      exact ⟨hp, this⟩
    | uCheck e =>
      cases hst
      have := upd (if s.ready = true then .uDone else .uErr e) (by split <;> rfl) (by simp [LPc.isSignalled])
      exact ⟨hp, this⟩
    | wDone e => cases hst
    | uDone => cases hst
    | wLock => dsimp only at hst; split at hst <;> cases hst <;> exact ⟨hp, upd _ rfl (by simp [LPc.isSignalled])⟩
    | wBlocked => dsimp only at hst; split at hst <;> cases hst <;> exact ⟨hp, upd _ rfl (by simp [LPc.isSignalled])⟩
    | wRead => cases hst; exact ⟨hp, upd _ rfl (by simp [LPc.isSignalled])⟩
    | uErr e => cases hst; exact ⟨hp, upd _ rfl (by simp [LPc.isSignalled])⟩
    | uReady => cases hst; exact ⟨hp, upd _ rfl (by simp [LPc.isSignalled])⟩
    | uUnlock => dsimp only at hst; split at hst <;> cases hst <;> exact ⟨hp, upd _ rfl (by simp [LPc.isSignalled])⟩

/-- one waiter and three signals, a waiter blocked before the signal -/
example : OneWaiter [.wCheck, .uCheck none, .uCheck (some errWrite), .uCheck none] ∧
    (∃ s s', LatchReach [.wCheck, .uCheck none, .uCheck (some errWrite), .uCheck none] s ∧
      s.ths[0]? = some .wBlocked ∧ s.ready = false ∧ s.run [1, 2, 1, 2, 1, 2, 1, 2, 1] = some s' ∧
      SignalsDone s' ∧ s'.ready = true ∧ s'.ths[0]? = some .wBlocked) := by
  refine ⟨⟨by decide, by decide⟩, _, _, ⟨[0, 0], rfl⟩, rfl, rfl, rfl, ?_, rfl, rfl⟩
  unfold SignalsDone
  decide

/-- C31 fails: a waiter that has seen "not ready" and is overtaken by a whole unwait blocks for
ever, whatever other goroutines do afterwards. -/
theorem c31_refuted_lost (e : Option GoErr) (rest : List LPc) (hf : ∀ pc ∈ rest, pc.fresh = true) :
    ∃ s, LatchReach (.wCheck :: .uCheck e :: rest) s ∧ s.ready = true ∧ s.ths[1]? = some .uDone ∧
      ∀ sched s', s.run sched = some s' → s'.ths[0]? = some .wBlocked ∧ s'.step 0 = none := by
  refine ⟨⟨true, true, e, false, false, .wBlocked :: .uDone :: rest⟩, ⟨[0, 1, 1, 1, 1, 0], rfl⟩, rfl, rfl, ?_⟩
  intro sched s' hs
  have := latch_ind (P := fun s => s.ready = true ∧ s.chClosed = false ∧ s.panicked = false ∧
    s.ths[0]? = some .wBlocked ∧ ∀ pc ∈ s.ths, pc.isSignal = true → pc = .uDone ∨ pc.fresh = true)
    ⟨rfl, rfl, rfl, rfl, ?_⟩ ?_ hs
  · obtain ⟨_, h2, h3, h4, _⟩ := this
    refine ⟨h4, ?_⟩
    unfold Latch.step
    rw [if_neg (by simp [h3]), h4]
    simp [h2]
  · intro pc hpc hx
    simp only [List.mem_cons] at hpc
    rcases hpc with rfl | rfl | hpc
    · simp [LPc.isSignal] at hx
    · exact .inl rfl
    · exact .inr (hf pc hpc)
  · rintro s j s' ⟨h1, h2, h3, h4, h5⟩ hst
    have hlt : 0 < s.ths.length := by
      rcases Nat.lt_or_ge 0 s.ths.length with h | h
      · exact h
      · rw [List.getElem?_eq_none h] at h4; cases h4
    unfold Latch.step at hst
    rw [if_neg (by simp [h3])] at hst
    by_cases hj : j = 0
    · subst hj; rw [h4] at hst; simp [h2] at hst
    · have keep : ∀ y : LPc, (s.ths.set j y)[0]? = s.ths[0]? := by
        intro y; rw [List.getElem?_set_ne hj]
      have upd : ∀ y : LPc, (y.isSignal = true → y = .uDone ∨ y.fresh = true) →
          ∀ pc ∈ s.ths.set j y, pc.isSignal = true → pc = .uDone ∨ pc.fresh = true := by
        intro y hy pc hpc
        rcases List.mem_or_eq_of_mem_set hpc with h | rfl
        · exact h5 pc h
        · exact hy
      cases hpc : s.ths[j]? with
      | none => rw [hpc] at hst; cases hst
      | some pc =>
        rw [hpc] at hst
        have hm := h5 pc (List.mem_of_getElem? hpc)
        cases pc with
        | wCheck => cases hst; exact ⟨h1, h2, h3, by simp only [Latch.goto, keep, h4],
            upd _ (by simp [h1, LPc.isSignal])⟩
        | wLock =>
          dsimp only at hst
          split at hst
          · cases hst; exact ⟨h1, h2, h3, by simp only [Latch.goto, keep, h4], upd _ (by simp [LPc.isSignal])⟩
          · cases hst; exact ⟨h1, h2, h3, by simp only [Latch.goto, keep, h4], upd _ (by simp [LPc.isSignal])⟩
        | wBlocked => simp [h2] at hst
        | wRead => cases hst; exact ⟨h1, h2, h3, by simp only [Latch.goto, keep, h4],
            upd _ (by simp [LPc.isSignal])⟩
        | wDone e => cases hst
        | uCheck e => cases hst; exact ⟨h1, h2, h3, by simp only [Latch.goto, keep, h4],
            upd _ (by simp [h1])⟩
        | uErr e => simp [LPc.isSignal, LPc.fresh] at hm
        | uReady => simp [LPc.isSignal, LPc.fresh] at hm
        | uUnlock => simp [LPc.isSignal, LPc.fresh] at hm
        | uClose => simp [LPc.isSignal, LPc.fresh] at hm
        | uDone => cases hst

/-- C31 fails with two waiters and two signals: the channel is closed twice, which panics. -/
theorem c31_refuted_panic (e e' : Option GoErr) :
    ∃ s, LatchReach [.wCheck, .wCheck, .uCheck e, .uCheck e'] s ∧ s.panicked = true :=
  ⟨_, ⟨[0, 0, 1, 2, 3, 2, 2, 2, 2, 1, 3, 3, 3, 3], rfl⟩, rfl⟩

/-- C31 fails with two waiters: the second returns nil before any signal, also if the signal will
be an error. -/
theorem c31_refuted_early (e : GoErr) :
    ∃ s, LatchReach [.wCheck, .wCheck, .uCheck (some e)] s ∧ s.ready = false ∧
      s.ths[1]? = some (.wDone none) :=
  ⟨_, ⟨[0, 0, 1, 1, 1], rfl⟩, rfl, rfl⟩

end Neffos
