import Verif.Props.Poll
/-!
# C87: when exactly the wait of a server-side Connect ends
-/
set_option autoImplicit false
namespace Neffos

/-- what ends the wait in round `n`, by itself -/
def pollStops (acked closed : Bool) (n : Nat) : Option PollEnd :=
  if acked then some .acked
  -- five seconds are over, or the int64 wrapped around into the negative numbers
  else if closed ∧ wrap64 (10000000000 - (n + 1) * 15000000) ≤ 5000000000 then some (.err errWrite)
  else if (n + 1) % 288230376151711744 = 96076792050571248 then some (.err errDeadline)
  else none

/-- 216467622573228599 is the inverse of 234375 modulo 2^58 -/
theorem wrap_hit (m k : Int) (h : 10000000000 - m * 15000000 = 18446744073709551616 * k) :
    m = 96076792050571248 + 288230376151711744 * (117347333 - 216467622573228599 * k - 176021 * m) := by
  grind

theorem wrap_dvd (x : Int) : wrap64 x = 0 ↔ (18446744073709551616 : Int) ∣ x := by
  unfold wrap64
  exact (Int.dvd_iff_bmod_eq_zero (a := 18446744073709551616) (b := x)).symm

/-- the countdown is at zero in one round of 2^58 -/
theorem poll_zero (n : Nat) :
    wrap64 (maxSyncWaitDur - (n + 1 : Nat) * syncWaitDur) = 0 ↔ (n + 1) % 288230376151711744 = 96076792050571248 := by
  rw [wrap_dvd]
  generalize n + 1 = m
  show (18446744073709551616 : Int) ∣ 10000000000 - (m : Int) * 15000000 ↔ _
  constructor
  · rintro ⟨k, h⟩
    replace h := wrap_hit m k h
    generalize 117347333 - 216467622573228599 * k - 176021 * (m : Int) = j at h
    have : (m : Int) % 288230376151711744 = 96076792050571248 := by
      rw [h, Int.add_mul_emod_self_left]; rfl
    clear h
    omega
  · intro h
    have : m = 96076792050571248 + 288230376151711744 * (m / 288230376151711744) := by omega
    generalize m / 288230376151711744 = q at this
    subst this
    exact ⟨-(234375 * q) - 78125, by clear h; omega⟩

theorem poll_half (n : Nat) :
    wrap64 (maxSyncWaitDur - (n + 1 : Nat) * syncWaitDur) ≤ maxSyncWaitDur / 2 ↔
      wrap64 (10000000000 - (n + 1) * 15000000) ≤ 5000000000 := by
  simp only [syncWaitDur, maxSyncWaitDur]
  have : ((10 : Int) * 1000000000 - ((n + 1 : Nat) : Int) * (15 * 1000000)) = 10000000000 - ((n : Int) + 1) * 15000000 := by
    omega
  rw [this]
  constructor <;> intro h <;> omega

theorem pollRound_stops (a c : Bool) (n : Nat) :
    pollRound a c (wrap64 (maxSyncWaitDur - n * syncWaitDur)) =
      match pollStops a c n with
      | some r => .inl r
      | none => .inr (wrap64 (maxSyncWaitDur - (n + 1 : Nat) * syncWaitDur)) := by
  unfold pollRound pollStops
  dsimp only
  rw [wrap_sub]
  have hz := poll_zero n
  have hh := poll_half n
  generalize wrap64 (maxSyncWaitDur - (n + 1 : Nat) * syncWaitDur) = w at hz hh
  by_cases ha : a = true
  · simp [ha]
  · rw [if_neg ha, if_neg ha]
    by_cases h1 : wrap64 (10000000000 - (n + 1) * 15000000) ≤ 5000000000
    · have h1' := hh.mpr h1
      by_cases hc : c = true
      · simp [h1, h1', hc]
      · by_cases h2 : (n + 1) % 288230376151711744 = 96076792050571248
        · have h2' := hz.mpr h2
          simp [hc, h2, h2']
        · have h2' : ¬w = 0 := fun e => h2 (hz.mp e)
          simp [hc, h2, h2']
    · have h1' : ¬w ≤ maxSyncWaitDur / 2 := fun e => h1 (hh.mp e)
      have h2 : ¬ (n + 1) % 288230376151711744 = 96076792050571248 := by
        intro e
        apply h1'
        rw [hz.mpr e]; decide +kernel
      have h2' : ¬w = 0 := fun e => h2 (hz.mp e)
      simp [h1, h1', h2, h2']

theorem pollFrom_exact (acked closed : Nat → Bool) (fuel n : Nat) :
    (∀ k r, pollFrom acked closed n (wrap64 (maxSyncWaitDur - n * syncWaitDur)) fuel = .inl (k, r) ↔
      n ≤ k ∧ k < n + fuel ∧ pollStops (acked k) (closed k) k = some r ∧
        ∀ j, n ≤ j → j < k → pollStops (acked j) (closed j) j = none) := by
  induction fuel generalizing n with
  | zero => intro k r; simp [pollFrom]; omega
  | succ fuel ih =>
    intro k r
    unfold pollFrom
    rw [pollRound_stops]
    cases h : pollStops (acked n) (closed n) n with
    | some r' =>
      simp only [Sum.inl.injEq, Prod.mk.injEq]
      constructor
      · rintro ⟨rfl, rfl⟩
        exact ⟨Nat.le_refl _, by omega, h, fun j h1 h2 => by omega⟩
      · rintro ⟨h1, h2, h3, h4⟩
        by_cases e : n = k
        · subst e; rw [h] at h3; cases h3; exact ⟨rfl, rfl⟩
        · have := h4 n (Nat.le_refl _) (by omega)
          rw [h] at this; cases this
    | none =>
      dsimp only
      rw [ih (n + 1)]
      constructor
      · rintro ⟨h1, h2, h3, h4⟩
        refine ⟨by omega, by omega, h3, fun j h5 h6 => ?_⟩
        by_cases e : j = n
        · subst e; exact h
        · exact h4 j (by omega) h6
      · rintro ⟨h1, h2, h3, h4⟩
        have : n ≠ k := by rintro rfl; rw [h] at h3; cases h3
        exact ⟨by omega, by omega, h3, fun j h5 h6 => h4 j (by omega) h6⟩

/-- C87: the wait ends in the first round in which the connection is acknowledged, or closed after five seconds, or
the countdown is at zero, and with which result; in all rounds, the int64 wrapping around or not. -/
theorem c87_exact (acked closed : Nat → Bool) (rounds k : Nat) (r : PollEnd) :
    poll acked closed rounds = .inl (k, r) ↔
      k < rounds ∧ pollStops (acked k) (closed k) k = some r ∧ ∀ j, j < k → pollStops (acked j) (closed j) j = none := by
  have := pollFrom_exact acked closed rounds 0 k r
  rw [wrap_start] at this
  unfold poll
  rw [this]
  simp

/-- C87: before the int64 wraps around, being closed ends the wait exactly from the 334th round on, after 5.01
seconds. -/
theorem c87_half (n : Nat) (h : n < 614891469123) (r : PollEnd) :
    pollStops false true n = some r ↔ 333 ≤ n ∧ r = .err errWrite := by
  have hw : wrap64 (10000000000 - ((n : Int) + 1) * 15000000) = 10000000000 - ((n : Int) + 1) * 15000000 := by
    unfold wrap64
    apply Int.bmod_eq_of_le <;> omega
  unfold pollStops
  rw [hw]
  by_cases hn : 333 ≤ n
  · have : (10000000000 - ((n : Int) + 1) * 15000000 ≤ 5000000000) := by omega
    simp [this, hn, eq_comm]
  · have h1 : ¬ (10000000000 - ((n : Int) + 1) * 15000000 ≤ 5000000000) := by omega
    have h2 : ¬ (n + 1) % 288230376151711744 = 96076792050571248 := by omega
    simp [h1, h2, hn]

/-- C87: with a client that neither acknowledges nor closes the countdown misses zero and hits it only after the
int64 has wrapped around 5 times 2^58 units, in round 96076792050571248. -/
theorem c87_silent (rounds k : Nat) (r : PollEnd) :
    poll (fun _ => false) (fun _ => false) rounds = .inl (k, r) ↔
      k = 96076792050571247 ∧ k < rounds ∧ r = .err errDeadline := by
  rw [c87_exact]
  have key : ∀ j, pollStops false false j =
      if (j + 1) % 288230376151711744 = 96076792050571248 then some (.err errDeadline) else none := by
    intro j; simp [pollStops]
  simp only [key]
  constructor
  · rintro ⟨h1, h2, h3⟩
    split at h2
    · cases h2
      refine ⟨?_, h1, rfl⟩
      by_cases e : 96076792050571247 < k
      · have := h3 96076792050571247 e
        simp at this
      · omega
    · cases h2
  · rintro ⟨rfl, h1, rfl⟩
    refine ⟨h1, by simp, fun j hj => ?_⟩
    rw [if_neg]
    omega

/-- that is more than 45 million years, at fifteen milliseconds a round -/
example : 45000000 * 365 * 24 * 3600 * 1000 < 96076792050571248 * 15 ∧
    poll (fun _ => false) (fun _ => false) 96076792050571248 = .inl (96076792050571247, .err errDeadline) := by
  refine ⟨by decide +kernel, ?_⟩
  rw [c87_silent]
  exact ⟨rfl, by decide +kernel, rfl⟩

/-- closed at once, acknowledged never: five seconds -/
example : poll (fun _ => false) (fun _ => true) 1000 = .inl (333, .err errWrite) ∧
    poll (fun n => n ≥ 200) (fun _ => true) 1000 = .inl (200, .acked) := by
  constructor <;> decide +kernel

end Neffos
