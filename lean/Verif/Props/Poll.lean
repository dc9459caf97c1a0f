import Verif.Model.Poll
/-!
# C34: a server-side Connect to a client that never acknowledges
-/
set_option autoImplicit false
namespace Neffos

/-- the value of `t` after `n` rounds -/
theorem wrap_sub (n : Nat) :
    wrap64 (wrap64 (maxSyncWaitDur - n * syncWaitDur) - syncWaitDur) =
      wrap64 (maxSyncWaitDur - (n + 1 : Nat) * syncWaitDur) := by
  unfold wrap64
  rw [Int.bmod_sub_bmod]
  have : maxSyncWaitDur - n * syncWaitDur - syncWaitDur =
      maxSyncWaitDur - (n + 1 : Nat) * syncWaitDur := by
    simp only [syncWaitDur, maxSyncWaitDur]
    omega
  rw [this]

/-- before the int64 overflows, `t` is never zero -/
theorem wrap_zero (n : Nat) (hn : n ≤ 614891469123)
    (h : wrap64 (maxSyncWaitDur - n * syncWaitDur) = 0) : False := by
  have : wrap64 (maxSyncWaitDur - n * syncWaitDur) = maxSyncWaitDur - n * syncWaitDur := by
    unfold wrap64
    apply Int.bmod_eq_of_le <;> simp only [syncWaitDur, maxSyncWaitDur] <;> omega
  rw [this] at h
  simp only [syncWaitDur, maxSyncWaitDur] at h
  omega

theorem wrap_start : wrap64 (maxSyncWaitDur - (0 : Nat) * syncWaitDur) = maxSyncWaitDur := by
  decide +kernel

/-- the loop ends in exactly the round in which one of its conditions holds -/
theorem pollFrom_spec (acked closed : Nat → Bool) (fuel n : Nat) :
    (∀ k r, pollFrom acked closed n (wrap64 (maxSyncWaitDur - n * syncWaitDur)) fuel = .inl (k, r) →
      n ≤ k ∧ k < n + fuel ∧
      ((acked k = true ∧ r = .acked) ∨
       (acked k = false ∧ closed k = true ∧ r = .err errWrite ∧
          wrap64 (maxSyncWaitDur - (k + 1 : Nat) * syncWaitDur) ≤ maxSyncWaitDur / 2) ∨
       (acked k = false ∧ wrap64 (maxSyncWaitDur - (k + 1 : Nat) * syncWaitDur) = 0))) ∧
    (∀ t, pollFrom acked closed n (wrap64 (maxSyncWaitDur - n * syncWaitDur)) fuel = .inr t →
      ∀ k, n ≤ k → k < n + fuel → acked k = false ∧
        (closed k = true →
          ¬ wrap64 (maxSyncWaitDur - (k + 1 : Nat) * syncWaitDur) ≤ maxSyncWaitDur / 2)) := by
  induction fuel generalizing n with
  | zero => exact ⟨by simp [pollFrom], fun t _ k h1 h2 => by omega⟩
  | succ fuel ih =>
    unfold pollFrom
    obtain ⟨ih1, ih2⟩ := ih (n + 1)
    unfold pollRound
    dsimp only
    rw [wrap_sub]
    by_cases ha : acked n = true
    · rw [if_pos ha]
      dsimp only
      refine ⟨?_, by simp⟩
      intro k r h
      simp only [Sum.inl.injEq, Prod.mk.injEq] at h
      obtain ⟨rfl, rfl⟩ := h
      exact ⟨Nat.le_refl _, by omega, .inl ⟨ha, rfl⟩⟩
    · have ha' : acked n = false := by simpa using ha
      rw [if_neg ha]
      by_cases hc : wrap64 (maxSyncWaitDur - (n + 1 : Nat) * syncWaitDur) ≤ maxSyncWaitDur / 2 ∧
          closed n = true
      · rw [if_pos hc]
        dsimp only
        refine ⟨?_, by simp⟩
        intro k r h
        simp only [Sum.inl.injEq, Prod.mk.injEq] at h
        obtain ⟨rfl, rfl⟩ := h
        exact ⟨Nat.le_refl _, by omega, .inr (.inl ⟨ha', hc.2, rfl, hc.1⟩)⟩
      · rw [if_neg hc]
        by_cases hz : wrap64 (maxSyncWaitDur - (n + 1 : Nat) * syncWaitDur) = 0
        · rw [if_pos hz]
          dsimp only
          refine ⟨?_, by simp⟩
          intro k r h
          simp only [Sum.inl.injEq, Prod.mk.injEq] at h
          obtain ⟨rfl, _⟩ := h
          exact ⟨Nat.le_refl _, by omega, .inr (.inr ⟨ha', hz⟩)⟩
        · rw [if_neg hz]
          dsimp only
          refine ⟨?_, ?_⟩
          · intro k r h
            obtain ⟨h1, h2, h3⟩ := ih1 k r h
            exact ⟨by omega, by omega, h3⟩
          · intro t h k h1 h2
            by_cases e : k = n
            · subst e
              exact ⟨ha', fun hcl hle => hc ⟨hle, hcl⟩⟩
            · exact ih2 t h k (by omega) (by omega)

/-- C34 fails: ten seconds are not a multiple of fifteen milliseconds, so the countdown
never hits zero. A client that never acknowledges and does not close keeps the loop going for
as many rounds as one likes, at least up to the overflow of the int64 after more than 290 years. -/
theorem c34_refuted (rounds : Nat) (h : rounds ≤ 614891469123) :
    ∃ t, poll (fun _ => false) (fun _ => false) rounds = .inr t := by
  unfold poll
  have := (pollFrom_spec (fun _ => false) (fun _ => false) rounds 0).1
  rw [wrap_start] at this
  cases hp : pollFrom (fun _ => false) (fun _ => false) 0 maxSyncWaitDur rounds with
  | inr t => exact ⟨t, rfl⟩
  | inl x =>
    obtain ⟨k, r⟩ := x
    obtain ⟨h1, h2, h3⟩ := this k r hp
    rcases h3 with ⟨h3, _⟩ | ⟨_, h3, _⟩ | ⟨_, h3⟩
    · cases h3
    · cases h3
    · exact (wrap_zero _ (by omega) h3).elim

/-- the rounds of more than 290 years, at fifteen milliseconds each -/
example : 290 * 365 * 24 * 3600 * 1000 < 614891469123 * 15 := by
  decide +kernel

/-- C34, partial: if the connection is closed and not acknowledged in some round after the
first five seconds, Connect has returned by then, with ErrWrite unless it was acknowledged. -/
theorem c34_closed_partial (acked closed : Nat → Bool) (n : Nat) (h1 : 333 ≤ n)
    (h2 : n < 614891469123) (hc : closed n = true) :
    ∃ k r, poll acked closed (n + 1) = .inl (k, r) ∧ k ≤ n ∧
      ((acked k = true ∧ r = .acked) ∨ (acked k = false ∧ closed k = true ∧ r = .err errWrite)) := by
  have spec := pollFrom_spec acked closed (n + 1) 0
  rw [wrap_start] at spec
  unfold poll
  cases hp : pollFrom acked closed 0 maxSyncWaitDur (n + 1) with
  | inr t =>
    obtain ⟨_, h4⟩ := spec.2 t hp n (Nat.zero_le _) (by omega)
    exfalso
    apply h4 hc
    have : wrap64 (maxSyncWaitDur - (n + 1 : Nat) * syncWaitDur) =
        maxSyncWaitDur - (n + 1 : Nat) * syncWaitDur := by
      unfold wrap64
      apply Int.bmod_eq_of_le <;> simp only [syncWaitDur, maxSyncWaitDur] <;> omega
    rw [this]
    simp only [syncWaitDur, maxSyncWaitDur]
    omega
  | inl x =>
    obtain ⟨k, r⟩ := x
    obtain ⟨a1, a2, a3⟩ := spec.1 k r hp
    refine ⟨k, r, rfl, by omega, ?_⟩
    rcases a3 with a3 | ⟨a3, a4, a5, _⟩ | ⟨_, a3⟩
    · exact .inl a3
    · exact .inr ⟨a3, a4, a5⟩
    · exact (wrap_zero _ (by omega) a3).elim

/-- C34, partial: Connect goes on as soon as the connection is acknowledged, if it was open
until then. -/
theorem c34_acked_partial (acked closed : Nat → Bool) (n : Nat) (h2 : n < 614891469123)
    (ho : ∀ k, k < n → acked k = false ∧ closed k = false) (ha : acked n = true) :
    poll acked closed (n + 1) = .inl (n, .acked) := by
  have spec := pollFrom_spec acked closed (n + 1) 0
  rw [wrap_start] at spec
  unfold poll
  cases hp : pollFrom acked closed 0 maxSyncWaitDur (n + 1) with
  | inr t =>
    obtain ⟨h3, _⟩ := spec.2 t hp n (Nat.zero_le _) (by omega)
    rw [ha] at h3; cases h3
  | inl x =>
    obtain ⟨k, r⟩ := x
    obtain ⟨_, a2, a3⟩ := spec.1 k r hp
    have hk : k = n := by
      rcases Nat.lt_or_ge k n with h | h
      · obtain ⟨b1, b2⟩ := ho k h
        rcases a3 with ⟨a3, _⟩ | ⟨_, a4, _⟩ | ⟨_, a3⟩
        · rw [b1] at a3; cases a3
        · rw [b2] at a4; cases a4
        · exact (wrap_zero _ (by omega) a3).elim
      · omega
    subst hk
    rcases a3 with ⟨_, a3⟩ | ⟨a3, _⟩ | ⟨a3, _⟩
    · rw [a3]
    · rw [ha] at a3; cases a3
    · rw [ha] at a3; cases a3

example : poll (fun _ => false) (fun n => n ≥ 400) 401 = .inl (400, .err errWrite) ∧
    poll (fun n => n ≥ 700) (fun _ => false) 701 = .inl (700, .acked) := by
  constructor <;> decide +kernel

end Neffos
