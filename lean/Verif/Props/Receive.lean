import Verif.Proofs.Receive
/-!
C98: exactly which batches, in which order and how often, the default broadcaster can bring to a connection.
Slices are read and written at once here (`torn = false`); C41 and C42 have the other case.
-/
set_option autoImplicit false
namespace Neffos
open Spec Receive

/-- whatever a connection has got are batches that calls wrote to `messages`, as `Receivable` allows -/
theorem c98_received {s : BSt} {r : Nat} {x : Recv} (hr : BReach false s) (hx : s.recvs[r]? = some x) :
    ∃ ps, Receivable s.sets.length ps ∧ x.got = ps.map (fun p => ⟨s.sets[p]?, s.sets[p]?⟩) := by
  obtain ⟨ps, ⟨h1, h2⟩, h3⟩ := (breach_good hr r x hx).marked
  refine ⟨ps.take x.got.length, ⟨h1.sublist (List.take_sublist ..), fun j p hp => ?_⟩, ?_⟩
  · rw [List.getElem?_take] at hp
    split at hp
    · exact h2 j p hp
    · cases hp
  · rw [List.map_take, ← h3, List.take_left]

/-- the same if no call is made before the earlier ones have returned -/
theorem c98_received_serial {s : BSt} {ops : List BOp} {r : Nat} {x : Recv} (hr : BSt.run false {} ops = some s)
    (hs : Serial {} ops) (hx : s.recvs[r]? = some x) :
    ∃ ps, SeriallyReceivable s.sets.length ps ∧ x.got = ps.map (fun p => ⟨s.sets[p]?, s.sets[p]?⟩) := by
  obtain ⟨ps, ⟨h1, h2⟩, h3, _⟩ := sreach_fine ⟨ops, hr, hs⟩ r x hx
  have tk : ∀ {j p : Nat}, (ps.take x.got.length)[j]? = some p → ps[j]? = some p := by
    intro j p hp
    rw [List.getElem?_take] at hp
    split at hp
    · exact hp
    · cases hp
  refine ⟨ps.take x.got.length, ⟨fun j p hp => h1 j p (tk hp), fun i j p q hij hi hj => h2 i j p q hij (tk hi) (tk hj)⟩, ?_⟩
  rw [List.map_take, ← h3, List.take_left]

/-- After `n` calls, which wrote `messages` in the order they were made and have all returned, a connection that
waits for the next one can have got just the sequences that are `Receivable`. -/
theorem c98_exact (n : Nat) (ps : List Nat) :
    (∃ s, BReach false s ∧ s.casts = List.replicate n .done ∧ s.sets = List.range n ∧
      s.recvs[0]? = some ⟨.sel s.awaiter, false, ps.map batch⟩) ↔ Receivable n ps := by
  constructor
  · rintro ⟨s, hr, _, hs, hx⟩
    obtain ⟨qs, h1, h2⟩ := c98_received hr hx
    rw [hs, List.length_range] at h1
    rw [hs, range_map (fun p hp => by
      obtain ⟨j, hj⟩ := List.getElem?_of_mem hp
      exact (h1.2 j p hj).2)] at h2
    rw [batch_inj h2]; exact h1
  · rintro ⟨h1, h2⟩
    obtain ⟨ops, ho⟩ := leads_all (n := n) (m := 0) (w := 0) (g := []) ps (Nat.le_refl _) (Nat.zero_le _) h1
      (fun j p hp => ⟨by have := (h2 j p hp).1; omega, by omega, (h2 j p hp).2⟩)
    refine ⟨_, breach_run (reach_start n) ho, ?_, rfl, rfl⟩
    show castsAt n n n = _
    exact List.eq_replicate_iff.mpr ⟨by simp [castsAt], castsAt_all n n⟩

/-- and if no call is made before the earlier ones have returned, just those that are `SeriallyReceivable` -/
theorem c98_exact_serial (n : Nat) (ps : List Nat) :
    (∃ s ops, BSt.run false {} ops = some s ∧ Serial {} ops ∧ s.casts = List.replicate n .done ∧
      s.sets = List.range n ∧ s.recvs[0]? = some ⟨.sel s.awaiter, false, ps.map batch⟩) ↔ SeriallyReceivable n ps := by
  constructor
  · rintro ⟨s, ops, hr, hso, _, hs, hx⟩
    obtain ⟨qs, h1, h2⟩ := c98_received_serial hr hso hx
    rw [hs, List.length_range] at h1
    rw [hs, range_map (fun p hp => by
      obtain ⟨j, hj⟩ := List.getElem?_of_mem hp
      exact (h1.1 j p hj).2)] at h2
    rw [batch_inj h2]; exact h1
  · rintro ⟨h1, h2⟩
    obtain ⟨ops, ho, hs⟩ := sleads_start.trans (sleads_all (n := n) (m := 0) (w := 0) (g := []) ps (Nat.le_refl _)
      (by omega) (Nat.zero_le _) (fun j p hp => by have := h1 j p hp; omega) h2)
    refine ⟨_, ops, ho, hs, ?_, rfl, rfl⟩
    show castsAt n n n = _
    exact List.eq_replicate_iff.mpr ⟨by simp [castsAt], castsAt_all n n⟩

/-- a connection never gets more batches than calls have written -/
theorem c98_number {s : BSt} {r : Nat} {x : Recv} (hr : BReach false s) (hx : s.recvs[r]? = some x) :
    x.got.length ≤ s.sets.length := by
  obtain ⟨ps, ⟨_, h2⟩, h3⟩ := c98_received hr hx
  rw [h3, List.length_map]
  refine Classical.byContradiction fun hn => ?_
  have hl : s.sets.length < ps.length := by omega
  have := h2 s.sets.length _ (List.getElem?_eq_getElem hl)
  omega

/-- A connection gets the batch that was written as the `p`-th, counted from 0, at most `p + 1` times. -/
theorem c98_repeats {s : BSt} {r p k : Nat} {x : Recv} (hr : BReach false s) (hx : s.recvs[r]? = some x)
    (hk : s.sets[p]? = some k) : x.got.count (batch k) ≤ p + 1 := by
  obtain ⟨ps, ⟨_, h2⟩, h3⟩ := c98_received hr hx
  rw [h3, count_pos (breach_sets hr).nodup hk (fun q hq => by
    obtain ⟨j, hj⟩ := List.getElem?_of_mem hq
    exact (h2 j q hj).2)]
  by_cases h0 : 0 < ps.count p
  · obtain ⟨i, j, _, _, hj, hc⟩ := count_span h0
    have := (h2 j p hj).1
    omega
  · omega

/-- and at most twice if calls do not overlap -/
theorem c98_repeats_serial {s : BSt} {ops : List BOp} {r p k : Nat} {x : Recv} (hr : BSt.run false {} ops = some s)
    (hs : Serial {} ops) (hx : s.recvs[r]? = some x) (hk : s.sets[p]? = some k) : x.got.count (batch k) ≤ 2 := by
  obtain ⟨ps, ⟨h1, h2⟩, h3⟩ := c98_received_serial hr hs hx
  rw [h3, count_pos (breach_sets ⟨ops, hr⟩).nodup hk (fun q hq => by
    obtain ⟨j, hj⟩ := List.getElem?_of_mem hq
    exact (h1 j q hj).2)]
  by_cases h0 : 0 < ps.count p
  · obtain ⟨i, j, hij, hi, hj, hc⟩ := count_span h0
    rcases Nat.lt_or_eq_of_le hij with h | h
    · have := h2 i j p p h hi hj
      omega
    · omega
  · omega

/-! Three calls that overlap can bring a connection the last batch three times and the first two never. -/
example : ∃ s, BReach false s ∧ s.casts = List.replicate 3 .done ∧ s.sets = List.range 3 ∧
    s.recvs[0]? = some ⟨.sel s.awaiter, false, [2, 2, 2].map batch⟩ :=
  (c98_exact 3 [2, 2, 2]).mpr ⟨by decide, fun j p h => by
    match j with
    | 0 | 1 | 2 => cases h; decide
    | j + 3 => cases h⟩

/-! Calls one after the other cannot. -/
example : ¬ ∃ s ops, BSt.run false {} ops = some s ∧ Serial {} ops ∧ s.casts = List.replicate 3 .done ∧
    s.sets = List.range 3 ∧ s.recvs[0]? = some ⟨.sel s.awaiter, false, [2, 2, 2].map batch⟩ := by
  rw [c98_exact_serial]
  intro h
  have := h.2 0 2 2 2 (by decide) rfl rfl
  omega

/-! But they can bring the second batch twice and the first not at all: a connection that got as many batches as
were broadcast need not have got them all. -/
example : ∃ s ops, BSt.run false {} ops = some s ∧ Serial {} ops ∧ s.casts = List.replicate 2 .done ∧
    s.sets = List.range 2 ∧ s.recvs[0]? = some ⟨.sel s.awaiter, false, [1, 1].map batch⟩ :=
  (c98_exact_serial 2 [1, 1]).mpr <| by
  refine ⟨fun j p h => ?_, fun i j p q hij hi hj => ?_⟩
  · match j with
    | 0 | 1 => cases h; decide
    | j + 2 => cases h
  · match j with
    | 0 => omega
    | 1 =>
      have e : i = 0 := by omega
      subst e
      cases hi; cases hj; decide
    | j + 2 => cases hj

/-! The first batch twice is not possible, and neither is a batch after one that was written later. -/
example : ¬ Receivable 2 [0, 0] := fun h => by have := h.2 1 0 rfl; omega
example : ¬ Receivable 9 [5, 4] := fun h => by have := List.rel_of_pairwise_cons h.1 (List.mem_cons_self ..); omega

/-! A state as in the hypotheses of `c98_received`, `c98_number` and `c98_repeats`, with a batch that came twice. -/
example : ∃ (s : BSt) (x : Recv), BReach false s ∧ s.recvs[0]? = some x ∧ x.got.count (batch 1) = 2 ∧
    s.sets[1]? = some 1 := by
  obtain ⟨s, hr, _, hs, hx⟩ := (c98_exact 2 [1, 1]).mpr ⟨by decide, fun j p h => by
    match j with
    | 0 | 1 => cases h; decide
    | j + 2 => cases h⟩
  exact ⟨s, _, hr, hx, by show ([1, 1].map batch).count (batch 1) = 2; decide, by rw [hs]; rfl⟩

end Neffos
