import Verif.Proofs.Broadcaster
/-!
# The default broadcaster (C41, C42)

All schedules of any number of calls of `broadcast` and of goroutines of connections.
-/
set_option autoImplicit false
namespace Neffos

variable {torn : Bool} {s s' : BSt}

def bafter (torn : Bool) (ops : List BOp) : BSt := (BSt.run torn {} ops).getD {}

theorem bafter_reach {ops : List BOp} (h : (BSt.run torn {} ops).isSome = true) : BReach torn (bafter torn ops) := by
  obtain ⟨s, hs⟩ := Option.isSome_iff_exists.mp h
  exact ⟨ops, by rw [bafter, hs]; rfl⟩

/-! ## C41 -/

/-- the batch of the call `k`, all of it -/
def batch (k : Nat) : Slice := ⟨some k, some k⟩

/-- If a slice is read and written at once: what a connection publishes is the whole batch of a call of
`broadcast` that got the mutex. -/
theorem c41_batches_partial (hr : BReach false s) {r : Nat} {x : Recv} (hx : s.recvs[r]? = some x) {m : Slice}
    (hm : m ∈ x.got) : ∃ (k : Nat) (pc : BPc), m = batch k ∧ s.casts[k]? = some pc ∧ pc ≠ .lock ∧ pc ≠ .setPtr := by
  obtain ⟨ps, _, h2, h3⟩ := (breach_reading hr).got r x hx
  have hm' : m ∈ x.got ++ x.pc.flight := List.mem_append_left _ hm
  rw [h3, List.mem_map] at hm'
  obtain ⟨p, hp, rfl⟩ := hm'
  have hlt := h2 p hp
  have hk : s.sets[p] ∈ s.sets := List.getElem_mem hlt
  obtain ⟨pc, hpc, hpast⟩ := ((breach_sets hr).mem _).mp hk
  refine ⟨s.sets[p], pc, by rw [List.getElem?_eq_getElem hlt]; rfl, hpc, ?_, ?_⟩ <;> (intro e; subst e; cases hpast)

/-- With one order of the calls for all connections: no connection ever goes back in it. -/
theorem c41_order_partial (hr : BReach false s) : ∃ order : List Nat, order.Nodup ∧
    ∀ (r : Nat) (x : Recv), s.recvs[r]? = some x → ∃ ks : List Nat, x.got = ks.map batch ∧ (∀ k ∈ ks, k ∈ order) ∧
      ks.Pairwise (fun a b => order.idxOf a ≤ order.idxOf b) := by
  refine ⟨s.sets, (breach_sets hr).nodup, fun r x hx => ?_⟩
  obtain ⟨ps, h1, h2, h3⟩ := (breach_reading hr).got r x hx
  -- the part that is published
  have h4 : x.got = (ps.take x.got.length).map (fun p => (⟨s.sets[p]?, s.sets[p]?⟩ : Slice)) := by
    have := congrArg (List.take x.got.length) h3
    rwa [List.take_left, ← List.map_take] at this
  have hlt : ∀ p ∈ ps.take x.got.length, p < s.sets.length := fun p hp => h2 p (List.mem_of_mem_take hp)
  have hpw : (ps.take x.got.length).Pairwise (· ≤ ·) := h1.sublist (List.take_sublist _ _)
  revert h4 hlt hpw
  generalize ps.take x.got.length = qs
  intro h4 hlt hpw
  refine ⟨qs.map (fun p => (s.sets[p]?).getD 0), ?_, ?_, ?_⟩
  · rw [h4, List.map_map]
    apply List.map_congr_left
    intro p hp
    simp [batch, List.getElem?_eq_getElem (hlt p hp)]
  · intro k hk
    obtain ⟨p, hp, rfl⟩ := List.mem_map.mp hk
    rw [List.getElem?_eq_getElem (hlt p hp)]
    exact List.getElem_mem _
  · rw [List.pairwise_map]
    refine hpw.imp_of_mem (fun {a b} ha hb hab => ?_)
    rw [List.getElem?_eq_getElem (hlt a ha), List.getElem?_eq_getElem (hlt b hb)]
    simp only [Option.getD_some]
    rw [(breach_sets hr).nodup.idxOf_getElem _ (hlt a ha), (breach_sets hr).nodup.idxOf_getElem _ (hlt b hb)]
    exact hab

/-- A call that returned before another one was made: once the later batch was received, the earlier one is not
received any more. -/
theorem c41_no_older_partial (hr : BReach false s) {j k : Nat} (hj : s.casts[j]? = some .done)
    (hk : s.casts.length ≤ k) {ops : List BOp} (h : s.run false ops = some s') {r : Nat} {x : Recv}
    (hx : s'.recvs[r]? = some x) {g1 g2 : List Slice} (hg : x.got = g1 ++ batch k :: g2) : batch j ∉ g2 := by
  intro hmem
  have hr' := breach_run hr h
  obtain ⟨l, hl⟩ := sets_run hr h
  have hjs : j ∈ s.sets := ((breach_sets hr).mem j).mpr ⟨_, hj, rfl⟩
  have hks : k ∉ s.sets := by
    intro hks
    obtain ⟨pc, hpc, _⟩ := ((breach_sets hr).mem k).mp hks
    have := (List.getElem?_eq_some_iff.mp hpc).1
    omega
  obtain ⟨ps, h1, h2, h3⟩ := (breach_reading hr').got r x hx
  obtain ⟨g3, g4, rfl⟩ := List.append_of_mem hmem
  rw [hg] at h3
  have hnd := (breach_sets hr').nodup
  -- the positions of the two
  obtain ⟨a, b, e1, e2, e3⟩ : ∃ a b : Nat, s'.sets[a]? = some k ∧ s'.sets[b]? = some j ∧ a ≤ b := by
    have e : ps.map (fun p => (⟨s'.sets[p]?, s'.sets[p]?⟩ : Slice)) =
        g1 ++ (batch k :: g3) ++ (batch j :: (g4 ++ x.pc.flight)) := by rw [← h3]; simp
    obtain ⟨p1, p2, rfl, ep1, ep2⟩ := List.map_eq_append_iff.mp e
    obtain ⟨p3, p4, rfl, ep3, ep4⟩ := List.map_eq_append_iff.mp ep1
    obtain ⟨a, p5, rfl, ea, _⟩ := List.map_eq_cons_iff.mp ep4
    obtain ⟨b, p6, rfl, eb, _⟩ := List.map_eq_cons_iff.mp ep2
    refine ⟨a, b, congrArg Slice.ptr ea, congrArg Slice.ptr eb, ?_⟩
    exact (List.pairwise_append.mp h1).2.2 a (by simp) b (by simp)
  obtain ⟨i, hi, hij⟩ := List.getElem_of_mem hjs
  have hib : i = b := by
    have h5 : s'.sets[i]? = some j := by
      rw [hl, List.getElem?_append_left hi, List.getElem?_eq_getElem hi, hij]
    obtain ⟨hb1, hb2⟩ := List.getElem?_eq_some_iff.mp e2
    obtain ⟨hi1, hi2⟩ := List.getElem?_eq_some_iff.mp h5
    exact (List.getElem_inj (h₀ := hi1) (h₁ := hb1) hnd).mp (by rw [hi2, hb2])
  apply hks
  rw [hl, List.getElem?_append_left (by omega)] at e1
  exact List.mem_of_getElem? e1

/-- No channel is closed twice: `broadcast` does not panic. -/
theorem c41_no_panic (hr : BReach torn s) : s.panicked = false := (breach_chans hr).calm

/-- the goroutine that takes the step -/
def BOp.by : BOp → Option BTid
  | .cast k => some (.cast k)
  | .recv r _ => some (.conn r)
  | .quit r => some (.conn r)
  | _ => none

/-- A call only ever waits for whoever holds the mutex: in any state the call `k` can come to its end with
steps of its own and of the holder only. No receiver but the holder has to do anything. -/
theorem c41_completes_partial (hr : BReach torn s) {k : Nat} (hk : k < s.casts.length) : ∃ (ops : List BOp) (s' : BSt),
    s.run torn ops = some s' ∧ s'.casts[k]? = some .done ∧
    ∀ op ∈ ops, op.by = some (.cast k) ∨ (op.by = s.mu ∧ s.mu.isSome = true) := by
  have hk := List.getElem?_eq_getElem hk
  have hl := breach_locked hr
  rcases hm : s.mu with _ | (j | r)
  · obtain ⟨m, s', h1, h2⟩ := cast_ends _ hr hk rfl (fun _ => hm)
    exact ⟨_, s', h1, h2, fun op ho => .inl (by rw [List.eq_of_mem_replicate ho]; rfl)⟩
  · by_cases e : j = k
    · subst e
      have hh := (hl.cast j _ hk).mp hm
      obtain ⟨m, s', h1, h2⟩ := cast_ends _ hr hk rfl (fun e => by rw [e] at hh; cases hh)
      exact ⟨_, s', h1, h2, fun op ho => .inl (by rw [List.eq_of_mem_replicate ho]; rfl)⟩
    · have hj := List.getElem?_eq_getElem (hl.castIn j hm)
      obtain ⟨m, s1, h1, h2, h3⟩ := cast_lets _ hr hj rfl ((hl.cast j _ hj).mp hm)
      have hr1 := breach_run hr h1
      have hk1 := hk
      rw [← h3 k (fun e' => e e'.symm)] at hk1
      obtain ⟨m', s2, h4, h5⟩ := cast_ends _ hr1 hk1 rfl (fun _ => h2)
      refine ⟨_, s2, (brun_append h1).trans h4, h5, fun op ho => ?_⟩
      rcases List.mem_append.mp ho with ho | ho
      · exact .inr ⟨by rw [List.eq_of_mem_replicate ho]; rfl, rfl⟩
      · exact .inl (by rw [List.eq_of_mem_replicate ho]; rfl)
  · have hj := List.getElem?_eq_getElem (hl.connIn r hm)
    obtain ⟨m, s1, h1, h2, h3⟩ := conn_lets hr hj ((hl.conn r _ hj).mp hm)
    have hr1 := breach_run hr h1
    have hk1 := (congrArg (fun l => l[k]?) h3).trans hk
    obtain ⟨m', s2, h4, h5⟩ := cast_ends _ hr1 hk1 rfl (fun _ => h2)
    refine ⟨_, s2, (brun_append h1).trans h4, h5, fun op ho => ?_⟩
    rcases List.mem_append.mp ho with ho | ho
    · exact .inr ⟨by rw [List.eq_of_mem_replicate ho]; rfl, rfl⟩
    · exact .inl (by rw [List.eq_of_mem_replicate ho]; rfl)

/-- two calls, a connection publishes the first batch -/
def blockOps : List BOp :=
  [.join, .recv 0 true, .recv 0 true, .recv 0 true, .call, .cast 0, .cast 0, .cast 0, .cast 0, .cast 0,
    .recv 0 true, .recv 0 true, .recv 0 true, .call]

theorem held_stays {r k : Nat} {op : BOp} (hr : BReach torn s) (hm : s.mu = some (.conn r))
    (hk : s.casts[k]? = some .lock) (ho : op.by ≠ some (.conn r)) (hx : BNext torn s op s') :
    s'.mu = some (.conn r) ∧ s'.casts[k]? = some .lock := by
  have hl := breach_locked hr
  have set : ∀ {j : Nat} {pc q : BPc}, s.casts[j]? = some pc → pc ≠ .lock → (s.casts.set j q)[k]? = some .lock := by
    intro j pc q hj hp
    rw [List.getElem?_set_ne (fun e => by subst e; rw [hk] at hj; cases hj; exact hp rfl)]; exact hk
  cases hx
  case call => exact ⟨hm, by rw [List.getElem?_append_left (List.getElem?_eq_some_iff.mp hk).1]; exact hk⟩
  case castLock h => rw [hm] at h; cases h
  case castUnlock j h => have := (hl.cast j _ h).mpr rfl; rw [hm] at this; cases this
  case castPtr h _ => exact ⟨hm, set h (by simp)⟩
  case castSet h _ => exact ⟨hm, set h (by simp)⟩
  case castLen h => exact ⟨hm, set h (by simp)⟩
  case castSwap h => exact ⟨hm, set h (by simp)⟩
  case castClose h _ => exact ⟨hm, set h (by simp)⟩
  case lock h => rw [hm] at h; cases h
  case relock h => rw [hm] at h; cases h
  case relockEnd h => rw [hm] at h; cases h
  case unlock j ch ok x h hp =>
    have := (hl.conn j _ h).mpr (by rw [hp]; rfl)
    rw [hm] at this; cases this; exact absurd rfl ho
  case leave j ok more x h hp =>
    have := (hl.conn j _ h).mpr (by rw [hp]; rfl)
    rw [hm] at this; cases this; exact absurd rfl ho
  all_goals exact ⟨hm, hk⟩

/-- A broadcast does block for a receiver: while a connection publishes a batch, for instance writes to a slow
socket, a second call does not get past its first line whatever else happens. -/
theorem c41_refuted_blocks : ∃ (s : BSt) (r k : Nat), BReach torn s ∧
    (∃ (x : Recv) (m : Slice), s.recvs[r]? = some x ∧ x.pc = .publish m) ∧ s.casts[k]? = some .lock ∧
    ∀ (ops : List BOp) (s' : BSt), (∀ op ∈ ops, op.by ≠ some (.conn r)) → s.run torn ops = some s' →
      s'.casts[k]? = some .lock := by
  have key : ∀ s : BSt, BReach torn s → s.mu = some (.conn 0) → s.casts[1]? = some .lock →
      ∀ (ops : List BOp) (s' : BSt), (∀ op ∈ ops, op.by ≠ some (.conn 0)) → s.run torn ops = some s' →
      s'.casts[1]? = some .lock := by
    intro s hr hm hk ops
    induction ops generalizing s with
    | nil => intro s' _ h; cases h; exact hk
    | cons op ops ih =>
      intro s' ho h
      simp only [BSt.run] at h
      split at h
      · rename_i t ht
        obtain ⟨h1, h2⟩ := held_stays hr hm hk (ho op (by simp)) (bnext_of_step ht)
        exact ih t (breach_run (ops := [op]) hr (by simp [BSt.run, ht])) h1 h2 s' (fun o h => ho o (by simp [h])) h
      · cases h
  cases torn
  · refine ⟨bafter false blockOps, 0, 1, bafter_reach (by decide +kernel), ⟨⟨.publish (batch 0), false, []⟩, batch 0,
      by decide +kernel, rfl⟩, by decide +kernel, ?_⟩
    exact key _ (bafter_reach (by decide +kernel)) (by decide +kernel) (by decide +kernel)
  · let ops : List BOp := [.join, .recv 0 true, .recv 0 true, .recv 0 true, .call, .cast 0, .cast 0, .cast 0, .cast 0,
      .cast 0, .cast 0, .recv 0 true, .recv 0 true, .recv 0 true, .recv 0 true, .call]
    refine ⟨bafter true ops, 0, 1, bafter_reach (by decide +kernel), ⟨⟨.publish (batch 0), false, []⟩, batch 0,
      by decide +kernel, rfl⟩, by decide +kernel, ?_⟩
    exact key _ (bafter_reach (by decide +kernel)) (by decide +kernel) (by decide +kernel)

/-- `messages` is read without the mutex, broadcaster.go:46. If a slice is not read at once, a connection can
publish the address of one batch with the length of another: something that was never broadcast. -/
theorem c41_refuted_torn : ∃ (s : BSt) (x : Recv) (m : Slice), BReach true s ∧ s.recvs[0]? = some x ∧ m ∈ x.got ∧
    ∀ k, m ≠ batch k := by
  let ops : List BOp := [.join, .recv 0 true, .recv 0 true, .recv 0 true,
    .call, .cast 0, .cast 0, .cast 0, .cast 0, .cast 0, .cast 0,
    .recv 0 true, .recv 0 true, .call, .cast 1, .cast 1, .cast 1, .cast 1, .recv 0 true, .recv 0 true, .recv 0 true]
  refine ⟨bafter true ops, ⟨.leave true, false, [⟨some 0, some 1⟩]⟩, ⟨some 0, some 1⟩, bafter_reach (by decide +kernel),
    by decide +kernel, by simp, fun k e => ?_⟩
  simp only [batch, Slice.mk.injEq, Option.some.injEq] at e
  omega

/-- two connections get two batches, the second call is made after the first returned -/
example : ∃ (s s' : BSt) (x : Recv) (ops : List BOp), BReach false s ∧ s.casts = [.done] ∧ s.run false ops = some s' ∧
    s'.recvs[1]? = some x ∧ x.got = [batch 0, batch 1] := by
  let ops : List BOp := [.join, .join, .recv 0 true, .recv 0 true, .recv 0 true, .recv 1 true, .recv 1 true, .recv 1 true,
    .call, .cast 0, .cast 0, .cast 0, .cast 0, .cast 0]
  let get : List BOp := [.recv 1 true, .recv 1 true, .recv 1 true, .recv 1 true, .recv 1 true, .recv 1 true, .recv 1 true,
    .recv 1 true]
  let ops' : List BOp := get ++ [.call, .cast 1, .cast 1, .cast 1, .cast 1, .cast 1] ++ get
  exact ⟨bafter false ops, bafter false (ops ++ ops'), ⟨.sel 2, false, [batch 0, batch 1]⟩, ops',
    bafter_reach (by decide +kernel), by decide +kernel, by decide +kernel, by decide +kernel, rfl⟩

/-! ## C42 -/

/-- no call is going on -/
def BSt.Still (s : BSt) : Prop := ∀ (k : Nat) (pc : BPc), s.casts[k]? = some pc → pc = .done

/-- the connection `r` is open and waits for the next batch -/
def BSt.Armed (s : BSt) (r : Nat) (got : List Slice) : Prop :=
  s.recvs[r]? = some ⟨.sel s.awaiter, false, got⟩

/-- If a slice is read and written at once: between two states without a call, one call, and a connection that
waits for the next batch in both: it got that batch once and nothing else, whatever the others did. -/
theorem c42_once_partial (hr : BReach false s) (hs : s.Still) {r : Nat} {g g' : List Slice} (ha : s.Armed r g)
    {ops : List BOp} (h : s.run false ops = some s') (hlen : s'.casts.length = s.casts.length + 1) (hs' : s'.Still)
    (ha' : s'.Armed r g') : g' = g ++ [batch s.casts.length] := by
  have h0 : s.Once s.awaiter s.casts.length r g :=
    .inr ⟨_, ha, .inr ⟨fun k hk => by
        rw [List.getElem?_eq_getElem hk, hs k _ (List.getElem?_eq_getElem hk)], Nat.le_refl _, by
        simp only [Stage, List.getElem?_eq_none (Nat.le_refl _)]; simp⟩⟩
  have h1 := brun_inv (P := fun t => t.Once s.awaiter s.casts.length r g)
    (fun t op t' hr h hx => once_step hr h hx) hr h0 h
  rcases h1 with h1 | ⟨y, hy, h1⟩
  · omega
  · rw [BSt.Armed, hy] at ha'
    cases ha'
    rcases h1 with h1 | ⟨_, _, h1⟩
    · cases h1
    · have hl : s.casts.length < s'.casts.length := by omega
      have hd : s'.casts[s.casts.length]? = some .done := by
        rw [List.getElem?_eq_getElem hl, hs' _ _ (List.getElem?_eq_getElem hl)]
      simp only [Stage, hd] at h1
      obtain ⟨h2, _, ⟨h3, h4⟩ | ⟨h3, h4⟩⟩ := h1
      · rcases h4 with h4 | h4 | h4 | h4
        · exact absurd (RPc.sel.inj h4).symm h2
        · cases h4
        · cases h4
        · cases h4
      · exact h3

/-- No wake-up is lost: a connection that waits on any channel but the current one is woken by a call that goes on,
or can go on itself. -/
theorem c42_wakes_partial (hr : BReach torn s) {r ch : Nat} {x : Recv} (hx : s.recvs[r]? = some x) (hp : x.pc = .sel ch)
    (hc : ch ≠ s.awaiter) : s.chs[ch]? = some true ∨ ∃ k : Nat, s.casts[k]? = some (.close ch) := by
  have h := breach_chans hr
  have hl := h.held r x ch hx (by rw [hp]; rfl)
  have he := List.getElem?_eq_getElem hl
  cases hb : s.chs[ch] with
  | true => exact .inl (by rw [he, hb])
  | false => exact .inr ((h.old ch (by rw [he, hb])).resolve_left hc)

/-- A batch is lost: the second call runs between the wake-up for the first one and the next `waitUntilClosed`. The
connection was there all the time, stays open, no call is going on any more and no two calls went on at the same time:
the connection waits for the third batch and never got the second. -/
theorem c42_refuted_lost : ∃ (s s1 s2 : BSt) (ops1 ops2 : List BOp), BReach false s ∧ s.Armed 0 [] ∧ s.casts = [] ∧
    s.run false ops1 = some s1 ∧ s1.casts = [.done] ∧ s1.run false ops2 = some s2 ∧ s2.casts = [.done, .done] ∧
    s2.Still ∧ s2.Armed 0 [batch 0] := by
  let ops : List BOp := [.join, .recv 0 true, .recv 0 true, .recv 0 true]
  let ops1 : List BOp := [.call, .cast 0, .cast 0, .cast 0, .cast 0, .cast 0, .recv 0 true, .recv 0 true]
  let ops2 : List BOp := [.call, .cast 1, .cast 1, .cast 1, .cast 1, .cast 1, .recv 0 true, .recv 0 true, .recv 0 true,
    .recv 0 true, .recv 0 true, .recv 0 true]
  refine ⟨bafter false ops, bafter false (ops ++ ops1), bafter false (ops ++ ops1 ++ ops2), ops1, ops2,
    bafter_reach (by decide +kernel), by unfold BSt.Armed; decide +kernel, by decide +kernel, by decide +kernel,
    by decide +kernel, by decide +kernel, by decide +kernel, ?_, by unfold BSt.Armed; decide +kernel⟩
  intro k pc hk
  have e : (bafter false (ops ++ ops1 ++ ops2)).casts = [.done, .done] := by decide +kernel
  rw [e] at hk
  rcases k with _ | _ | k <;> simp at hk <;> exact hk.symm

/-- A batch is received twice: the connection reads the second batch on the wake-up for the first, and is woken for
the second then. -/
theorem c42_refuted_twice : ∃ (s s' : BSt) (ops : List BOp), BReach false s ∧ s.Armed 0 [] ∧ s.Still ∧
    s.run false ops = some s' ∧ s'.casts = [.done, .done] ∧ s'.Armed 0 [batch 1, batch 1] := by
  let ops : List BOp := [.join, .recv 0 true, .recv 0 true, .recv 0 true]
  let ops' : List BOp := [.call, .cast 0, .cast 0, .cast 0, .cast 0, .cast 0, .call, .cast 1, .cast 1, .cast 1,
    .recv 0 true, .recv 0 true, .recv 0 true, .recv 0 true, .recv 0 true, .recv 0 true, .recv 0 true, .recv 0 true,
    .cast 1, .cast 1, .recv 0 true, .recv 0 true, .recv 0 true, .recv 0 true, .recv 0 true, .recv 0 true, .recv 0 true,
    .recv 0 true]
  refine ⟨bafter false ops, bafter false (ops ++ ops'), ops',
    bafter_reach (by decide +kernel), by unfold BSt.Armed; decide +kernel, ?_, by decide +kernel,
    by decide +kernel, by unfold BSt.Armed; decide +kernel⟩
  intro k pc hk
  have e : (bafter false ops).casts = [] := by decide +kernel
  rw [e] at hk
  cases hk

/-- one call that a connection waits for while another one only comes -/
example : ∃ (s s' : BSt) (ops : List BOp), BReach false s ∧ s.Still ∧ s.Armed 0 [] ∧ s.run false ops = some s' ∧
    s'.casts = [.done] ∧ s'.recvs.length = 2 ∧ s'.Armed 0 [batch 0] := by
  let ops : List BOp := [.join, .recv 0 true, .recv 0 true, .recv 0 true]
  let ops' : List BOp := [.call, .cast 0, .join, .cast 0, .cast 0, .recv 1 true, .cast 0, .recv 1 true, .cast 0,
    .recv 0 true, .recv 1 true, .recv 0 true, .recv 0 true, .recv 0 true, .recv 0 true, .recv 0 true, .recv 0 true,
    .recv 0 true]
  refine ⟨bafter false ops, bafter false (ops ++ ops'), ops',
    bafter_reach (by decide +kernel), ?_, by unfold BSt.Armed; decide +kernel, by decide +kernel,
    by decide +kernel, by decide +kernel, by unfold BSt.Armed; decide +kernel⟩
  intro k pc hk
  have e : (bafter false ops).casts = [] := by decide +kernel
  rw [e] at hk
  cases hk

end Neffos
