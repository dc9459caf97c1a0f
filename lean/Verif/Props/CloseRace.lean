import Verif.Proofs.CloseRaceEnd
/-!
# C57, C22, C23, C21: Close among goroutines that change membership

The machine is `Model/CloseRace.lean`; the sequential theorems about Close are in `Props/Lifecycle.lean`.
-/
set_option autoImplicit false
namespace Neffos
open Spec

variable {s s' : RSt} {i j c : Nat} {t : RThr}

/-- what everybody did, in order -/
def RSt.did (s : RSt) : List REv := s.log.map (·.2)

/-- the state after these steps -/
def raceAt (ops : List ROp) : RSt := (({} : RSt).run ops).getD {}

theorem run_rReach {ops : List ROp} (h : RReach s) (hr : s.run ops = some s') : RReach s' := by
  induction ops generalizing s with
  | nil => simp [RSt.run] at hr; exact hr ▸ h
  | cons op ops ih =>
    simp only [RSt.run] at hr
    split at hr
    · rename_i s1 hs; exact ih (.step h hs) hr
    · cases hr

theorem raceAt_reach {ops : List ROp} (h : (({} : RSt).run ops).isSome = true) : RReach (raceAt ops) := by
  obtain ⟨x, hx⟩ := Option.isSome_iff_exists.mp h
  rw [raceAt, hx]
  exact run_rReach .init hx

/-- goroutine `i` makes `n` steps -/
def goes (i n : Nat) : List ROp := List.replicate n (.go i 0)

/-- namespace 0 gets connected by goroutine 0 -/
def connected0 : List ROp := .spawn (.connect 0) :: goes 0 4

/-- and goroutine 1 joins room 5 -/
def joined5 : List ROp := connected0 ++ .spawn (.join 0 5) :: goes 1 4

/-- and goroutines 2 and 3 call Close; 3 loses -/
def closedTwice : List ROp := joined5 ++ [.spawn .close, .spawn .close, .go 2 0, .go 3 0] ++ goes 2 14

/-! ## C57: any number of concurrent Close calls -/

/-- C57: at most one of the Close calls does anything. -/
theorem c57_one_winner (hr : RReach s) {ti tj : RThr} (hi : s.thr[i]? = some ti) (hj : s.thr[j]? = some tj)
    (ki : ti.kind = .close) (kj : tj.kind = .close) (di : didBy i s.log ≠ []) (dj : didBy j s.log ≠ []) : i = j := by
  have h := rInv_reach hr
  have key : ∀ {x : Nat} {tx : RThr}, s.thr[x]? = some tx → tx.kind = .close → didBy x s.log ≠ [] → tx.won = true := by
    intro x tx hx kx dx
    have hok := h.thr x tx hx
    obtain ⟨kind, pc, won, snap, seen⟩ := tx
    dsimp only at kx
    subst kx
    cases pc <;> simp only [ThrOk, CloseOk] at hok <;> try exact hok.1
    · exact absurd hok.2.1 dx
    · rcases hok with ⟨_, hl⟩ | hok
      · exact absurd hl dx
      · exact hok.1
  exact h.one i j ti tj hi hj (key hi ki di) (key hj kj dj)

example : ∃ (s : RSt) (t : RThr), RReach s ∧ s.thr[2]? = some t ∧ t.kind = .close ∧ didBy 2 s.log ≠ [] :=
  ⟨raceAt closedTwice, _, raceAt_reach (by decide +kernel), rfl, rfl, by decide +kernel⟩

/-- C57: a Close that returned did nothing at all, or exactly this: for each NSConn of the map that it found,
OnRoomLeave and OnRoomLeft for each of its rooms in some order, then OnNamespaceDisconnect; after all of them the
server's notification, the close channel and the socket. -/
theorem c57_exact (hr : RReach s) (ht : s.thr[i]? = some t) (hk : t.kind = .close) (hd : t.pc = .done) :
    didBy i s.log = [] ∨ ∃ body, CloseBody t.seen body ∧ (t.seen.map (·.1)).Perm (t.snap.map (·.2)) ∧
      didBy i s.log = body ++ [.notify, .closeCh, .net] := by
  have hok := (rInv_reach hr).thr i t ht
  simp only [ThrOk, CloseOk, hk, hd] at hok
  rcases hok with ⟨_, hl⟩ | ⟨_, _, h3, b, h4, h5⟩
  · exact .inl hl
  · exact .inr ⟨b, h4, h3, h5⟩

example : ∃ (s : RSt) (t : RThr), RReach s ∧ s.thr[2]? = some t ∧ t.kind = .close ∧ t.pc = .done ∧
    didBy 2 s.log = [.leave 0 5, .left 0 5, .disc 0, .notify, .closeCh, .net] ∧ t.snap = [(0, 0)] ∧
    didBy 3 s.log = [] :=
  ⟨raceAt closedTwice, _, raceAt_reach (by decide +kernel), rfl, rfl, by decide +kernel, by decide +kernel,
    by decide +kernel, by decide +kernel⟩

/-- C57: the map that a Close found is the map at the moment it took the mutex ... -/
theorem c57_found (hs : s.go i c = some s') (ht : s.thr[i]? = some t) (hp : t.pc = .lockNs) :
    ∃ t', s'.thr[i]? = some t' ∧ t'.snap = s.conn ∧ s'.nsHold = some i ∧ s'.conn = s.conn := by
  have hlen : i < s.thr.length := (List.getElem?_eq_some_iff.mp ht).1
  simp only [RSt.go, ht, hp] at hs
  split at hs <;> cases hs
  refine ⟨{ t with pc := .nsLoop, snap := s.conn }, ?_, rfl, rfl, rfl⟩
  simp [RSt.put, hlen]

example : ∃ (s s' : RSt) (t : RThr), RReach s ∧ s.go 1 0 = some s' ∧ s.thr[1]? = some t ∧ t.pc = .lockNs ∧
    s.conn = [(0, 0)] :=
  ⟨raceAt (connected0 ++ [.spawn .close, .go 1 0]), _, _, raceAt_reach (by decide +kernel), rfl, rfl,
    by decide +kernel, by decide +kernel⟩

theorem rGo_conn (hs : s.go j c = some s') (hj : s.nsHold ≠ none) (ht : s.thr[j]? = some t)
    (hc : t.crit = false) : s'.conn = s.conn := by
  simp only [RSt.go, ht] at hs
  obtain ⟨kind, pc, won, snap, seen⟩ := t
  cases pc <;> simp only at hs
  case start =>
    unfold RSt.begin at hs
    cases kind <;> simp only at hs <;> (repeat' split at hs) <;> cases hs <;> rfl
  case del n o =>
    cases kind
    case close => simp [RThr.crit] at hc
    all_goals simp [hj] at hs
  all_goals
    first
    | (cases hs; done)
    | (cases hs; rfl)
    | ((repeat' split at hs) <;> cases hs <;> first | rfl | contradiction)

/-- C57: ... and until it has fired the last OnNamespaceDisconnect nobody else changes the map: between the taking of
the mutex and its release every step of another goroutine leaves the map as it is. -/
theorem c57_undisturbed (hr : RReach s) (hh : s.nsHold = some i) (hij : j ≠ i) (hs : s.go j c = some s') :
    s'.conn = s.conn := by
  have h := rInv_reach hr
  cases ht : s.thr[j]? with
  | none => simp [RSt.go, ht] at hs
  | some t =>
    refine rGo_conn hs (by simp [hh]) ht ?_
    cases hc : t.crit
    · rfl
    · have := (h.ns j).mpr ⟨t, ht, hc⟩
      rw [hh] at this
      exact absurd (Option.some.inj this).symm hij

example : ∃ s s' : RSt, RReach s ∧ s.nsHold = some 1 ∧ s.go 2 0 = some s' ∧ s'.thr[2]?.map (·.pc) = some .joinFire :=
  ⟨raceAt (connected0 ++ [.spawn .close, .spawn (.join 0 5), .go 1 0, .go 1 0]), _, raceAt_reach (by decide +kernel),
    by decide +kernel, rfl, by decide +kernel⟩

/-- C57: a Close fires OnNamespaceDisconnect once for each NSConn that it found and for no other; for each room that
the NSConn was in when its rooms were taken, it fires OnRoomLeave and OnRoomLeft once. -/
theorem c57_each_once (hr : RReach s) (ht : s.thr[i]? = some t) (hk : t.kind = .close) (hd : t.pc = .done)
    (hn : didBy i s.log ≠ []) :
    (∀ o, (didBy i s.log).count (.disc o) = if o ∈ t.snap.map (·.2) then 1 else 0) ∧
    (∀ o r, (didBy i s.log).count (.leave o r) = (didBy i s.log).count (.left o r)) ∧
    (∀ o rs r, (o, rs) ∈ t.seen → (didBy i s.log).count (.left o r) = rs.count r) := by
  obtain he | ⟨b, h1, h2, h3⟩ := c57_exact hr ht hk hd
  · exact absurd he hn
  have hnd := rSnap_reach hr i t ht
  refine ⟨?_, ?_, ?_⟩
  · intro o
    rw [h3]
    simp only [List.count_append, closeBody_disc h1, h2.count_eq o]
    split
    · rename_i hm
      rw [hnd.count, if_pos hm]; rfl
    · rename_i hm
      rw [List.count_eq_zero_of_not_mem hm]; rfl
  · intro o r
    rw [h3]
    simp only [List.count_append, (closeBody_leave h1 o r).1, (closeBody_leave h1 o r).2]
    rfl
  · intro o rs r hm
    rw [h3]
    simp only [List.count_append, (closeBody_leave h1 o r).2]
    have hnd' : (t.seen.map (·.1)).Nodup := h2.nodup_iff.mpr hnd
    have : t.seen.filter (·.1 = o) = [(o, rs)] := by
      clear h1 h2 h3 hnd
      revert hm hnd'
      generalize t.seen = l
      intro hm hnd'
      induction l with
      | nil => cases hm
      | cons p l ih =>
        obtain ⟨a, as⟩ := p
        simp only [List.map_cons, List.nodup_cons] at hnd'
        rcases List.mem_cons.mp hm with hm | hm
        · cases hm
          have : l.filter (·.1 = o) = [] := by
            rw [List.filter_eq_nil_iff]
            intro q hq hqo
            simp only [decide_eq_true_eq] at hqo
            exact hnd'.1 (hqo ▸ List.mem_map_of_mem hq)
          simp [this]
        · have ha : ¬ a = o := by
            rintro rfl
            exact hnd'.1 (List.mem_map_of_mem (f := (·.1)) hm)
          simpa [ha] using ih hm hnd'.2
    simp [seenRooms, this]

/-- C57, C22: in every interleaving the server is told once at most, the close channel is closed once at most (a second
time would panic) and the socket is closed once at most ... -/
theorem c57_at_most_once (hr : RReach s) {e : REv} (he : e = .notify ∨ e = .closeCh ∨ e = .net) :
    s.did.count e ≤ 1 := by
  have h := rInv_reach hr
  by_cases hm : e ∈ s.did
  · obtain ⟨p, hp, rfl⟩ := List.mem_map.mp hm
    obtain ⟨w, e⟩ := p
    have hw := h.ids _ hp
    have hwt : s.thr[w]? = some s.thr[w] := List.getElem?_eq_getElem hw
    have hc := close_only h hwt he (mem_didBy.mpr hp)
    have : s.did.count e = (didBy w s.log).count e := by
      refine count_one_doer ?_
      intro q hq hqe
      obtain ⟨x, e'⟩ := q
      dsimp only at hqe
      subst hqe
      have hx := h.ids _ hq
      have hxt : s.thr[x]? = some s.thr[x] := List.getElem?_eq_getElem hx
      exact h.one _ _ _ _ hxt hwt (close_only h hxt he (mem_didBy.mpr hq)).2 hc.2
    dsimp only
    rw [this]
    exact close_last h hwt hc.1 he
  · rw [List.count_eq_zero_of_not_mem hm]; omega

/-- C57, C22: ... and exactly once when no call is under way any more and Close was called. -/
theorem c57_exactly_once (hr : RReach s) {e : REv} (he : e = .notify ∨ e = .closeCh ∨ e = .net)
    (ht : s.thr[i]? = some t) (hk : t.kind = .close) (hall : ∀ x ∈ s.thr, x.pc = .done) : s.did.count e = 1 := by
  have h := rInv_reach hr
  have hle := c57_at_most_once hr he
  have hcl : s.closed = true :=
    rClosed_reach hr i t ht hk (by rw [hall t (List.mem_of_getElem? ht)]; simp)
  obtain ⟨w, x, hw, hx⟩ := h.won.mp hcl
  have hwd := hall x (List.mem_of_getElem? hw)
  have hin : e ∈ didBy w s.log := by
    have hok := h.thr w x hw
    obtain ⟨kind, pc, won, snap, seen⟩ := x
    dsimp only at hx hwd
    subst hx hwd
    cases kind <;> simp [ThrOk, CloseOk] at hok
    obtain ⟨_, _, b, _, h5⟩ := hok
    rw [h5]
    rcases he with rfl | rfl | rfl <;> simp
  have : 0 < s.did.count e := List.count_pos_iff.mpr (List.mem_map.mpr ⟨_, mem_didBy.mp hin, rfl⟩)
  omega

example : ∃ s : RSt, RReach s ∧ (∀ x ∈ s.thr, x.pc = .done) ∧ s.thr.map (·.kind) =
    [.connect 0, .join 0 5, .close, .close] :=
  ⟨raceAt closedTwice, raceAt_reach (by decide +kernel), by decide +kernel, by decide +kernel⟩

/-- C57: nobody waits for ever: as long as a call is under way, somebody can make a step ... -/
theorem c57_progress (hr : RReach s) (ht : s.thr[i]? = some t) (hd : t.pc ≠ .done) :
    ∃ j c s', s.step (.go j c) = some s' :=
  rGo_progress (rInv_reach hr) ht hd

/-- C57: ... and the calls that were made can make a bounded number of steps together, so that every fair or unfair
schedule ends, and it ends with all calls returned. -/
theorem c57_ends (hr : RReach s) : ∃ bound, ∀ (sched : List (Nat × Nat)) (s' : RSt),
    s.run (sched.map fun p => .go p.1 p.2) = some s' →
    sched.length ≤ bound ∧ ((∀ j c, s'.step (.go j c) = none) → ∀ x ∈ s'.thr, x.pc = .done) := by
  refine ⟨s.weight, fun sched s' h => ?_⟩
  have hb := rRun_bound hr h
  refine ⟨by omega, fun hstuck x hx => ?_⟩
  apply Classical.byContradiction
  intro hnd
  obtain ⟨n, hn, rfl⟩ := List.getElem_of_mem hx
  obtain ⟨j, c, s2, h2⟩ := c57_progress hb.2 (List.getElem?_eq_getElem hn) hnd
  rw [hstuck j c] at h2
  cases h2

example : ∃ (s : RSt) (t : RThr), RReach s ∧ s.thr[1]? = some t ∧ t.pc ≠ .done ∧ s.nsHold = some 2 ∧
    s.roomHold 0 = some 1 :=
  ⟨raceAt (connected0 ++ [.spawn (.disc 0 false), .spawn .close, .go 1 0, .go 1 0, .go 2 0, .go 2 0]), _,
    raceAt_reach (by decide +kernel), rfl, by decide +kernel, by decide +kernel, by decide +kernel⟩

/-! ## What does not hold -/

/-- C22: "a second or concurrent Close has no effect" holds, but it also does not wait: a Close can return before the
connection has left anything, while the namespace is connected still. -/
theorem c22_refuted_early : ∃ (s : RSt) (t : RThr), RReach s ∧ s.thr[2]? = some t ∧ t.kind = .close ∧ t.pc = .done ∧
    s.conn = [(0, 0)] ∧ s.did = [.connect 0, .connected 0] :=
  ⟨raceAt (connected0 ++ [.spawn .close, .spawn .close, .go 1 0, .go 2 0]), _, raceAt_reach (by decide +kernel), rfl,
    by decide +kernel, by decide +kernel, by decide +kernel, by decide +kernel⟩

/-- C22, C23: a Close while a Disconnect is under way fires OnNamespaceDisconnect of the same NSConn a second time. -/
theorem c23_refuted_twice : ∃ s : RSt, RReach s ∧ (∀ x ∈ s.thr, x.pc = .done) ∧
    s.did.count (.connected 0) = 1 ∧ s.did.count (.disc 0) = 2 :=
  ⟨raceAt (connected0 ++ [.spawn (.disc 0 false), .spawn .close] ++ goes 1 3 ++ goes 2 12 ++ goes 1 2),
    raceAt_reach (by decide +kernel), by decide +kernel, by decide +kernel, by decide +kernel⟩

/-- C23: a Connect that asked before the Close took the mutex ends after it: the namespace is connected for ever, and
OnNamespaceConnected comes after everything and is never followed by OnNamespaceDisconnect. -/
theorem c23_refuted_leak : ∃ s : RSt, RReach s ∧ (∀ x ∈ s.thr, x.pc = .done) ∧ s.conn = [(0, 0)] ∧
    s.did = [.connect 0, .notify, .closeCh, .net, .connected 0] :=
  ⟨raceAt ([.spawn (.connect 0), .spawn .close] ++ goes 0 2 ++ goes 1 7 ++ goes 0 2),
    raceAt_reach (by decide +kernel), by decide +kernel, by decide +kernel, by decide +kernel⟩

/-- C21: OnNamespaceConnected can come after OnNamespaceDisconnect of the same NSConn. -/
theorem c21_refuted_late : ∃ s : RSt, RReach s ∧ (∀ x ∈ s.thr, x.pc = .done) ∧
    s.did = [.connect 0, .disc 0, .notify, .closeCh, .net, .connected 0] :=
  ⟨raceAt ([.spawn (.connect 0), .spawn .close] ++ goes 0 3 ++ goes 1 12 ++ goes 0 1),
    raceAt_reach (by decide +kernel), by decide +kernel, by decide +kernel⟩

/-- C22: a Close while a Leave is under way fires OnRoomLeft for the same room a second time, after the namespace was
disconnected. -/
theorem c22_refuted_left : ∃ s : RSt, RReach s ∧ (∀ x ∈ s.thr, x.pc = .done) ∧
    s.did = [.connect 0, .connected 0, .join 0 5, .joined 0 5, .leave 0 5, .leave 0 5, .left 0 5, .disc 0,
      .notify, .closeCh, .net, .left 0 5] :=
  ⟨raceAt (joined5 ++ [.spawn (.leave 0 5), .spawn .close] ++ goes 2 2 ++ goes 3 15 ++ goes 2 2),
    raceAt_reach (by decide +kernel), by decide +kernel, by decide +kernel⟩

/-- C23: as long as nobody disconnects the namespaces one by one, OnNamespaceDisconnect is fired at most once for each
NSConn, whatever else is under way. -/
theorem c23_once_partial (hr : RReach s) (hno : ∀ x ∈ s.thr, ∀ n srv, x.kind ≠ .disc n srv) (o : Nat) :
    s.did.count (.disc o) ≤ 1 := by
  have h := rInv_reach hr
  by_cases hm : .disc o ∈ s.did
  · obtain ⟨p, hp, he⟩ := List.mem_map.mp hm
    obtain ⟨w, e⟩ := p
    dsimp only at he
    subst he
    have hw := h.ids _ hp
    have hwt : s.thr[w]? = some s.thr[w] := List.getElem?_eq_getElem hw
    have hc := disc_only h hwt (hno _ (List.getElem_mem hw)) (mem_didBy.mpr hp)
    have : s.did.count (.disc o) = (didBy w s.log).count (.disc o) := by
      refine count_one_doer ?_
      intro q hq hqe
      obtain ⟨x, e'⟩ := q
      dsimp only at hqe
      subst hqe
      have hx := h.ids _ hq
      have hxt : s.thr[x]? = some s.thr[x] := List.getElem?_eq_getElem hx
      exact h.one _ _ _ _ hxt hwt (disc_only h hxt (hno _ (List.getElem_mem hx)) (mem_didBy.mpr hq)).2 hc.2
    rw [this]
    exact (close_disc h o hwt (rSnap_reach hr _ _ hwt) hc.1).2
  · rw [List.count_eq_zero_of_not_mem hm]; omega

example : ∃ s : RSt, RReach s ∧ (∀ x ∈ s.thr, ∀ n srv, x.kind ≠ .disc n srv) ∧ s.did.count (.disc 0) = 1 := by
  refine ⟨raceAt closedTwice, raceAt_reach (by decide +kernel), ?_, by decide +kernel⟩
  have : (raceAt closedTwice).thr.map (·.kind) = [.connect 0, .join 0 5, .close, .close] := by decide +kernel
  intro x hx n srv he
  have : x.kind ∈ (raceAt closedTwice).thr.map (·.kind) := List.mem_map_of_mem hx
  simp_all

end Neffos
